import Mathlib.Analysis.Calculus.Deriv.Mul
import Mathlib.Analysis.Calculus.Deriv.Pow
import Mathlib.Analysis.Calculus.Deriv.MeanValue
import Mathlib.Analysis.SpecialFunctions.Sqrt
import Verif.Lemmas.Flt
import Verif.Model.Method
import Verif.Props.Fits

/-!
C16, C17, C18 and C30: what the reported quantities of a Thwaites object satisfy along a solution of its own differential equation.
-/

namespace IBL

/-- A Thwaites object holding a solution `F` (the square of the momentum thickness over the viscosity) for the edge velocity `u`. -/
structure ThwaitesSolution (o : Obj ℝ) (m : Fits ℝ) (u du F : ℝ → ℝ) : Prop where
  isThwaites : o.cls.isThwaites = true
  fits : o.fits = some m
  sol : o.sol = some fun t => [F t]
  uE : ∀ t, o.vel.uE t = .ok (u t)
  duE : ∀ t, o.vel.duE t = .ok (du t)

/-- The solution satisfies the function handed to the integrator at `x`. -/
def SatisfiesOde (o : Obj ℝ) (F : ℝ → ℝ) (x : ℝ) : Prop := ∃ r, o.rhs x [F x] = .ok [r] ∧ HasDerivAt F r x

private theorem cls_cases {c : Cls} (h : c.isThwaites = true) : c = .thwaitesLinear ∨ c = .thwaitesNonlinear := by
  cases c <;> simp_all [Cls.isThwaites]

private theorem queries {o : Obj ℝ} {m : Fits ℝ} {u du F : ℝ → ℝ} (S : ThwaitesSolution o m u du F) (t : ℝ) :
    o.deltaM t = .ok (Real.sqrt (F t * o.nu)) ∧ o.shapeD t = .ok (m.shapeAt (F t * du t)) ∧
    o.deltaD t = .ok (Real.sqrt (F t * o.nu) * m.shapeAt (F t * du t)) := by
  have hc : o.comp 0 t = .ok (F t) := by
    simp [Obj.comp, Obj.state, S.sol, bind, Except.bind, pure, Except.pure]
  have hl : o.calcLambda t (F t) = .ok (F t * du t) := by
    simp [Obj.calcLambda, S.duE, bind, Except.bind, pure, Except.pure]
  have h1 : o.deltaM t = .ok (Real.sqrt (F t * o.nu)) := by
    rcases cls_cases S.isThwaites with h | h <;>
    simp [Obj.deltaM, h, hc, bind, Except.bind, pure, Except.pure]
  have h2 : o.shapeD t = .ok (m.shapeAt (F t * du t)) := by
    rcases cls_cases S.isThwaites with h | h <;>
    simp [Obj.shapeD, h, hc, hl, S.fits, bind, Except.bind, pure, Except.pure]
  exact ⟨h1, h2, by simp [Obj.deltaD, h1, h2, bind, Except.bind, pure, Except.pure]⟩

private theorem tau_eq {o : Obj ℝ} {m : Fits ℝ} {u du F : ℝ → ℝ} (S : ThwaitesSolution o m u du F) (t rho : ℝ) :
    o.tauWThwaites t rho = .ok (rho * o.nu * u t * m.shearAt (F t * du t) / Real.sqrt (F t * o.nu)) := by
  simp [Obj.tauWThwaites, Obj.comp, Obj.state, Obj.calcLambda, S.sol, S.uE, S.duE, S.fits, (queries S t).1, bind, Except.bind, pure,
    Except.pure]

private theorem rhs_nonlinear {o : Obj ℝ} {m : Fits ℝ} {u du F : ℝ → ℝ} (S : ThwaitesSolution o m u du F)
    (hn : o.cls = .thwaitesNonlinear) (t : ℝ) :
    o.rhs t [F t] = .ok [m.fAt (F t * du t) / (1/1000 + u t)] := by
  simp [Obj.rhs, hn, Obj.thwaitesRhs, Obj.calcF, Obj.calcLambda, S.uE, S.duE, S.fits, bind, Except.bind, pure, Except.pure]

private theorem rhs_linear {o : Obj ℝ} {m : Fits ℝ} {u du F : ℝ → ℝ} (S : ThwaitesSolution o m u du F)
    (hn : o.cls = .thwaitesLinear) (t : ℝ) :
    o.rhs t [F t] = .ok [(45/100 - 6 * (F t * du t)) / (1/1000 + u t)] := by
  simp [Obj.rhs, hn, Obj.thwaitesRhs, Obj.calcF, Obj.calcLambda, S.uE, S.duE, bind, Except.bind, pure, Except.pure]

/-- The momentum thickness of a solution with slope `r`. -/
private theorem deltaM_deriv {F : ℝ → ℝ} {nu r x : ℝ} (h : HasDerivAt F r x) (hp : 0 < F x * nu) :
    HasDerivAt (fun t => Real.sqrt (F t * nu)) (nu * r / (2 * Real.sqrt (F x * nu))) x :=
  ((h.mul_const nu).sqrt hp.ne').congr_deriv (by ring)

/-! ### C16 -/

/-- **C16**, the identity behind the method: if the solution variable satisfied the equation with `u_e` in the denominator, the reported
quantities would satisfy the momentum integral `rho d(u_e^2 delta_m)/dx + rho delta_d u_e du_e/dx = tau_w`. -/
theorem thwaites_momentum_exact_rhs (o : Obj ℝ) (m : Fits ℝ) (u du F : ℝ → ℝ) (x rho : ℝ) (S : ThwaitesSolution o m u du F)
    (hu : HasDerivAt u (du x) x) (hu0 : u x ≠ 0) (hF : 0 < F x) (hnu : 0 < o.nu)
    (ode : HasDerivAt F (m.fAt (F x * du x) / u x) x) :
    ∃ (dm : ℝ → ℝ) (dd tau : ℝ), (∀ t, o.deltaM t = .ok (dm t)) ∧ o.deltaD x = .ok dd ∧ o.tauWThwaites x rho = .ok tau ∧
      HasDerivAt (fun t => rho * (u t ^ 2 * dm t)) (tau - rho * dd * u x * du x) x := by
  refine ⟨_, _, _, fun t => (queries S t).1, (queries S x).2.2, tau_eq S x rho, ?_⟩
  have hp : 0 < F x * o.nu := mul_pos hF hnu
  have hd := deltaM_deriv ode hp
  have hs : 0 < Real.sqrt (F x * o.nu) := Real.sqrt_pos.2 hp
  have hq : Real.sqrt (F x * o.nu) ^ 2 = F x * o.nu := Real.sq_sqrt hp.le
  refine (((hu.pow 2).mul hd).const_mul rho).congr_deriv ?_
  simp only [Fits.fAt, real_lit]
  push_cast
  generalize Real.sqrt (F x * o.nu) = d at hs hq
  generalize m.shearAt (F x * du x) = sh
  generalize m.shapeAt (F x * du x) = H
  have hd0 := hs.ne'
  have hFe : F x = d ^ 2 / o.nu := by rw [hq]; field_simp
  simp only [Pi.pow_apply]
  rw [hFe]
  field_simp
  ring

/-- **C16** for the equation that is actually solved, which divides by `0.001 + u_e`: the momentum integral holds up to exactly
`-rho * 0.001 * u_e * d(delta_m)/dx`. -/
theorem thwaites_momentum_defect (o : Obj ℝ) (m : Fits ℝ) (u du F : ℝ → ℝ) (x rho : ℝ) (S : ThwaitesSolution o m u du F)
    (hn : o.cls = .thwaitesNonlinear)
    (hu : HasDerivAt u (du x) x) (hu0 : -(1/1000) < u x) (hF : 0 < F x) (hnu : 0 < o.nu) (ode : SatisfiesOde o F x) :
    ∃ (dm : ℝ → ℝ) (dd tau dmp : ℝ), (∀ t, o.deltaM t = .ok (dm t)) ∧ o.deltaD x = .ok dd ∧ o.tauWThwaites x rho = .ok tau ∧
      HasDerivAt dm dmp x ∧
      HasDerivAt (fun t => rho * (u t ^ 2 * dm t)) (tau - rho * dd * u x * du x - rho * (1/1000) * u x * dmp) x := by
  obtain ⟨r, hr, ode⟩ := ode
  rw [rhs_nonlinear S hn] at hr
  simp only [Except.ok.injEq, List.cons.injEq, and_true] at hr
  have hp : 0 < F x * o.nu := mul_pos hF hnu
  have hd := deltaM_deriv ode hp
  refine ⟨_, _, _, _, fun t => (queries S t).1, (queries S x).2.2, tau_eq S x rho, hd, ?_⟩
  have hs : 0 < Real.sqrt (F x * o.nu) := Real.sqrt_pos.2 hp
  have hq : Real.sqrt (F x * o.nu) ^ 2 = F x * o.nu := Real.sq_sqrt hp.le
  refine (((hu.pow 2).mul hd).const_mul rho).congr_deriv ?_
  have hu1 : 1/1000 + u x ≠ 0 := by linarith
  have hr' : (1/1000 + u x) * r = m.fAt (F x * du x) := by rw [← hr, mul_div_cancel₀ _ hu1]
  simp only [Fits.fAt, real_lit] at hr'
  push_cast at hr'
  generalize Real.sqrt (F x * o.nu) = d at hs hq
  generalize m.shearAt (F x * du x) = sh at hr'
  generalize m.shapeAt (F x * du x) = H at hr'
  have hd0 := hs.ne'
  have hFe : F x = d ^ 2 / o.nu := by rw [hq]; field_simp
  have hsh : sh = (1/1000 + u x) * r / 2 + d ^ 2 / o.nu * du x * (H + 2) := by rw [← hFe]; linarith
  have hnu0 := hnu.ne'
  simp only [Pi.pow_apply]
  rw [hsh]
  field_simp
  ring

/-! ### C17 -/

/-- **C17**: for both Thwaites classes the reported transpiration velocity is `d(u_e delta_d)/dx` of the reported `delta_d`, wherever the
shape factor derivative of the fit is its derivative. -/
theorem thwaites_transpiration (o : Obj ℝ) (m : Fits ℝ) (u du d2u F : ℝ → ℝ) (x : ℝ) (S : ThwaitesSolution o m u du F)
    (hd2 : ∀ t, o.vel.d2uE t = .ok (d2u t))
    (hu : HasDerivAt u (du x) x) (hdu : HasDerivAt du (d2u x) x) (hF : 0 < F x) (hnu : 0 < o.nu) (ode : SatisfiesOde o F x)
    (hshape : HasDerivAt m.shapeAt (m.shapePAt (F x * du x)) (F x * du x)) :
    ∃ (v : ℝ) (dd : ℝ → ℝ), o.vE x = .ok v ∧ (∀ t, o.deltaD t = .ok (dd t)) ∧ HasDerivAt (fun t => u t * dd t) v x := by
  obtain ⟨r, hr, ode⟩ := ode
  have hrhs : o.thwaitesRhs x (F x) = .ok r := by
    rcases cls_cases S.isThwaites with h | h
    · rw [rhs_linear S h] at hr
      simp only [Except.ok.injEq, List.cons.injEq, and_true] at hr
      rw [← hr]
      simp [Obj.thwaitesRhs, h, Obj.calcF, Obj.calcLambda, S.uE, S.duE, bind, Except.bind, pure, Except.pure]
    · rw [rhs_nonlinear S h] at hr
      simp only [Except.ok.injEq, List.cons.injEq, and_true] at hr
      rw [← hr]
      simp [Obj.thwaitesRhs, h, Obj.calcF, Obj.calcLambda, S.uE, S.duE, S.fits, bind, Except.bind, pure, Except.pure]
  have hc : o.comp 0 x = .ok (F x) := by
    simp [Obj.comp, Obj.state, S.sol, bind, Except.bind, pure, Except.pure]
  have hl : o.calcLambda x (F x) = .ok (F x * du x) := by
    simp [Obj.calcLambda, S.duE, bind, Except.bind, pure, Except.pure]
  have hv : o.vE x = .ok (du x * (Real.sqrt (F x * o.nu) * m.shapeAt (F x * du x)) + Real.sqrt (o.nu / F x) *
      (1/2 * u x * m.shapeAt (F x * du x) * r + u x * F x * m.shapePAt (F x * du x) * (du x * r + d2u x * F x))) := by
    have : o.vE x = o.vEThwaites x := by
      rcases cls_cases S.isThwaites with h | h <;> simp [Obj.vE, h]
    rw [this]
    simp [Obj.vEThwaites, hc, hl, hrhs, S.uE, S.duE, S.fits, hd2, (queries S x).2.1, (queries S x).2.2, bind, Except.bind, pure,
      Except.pure]
  refine ⟨_, _, hv, fun t => (queries S t).2.2, ?_⟩
  have hp : 0 < F x * o.nu := mul_pos hF hnu
  have hd := deltaM_deriv ode hp
  have hlam : HasDerivAt (fun t => F t * du t) (r * du x + F x * d2u x) x := ode.mul hdu
  have hH : HasDerivAt (fun t => m.shapeAt (F t * du t)) (m.shapePAt (F x * du x) * (r * du x + F x * d2u x)) x :=
    HasDerivAt.comp (h₂ := m.shapeAt) x hshape hlam
  refine (hu.mul (hd.mul hH)).congr_deriv ?_
  have hs : 0 < Real.sqrt (F x * o.nu) := Real.sqrt_pos.2 hp
  have hq : Real.sqrt (F x * o.nu) ^ 2 = F x * o.nu := Real.sq_sqrt hp.le
  have hsq : Real.sqrt (o.nu / F x) = Real.sqrt (F x * o.nu) / F x := by
    have e : o.nu / F x = F x * o.nu / (F x) ^ 2 := by field_simp
    rw [e, Real.sqrt_div hp.le, Real.sqrt_sq hF.le]
  rw [hsq]
  simp only [Pi.mul_apply]
  generalize Real.sqrt (F x * o.nu) = d at hs hq
  generalize m.shapeAt (F x * du x) = H
  generalize m.shapePAt (F x * du x) = Hp
  have hd0 := hs.ne'
  have hF0 := hF.ne'
  have hnue : o.nu = d ^ 2 / F x := by rw [hq]; field_simp
  rw [hnue]
  field_simp

/-- **C17** for the built-in closed form fits: it is enough that lambda is inside the range of the fit (and not at the jump of
Cebeci-Bradshaw's). -/
theorem thwaites_transpiration_builtin (o : Obj ℝ) (m : Fits ℝ) (u du d2u F : ℝ → ℝ) (x : ℝ) (S : ThwaitesSolution o m u du F)
    (hd2 : ∀ t, o.vel.d2uE t = .ok (d2u t))
    (hu : HasDerivAt u (du x) x) (hdu : HasDerivAt du (d2u x) x) (hF : 0 < F x) (hnu : 0 < o.nu) (ode : SatisfiesOde o F x)
    (hm : (m = Fits.white ∧ -9/100 < F x * du x) ∨ (m = Fits.drela ∧ -9/100 < F x * du x) ∨
      (m = Fits.cebeciBradshaw ∧ -1/10 < F x * du x ∧ F x * du x < 1/10 ∧ F x * du x ≠ 0)) :
    ∃ (v : ℝ) (dd : ℝ → ℝ), o.vE x = .ok v ∧ (∀ t, o.deltaD t = .ok (dd t)) ∧ HasDerivAt (fun t => u t * dd t) v x := by
  refine thwaites_transpiration o m u du d2u F x S hd2 hu hdu hF hnu ode ?_
  rcases hm with ⟨rfl, h⟩ | ⟨rfl, h⟩ | ⟨rfl, h1, h2, h3⟩
  · exact white_shape_p _ h
  · exact drela_shape_p _ h
  · exact cb_shape_p _ h1 h2 h3

/-- Non-vacuity of the hypotheses of C16 and C17: `u = 1` with zero slope and the straight line with the slope the nonlinear equation
asks for at 0. -/
example : ∃ (o : Obj ℝ) (u du d2u F : ℝ → ℝ), ThwaitesSolution o Fits.drela u du F ∧ o.cls = .thwaitesNonlinear ∧
    (∀ t, o.vel.d2uE t = .ok (d2u t)) ∧ HasDerivAt u (du 0) 0 ∧ HasDerivAt du (d2u 0) 0 ∧ 0 < F 0 ∧ 0 < o.nu ∧ -(1/1000) < u 0 ∧
    SatisfiesOde o F 0 ∧ -9/100 < F 0 * du 0 := by
  let r := (Fits.drela : Fits ℝ).fAt 0 / (1/1000 + 1)
  let o : Obj ℝ := ⟨.thwaitesNonlinear, 1, ⟨some (.fn fun _ => .ok 1), some (.fn fun _ => .ok 0), some (.fn fun _ => .ok 0)⟩,
    .manual 0 1 1 1 1, [], some fun t => [1 + r * t], some Fits.drela⟩
  refine ⟨o, fun _ => 1, fun _ => 0, fun _ => 0, fun t => 1 + r * t, ⟨rfl, rfl, rfl, fun t => ?_, fun t => ?_⟩, rfl, fun t => ?_,
    hasDerivAt_const _ _, hasDerivAt_const _ _, by norm_num, by norm_num [o], by norm_num, ⟨r, ?_, ?_⟩, by norm_num⟩
  · simp [o, VelState.uE, VelState.rawU, callOpt, Vel.call]
  · simp [o, VelState.duE, VelState.rawDu, callOpt, Vel.call]
  · simp [o, VelState.d2uE, VelState.rawD2u, callOpt, Vel.call]
  · simp [o, r, Obj.rhs, Obj.thwaitesRhs, Obj.calcF, Obj.calcLambda, VelState.uE, VelState.duE, VelState.rawU, VelState.rawDu, callOpt,
      Vel.call, bind, Except.bind, pure, Except.pure]
  · simpa using ((hasDerivAt_id (0:ℝ)).const_mul r).const_add 1

/-! ### C18 -/

/-- The linear method solves Thwaites' quadrature: `F (u_e + 0.001)^6` grows at the rate `0.45 (u_e + 0.001)^5`. -/
theorem thwaites_linear_quadrature (o : Obj ℝ) (m : Fits ℝ) (u du F : ℝ → ℝ) (x : ℝ) (S : ThwaitesSolution o m u du F)
    (hn : o.cls = .thwaitesLinear) (hu : HasDerivAt u (du x) x) (hu0 : u x ≠ -(1/1000)) (ode : SatisfiesOde o F x) :
    HasDerivAt (fun t => F t * (u t + 1/1000) ^ 6) (45/100 * (u x + 1/1000) ^ 5) x := by
  obtain ⟨r, hr, ode⟩ := ode
  rw [rhs_linear S hn] at hr
  simp only [Except.ok.injEq, List.cons.injEq, and_true] at hr
  have hu1 : 1/1000 + u x ≠ 0 := fun h => hu0 (by linarith)
  have hr' : (1/1000 + u x) * r = 45/100 - 6 * (F x * du x) := by rw [← hr, mul_div_cancel₀ _ hu1]
  refine (ode.mul ((hu.add_const (1/1000)).pow 6)).congr_deriv ?_
  simp only [Pi.pow_apply]
  push_cast
  have : r * (u x + 1/1000) ^ 6 = ((1/1000 + u x) * r) * (u x + 1/1000) ^ 5 := by ring
  rw [this, hr']
  ring

/-- **C18**: along any solution of the linear method that starts with a positive value, on any interval on which `u_e > -0.001`, the solution
variable stays positive, and so does the reported momentum thickness. -/
theorem thwaites_stays_positive (o : Obj ℝ) (m : Fits ℝ) (u du F : ℝ → ℝ) (a b : ℝ) (S : ThwaitesSolution o m u du F)
    (hn : o.cls = .thwaitesLinear) (hnu : 0 < o.nu)
    (hu : ∀ x ∈ Set.Icc a b, HasDerivAt u (du x) x) (hu0 : ∀ x ∈ Set.Icc a b, -(1/1000) < u x)
    (ode : ∀ x ∈ Set.Icc a b, SatisfiesOde o F x) (h0 : 0 < F a) :
    ∀ x ∈ Set.Icc a b, 0 < F x ∧ ∃ d, o.deltaM x = .ok d ∧ 0 < d ∧ d ^ 2 = F x * o.nu := by
  intro x hx
  have hG : ∀ t ∈ Set.Icc a b, HasDerivAt (fun t => F t * (u t + 1/1000) ^ 6) (45/100 * (u t + 1/1000) ^ 5) t := fun t ht =>
    thwaites_linear_quadrature o m u du F t S hn (hu t ht) (by have := hu0 t ht; linarith) (ode t ht)
  have hmono : MonotoneOn (fun t => F t * (u t + 1/1000) ^ 6) (Set.Icc a b) := by
    apply monotoneOn_of_deriv_nonneg (convex_Icc a b)
    · exact fun t ht => (hG t ht).continuousAt.continuousWithinAt
    · exact fun t ht => (hG t (interior_subset ht)).differentiableAt.differentiableWithinAt
    · intro t ht
      have ht' := interior_subset ht
      rw [(hG t ht').deriv]
      have : 0 < u t + 1/1000 := by have := hu0 t ht'; linarith
      positivity
  have ha : a ∈ Set.Icc a b := ⟨le_refl _, hx.1.trans hx.2⟩
  have h1 := hmono ha hx hx.1
  have hua : 0 < u a + 1/1000 := by have := hu0 a ha; linarith
  have hux : 0 < u x + 1/1000 := by have := hu0 x hx; linarith
  have h2 : 0 < F a * (u a + 1/1000) ^ 6 := by positivity
  have hF : 0 < F x := by
    dsimp only at h1
    exact pos_of_mul_pos_left (lt_of_lt_of_le h2 h1) (by positivity)
  have hp : 0 < F x * o.nu := mul_pos hF hnu
  exact ⟨hF, _, (queries S x).1, Real.sqrt_pos.2 hp, Real.sq_sqrt hp.le⟩

/-- Non-vacuity of the hypotheses: the accelerating flow `u = x` and the constant `F = 0.075` is a solution of the linear method. -/
example : ∃ (o : Obj ℝ) (u du F : ℝ → ℝ), ThwaitesSolution o Fits.drela u du F ∧ o.cls = .thwaitesLinear ∧
    (∀ x ∈ Set.Icc (0:ℝ) 1, HasDerivAt u (du x) x ∧ -(1/1000) < u x ∧ SatisfiesOde o F x) ∧ 0 < F 0 := by
  let o : Obj ℝ := ⟨.thwaitesLinear, 1, ⟨some (.fn fun x => .ok x), some (.fn fun _ => .ok 1), none⟩, .manual 0 1 1 1 1, [],
    some fun _ => [75/1000], some Fits.drela⟩
  refine ⟨o, fun x => x, fun _ => 1, fun _ => 75/1000, ⟨rfl, rfl, rfl, fun t => ?_, fun t => ?_⟩, rfl, ?_, by norm_num⟩
  · simp [o, VelState.uE, VelState.rawU, callOpt, Vel.call]
  · simp [o, VelState.duE, VelState.rawDu, callOpt, Vel.call]
  · intro x hx
    refine ⟨hasDerivAt_id x, by have := hx.1; linarith, 0, ?_, hasDerivAt_const _ _⟩
    simp [o, Obj.rhs, Obj.thwaitesRhs, Obj.calcF, Obj.calcLambda, VelState.uE, VelState.duE, VelState.rawU, VelState.rawDu, callOpt,
      Vel.call, bind, Except.bind, pure, Except.pure]
    left; norm_num

/-! ### C30 -/

/-- **C30**: the stagnation condition for positive viscosity and velocity slope gives positive thicknesses in the stated proportions, and
a pressure gradient parameter at which the momentum balance `lambda (H + 2) = eta_m f''(0)` holds. -/
theorem stagnation_condition (du nu : ℝ) (hdu : 0 < du) (hnu : 0 < nu) :
    ∃ dm dd dk : ℝ, (IC.stag du nu).deltaM = .ok dm ∧ (IC.stag du nu).deltaD = .ok dd ∧ (IC.stag du nu).deltaK = .ok dk ∧
      (IC.stag du nu).shapeD = .ok (22162/10000) ∧ (IC.stag du nu).shapeK = .ok (16257/10000) ∧
      0 < dm ∧ dd = 22162/10000 * dm ∧ dk = 16257/10000 * dm ∧
      dm ^ 2 / nu * du * (22162/10000 + 2) = 29235/100000 * (123259/100000) := by
  have hden : ¬ ((22162/10000 : ℝ) + 2) * du = 0 := by positivity
  have hq : 0 < nu * (29235/100000) * (123259/100000) / ((22162/10000 + 2) * du) := by positivity
  have hm : (IC.stag du nu).deltaM = .ok (Real.sqrt (nu * (29235/100000) * (123259/100000) / ((22162/10000 + 2) * du))) := by
    simp only [IC.deltaM, pyDiv, IC.stagEtaM, IC.stagFpp0, IC.stagShapeD, real_lit, real_eq]
    push_cast
    rw [if_neg hden]
    rfl
  refine ⟨_, _, _, hm, ?_, ?_, ?_, ?_, Real.sqrt_pos.2 hq, rfl, rfl, ?_⟩
  · simp only [IC.deltaD, hm, IC.stagShapeD, real_lit, bind, Except.bind, pure, Except.pure, Except.ok.injEq]
    push_cast; ring
  · simp only [IC.deltaK, hm, IC.stagShapeK, real_lit, bind, Except.bind, pure, Except.pure, Except.ok.injEq]
    push_cast; ring
  · simp only [IC.shapeD, IC.stagShapeD, real_lit]; norm_num
  · simp only [IC.shapeK, IC.stagShapeK, real_lit]; norm_num
  · rw [Real.sq_sqrt hq.le]
    field_simp

/-- **C30**: the right hand side of the nonlinear method vanishes at that state for every fit that has the stagnation values there. -/
theorem stagnation_stationary (du nu : ℝ) (hdu : 0 < du) (hnu : 0 < nu) (m : Fits ℝ) (dm : ℝ) (hm : (IC.stag du nu).deltaM = .ok dm)
    (hH : m.shapeAt (dm ^ 2 / nu * du) = 22162/10000) (hS : m.shearAt (dm ^ 2 / nu * du) = 29235/100000 * (123259/100000)) :
    m.fAt (dm ^ 2 / nu * du) = 0 := by
  obtain ⟨dm', dd, dk, h1, -, -, -, -, -, -, -, h2⟩ := stagnation_condition du nu hdu hnu
  rw [h1] at hm
  cases hm
  rw [Fits.fAt, hH, hS, ← h2]
  simp

/-- **C30**: a vanishing slope raises ZeroDivisionError, in exact reals and in extended ones. -/
theorem stagnation_zero_slope (nu : ℝ) : (IC.stag 0 nu).deltaM = .error .zeroDivision ∧
    (IC.stag (.fin 0) (.fin nu) : IC (Flt ℝ)).deltaM = .error .zeroDivision := by
  constructor
  · simp [IC.deltaM, pyDiv, bind, Except.bind]
  · simp only [IC.deltaM, pyDiv, IC.stagShapeD, Flt.lit_fin, Flt.fin_add, Flt.fin_mul, mul_zero, Flt.fin_eq, Rat.cast_zero, decide_true,
      if_true]
    rfl

/-- **C30**: a negative slope gives NaN and no error. -/
theorem stagnation_negative_slope (du nu : ℝ) (hdu : du < 0) (hnu : 0 < nu) :
    (IC.stag (.fin du) (.fin nu) : IC (Flt ℝ)).deltaM = .ok .nan := by
  have hne : (((22162/10000 : ℚ) : ℝ) + ((2:ℚ):ℝ)) * du < 0 := mul_neg_of_pos_of_neg (by norm_num) hdu
  have hq : nu * ((29235/100000 : ℚ) : ℝ) * ((123259/100000 : ℚ) : ℝ) / ((((22162/10000 : ℚ) : ℝ) + ((2:ℚ):ℝ)) * du) < 0 := by
    apply div_neg_of_pos_of_neg _ hne
    have : (0:ℝ) < ((29235/100000 : ℚ) : ℝ) := by norm_num
    have : (0:ℝ) < ((123259/100000 : ℚ) : ℝ) := by norm_num
    positivity
  have hd : ¬ ((((22162/10000 : ℚ) : ℝ) + ((2:ℚ):ℝ)) * du = ((0:ℚ):ℝ)) := by push_cast at hne ⊢; exact hne.ne
  simp only [IC.deltaM, pyDiv, IC.stagShapeD, IC.stagEtaM, IC.stagFpp0, Flt.lit_fin, Flt.fin_add, Flt.fin_mul, Flt.fin_eq,
    decide_eq_true_eq, if_neg hd, Flt.fin_div _ _ hne.ne, bind, Except.bind, pure, Except.pure]
  rw [Flt.sqrt_neg _ hq]

end IBL
