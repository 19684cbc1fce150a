import Verif.Props.HeadOde
import Verif.Props.SkinFriction
import Verif.Props.ThwaitesOde

/-!
C77: the results do not depend on the units of length and velocity.
-/

namespace IBL

/-- `o'` describes the flow of `o` in other units: `L` new units of length are one old one, `V` new units of velocity one old one. -/
structure OtherUnits (L V : ℝ) (o o' : Obj ℝ) : Prop where
  length : 0 < L
  velocity : 0 < V
  cls : o'.cls = o.cls
  fits : o'.fits = o.fits
  nu : o'.nu = L * V * o.nu
  uE : ∀ x, o'.vel.uE (L * x) = (o.vel.uE x).map (V * ·)
  duE : ∀ x, o'.vel.duE (L * x) = (o.vel.duE x).map (V / L * ·)
  d2uE : ∀ x, o'.vel.d2uE (L * x) = (o.vel.d2uE x).map (V / L ^ 2 * ·)

/-- The solution variable of Thwaites' methods, momentum thickness squared over viscosity, in other units. -/
noncomputable def inUnits (L V : ℝ) (F : ℝ → ℝ) : ℝ → ℝ := fun t => L / V * F (t / L)

/-- **C77** for Thwaites' methods: what solves the equation of an object solves, in other units, the equation in other units. -/
def ThwaitesUnits : Prop :=
  ∀ (L V : ℝ) (o o' : Obj ℝ) (u du F : ℝ → ℝ) (m : Fits ℝ) (x : ℝ), OtherUnits L V o o' → ThwaitesSolution o m u du F → 0 < u x →
    SatisfiesOde o F x → SatisfiesOde o' (inUnits L V F) (L * x)

private theorem cls_cases {c : Cls} (h : c.isThwaites = true) : c = .thwaitesLinear ∨ c = .thwaitesNonlinear := by
  cases c <;> simp_all [Cls.isThwaites]

private theorem rhs_eq {o : Obj ℝ} {m : Fits ℝ} (hc : o.cls.isThwaites = true) (hf : o.fits = some m) {x u du F : ℝ}
    (hu : o.vel.uE x = .ok u) (hd : o.vel.duE x = .ok du) :
    o.rhs x [F] = .ok [(if o.cls = .thwaitesLinear then 45/100 - 6 * (F * du) else m.fAt (F * du)) / (1/1000 + u)] := by
  rcases cls_cases hc with h | h <;>
  simp [Obj.rhs, h, Obj.thwaitesRhs, Obj.calcF, Obj.calcLambda, hu, hd, hf, bind, Except.bind, pure, Except.pure]

private theorem inUnits_deriv {L V r x : ℝ} {F : ℝ → ℝ} (hL : 0 < L) (h : HasDerivAt F r x) :
    HasDerivAt (inUnits L V F) (r / V) (L * x) := by
  have hx : L * x / L = x := by field_simp
  have h1 : HasDerivAt (fun t => t / L) (1 / L) (L * x) := (hasDerivAt_id _).div_const L
  have h2 : HasDerivAt F r (L * x / L) := by rw [hx]; exact h
  have := (h2.comp (L * x) h1).const_mul (L / V)
  refine this.congr_deriv ?_
  field_simp

/-- **C77**, what holds for Thwaites' methods: units that leave the numbers of velocities alone. Missing: a change of the unit of velocity,
for which it is false because of the 0.001 added to the velocity. -/
theorem thwaites_units_partial (L : ℝ) (o o' : Obj ℝ) (u du F : ℝ → ℝ) (m : Fits ℝ) (x : ℝ) (U : OtherUnits L 1 o o')
    (S : ThwaitesSolution o m u du F) (ode : SatisfiesOde o F x) : SatisfiesOde o' (inUnits L 1 F) (L * x) := by
  obtain ⟨r, hr, hd⟩ := ode
  have hL := U.length
  rw [rhs_eq S.isThwaites S.fits (S.uE x) (S.duE x)] at hr
  simp only [Except.ok.injEq, List.cons.injEq, and_true] at hr
  refine ⟨r / 1, ?_, inUnits_deriv hL hd⟩
  have hu : o'.vel.uE (L * x) = .ok (1 * u x) := by rw [U.uE, S.uE]; rfl
  have hd : o'.vel.duE (L * x) = .ok (1 / L * du x) := by rw [U.duE, S.duE]; rfl
  rw [rhs_eq (by rw [U.cls]; exact S.isThwaites) (by rw [U.fits]; exact S.fits) hu hd]
  have hlam : inUnits L 1 F (L * x) * (1 / L * du x) = F x * du x := by
    have hx : L * x / L = x := by field_simp
    simp only [inUnits, hx]
    field_simp
  rw [hlam, U.cls, one_mul, div_one, ← hr]

/-- **C77** is false for Thwaites' methods: halving the unit of velocity in a uniform stream. -/
theorem thwaites_units_fails : ¬ ThwaitesUnits := by
  intro H
  let vel : ℝ → VelState ℝ := fun U => ⟨some (.fn fun _ => .ok U), some (.fn fun _ => .ok 0), some (.fn fun _ => .ok 0)⟩
  let c : ℝ := 45/100 / (1/1000 + 1)
  let F : ℝ → ℝ := fun t => 1 + c * t
  let o : ℝ → ℝ → Obj ℝ := fun U nu => ⟨.thwaitesLinear, nu, vel U, .manual 0 1 1 1 1, [], some fun t => [F t], some Fits.drela⟩
  have hu : ∀ U nu t, (o U nu).vel.uE t = .ok U := fun U nu t => by simp [o, vel, VelState.uE, VelState.rawU, callOpt, Vel.call]
  have hd : ∀ U nu t, (o U nu).vel.duE t = .ok 0 := fun U nu t => by simp [o, vel, VelState.duE, VelState.rawDu, callOpt, Vel.call]
  have hd2 : ∀ U nu t, (o U nu).vel.d2uE t = .ok 0 := fun U nu t => by simp [o, vel, VelState.d2uE, VelState.rawD2u, callOpt, Vel.call]
  have S : ThwaitesSolution (o 1 1) Fits.drela (fun _ => 1) (fun _ => 0) F := ⟨rfl, rfl, rfl, hu 1 1, hd 1 1⟩
  have U : OtherUnits 1 2 (o 1 1) (o 2 2) := ⟨one_pos, two_pos, rfl, rfl, by norm_num [o], fun x => by rw [hu, hu]; simp [Except.map],
    fun x => by rw [hd, hd]; simp [Except.map], fun x => by rw [hd2, hd2]; simp [Except.map]⟩
  have hF : HasDerivAt F c 0 := by simpa [F] using ((hasDerivAt_id (0:ℝ)).const_mul c).const_add 1
  obtain ⟨r, hr, hr'⟩ := H 1 2 (o 1 1) (o 2 2) _ _ F _ 0 U S one_pos ⟨c, by
    rw [rhs_eq rfl rfl (hu 1 1 0) (hd 1 1 0)]
    simp [o, c], hF⟩
  have h1 := hr'.unique (inUnits_deriv one_pos hF)
  rw [rhs_eq rfl rfl (hu 2 2 _) (hd 2 2 _)] at hr
  simp only [Except.ok.injEq, List.cons.injEq, and_true] at hr
  rw [h1] at hr
  norm_num [o, c] at hr

/-- **C77**, the start: an initial condition in other units starts the integration from the start value in other units. -/
theorem thwaites_units_start (L V : ℝ) (o o' : Obj ℝ) (F : ℝ) (U : OtherUnits L V o o') (hc : o.cls.isThwaites = true)
    (hic : (∃ du nu a d b du' nu' a' b', o.ic = .manual du nu a d b ∧ o'.ic = .manual du' nu' a' (L * d) b') ∨
      (∃ du, 0 < o.nu ∧ 0 < du ∧ o.ic = .stag du o.nu ∧ o'.ic = .stag (V / L * du) o'.nu))
    (h : o.startVector = .ok [F]) : o'.startVector = .ok [L / V * F] := by
  have hL := U.length
  have hV := U.velocity
  have sv : ∀ p : Obj ℝ, p.cls.isThwaites = true → ∀ d, p.ic.deltaM = .ok d → p.startVector = (pyDiv (d * d) p.nu).map fun F => [F] := by
    intro p hp d hd
    rcases cls_cases hp with h | h <;>
    · simp only [Obj.startVector, h, hd, bind, Except.bind, pure, Except.pure]
      cases pyDiv (d * d) p.nu <;> rfl
  have hc' : o'.cls.isThwaites = true := by rw [U.cls]; exact hc
  have hn0 : o'.nu = 0 ↔ o.nu = 0 := by rw [U.nu]; simp [hL.ne', hV.ne']
  have fin : ∀ d d' : ℝ, o.ic.deltaM = .ok d → o'.ic.deltaM = .ok d' → d' * d' = L * d * (L * d) → o'.startVector = .ok [L / V * F] := by
    intro d d' h1 h2 h3
    rw [sv o hc d h1] at h
    rw [sv o' hc' d' h2]
    by_cases hn : o.nu = 0
    · simp [pyDiv, hn, Except.map] at h
    · have hn' : ¬ o'.nu = 0 := fun e => hn (hn0.1 e)
      simp only [pyDiv, real_eq, real_lit, Rat.cast_zero, decide_eq_true_eq, if_neg hn, if_neg hn', Except.map, Except.ok.injEq,
        List.cons.injEq, and_true] at h ⊢
      rw [← h, h3, U.nu]
      field_simp
  rcases hic with ⟨du, nu, a, d, b, du', nu', a', b', h1, h2⟩ | ⟨du, hnu, hdu, h1, h2⟩
  · exact fin d (L * d) (by rw [h1]; rfl) (by rw [h2]; rfl) rfl
  · obtain ⟨d, _, _, e1, -, -, -, -, p1, -, -, q1⟩ := stagnation_condition du o.nu hdu hnu
    obtain ⟨d', _, _, e2, -, -, -, -, p2, -, -, q2⟩ := stagnation_condition (V / L * du) o'.nu (by positivity)
      (by rw [U.nu]; positivity)
    refine fin d d' (by rw [h1]; exact e1) (by rw [h2]; exact e2) ?_
    have e : d' ^ 2 / o'.nu * (V / L * du) = d ^ 2 / o.nu * du := by
      have : (22162/10000 + 2 : ℝ) ≠ 0 := by norm_num
      exact mul_right_cancel₀ this (q2.trans q1.symm)
    rw [U.nu] at e
    field_simp at e
    nlinarith [e]

/-- **C77**, the queries and the separation criterion of Thwaites' methods: for a solution in other units, lengths are reported in other
units, shape factors and the value of the separation criterion are the same, the wall shear is in units of `rho u^2`. -/
theorem thwaites_units_queries (L V : ℝ) (o o' : Obj ℝ) (u du F : ℝ → ℝ) (m m' : Fits ℝ) (x rho : ℝ) (U : OtherUnits L V o o')
    (S : ThwaitesSolution o m u du F) (hsol : o'.sol = some fun t => [inUnits L V F t]) :
    ∃ dm dd h tau ev, o.deltaM x = .ok dm ∧ o'.deltaM (L * x) = .ok (L * dm) ∧ o.deltaD x = .ok dd ∧ o'.deltaD (L * x) = .ok (L * dd) ∧
      o.shapeD x = .ok h ∧ o'.shapeD (L * x) = .ok h ∧ o.tauWThwaites x rho = .ok tau ∧ o'.tauWThwaites (L * x) rho = .ok (V ^ 2 * tau) ∧
      o.eventValue (.sepThwaites m') x [F x] = .ok ev ∧ o'.eventValue (.sepThwaites m') (L * x) [inUnits L V F (L * x)] = .ok ev := by
  have hL := U.length
  have hV := U.velocity
  have hu : o'.vel.uE (L * x) = .ok (V * u x) := by rw [U.uE, S.uE]; rfl
  have hd : o'.vel.duE (L * x) = .ok (V / L * du x) := by rw [U.duE, S.duE]; rfl
  have hF : inUnits L V F (L * x) = L / V * F x := by
    have hx : L * x / L = x := by field_simp
    simp only [inUnits, hx]
  have hlam : L / V * F x * (V / L * du x) = F x * du x := by field_simp
  have hc : o.comp 0 x = .ok (F x) := by simp [Obj.comp, Obj.state, S.sol, bind, Except.bind, pure, Except.pure]
  have hc' : o'.comp 0 (L * x) = .ok (L / V * F x) := by
    simp [Obj.comp, Obj.state, hsol, hF, bind, Except.bind, pure, Except.pure]
  have hl : o.calcLambda x (F x) = .ok (F x * du x) := by simp [Obj.calcLambda, S.duE, bind, Except.bind, pure, Except.pure]
  have hl' : o'.calcLambda (L * x) (L / V * F x) = .ok (F x * du x) := by
    simp only [Obj.calcLambda, hd, bind, Except.bind, pure, Except.pure, hlam]
  have hT' : o'.cls.isThwaites = true := by rw [U.cls]; exact S.isThwaites
  have hf' : o'.fits = some m := by rw [U.fits]; exact S.fits
  have dm : ∀ (p : Obj ℝ) (x F : ℝ), p.cls.isThwaites = true → p.comp 0 x = .ok F → p.deltaM x = .ok (Real.sqrt (F * p.nu)) := by
    intro p x F hp hc
    rcases cls_cases hp with h | h <;> simp [Obj.deltaM, h, hc, bind, Except.bind, pure, Except.pure]
  have sd : ∀ (p : Obj ℝ) (x F lam : ℝ), p.cls.isThwaites = true → p.fits = some m → p.comp 0 x = .ok F → p.calcLambda x F = .ok lam →
      p.shapeD x = .ok (m.shapeAt lam) := by
    intro p x F lam hp hf hc hl
    rcases cls_cases hp with h | h <;> simp [Obj.shapeD, h, hc, hl, hf, bind, Except.bind, pure, Except.pure]
  have hs : Real.sqrt (L / V * F x * o'.nu) = L * Real.sqrt (F x * o.nu) := by
    rw [U.nu, show L / V * F x * (L * V * o.nu) = L ^ 2 * (F x * o.nu) by field_simp, Real.sqrt_mul (by positivity), Real.sqrt_sq hL.le]
  have h1 := dm o x _ S.isThwaites hc
  have h2 := dm o' _ _ hT' hc'
  rw [hs] at h2
  have h3 := sd o x _ _ S.isThwaites S.fits hc hl
  have h4 := sd o' _ _ _ hT' hf' hc' hl'
  refine ⟨_, Real.sqrt (F x * o.nu) * m.shapeAt (F x * du x), _,
    rho * o.nu * u x * m.shearAt (F x * du x) / Real.sqrt (F x * o.nu), m'.shearAt (F x * du x), h1, h2, ?_, ?_, h3, h4, ?_, ?_, ?_, ?_⟩
  · simp [Obj.deltaD, h1, h3, bind, Except.bind, pure, Except.pure]
  · simp only [Obj.deltaD, h2, h4, bind, Except.bind, pure, Except.pure, Except.ok.injEq]; ring
  · simp [Obj.tauWThwaites, hc, hl, S.uE, S.fits, h1, bind, Except.bind, pure, Except.pure]
  · simp only [Obj.tauWThwaites, hc', hl', hu, hf', h2, bind, Except.bind, pure, Except.pure, Except.ok.injEq]
    rw [U.nu]
    by_cases hz : Real.sqrt (F x * o.nu) = 0
    · rw [hz]; simp
    · field_simp
  · simp [Obj.eventValue, hl, bind, Except.bind, pure, Except.pure]
  · simp only [Obj.eventValue, hF, hl', bind, Except.bind, pure, Except.pure]

/-- Non-vacuity: the flow `u = 1 + x` in centimetres. -/
example : ∃ (o o' : Obj ℝ) (u du F : ℝ → ℝ) (m : Fits ℝ), OtherUnits 100 1 o o' ∧ ThwaitesSolution o m u du F ∧ SatisfiesOde o F 0 ∧
    o'.sol = some fun t => [inUnits 100 1 F t] := by
  let c : ℝ := (45/100 - 6) / (1/1000 + 1)
  let F : ℝ → ℝ := fun t => 1 + c * t
  let vel : ℝ → VelState ℝ := fun L => ⟨some (.fn fun x => .ok (1 + x / L)), some (.fn fun _ => .ok (1 / L)), some (.fn fun _ => .ok 0)⟩
  let o : ℝ → Obj ℝ := fun L => ⟨.thwaitesLinear, L, vel L, .manual 0 1 1 1 1, [], some fun t => [inUnits L 1 F t], some Fits.drela⟩
  have hu : ∀ L t, (o L).vel.uE t = .ok (1 + t / L) := fun L t => by simp [o, vel, VelState.uE, VelState.rawU, callOpt, Vel.call]
  have hd : ∀ L t, (o L).vel.duE t = .ok (1 / L) := fun L t => by simp [o, vel, VelState.duE, VelState.rawDu, callOpt, Vel.call]
  have hd2 : ∀ L t, (o L).vel.d2uE t = .ok 0 := fun L t => by simp [o, vel, VelState.d2uE, VelState.rawD2u, callOpt, Vel.call]
  have hF : HasDerivAt F c 0 := by simpa [F] using ((hasDerivAt_id (0:ℝ)).const_mul c).const_add 1
  have hsol : (o 1).sol = some fun t => [F t] := by simp [o, inUnits]
  refine ⟨o 1, o 100, fun x => 1 + x / 1, fun _ => 1 / 1, F, Fits.drela, ⟨by norm_num, by norm_num, rfl, rfl, by norm_num [o], fun x => ?_, fun x => ?_,
    fun x => ?_⟩, ⟨rfl, rfl, hsol, hu 1, hd 1⟩, ⟨c, ?_, hF⟩, rfl⟩
  · rw [hu, hu]; simp [Except.map]
  · rw [hd, hd]; simp [Except.map]
  · rw [hd2, hd2]; simp [Except.map]
  · rw [rhs_eq rfl rfl (hu 1 0) (hd 1 0)]
    simp [o, F, c]

/-! ### Head -/

/-- **C77** for Head's method. -/
def HeadUnits : Prop :=
  ∀ (L V : ℝ) (o o' : Obj ℝ) (u du dm h : ℝ → ℝ) (x : ℝ), OtherUnits L V o o' → HeadSolutionAt o u du dm h x → 0 < u x → 0 < dm x → 0 < o.nu →
    ∃ p q, o'.rhs (L * x) [L * dm x, h x] = .ok [p, q] ∧ HasDerivAt (fun t => L * dm (t / L)) p (L * x) ∧
      HasDerivAt (fun t => h (t / L)) q (L * x)

private theorem head_rhs_eq {o : Obj ℝ} (hc : o.cls = .head) {x u du d h : ℝ} (hu : o.vel.uE x = .ok u) (hd : o.vel.duE x = .ok du) :
    o.rhs x [d, h] = .ok [(Head.rates o.nu (Head.floorScalar u) du d (Head.odeClamp h)).1,
      (Head.rates o.nu (Head.floorScalar u) du d (Head.odeClamp h)).2] := by
  simp [Obj.rhs, hc, Obj.headRhs, hu, hd, bind, Except.bind, pure, Except.pure]

private theorem floor_id {u : ℝ} (h : 1/1000 ≤ u) : Head.floorScalar u = u := by
  simp only [Head.floorScalar, real_gt, real_lit]
  rw [if_neg]
  simpa using h

private theorem scaled_derivs {L p q x : ℝ} {dm h : ℝ → ℝ} (hL : 0 < L) (hp : HasDerivAt dm p x) (hq : HasDerivAt h q x) :
    HasDerivAt (fun t => L * dm (t / L)) p (L * x) ∧ HasDerivAt (fun t => h (t / L)) (q / L) (L * x) := by
  have hx : L * x / L = x := by field_simp
  have h1 : HasDerivAt (fun t => t / L) (1 / L) (L * x) := (hasDerivAt_id _).div_const L
  have h2 : HasDerivAt dm p (L * x / L) := by rw [hx]; exact hp
  have h3 : HasDerivAt h q (L * x / L) := by rw [hx]; exact hq
  exact ⟨((h2.comp (L * x) h1).const_mul L).congr_deriv (by field_simp), (h3.comp (L * x) h1).congr_deriv (by field_simp)⟩

/-- **C77**, what holds for Head's method: velocities that are at least 0.001 in both systems of units. Missing: smaller ones, for which
it is false because of the floor. -/
theorem head_units_partial (L V : ℝ) (o o' : Obj ℝ) (u du dm h : ℝ → ℝ) (x : ℝ) (U : OtherUnits L V o o') (S : HeadSolutionAt o u du dm h x)
    (h1 : 1/1000 ≤ u x) (h2 : 1/1000 ≤ V * u x) :
    ∃ p q, o'.rhs (L * x) [L * dm x, h x] = .ok [p, q] ∧ HasDerivAt (fun t => L * dm (t / L)) p (L * x) ∧
      HasDerivAt (fun t => h (t / L)) q (L * x) := by
  have hL := U.length
  have hV := U.velocity
  obtain ⟨p, q, hr, hp, hq⟩ := S.ode
  rw [head_rhs_eq S.isHead (S.uE x) (S.duE x), floor_id h1] at hr
  simp only [Except.ok.injEq, List.cons.injEq, and_true] at hr
  obtain ⟨hr1, hr2⟩ := hr
  have hu : o'.vel.uE (L * x) = .ok (V * u x) := by rw [U.uE, S.uE]; rfl
  have hd : o'.vel.duE (L * x) = .ok (V / L * du x) := by rw [U.duE, S.duE]; rfl
  refine ⟨p, q / L, ?_, (scaled_derivs hL hp hq).1, (scaled_derivs hL hp hq).2⟩
  rw [head_rhs_eq (by rw [U.cls]; exact S.isHead) hu hd, floor_id h2, U.nu]
  have hu0 : 0 < u x := by linarith
  generalize Head.odeClamp (h x) = H at hr1 hr2
  have hre : V * u x * (L * dm x) / (L * V * o.nu) = u x * dm x / o.nu := by
    by_cases hn : o.nu = 0
    · simp [hn]
    · field_simp
  have e1 : (Head.rates (L * V * o.nu) (V * u x) (V / L * du x) (L * dm x) H).1 = p := by
    rw [← hr1]
    simp only [Head.rates, hre]
    congr 1
    field_simp
  have e2 : (Head.rates (L * V * o.nu) (V * u x) (V / L * du x) (L * dm x) H).2 = q / L := by
    have e1' := e1
    rw [← hr1] at e1'
    simp only [Head.rates] at e1' hr2 ⊢
    rw [e1', ← hr2]
    by_cases hz : Head.h1p H * u x * dm x = 0
    · rw [hz, show Head.h1p H * (V * u x) * (L * dm x) = V * L * (Head.h1p H * u x * dm x) by ring, hz]; simp
    · have : Head.h1p H ≠ 0 := fun e => hz (by rw [e]; ring)
      have : dm x ≠ 0 := fun e => hz (by rw [e]; ring)
      field_simp
  rw [e1, e2]

/-- **C77** is false for Head's method: doubling the unit of velocity puts a slow flow below the floor. -/
theorem head_units_fails : ¬ HeadUnits := by
  intro H
  let vel : ℝ → VelState ℝ := fun U => ⟨some (.fn fun _ => .ok U), some (.fn fun _ => .ok 0), some (.fn fun _ => .ok 0)⟩
  let R := Head.rates (1:ℝ) (1/1000) 0 1 2
  let o : ℝ → ℝ → Obj ℝ := fun U nu => ⟨.head, nu, vel U, .manual 0 1 1 1 1, [], some fun t => [1 + R.1 * t, 2 + R.2 * t], none⟩
  have hu : ∀ U nu t, (o U nu).vel.uE t = .ok U := fun U nu t => by simp [o, vel, VelState.uE, VelState.rawU, callOpt, Vel.call]
  have hd : ∀ U nu t, (o U nu).vel.duE t = .ok 0 := fun U nu t => by simp [o, vel, VelState.duE, VelState.rawDu, callOpt, Vel.call]
  have hd2 : ∀ U nu t, (o U nu).vel.d2uE t = .ok 0 := fun U nu t => by simp [o, vel, VelState.d2uE, VelState.rawD2u, callOpt, Vel.call]
  have hlin : ∀ a b : ℝ, HasDerivAt (fun t => a + b * t) b 0 := fun a b => by simpa using ((hasDerivAt_id (0:ℝ)).const_mul b).const_add a
  have hcl : Head.odeClamp (2:ℝ) = 2 := by simp only [Head.odeClamp, real_lt, real_lit]; norm_num
  have S : HeadSolutionAt (o (1/1000) 1) (fun _ => 1/1000) (fun _ => 0) (fun t => 1 + R.1 * t) (fun t => 2 + R.2 * t) 0 := by
    refine ⟨rfl, rfl, hu _ _, hd _ _, hasDerivAt_const _ _, R.1, R.2, ?_, hlin _ _, hlin _ _⟩
    rw [head_rhs_eq rfl (hu _ _ 0) (hd _ _ 0), floor_id (le_refl _)]
    simp [hcl, R, o]
  have U : OtherUnits 1 (1/2) (o (1/1000) 1) (o (1/2000) (1/2)) := ⟨one_pos, by norm_num, rfl, rfl, by norm_num [o],
    fun x => by rw [hu, hu]; norm_num [Except.map], fun x => by rw [hd, hd]; simp [Except.map], fun x => by rw [hd2, hd2]; simp [Except.map]⟩
  obtain ⟨p, q, hr, hp, -⟩ := H 1 (1/2) _ _ _ _ _ _ 0 U S (by norm_num) (by norm_num) one_pos
  have hpR : p = R.1 := by
    have e := (scaled_derivs one_pos (hlin 1 R.1) (hlin 2 R.2)).1
    exact hp.unique e
  have hfl : Head.floorScalar (1/2000 : ℝ) = 1/1000 := by simp only [Head.floorScalar, real_gt, real_lit]; norm_num
  rw [head_rhs_eq rfl (hu _ _ _) (hd _ _ _), hfl] at hr
  simp only [Except.ok.injEq, List.cons.injEq, and_true, mul_zero, add_zero, mul_one, hcl] at hr
  have h1 : (Head.rates (1/2 : ℝ) (1/1000) 0 1 2).1 = (Head.rates (1 : ℝ) (1/1000) 0 1 2).1 := by
    have := hr.1
    simp only [o] at this
    rw [this, hpR]
  have h2 := ludwieg_tillman_anti_re (1/1000 * 1 / 1) (1/1000 * 1 / (1/2)) 2 (by norm_num) (by norm_num)
  simp only [Head.rates, real_lit] at h1
  push_cast at h1
  linarith

/-- Non-vacuity of `head_units_partial`: metres and centimetres per second, lengths in millimetres. -/
example : ∃ (o o' : Obj ℝ) (u du dm h : ℝ → ℝ), OtherUnits 1000 100 o o' ∧ HeadSolutionAt o u du dm h 0 ∧ 1/1000 ≤ u 0 ∧ 1/1000 ≤ 100 * u 0 := by
  let vel : ℝ → VelState ℝ := fun U => ⟨some (.fn fun _ => .ok U), some (.fn fun _ => .ok 0), some (.fn fun _ => .ok 0)⟩
  let R := Head.rates (1:ℝ) 1 0 1 2
  let o : ℝ → ℝ → Obj ℝ := fun U nu => ⟨.head, nu, vel U, .manual 0 1 1 1 1, [], some fun t => [1 + R.1 * t, 2 + R.2 * t], none⟩
  have hu : ∀ U nu t, (o U nu).vel.uE t = .ok U := fun U nu t => by simp [o, vel, VelState.uE, VelState.rawU, callOpt, Vel.call]
  have hd : ∀ U nu t, (o U nu).vel.duE t = .ok 0 := fun U nu t => by simp [o, vel, VelState.duE, VelState.rawDu, callOpt, Vel.call]
  have hd2 : ∀ U nu t, (o U nu).vel.d2uE t = .ok 0 := fun U nu t => by simp [o, vel, VelState.d2uE, VelState.rawD2u, callOpt, Vel.call]
  have hlin : ∀ a b : ℝ, HasDerivAt (fun t => a + b * t) b 0 := fun a b => by simpa using ((hasDerivAt_id (0:ℝ)).const_mul b).const_add a
  have hcl : Head.odeClamp (2:ℝ) = 2 := by simp only [Head.odeClamp, real_lt, real_lit]; norm_num
  refine ⟨o 1 1, o 100 100000, fun _ => 1, fun _ => 0, fun t => 1 + R.1 * t, fun t => 2 + R.2 * t,
    ⟨by norm_num, by norm_num, rfl, rfl, by norm_num [o], fun x => by rw [hu, hu]; norm_num [Except.map],
    fun x => by rw [hd, hd]; simp [Except.map], fun x => by rw [hd2, hd2]; simp [Except.map]⟩,
    ⟨rfl, rfl, hu _ _, hd _ _, hasDerivAt_const _ _, R.1, R.2, ?_, hlin _ _, hlin _ _⟩, by norm_num, by norm_num⟩
  rw [head_rhs_eq rfl (hu _ _ 0) (hd _ _ 0), floor_id (by norm_num)]
  simp [hcl, R, o]

end IBL
