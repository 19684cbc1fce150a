import Verif.Props.Acceleration

/-!
C78 and C79: what the Thwaites methods report in the two flows with textbook answers, constant and linear edge velocity.
-/

namespace IBL
open SolveIvp Fits

/-! ### C78: constant edge velocity -/

private theorem cls_cases {c : Cls} (h : c.isThwaites = true) : c = .thwaitesLinear ∨ c = .thwaitesNonlinear := by
  cases c <;> simp_all [Cls.isThwaites]

private theorem queries {o : Obj ℝ} {m : Fits ℝ} {u du F : ℝ → ℝ} (S : ThwaitesSolution o m u du F) (t rho : ℝ) :
    o.deltaM t = .ok (Real.sqrt (F t * o.nu)) ∧ o.shapeD t = .ok (m.shapeAt (F t * du t)) ∧
    o.tauWThwaites t rho = .ok (rho * o.nu * u t * m.shearAt (F t * du t) / Real.sqrt (F t * o.nu)) := by
  have hc : o.comp 0 t = .ok (F t) := by simp [Obj.comp, Obj.state, S.sol, bind, Except.bind, pure, Except.pure]
  have hl : o.calcLambda t (F t) = .ok (F t * du t) := by simp [Obj.calcLambda, S.duE, bind, Except.bind, pure, Except.pure]
  have h1 : o.deltaM t = .ok (Real.sqrt (F t * o.nu)) := by
    rcases cls_cases S.isThwaites with h | h <;> simp [Obj.deltaM, h, hc, bind, Except.bind, pure, Except.pure]
  refine ⟨h1, ?_, by simp [Obj.tauWThwaites, hc, hl, S.uE, S.fits, h1, bind, Except.bind, pure, Except.pure]⟩
  rcases cls_cases S.isThwaites with h | h <;> simp [Obj.shapeD, h, hc, hl, S.fits, bind, Except.bind, pure, Except.pure]

/-- The growth coefficient of the square of the momentum thickness on a flat plate for wall shear `s` at `lambda = 0`: 0.45 for the linear
method, twice the shear for the nonlinear one. Blasius' exact value is 0.441. -/
noncomputable def flatGrowth (c : Cls) (s : ℝ) : ℝ := if c = .thwaitesLinear then 45/100 else 2 * s

/-- **C78**: in a flow of constant edge velocity `U > -0.001` the square of the reported momentum thickness grows linearly with the distance,
the shape factor keeps the value of the fits at `lambda = 0`, and the wall shear is `rho nu U S(0) / delta_m`, for any fits. -/
theorem flat_plate (o : Obj ℝ) (m : Fits ℝ) (F : ℝ → ℝ) (U a b : ℝ) (S : ThwaitesSolution o m (fun _ => U) (fun _ => 0) F)
    (hnu : 0 < o.nu) (hU : -(1/1000) < U) (hs : 0 ≤ m.shearAt 0) (ode : ∀ x ∈ Set.Icc a b, SatisfiesOde o F x) (h0 : 0 ≤ F a) :
    ∀ x ∈ Set.Icc a b, ∃ da d, o.deltaM a = .ok da ∧ o.deltaM x = .ok d ∧ 0 ≤ d ∧
      d ^ 2 = da ^ 2 + flatGrowth o.cls (m.shearAt 0) * o.nu * (x - a) / (U + 1/1000) ∧
      o.shapeD x = .ok (m.shapeAt 0) ∧ ∀ rho, o.tauWThwaites x rho = .ok (rho * o.nu * U * m.shearAt 0 / d) := by
  intro x hx
  have hw : 0 < U + 1/1000 := by linarith
  have hc0 : 0 ≤ flatGrowth o.cls (m.shearAt 0) := by unfold flatGrowth; split_ifs <;> linarith
  generalize hk : flatGrowth o.cls (m.shearAt 0) / (U + 1/1000) = k
  have hk0 : 0 ≤ k := by rw [← hk]; exact div_nonneg hc0 hw.le
  have hder : ∀ t ∈ Set.Icc a b, HasDerivAt F k t := fun t ht => by
    obtain ⟨r, hr, hd⟩ := ode t ht
    rcases cls_cases S.isThwaites with h | h
    · have : o.rhs t [F t] = .ok [(45/100) / (1/1000 + U)] := by
        simp [Obj.rhs, h, Obj.thwaitesRhs, Obj.calcF, Obj.calcLambda, S.uE, S.duE, bind, Except.bind, pure, Except.pure]
      rw [this] at hr
      simp only [Except.ok.injEq, List.cons.injEq, and_true] at hr
      rw [← hk, flatGrowth, if_pos h, add_comm U, hr]; exact hd
    · have : o.rhs t [F t] = .ok [m.fAt 0 / (1/1000 + U)] := by
        simp [Obj.rhs, h, Obj.thwaitesRhs, Obj.calcF, Obj.calcLambda, S.uE, S.duE, S.fits, bind, Except.bind, pure, Except.pure]
      rw [this] at hr
      simp only [Except.ok.injEq, List.cons.injEq, and_true] at hr
      have e : m.fAt 0 = 2 * m.shearAt 0 := by simp [fAt]
      rw [e] at hr
      rw [← hk, flatGrowth, if_neg (by rw [h]; decide), add_comm U, hr]; exact hd
  have hG : ∀ t ∈ Set.Icc a b, HasDerivAt (fun t => F t - k * t) 0 t := fun t ht =>
    ((hder t ht).sub ((hasDerivAt_id t).const_mul k)).congr_deriv (by ring)
  have hconst := constant_of_has_deriv_right_zero (fun t ht => (hG t ht).continuousAt.continuousWithinAt)
    (fun t ht => (hG t ⟨ht.1, ht.2.le⟩).hasDerivWithinAt) x hx
  have hF : F x = F a + k * (x - a) := by linarith
  have hFx : 0 ≤ F x := by rw [hF]; have := mul_nonneg hk0 (sub_nonneg.2 hx.1); linarith
  refine ⟨_, _, (queries S a 0).1, (queries S x 0).1, Real.sqrt_nonneg _, ?_, ?_, fun rho => ?_⟩
  · rw [Real.sq_sqrt (mul_nonneg hFx hnu.le), Real.sq_sqrt (mul_nonneg h0 hnu.le), hF, ← hk]
    ring
  · rw [(queries S x 0).2.1]; simp
  · rw [(queries S x rho).2.2]; simp

/-- **C78**, the numbers: with Spline, Cebeci-Bradshaw or Drela fits the shape factor is 2.61 and the coefficients of the wall shear and of the
growth are 0.22 and 0.44; with White's the shape factor is 2.59359375 and the shear `0.09^0.62`. -/
theorem flat_plate_values {cs : CubicSpline ℝ} (hcs : TableSplines cs) :
    (∀ m ∈ [spline cs, cebeciBradshaw, drela], m.shearAt (0:ℝ) = 22/100 ∧ m.shapeAt (0:ℝ) = 261/100) ∧
    (Fits.white : Fits ℝ).shapeAt 0 = 259359375/100000000 ∧ (Fits.white : Fits ℝ).shearAt 0 = (9/100 : ℝ) ^ (62/100 : ℝ) := by
  refine ⟨?_, ?_, ?_⟩
  · intro m hm
    simp only [List.mem_cons, List.not_mem_nil, or_false] at hm
    rcases hm with rfl | rfl | rfl
    · obtain ⟨e1, e2⟩ := spline_interpolates hcs 16 0 (220/1000) (261/100) (by decide +kernel) (by decide +kernel) (by decide +kernel)
      push_cast at e1 e2
      rw [e1, e2]; norm_num
    · rw [shearAt, shapeAt, cb_clip, max_eq_left (by norm_num), min_eq_left (by norm_num)]
      simp [cebeciBradshaw, piecewise0, real_lt, PyCmp.ge, real_le, real_lit]
    · rw [shearAt, shapeAt, drela_clip, max_eq_left (by norm_num)]
      simp [drela, real_lit]
      norm_num
  · rw [shapeAt, white_clip, max_eq_left (by norm_num)]
    simp only [Fits.white, real_pow, real_lit]
    norm_num
  · rw [shearAt, white_clip, max_eq_left (by norm_num)]
    simp only [Fits.white, real_pow, real_lit]
    norm_num

/-- Non-vacuity: speed 1, starting without a layer, nonlinear method with Drela's fits. -/
example : ∃ (o : Obj ℝ) (F : ℝ → ℝ), ThwaitesSolution o Fits.drela (fun _ => 999/1000) (fun _ => 0) F ∧ 0 < o.nu ∧
    o.cls = .thwaitesNonlinear ∧ (∀ x ∈ Set.Icc (0:ℝ) 1, SatisfiesOde o F x) ∧ F 0 = 0 ∧ F 1 = 44/100 := by
  let o : Obj ℝ := ⟨.thwaitesNonlinear, 1, ⟨some (.fn fun _ => .ok (999/1000)), some (.fn fun _ => .ok 0), none⟩, .manual 0 1 1 1 1, [],
    some fun x => [44/100 * x], some Fits.drela⟩
  obtain ⟨cs, hcs⟩ := table_splines_exist
  have hsh := (flat_plate_values hcs).1 drela (by simp)
  refine ⟨o, fun x => 44/100 * x, ⟨rfl, rfl, rfl, fun t => ?_, fun t => ?_⟩, one_pos, rfl, ?_, by norm_num, by norm_num⟩
  · simp [o, VelState.uE, VelState.rawU, callOpt, Vel.call]
  · simp [o, VelState.duE, VelState.rawDu, callOpt, Vel.call]
  · intro x hx
    refine ⟨44/100, ?_, ((hasDerivAt_id x).const_mul (44/100)).congr_deriv (by ring)⟩
    have e : (drela : Fits ℝ).fAt 0 = 44/100 := by simp only [fAt, hsh.1, real_lit]; push_cast; ring
    simp [o, Obj.rhs, Obj.thwaitesRhs, Obj.calcF, Obj.calcLambda, VelState.uE, VelState.duE, VelState.rawU, VelState.rawDu, callOpt,
      Vel.call, e, bind, Except.bind, pure, Except.pure]
    norm_num

/-! ### C79: linear edge velocity -/

/-- **C79**: the linear method in a flow with linear edge velocity `u_e = c + k x`, `k /= 0`: its lambda approaches or leaves 0.075 with the
sixth power of the ratio of the (shifted) velocities. `k > 0` is stagnation flow, `k < 0` Howarth's flow. -/
theorem linear_flow_lambda (o : Obj ℝ) (F : ℝ → ℝ) (c k a b : ℝ) (hc : o.cls = .thwaitesLinear) (huE : ∀ t, o.vel.uE t = .ok (c + k * t))
    (hduE : ∀ t, o.vel.duE t = .ok k) (hk : k ≠ 0) (hu0 : ∀ x ∈ Set.Icc a b, -(1/1000) < c + k * x)
    (hF : ∀ x ∈ Set.Icc a b, SatisfiesOde o F x) :
    ∀ x ∈ Set.Icc a b, ∃ la lx, o.calcLambda a (F a) = .ok la ∧ o.calcLambda x (F x) = .ok lx ∧
      lx = 75/1000 - (75/1000 - la) * ((c + k * a + 1/1000) / (c + k * x + 1/1000)) ^ 6 := by
  intro x hx
  have hG : ∀ t ∈ Set.Icc a b, SatisfiesOde o (fun _ => 75/1000 / k) t := fun t ht => by
    refine ⟨0, ?_, hasDerivAt_const _ _⟩
    have e : (45/100 : ℝ) - 6 * (75/1000 / k * k) = 0 := by rw [div_mul_cancel₀ _ hk]; norm_num
    simp only [Obj.rhs, hc, Obj.thwaitesRhs, Obj.calcF, Obj.calcLambda, huE, hduE, bind, Except.bind, pure, Except.pure, real_lit]
    push_cast
    rw [e, zero_div]
  have hu : ∀ t ∈ Set.Icc a b, HasDerivAt (fun t => c + k * t) ((fun _ => k) t) t := fun t _ =>
    (((hasDerivAt_id t).const_mul k).const_add c).congr_deriv (by ring)
  have h := thwaites_linear_difference o (fun t => c + k * t) (fun _ => k) F (fun _ => 75/1000 / k) a b hc huE hduE hu hu0 hF hG x hx
  have hl : ∀ t, o.calcLambda t (F t) = .ok (F t * k) := fun t => by simp [Obj.calcLambda, hduE, bind, Except.bind, pure, Except.pure]
  refine ⟨_, _, hl a, hl x, ?_⟩
  generalize ((c + k * a + 1/1000) / (c + k * x + 1/1000)) ^ 6 = q at h
  have e : 75/1000 / k * k = 75/1000 := div_mul_cancel₀ _ hk
  have : F x = 75/1000 / k + (F a - 75/1000 / k) * q := by linarith
  rw [this]
  linear_combination (1 - q) * e

/-- **C79**, separation: starting attached in a linearly decelerated flow (`k < 0`) with fits whose wall shear is positive exactly above
`lambda = -0.09`, a `solve` of the linear method that follows its solution reports SEPARATED exactly if one of the accepted points is so far
downstream that `((u_e(x0) + 0.001) / (u_e(x) + 0.001))^6 >= 0.165 / (0.075 - lambda(x0))`. -/
theorem linear_flow_separation (o : Obj ℝ) (m : Fits ℝ) (F : ℝ → ℝ) (c k x0 x1 : ℝ) (stepper : Stepper ℝ) (root : RootFinder ℝ)
    (p : IvpProblem ℝ) (r : IntegrationResult ℝ) (H : ThwaitesExact o m (fun t => c + k * t) (fun _ => k) F x0 x1 stepper root p r)
    (hc : o.cls = .thwaitesLinear) (hx : x0 ≤ x1) (hk : k < 0) (hm : ∀ lam, 0 < m.shearAt lam ↔ -9/100 < lam) (hatt : -9/100 < F x0 * k) :
    r.status = .separated ↔ ∃ s ∈ (stepper p).steps,
      165/1000 / (75/1000 - F x0 * k) ≤ ((c + k * x0 + 1/1000) / (c + k * s.t + 1/1000)) ^ 6 := by
  have hv : ∀ t, o.eventValue (.sepThwaites m) t [F t] = .ok (m.shearAt (F t * k)) := fun t =>
    (separation_event_value o m t (F t) k (H.duE t)).1
  rw [separation_reported_iff H.run _ (by rw [H.start.1]; exact hv x0) ((hm _).2 hatt)]
  have hd : 0 < 75/1000 - F x0 * k := by nlinarith [H.start.2]
  refine exists_congr fun s => and_congr_right fun hs => ?_
  obtain ⟨ht, hy⟩ := H.steps s hs
  obtain ⟨la, lx, h1, h2, h3⟩ := linear_flow_lambda o F c k x0 x1 hc H.uE H.duE hk.ne H.velocity H.ode s.t ht
  have hl : ∀ t, o.calcLambda t (F t) = .ok (F t * k) := fun t => by simp [Obj.calcLambda, H.duE, bind, Except.bind, pure, Except.pure]
  rw [hl] at h1 h2
  rw [← Except.ok.inj h1, ← Except.ok.inj h2] at h3
  rw [hy, hv, div_le_iff₀ hd]
  generalize ((c + k * x0 + 1/1000) / (c + k * s.t + 1/1000)) ^ 6 = q at h3
  constructor
  · rintro ⟨v, hv, hle⟩
    rw [← Except.ok.inj hv, ← not_lt, hm, not_lt] at hle
    nlinarith
  · intro hq
    refine ⟨_, rfl, ?_⟩
    rw [← not_lt, hm, not_lt]
    nlinarith

/-- White's and the Spline fits are such fits. -/
theorem linear_flow_fits {cs : CubicSpline ℝ} (hcs : TableSplines cs) (lam : ℝ) :
    (0 < (spline cs).shearAt lam ↔ -9/100 < lam) ∧ (0 < (Fits.white : Fits ℝ).shearAt lam ↔ -9/100 < lam) := by
  refine ⟨spline_shear_pos_iff hcs lam, ?_⟩
  rw [shearAt, white_clip]
  simp only [Fits.white, real_pow, real_lit]
  constructor
  · intro h
    by_contra hn
    rw [max_eq_right (not_lt.1 hn)] at h
    norm_num [Real.zero_rpow] at h
  · intro h
    rw [max_eq_left h.le]
    exact Real.rpow_pos_of_pos (by push_cast; linarith) _

/-- A flow of Howarth's kind, `u_e = 0.999 - k x` with the momentum thickness 1/2. -/
private noncomputable def how (k : ℝ) (m : Fits ℝ) : Obj ℝ where
  cls := .thwaitesLinear
  nu := 1
  vel := ⟨some (.fn fun x => .ok (999/1000 + -k * x)), some (.fn fun _ => .ok (-k)), none⟩
  ic := .manual 0 1 0 (1/2) 0
  events := [.sepThwaites m]
  sol := none
  fits := some m

private theorem how_prepare (k : ℝ) (m : Fits ℝ) : ∃ o' p, (how k m).prepare 0 1 .none = (o', .ok p) ∧ p.y0 = [1/4] ∧ p.x0 = 0 ∧
    p.events = [.sepThwaites m] := by
  simp [how, Obj.prepare, IC.setNu, VelState.duE, VelState.rawDu, callOpt, Vel.call, IC.setDu, Obj.startVector, IC.deltaM, pyDiv, bind,
    Except.bind, pure, Except.pure, TermArg.toList]
  norm_num
  exact ⟨_, _, ⟨rfl, rfl⟩, rfl, rfl, rfl⟩

private theorem how_du (k : ℝ) (m : Fits ℝ) (x : ℝ) : (how k m).vel.duE x = .ok (-k) := by
  simp [how, VelState.duE, VelState.rawDu, callOpt, Vel.call]
private theorem how_u (k : ℝ) (m : Fits ℝ) (x : ℝ) : (how k m).vel.uE x = .ok (999/1000 + -k * x) := by
  simp [how, VelState.uE, VelState.rawU, callOpt, Vel.call]

/-- Non-vacuity of C79: such a run exists, starts attached and reports separation. -/
theorem linear_flow_run_at (k : ℝ) (hk : 1/8 ≤ k) (hk' : k ≤ 3/10) (m : Fits ℝ) (hm : ∀ lam, 0 < m.shearAt lam ↔ -9/100 < lam) :
    ∃ (o : Obj ℝ) (F : ℝ → ℝ) (stepper : Stepper ℝ) (root : RootFinder ℝ) (p : IvpProblem ℝ) (r : IntegrationResult ℝ),
      ThwaitesExact o m (fun t => 999/1000 + -k * t) (fun _ => -k) F 0 1 stepper root p r ∧ o.cls = .thwaitesLinear ∧
      -9/100 < F 0 * (-k) ∧ (∃ s ∈ (stepper p).steps, s.t = 1) ∧ r.status = .separated := by
  have hslope : ∀ x : ℝ, HasDerivAt (fun x => 999/1000 + -k * x) ((fun _ => -k) x) x := fun x =>
    (((hasDerivAt_id x).const_mul (-k)).const_add (999/1000)).congr_deriv (by ring)
  have hvel : ∀ x ∈ Set.Icc (0:ℝ) 1, -(1/1000 : ℝ) < 999/1000 + -k * x := fun x hx => by nlinarith [hx.1, hx.2]
  obtain ⟨F, hF0, hode, -⟩ := thwaites_linear_exists (how k m) (fun x => 999/1000 + -k * x) (fun _ => -k) 0 1 (1/4) rfl (how_u k m)
    (how_du k m) hslope hvel zero_le_one
  have hval : ∀ x y, (how k m).eventValue (.sepThwaites m) x [y] = .ok (m.shearAt (y * (-k))) := fun x y =>
    (separation_event_value (how k m) m x y (-k) (how_du k m x)).1
  obtain ⟨root, -, htot⟩ := bracketRoot_exists
  obtain ⟨o', p, hp, hy, hx, he⟩ := how_prepare k m
  obtain ⟨r, hr⟩ := solve_total (how k m).eventValue (SepWit.one fun t => [F t]) root hp htot
    (by rw [he, hy, hx]; intro e h; simp only [List.mem_singleton] at h; subst h; exact ⟨_, hval 0 _⟩)
    (by
      rw [he]; intro s hs e h
      simp only [SepWit.one, List.mem_singleton] at h hs
      subst h; subst hs; exact ⟨_, hval 1 _⟩)
    (by intro x h; cases h)
  have hrun : SepRun (how k m) (.sepThwaites m) 0 1 (SepWit.one fun t => [F t]) root p r := by
    refine ⟨rfl, rfl, by rw [hp], hr, ?_⟩
    intro s hs
    simp only [SepWit.one, List.mem_singleton] at hs
    subst hs; exact ⟨_, hval 1 _⟩
  have hatt : -9/100 < F 0 * (-k) := by rw [hF0]; linarith
  have HE : ThwaitesExact (how k m) m (fun t => 999/1000 + -k * t) (fun _ => -k) F 0 1 (SepWit.one fun t => [F t]) root p r := by
    refine ⟨hrun, rfl, rfl, one_pos, how_u k m, how_du k m, hslope, hvel, ⟨1, fun x hx => by linarith⟩, hode,
      ⟨by rw [hy, hF0], by rw [hF0]; norm_num⟩, fun s hs => ?_⟩
    simp only [SepWit.one, List.mem_singleton] at hs
    subst hs
    exact ⟨⟨zero_le_one, le_refl _⟩, rfl⟩
  refine ⟨how k m, F, _, root, p, r, HE, rfl, hatt, ⟨_, List.mem_singleton.2 rfl, rfl⟩, ?_⟩
  rw [linear_flow_separation (how k m) m F _ _ 0 1 _ root p r HE rfl zero_le_one (by linarith) hm hatt]
  refine ⟨⟨1, [F 1], fun t => [F t]⟩, by simp [SepWit.one], ?_⟩
  rw [hF0]
  have h1 : (999/1000 + -k * 0 + 1/1000) / (999/1000 + -k * 1 + 1/1000) = 1 / (1 - k) := by
    congr 1 <;> ring
  have h2 : (8/7 : ℝ) ≤ 1 / (1 - k) := by
    rw [le_div_iff₀ (by linarith)]; linarith
  have h3 : (8/7 : ℝ) ^ 6 ≤ (1 / (1 - k)) ^ 6 := pow_le_pow_left₀ (by norm_num) h2 6
  have h4 : (165/1000 : ℝ) / (75/1000 - 1/4 * -k) ≤ (8/7 : ℝ) ^ 6 := by
    rw [div_le_iff₀ (by linarith)]; norm_num; linarith
  rw [h1]
  exact h4.trans h3

/-- Howarth's flow `u_e = 0.999 - x/8`. -/
theorem linear_flow_run (m : Fits ℝ) (hm : ∀ lam, 0 < m.shearAt lam ↔ -9/100 < lam) :
    ∃ (o : Obj ℝ) (F : ℝ → ℝ) (stepper : Stepper ℝ) (root : RootFinder ℝ) (p : IvpProblem ℝ) (r : IntegrationResult ℝ),
      ThwaitesExact o m (fun t => 999/1000 + -(1/8) * t) (fun _ => -(1/8)) F 0 1 stepper root p r ∧ o.cls = .thwaitesLinear ∧
      -9/100 < F 0 * (-(1/8)) ∧ (∃ s ∈ (stepper p).steps, s.t = 1) ∧ r.status = .separated :=
  linear_flow_run_at (1/8) le_rfl (by norm_num) m hm

end IBL
