import Verif.Props.Decelerated

/-!
C118: a layer in a flow that keeps being decelerated gets thick at a known rate and separates within a known distance.
-/

namespace IBL
open Fits SolveIvp

/-! ### The right hand side under adverse pressure gradients -/

private theorem f_ge_of (m : Fits ℝ) (lam : ℝ) (h : 3/16 ≤ m.shearAt lam + -lam * (m.shapeAt lam + 2)) : 3/8 ≤ m.fAt lam := by
  simp only [fAt, real_lit]
  push_cast
  linarith

private theorem white_power (a s : ℝ) (ha : 0 < a) (hs : 0 < s) (h : s ^ 50 ≤ a ^ 31) : s ≤ a ^ (62/100 : ℝ) := by
  have h1 : s ≤ (a ^ 31) ^ ((50:ℝ)⁻¹) := by
    rw [Real.le_rpow_inv_iff_of_pos hs.le (by positivity) (by norm_num)]
    exact_mod_cast h
  have h2 : (a ^ 31) ^ ((50:ℝ)⁻¹) = a ^ (62/100 : ℝ) := by
    rw [← Real.rpow_natCast, ← Real.rpow_mul ha.le]
    norm_num
  rwa [h2] at h1

private theorem f_ge_white (lam : ℝ) (h : lam ≤ 0) : 3/8 ≤ (Fits.white : Fits ℝ).fAt lam := by
  apply f_ge_of
  have hm := builtin_adverse (.inl rfl : BuiltIn Fits.white)
  have hH : 25/10 ≤ (Fits.white : Fits ℝ).shapeAt lam := by
    refine le_trans ?_ (hm lam 0 h le_rfl).2
    rw [shapeAt, white_clip]
    simp only [Fits.white, real_lit]
    norm_num
  have val : ∀ t : ℝ, -9/100 ≤ t → (Fits.white : Fits ℝ).shearAt t = (t + 9/100) ^ (62/100 : ℝ) := fun t ht => by
    rw [shearAt, white_clip, max_eq_left ht]
    simp only [Fits.white, real_pow, real_lit]
    push_cast
    rfl
  have h0 : 0 ≤ (Fits.white : Fits ℝ).shearAt lam := by
    rw [shearAt, white_clip]
    simp only [Fits.white, real_pow, real_lit]
    apply Real.rpow_nonneg
    push_cast
    linarith [le_max_right lam (-9/100)]
  rcases le_total (-16/1000) lam with h1 | h1
  · have h2 := (hm _ _ h1 h).1
    rw [val _ (by norm_num)] at h2
    have := white_power (-16/1000 + 9/100) (3/16) (by norm_num) (by norm_num) (by norm_num)
    nlinarith
  · rcases le_total (-5/100) lam with h3 | h3
    · have h2 := (hm _ _ h3 h).1
      rw [val _ (by norm_num)] at h2
      have := white_power (-5/100 + 9/100) (12/100) (by norm_num) (by norm_num) (by norm_num)
      nlinarith
    · nlinarith

private theorem f_ge_cb (lam : ℝ) (h : lam ≤ 0) : 3/8 ≤ (cebeciBradshaw : Fits ℝ).fAt lam := by
  apply f_ge_of
  rw [shearAt, shapeAt, cb_clip]
  have h1 : min (max lam (-1/10)) (1/10 : ℝ) ≤ 0 := (min_le_left _ _).trans (max_le h (by norm_num))
  have h2 : -1/10 ≤ min (max lam (-1/10)) (1/10 : ℝ) := le_min (le_max_right _ _) (by norm_num)
  have h3 : lam ≤ min (max lam (-1/10)) (1/10 : ℝ) := le_min (le_max_left _ _) (by linarith)
  generalize min (max lam (-1/10)) (1/10 : ℝ) = t at h1 h2 h3
  rcases h1.lt_or_eq with h1 | rfl
  · have ht : t < ((0:ℚ) : ℝ) := by push_cast; exact h1
    simp only [cebeciBradshaw, piecewise0, real_lt, real_lit, if_pos ht]
    push_cast
    have hd : (0:ℝ) < 107/1000 + t := by linarith
    have hq : -(18/7) * -t ≤ 18/1000 * t / (107/1000 + t) := by
      rw [le_div_iff₀ hd]; nlinarith
    have hp : (731/10000 : ℝ) / (14/100) ≤ 731/10000 / (14/100 + t) := div_le_div_of_nonneg_left (by norm_num) (by linarith) (by linarith)
    have hp' : (52/100 : ℝ) ≤ 731/10000 / (14/100) := by norm_num
    nlinarith
  · have ht : ¬ (0:ℝ) < ((0:ℚ) : ℝ) := by push_cast; exact lt_irrefl _
    have ht' : (0:ℝ) ≥ ((0:ℚ) : ℝ) := by push_cast; exact le_rfl
    simp only [cebeciBradshaw, piecewise0, real_lt, real_ge, real_lit, if_neg ht, if_pos ht']
    push_cast
    nlinarith

private theorem f_ge_drela (lam : ℝ) (h : lam ≤ 0) : 3/8 ≤ (drela : Fits ℝ).fAt lam := by
  apply f_ge_of
  have hH : 261/100 ≤ (drela : Fits ℝ).shapeAt lam := by
    refine le_trans ?_ (builtin_adverse (.inr (.inr (.inl rfl)) : BuiltIn drela) lam 0 h le_rfl).2
    rw [shapeAt, drela_clip]
    simp only [drela, real_lit]
    norm_num
  have hS : 22/100 + 4 * (max lam (-9/100)) ≤ (drela : Fits ℝ).shearAt lam := by
    rw [shearAt, drela_clip]
    have h1 : max lam (-9/100) ≤ 0 := max_le h (by norm_num)
    have h2 : -9/100 ≤ max lam (-9/100) := le_max_right _ _
    generalize max lam (-9/100) = t at h1 h2
    have hp : 0 < (t + 18/100) * (t + 18/100) := by apply mul_pos <;> linarith
    have hq : t * t / ((t + 18/100) * (t + 18/100)) ≤ -t * (100/9) := by
      rw [div_le_iff₀ hp]
      nlinarith [mul_nonneg (neg_nonneg.2 h1) (by linarith : 0 ≤ t + 9/100), mul_nonneg (mul_nonneg (neg_nonneg.2 h1) (by linarith : 0 ≤ t + 9/100)) (by linarith : 0 ≤ t + 9/100)]
    simp only [drela, real_lit]
    push_cast
    rw [mul_div_assoc]
    nlinarith [mul_nonneg (mul_self_nonneg t) (by linarith : 0 ≤ -t), mul_nonneg (neg_nonneg.2 h1) (by linarith : 0 ≤ t + 9/100)]
  have := le_max_left lam (-9/100)
  nlinarith

private theorem f_ge_spline {cs : CubicSpline ℝ} (hcs : TableSplines cs) (lam : ℝ) (h : lam ≤ 0) : 3/8 ≤ (spline cs).fAt lam := by
  apply f_ge_of
  have hm := builtin_adverse (.inr (.inr (.inr ⟨cs, hcs, rfl⟩)) : BuiltIn (spline cs))
  have hb := (spline_bounds hcs lam).2.2.1
  obtain ⟨e0, e0'⟩ := spline_interpolates hcs 16 0 (220/1000) (261/100) (by decide +kernel) (by decide +kernel) (by decide +kernel)
  obtain ⟨e1, -⟩ := spline_interpolates hcs 15 (-16/1000) (195/1000) (267/100) (by decide +kernel) (by decide +kernel) (by decide +kernel)
  obtain ⟨e2, -⟩ := spline_interpolates hcs 12 (-48/1000) (138/1000) (287/100) (by decide +kernel) (by decide +kernel) (by decide +kernel)
  push_cast at e0 e0' e1 e2
  have hH := (hm lam 0 h le_rfl).2
  rw [e0'] at hH
  rcases le_total (-16/1000) lam with h1 | h1
  · have h2 := (hm _ _ h1 h).1
    rw [e1] at h2
    nlinarith
  · rcases le_total (-48/1000) lam with h3 | h3
    · have h2 := (hm _ _ h3 h).1
      rw [e2] at h2
      nlinarith
    · nlinarith

/-- With each of the built-in fits the right hand side is at least 3/8 wherever the flow is not accelerated. -/
theorem builtin_f_ge {m : Fits ℝ} (hm : BuiltIn m) (lam : ℝ) (h : lam ≤ 0) : 3/8 ≤ m.fAt lam := by
  rcases hm with rfl | rfl | rfl | ⟨cs, hcs, rfl⟩
  · exact f_ge_white lam h
  · exact f_ge_cb lam h
  · exact f_ge_drela lam h
  · exact f_ge_spline hcs lam h

/-! ### C118 -/

section
variable {o : Obj ℝ} {m : Fits ℝ} {u du F : ℝ → ℝ} {a b : ℝ}

private theorem cls_cases {c : Cls} (h : c.isThwaites = true) : c = .thwaitesLinear ∨ c = .thwaitesNonlinear := by
  cases c <;> simp_all [Cls.isThwaites]

private theorem grow (L : DeceleratedLayer o m u du F a b) (hpos : ∀ x ∈ Set.Icc a b, 0 ≤ F x)
    (hslope : ∀ x ∈ Set.Icc a b, HasDerivAt u (du x) x) :
    ∀ x ∈ Set.Icc a b, F a + 3/8 * (x - a) / (u a + 1/1000) ≤ F x := by
  intro x hx
  have hab : a ≤ b := hx.1.trans hx.2
  have hua : 0 < u a + 1/1000 := by linarith [L.speed a ⟨le_rfl, hab⟩]
  have hanti : AntitoneOn u (Set.Icc a b) := by
    apply antitoneOn_of_deriv_nonpos (convex_Icc a b)
    · exact fun t ht => (hslope t ht).continuousAt.continuousWithinAt
    · exact fun t ht => (hslope t (interior_subset ht)).differentiableAt.differentiableWithinAt
    · intro t ht
      rw [(hslope t (interior_subset ht)).deriv]
      exact L.decelerated t (interior_subset ht)
  have hrate : ∀ t ∈ Set.Icc a b, ∃ r, HasDerivAt F r t ∧ 3/8 / (u a + 1/1000) ≤ r := fun t ht => by
    obtain ⟨r, hr, hd⟩ := L.ode t ht
    refine ⟨r, hd, ?_⟩
    have hw : 0 < 1/1000 + u t := by linarith [L.speed t ht]
    have hut : u t ≤ u a := hanti ⟨le_rfl, hab⟩ ht ht.1
    have hl : F t * du t ≤ 0 := mul_nonpos_of_nonneg_of_nonpos (hpos t ht) (L.decelerated t ht)
    have key : ∀ f : ℝ, 3/8 ≤ f → 3/8 / (u a + 1/1000) ≤ f / (1/1000 + u t) := fun f hf =>
      div_le_div₀ (by linarith) hf hw (by linarith)
    rcases cls_cases L.sol.isThwaites with h | h
    · have e : o.rhs t [F t] = .ok [(45/100 - 6 * (F t * du t)) / (1/1000 + u t)] := by
        simp [Obj.rhs, h, Obj.thwaitesRhs, Obj.calcF, Obj.calcLambda, L.sol.uE, L.sol.duE, bind, Except.bind, pure, Except.pure]
      rw [e] at hr
      simp only [Except.ok.injEq, List.cons.injEq, and_true] at hr
      rw [← hr]
      exact key _ (by linarith)
    · have e : o.rhs t [F t] = .ok [m.fAt (F t * du t) / (1/1000 + u t)] := by
        simp [Obj.rhs, h, Obj.thwaitesRhs, Obj.calcF, Obj.calcLambda, L.sol.uE, L.sol.duE, L.sol.fits, bind, Except.bind, pure, Except.pure]
      rw [e] at hr
      simp only [Except.ok.injEq, List.cons.injEq, and_true] at hr
      rw [← hr]
      rcases L.fits with hm | hm
      · rw [h] at hm; cases hm
      · exact key _ (builtin_f_ge hm _ hl)
  have hmono : MonotoneOn (fun t => F t - 3/8 / (u a + 1/1000) * t) (Set.Icc a b) := by
    have hder : ∀ t ∈ Set.Icc a b, ∃ r, HasDerivAt (fun t => F t - 3/8 / (u a + 1/1000) * t) r t ∧ 0 ≤ r := fun t ht => by
      obtain ⟨r, hd, hr⟩ := hrate t ht
      exact ⟨r - 3/8 / (u a + 1/1000) * 1, hd.sub ((hasDerivAt_id t).const_mul _), by linarith⟩
    apply monotoneOn_of_deriv_nonneg (convex_Icc a b)
    · intro t ht
      obtain ⟨r, hd, -⟩ := hder t ht
      exact hd.continuousAt.continuousWithinAt
    · intro t ht
      obtain ⟨r, hd, -⟩ := hder t (interior_subset ht)
      exact hd.differentiableAt.differentiableWithinAt
    · intro t ht
      obtain ⟨r, hd, hr⟩ := hder t (interior_subset ht)
      rwa [hd.deriv]
  have := hmono ⟨le_rfl, hab⟩ hx hx.1
  simp only at this
  have e : 3/8 * (x - a) / (u a + 1/1000) = 3/8 / (u a + 1/1000) * x - 3/8 / (u a + 1/1000) * a := by ring
  linarith

private theorem thick (L : DeceleratedLayer o m u du F a b) : ∀ x ∈ Set.Icc a b, 0 < F x ∧ o.deltaM x = .ok (Real.sqrt (F x * o.nu)) := by
  intro x hx
  have hq : ∀ t, o.deltaM t = .ok (Real.sqrt (F t * o.nu)) := fun t => by
    have hc : o.comp 0 t = .ok (F t) := by simp [Obj.comp, Obj.state, L.sol.sol, bind, Except.bind, pure, Except.pure]
    rcases cls_cases L.sol.isThwaites with h | h <;> simp [Obj.deltaM, h, hc, bind, Except.bind, pure, Except.pure]
  refine ⟨?_, hq x⟩
  rcases hx.1.eq_or_lt with h | h
  · rw [← h]; exact L.start
  · obtain ⟨d, e, h1, h2, h3, h4⟩ := thwaites_grows L a ⟨le_rfl, hx.1.trans hx.2⟩ x hx h
    rw [hq] at h2
    have : 0 < Real.sqrt (F x * o.nu) := by rw [Except.ok.inj h2]; linarith
    exact pos_of_mul_pos_left (Real.sqrt_pos.1 this) L.nu.le

/-- **C118**, growth: in a flow that is nowhere accelerated the square of the momentum thickness gains at least `3/8 nu (x - a) / (u_e(a) + 0.001)`
from `a` to `x`. -/
theorem thickness_lower_bound (L : DeceleratedLayer o m u du F a b) (hslope : ∀ x ∈ Set.Icc a b, HasDerivAt u (du x) x) :
    ∀ x ∈ Set.Icc a b, ∃ d0 d, o.deltaM a = .ok d0 ∧ o.deltaM x = .ok d ∧ d0 ^ 2 + 3/8 * o.nu * (x - a) / (u a + 1/1000) ≤ d ^ 2 := by
  intro x hx
  have ha : a ∈ Set.Icc a b := ⟨le_rfl, hx.1.trans hx.2⟩
  obtain ⟨h1, e1⟩ := thick L a ha
  obtain ⟨h2, e2⟩ := thick L x hx
  refine ⟨_, _, e1, e2, ?_⟩
  rw [Real.sq_sqrt (mul_pos h1 L.nu).le, Real.sq_sqrt (mul_pos h2 L.nu).le]
  have := mul_le_mul_of_nonneg_right (grow L (fun t ht => (thick L t ht).1.le) hslope x hx) L.nu.le
  calc F a * o.nu + 3/8 * o.nu * (x - a) / (u a + 1/1000) = (F a + 3/8 * (x - a) / (u a + 1/1000)) * o.nu := by ring
    _ ≤ _ := this

/-- The part of a run that `DeceleratedLayer` speaks about. -/
private theorem exact_layer {stepper : Stepper ℝ} {root : RootFinder ℝ} {p : IvpProblem ℝ} {r : IntegrationResult ℝ}
    (H : ThwaitesExact o m u du F a b stepper root p r) (hm : o.cls = .thwaitesLinear ∨ BuiltIn m) (hdec : ∀ x ∈ Set.Icc a b, du x ≤ 0) :
    DeceleratedLayer { o with sol := some fun t => [F t] } m u du F a b where
  sol := ⟨H.isThwaites, H.fits, rfl, H.uE, H.duE⟩
  fits := hm
  nu := H.nu
  speed := H.velocity
  decelerated := hdec
  ode := H.ode
  start := H.start.2

/-- **C118**, the criterion: where the flow has been decelerated at the rate `k` or more over the distance `4/15 (u_e(a) + 0.001) / k` the
separation criterion is met, there and everywhere downstream. -/
theorem criterion_met {stepper : Stepper ℝ} {root : RootFinder ℝ} {p : IvpProblem ℝ} {r : IntegrationResult ℝ}
    (H : ThwaitesExact o m u du F a b stepper root p r) (hm : o.cls = .thwaitesLinear ∨ BuiltIn m) (hs : SignalsSeparation m) (k : ℝ) (hk : 0 < k)
    (hdec : ∀ x ∈ Set.Icc a b, du x ≤ -k) :
    ∀ x ∈ Set.Icc a b, 4/15 * (u a + 1/1000) / k ≤ x - a → ∃ v, o.eventValue (.sepThwaites m) x [F x] = .ok v ∧ v ≤ 0 := by
  intro x hx hlen
  refine ⟨_, (separation_event_value o m x (F x) _ (H.duE x)).1, ?_⟩
  have L := exact_layer H hm fun x hx => (hdec x hx).trans (by linarith)
  obtain ⟨ls, h1, -, -, h2⟩ := hs
  apply h2
  have hua : 0 < u a + 1/1000 := by linarith [H.velocity a ⟨le_rfl, hx.1.trans hx.2⟩]
  have hF := grow L (fun t ht => (thick L t ht).1.le) (fun t _ => H.slope t) x hx
  rw [div_le_iff₀ hk] at hlen
  have h3 : 1/10 ≤ 3/8 * (x - a) / (u a + 1/1000) * k := by
    rw [div_mul_eq_mul_div, le_div_iff₀ hua]
    nlinarith
  have h4 : F x * du x ≤ F x * -k := mul_le_mul_of_nonneg_left (hdec x hx) (thick L x hx).1.le
  have h5 : 0 < F a := H.start.2
  have h6 : (F a + 3/8 * (x - a) / (u a + 1/1000)) * k ≤ F x * k := mul_le_mul_of_nonneg_right hF hk.le
  nlinarith

/-- **C118**: so a `solve` that starts attached, follows its solution and would take a step beyond that distance reports SEPARATED. -/
theorem persistent_deceleration_separates {stepper : Stepper ℝ} {root : RootFinder ℝ} {p : IvpProblem ℝ} {r : IntegrationResult ℝ}
    (H : ThwaitesExact o m u du F a b stepper root p r) (hm : o.cls = .thwaitesLinear ∨ BuiltIn m) (hs : SignalsSeparation m) (k : ℝ) (hk : 0 < k)
    (hdec : ∀ x ∈ Set.Icc a b, du x ≤ -k) (hatt : ∃ v, o.eventValue (.sepThwaites m) a [F a] = .ok v ∧ 0 < v)
    (hstep : ∃ s ∈ (stepper p).steps, 4/15 * (u a + 1/1000) / k ≤ s.t - a) : r.status = .separated := by
  obtain ⟨v0, hv0, hpos⟩ := hatt
  rw [separation_reported_iff H.run v0 (by rw [H.start.1]; exact hv0) hpos]
  obtain ⟨s, hs', hlen⟩ := hstep
  obtain ⟨ht, hy⟩ := H.steps s hs'
  obtain ⟨v, hv, hle⟩ := criterion_met H hm hs k hk hdec s.t ht hlen
  exact ⟨s, hs', v, by rw [hy]; exact hv, hle⟩

/-- **C118**, Drela's fits do not signal separation: with them no run in a flow that is nowhere accelerated reports it, however long and strong the
deceleration. -/
theorem drela_never_separates {stepper : Stepper ℝ} {root : RootFinder ℝ} {p : IvpProblem ℝ} {r : IntegrationResult ℝ}
    (H : ThwaitesExact o drela u du F a b stepper root p r) (hab : a ≤ b) (hdec : ∀ x ∈ Set.Icc a b, du x ≤ 0) : r.status ≠ .separated := by
  have L := exact_layer H (.inr (.inr (.inr (.inl rfl)))) hdec
  have hv : ∀ x ∈ Set.Icc a b, o.eventValue (.sepThwaites drela) x [F x] = .ok ((drela : Fits ℝ).shearAt (F x * du x)) ∧
      0 < (drela : Fits ℝ).shearAt (F x * du x) := fun x hx => by
    refine ⟨(separation_event_value o drela x (F x) _ (H.duE x)).1, lt_trans (by norm_num) (drela_shear_pos _ ?_)⟩
    exact mul_nonpos_of_nonneg_of_nonpos (thick L x hx).1.le (hdec x hx)
  obtain ⟨h0, h0'⟩ := hv a ⟨le_rfl, hab⟩
  rw [ne_eq, separation_reported_iff H.run _ (by rw [H.start.1]; exact h0) h0']
  rintro ⟨s, hs, v, h1, h2⟩
  obtain ⟨ht, hy⟩ := H.steps s hs
  obtain ⟨h3, h4⟩ := hv s.t ht
  rw [hy, h3] at h1
  linarith [Except.ok.inj h1]

/-- A case: the flow `u_e = 0.999 - 0.3 x` on `[0, 1]` with White's fits, from the momentum thickness 1/2; the distance is 8/9. -/
theorem persistent_case : ∃ (o : Obj ℝ) (F : ℝ → ℝ) (stepper : Stepper ℝ) (root : RootFinder ℝ) (p : IvpProblem ℝ) (r : IntegrationResult ℝ),
    ThwaitesExact o Fits.white (fun t => 999/1000 + -(3/10) * t) (fun _ => -(3/10)) F 0 1 stepper root p r ∧ BuiltIn Fits.white ∧
    SignalsSeparation Fits.white ∧ (∃ v, o.eventValue (.sepThwaites Fits.white) 0 [F 0] = .ok v ∧ 0 < v) ∧
    ∃ s ∈ (stepper p).steps, 4/15 * ((999/1000 + -(3/10) * 0 : ℝ) + 1/1000) / (3/10) ≤ s.t - 0 := by
  obtain ⟨cs, hcs⟩ := table_splines_exist
  have hw : ∀ lam, 0 < (Fits.white : Fits ℝ).shearAt lam ↔ -9/100 < lam := fun lam => (linear_flow_fits hcs lam).2
  obtain ⟨o, F, stepper, root, p, r, H, -, h0, ⟨s, hs, ht⟩, hsep⟩ := linear_flow_run_at (3/10) (by norm_num) le_rfl Fits.white hw
  exact ⟨o, F, stepper, root, p, r, H, .inl rfl, white_signals, ⟨_, (separation_event_value o _ 0 (F 0) _ (H.duE 0)).1, (hw _).2 h0⟩, s, hs,
    by rw [ht]; norm_num⟩

end
end IBL
