import Verif.Props.AnalyticThickness

/-! C84: the profiles and thicknesses of exact similarity solutions are physically ordered. -/

set_option linter.unusedSectionVars false

namespace IBL.Analytic
open Set

variable [PySpecial ℝ]

/-! ### Profiles -/

section profile
variable {alpha beta L : ℝ} {sol : ℝ → V3 ℝ}

/-- `f''` times the exponential of the integral of `alpha f` has derivative `-beta (1 - f'^2)` times that exponential. -/
private theorem integrating (hL : 0 < L) (h : ExactOn alpha beta sol L) : ∃ E : ℝ → ℝ, (∀ e, 0 < E e) ∧
    ContinuousOn (fun e => (sol e).2.2 * E e) (Icc 0 L) ∧
    ∀ e ∈ Ioo 0 L, HasDerivAt (fun e => (sol e).2.2 * E e) (-(beta * (1 - (sol e).2.1 ^ 2)) * E e) e := by
  let fe : ℝ → ℝ := IccExtend hL.le ((Icc 0 L).restrict fun e => alpha * (sol e).1)
  have hfe : Continuous fe := (continuousOn_iff_continuous_restrict.1 (continuousOn_const.mul h.c0)).Icc_extend'
  have hF : ∀ e, HasDerivAt (fun e => ∫ t in (0:ℝ)..e, fe t) (fe e) e := fun e => (hfe.integral_hasStrictDerivAt 0 e).hasDerivAt
  refine ⟨fun e => Real.exp (∫ t in (0:ℝ)..e, fe t), fun e => Real.exp_pos _, ?_, fun e he => ?_⟩
  · exact h.c2.mul fun e _ => (hF e).exp.continuousAt.continuousWithinAt
  · have : fe e = alpha * (sol e).1 := IccExtend_of_mem _ _ (Ioo_subset_Icc_self he)
    refine ((h.d2 e he).mul (hF e).exp).congr_deriv ?_
    rw [this]
    ring

/-- A profile that does not exceed the edge velocity in magnitude and rises at the wall and at its end, rises everywhere. -/
theorem rises (hL : 0 < L) (h : ExactOn alpha beta sol L) (hw : 0 < (sol 0).2.2) (he : 0 < (sol L).2.2)
    (hb : ∀ e ∈ Icc 0 L, |(sol e).2.1| ≤ 1) : ∀ e ∈ Icc 0 L, 0 < (sol e).2.2 := by
  obtain ⟨E, hE, hc, hd⟩ := integrating hL h
  have hq : ∀ e ∈ Ioo 0 L, 0 ≤ (1 - (sol e).2.1 ^ 2) * E e := fun e m => by
    have h1 := hb e (Ioo_subset_Icc_self m)
    have h2 : (sol e).2.1 ^ 2 ≤ 1 := (sq_le_one_iff_abs_le_one _).2 h1
    exact mul_nonneg (by linarith) (hE e).le
  intro e m
  rcases le_total 0 beta with c | c
  · have ha : AntitoneOn (fun e => (sol e).2.2 * E e) (Icc 0 L) := by
      refine antitoneOn_of_hasDerivWithinAt_nonpos (convex_Icc 0 L) hc (fun t ht => ((hd t (by rwa [interior_Icc] at ht)).hasDerivWithinAt)) fun t ht => ?_
      rw [interior_Icc] at ht
      have := mul_nonneg c (hq t ht)
      linarith
    have h1 := ha m (right_mem_Icc.2 hL.le) m.2
    have h2 : 0 < (sol L).2.2 * E L := mul_pos he (hE L)
    exact pos_of_mul_pos_left (h2.trans_le h1) (hE e).le
  · have ha : MonotoneOn (fun e => (sol e).2.2 * E e) (Icc 0 L) := by
      refine monotoneOn_of_hasDerivWithinAt_nonneg (convex_Icc 0 L) hc (fun t ht => ((hd t (by rwa [interior_Icc] at ht)).hasDerivWithinAt)) fun t ht => ?_
      rw [interior_Icc] at ht
      have := mul_nonneg (neg_nonneg.2 c) (hq t ht)
      linarith
    have h1 := ha (left_mem_Icc.2 hL.le) m m.1
    have h2 : 0 < (sol 0).2.2 * E 0 := mul_pos hw (hE 0)
    exact pos_of_mul_pos_left (h2.trans_le h1) (hE e).le

/-- Without pressure gradient rising at the wall is enough. -/
theorem rises_blasius (hL : 0 < L) (h : ExactOn alpha 0 sol L) (hw : 0 < (sol 0).2.2) :
    ∀ e ∈ Icc 0 L, 0 < (sol e).2.2 := by
  obtain ⟨E, hE, hc, hd⟩ := integrating hL h
  have hm : MonotoneOn (fun e => (sol e).2.2 * E e) (Icc 0 L) := by
    refine monotoneOn_of_hasDerivWithinAt_nonneg (convex_Icc 0 L) hc (fun t ht => ((hd t (by rwa [interior_Icc] at ht)).hasDerivWithinAt)) fun t ht => ?_
    simp
  intro e m
  have h1 := hm (left_mem_Icc.2 hL.le) m m.1
  have h2 : 0 < (sol 0).2.2 * E 0 := mul_pos hw (hE 0)
  exact pos_of_mul_pos_left (h2.trans_le h1) (hE e).le

/-- Of a rising profile: `f'` increases strictly, `f` too. -/
theorem profile_order (hL : 0 < L) (h : ExactOn alpha beta sol L) (hr : ∀ e ∈ Icc 0 L, 0 < (sol e).2.2) :
    StrictMonoOn (fun e => (sol e).2.1) (Icc 0 L) ∧ (∀ e ∈ Ioc 0 L, 0 < (sol e).2.1) ∧ ∀ e ∈ Ioc 0 L, 0 < (sol e).1 := by
  have m1 : StrictMonoOn (fun e => (sol e).2.1) (Icc 0 L) := strictMonoOn_of_deriv_pos (convex_Icc 0 L) h.c1 fun x hx => by
    rw [interior_Icc] at hx
    rw [(h.d1 x hx).deriv]
    exact hr x (Ioo_subset_Icc_self hx)
  have p1 : ∀ e ∈ Ioc 0 L, 0 < (sol e).2.1 := fun x hx => by
    have := m1 (left_mem_Icc.2 hL.le) ⟨hx.1.le, hx.2⟩ hx.1
    simpa [h.f1] using this
  have m0 : StrictMonoOn (fun e => (sol e).1) (Icc 0 L) := strictMonoOn_of_deriv_pos (convex_Icc 0 L) h.c0 fun x hx => by
    rw [interior_Icc] at hx
    rw [(h.d0 x hx).deriv]
    exact p1 x ⟨hx.1, hx.2.le⟩
  refine ⟨m1, p1, fun x hx => ?_⟩
  have := m0 (left_mem_Icc.2 hL.le) ⟨hx.1.le, hx.2⟩ hx.1
  simpa [h.f0] using this

private theorem int_pos {g : ℝ → ℝ} (hL : 0 < L) (hc : ContinuousOn g (Icc 0 L)) (hp : ∀ e ∈ Ioo 0 L, 0 < g e) : 0 < ∫ e in (0:ℝ)..L, g e :=
  intervalIntegral.intervalIntegral_pos_of_pos_on (ContinuousOn.intervalIntegrable (by rwa [uIcc_of_le hL.le])) hp hL

private theorem int_mono {g k : ℝ → ℝ} (hL : 0 ≤ L) (hg : ContinuousOn g (Icc 0 L)) (hk : ContinuousOn k (Icc 0 L))
    (hp : ∀ e ∈ Icc 0 L, g e ≤ k e) : ∫ e in (0:ℝ)..L, g e ≤ ∫ e in (0:ℝ)..L, k e :=
  intervalIntegral.integral_mono_on hL (ContinuousOn.intervalIntegrable (by rwa [uIcc_of_le hL]))
    (ContinuousOn.intervalIntegrable (by rwa [uIcc_of_le hL])) hp

private theorem cD (h : ExactOn alpha beta sol L) : ContinuousOn (fun e => 1 - (sol e).2.1) (Icc 0 L) := continuousOn_const.sub h.c1
private theorem cM (h : ExactOn alpha beta sol L) : ContinuousOn (fun e => (sol e).2.1 * (1 - (sol e).2.1)) (Icc 0 L) := h.c1.mul (cD h)

variable (hL : 0 < L) (h : ExactOn alpha beta sol L) (hr : ∀ e ∈ Icc 0 L, 0 < (sol e).2.2) (hq : (sol L).2.1 ≤ 1)
include hL h hr hq

private theorem below : ∀ e ∈ Ico 0 L, (sol e).2.1 < 1 := fun e m =>
  ((profile_order hL h hr).1 ⟨m.1, m.2.le⟩ (right_mem_Icc.2 hL.le) m.2).trans_le hq

theorem intD_pos : 0 < intD sol L :=
  int_pos hL (cD h) fun e m => by have := below hL h hr hq e ⟨m.1.le, m.2⟩; linarith

/-- The momentum integral exceeds what a profile that jumps to its end value would give. -/
theorem intM_gt : (1 - (sol L).2.1) * (sol L).1 < intM sol L := by
  have e1 : ∫ e in (0:ℝ)..L, (sol e).2.1 = (sol L).1 := by
    rw [ftc (g := fun e => (sol e).1) hL.le h.c0 h.d0 h.c1, h.f0, sub_zero]
  have e2 : 0 < ∫ e in (0:ℝ)..L, ((sol e).2.1 * (1 - (sol e).2.1) - (1 - (sol L).2.1) * (sol e).2.1) := by
    refine int_pos hL ((cM h).sub (continuousOn_const.mul h.c1)) fun e m => ?_
    have o := profile_order hL h hr
    have h1 := o.1 (Ioo_subset_Icc_self m) (right_mem_Icc.2 hL.le) m.2
    have h2 := o.2.1 e ⟨m.1, m.2.le⟩
    have := mul_pos h2 (sub_pos.2 h1)
    dsimp only at this
    linarith
  rw [intervalIntegral.integral_sub (ContinuousOn.intervalIntegrable (by rw [uIcc_of_le hL.le]; exact cM h))
    (ContinuousOn.intervalIntegrable (by rw [uIcc_of_le hL.le]; exact continuousOn_const.mul h.c1)), intervalIntegral.integral_const_mul, e1] at e2
  rw [intM]
  linarith

/-- The energy integral is at most `1 + f'(L)` times the momentum integral. -/
theorem intK_le : intK sol L ≤ (1 + (sol L).2.1) * intM sol L := by
  rw [intK, intM, ← intervalIntegral.integral_const_mul]
  refine int_mono hL.le (h.c1.mul (continuousOn_const.sub (h.c1.pow 2))) (continuousOn_const.mul (cM h)) fun e m => ?_
  have o := profile_order hL h hr
  have h1 : (sol e).2.1 ≤ (sol L).2.1 := o.1.monotoneOn m (right_mem_Icc.2 hL.le) m.2
  have h2 : 0 ≤ (sol e).2.1 := by
    have := o.1.monotoneOn (left_mem_Icc.2 hL.le) m m.1
    simpa [h.f1] using this
  have h3 : 0 ≤ (sol e).2.1 * (1 - (sol e).2.1) := mul_nonneg h2 (by linarith)
  nlinarith

theorem intKK_pos : 0 < ∫ e in (0:ℝ)..L, 2 * (sol e).1 * (sol e).2.1 * (sol e).2.2 := by
  refine int_pos hL (((continuousOn_const.mul h.c0).mul h.c1).mul h.c2) fun e m => ?_
  have o := profile_order hL h hr
  have h1 := o.2.1 e ⟨m.1, m.2.le⟩
  have h2 := o.2.2 e ⟨m.1, m.2.le⟩
  have h3 := hr e (Ioo_subset_Icc_self m)
  positivity

end profile

/-! ### Objects -/

/-- An object whose last request for a solution succeeded, answered by an exact solution on `[0, eta_inf]` with an exact quadrature; the profile does not
exceed the edge velocity in magnitude, rises at the wall and, in accelerated flow, still rises at `eta_inf`. -/
structure Profile (s : Sim ℝ) (sol : ℝ → V3 ℝ) : Prop where
  current : Current s
  beta : s.beta < 2
  stored : s.f = some sol
  etaInf : 0 < s.etaInf
  exact : ExactOn s.alpha s.beta sol s.etaInf
  quad : s.etaK = ∫ e in (0:ℝ)..s.etaInf, 2 * (sol e).1 * (sol e).2.1 * (sol e).2.2
  bound : ∀ e ∈ Icc 0 s.etaInf, |(sol e).2.1| ≤ 1
  wall : 0 < (sol 0).2.2
  tail : 0 < s.beta → 0 < (sol s.etaInf).2.2

variable {s : Sim ℝ} {sol : ℝ → V3 ℝ}

namespace Profile
variable (h : Profile s sol)
include h

theorem inRange : InRange s := reached_inRange _ h.current.reached

/-- The profile rises everywhere. -/
theorem rising : ∀ e ∈ Icc 0 s.etaInf, 0 < (sol e).2.2 := by
  rcases lt_or_ge 0 s.beta with c | c
  · exact rises h.etaInf h.exact h.wall (h.tail c) h.bound
  · obtain ⟨E, hE, hc, hd⟩ := integrating h.etaInf h.exact
    have hm : MonotoneOn (fun e => (sol e).2.2 * E e) (Icc 0 s.etaInf) := by
      refine monotoneOn_of_hasDerivWithinAt_nonneg (convex_Icc 0 _) hc (fun t ht => ((hd t (by rwa [interior_Icc] at ht)).hasDerivWithinAt)) fun t ht => ?_
      rw [interior_Icc] at ht
      have h1 := h.bound t (Ioo_subset_Icc_self ht)
      have h2 : (sol t).2.1 ^ 2 ≤ 1 := (sq_le_one_iff_abs_le_one _).2 h1
      have := mul_nonneg (neg_nonneg.2 c) (mul_nonneg (sub_nonneg.2 h2) (hE t).le)
      linarith
    intro e m
    have h1 := hm (left_mem_Icc.2 h.etaInf.le) m m.1
    exact pos_of_mul_pos_left ((mul_pos h.wall (hE 0)).trans_le h1) (hE e).le

theorem qle : (sol s.etaInf).2.1 ≤ 1 := (le_abs_self _).trans (h.bound _ (right_mem_Icc.2 h.etaInf.le))

theorem etaD_eq : s.etaD = intD sol s.etaInf := by
  obtain ⟨sol', hf, hd, -⟩ := h.current.consistent
  rw [h.stored] at hf
  cases hf
  rw [hd, intD_eq h.etaInf.le h.exact]

theorem etaM_eq : s.etaM * (1 + s.beta) = (sol 0).2.2 - s.beta * s.etaD := by
  have hs := h.inRange
  obtain ⟨sol', -, -, hm⟩ := h.current.consistent
  have h1b : s.alpha + s.beta ≠ 0 := by have := hs.alpha; have := hs.beta_lo; linarith
  simp only [pyDiv] at hm
  rw [if_neg (by rw [real_eq, real_lit]; push_cast; exact h1b)] at hm
  rw [← Except.ok.inj hm, ← hs.alpha, div_mul_cancel₀ _ h1b, Sim.fwPp, h.stored]
  simp

theorem etaD_pos : 0 < s.etaD := by rw [h.etaD_eq]; exact intD_pos h.etaInf h.exact h.rising h.qle

theorem etaM_int : (s.etaM - intM sol s.etaInf) * (1 + s.beta) = (sol s.etaInf).2.2 - (sol s.etaInf).1 * (1 - (sol s.etaInf).2.1) := by
  have h1 := intM_eq h.etaInf.le h.exact
  have h2 := h.etaM_eq
  have ha := h.inRange.alpha
  rw [h.etaD_eq] at h2
  rw [ha] at h1
  linarith

theorem etaM_pos : 0 < s.etaM := by
  have hb := h.inRange.beta_lo
  rcases lt_or_ge 0 s.beta with c | c
  · have h1 := h.etaM_int
    have h2 := intM_gt h.etaInf h.exact h.rising h.qle
    have h3 := (profile_order h.etaInf h.exact h.rising).2.2 _ (right_mem_Ioc.2 h.etaInf)
    have h4 := h.tail c
    have h5 : 0 ≤ (1 - (sol s.etaInf).2.1) * (sol s.etaInf).1 := mul_nonneg (by linarith [h.qle]) h3.le
    by_contra hn
    nlinarith
  · have h1 := h.etaM_eq
    have h2 := h.etaD_pos
    have h3 := h.wall
    by_contra hn
    nlinarith

theorem etaK_pos : 0 < s.etaK := by rw [h.quad]; exact intKK_pos h.etaInf h.exact h.rising h.qle

theorem u_ok {x : ℝ} (hx : 0 < x) (y : ℝ) : s.u x y = .ok (ue s x * (sol (y * gg s x)).2.1) := by
  simp only [Sim.u, uE_ok h.inRange h.beta hx, eta_ok h.inRange h.beta, Sim.fpAt, h.stored]; rfl

/-- **C84**, the velocity across the layer: at the wall `u` is zero, it increases strictly up to `eta_inf`, and never exceeds `u_e`. -/
theorem velocity {x : ℝ} (hx : 0 < x) :
    ∃ (U g : ℝ) (u : ℝ → ℝ), s.uE x = .ok U ∧ s.g x = .ok g ∧ 0 < U ∧ 0 < g ∧ (∀ y, s.u x y = .ok (u y)) ∧ u 0 = 0 ∧
      StrictMonoOn u (Icc 0 (s.etaInf / g)) ∧ ∀ y ∈ Icc 0 (s.etaInf / g), 0 ≤ u y ∧ u y ≤ U := by
  have hU := ue_pos h.inRange h.beta hx
  have hg := gg_pos h.inRange h.beta hx
  have o := profile_order h.etaInf h.exact h.rising
  have im : ∀ y ∈ Icc 0 (s.etaInf / gg s x), y * gg s x ∈ Icc 0 s.etaInf := fun y m =>
    ⟨mul_nonneg m.1 hg.le, (le_div_iff₀ hg).1 m.2⟩
  refine ⟨_, _, fun y => ue s x * (sol (y * gg s x)).2.1, uE_ok h.inRange h.beta hx, g_ok h.inRange h.beta hx, hU, hg, h.u_ok hx, ?_, ?_, fun y m => ⟨?_, ?_⟩⟩
  · simp [h.exact.f1]
  · intro a ma b mb hab
    exact mul_lt_mul_of_pos_left (o.1 (im a ma) (im b mb) (mul_lt_mul_of_pos_right hab hg)) hU
  · refine mul_nonneg hU.le ?_
    have := o.1.monotoneOn (left_mem_Icc.2 h.etaInf.le) (im y m) (im y m).1
    simpa [h.exact.f1] using this
  · have := (le_abs_self _).trans (h.bound _ (im y m))
    dsimp only
    nlinarith

/-- **C84**, wall and thicknesses: shear stress, displacement, momentum and energy thickness, and both shape factors are positive. -/
theorem thicknesses {x rho : ℝ} (hx : 0 < x) (hrho : 0 < rho) :
    ∃ t d m k hd hk, s.tauW x rho = .ok t ∧ s.deltaD x = .ok d ∧ s.deltaM x = .ok m ∧ s.deltaK x = .ok k ∧ s.shapeD x = .ok hd ∧ s.shapeK x = .ok hk ∧
      0 < t ∧ 0 < d ∧ 0 < m ∧ 0 < k ∧ 0 < hd ∧ 0 < hk := by
  have hg := gg_pos h.inRange h.beta hx
  have hU := ue_pos h.inRange h.beta hx
  have hn := h.inRange.nu_pos
  obtain ⟨d, m, k, h1, h2, h3, h4, h5, h6⟩ := shape_factors h.current.reached h.beta h.etaM_pos.ne' hx
  have e1 : s.etaD / gg s x = d := by
    simp only [Sim.deltaD, g_ok h.inRange h.beta hx] at h1; exact Except.ok.inj h1
  have e2 : s.etaM / gg s x = m := by
    simp only [Sim.deltaM, g_ok h.inRange h.beta hx] at h2; exact Except.ok.inj h2
  have e3 : s.etaK / gg s x = k := by
    simp only [Sim.deltaK, g_ok h.inRange h.beta hx] at h3; exact Except.ok.inj h3
  have p1 : 0 < d := e1 ▸ div_pos h.etaD_pos hg
  have p2 : 0 < m := e2 ▸ div_pos h.etaM_pos hg
  have p3 : 0 < k := e3 ▸ div_pos h.etaK_pos hg
  refine ⟨rho * s.nuRef * ue s x * gg s x * (sol 0).2.2, d, m, k, _, _, ?_, h1, h2, h3, h5, h6, ?_, p1, p2, p3, div_pos p1 p2, div_pos p3 p2⟩
  · simp only [Sim.tauW, uE_ok h.inRange h.beta hx, g_ok h.inRange h.beta hx, Sim.fwPp, h.stored, real_lit]
    push_cast
    rfl
  · have := h.wall
    positivity

/-- **C84**: in flow that does not decelerate the energy shape factor is below 2. -/
theorem shapeK_lt (hb : 0 ≤ s.beta) (x : ℝ) : ∃ k, s.shapeK x = .ok k ∧ k < 2 := by
  have hm := h.etaM_pos
  have h1 := h.etaM_int
  have h2 := intM_gt h.etaInf h.exact h.rising h.qle
  have h3 := (profile_order h.etaInf h.exact h.rising).2.2 _ (right_mem_Ioc.2 h.etaInf)
  have h4 := intK_le h.etaInf h.exact h.rising h.qle
  have h5 := h.quad.trans (intK_eq h.etaInf.le h.exact)
  have h6 := h.qle
  have h7 := (profile_order h.etaInf h.exact h.rising).2.1 _ (right_mem_Ioc.2 h.etaInf)
  have h8 := h.rising _ (right_mem_Icc.2 h.etaInf.le)
  refine ⟨s.etaK / s.etaM, ?_, ?_⟩
  · simp only [Sim.shapeK, pyDiv, real_eq, real_lit]
    rw [if_neg (by push_cast; exact hm.ne')]
    show Except.ok _ = _
    push_cast
    rw [mul_one]
  · rw [div_lt_iff₀ hm]
    have hA : intM sol s.etaInf - (1 - (sol s.etaInf).2.1) * (sol s.etaInf).1 < s.etaM := by
      have h9 : 0 ≤ (1 - (sol s.etaInf).2.1) * (sol s.etaInf).1 := mul_nonneg (by linarith) h3.le
      by_contra hn
      nlinarith
    have : s.etaK ≤ (1 + (sol s.etaInf).2.1) * (intM sol s.etaInf - (1 - (sol s.etaInf).2.1) * (sol s.etaInf).1) := by
      rw [h5]; nlinarith
    nlinarith

/-- In flow that does not decelerate the slope of the profile decreases away from the wall. -/
theorem slope_le (hb : 0 ≤ s.beta) : ∀ e ∈ Icc 0 s.etaInf, (sol e).2.2 ≤ (sol 0).2.2 := by
  have o := profile_order h.etaInf h.exact h.rising
  have ha : AntitoneOn (fun e => (sol e).2.2) (Icc 0 s.etaInf) := by
    refine antitoneOn_of_hasDerivWithinAt_nonpos (convex_Icc 0 _) h.exact.c2
      (fun t ht => ((h.exact.d2 t (by rwa [interior_Icc] at ht)).hasDerivWithinAt)) fun t ht => ?_
    rw [interior_Icc] at ht
    have h1 := h.bound t (Ioo_subset_Icc_self ht)
    have h2 : (sol t).2.1 ^ 2 ≤ 1 := (sq_le_one_iff_abs_le_one _).2 h1
    have h3 := mul_nonneg hb (sub_nonneg.2 h2)
    have h4 := mul_pos (o.2.2 t ⟨ht.1, ht.2.le⟩) (h.rising t (Ioo_subset_Icc_self ht))
    rw [h.inRange.alpha]
    linarith
  exact fun e m => ha (left_mem_Icc.2 h.etaInf.le) m m.1

/-- In flow that does not decelerate the profile is below the tangent at the wall. -/
theorem below_tangent (hb : 0 ≤ s.beta) : ∀ e ∈ Icc 0 s.etaInf, (sol e).2.1 ≤ (sol 0).2.2 * e := by
  have ha : AntitoneOn (fun e => (sol e).2.1 - (sol 0).2.2 * e) (Icc 0 s.etaInf) := by
    refine antitoneOn_of_hasDerivWithinAt_nonpos (convex_Icc 0 _) (h.exact.c1.sub (continuousOn_const.mul continuousOn_id))
      (fun t ht => (((h.exact.d1 t (by rwa [interior_Icc] at ht)).sub ((hasDerivAt_id t).const_mul _)).hasDerivWithinAt)) fun t ht => ?_
    have := h.slope_le hb t (interior_subset ht)
    linarith
  intro e m
  have := ha (left_mem_Icc.2 h.etaInf.le) m m.1
  simp only [h.exact.f1] at this
  linarith

/-- **C84**: in flow that does not decelerate the displacement thickness exceeds the momentum thickness, if the profile reaches the edge
to the accuracy stated here. -/
theorem shapeD_gt (hb : 0 ≤ s.beta) (hlen : 1 ≤ (sol 0).2.2 * s.etaInf) (hend : 3 * (sol 0).2.2 * (sol s.etaInf).2.2 < 1 + s.beta) (x : ℝ) :
    ∃ k, s.shapeD x = .ok k ∧ 1 < k := by
  have hm := h.etaM_pos
  have hw := h.wall
  refine ⟨s.etaD / s.etaM, ?_, ?_⟩
  · simp only [Sim.shapeD, pyDiv, real_eq, real_lit]
    rw [if_neg (by push_cast; exact hm.ne')]
    show Except.ok _ = _
    push_cast
    rw [mul_one]
  · rw [one_lt_div hm]
    set w := (sol 0).2.2 with hwd
    -- the difference of the integrals
    have hi : 1 / (3 * w) ≤ intD sol s.etaInf - intM sol s.etaInf := by
      have hT0 : 0 < 1 / w := by positivity
      have hT : 1 / w ≤ s.etaInf := by rwa [div_le_iff₀' hw]
      have cc := (cD h.exact).mul (cD h.exact)
      have e1 : intD sol s.etaInf - intM sol s.etaInf = ∫ e in (0:ℝ)..s.etaInf, (1 - (sol e).2.1) * (1 - (sol e).2.1) := by
        rw [intD, intM, ← intervalIntegral.integral_sub]
        · congr 1; funext e; ring
        · exact ContinuousOn.intervalIntegrable (by rw [uIcc_of_le h.etaInf.le]; exact cD h.exact)
        · exact ContinuousOn.intervalIntegrable (by rw [uIcc_of_le h.etaInf.le]; exact cM h.exact)
      have c1 : ContinuousOn (fun e => (1 - (sol e).2.1) * (1 - (sol e).2.1)) (Icc 0 (1 / w)) := cc.mono (Icc_subset_Icc_right hT)
      have e2 : ∫ e in (0:ℝ)..(1 / w), (1 - (sol e).2.1) * (1 - (sol e).2.1) ≤ ∫ e in (0:ℝ)..s.etaInf, (1 - (sol e).2.1) * (1 - (sol e).2.1) := by
        refine intervalIntegral.integral_mono_interval le_rfl hT0.le hT (Filter.Eventually.of_forall fun e => mul_self_nonneg _) ?_
        exact ContinuousOn.intervalIntegrable (by rw [uIcc_of_le h.etaInf.le]; exact cc)
      have e3 : ∫ e in (0:ℝ)..(1 / w), (1 - w * e) * (1 - w * e) ≤ ∫ e in (0:ℝ)..(1 / w), (1 - (sol e).2.1) * (1 - (sol e).2.1) := by
        refine int_mono hT0.le (by fun_prop) c1 fun e m => ?_
        have h1 := h.below_tangent hb e ⟨m.1, m.2.trans hT⟩
        have h2 : w * e ≤ 1 := by have := m.2; rwa [le_div_iff₀' hw] at this
        nlinarith
      have e4 : ∫ e in (0:ℝ)..(1 / w), (1 - w * e) * (1 - w * e) = 1 / (3 * w) := by
        rw [ftc (g := fun e => -(1 - w * e) ^ 3 / (3 * w)) hT0.le (by fun_prop) (fun e _ => ?_) (by fun_prop)]
        · field_simp
          ring
        · have := (((((hasDerivAt_id e).const_mul w).const_sub 1).fun_pow 3).fun_neg).div_const (3 * w)
          refine this.congr_deriv ?_
          simp only [id]
          push_cast
          field_simp
      linarith
    have h1 := h.etaM_int
    rw [h.etaD_eq]
    have h3 := (profile_order h.etaInf h.exact h.rising).2.2 _ (right_mem_Ioc.2 h.etaInf)
    have h9 : 0 ≤ (sol s.etaInf).1 * (1 - (sol s.etaInf).2.1) := mul_nonneg h3.le (by linarith [h.qle])
    have h10 : (sol s.etaInf).2.2 < (1 + s.beta) * (1 / (3 * w)) := by
      rw [mul_one_div, lt_div_iff₀ (by positivity)]; linarith
    by_contra hn
    nlinarith

/-- **C84**, without pressure gradient: the velocity normal to the wall is zero at the wall, increases up to `eta_inf` and never exceeds the `v_e` reported for the edge. -/
theorem normal_velocity (hb : s.beta = 0) {x : ℝ} (hx : 0 < x) :
    ∃ (V g : ℝ) (v : ℝ → ℝ), s.vE x = .ok V ∧ s.g x = .ok g ∧ 0 < V ∧ (∀ y, s.v x y = .ok (v y)) ∧ v 0 = 0 ∧
      StrictMonoOn v (Icc 0 (s.etaInf / g)) ∧ ∀ y ∈ Icc 0 (s.etaInf / g), 0 ≤ v y ∧ v y ≤ V := by
  have hs := h.inRange
  have hg := gg_pos hs h.beta hx
  have hn := hs.nu_pos
  have im : ∀ y ∈ Icc 0 (s.etaInf / gg s x), y * gg s x ∈ Icc 0 s.etaInf := fun y m =>
    ⟨mul_nonneg m.1 hg.le, (le_div_iff₀ hg).1 m.2⟩
  have mono : StrictMonoOn (fun e => e * (sol e).2.1 - (sol e).1) (Icc 0 s.etaInf) := by
    refine strictMonoOn_of_deriv_pos (convex_Icc 0 _) ((continuousOn_id.mul h.exact.c1).sub h.exact.c0) fun e m => ?_
    rw [interior_Icc] at m
    have hd : HasDerivAt (fun e => e * (sol e).2.1 - (sol e).1) (e * (sol e).2.2) e := by
      refine (((hasDerivAt_id e).mul (h.exact.d1 e m)).sub (h.exact.d0 e m)).congr_deriv ?_
      simp only [id]
      ring
    rw [hd.deriv]
    exact mul_pos m.1 (h.rising e (Ioo_subset_Icc_self m))
  have hK : 0 < s.nuRef * gg s x := mul_pos hn hg
  refine ⟨s.nuRef * gg s x * s.etaD, _, fun y => s.nuRef * gg s x * (y * gg s x * (sol (y * gg s x)).2.1 - (sol (y * gg s x)).1), ?_, g_ok hs h.beta hx,
    mul_pos hK h.etaD_pos, fun y => ?_, ?_, ?_, fun y m => ⟨?_, ?_⟩⟩
  · simp only [Sim.vE, g_ok hs h.beta hx]; rfl
  · simp only [Sim.v, g_ok hs h.beta hx, eta_ok hs h.beta, Sim.fpAt, Sim.fAt, h.stored, hs.alpha, pyDiv, real_eq, real_lit, hb]
    rw [if_neg (by push_cast; exact one_ne_zero)]
    show Except.ok _ = _
    push_cast
    congr 1
    ring
  · simp [h.exact.f0]
  · intro a ma b mb hab
    exact mul_lt_mul_of_pos_left (mono (im a ma) (im b mb) (mul_lt_mul_of_pos_right hab hg)) hK
  · refine mul_nonneg hK.le ?_
    have := mono.monotoneOn (left_mem_Icc.2 h.etaInf.le) (im y m) (im y m).1
    simpa [h.exact.f0] using this
  · refine mul_le_mul_of_nonneg_left ?_ hK.le
    have h1 := mono.monotoneOn (im y m) (right_mem_Icc.2 h.etaInf.le) (im y m).2
    rw [h.etaD_eq, intD_eq h.etaInf.le h.exact]
    have := h.qle
    have := h.etaInf
    nlinarith

end Profile

/-! ### Non-vacuity -/

private noncomputable def cl (R x : ℝ) : ℝ := min (max x 0) R
private theorem cl_nonneg {R : ℝ} (hR : 0 ≤ R) (x : ℝ) : 0 ≤ cl R x := le_min (le_max_right _ _) hR
private theorem cl_le (R x : ℝ) : cl R x ≤ R := min_le_right _ _
private theorem cl_le_self {R x : ℝ} (hx : 0 ≤ x) : cl R x ≤ x := (min_le_left _ _).trans (max_le le_rfl hx)
private theorem cl_eq {R x : ℝ} (h0 : 0 ≤ x) (h1 : x ≤ R) : cl R x = x := by rw [cl, max_eq_left h0, min_eq_left h1]
private theorem cl_lip (R x y : ℝ) : |cl R x - cl R y| ≤ |x - y| :=
  (abs_min_sub_min_le_max _ _ _ _).trans (max_le ((abs_max_sub_max_le_max _ _ _ _).trans (by simp)) (by simp))

private theorem upper {g g' : ℝ → ℝ} {L C : ℝ} (hd : ∀ e ∈ Icc 0 L, HasDerivAt g (g' e) e) (hC : ∀ e ∈ Icc 0 L, g' e ≤ C) :
    ∀ e ∈ Icc 0 L, g e ≤ g 0 + C * e := by
  have ha : AntitoneOn (fun e => g e - C * e) (Icc 0 L) := by
    refine antitoneOn_of_hasDerivWithinAt_nonpos (convex_Icc 0 _) (fun e m => ?_)
      (fun t ht => ((hd t (interior_subset ht)).sub ((hasDerivAt_id t).const_mul C)).hasDerivWithinAt) fun t ht => ?_
    · exact ((hd e m).sub ((hasDerivAt_id e).const_mul C)).continuousAt.continuousWithinAt
    · have := hC t (interior_subset ht); linarith
  intro e m
  have := ha ⟨le_rfl, m.1.trans m.2⟩ m m.1
  simp only [mul_zero, sub_zero] at this
  linarith

private theorem lower {g g' : ℝ → ℝ} {L : ℝ} (hd : ∀ e ∈ Icc 0 L, HasDerivAt g (g' e) e) (hC : ∀ e ∈ Icc 0 L, 0 ≤ g' e) :
    ∀ e ∈ Icc 0 L, g 0 ≤ g e := by
  intro e m
  have := upper (g := fun e => -g e) (C := 0) (fun e m => (hd e m).neg) (fun e m => by have := hC e m; linarith) e m
  linarith

/-- The Blasius equation has a solution on every interval, for every positive wall shear. -/
theorem blasius_exists {w L : ℝ} (hw : 0 < w) (hL : 0 < L) : ∃ sol : ℝ → V3 ℝ, ExactOn 1 0 sol L ∧ (sol 0).2.2 = w := by
  obtain ⟨R, hRd⟩ : ∃ R, R = w + w * L + w * L * L := ⟨_, rfl⟩
  have hR : 0 < R := by rw [hRd]; positivity
  let F : V3 ℝ → V3 ℝ := fun p => (cl R p.2.1, cl R p.2.2, -(cl R p.1 * cl R p.2.2))
  obtain ⟨K, hK⟩ : ∃ K, K = 1 + 2 * R := ⟨_, rfl⟩
  obtain ⟨N, hN⟩ : ∃ N, N = R + R * R := ⟨_, rfl⟩
  have hKp : 0 ≤ K := by rw [hK]; positivity
  have hNp : 0 ≤ N := by rw [hN]; positivity
  have hFN : ∀ p, ‖F p‖ ≤ N := fun p => by
    have a1 := cl_nonneg hR.le p.1
    have a2 := cl_nonneg hR.le p.2.1
    have a3 := cl_nonneg hR.le p.2.2
    have b1 := cl_le R p.1
    have b2 := cl_le R p.2.1
    have b3 := cl_le R p.2.2
    have hm : cl R p.1 * cl R p.2.2 ≤ R * R := mul_le_mul b1 b3 a3 hR.le
    have hRR : 0 ≤ R * R := by positivity
    refine max_le ?_ (max_le ?_ ?_)
    · rw [Real.norm_eq_abs, abs_of_nonneg a2]; linarith
    · rw [Real.norm_eq_abs, abs_of_nonneg a3]; linarith
    · rw [Real.norm_eq_abs, abs_neg, abs_of_nonneg (mul_nonneg a1 a3)]; linarith
  have hFL : ∀ p q, dist (F p) (F q) ≤ K * dist p q := fun p q => by
    have d1 : |p.1 - q.1| ≤ dist p q := le_max_left _ _
    have d2 : |p.2.1 - q.2.1| ≤ dist p q := (le_max_left _ _).trans (le_max_right (dist p.1 q.1) (dist p.2 q.2))
    have d3 : |p.2.2 - q.2.2| ≤ dist p q := (le_max_right _ _).trans (le_max_right (dist p.1 q.1) (dist p.2 q.2))
    have hd : 0 ≤ dist p q := dist_nonneg
    refine max_le ?_ (max_le ?_ ?_)
    · have := cl_lip R p.2.1 q.2.1
      rw [Real.dist_eq]
      nlinarith
    · have := cl_lip R p.2.2 q.2.2
      rw [Real.dist_eq]
      nlinarith
    · have l1 := cl_lip R p.1 q.1
      have l3 := cl_lip R p.2.2 q.2.2
      have a3 := cl_nonneg hR.le p.2.2
      have a1 := cl_nonneg hR.le q.1
      have b1 := cl_le R q.1
      have b3 := cl_le R p.2.2
      rw [Real.dist_eq]
      have e : -(cl R p.1 * cl R p.2.2) - -(cl R q.1 * cl R q.2.2) =
          -((cl R p.1 - cl R q.1) * cl R p.2.2 + cl R q.1 * (cl R p.2.2 - cl R q.2.2)) := by ring
      rw [e, abs_neg]
      refine (abs_add_le _ _).trans ?_
      rw [abs_mul, abs_mul, abs_of_nonneg a3, abs_of_nonneg a1]
      have m1 : |cl R p.1 - cl R q.1| * cl R p.2.2 ≤ dist p q * R := mul_le_mul (l1.trans d1) b3 a3 hd
      have m2 : cl R q.1 * |cl R p.2.2 - cl R q.2.2| ≤ R * dist p q := mul_le_mul b1 (l3.trans d3) (abs_nonneg _) hR.le
      rw [hK]
      linarith
  have pl : IsPicardLindelof (fun _ : ℝ => F) (tmin := -1) (tmax := L + 1) ⟨0, by norm_num, by linarith⟩ ((0, 0, w) : V3 ℝ) ⟨N * (L + 2), by positivity⟩ 0
      ⟨N, hNp⟩ ⟨K, hKp⟩ := by
    refine ⟨fun t _ => LipschitzOnWith.of_dist_le_mul fun x _ y _ => hFL x y, fun y _ => continuousOn_const, fun t _ y _ => hFN y, ?_⟩
    change N * max (L + 1 - 0) (0 - -1) ≤ N * (L + 2) - 0
    have : N * max (L + 1 - 0) (0 - -1) ≤ N * (L + 2) := mul_le_mul_of_nonneg_left (max_le (by linarith) (by linarith)) hNp
    linarith
  obtain ⟨sol, h0, hsol⟩ := pl.exists_eq_forall_mem_Icc_hasDerivWithinAt₀
  have h0 : sol 0 = (0, 0, w) := h0
  have hd : ∀ t ∈ Icc 0 L, HasDerivAt sol (F (sol t)) t := fun t ht =>
    (hsol t ⟨by linarith [ht.1], by linarith [ht.2]⟩).hasDerivAt (Icc_mem_nhds (by linarith [ht.1]) (by linarith [ht.2]))
  have k0 : ∀ x ∈ Icc 0 L, HasDerivAt (fun e => (sol e).1) (cl R (sol x).2.1) x := fun x hx =>
    (hasFDerivAt_fst (𝕜 := ℝ) (p := sol x)).comp_hasDerivAt x (hd x hx)
  have k12 : ∀ x ∈ Icc 0 L, HasDerivAt (fun e => (sol e).2) (F (sol x)).2 x := fun x hx =>
    (hasFDerivAt_snd (𝕜 := ℝ) (p := sol x)).comp_hasDerivAt x (hd x hx)
  have k1 : ∀ x ∈ Icc 0 L, HasDerivAt (fun e => (sol e).2.1) (cl R (sol x).2.2) x := fun x hx => by
    have := (hasFDerivAt_fst (𝕜 := ℝ) (p := (sol x).2)).comp_hasDerivAt x (k12 x hx)
    exact this
  have k2 : ∀ x ∈ Icc 0 L, HasDerivAt (fun e => (sol e).2.2) (-(cl R (sol x).1 * cl R (sol x).2.2)) x := fun x hx => by
    have := (hasFDerivAt_snd (𝕜 := ℝ) (p := (sol x).2)).comp_hasDerivAt x (k12 x hx)
    exact this
  have e0 : (sol 0).1 = 0 := by rw [h0]
  have e1 : (sol 0).2.1 = 0 := by rw [h0]
  have e2 : (sol 0).2.2 = w := by rw [h0]
  -- the slope stays positive and below `w`
  have p2 : ∀ t ∈ Icc 0 L, 0 ≤ (sol t).2.2 := by
    have := image_le_of_deriv_right_lt_deriv_boundary (f := fun t => -(sol t).2.2) (f' := fun t => cl R (sol t).1 * cl R (sol t).2.2)
      (B := fun t => -(w * Real.exp (-(R + 1) * t))) (B' := fun t => (R + 1) * (w * Real.exp (-(R + 1) * t)))
      (a := 0) (b := L) (fun t ht => (k2 t ht).neg.continuousAt.continuousWithinAt)
      (fun t ht => ((k2 t ⟨ht.1, ht.2.le⟩).neg.congr_deriv (neg_neg _)).hasDerivWithinAt) (by simp [e2])
      (fun t => ?_) (fun t ht he => ?_)
    · intro t ht
      have h1 := this ht
      have : 0 < w * Real.exp (-(R + 1) * t) := by positivity
      linarith
    · have h1 := ((hasDerivAt_id t).const_mul (-(R + 1))).exp
      refine ((h1.const_mul w).neg).congr_deriv ?_
      simp only [id]
      ring
    · have hp : 0 < w * Real.exp (-(R + 1) * t) := by positivity
      have he' : (sol t).2.2 = w * Real.exp (-(R + 1) * t) := by simpa using he
      have c2 := cl_le_self (R := R) (x := (sol t).2.2) (by rw [he']; exact hp.le)
      have c1 := cl_le R (sol t).1
      have n2 := cl_nonneg hR.le (sol t).2.2
      rw [he'] at c2 n2 ⊢
      nlinarith
  have q2 : ∀ t ∈ Icc 0 L, (sol t).2.2 ≤ w := fun t m => by
    have := upper (C := 0) k2 (fun e _ => by
      have := mul_nonneg (cl_nonneg hR.le (sol e).1) (cl_nonneg hR.le (sol e).2.2); linarith) t m
    rw [e2] at this
    linarith
  have s2 : ∀ t ∈ Icc 0 L, cl R (sol t).2.2 = (sol t).2.2 := fun t m => cl_eq (p2 t m) ((q2 t m).trans (by rw [hRd]; nlinarith [mul_pos hw hL, mul_pos (mul_pos hw hL) hL]))
  have p1 : ∀ t ∈ Icc 0 L, 0 ≤ (sol t).2.1 := fun t m => by
    have := lower k1 (fun e _ => cl_nonneg hR.le _) t m
    rwa [e1] at this
  have q1 : ∀ t ∈ Icc 0 L, (sol t).2.1 ≤ w * L := fun t m => by
    have := upper (C := w) k1 (fun e m => by rw [s2 e m]; exact q2 e m) t m
    rw [e1] at this
    nlinarith [m.2]
  have s1 : ∀ t ∈ Icc 0 L, cl R (sol t).2.1 = (sol t).2.1 := fun t m => cl_eq (p1 t m) ((q1 t m).trans (by rw [hRd]; nlinarith [mul_pos hw hL, mul_pos (mul_pos hw hL) hL]))
  have p0 : ∀ t ∈ Icc 0 L, 0 ≤ (sol t).1 := fun t m => by
    have := lower k0 (fun e _ => cl_nonneg hR.le _) t m
    rwa [e0] at this
  have q0 : ∀ t ∈ Icc 0 L, (sol t).1 ≤ w * L * L := fun t m => by
    have := upper (C := w * L) k0 (fun e m => by rw [s1 e m]; exact q1 e m) t m
    rw [e0] at this
    nlinarith [m.2, mul_pos hw hL]
  have s0 : ∀ t ∈ Icc 0 L, cl R (sol t).1 = (sol t).1 := fun t m => cl_eq (p0 t m) ((q0 t m).trans (by rw [hRd]; nlinarith [mul_pos hw hL, mul_pos (mul_pos hw hL) hL]))
  refine ⟨sol, ⟨e0, e1, fun t m => (k0 t m).continuousAt.continuousWithinAt, fun t m => (k1 t m).continuousAt.continuousWithinAt,
    fun t m => (k2 t m).continuousAt.continuousWithinAt, fun t m => ?_, fun t m => ?_, fun t m => ?_⟩, e2⟩
  · exact (k0 t (Ioo_subset_Icc_self m)).congr_deriv (s1 t (Ioo_subset_Icc_self m))
  · exact (k1 t (Ioo_subset_Icc_self m)).congr_deriv (s2 t (Ioo_subset_Icc_self m))
  · refine (k2 t (Ioo_subset_Icc_self m)).congr_deriv ?_
    rw [s0 t (Ioo_subset_Icc_self m), s2 t (Ioo_subset_Icc_self m)]
    ring

/-- Every exact solution with these bounds is the profile of some object. -/
theorem profile_obtained {beta L : ℝ} {sol : ℝ → V3 ℝ} (hb0 : -19884/100000 ≤ beta) (hb2 : beta < 2) (hL : 0 < L) (hx : ExactOn 1 beta sol L)
    (hb : ∀ e ∈ Icc 0 L, |(sol e).2.1| ≤ 1) (hw : 0 < (sol 0).2.2) (ht : 0 < beta → 0 < (sol L).2.2) :
    ∃ s : Sim ℝ, Profile s sol ∧ s.beta = beta ∧ s.etaInf = L := by
  have hbb : badBeta beta = false := by
    rw [Bool.eq_false_iff, badBeta]
    simp only [ne_eq, Bool.or_eq_true, real_lt, real_gt, real_lit, not_or, not_lt]
    push_cast
    exact ⟨hb0, hb2.le⟩
  have hp : ∀ v : ℝ, 0 < v → badParam (some v) = false := fun v hv => by
    simp only [badParam]
    rw [Bool.eq_false_iff, ne_eq, real_le, real_lit]
    push_cast
    exact not_le.2 hv
  obtain ⟨t, htd⟩ : ∃ t, t = exactTools sol := ⟨_, rfl⟩
  have hq : ExactQuad t := by rw [htd]; exact fun f a b => rfl
  obtain ⟨s0, hs0⟩ : ∃ s0 : Sim ℝ, s0 = { sample with beta := beta } := ⟨_, rfl⟩
  have ha : s0.alpha = 1 := by rw [hs0]; rfl
  have hbe : s0.beta = beta := by rw [hs0]
  have hok := search_never_reports s0 t (some L) (some (sol 0).2.2) (fun p => by rw [htd]; exact ⟨_, rfl, rfl⟩) (fun f a b => ⟨_, hq f a b⟩)
    (fun f a b => by rw [htd]; exact ⟨1, rfl⟩) (hp L hL) (hp _ hw) (by
      rw [Bool.eq_false_iff, ne_eq, real_eq, real_lit, ha, hbe]; push_cast; linarith)
  have hstep : sample.step (.resetBeta t beta (some L) (some (sol 0).2.2)) = s0.setSolutionParameters t (some L) (some (sol 0).2.2) := by
    rw [hs0]
    simp only [Sim.step, Sim.resetBeta, hbb]
    rfl
  have hcur : Current (s0.setSolutionParameters t (some L) (some (sol 0).2.2)).1 := by
    rw [← hstep]
    exact .solved _ _ (.falknerSkan _ _ _ _ _ _ _ sample_made) trivial (by rw [hstep]; exact hok)
  obtain ⟨eta, w, c1, c2, r, g1, g2, -, -, -, g3, g4, -⟩ := set_ok _ _ _ _ hok
  simp only [search, Except.ok.injEq, Prod.mk.injEq] at g1
  rw [htd] at g2
  cases g2
  have hsame := set_same s0 t (some L) (some (sol 0).2.2)
  have k1 : (s0.setSolutionParameters t (some L) (some (sol 0).2.2)).1.beta = beta := hsame.2.2.2.2.1.trans hbe
  have k2 : (s0.setSolutionParameters t (some L) (some (sol 0).2.2)).1.etaInf = L := g3.trans g1.1.symm
  obtain ⟨sol', j1, -, -, -, j2⟩ := set_stored s0 t _ _ hok hq
  rw [g4] at j1
  cases j1
  refine ⟨_, ⟨hcur, by rw [k1]; exact hb2, g4, by rw [k2]; exact hL, ?_, j2, by rw [k2]; exact hb, hw, by rw [k1, k2]; exact ht⟩, k1, k2⟩
  rw [(reached_inRange _ hcur.reached).alpha, k1, k2]
  exact hx

/-- Non-vacuity of `Profile` for every pressure gradient, accelerating or not. -/
theorem profile_exists {beta : ℝ} (hb0 : -19884/100000 ≤ beta) (hb2 : beta < 2) : ∃ s sol, Profile s sol ∧ s.beta = beta := by
  obtain ⟨L, sol, h1, h2, h3, -, -, -, h4⟩ := exact_exists 1 beta
  have o := profile_order h1 h2 fun e m => (h4 e m).1
  obtain ⟨s, hs, hb, -⟩ := profile_obtained hb0 hb2 h1 h2 (fun e m => by
    have := o.1.monotoneOn (left_mem_Icc.2 h1.le) m m.1
    rw [abs_of_nonneg (by simpa [h2.f1] using this)]
    exact (h4 e m).2.le) (by rw [h3]; exact one_pos) (fun _ => (h4 L (right_mem_Icc.2 h1.le)).1)
  exact ⟨s, sol, hs, hb⟩

/-- Non-vacuity of `Profile.shapeD_gt`: a flat plate solution on `[0, 3]`. -/
theorem profile_long : ∃ s sol, Profile s sol ∧ s.beta = 0 ∧ 1 ≤ (sol 0).2.2 * s.etaInf ∧ 3 * (sol 0).2.2 * (sol s.etaInf).2.2 < 1 + s.beta := by
  obtain ⟨sol, h1, h2⟩ := blasius_exists (w := 1 / 3) (L := 3) (by norm_num) (by norm_num)
  have hL : (0:ℝ) < 3 := by norm_num
  have hr := rises_blasius hL h1 (by rw [h2]; norm_num)
  have o := profile_order hL h1 hr
  have hs : ∀ e ∈ Icc (0:ℝ) 3, (sol e).2.2 ≤ 1 / 3 := by
    have ha : AntitoneOn (fun e => (sol e).2.2) (Icc 0 3) := by
      refine antitoneOn_of_hasDerivWithinAt_nonpos (convex_Icc 0 _) h1.c2
        (fun t ht => ((h1.d2 t (by rwa [interior_Icc] at ht)).hasDerivWithinAt)) fun t ht => ?_
      rw [interior_Icc] at ht
      have h4 := mul_pos (o.2.2 t ⟨ht.1, ht.2.le⟩) (hr t (Ioo_subset_Icc_self ht))
      linarith
    intro e m
    have := ha (left_mem_Icc.2 hL.le) m m.1
    rwa [← h2]
  have hu : ∀ e ∈ Icc (0:ℝ) 3, (sol e).2.1 ≤ 1 := by
    have ha : AntitoneOn (fun e => (sol e).2.1 - 1 / 3 * e) (Icc 0 3) := by
      refine antitoneOn_of_hasDerivWithinAt_nonpos (convex_Icc 0 _) (h1.c1.sub (continuousOn_const.mul continuousOn_id))
        (fun t ht => (((h1.d1 t (by rwa [interior_Icc] at ht)).sub ((hasDerivAt_id t).const_mul _)).hasDerivWithinAt)) fun t ht => ?_
      have := hs t (interior_subset ht)
      linarith
    intro e m
    have := ha (left_mem_Icc.2 hL.le) m m.1
    simp only [h1.f1] at this
    have := m.2
    linarith
  obtain ⟨s, h3, h4, h5⟩ := profile_obtained (by norm_num) (by norm_num) hL h1 (fun e m => by
    have := o.1.monotoneOn (left_mem_Icc.2 hL.le) m m.1
    rw [abs_of_nonneg (by simpa [h1.f1] using this)]
    exact hu e m) (by rw [h2]; norm_num) (fun h => absurd h (lt_irrefl _))
  refine ⟨s, sol, h3, h4, ?_, ?_⟩
  · rw [h2, h5]; norm_num
  · rw [h2, h5, h4]
    have := hs 3 (right_mem_Icc.2 hL.le)
    linarith

end IBL.Analytic
