import Verif.Props.AnalyticFlow
import Mathlib.Analysis.SpecialFunctions.Integrals.Basic

/-! C142: drag and energy loss of the similarity layers from the leading edge on, in exact arithmetic. -/

set_option linter.unusedSectionVars false

namespace IBL.Analytic

open MeasureTheory

variable [PySpecial ℝ] {s : Sim ℝ}

/-! ### Powers of x -/

/-- A function that is a power of `x` behind the leading edge can be integrated from there if the power is above -1. -/
private theorem power_integral {f : ℝ → ℝ} {c p X : ℝ} (hp : -1 < p) (hX : 0 < X) (hf : ∀ x > 0, f x = c * x ^ p) :
    IntervalIntegrable f volume 0 X ∧ ∫ x in (0:ℝ)..X, f x = X * f X / (p + 1) := by
  have hc : Set.EqOn (fun x => c * x ^ p) f (Set.uIoc 0 X) := fun x hx => by
    rw [Set.uIoc_of_le hX.le] at hx
    exact (hf x hx.1).symm
  constructor
  · exact ((intervalIntegral.intervalIntegrable_rpow' hp).const_mul c).congr hc
  · have : ∫ x in (0:ℝ)..X, f x = ∫ x in (0:ℝ)..X, c * x ^ p :=
      intervalIntegral.integral_congr_ae (Filter.Eventually.of_forall fun x hx => (hc hx).symm)
    rw [this, intervalIntegral.integral_const_mul, integral_rpow (.inl hp), Real.zero_rpow (by linarith), sub_zero, hf X hX, Real.rpow_add_one hX.ne']
    ring

private theorem gg_power (hs : InRange s) (hb : s.beta < 2) {x : ℝ} (hx : 0 < x) :
    gg s x = Real.sqrt (s.uRef / ((2 - s.beta) * s.nuRef)) * x ^ ((s.beta / (2 - s.beta) - 1) / 2) := by
  have h2 : 0 < 2 - s.beta := by linarith
  have hn := hs.nu_pos
  have hu := hs.u_pos
  rw [gg, ue, show s.uRef * x ^ (s.beta / (2 - s.beta)) / ((2 - s.beta) * s.nuRef * x) =
    s.uRef / ((2 - s.beta) * s.nuRef) * (x ^ (s.beta / (2 - s.beta)) / x) by field_simp, Real.sqrt_mul (by positivity), ← Real.rpow_sub_one hx.ne',
    Real.sqrt_eq_rpow (x ^ _), ← Real.rpow_mul hx.le]
  congr 2
  ring

private theorem tau_ok (hs : InRange s) (hb : s.beta < 2) {x : ℝ} (hx : 0 < x) (rho : ℝ) :
    s.tauW x rho = .ok (rho * s.nuRef * ue s x * gg s x * s.fwPp) := by
  simp only [Sim.tauW, uE_ok hs hb hx, g_ok hs hb hx]; rfl

private theorem dis_ok (hs : InRange s) (hb : s.beta < 2) {x : ℝ} (hx : 0 < x) (rho : ℝ) :
    s.dissipation x rho = .ok (rho * s.nuRef * gg s x * (ue s x * ue s x) * (1 / 2 * (1 + 2 * s.beta) * s.etaK)) := by
  simp only [Sim.dissipation, uE_ok hs hb hx, g_ok hs hb hx, hs.alpha, real_lit]
  show Except.ok _ = _
  push_cast
  rfl

private theorem exponents (hs : InRange s) (hb : s.beta < 2) : 0 < 2 - s.beta ∧ 0 < 1 + s.beta ∧ 0 < 1 + 2 * s.beta ∧
    s.beta / (2 - s.beta) + (s.beta / (2 - s.beta) - 1) / 2 + 1 = (1 + s.beta) / (2 - s.beta) ∧
    (s.beta / (2 - s.beta) - 1) / 2 + (s.beta / (2 - s.beta) + s.beta / (2 - s.beta)) + 1 = (1 + 2 * s.beta) / (2 - s.beta) := by
  have h2 : 0 < 2 - s.beta := by linarith
  have := hs.beta_lo
  refine ⟨h2, by linarith, by linarith, ?_, ?_⟩ <;> (field_simp; ring)

/-- **C142**, drag: for every object whose last request for a solution succeeded, the reported wall shear can be integrated from the leading edge
on (where it may be infinite), and the integral is the momentum lost plus what the pressure takes,
`int_0^X tau_w = rho u_e(X)^2 delta_m(X) + int_0^X rho delta_d u_e du_e`. It is `(2 - beta)/(1 + beta)` times `X tau_w(X)`. -/
theorem similarity_drag (hc : Current s) (hb : s.beta < 2) {rho X : ℝ} (hX : 0 < X) {U dU tau dd : ℝ → ℝ} (hU : ∀ x > 0, s.uE x = .ok (U x))
    (hdU : ∀ x > 0, HasDerivAt U (dU x) x) (htau : ∀ x > 0, s.tauW x rho = .ok (tau x)) (hdd : ∀ x > 0, s.deltaD x = .ok (dd x)) :
    ∃ m, s.deltaM X = .ok m ∧ IntervalIntegrable tau volume 0 X ∧ IntervalIntegrable (fun x => rho * dd x * U x * dU x) volume 0 X ∧
      ∫ x in (0:ℝ)..X, tau x = rho * U X ^ 2 * m + ∫ x in (0:ℝ)..X, rho * dd x * U x * dU x ∧
      ∫ x in (0:ℝ)..X, tau x = (2 - s.beta) / (1 + s.beta) * (X * tau X) := by
  have hs := reached_inRange _ hc.reached
  obtain ⟨sol, -, -, hm⟩ := hc.consistent
  obtain ⟨h2, h1, -, e1, -⟩ := exponents hs hb
  have h1b : s.alpha + s.beta ≠ 0 := by rw [hs.alpha]; exact h1.ne'
  have hw : s.fwPp = s.etaM * (1 + s.beta) + s.beta * s.etaD := by
    simp only [pyDiv] at hm
    rw [if_neg (by rw [real_eq, real_lit]; push_cast; exact h1b)] at hm
    have : s.etaM * (1 + s.beta) = s.fwPp - s.beta * s.etaD := by
      rw [← Except.ok.inj hm, ← hs.alpha, div_mul_cancel₀ _ h1b]
    linarith
  have u1 : ∀ x > 0, U x = ue s x := fun x hx => (Except.ok.inj ((uE_ok hs hb hx).symm.trans (hU x hx))).symm
  have t1 : ∀ x > 0, tau x = rho * s.nuRef * ue s x * gg s x * s.fwPp := fun x hx => (Except.ok.inj ((tau_ok hs hb hx rho).symm.trans (htau x hx))).symm
  have d1 : ∀ x > 0, dd x = s.etaD / gg s x := fun x hx => by
    have : s.deltaD x = .ok (s.etaD / gg s x) := by simp only [Sim.deltaD, g_ok hs hb hx]; rfl
    exact (Except.ok.inj (this.symm.trans (hdd x hx))).symm
  have du1 : ∀ x > 0, dU x = s.beta / (2 - s.beta) * ue s x / x := fun x hx =>
    (hdU x hx).unique ((ue_deriv hs hb hx).congr_of_eventuallyEq (by
      filter_upwards [lt_mem_nhds hx] with z hz using u1 z hz))
  -- what the pressure takes is the shear with another factor
  have p1 : ∀ x > 0, rho * dd x * U x * dU x = rho * s.nuRef * ue s x * gg s x * (s.beta * s.etaD) := fun x hx => by
    have hg := gg_pos hs hb hx
    have hsq := gg_sq hs hb hx
    rw [d1 x hx, u1 x hx, du1 x hx]
    have : ue s x = gg s x ^ 2 * ((2 - s.beta) * s.nuRef * x) := hsq.symm
    have hx' : x ≠ 0 := ne_of_gt hx
    rw [show rho * (s.etaD / gg s x) * ue s x * (s.beta / (2 - s.beta) * ue s x / x) = rho * s.etaD * s.beta * ue s x * (ue s x / (gg s x * (2 - s.beta) * x)) by
      field_simp]
    conv_lhs => rw [show ue s x / (gg s x * (2 - s.beta) * x) = gg s x * s.nuRef by rw [this]; field_simp]
    ring
  have hpow : ∀ k : ℝ, ∀ x > 0, rho * s.nuRef * ue s x * gg s x * k =
      (rho * s.nuRef * s.uRef * Real.sqrt (s.uRef / ((2 - s.beta) * s.nuRef)) * k) * x ^ (s.beta / (2 - s.beta) + (s.beta / (2 - s.beta) - 1) / 2) := fun k x hx => by
    rw [gg_power hs hb hx, ue, Real.rpow_add hx]
    ring
  have hp : -1 < s.beta / (2 - s.beta) + (s.beta / (2 - s.beta) - 1) / 2 := by
    have : 0 < (1 + s.beta) / (2 - s.beta) := div_pos h1 h2
    linarith
  obtain ⟨i1, i2⟩ := power_integral hp hX (f := tau) fun x hx => (t1 x hx).trans (hpow _ x hx)
  obtain ⟨i3, i4⟩ := power_integral hp hX (f := fun x => rho * dd x * U x * dU x) fun x hx => (p1 x hx).trans (hpow _ x hx)
  have hg := gg_pos hs hb hX
  refine ⟨s.etaM / gg s X, by simp only [Sim.deltaM, g_ok hs hb hX]; rfl, i1, i3, ?_, ?_⟩
  · rw [i2, i4, e1, t1 X hX, p1 X hX, hw, u1 X hX]
    have hsq := gg_sq hs hb hX
    rw [show rho * ue s X ^ 2 * (s.etaM / gg s X) = rho * ue s X * s.etaM * (ue s X / gg s X) by field_simp]
    rw [show ue s X / gg s X = gg s X * ((2 - s.beta) * s.nuRef * X) by rw [← hsq]; field_simp]
    field_simp
  · rw [i2, e1]
    field_simp

/-- **C142**, energy: the dissipation integrated from the leading edge on is the kinetic energy lost,
`int_0^X dissipation = rho u_e(X)^3 delta_k(X) / 2`, which is `(2 - beta)/(1 + 2 beta)` times `X` times the dissipation at `X`. -/
theorem similarity_energy_loss (hr : Reached s) (hb : s.beta < 2) {rho X : ℝ} (hX : 0 < X) {D : ℝ → ℝ} (hD : ∀ x > 0, s.dissipation x rho = .ok (D x)) :
    ∃ u k, s.uE X = .ok u ∧ s.deltaK X = .ok k ∧ IntervalIntegrable D volume 0 X ∧ ∫ x in (0:ℝ)..X, D x = 1 / 2 * rho * u ^ 3 * k ∧
      ∫ x in (0:ℝ)..X, D x = (2 - s.beta) / (1 + 2 * s.beta) * (X * D X) := by
  have hs := reached_inRange _ hr
  obtain ⟨h2, -, h1, -, e1⟩ := exponents hs hb
  have t1 : ∀ x > 0, D x = rho * s.nuRef * gg s x * (ue s x * ue s x) * (1 / 2 * (1 + 2 * s.beta) * s.etaK) := fun x hx =>
    (Except.ok.inj ((dis_ok hs hb hx rho).symm.trans (hD x hx))).symm
  have hp : -1 < (s.beta / (2 - s.beta) - 1) / 2 + (s.beta / (2 - s.beta) + s.beta / (2 - s.beta)) := by
    have : 0 < (1 + 2 * s.beta) / (2 - s.beta) := div_pos h1 h2
    linarith
  obtain ⟨i1, i2⟩ := power_integral (c := rho * s.nuRef * Real.sqrt (s.uRef / ((2 - s.beta) * s.nuRef)) * (s.uRef * s.uRef) *
      (1 / 2 * (1 + 2 * s.beta) * s.etaK)) hp hX (f := D) fun x hx => by
    rw [t1 x hx, gg_power hs hb hx, ue, Real.rpow_add hx, Real.rpow_add hx]
    ring
  have hg := gg_pos hs hb hX
  refine ⟨ue s X, s.etaK / gg s X, uE_ok hs hb hX, by simp only [Sim.deltaK, g_ok hs hb hX]; rfl, i1, ?_, ?_⟩
  · rw [i2, e1, t1 X hX]
    have hsq := gg_sq hs hb hX
    rw [show 1 / 2 * rho * ue s X ^ 3 * (s.etaK / gg s X) = 1 / 2 * rho * ue s X ^ 2 * s.etaK * (ue s X / gg s X) by field_simp]
    rw [show ue s X / gg s X = gg s X * ((2 - s.beta) * s.nuRef * X) by rw [← hsq]; field_simp]
    field_simp
  · rw [i2, e1]
    field_simp

private theorem made_with {t : Tools ℝ} {c : Cls} {u nu a b g : ℝ} {fw e : Option ℝ} (h : mkBase t c u nu a b g fw e = .ok s) : s.beta = b ∧ s.uRef = u := by
  simp only [mkBase] at h
  split at h
  · cases h
  · split at h
    · cases h
    · have hs := set_same (⟨c, u, nu, a, b, g, none, lit (-1), lit (-1), lit (-1), lit (-1), lit (-1)⟩ : Sim ℝ) t e fw
      split at h
      · cases h
      · next s' e' =>
        cases h
        rw [e'] at hs
        exact ⟨hs.2.2.2.2.1, hs.2.1⟩

/-- **C142**, plate: for a Blasius object the drag up to `X` is `rho U^2 delta_m(X)`, twice the local shear times the length. -/
theorem blasius_drag (t : Tools ℝ) (u nu : ℝ) (fw e : Option ℝ) (h : mkBlasius t u nu fw e = .ok s) {rho X : ℝ} (hX : 0 < X) {tau : ℝ → ℝ}
    (htau : ∀ x > 0, s.tauW x rho = .ok (tau x)) :
    ∃ m, s.deltaM X = .ok m ∧ ∫ x in (0:ℝ)..X, tau x = rho * u ^ 2 * m ∧ ∫ x in (0:ℝ)..X, tau x = 2 * (X * tau X) := by
  have hc : Current s := .blasius t u nu fw e s h
  have hs := reached_inRange _ hc.reached
  have hb0 : s.beta = 0 ∧ s.uRef = u := by
    rw [← show (lit 0 : ℝ) = 0 by simp]
    simp only [mkBlasius] at h
    split at h <;> exact made_with h
  obtain ⟨m, h1, -, -, h4, h5⟩ := similarity_drag hc (by rw [hb0.1]; norm_num) hX (U := fun _ => u) (dU := fun _ => 0) (fun x hx => by
    rw [uE_ok hs (by rw [hb0.1]; norm_num) hx, ue, hb0.1, hb0.2]; simp) (fun x _ => hasDerivAt_const x u) htau (dd := fun x => s.etaD / gg s x) (fun x hx => by
      simp only [Sim.deltaD, g_ok hs (by rw [hb0.1]; norm_num) hx]; rfl)
  refine ⟨m, h1, by simpa using h4, by rw [h5, hb0.1]; norm_num⟩

/-- Non-vacuity: a wedge flow whose constructor succeeded. -/
example : ∃ s : Sim ℝ, Current s ∧ s.beta < 2 ∧ s.f.isSome := ⟨sample, .falknerSkan _ _ _ _ _ _ _ sample_made, by simp [sample], rfl⟩

/-- Non-vacuity: a Blasius object. -/
example : ∃ s : Sim ℝ, mkBlasius quadratic 3 2 (some 1) (some 1) = .ok s := by
  simp [mkBlasius, mkBase, Sim.setSolutionParameters, badParam, Sim.calculateSolution, search, quadratic, Sim.thicknesses, Sim.fwPp, pyDiv]
  norm_num

end IBL.Analytic
