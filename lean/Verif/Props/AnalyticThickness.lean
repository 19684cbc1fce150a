import Mathlib.Analysis.ODE.ExistUnique
import Mathlib.Analysis.Calculus.Deriv.MeanValue
import Mathlib.MeasureTheory.Integral.IntervalIntegral.FundThmCalculus
import Verif.Props.AnalyticFlow

/-! C35: the thickness integrals of the similarity solutions, in exact arithmetic. -/

set_option linter.unusedSectionVars false

namespace IBL.Analytic
open Set

variable [PySpecial ℝ]

/-- The boundary layer integrals of a profile over `[0, L]`. -/
noncomputable def intD (sol : ℝ → V3 ℝ) (L : ℝ) : ℝ := ∫ e in (0:ℝ)..L, (1 - (sol e).2.1)
noncomputable def intM (sol : ℝ → V3 ℝ) (L : ℝ) : ℝ := ∫ e in (0:ℝ)..L, (sol e).2.1 * (1 - (sol e).2.1)
noncomputable def intK (sol : ℝ → V3 ℝ) (L : ℝ) : ℝ := ∫ e in (0:ℝ)..L, (sol e).2.1 * (1 - (sol e).2.1 ^ 2)

/-- `sol = (f, f', f'')` solves `f''' + alpha f f'' + beta (1 - f'^2) = 0` on `[0, L]` with `f = f' = 0` at the wall. -/
structure ExactOn (alpha beta : ℝ) (sol : ℝ → V3 ℝ) (L : ℝ) : Prop where
  f0 : (sol 0).1 = 0
  f1 : (sol 0).2.1 = 0
  c0 : ContinuousOn (fun e => (sol e).1) (Icc 0 L)
  c1 : ContinuousOn (fun e => (sol e).2.1) (Icc 0 L)
  c2 : ContinuousOn (fun e => (sol e).2.2) (Icc 0 L)
  d0 : ∀ e ∈ Ioo 0 L, HasDerivAt (fun e => (sol e).1) (sol e).2.1 e
  d1 : ∀ e ∈ Ioo 0 L, HasDerivAt (fun e => (sol e).2.1) (sol e).2.2 e
  d2 : ∀ e ∈ Ioo 0 L, HasDerivAt (fun e => (sol e).2.2) (-(alpha * (sol e).1 * (sol e).2.2) - beta * (1 - (sol e).2.1 ^ 2)) e

/-- The quadrature is exact. -/
def ExactQuad (t : Tools ℝ) : Prop := ∀ f a b, t.quad f a b = .ok (∫ x in a..b, f x)

theorem ftc {g g' : ℝ → ℝ} {L : ℝ} (hL : 0 ≤ L) (hc : ContinuousOn g (Icc 0 L)) (hd : ∀ e ∈ Ioo 0 L, HasDerivAt g (g' e) e)
    (hc' : ContinuousOn g' (Icc 0 L)) : ∫ e in (0:ℝ)..L, g' e = g L - g 0 :=
  intervalIntegral.integral_eq_sub_of_hasDeriv_right_of_le hL hc (fun e he => (hd e he).hasDerivWithinAt)
    (ContinuousOn.intervalIntegrable (by rwa [uIcc_of_le hL]))

variable {alpha beta L : ℝ} {sol : ℝ → V3 ℝ}

theorem intD_eq (hL : 0 ≤ L) (h : ExactOn alpha beta sol L) : intD sol L = L - (sol L).1 := by
  rw [intD, ftc (g := fun e => e - (sol e).1) hL (continuousOn_id.sub h.c0) (fun e he => (hasDerivAt_id e).sub (h.d0 e he))
    (continuousOn_const.sub h.c1), h.f0]
  ring

theorem intM_eq (hL : 0 ≤ L) (h : ExactOn alpha beta sol L) :
    (alpha + beta) * intM sol L = (sol 0).2.2 - beta * intD sol L - (sol L).2.2 + alpha * (sol L).1 * (1 - (sol L).2.1) := by
  -- `-f'' + alpha f (1 - f')` has derivative `(alpha + beta) f'(1 - f') + beta (1 - f')`
  have h1 : ∫ e in (0:ℝ)..L, ((alpha + beta) * ((sol e).2.1 * (1 - (sol e).2.1)) + beta * (1 - (sol e).2.1)) =
      (-(sol L).2.2 + alpha * (sol L).1 * (1 - (sol L).2.1)) - (-(sol 0).2.2 + alpha * (sol 0).1 * (1 - (sol 0).2.1)) := by
    refine ftc (g := fun e => -(sol e).2.2 + alpha * (sol e).1 * (1 - (sol e).2.1)) hL ?_ (fun e he => ?_) ?_
    · exact h.c2.neg.add ((continuousOn_const.mul h.c0).mul (continuousOn_const.sub h.c1))
    · refine ((h.d2 e he).neg.add (((h.d0 e he).const_mul alpha).mul ((h.d1 e he).const_sub 1))).congr_deriv ?_
      ring
    · exact (continuousOn_const.mul (h.c1.mul (continuousOn_const.sub h.c1))).add (continuousOn_const.mul (continuousOn_const.sub h.c1))
  have i1 : IntervalIntegrable (fun e => (alpha + beta) * ((sol e).2.1 * (1 - (sol e).2.1))) MeasureTheory.volume 0 L :=
    ContinuousOn.intervalIntegrable (by
      rw [uIcc_of_le hL]; exact continuousOn_const.mul (h.c1.mul (continuousOn_const.sub h.c1)))
  have i2 : IntervalIntegrable (fun e => beta * (1 - (sol e).2.1)) MeasureTheory.volume 0 L :=
    ContinuousOn.intervalIntegrable (by rw [uIcc_of_le hL]; exact continuousOn_const.mul (continuousOn_const.sub h.c1))
  rw [intervalIntegral.integral_add i1 i2, intervalIntegral.integral_const_mul, intervalIntegral.integral_const_mul, h.f0] at h1
  rw [intM, intD]
  linarith

theorem intK_eq (hL : 0 ≤ L) (h : ExactOn alpha beta sol L) :
    ∫ e in (0:ℝ)..L, 2 * (sol e).1 * (sol e).2.1 * (sol e).2.2 = intK sol L - (sol L).1 * (1 - (sol L).2.1 ^ 2) := by
  have h1 : ∫ e in (0:ℝ)..L, (2 * (sol e).1 * (sol e).2.1 * (sol e).2.2 - (sol e).2.1 * (1 - (sol e).2.1 ^ 2)) =
      (-(sol L).1 * (1 - (sol L).2.1 ^ 2)) - (-(sol 0).1 * (1 - (sol 0).2.1 ^ 2)) := by
    refine ftc (g := fun e => -(sol e).1 * (1 - (sol e).2.1 ^ 2)) hL ?_ (fun e he => ?_) ?_
    · exact h.c0.neg.mul (continuousOn_const.sub (h.c1.pow 2))
    · refine ((h.d0 e he).neg.mul (((h.d1 e he).pow 2).const_sub 1)).congr_deriv ?_
      simp only [Pi.pow_apply, Pi.neg_apply, Nat.cast_ofNat]
      ring
    · exact (((continuousOn_const.mul h.c0).mul h.c1).mul h.c2).sub (h.c1.mul (continuousOn_const.sub (h.c1.pow 2)))
  have i1 : IntervalIntegrable (fun e => 2 * (sol e).1 * (sol e).2.1 * (sol e).2.2) MeasureTheory.volume 0 L :=
    ContinuousOn.intervalIntegrable (by rw [uIcc_of_le hL]; exact ((continuousOn_const.mul h.c0).mul h.c1).mul h.c2)
  have i2 : IntervalIntegrable (fun e => (sol e).2.1 * (1 - (sol e).2.1 ^ 2)) MeasureTheory.volume 0 L :=
    ContinuousOn.intervalIntegrable (by rw [uIcc_of_le hL]; exact h.c1.mul (continuousOn_const.sub (h.c1.pow 2)))
  rw [intervalIntegral.integral_sub i1 i2, h.f0] at h1
  rw [intK]
  linarith

/-- What a successful call stored. -/
theorem set_stored (s : Sim ℝ) (t : Tools ℝ) (e fw : Option ℝ) (hok : (s.setSolutionParameters t e fw).2 = .ok ()) (hq : ExactQuad t) :
    ∃ sol, (s.setSolutionParameters t e fw).1.f = some sol ∧
      let s' := (s.setSolutionParameters t e fw).1
      s'.etaD = s'.etaInf - (sol s'.etaInf).1 ∧ s.alpha + s.beta ≠ 0 ∧ s'.etaM = ((sol 0).2.2 - s.beta * s'.etaD) / (s.alpha + s.beta) ∧
      s'.etaK = ∫ e in (0:ℝ)..s'.etaInf, 2 * (sol e).1 * (sol e).2.1 * (sol e).2.2 := by
  obtain ⟨eta, w, c1, c2, r, -, -, -, -, -, -, -, ht⟩ := set_ok s t e fw hok
  rw [← ht] at hok ⊢
  refine ⟨r.sol, ?_⟩
  simp only [Sim.thicknesses, pyDiv] at hok ⊢
  by_cases h0 : PyCmp.eq (s.alpha + s.beta) (lit 0) = true
  · rw [if_pos h0] at hok; cases hok
  · rw [if_neg h0] at hok ⊢
    dsimp only at hok ⊢
    have hk := hq (fun eta => lit 2 * (r.sol eta).1 * (r.sol eta).2.1 * (r.sol eta).2.2) (lit 0) eta
    rw [hk] at hok ⊢
    dsimp only at hok ⊢
    have h1 : s.alpha + s.beta ≠ 0 := by
      rw [real_eq, real_lit] at h0; push_cast at h0; exact h0
    split at hok
    · cases hok
    · next c q hq =>
      split at hok
      · next hc =>
        rw [if_pos hc]
        refine ⟨rfl, rfl, h1, ?_, ?_⟩
        · simp only [Sim.fwPp, real_lit]; push_cast; rfl
        · simp only [real_lit]; push_cast; rfl
      · cases hok

/-- **C35**, what holds: if the integrator returned an exact solution on `[0, eta_inf]` and the quadrature is exact, then the reported `eta_d` is the
displacement integral, and the reported `eta_m` and `eta_k` are the momentum and energy integrals up to terms that vanish with
`1 - f'(eta_inf)` and `f''(eta_inf)`. (Equality is impossible at a finite `eta_inf`, see `thickness_integrals_fail`.) -/
theorem thickness_integrals_partial (s : Sim ℝ) (t : Tools ℝ) (e fw : Option ℝ) (hok : (s.setSolutionParameters t e fw).2 = .ok ())
    (hq : ExactQuad t) :
    let s' := (s.setSolutionParameters t e fw).1
    ∃ sol, s'.f = some sol ∧ (0 ≤ s'.etaInf → ExactOn s.alpha s.beta sol s'.etaInf →
      s'.etaD = intD sol s'.etaInf ∧
      s'.etaM = intM sol s'.etaInf + ((sol s'.etaInf).2.2 - s.alpha * (sol s'.etaInf).1 * (1 - (sol s'.etaInf).2.1)) / (s.alpha + s.beta) ∧
      s'.etaK = intK sol s'.etaInf - (sol s'.etaInf).1 * (1 - (sol s'.etaInf).2.1 ^ 2)) := by
  intro s'
  obtain ⟨sol, h1, h2, h3, h4, h5⟩ := set_stored s t e fw hok hq
  refine ⟨sol, h1, fun hL hx => ?_⟩
  have hD : s'.etaD = intD sol s'.etaInf := h2.trans (intD_eq hL hx).symm
  refine ⟨hD, ?_, h5.trans (intK_eq hL hx)⟩
  have hM := intM_eq hL hx
  rw [show s'.etaM = _ from h4, show (s.setSolutionParameters t e fw).1.etaD = _ from hD]
  field_simp
  linarith

/-- **C35**, with the tolerances of the search: if the end conditions hold to within `tol`, `eta_m` and `eta_k` are off by a small multiple of `tol`. -/
theorem thickness_integrals_close_partial (s : Sim ℝ) (t : Tools ℝ) (e fw : Option ℝ) (hok : (s.setSolutionParameters t e fw).2 = .ok ())
    (hq : ExactQuad t) (hp : 0 < s.alpha + s.beta) (tol : ℝ) :
    let s' := (s.setSolutionParameters t e fw).1
    ∃ sol, s'.f = some sol ∧ (0 ≤ s'.etaInf → ExactOn s.alpha s.beta sol s'.etaInf →
      |1 - (sol s'.etaInf).2.1| ≤ tol → |(sol s'.etaInf).2.2| ≤ tol →
      s'.etaD = intD sol s'.etaInf ∧
      |s'.etaM - intM sol s'.etaInf| ≤ (1 + |s.alpha| * |(sol s'.etaInf).1|) * tol / (s.alpha + s.beta) ∧
      |s'.etaK - intK sol s'.etaInf| ≤ |(sol s'.etaInf).1| * ((2 + tol) * tol)) := by
  intro s'
  obtain ⟨sol, h1, h2⟩ := thickness_integrals_partial s t e fw hok hq
  refine ⟨sol, h1, fun hL hx ht1 ht2 => ?_⟩
  obtain ⟨h3, h4, h5⟩ := h2 hL hx
  have htol : 0 ≤ tol := (abs_nonneg _).trans ht1
  refine ⟨h3, ?_, ?_⟩
  · rw [show s'.etaM = _ from h4, add_sub_cancel_left, abs_div, abs_of_pos hp]
    refine div_le_div_of_nonneg_right ?_ hp.le
    calc |(sol s'.etaInf).2.2 - s.alpha * (sol s'.etaInf).1 * (1 - (sol s'.etaInf).2.1)|
        ≤ |(sol s'.etaInf).2.2| + |s.alpha * (sol s'.etaInf).1 * (1 - (sol s'.etaInf).2.1)| := abs_sub _ _
      _ = |(sol s'.etaInf).2.2| + |s.alpha| * |(sol s'.etaInf).1| * |1 - (sol s'.etaInf).2.1| := by rw [abs_mul, abs_mul]
      _ ≤ tol + |s.alpha| * |(sol s'.etaInf).1| * tol := by gcongr
      _ = _ := by ring
  · rw [show s'.etaK = _ from h5, sub_sub_cancel_left, abs_neg, abs_mul]
    refine mul_le_mul_of_nonneg_left ?_ (abs_nonneg _)
    have : 1 - (sol s'.etaInf).2.1 ^ 2 = (2 - (1 - (sol s'.etaInf).2.1)) * (1 - (sol s'.etaInf).2.1) := by ring
    rw [this, abs_mul]
    gcongr
    calc |2 - (1 - (sol s'.etaInf).2.1)| ≤ |2| + |1 - (sol s'.etaInf).2.1| := abs_sub _ _
      _ ≤ 2 + tol := by rw [abs_of_pos (by norm_num : (0:ℝ) < 2)]; gcongr

/-- **C35** as stated: for an exact solution the reported values equal the integrals. -/
def ThicknessIntegrals : Prop :=
  ∀ (s : Sim ℝ) (t : Tools ℝ) (e fw : Option ℝ) (sol : ℝ → V3 ℝ), Reached s → ExactQuad t → (s.setSolutionParameters t e fw).2 = .ok () →
    let s' := (s.setSolutionParameters t e fw).1
    s'.f = some sol → 0 < s'.etaInf → ExactOn s.alpha s.beta sol s'.etaInf →
      s'.etaD = intD sol s'.etaInf ∧ s'.etaM = intM sol s'.etaInf ∧ s'.etaK = intK sol s'.etaInf

/-- Exact solutions exist on some interval, with `f'' > 0` and `f' < 1` on it, `f > 0` and `f' > 0` at its end (Picard-Lindelöf). -/
theorem exact_exists (alpha beta : ℝ) : ∃ (L : ℝ) (sol : ℝ → V3 ℝ), 0 < L ∧ ExactOn alpha beta sol L ∧ (sol 0).2.2 = 1 ∧
    0 < (sol L).1 ∧ 0 < (sol L).2.1 ∧ (sol L).2.1 < 1 ∧ ∀ e ∈ Icc 0 L, 0 < (sol e).2.2 ∧ (sol e).2.1 < 1 := by
  let F : V3 ℝ → V3 ℝ := fun p => (p.2.1, p.2.2, -(alpha * p.1 * p.2.2) - beta * (1 - p.2.1 ^ 2))
  have hF : ContDiff ℝ 1 F := by
    refine contDiff_fst.comp contDiff_snd |>.prodMk ((contDiff_snd.comp contDiff_snd).prodMk ?_)
    refine ContDiff.sub (ContDiff.neg ?_) ?_
    · exact (contDiff_const.mul contDiff_fst).mul (contDiff_snd.comp contDiff_snd)
    · exact contDiff_const.mul (contDiff_const.sub ((contDiff_fst.comp contDiff_snd).pow 2))
  obtain ⟨sol, h0, ε, hε, hd⟩ := (hF.contDiffAt (x := ((0, 0, 1) : V3 ℝ))).exists_forall_mem_closedBall_exists_eq_forall_mem_Ioo_hasDerivAt₀ 0
  have k0 : ∀ x ∈ Ioo (-ε) ε, HasDerivAt (fun e => (sol e).1) (sol x).2.1 x := fun x hx => by
    have := (hasFDerivAt_fst (𝕜 := ℝ) (p := sol x)).comp_hasDerivAt x (hd x (by simpa using hx))
    exact this
  have k12 : ∀ x ∈ Ioo (-ε) ε, HasDerivAt (fun e => (sol e).2) (F (sol x)).2 x := fun x hx => by
    have := (hasFDerivAt_snd (𝕜 := ℝ) (p := sol x)).comp_hasDerivAt x (hd x (by simpa using hx))
    exact this
  have k1 : ∀ x ∈ Ioo (-ε) ε, HasDerivAt (fun e => (sol e).2.1) (sol x).2.2 x := fun x hx => by
    have := (hasFDerivAt_fst (𝕜 := ℝ) (p := (sol x).2)).comp_hasDerivAt x (k12 x hx)
    exact this
  have k2 : ∀ x ∈ Ioo (-ε) ε, HasDerivAt (fun e => (sol e).2.2) (F (sol x)).2.2 x := fun x hx => by
    have := (hasFDerivAt_snd (𝕜 := ℝ) (p := (sol x).2)).comp_hasDerivAt x (k12 x hx)
    exact this
  have z : (0:ℝ) ∈ Ioo (-ε) ε := ⟨by linarith, hε⟩
  have e2 : (sol 0).2.2 = 1 := by rw [h0]
  have e1 : (sol 0).2.1 = 0 := by rw [h0]
  have e0 : (sol 0).1 = 0 := by rw [h0]
  -- near 0: `f'' > 0` and `f' < 1`
  have n1 : ∀ᶠ x in nhds (0:ℝ), 0 < (sol x).2.2 ∧ (sol x).2.1 < 1 := by
    have a := (k2 0 z).continuousAt.eventually (lt_mem_nhds (show (0:ℝ) < (sol 0).2.2 by rw [e2]; exact one_pos))
    have b := (k1 0 z).continuousAt.eventually (gt_mem_nhds (show (sol 0).2.1 < 1 by rw [e1]; exact one_pos))
    exact a.and b
  obtain ⟨δ, hδ, hn⟩ := Metric.eventually_nhds_iff.1 n1
  obtain ⟨L, hL0, hL1⟩ := exists_between (lt_min hε hδ)
  have hLe : L < ε := hL1.trans_le (min_le_left _ _)
  have hLd : L < δ := hL1.trans_le (min_le_right _ _)
  have sub : ∀ x ∈ Icc 0 L, x ∈ Ioo (-ε) ε := fun x hx => ⟨by linarith [hx.1], hx.2.trans_lt hLe⟩
  have near : ∀ x ∈ Icc 0 L, 0 < (sol x).2.2 ∧ (sol x).2.1 < 1 := fun x hx => hn (by
    rw [Real.dist_eq, sub_zero, abs_of_nonneg hx.1]; exact hx.2.trans_lt hLd)
  have c0 : ContinuousOn (fun e => (sol e).1) (Icc 0 L) := fun x hx => (k0 x (sub x hx)).continuousAt.continuousWithinAt
  have c1 : ContinuousOn (fun e => (sol e).2.1) (Icc 0 L) := fun x hx => (k1 x (sub x hx)).continuousAt.continuousWithinAt
  have c2 : ContinuousOn (fun e => (sol e).2.2) (Icc 0 L) := fun x hx => (k2 x (sub x hx)).continuousAt.continuousWithinAt
  have m1 : StrictMonoOn (fun e => (sol e).2.1) (Icc 0 L) := strictMonoOn_of_deriv_pos (convex_Icc 0 L) c1 fun x hx => by
    have hx' := interior_subset hx
    rw [(k1 x (sub x hx')).deriv]
    exact (near x hx').1
  have p1 : ∀ x ∈ Ioc 0 L, 0 < (sol x).2.1 := fun x hx => by
    have := m1 (left_mem_Icc.2 hL0.le) ⟨hx.1.le, hx.2⟩ hx.1
    simpa [e1] using this
  have m0 : StrictMonoOn (fun e => (sol e).1) (Icc 0 L) := strictMonoOn_of_deriv_pos (convex_Icc 0 L) c0 fun x hx => by
    rw [interior_Icc] at hx
    rw [(k0 x (sub x (Ioo_subset_Icc_self hx))).deriv]
    exact p1 x ⟨hx.1, hx.2.le⟩
  have p0 : 0 < (sol L).1 := by
    have := m0 (left_mem_Icc.2 hL0.le) (right_mem_Icc.2 hL0.le) hL0
    simpa [e0] using this
  exact ⟨L, sol, hL0, ⟨e0, e1, c0, c1, c2, fun x hx => k0 x (sub x (Ioo_subset_Icc_self hx)),
    fun x hx => k1 x (sub x (Ioo_subset_Icc_self hx)), fun x hx => k2 x (sub x (Ioo_subset_Icc_self hx))⟩, e2, p0, p1 L ⟨hL0, le_rfl⟩,
    (near L (right_mem_Icc.2 hL0.le)).2, near⟩

/-- Tools that answer with a given profile and integrate exactly. -/
noncomputable def exactTools (sol : ℝ → V3 ℝ) : Tools ℝ where
  ivp p := .ok ⟨true, sol p.tEnd, sol⟩
  quad f a b := .ok (∫ x in a..b, f x)
  root _ _ _ := .ok (true, 1)

/-- Non-vacuity of the theorems above: an accepted call on an existing object, answered by an exact solution. -/
theorem exact_call : ∃ (t : Tools ℝ) (e fw : Option ℝ) (sol : ℝ → V3 ℝ),
    ExactQuad t ∧ (sample.setSolutionParameters t e fw).2 = .ok () ∧
    (let s' := (sample.setSolutionParameters t e fw).1
     s'.f = some sol ∧ 0 < s'.etaInf ∧ ExactOn sample.alpha sample.beta sol s'.etaInf ∧
       0 < (sol s'.etaInf).1 ∧ 0 < (sol s'.etaInf).2.1 ∧ (sol s'.etaInf).2.1 < 1) := by
  obtain ⟨L, sol, h1, h2, h3, h4, h5, h6, -⟩ := exact_exists sample.alpha sample.beta
  have hq : ExactQuad (exactTools sol) := fun f a b => rfl
  have hd : PyCmp.eq (sample.alpha + sample.beta) (lit 0) = false := by rw [Bool.eq_false_iff]; simp [sample]
  have hb : ∀ v : ℝ, 0 < v → badParam (some v) = false := fun v hv => by
    simp only [badParam]
    rw [Bool.eq_false_iff, ne_eq, real_le, real_lit]
    push_cast
    exact not_le.2 hv
  have hok := search_never_reports sample (exactTools sol) (some L) (some 1) (fun p => ⟨_, rfl, rfl⟩) (fun f a b => ⟨_, rfl⟩)
    (fun f a b => ⟨1, rfl⟩) (hb L h1) (hb 1 one_pos) hd
  obtain ⟨eta, w, c1, c2, r, g1, g2, -, -, -, g3, g4, -⟩ := set_ok _ _ _ _ hok
  simp only [search, Except.ok.injEq, Prod.mk.injEq] at g1
  cases g2
  refine ⟨exactTools sol, some L, some 1, sol, hq, hok, ?_⟩
  dsimp only
  rw [g3, ← g1.1]
  exact ⟨g4, h1, h2, h4, h5, h6⟩

/-- **C35** as stated is false: `eta_k` differs from the energy integral for every exact solution with `f(eta_inf) > 0` and `0 < f'(eta_inf) < 1`. -/
theorem thickness_integrals_fail : ¬ ThicknessIntegrals := fun H => by
  obtain ⟨t, e, fw, sol, hq, hok, hf, hL, hx, h4, h5, h6⟩ := exact_call
  obtain ⟨-, -, h⟩ := H sample t e fw sol (.falknerSkan _ _ _ _ _ _ _ sample_made) hq hok hf hL hx
  obtain ⟨sol', hf', g⟩ := thickness_integrals_partial sample t e fw hok hq
  rw [hf] at hf'
  cases hf'
  have h' := (g hL.le hx).2.2
  rw [h] at h'
  have : 0 < (sol (sample.setSolutionParameters t e fw).1.etaInf).1 * (1 - (sol (sample.setSolutionParameters t e fw).1.etaInf).2.1 ^ 2) := by
    refine mul_pos h4 ?_
    nlinarith
  linarith

end IBL.Analytic
