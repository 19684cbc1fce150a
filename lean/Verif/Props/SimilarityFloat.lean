import Verif.Props.Analytic
import Verif.Props.SkinFrictionFloat
import Verif.Props.LaminarQueriesFloat

/-! C162: the reported quantities of similarity solutions in rounded arithmetic. -/

set_option linter.unusedSectionVars false

namespace IBL.Analytic

open Rounding
open Pchip (Near)

variable {R : Rounding} [PyPow R.F] [PySpecial R.F]

/-! ### Specification -/

/-- An object as the constructors leave it: `alpha` is 1, the reference values are positive, and `beta` is below 2. -/
structure Regular (s : Sim R.F) : Prop where
  alpha : s.alpha.val = 1
  beta : s.beta.val < 2
  uRef : 0 < s.uRef.val
  nuRef : 0 < s.nuRef.val

/-! ### Proofs -/

private theorem two : (lit 2 : R.F).val = 2 := by simpa using val_int (R := R) 2 (by norm_num)

private theorem den_pos {s : Sim R.F} (h : Regular s) : 0 < (lit 2 * s.alpha - s.beta : R.F).val := by
  have t : (lit 2 * s.alpha : R.F).val = 2 := by
    have := (lit 2 : R.F).rep
    rw [val_mul, h.alpha, mul_one, this, two]
  exact rd_pos (by rw [t]; linarith [h.beta])

private theorem factor_pos {s : Sim R.F} (h : Regular s) : 0 < s.gFactor.val := by
  unfold Sim.gFactor
  cases s.cls
  · exact rd_pos (by rw [two]; linarith [h.beta])
  · rw [two]; norm_num

private theorem pyDiv_ok (a b : R.F) (h : 0 < b.val) : pyDiv a b = .ok (a / b) := by
  have e : PyCmp.eq b (lit 0) = false := by rw [Bool.eq_false_iff, ne_eq, F_eq, val_zero]; exact h.ne'
  simp [pyDiv, e]

private theorem uE_fl {s : Sim R.F} (h : Regular s) (x : R.F) (hx : 0 < x.val) :
    s.uE x = .ok (s.uRef * PyPow.pow x (s.beta / (lit 2 * s.alpha - s.beta))) := by
  have e : PyCmp.eq x (lit 0) = false := by rw [Bool.eq_false_iff, ne_eq, F_eq, val_zero]; exact hx.ne'
  simp only [Sim.uE, pyDiv_ok _ _ (den_pos h), pyPow, e, Bool.false_and, Bool.false_eq_true, if_false, bind, Except.bind, pure, Except.pure]

/-- **C162**: the edge velocity exists and is positive at every positive location, and does not decrease downstream if `beta` is not negative. -/
theorem rounded_similarity_velocity (E : Elementary R) (s : Sim R.F) (h : Regular s) (x x' : R.F) (hx : 0 < x.val) (hxx : x.val ≤ x'.val) :
    ∃ u u', s.uE x = .ok u ∧ s.uE x' = .ok u' ∧ 0 < u.val ∧ (0 ≤ s.beta.val → u.val ≤ u'.val) := by
  refine ⟨_, _, uE_fl h x hx, uE_fl h x' (hx.trans_le hxx), rd_pos (mul_pos h.uRef (E.pow_pos _ _ hx)), fun hb => ?_⟩
  exact R.mono (mul_le_mul_of_nonneg_left (E.pow_mono _ _ _ hx.le hxx (rd_nonneg (div_nonneg hb (den_pos h).le))) h.uRef.le)

private theorem g_fl (E : Elementary R) (s : Sim R.F) (h : Regular s) (x : R.F) (hx : 0 < x.val) : ∃ g, s.g x = .ok g ∧ 0 < g.val := by
  obtain ⟨u, -, hu, -, u0, -⟩ := rounded_similarity_velocity E s h x x hx le_rfl
  have d : 0 < (s.gFactor * s.nuRef * x : R.F).val := rd_pos (mul_pos (rd_pos (mul_pos (factor_pos h) h.nuRef)) hx)
  refine ⟨PySqrt.sqrt (u / (s.gFactor * s.nuRef * x)), ?_, rd_pos (Real.sqrt_pos.2 (rd_pos (div_pos u0 d)))⟩
  simp only [Sim.g, hu, pyDiv_ok _ _ d, bind, Except.bind, pure, Except.pure]

/-- **C162**: displacement, momentum, energy and shear thickness exist at every positive location and are positive if the thickness integrals are; they are in the order of the integrals,
whichever two are compared; `delta_d` over `delta_m` is the reported shape factor to four rounding errors. -/
theorem rounded_similarity_thicknesses (E : Elementary R) (s : Sim R.F) (h : Regular s) (x : R.F) (hx : 0 < x.val) (hD : 0 < s.etaD.val) (hM : 0 < s.etaM.val) :
    ∃ d m k t q, s.deltaD x = .ok d ∧ s.deltaM x = .ok m ∧ s.deltaK x = .ok k ∧ s.deltaS x = .ok t ∧ s.shapeD x = .ok q ∧
      0 < d.val ∧ 0 < m.val ∧ (0 < s.etaK.val → 0 < k.val) ∧ (0 < s.etaS.val → 0 < t.val) ∧
      (s.etaM.val ≤ s.etaD.val → m.val ≤ d.val ∧ 1 ≤ q.val) ∧ (s.etaD.val ≤ s.etaS.val → d.val ≤ t.val) ∧ (s.etaM.val ≤ s.etaK.val → m.val ≤ k.val) ∧
      Accurate R 4 q.val (d.val / m.val) := by
  obtain ⟨g, hg, g0⟩ := g_fl E s h x hx
  have m0 : 0 < (s.etaM / g : R.F).val := rd_pos (div_pos hM g0)
  have one : (lit 1 : R.F).val = 1 := val_one
  have qv : (s.etaD / s.etaM * lit 1 : R.F).val = R.rd (s.etaD.val / s.etaM.val) := by
    rw [val_mul, one, mul_one, (s.etaD / s.etaM : R.F).rep, val_div]
  refine ⟨s.etaD / g, s.etaM / g, s.etaK / g, s.etaS / g, s.etaD / s.etaM * lit 1, ?_, ?_, ?_, ?_, ?_, rd_pos (div_pos hD g0), m0, fun k => rd_pos (div_pos k g0), fun k => rd_pos (div_pos k g0),
    fun k => ⟨R.mono (div_le_div_of_nonneg_right k g0.le), ?_⟩, fun k => R.mono (div_le_div_of_nonneg_right k g0.le), fun k => R.mono (div_le_div_of_nonneg_right k g0.le), ?_⟩
  · simp only [Sim.deltaD, hg, bind, Except.bind, pure, Except.pure]
  · simp only [Sim.deltaM, hg, bind, Except.bind, pure, Except.pure]
  · simp only [Sim.deltaK, hg, bind, Except.bind, pure, Except.pure]
  · simp only [Sim.deltaS, hg, bind, Except.bind, pure, Except.pure]
  · simp only [Sim.shapeD, pyDiv_ok _ _ hM, bind, Except.bind, pure, Except.pure]
  · rw [qv, ← R.rd_one]
    exact R.mono ((one_le_div hM).2 k)
  · have a : Near R 1 (s.etaD / g : R.F).val (s.etaD.val / g.val) := (Near.refl _).rd
    have b : Near R 1 (s.etaM / g : R.F).val (s.etaM.val / g.val) := (Near.refl _).rd
    have c := a.div b
    rw [div_div_div_cancel_right₀ g0.ne'] at c
    obtain ⟨l, l1, l2, e⟩ := c
    have l0 : 0 < l := by
      have : 0 < (1 - R.eps) ^ (1 + 1) := pow_pos (by linarith [R.small]) _
      linarith
    have r : Near R 2 (s.etaD.val / s.etaM.val) ((s.etaD / g : R.F).val / (s.etaM / g : R.F).val) := by
      refine ⟨l⁻¹, ?_, ?_, ?_⟩
      · rw [le_inv_comm₀ (by nlinarith [R.small, R.eps_nonneg]) l0, ← one_div, le_div_iff₀ (by nlinarith [R.small, R.eps_nonneg])]; exact l2
      · rw [inv_mul_le_iff₀ l0, mul_one]; exact l1
      · rw [e, inv_mul_cancel_left₀ l0.ne']
    obtain ⟨l', -, hl, e'⟩ := (r.rd.mono (by norm_num : 2 + 1 ≤ 4)).coef (by norm_num)
    unfold Accurate
    rw [qv, e', show ∀ x : ℝ, l' * x - x = (l' - 1) * x from fun x => by ring, abs_mul]
    exact mul_le_mul_of_nonneg_right hl (abs_nonneg _)

/-- **C162**: the wall shear stress exists at every positive location and has the sign of the wall shear `fw''`, for every positive density. -/
theorem rounded_similarity_shear (E : Elementary R) (s : Sim R.F) (h : Regular s) (x rho : R.F) (hx : 0 < x.val) (hr : 0 < rho.val) :
    ∃ t, s.tauW x rho = .ok t ∧ (0 < t.val ↔ 0 < s.fwPp.val) ∧ (t.val < 0 ↔ s.fwPp.val < 0) := by
  obtain ⟨g, hg, g0⟩ := g_fl E s h x hx
  obtain ⟨u, -, hu, -, u0, -⟩ := rounded_similarity_velocity E s h x x hx le_rfl
  have p : 0 < (rho * s.nuRef * u * g : R.F).val := rd_pos (mul_pos (rd_pos (mul_pos (rd_pos (mul_pos hr h.nuRef)) u0)) g0)
  refine ⟨rho * s.nuRef * u * g * s.fwPp, ?_, ?_, ?_⟩
  · simp only [Sim.tauW, hg, hu, bind, Except.bind, pure, Except.pure]
  · rw [val_mul (rho * s.nuRef * u * g), rd_pos_iff, mul_pos_iff_of_pos_left p]
  · rw [val_mul (rho * s.nuRef * u * g), rd_neg_iff, ← neg_pos, ← mul_neg, mul_pos_iff_of_pos_left p, neg_pos]

/-- **C162**: every object that the public calls can produce is of this kind, unless `beta` is 2 exactly. -/
theorem rounded_similarity_regular (s : Sim R.F) (h : Reached s) (hb : s.beta.val ≠ 2) : Regular s := by
  obtain ⟨h1, -, h3, h4, h5, h6⟩ := reached_good s h
  rw [Bool.eq_false_iff, ne_eq, F_le, val_zero, not_le] at h3 h4
  refine ⟨by rw [h1, val_one], ?_, h3, h4⟩
  cases hc : s.cls
  · have k := h6 hc
    simp only [badBeta, Bool.or_eq_false_iff] at k
    have k2 := k.2
    rw [Bool.eq_false_iff, ne_eq, F_gt, two, not_lt] at k2
    exact lt_of_le_of_ne k2 hb
  · rw [h5 hc, val_zero]; norm_num

/-- The hypotheses can be met: double precision with correctly rounded library functions; an object with positive thickness integrals. -/
theorem rounded_similarity_case (f : PySpecial Rounding.double.F) : ∃ (_ : PyPow Rounding.double.F) (s : Sim Rounding.double.F), Elementary Rounding.double ∧ Regular s ∧
    0 < s.etaM.val ∧ s.etaM.val < s.etaD.val ∧ 0 ≤ s.beta.val := by
  let inst : PyPow Rounding.double.F :=
    ⟨fun x p => Rounding.double.round (x.val ^ p.val), fun x => Rounding.double.round (Real.exp x.val), fun x => Rounding.double.round (Real.logb 10 x.val)⟩
  refine ⟨inst, ⟨.blasius, lit 1, lit 1, lit 1, lit 0, lit 1, none, lit 7, lit 2, lit 1, lit 1, lit 3⟩, elementary_correct, ⟨val_one, ?_, ?_, ?_⟩, ?_, ?_, ?_⟩ <;>
    simp only [val_zero, val_one, two] <;> norm_num

end IBL.Analytic
