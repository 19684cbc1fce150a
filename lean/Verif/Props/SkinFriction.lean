import Mathlib.Analysis.Complex.ExponentialBounds
import Verif.Lemmas.Flt
import Verif.Model.SkinFriction

/-!
C29: the skin friction correlations. Values and monotonicity over the reals; that no invalid power, logarithm or division occurs
is proved on extended reals, where these would give NaN or inf.
-/

namespace IBL

set_option exponentiation.threshold 1000

/-! ### Ludwieg-Tillman -/

private theorem lt_real (re h : ℝ) : ludwiegTillman re h = 246/1000 / (re ^ (268/1000 : ℝ) * (10:ℝ) ^ (678/1000 * h)) := by
  simp only [ludwiegTillman, real_lit, real_pow]
  push_cast
  norm_num

/-- **C29**, Ludwieg-Tillman is positive. -/
theorem ludwieg_tillman_pos (re h : ℝ) (hre : 0 < re) : 0 < ludwiegTillman re h := by
  rw [lt_real]; positivity

/-- **C29**, Ludwieg-Tillman strictly decreases in the Reynolds number. -/
theorem ludwieg_tillman_anti_re (re re' h : ℝ) (h0 : 0 < re) (hlt : re < re') : ludwiegTillman re' h < ludwiegTillman re h := by
  rw [lt_real, lt_real]
  have h1 : re ^ (268/1000 : ℝ) < re' ^ (268/1000 : ℝ) := Real.rpow_lt_rpow h0.le hlt (by norm_num)
  have h2 : (0:ℝ) < (10:ℝ) ^ (678/1000 * h) := by positivity
  apply div_lt_div_of_pos_left (by norm_num) (by positivity)
  exact mul_lt_mul_of_pos_right h1 h2

/-- **C29**, Ludwieg-Tillman strictly decreases in the shape factor. -/
theorem ludwieg_tillman_anti_h (re h h' : ℝ) (h0 : 0 < re) (hlt : h < h') : ludwiegTillman re h' < ludwiegTillman re h := by
  rw [lt_real, lt_real]
  have h1 : (10:ℝ) ^ (678/1000 * h) < (10:ℝ) ^ (678/1000 * h') :=
    Real.rpow_lt_rpow_of_exponent_lt (by norm_num) (by linarith)
  have h2 : (0:ℝ) < re ^ (268/1000 : ℝ) := by positivity
  apply div_lt_div_of_pos_left (by norm_num) (by positivity)
  exact mul_lt_mul_of_pos_left h1 h2

/-! ### Felsch -/

/-- The shape factor at which Felsch's relation ends, as in the code. -/
private noncomputable def hsep : ℝ := 29986313485/10000000000

private theorem clip_real (h : ℝ) : npClip h (lit 1) (lit (29986313485/10000000000)) = min (max h 1) hsep := by
  simp only [npClip, real_lt, real_lit, hsep]
  push_cast
  by_cases h1 : h < 1
  · rw [if_pos h1, max_eq_right h1.le, if_neg (by norm_num), min_eq_left (by norm_num)]
  · rw [if_neg h1, max_eq_left (not_lt.1 h1)]
    split_ifs with h2
    · rw [min_eq_right h2.le]
    · rw [min_eq_left (not_lt.1 h2)]

private noncomputable def fbase (h : ℝ) : ℝ := 93/100 - 195/100 * Real.logb 10 (min (max h 1) hsep)

private theorem felsch_real (re h : ℝ) : felsch re h = 58/1000 * fbase h ^ (1705/1000 : ℝ) / re ^ (268/1000 : ℝ) := by
  simp only [felsch, fbase]
  rw [clip_real]
  simp only [real_pow, real_log10, real_lit]
  push_cast
  norm_num

private theorem clip_pos (h : ℝ) : 1 ≤ min (max h 1) hsep := le_min (le_max_right _ _) (by norm_num [hsep])

private theorem hsep_pow_le : hsep ^ 65 ≤ (10:ℝ) ^ 31 := by
  rw [hsep, div_pow, div_le_iff₀ (by positivity)]
  norm_num

private theorem le_hsep_pow : (10:ℝ) ^ 31 * (1 - 2/10^9) ≤ hsep ^ 65 := by
  rw [hsep, div_pow, le_div_iff₀ (by positivity)]
  norm_num

private theorem log_hsep_le : 65 * Real.logb 10 hsep ≤ 31 := by
  have h := Real.logb_le_logb_of_le (b := 10) (by norm_num) (by norm_num [hsep]) hsep_pow_le
  rw [Real.logb_pow, Real.logb_pow, Real.logb_self_eq_one (by norm_num)] at h
  push_cast at h
  linarith

private theorem le_log_hsep : 31 - 25/10^10 ≤ 65 * Real.logb 10 hsep := by
  have h := Real.logb_le_logb_of_le (b := 10) (by norm_num) (by norm_num) le_hsep_pow
  rw [Real.logb_mul (by norm_num) (by norm_num), Real.logb_pow, Real.logb_pow, Real.logb_self_eq_one (by norm_num)] at h
  have h2 : -(25/10^10 : ℝ) ≤ Real.logb 10 (1 - 2/10^9) := by
    rw [Real.logb]
    have hl : 1 - (1 - 2/10^9 : ℝ)⁻¹ ≤ Real.log (1 - 2/10^9) := Real.one_sub_inv_le_log_of_pos (by norm_num)
    have h10 : 1 ≤ Real.log 10 := by
      rw [Real.le_log_iff_exp_le (by norm_num)]
      linarith [Real.exp_one_lt_d9]
    rw [le_div_iff₀ (by linarith)]
    have : -(25/10^10 : ℝ) ≤ 1 - (1 - 2/10^9 : ℝ)⁻¹ := by norm_num
    nlinarith
  push_cast at h
  linarith

private theorem fbase_nonneg (h : ℝ) : 0 ≤ fbase h := by
  have h1 : Real.logb 10 (min (max h 1) hsep) ≤ Real.logb 10 hsep :=
    Real.logb_le_logb_of_le (by norm_num) (by linarith [clip_pos h]) (min_le_right _ _)
  have := log_hsep_le
  rw [fbase]; linarith

/-- **C29**, the number raised to the power 1.705 is never negative, for any shape factor. -/
theorem felsch_base_nonneg (h : ℝ) :
    0 ≤ 93/100 - 195/100 * Real.logb 10 (npClip h (lit 1) (lit (29986313485/10000000000))) := by
  rw [clip_real]; exact fbase_nonneg h

/-- **C29**, Felsch is not negative. -/
theorem felsch_nonneg (re h : ℝ) (hre : 0 < re) : 0 ≤ felsch re h := by
  rw [felsch_real]
  have := Real.rpow_nonneg (fbase_nonneg h) (1705/1000)
  positivity

/-- **C29**, Felsch has practically vanished at and beyond its separation shape factor. -/
theorem felsch_at_separation (re h : ℝ) (hre : 0 < re) (hh : 29986313485/10000000000 ≤ h) :
    felsch re h ≤ 1/10^15 / re ^ (268/1000 : ℝ) := by
  have h0 := fbase_nonneg h
  have hc : min (max h 1) hsep = hsep := min_eq_right (le_max_of_le_left hh)
  have h1 : fbase h ≤ 1/10^10 := by
    have := le_log_hsep
    rw [fbase, hc]; norm_num at this ⊢; linarith
  have h2 : fbase h ^ (1705/1000 : ℝ) ≤ 1/10^15 := by
    calc fbase h ^ (1705/1000 : ℝ) ≤ (1/10^10 : ℝ) ^ (1705/1000 : ℝ) := Real.rpow_le_rpow h0 h1 (by norm_num)
      _ ≤ (1/10^10 : ℝ) ^ (3/2 : ℝ) := Real.rpow_le_rpow_of_exponent_ge (by norm_num) (by norm_num) (by norm_num)
      _ = 1/10^15 := by
        have e : (1/10^10 : ℝ) = (1/10^5) ^ (2:ℝ) := by norm_num
        rw [e, ← Real.rpow_mul (by norm_num)]
        norm_num
  rw [felsch_real]
  apply div_le_div_of_nonneg_right _ (by positivity)
  linarith

/-- **C29**, Felsch does not increase with the Reynolds number. -/
theorem felsch_anti_re (re re' h : ℝ) (h0 : 0 < re) (hle : re ≤ re') : felsch re' h ≤ felsch re h := by
  rw [felsch_real, felsch_real]
  have h1 : re ^ (268/1000 : ℝ) ≤ re' ^ (268/1000 : ℝ) := Real.rpow_le_rpow h0.le hle (by norm_num)
  have := Real.rpow_nonneg (fbase_nonneg h) (1705/1000)
  apply div_le_div_of_nonneg_left (by positivity) (by positivity) h1

/-- **C29**, Felsch does not increase with the shape factor. -/
theorem felsch_anti_h (re h h' : ℝ) (h0 : 0 < re) (hle : h ≤ h') : felsch re h' ≤ felsch re h := by
  rw [felsch_real, felsch_real]
  have h1 : fbase h' ≤ fbase h := by
    have : Real.logb 10 (min (max h 1) hsep) ≤ Real.logb 10 (min (max h' 1) hsep) :=
      Real.logb_le_logb_of_le (by norm_num) (by linarith [clip_pos h]) (min_le_min_right _ (max_le_max_right _ hle))
    rw [fbase, fbase]; linarith
  have h2 := Real.rpow_le_rpow (fbase_nonneg h') h1 (show (0:ℝ) ≤ 1705/1000 by norm_num)
  apply div_le_div_of_nonneg_right _ (by positivity)
  linarith

/-! ### White -/

private theorem wh_real (re h : ℝ) :
    white re h = 3/10 * Real.exp (-(133/100) * h) / Real.logb 10 re ^ (174/100 + 31/100 * h) := by
  simp only [white, real_lit, real_pow, real_exp, real_log10]
  push_cast
  norm_num

/-- **C29**, White is positive for Reynolds numbers above 1. -/
theorem white_pos (re h : ℝ) (hre : 1 < re) : 0 < white re h := by
  have : 0 < Real.logb 10 re := Real.logb_pos (by norm_num) hre
  rw [wh_real]; positivity

/-- **C29**, White does not increase with the Reynolds number, for shape factors that are not negative. -/
theorem white_anti_re (re re' h : ℝ) (hh : 0 ≤ h) (hre : 1 < re) (hle : re ≤ re') : white re' h ≤ white re h := by
  have h0 : 0 < Real.logb 10 re := Real.logb_pos (by norm_num) hre
  have h1 : Real.logb 10 re ≤ Real.logb 10 re' := Real.logb_le_logb_of_le (by norm_num) (by linarith) hle
  have h2 := Real.rpow_le_rpow h0.le h1 (show (0:ℝ) ≤ 174/100 + 31/100 * h by linarith)
  rw [wh_real, wh_real]
  exact div_le_div_of_nonneg_left (by positivity) (by positivity) h2

/-- **C29**, White strictly decreases in the shape factor, for Reynolds numbers of at least 10. -/
theorem white_anti_h (re h h' : ℝ) (hre : 10 ≤ re) (hlt : h < h') : white re h' < white re h := by
  have h0 : 1 ≤ Real.logb 10 re := by
    rw [Real.le_logb_iff_rpow_le (by norm_num) (by linarith)]; simpa using hre
  have h1 := Real.rpow_le_rpow_of_exponent_le h0 (show 174/100 + 31/100 * h ≤ 174/100 + 31/100 * h' by linarith)
  have h2 : Real.exp (-(133/100) * h') < Real.exp (-(133/100) * h) := Real.exp_lt_exp.2 (by linarith)
  have h3 : (0:ℝ) < Real.logb 10 re ^ (174/100 + 31/100 * h) := by positivity
  rw [wh_real, wh_real]
  apply div_lt_div₀ _ h1 (by positivity) h3
  linarith

/-! ### Regularity -/

/-- **C29**: no invalid operation and no special value in any of the three relations, for Reynolds numbers above 0 (White: 1) and
every finite shape factor. -/
theorem skin_friction_regular (re h : ℝ) (hre : 0 < re) :
    (ludwiegTillman (.fin re) (.fin h) : Flt ℝ) = .fin (ludwiegTillman re h) ∧
    (felsch (.fin re) (.fin h) : Flt ℝ) = .fin (felsch re h) ∧
    (1 < re → (white (.fin re) (.fin h) : Flt ℝ) = .fin (white re h)) := by
  refine ⟨?_, ?_, ?_⟩
  · have h10 : (0:ℝ) < ((10:ℚ):ℝ) := by norm_num
    have hne : re ^ (((268/1000 : ℚ)) : ℝ) * ((10:ℚ):ℝ) ^ (((678/1000 : ℚ) : ℝ) * h) ≠ 0 := by positivity
    simp only [ludwiegTillman, Flt.lit_fin, Flt.fin_mul, Flt.fin_pow_pos _ _ hre, Flt.fin_pow_pos _ _ h10, real_lit, real_pow,
      Flt.fin_div _ _ hne]
  · have hclip : (npClip (.fin h) (lit 1) (lit (29986313485/10000000000)) : Flt ℝ) =
        .fin (npClip h (lit 1) (lit (29986313485/10000000000))) := by
      simp only [npClip, Flt.lit_fin, Flt.fin_lt, decide_eq_true_eq, real_lt, real_lit]
      by_cases h1 : h < ((1:ℚ):ℝ)
      · simp only [if_pos h1, Flt.fin_lt, decide_eq_true_eq]
        split_ifs <;> rfl
      · simp only [if_neg h1, Flt.fin_lt, decide_eq_true_eq]
        split_ifs <;> rfl
    have hc0 : 0 < npClip h (lit 1) (lit (29986313485/10000000000)) := by
      rw [clip_real]; linarith [clip_pos h]
    have hb := felsch_base_nonneg h
    have hb' : 0 ≤ ((93/100 : ℚ) : ℝ) - ((195/100 : ℚ) : ℝ) * Real.logb 10 (npClip h (lit 1) (lit (29986313485/10000000000))) := by
      push_cast at hb ⊢; exact hb
    have he : (0:ℝ) < ((1705/1000 : ℚ) : ℝ) := by norm_num
    have hne : re ^ (((268/1000 : ℚ)) : ℝ) ≠ 0 := by positivity
    simp only [felsch]
    rw [hclip, Flt.fin_log10 _ hc0]
    generalize npClip h (lit 1) (lit (29986313485/10000000000)) = c at hb'
    simp only [Flt.lit_fin, Flt.fin_mul, Flt.fin_sub, Flt.fin_pow _ _ hb' he, Flt.fin_pow_pos _ _ hre, Flt.fin_div _ _ hne,
      real_lit, real_pow, real_log10]
  · intro h1
    have hl : 0 < Real.logb 10 re := Real.logb_pos (by norm_num) h1
    have hne : Real.logb 10 re ^ (((174/100 : ℚ) : ℝ) + ((31/100 : ℚ) : ℝ) * h) ≠ 0 := by positivity
    simp only [white, Flt.lit_fin, Flt.fin_mul, Flt.fin_neg, Flt.fin_exp, Flt.fin_log10 _ hre, Flt.fin_add, Flt.fin_pow_pos _ _ hl,
      Flt.fin_div _ _ hne, real_lit, real_pow, real_log10, real_exp]

/-- Example: a flat plate station, Re = 1000 and H = 1.4, meets the hypotheses of all the theorems above. -/
example : 0 < ludwiegTillman (1000:ℝ) (14/10) ∧ 0 < white (1000:ℝ) (14/10) ∧ 0 ≤ felsch (1000:ℝ) (14/10) ∧
    white (1000:ℝ) 2 < white (1000:ℝ) (14/10) :=
  ⟨ludwieg_tillman_pos _ _ (by norm_num), white_pos _ _ (by norm_num), felsch_nonneg _ _ (by norm_num),
    white_anti_h _ _ _ (by norm_num) (by norm_num)⟩

end IBL
