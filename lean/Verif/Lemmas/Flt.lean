import Verif.Py

/-! Powers, logarithms and roots of extended reals, away from the special cases. -/

namespace IBL.Flt

theorem fin_pow (a b : ℝ) (ha : 0 ≤ a) (hb : 0 < b) : (PyPow.pow (.fin a) (.fin b) : Flt ℝ) = .fin (a ^ b) := by
  show (if (Flt.fin b : Flt ℝ) = .fin 0 ∨ (Flt.fin a : Flt ℝ) = .fin 1 then (Flt.fin 1 : Flt ℝ) else
    if 0 < a then .fin (a ^ b) else if a = 0 then (if 0 < b then .fin 0 else .pinf) else _) = _
  have hb0 : b ≠ 0 := ne_of_gt hb
  split_ifs with h1 h2 h3
  · simp only [Flt.fin.injEq, hb0, false_or] at h1
    rw [h1, Real.one_rpow]
  · rfl
  · rw [h3, Real.zero_rpow hb0]
  all_goals exact absurd (lt_of_le_of_ne ha (Ne.symm h3)) h2

theorem fin_pow_pos (a b : ℝ) (ha : 0 < a) : (PyPow.pow (.fin a) (.fin b) : Flt ℝ) = .fin (a ^ b) := by
  show (if (Flt.fin b : Flt ℝ) = .fin 0 ∨ (Flt.fin a : Flt ℝ) = .fin 1 then (Flt.fin 1 : Flt ℝ) else
    if 0 < a then .fin (a ^ b) else if a = 0 then (if 0 < b then .fin 0 else .pinf) else _) = _
  split_ifs with h1
  · simp only [Flt.fin.injEq] at h1
    rcases h1 with h | h
    · rw [h, Real.rpow_zero]
    · rw [h, Real.one_rpow]
  · rfl

open Classical in
theorem pow_neg_nan (a b : ℝ) (ha : a < 0) (hb : ∀ n : ℤ, (n : ℝ) ≠ b) : (PyPow.pow (.fin a) (.fin b) : Flt ℝ) = .nan := by
  show (if (Flt.fin b : Flt ℝ) = .fin 0 ∨ (Flt.fin a : Flt ℝ) = .fin 1 then (Flt.fin 1 : Flt ℝ) else
    if 0 < a then .fin (a ^ b) else if a = 0 then (if 0 < b then .fin 0 else .pinf) else
      if ∃ n : ℤ, (n : ℝ) = b then .fin (a ^ b) else .nan) = _
  rw [if_neg, if_neg (by linarith), if_neg (by linarith), if_neg (by simpa using hb)]
  simp only [Flt.fin.injEq, not_or]
  exact ⟨fun h => hb 0 (by simp [h]), by linarith⟩

theorem fin_exp (a : ℝ) : (PyPow.exp (.fin a) : Flt ℝ) = .fin (Real.exp a) := rfl

theorem fin_log10 (a : ℝ) (ha : 0 < a) : (PyPow.log10 (.fin a) : Flt ℝ) = .fin (Real.logb 10 a) := by
  show (if a < 0 then (Flt.nan : Flt ℝ) else if a = 0 then .ninf else .fin (Real.logb 10 a)) = _
  rw [if_neg (by linarith), if_neg (by linarith)]

theorem fin_sqrt (a : ℝ) (ha : 0 ≤ a) : (PySqrt.sqrt (.fin a) : Flt ℝ) = .fin (Real.sqrt a) := by
  show (if a < 0 then (Flt.nan : Flt ℝ) else .fin (Real.sqrt a)) = _
  rw [if_neg (by linarith)]

theorem sqrt_neg (a : ℝ) (ha : a < 0) : (PySqrt.sqrt (.fin a) : Flt ℝ) = .nan := by
  show (if a < 0 then (Flt.nan : Flt ℝ) else .fin (Real.sqrt a)) = _
  rw [if_pos ha]

end IBL.Flt
