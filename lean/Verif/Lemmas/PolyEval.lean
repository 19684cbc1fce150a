import Verif.Model.PPoly
import Mathlib.Tactic.Ring

/-! Values of polynomials in exact arithmetic. -/

set_option linter.unusedSectionVars false

namespace IBL.PPoly

theorem polySum_real (t acc z : ℝ) (cs : List ℝ) : polySum t acc z cs = acc + z * polyEval cs t := by
  induction cs generalizing acc z with
  | nil => simp [polyEval, polySum]
  | cons c cs ih =>
    rw [polyEval, polySum, polySum, ih, ih (lit 0 + c * lit 1)]
    simp only [real_lit]; push_cast; ring

theorem polyEval_nil (t : ℝ) : polyEval [] t = 0 := by simp [polyEval, polySum]

/-- Horner's scheme. -/
theorem polyEval_cons (c : ℝ) (cs : List ℝ) (t : ℝ) : polyEval (c :: cs) t = c + t * polyEval cs t := by
  rw [polyEval, polySum, polySum_real]
  simp only [real_lit]; push_cast; ring

end IBL.PPoly
