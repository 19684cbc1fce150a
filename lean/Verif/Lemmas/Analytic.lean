import Mathlib.Analysis.SpecialFunctions.Pow.Deriv
import Mathlib.Analysis.SpecialFunctions.Sqrt
import Verif.Model.Analytic

/-! What the queries of a similarity object are, and how they change with `x`, in exact arithmetic. -/

set_option linter.unusedSectionVars false

namespace IBL.Analytic
variable [PySpecial ℝ]

/-- The values of the attributes that all calls keep in range, in exact arithmetic. -/
structure InRange (s : Sim ℝ) : Prop where
  alpha : s.alpha = 1
  gamma : s.gamma = 1
  beta_lo : -19884/100000 ≤ s.beta
  beta_hi : s.beta ≤ 2
  blasius : s.cls = .blasius → s.beta = 0
  u_pos : 0 < s.uRef
  nu_pos : 0 < s.nuRef

/-- The edge velocity as a function. -/
noncomputable def ue (s : Sim ℝ) (x : ℝ) : ℝ := s.uRef * x ^ (s.beta / (2 - s.beta))
/-- The transformation parameter as a function. -/
noncomputable def gg (s : Sim ℝ) (x : ℝ) : ℝ := Real.sqrt (ue s x / ((2 - s.beta) * s.nuRef * x))

variable {s : Sim ℝ} (hs : InRange s) (hb : s.beta < 2)
include hs hb

theorem uENp_ok (x : ℝ) : s.uENp x = .ok (ue s x) := by
  have h : (2 : ℝ) * 1 - s.beta ≠ 0 := by linarith
  simp only [Sim.uENp, pyDiv, hs.alpha, real_eq, real_lit]
  rw [if_neg (by push_cast; exact h)]
  show Except.ok _ = _
  simp only [ue, real_pow]
  push_cast
  rw [mul_one]

theorem uE_ok {x : ℝ} (hx : 0 < x) : s.uE x = .ok (ue s x) := by
  have h : (2 : ℝ) * 1 - s.beta ≠ 0 := by linarith
  have h0 : PyCmp.eq x (lit 0) = false := by rw [Bool.eq_false_iff]; simpa using hx.ne'
  simp only [Sim.uE, pyDiv, pyPow, h0, Bool.false_and, Bool.false_eq_true, if_false, hs.alpha]
  rw [if_neg (by simp only [real_eq, real_lit]; push_cast; exact h)]
  show Except.ok _ = _
  simp only [ue, real_pow, real_lit]
  push_cast
  rw [mul_one]

theorem gFactor_eq : s.gFactor = 2 - s.beta := by
  simp only [Sim.gFactor]
  cases hc : s.cls with
  | falknerSkan => simp
  | blasius => simp [hs.blasius hc]

theorem g_ok {x : ℝ} (hx : 0 < x) : s.g x = .ok (gg s x) := by
  have h : (2 - s.beta) * s.nuRef * x ≠ 0 := by
    have := hs.nu_pos
    have : 0 < 2 - s.beta := by linarith
    positivity
  simp only [Sim.g, uE_ok hs hb hx, gFactor_eq hs hb]
  show (do let q ← pyDiv _ _; _) = _
  simp only [pyDiv, real_eq, real_lit]
  rw [if_neg (by push_cast; exact h)]
  rfl

theorem gArray_ok (x : ℝ) : s.gArray x = .ok (gg s x) := by
  simp only [Sim.gArray, uENp_ok hs hb, gFactor_eq hs hb]
  rfl

theorem eta_ok (x y : ℝ) : s.eta x y = .ok (y * gg s x) := by
  simp only [Sim.eta, gArray_ok hs hb]; rfl

theorem ue_pos {x : ℝ} (hx : 0 < x) : 0 < ue s x := mul_pos hs.u_pos (Real.rpow_pos_of_pos hx _)

theorem gg_pos {x : ℝ} (hx : 0 < x) : 0 < gg s x := by
  have h := ue_pos hs hb hx
  have := hs.nu_pos
  have : 0 < 2 - s.beta := by linarith
  exact Real.sqrt_pos.2 (by positivity)

theorem gg_sq {x : ℝ} (hx : 0 < x) : gg s x ^ 2 * ((2 - s.beta) * s.nuRef * x) = ue s x := by
  have h := ue_pos hs hb hx
  have := hs.nu_pos
  have : 0 < 2 - s.beta := by linarith
  have hk : (2 - s.beta) * s.nuRef * x ≠ 0 := by positivity
  rw [gg, Real.sq_sqrt (by positivity), div_mul_cancel₀ _ hk]

theorem ue_deriv {x : ℝ} (hx : 0 < x) : HasDerivAt (ue s) (s.beta / (2 - s.beta) * ue s x / x) x := by
  have h := (Real.hasDerivAt_rpow_const (x := x) (p := s.beta / (2 - s.beta)) (Or.inl hx.ne')).const_mul s.uRef
  refine h.congr_deriv ?_
  rw [Real.rpow_sub_one hx.ne', ue]
  ring

theorem gg_deriv {x : ℝ} (hx : 0 < x) : HasDerivAt (gg s) (gg s x * (s.beta / (2 - s.beta) - 1) / (2 * x)) x := by
  have hp := ue_pos hs hb hx
  have hn := hs.nu_pos
  have h2 : 0 < 2 - s.beta := by linarith
  have hg := gg_pos hs hb hx
  have hq : ue s x / ((2 - s.beta) * s.nuRef * x) ≠ 0 := by positivity
  have h1 := ((ue_deriv hs hb hx).div ((hasDerivAt_id x).const_mul ((2 - s.beta) * s.nuRef)) (by simp only [id]; positivity)).sqrt
    (by simpa using hq)
  refine HasDerivAt.congr_deriv (f := gg s) h1 ?_
  have e : Real.sqrt ((ue s / fun y => (2 - s.beta) * s.nuRef * id y) x) = gg s x := rfl
  rw [e]
  have hsq := gg_sq hs hb hx
  simp only [id]
  rw [← hsq]
  field_simp

end IBL.Analytic
