import Mathlib.Analysis.Complex.ExponentialBounds
import Verif.Round
import Verif.Model.SkinFriction

/-! C157: the skin friction correlations in rounded arithmetic. -/

set_option linter.unusedSectionVars false
set_option exponentiation.threshold 1000

namespace IBL

open Rounding

variable {R : Rounding}

/-! ### Specification -/

/-- What is required of the library functions: power, exponential and logarithm are monotone and have the right sign, the logarithm of 1 is 0 and that of
10 is 1, and it is not larger than the true one by more than two rounding errors. -/
structure Elementary (R : Rounding) [PyPow R.F] : Prop where
  pow_pos : ∀ x p : R.F, 0 < x.val → 0 < (PyPow.pow x p).val
  pow_nonneg : ∀ x p : R.F, 0 ≤ x.val → 0 ≤ (PyPow.pow x p).val
  pow_mono : ∀ x y p : R.F, 0 ≤ x.val → x.val ≤ y.val → 0 ≤ p.val → (PyPow.pow x p).val ≤ (PyPow.pow y p).val
  pow_exponent : ∀ x p q : R.F, 1 ≤ x.val → p.val ≤ q.val → (PyPow.pow x p).val ≤ (PyPow.pow x q).val
  exp_pos : ∀ x : R.F, 0 < (PyPow.exp x).val
  exp_mono : ∀ x y : R.F, x.val ≤ y.val → (PyPow.exp x).val ≤ (PyPow.exp y).val
  log_pos : ∀ x : R.F, 1 < x.val → 0 < (PyPow.log10 x).val
  log_one : ∀ x : R.F, x.val = 1 → (PyPow.log10 x).val = 0
  log_ten : ∀ x : R.F, x.val = 10 → (PyPow.log10 x).val = 1
  log_mono : ∀ x y : R.F, 0 < x.val → x.val ≤ y.val → (PyPow.log10 x).val ≤ (PyPow.log10 y).val
  log_close : ∀ x : R.F, 1 ≤ x.val → (PyPow.log10 x).val ≤ Real.logb 10 x.val * (1 + 2 * R.eps)

/-- Library functions that return the rounded true value satisfy all of this. -/
theorem elementary_correct : @Elementary R ⟨fun x p => R.round (x.val ^ p.val), fun x => R.round (Real.exp x.val), fun x => R.round (Real.logb 10 x.val)⟩ := by
  let _ : PyPow R.F := ⟨fun x p => R.round (x.val ^ p.val), fun x => R.round (Real.exp x.val), fun x => R.round (Real.logb 10 x.val)⟩
  have e0 := R.eps_nonneg
  constructor
  · intro x p hx; exact rd_pos (Real.rpow_pos_of_pos hx _)
  · intro x p hx; exact rd_nonneg (Real.rpow_nonneg hx _)
  · intro x y p hx hxy hp; exact R.mono (Real.rpow_le_rpow hx hxy hp)
  · intro x p q hx hpq; exact R.mono (Real.rpow_le_rpow_of_exponent_le hx hpq)
  · intro x; exact rd_pos (Real.exp_pos _)
  · intro x y h; exact R.mono (Real.exp_le_exp.2 h)
  · intro x hx; exact rd_pos (Real.logb_pos (by norm_num) hx)
  · intro x hx; show R.rd (Real.logb 10 x.val) = 0; rw [hx, Real.logb_one, R.rd_zero]
  · intro x hx; show R.rd (Real.logb 10 x.val) = 1; rw [hx, Real.logb_self_eq_one (by norm_num), R.rd_one]
  · intro x y hx hxy; exact R.mono (Real.logb_le_logb_of_le (by norm_num) hx hxy)
  · intro x hx
    have h0 : 0 ≤ Real.logb 10 x.val := Real.logb_nonneg (by norm_num) hx
    have := (abs_le.1 (R.rel (Real.logb 10 x.val))).2
    rw [abs_of_nonneg h0] at this
    show R.rd (Real.logb 10 x.val) ≤ _
    nlinarith [mul_nonneg e0 h0]

variable [PyPow R.F]

private theorem lit_pos {q : ℚ} (h : 0 < q) : 0 < (lit q : R.F).val := rd_pos (by exact_mod_cast h)

/-! ### Ludwieg-Tillman -/

/-- **C157**, Ludwieg-Tillman is positive. -/
theorem rounded_ludwieg_tillman_pos (E : Elementary R) (re h : R.F) (hre : 0 < re.val) : 0 < (ludwiegTillman re h).val := by
  refine rd_pos (div_pos (lit_pos (by norm_num)) (rd_pos (mul_pos (E.pow_pos _ _ hre) (E.pow_pos _ _ (lit_pos (by norm_num))))))

/-- **C157**, Ludwieg-Tillman does not increase with Reynolds number or shape factor. -/
theorem rounded_ludwieg_tillman_anti (E : Elementary R) (re re' h h' : R.F) (h0 : 0 < re.val) (hr : re.val ≤ re'.val) (hh : h.val ≤ h'.val) :
    (ludwiegTillman re' h').val ≤ (ludwiegTillman re h).val := by
  have p10 : 0 < (lit 10 : R.F).val := lit_pos (by norm_num)
  have t10 : (1:ℝ) ≤ (lit 10 : R.F).val := by
    have : (lit 10 : R.F).val = 10 := by simpa using val_int (R := R) 10 (by norm_num)
    rw [this]; norm_num
  have a := E.pow_pos re (lit (268/1000)) h0
  have b := E.pow_pos (lit 10) (lit (678/1000) * h) p10
  refine R.mono (div_le_div_of_nonneg_left (lit_pos (by norm_num)).le (rd_pos (mul_pos a b)) (R.mono ?_))
  refine mul_le_mul (E.pow_mono _ _ _ h0.le hr (lit_pos (by norm_num)).le) (E.pow_exponent _ _ _ t10 (R.mono ?_)) b.le (E.pow_pos _ _ (h0.trans_le hr)).le
  exact mul_le_mul_of_nonneg_left hh (lit_pos (by norm_num)).le

/-! ### Felsch -/

/-- The shape factor to which Felsch's relation applies, clipped. -/
noncomputable def felschShape (h : R.F) : R.F := npClip h (lit 1) (lit (29986313485/10000000000))

/-- The number raised to the power 1.705 in Felsch's relation. -/
noncomputable def felschBase (h : R.F) : R.F := lit (93/100) - lit (195/100) * PyPow.log10 (felschShape h)

private theorem felsch_eq (re h : R.F) : felsch re h = lit (58/1000) * PyPow.pow (felschBase h) (lit (1705/1000)) / PyPow.pow re (lit (268/1000)) := rfl

private theorem sep_ge : (1:ℝ) ≤ (lit (29986313485/10000000000) : R.F).val := by
  show 1 ≤ R.rd _
  rw [← R.rd_one]; exact R.mono (by push_cast; norm_num)

private theorem clip_val (h : R.F) : (felschShape h).val = min (max h.val 1) (lit (29986313485/10000000000) : R.F).val := by
  have s := sep_ge (R := R)
  simp only [felschShape, npClip, F_lt, val_one]
  by_cases h1 : h.val < 1
  · rw [if_pos h1, val_one, if_neg (not_lt.2 s), val_one, max_eq_right h1.le, min_eq_left s]
  · rw [if_neg h1, max_eq_left (not_lt.1 h1)]
    split_ifs with h2
    · rw [min_eq_right h2.le]
    · rw [min_eq_left (not_lt.1 h2)]

private theorem log_sep : 65 * Real.logb 10 (29986313485/10000000000) ≤ 31 - 5/10^10 := by
  have h0 : ((29986313485/10000000000 : ℝ)) ^ 65 ≤ (10:ℝ) ^ 31 * (1 - 16/10^10) := by
    rw [div_pow, div_le_iff₀ (by positivity)]; norm_num
  have h := Real.logb_le_logb_of_le (b := 10) (by norm_num) (by norm_num) h0
  rw [Real.logb_mul (by norm_num) (by norm_num), Real.logb_pow, Real.logb_pow, Real.logb_self_eq_one (by norm_num)] at h
  have h2 : Real.logb 10 (1 - 16/10^10) ≤ -(5/10^10 : ℝ) := by
    rw [Real.logb]
    have hl : Real.log (1 - 16/10^10 : ℝ) ≤ (1 - 16/10^10) - 1 := Real.log_le_sub_one_of_pos (by norm_num)
    have h10 : Real.log 10 ≤ 3 := by
      rw [Real.log_le_iff_le_exp (by norm_num)]
      have h1 : (2.7182818283 : ℝ) < Real.exp 1 := Real.exp_one_gt_d9
      have h3 : Real.exp 3 = Real.exp 1 ^ 3 := by rw [← Real.exp_nat_mul]; norm_num
      rw [h3]
      calc (10:ℝ) ≤ 2.7182818283 ^ 3 := by norm_num
        _ ≤ _ := pow_le_pow_left₀ (by norm_num) h1.le 3
    have h10' : 0 < Real.log 10 := Real.log_pos (by norm_num)
    rw [div_le_iff₀ h10']
    nlinarith
  push_cast at h
  linarith

/-- The number raised to the power 1.705 is never negative, for any shape factor, in arithmetic of at least twelve digits. Clipping
at 2.9986313485 leaves enough room for the rounding errors. -/
private theorem felsch_base (E : Elementary R) (heps : R.eps ≤ 1/10^12) (h : R.F) : 0 ≤ (felschBase h).val := by
  have e0 := R.eps_nonneg
  set c : R.F := lit (29986313485/10000000000) with hc
  have s := sep_ge (R := R)
  have hle : (felschShape h).val ≤ c.val := by rw [clip_val]; exact min_le_right _ _
  have hge : 1 ≤ (felschShape h).val := by rw [clip_val]; exact le_min (le_max_right _ _) s
  have hlog := (E.log_mono _ _ (by linarith) hle).trans (E.log_close c s)
  have hcv : c.val ≤ 29986313485/10000000000 * (1 + R.eps) := by
    have := (abs_le.1 (R.rel (((29986313485/10000000000 : ℚ)) : ℝ))).2
    have hv : c.val = R.rd (((29986313485/10000000000 : ℚ)) : ℝ) := rfl
    rw [hv]
    push_cast at this ⊢
    rw [abs_of_pos (by norm_num)] at this
    linarith
  have hL : Real.logb 10 c.val ≤ Real.logb 10 (29986313485/10000000000) + R.eps := by
    have h1 := Real.logb_le_logb_of_le (b := 10) (by norm_num) (by linarith) hcv
    rw [Real.logb_mul (by norm_num) (by linarith)] at h1
    have h2 : Real.logb 10 (1 + R.eps) ≤ R.eps := by
      rw [Real.logb]
      have h10 : 1 ≤ Real.log 10 := by
        rw [Real.le_log_iff_exp_le (by norm_num)]
        linarith [Real.exp_one_lt_d9]
      have hl : Real.log (1 + R.eps) ≤ (1 + R.eps) - 1 := Real.log_le_sub_one_of_pos (by linarith)
      rw [div_le_iff₀ (by linarith)]
      nlinarith
    linarith
  have hL0 : 0 ≤ Real.logb 10 c.val := Real.logb_nonneg (by norm_num) s
  have hls := log_sep
  have hx : (lit (195/100) : R.F).val ≤ 195/100 * (1 + R.eps) := by
    have := (abs_le.1 (R.rel (((195/100 : ℚ)) : ℝ))).2
    have hv : (lit (195/100) : R.F).val = R.rd (((195/100 : ℚ)) : ℝ) := rfl
    rw [hv]
    push_cast at this ⊢
    rw [abs_of_pos (by norm_num)] at this
    linarith
  have hx0 : 0 < (lit (195/100) : R.F).val := lit_pos (by norm_num)
  have hM : (PyPow.log10 (felschShape h)).val ≤ ((31 - 5/10^10)/65 + R.eps) * (1 + 2 * R.eps) := by
    refine hlog.trans (mul_le_mul_of_nonneg_right ?_ (by linarith))
    linarith
  have key : (lit (195/100) : R.F).val * (PyPow.log10 (felschShape h)).val ≤ 93/100 := by
    have h1 : 0 ≤ ((31 - 5/10^10)/65 + R.eps) * (1 + 2 * R.eps) := by positivity
    calc _ ≤ (lit (195/100) : R.F).val * (((31 - 5/10^10)/65 + R.eps) * (1 + 2 * R.eps)) := mul_le_mul_of_nonneg_left hM hx0.le
      _ ≤ 195/100 * (1 + R.eps) * (((31 - 5/10^10)/65 + R.eps) * (1 + 2 * R.eps)) := mul_le_mul_of_nonneg_right hx h1
      _ ≤ 195/100 * (1 + 1/10^12) * (((31 - 5/10^10)/65 + 1/10^12) * (1 + 2 * (1/10^12))) := by gcongr
      _ ≤ 93/100 := by norm_num
  have hp : (lit (195/100) * PyPow.log10 (felschShape h) : R.F).val ≤ (lit (93/100) : R.F).val := by
    refine R.mono ?_
    push_cast
    exact key
  exact rd_nonneg (sub_nonneg.2 hp)

/-- **C157**, Felsch never takes a power of a negative number: the value is a power of a number that is not negative over a power of the Reynolds number. -/
theorem rounded_felsch_defined (E : Elementary R) (heps : R.eps ≤ 1/10^12) (re h : R.F) : ∃ b : R.F, 0 ≤ b.val ∧
    felsch re h = lit (58/1000) * PyPow.pow b (lit (1705/1000)) / PyPow.pow re (lit (268/1000)) := ⟨felschBase h, felsch_base E heps h, felsch_eq re h⟩

/-- **C157**, Felsch is not negative. -/
theorem rounded_felsch_nonneg (E : Elementary R) (heps : R.eps ≤ 1/10^12) (re h : R.F) (hre : 0 < re.val) : 0 ≤ (felsch re h).val := by
  rw [felsch_eq]
  exact rd_nonneg (div_nonneg (rd_nonneg (mul_nonneg (lit_pos (by norm_num)).le (E.pow_nonneg _ _ (felsch_base E heps h)))) (E.pow_pos _ _ hre).le)

/-- **C157**, Felsch does not increase with Reynolds number or shape factor. -/
theorem rounded_felsch_anti (E : Elementary R) (heps : R.eps ≤ 1/10^12) (re re' h h' : R.F) (h0 : 0 < re.val) (hr : re.val ≤ re'.val) (hh : h.val ≤ h'.val) :
    (felsch re' h').val ≤ (felsch re h).val := by
  rw [felsch_eq, felsch_eq]
  have s := sep_ge (R := R)
  have hc : (felschShape h).val ≤ (felschShape h').val := by rw [clip_val, clip_val]; exact min_le_min_right _ (max_le_max_right _ hh)
  have hge : 1 ≤ (felschShape h).val := by rw [clip_val]; exact le_min (le_max_right _ _) s
  have hb : (felschBase h').val ≤ (felschBase h).val :=
    R.mono (sub_le_sub_left (R.mono (mul_le_mul_of_nonneg_left (E.log_mono _ _ (by linarith) hc) (lit_pos (by norm_num)).le)) _)
  have k : 0 < (lit (58/1000) : R.F).val := lit_pos (by norm_num)
  have p := felsch_base E heps h'
  refine R.mono (div_le_div₀ (rd_nonneg (mul_nonneg k.le (E.pow_nonneg _ _ (p.trans hb)))) (R.mono ?_) (E.pow_pos _ _ h0)
    (E.pow_mono _ _ _ h0.le hr (lit_pos (by norm_num)).le))
  exact mul_le_mul_of_nonneg_left (E.pow_mono _ _ _ p hb (lit_pos (by norm_num)).le) k.le

/-- **C157**, Felsch is positive for shape factors up to 2.9. -/
theorem rounded_felsch_pos (E : Elementary R) (heps : R.eps ≤ 1/10^12) (re h : R.F) (hre : 0 < re.val) (hh : h.val ≤ 29/10) : 0 < (felsch re h).val := by
  have e0 := R.eps_nonneg
  have s := sep_ge (R := R)
  have hge : 1 ≤ (felschShape h).val := by rw [clip_val]; exact le_min (le_max_right _ _) s
  have hle : (felschShape h).val ≤ 29/10 := by rw [clip_val]; exact (min_le_left _ _).trans (max_le hh (by norm_num))
  have hlog : 15 * Real.logb 10 (felschShape h).val ≤ 7 := by
    have h0 : (felschShape h).val ^ 15 ≤ (10:ℝ) ^ 7 := (pow_le_pow_left₀ (by linarith) hle 15).trans (by norm_num)
    have h1 := Real.logb_le_logb_of_le (b := 10) (by norm_num) (by positivity) h0
    rw [Real.logb_pow, Real.logb_pow, Real.logb_self_eq_one (by norm_num)] at h1
    push_cast at h1
    linarith
  have hl := E.log_close _ hge
  have hl0 : 0 ≤ Real.logb 10 (felschShape h).val := Real.logb_nonneg (by norm_num) hge
  have hM : (PyPow.log10 (felschShape h)).val ≤ 7/15 * (1 + 2 * (1/10^12)) := hl.trans (mul_le_mul (by linarith) (by linarith) (by linarith) (by norm_num))
  have hx : (lit (195/100) : R.F).val ≤ 196/100 := by
    have := (rd_bounds (R := R) (x := ((195/100 : ℚ) : ℝ)) (by push_cast; norm_num)).2
    rw [val_lit]
    refine this.trans ?_
    push_cast
    nlinarith
  have hx0 : 0 < (lit (195/100) : R.F).val := lit_pos (by norm_num)
  have hy : 929/1000 ≤ (lit (93/100) : R.F).val := by
    have := (rd_bounds (R := R) (x := ((93/100 : ℚ) : ℝ)) (by push_cast; norm_num)).1
    rw [val_lit]
    refine le_trans ?_ this
    push_cast
    nlinarith
  have hp : (lit (195/100) * PyPow.log10 (felschShape h) : R.F).val < 929/1000 := by
    have h1 : (lit (195/100) : R.F).val * (PyPow.log10 (felschShape h)).val ≤ 92/100 := by
      calc _ ≤ (lit (195/100) : R.F).val * (7/15 * (1 + 2 * (1/10^12))) := mul_le_mul_of_nonneg_left hM hx0.le
        _ ≤ 196/100 * (7/15 * (1 + 2 * (1/10^12))) := mul_le_mul_of_nonneg_right hx (by norm_num)
        _ ≤ _ := by norm_num
    have h2 := (rd_bounds (R := R) (x := 92/100) (by norm_num)).2
    have h3 : (lit (195/100) * PyPow.log10 (felschShape h) : R.F).val ≤ R.rd (92/100) := R.mono h1
    nlinarith
  have hb : 0 < (felschBase h).val := rd_pos (sub_pos.2 (hp.trans_le hy))
  rw [felsch_eq]
  exact rd_pos (div_pos (rd_pos (mul_pos (lit_pos (by norm_num)) (E.pow_pos _ _ hb))) (E.pow_pos _ _ hre))

/-- **C157**, outside the range from 1 to separation Felsch depends on the Reynolds number only. -/
theorem rounded_felsch_clip (re h h' : R.F) (hh : (h.val ≤ 1 ∧ h'.val ≤ 1) ∨ (3 ≤ h.val ∧ 3 ≤ h'.val)) : felsch re h = felsch re h' := by
  have hs : (lit (29986313485/10000000000) : R.F).val ≤ 3 := by
    have t : R.rd ((3 : ℤ) : ℝ) = 3 := by simpa using R.int 3 (by norm_num)
    rw [val_lit, ← t]
    exact R.mono (by push_cast; norm_num)
  have : felschShape h = felschShape h' := by
    ext
    rw [clip_val, clip_val]
    rcases hh with ⟨a, b⟩ | ⟨a, b⟩
    · rw [max_eq_right a, max_eq_right b]
    · rw [max_eq_left (by linarith), max_eq_left (by linarith), min_eq_right (by linarith), min_eq_right (by linarith)]
  rw [felsch_eq, felsch_eq, felschBase, felschBase, this]

/-! ### White -/

/-- **C157**, White is positive for Reynolds numbers above 1. -/
theorem rounded_white_pos (E : Elementary R) (re h : R.F) (hre : 1 < re.val) : 0 < (white re h).val :=
  rd_pos (div_pos (rd_pos (mul_pos (lit_pos (by norm_num)) (E.exp_pos _))) (E.pow_pos _ _ (E.log_pos _ hre)))

/-- **C157**, White does not increase with the Reynolds number, for shape factors that are not negative. -/
theorem rounded_white_anti_re (E : Elementary R) (re re' h : R.F) (hh : 0 ≤ h.val) (hre : 1 < re.val) (hr : re.val ≤ re'.val) :
    (white re' h).val ≤ (white re h).val := by
  refine R.mono (div_le_div_of_nonneg_left (rd_pos (mul_pos (lit_pos (by norm_num)) (E.exp_pos _))).le (E.pow_pos _ _ (E.log_pos _ hre)) ?_)
  refine E.pow_mono _ _ _ (E.log_pos _ hre).le (E.log_mono _ _ (by linarith) hr) (rd_nonneg (add_nonneg (lit_pos (by norm_num)).le ?_))
  exact rd_nonneg (mul_nonneg (lit_pos (by norm_num)).le hh)

/-- **C157**, White does not increase with the shape factor, for Reynolds numbers of at least 10. -/
theorem rounded_white_anti_h (E : Elementary R) (re h h' : R.F) (hre : 10 ≤ re.val) (hh : h.val ≤ h'.val) : (white re h').val ≤ (white re h).val := by
  have t : (lit 10 : R.F).val = 10 := by simpa using val_int (R := R) 10 (by norm_num)
  have l1 : 1 ≤ (PyPow.log10 re).val := by
    have := E.log_mono (lit 10) re (by rw [t]; norm_num) (by rw [t]; exact hre)
    rwa [E.log_ten _ t] at this
  have l0 : 0 < (PyPow.log10 re).val := by linarith
  refine R.mono (div_le_div₀ (rd_pos (mul_pos (lit_pos (by norm_num)) (E.exp_pos _))).le (R.mono ?_) (E.pow_pos _ _ l0)
    (E.pow_exponent _ _ _ l1 (R.mono (add_le_add_right (R.mono (mul_le_mul_of_nonneg_left hh (lit_pos (by norm_num)).le)) _))))
  refine mul_le_mul_of_nonneg_left (E.exp_mono _ _ (R.mono ?_)) (lit_pos (by norm_num)).le
  show -(lit (133/100) : R.F).val * h'.val ≤ -(lit (133/100) : R.F).val * h.val
  have : 0 < (lit (133/100) : R.F).val := lit_pos (by norm_num)
  nlinarith

/-- The hypotheses can be met: double precision, correctly rounded library functions, Reynolds numbers 100 and 200, shape factors 1 and 2. -/
theorem rounded_skin_friction_case : ∃ (R : Rounding) (_ : PyPow R.F) (re re' h h' : R.F), Elementary R ∧ R.eps ≤ 1/10^12 ∧
    10 ≤ re.val ∧ re.val < re'.val ∧ 0 ≤ h.val ∧ h.val < h'.val ∧ h'.val ≤ 29/10 := by
  obtain ⟨R, hR⟩ : ∃ R : Rounding, R.eps = (1/2) ^ 53 := ⟨Rounding.binary 53 (by norm_num), rfl⟩
  have a : (lit 100 : R.F).val = 100 := by simpa using val_int (R := R) 100 (by norm_num)
  have b : (lit 200 : R.F).val = 200 := by simpa using val_int (R := R) 200 (by norm_num)
  have d : (lit 2 : R.F).val = 2 := by simpa using val_int (R := R) 2 (by norm_num)
  refine ⟨R, _, lit 100, lit 200, lit 1, lit 2, elementary_correct, by rw [hR]; norm_num, ?_⟩
  rw [a, b, val_one, d]
  norm_num

end IBL
