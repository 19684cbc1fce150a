import Verif.Py
import Mathlib.Data.Int.Log
import Mathlib.Algebra.Order.Round
import Mathlib.Tactic.Linarith
import Mathlib.Tactic.Positivity
import Mathlib.Tactic.NormNum
import Mathlib.Tactic.FieldSimp
import Mathlib.Tactic.Ring

/-!
Arithmetic with rounding: every operation returns the exact result rounded to a representable number. The model is instantiated with these numbers in
the theorems about rounding. Simplification: no overflow and no underflow (the relative error bound holds for all results), correctly rounded square roots.
Doubling is exact and small integers are representable, as in binary arithmetic.
-/

set_option linter.unusedSectionVars false

namespace IBL

/-- A rounding of real numbers to representable ones with relative error at most `eps`. -/
structure Rounding where
  rd : ℝ → ℝ
  eps : ℝ
  mono : Monotone rd
  idem : ∀ x, rd (rd x) = rd x
  neg : ∀ x, rd (-x) = -rd x
  rel : ∀ x, |rd x - x| ≤ eps * |x|
  small : eps ≤ 1 / 1000
  int : ∀ n : ℤ, |n| ≤ 1000 → rd n = n
  dbl : ∀ x, rd (2 * x) = 2 * rd x

namespace Rounding
variable (R : Rounding)

/-- The representable numbers. -/
@[ext] structure F where
  val : ℝ
  rep : R.rd val = val

/-- The result of an operation. -/
def round (x : ℝ) : R.F := ⟨R.rd x, R.idem x⟩

theorem rd_zero : R.rd 0 = 0 := by simpa using R.int 0 (by simp)
theorem rd_one : R.rd 1 = 1 := by simpa using R.int 1 (by simp)

theorem eps_nonneg : 0 ≤ R.eps := by
  have := R.rel 1
  rw [abs_one, mul_one] at this
  exact (abs_nonneg _).trans this

variable {R}

theorem rd_nonneg {x : ℝ} (h : 0 ≤ x) : 0 ≤ R.rd x := by
  rw [← R.rd_zero]; exact R.mono h

theorem rd_nonpos {x : ℝ} (h : x ≤ 0) : R.rd x ≤ 0 := by
  rw [← R.rd_zero]; exact R.mono h

theorem rd_pos {x : ℝ} (h : 0 < x) : 0 < R.rd x := by
  have h1 := R.rel x
  rw [abs_of_pos h] at h1
  have h2 := (abs_le.1 h1).1
  have h3 := R.small
  nlinarith

theorem rd_neg {x : ℝ} (h : x < 0) : R.rd x < 0 := by
  have := rd_pos (R := R) (x := -x) (by linarith)
  rw [R.neg] at this
  linarith

theorem rd_eq_zero {x : ℝ} : R.rd x = 0 ↔ x = 0 := by
  constructor
  · intro h
    rcases lt_trichotomy x 0 with hx | hx | hx
    · exact absurd h (rd_neg hx).ne
    · exact hx
    · exact absurd h (rd_pos hx).ne'
  · rintro rfl; exact R.rd_zero

theorem rd_pos_iff {x : ℝ} : 0 < R.rd x ↔ 0 < x :=
  ⟨fun h => by by_contra hx; exact absurd (rd_nonpos (R := R) (not_lt.1 hx)) (not_le.2 h), rd_pos⟩

theorem rd_neg_iff {x : ℝ} : R.rd x < 0 ↔ x < 0 :=
  ⟨fun h => by by_contra hx; exact absurd (rd_nonneg (R := R) (not_lt.1 hx)) (not_le.2 h), rd_neg⟩

/-- For non-negative numbers the rounded one lies between these multiples. -/
theorem rd_bounds {x : ℝ} (h : 0 ≤ x) : (1 - R.eps) * x ≤ R.rd x ∧ R.rd x ≤ (1 + R.eps) * x := by
  have h1 := R.rel x
  rw [abs_of_nonneg h] at h1
  have h2 := abs_le.1 h1
  constructor <;> linarith [h2.1, h2.2]

noncomputable section
instance : Add R.F := ⟨fun a b => R.round (a.val + b.val)⟩
instance : Sub R.F := ⟨fun a b => R.round (a.val - b.val)⟩
instance : Mul R.F := ⟨fun a b => R.round (a.val * b.val)⟩
/-- Division; python raises for a zero divisor (`pyDiv`), the value then does not matter. -/
instance : Div R.F := ⟨fun a b => R.round (a.val / b.val)⟩
instance : Neg R.F := ⟨fun a => ⟨-a.val, by rw [R.neg, a.rep]⟩⟩
instance : PyLit R.F := ⟨fun q => R.round q⟩
instance : PyCmp R.F where
  lt a b := PyCmp.lt a.val b.val
  le a b := PyCmp.le a.val b.val
  eq a b := PyCmp.eq a.val b.val
  abs a := ⟨|a.val|, by rcases abs_cases a.val with ⟨h, _⟩ | ⟨h, _⟩ <;> rw [h] <;> simp [R.neg, a.rep]⟩
instance : PySqrt R.F := ⟨fun a => R.round (Real.sqrt a.val)⟩
end

@[simp] theorem val_round (x : ℝ) : (R.round x).val = R.rd x := rfl
@[simp] theorem val_add (a b : R.F) : (a + b).val = R.rd (a.val + b.val) := rfl
@[simp] theorem val_sub (a b : R.F) : (a - b).val = R.rd (a.val - b.val) := rfl
@[simp] theorem val_mul (a b : R.F) : (a * b).val = R.rd (a.val * b.val) := rfl
@[simp] theorem val_div (a b : R.F) : (a / b).val = R.rd (a.val / b.val) := rfl
@[simp] theorem val_neg (a : R.F) : (-a).val = -a.val := rfl
@[simp] theorem val_lit (q : ℚ) : (lit q : R.F).val = R.rd q := rfl
@[simp] theorem val_abs (a : R.F) : (PyCmp.abs a).val = |a.val| := rfl
@[simp] theorem val_sqrt (a : R.F) : (PySqrt.sqrt a).val = R.rd (Real.sqrt a.val) := rfl
@[simp] theorem F_lt (a b : R.F) : PyCmp.lt a b = true ↔ a.val < b.val := real_lt _ _
@[simp] theorem F_le (a b : R.F) : PyCmp.le a b = true ↔ a.val ≤ b.val := real_le _ _
@[simp] theorem F_gt (a b : R.F) : PyCmp.gt a b = true ↔ b.val < a.val := real_lt _ _
@[simp] theorem F_ge (a b : R.F) : PyCmp.ge a b = true ↔ b.val ≤ a.val := real_le _ _
@[simp] theorem F_eq (a b : R.F) : PyCmp.eq a b = true ↔ a.val = b.val := real_eq _ _
theorem val_int (n : ℤ) (h : |n| ≤ 1000) : (lit n : R.F).val = n := by
  rw [val_lit]; push_cast; exact R.int n h
@[simp] theorem val_zero : (lit 0 : R.F).val = 0 := by rw [val_lit, Rat.cast_zero, R.rd_zero]
@[simp] theorem val_one : (lit 1 : R.F).val = 1 := by rw [val_lit, Rat.cast_one, R.rd_one]

/-! ### Binary floating point -/

section binary
variable (p : ℕ)

/-- Rounding of a positive number to `p` significant binary digits, ties upwards. -/
noncomputable def pos (x : ℝ) : ℝ := (_root_.round (x / 2 ^ (Int.log 2 x - p + 1)) : ℤ) * (2 : ℝ) ^ (Int.log 2 x - p + 1)

/-- Rounding to nearest with `p` significant binary digits, ties away from zero. -/
noncomputable def nearest (x : ℝ) : ℝ := if 0 < x then pos p x else if x < 0 then -pos p (-x) else 0

variable {p}

private theorem two_zpow_pos (e : ℤ) : (0:ℝ) < 2 ^ e := by positivity

/-- The scaled number lies between two powers of two. -/
private theorem scaled {x : ℝ} (hx : 0 < x) :
    (2:ℝ) ^ ((p:ℤ) - 1) ≤ x / 2 ^ (Int.log 2 x - p + 1) ∧ x / 2 ^ (Int.log 2 x - p + 1) < (2:ℝ) ^ (p:ℤ) := by
  have h1 := Int.zpow_log_le_self (b := 2) (by norm_num) hx
  have h2 := Int.lt_zpow_succ_log_self (b := 2) (by norm_num) x
  push_cast at h1 h2
  constructor
  · rw [le_div_iff₀ (two_zpow_pos _), ← zpow_add₀ two_ne_zero, show (p:ℤ) - 1 + (Int.log 2 x - p + 1) = Int.log 2 x by ring]
    exact h1
  · rw [div_lt_iff₀ (two_zpow_pos _), ← zpow_add₀ two_ne_zero, show (p:ℤ) + (Int.log 2 x - p + 1) = Int.log 2 x + 1 by ring]
    exact h2

private theorem int_le_round {n : ℤ} {y : ℝ} (h : (n:ℝ) ≤ y) : n ≤ _root_.round y := by
  rw [round_eq, Int.le_floor]; linarith

private theorem round_le_int {n : ℤ} {y : ℝ} (h : y ≤ n) : _root_.round y ≤ n := by
  rw [round_eq, ← Int.lt_add_one_iff, Int.floor_lt]; push_cast; linarith

private theorem round_le_round {y z : ℝ} (h : y ≤ z) : _root_.round y ≤ _root_.round z := by
  rw [round_eq, round_eq]; exact Int.floor_le_floor (by linarith)

private theorem pow_int (n : ℕ) : ((2 ^ n : ℤ) : ℝ) = (2:ℝ) ^ (n:ℤ) := by push_cast; rw [zpow_natCast]

private theorem pos_bounds (hp : 1 ≤ p) {x : ℝ} (hx : 0 < x) : (2:ℝ) ^ Int.log 2 x ≤ pos p x ∧ pos p x ≤ (2:ℝ) ^ (Int.log 2 x + 1) := by
  obtain ⟨h1, h2⟩ := scaled (p := p) hx
  have e1 : ((p:ℤ) - 1) = ((p - 1 : ℕ) : ℤ) := by omega
  constructor
  · have : (2 ^ (p - 1) : ℤ) ≤ _root_.round (x / 2 ^ (Int.log 2 x - p + 1)) := int_le_round (by rw [pow_int, ← e1]; exact h1)
    have h3 : (2:ℝ) ^ ((p:ℤ) - 1) ≤ (_root_.round (x / 2 ^ (Int.log 2 x - p + 1)) : ℤ) := by
      rw [e1, ← pow_int]; exact_mod_cast this
    calc (2:ℝ) ^ Int.log 2 x = (2:ℝ) ^ ((p:ℤ) - 1) * 2 ^ (Int.log 2 x - p + 1) := by
          rw [← zpow_add₀ two_ne_zero]; congr 1; ring
      _ ≤ _ := mul_le_mul_of_nonneg_right h3 (two_zpow_pos _).le
  · have : _root_.round (x / 2 ^ (Int.log 2 x - p + 1)) ≤ (2 ^ p : ℤ) := round_le_int (by rw [pow_int]; exact h2.le)
    have h3 : ((_root_.round (x / 2 ^ (Int.log 2 x - p + 1)) : ℤ) : ℝ) ≤ (2:ℝ) ^ (p:ℤ) := by
      rw [← pow_int]; exact_mod_cast this
    calc pos p x ≤ (2:ℝ) ^ (p:ℤ) * 2 ^ (Int.log 2 x - p + 1) := mul_le_mul_of_nonneg_right h3 (two_zpow_pos _).le
      _ = _ := by rw [← zpow_add₀ two_ne_zero]; congr 1; ring

private theorem pos_pos (hp : 1 ≤ p) {x : ℝ} (hx : 0 < x) : 0 < pos p x := (two_zpow_pos _).trans_le (pos_bounds hp hx).1

private theorem pos_mono (hp : 1 ≤ p) {x y : ℝ} (hx : 0 < x) (hxy : x ≤ y) : pos p x ≤ pos p y := by
  have hy := hx.trans_le hxy
  rcases (Int.log_mono_right (b := 2) hx hxy).lt_or_eq with h | h
  · refine (pos_bounds hp hx).2.trans (le_trans ?_ (pos_bounds hp hy).1)
    exact zpow_le_zpow_right₀ (by norm_num) (by omega)
  · rw [pos, pos, h]
    refine mul_le_mul_of_nonneg_right ?_ (two_zpow_pos _).le
    exact_mod_cast round_le_round (div_le_div_of_nonneg_right hxy (two_zpow_pos _).le)

/-- Integer multiples of the unit in the last place are kept. -/
private theorem pos_exact {x : ℝ} (n : ℤ) (h : x = n * (2:ℝ) ^ (Int.log 2 x - p + 1)) : pos p x = x := by
  have hd : x / 2 ^ (Int.log 2 x - p + 1) = n := by rw [div_eq_iff (two_zpow_pos _).ne']; exact h
  rw [pos, hd, round_intCast]; exact h.symm

private theorem pos_zpow (hp : 1 ≤ p) (e : ℤ) : pos p ((2:ℝ) ^ e) = (2:ℝ) ^ e := by
  have hl : Int.log 2 ((2:ℝ) ^ e) = e := by
    have := Int.log_zpow (R := ℝ) (b := 2) (by norm_num) e
    exact_mod_cast this
  refine pos_exact (2 ^ (p - 1) : ℤ) ?_
  rw [hl, pow_int, ← zpow_add₀ two_ne_zero]
  congr 1; omega

private theorem pos_idem (hp : 1 ≤ p) {x : ℝ} (hx : 0 < x) : pos p (pos p x) = pos p x := by
  obtain ⟨h1, h2⟩ := pos_bounds hp hx
  rcases h2.lt_or_eq with h2 | h2
  · have hl : Int.log 2 (pos p x) = Int.log 2 x := by
      apply le_antisymm
      · have := (Int.lt_zpow_iff_log_lt (b := 2) (R := ℝ) (by norm_num) (pos_pos hp hx) (x := Int.log 2 x + 1)).1 (by push_cast; exact h2)
        omega
      · exact (Int.zpow_le_iff_le_log (b := 2) (R := ℝ) (by norm_num) (pos_pos hp hx)).1 (by push_cast; exact h1)
    refine pos_exact (_root_.round (x / 2 ^ (Int.log 2 x - p + 1))) ?_
    rw [hl]; rfl
  · rw [h2]; exact pos_zpow hp _

private theorem pos_rel {x : ℝ} (hx : 0 < x) : |pos p x - x| ≤ (1/2) ^ p * x := by
  have h1 := (scaled (p := p) hx).1
  set e := Int.log 2 x - p + 1 with he
  have h2 := abs_sub_round (x / 2 ^ e)
  have h3 : pos p x - x = -((x / 2 ^ e - _root_.round (x / 2 ^ e)) * 2 ^ e) := by
    have : x / (2:ℝ) ^ e * 2 ^ e = x := div_mul_cancel₀ _ (two_zpow_pos _).ne'
    rw [sub_mul, this, pos, ← he]; ring
  rw [h3, abs_neg, abs_mul, abs_of_pos (two_zpow_pos e)]
  have h4 : (2:ℝ) ^ e ≤ 2 * (1/2) ^ p * x := by
    rw [le_div_iff₀ (two_zpow_pos _)] at h1
    have h5 : (2:ℝ) ^ ((p:ℤ) - 1) = 2 ^ p / 2 := by rw [zpow_sub₀ two_ne_zero, zpow_natCast, zpow_one]
    have h6 : (0:ℝ) < 2 ^ p := by positivity
    rw [h5] at h1
    have h7 : ((1:ℝ)/2) ^ p = 1 / 2 ^ p := by rw [div_pow, one_pow]
    rw [h7, show (2:ℝ) * (1 / 2 ^ p) * x = (2 * x) / 2 ^ p by ring, le_div_iff₀ h6]
    linarith
  have := mul_le_mul_of_nonneg_right h2 (two_zpow_pos e).le
  linarith

private theorem nearest_pos {x : ℝ} (hx : 0 < x) : nearest p x = pos p x := if_pos hx
private theorem nearest_neg' {x : ℝ} (hx : x < 0) : nearest p x = -pos p (-x) := by rw [nearest, if_neg hx.not_gt, if_pos hx]
private theorem nearest_zero : nearest p 0 = 0 := by simp [nearest]

private theorem nearest_odd (x : ℝ) : nearest p (-x) = -nearest p x := by
  rcases lt_trichotomy x 0 with h | rfl | h
  · rw [nearest_pos (by linarith), nearest_neg' h, neg_neg]
  · simp [nearest_zero]
  · rw [nearest_neg' (by linarith), nearest_pos h, neg_neg]

private theorem nearest_mono (hp : 1 ≤ p) : Monotone (nearest p) := by
  intro x y h
  rcases lt_trichotomy x 0 with hx | rfl | hx
  · rcases lt_trichotomy y 0 with hy | rfl | hy
    · rw [nearest_neg' hx, nearest_neg' hy]
      exact neg_le_neg (pos_mono hp (by linarith) (by linarith))
    · rw [nearest_neg' hx, nearest_zero]
      linarith [pos_pos (p := p) hp (x := -x) (by linarith)]
    · rw [nearest_neg' hx, nearest_pos hy]
      linarith [pos_pos (p := p) hp (x := -x) (by linarith), pos_pos (p := p) hp hy]
  · rcases h.lt_or_eq with hy | rfl
    · rw [nearest_zero, nearest_pos hy]; exact (pos_pos hp hy).le
    · exact le_rfl
  · rw [nearest_pos hx, nearest_pos (hx.trans_le h)]
    exact pos_mono hp hx h

private theorem nearest_int {n : ℤ} (hp : 10 ≤ p) (h : |n| ≤ 1000) : nearest p n = n := by
  have key : ∀ n : ℤ, 0 < n → n ≤ 1000 → pos p (n:ℝ) = n := by
    intro n h0 h1
    have hn : (0:ℝ) < n := by exact_mod_cast h0
    have hl : Int.log 2 (n:ℝ) < 10 := by
      refine (Int.lt_zpow_iff_log_lt (b := 2) (R := ℝ) (by norm_num) hn).1 ?_
      have : (n:ℝ) ≤ 1000 := by exact_mod_cast h1
      norm_num; linarith
    refine pos_exact (n * 2 ^ (p - 1 - Int.log 2 (n:ℝ)).toNat) ?_
    have ht : ((p - 1 - Int.log 2 (n:ℝ)).toNat : ℤ) = p - 1 - Int.log 2 (n:ℝ) := by omega
    rw [Int.cast_mul, pow_int, ht, mul_assoc, ← zpow_add₀ two_ne_zero,
      show (p:ℤ) - 1 - Int.log 2 (n:ℝ) + (Int.log 2 (n:ℝ) - p + 1) = 0 by ring, zpow_zero, mul_one]
  rcases lt_trichotomy n 0 with hn | rfl | hn
  · have hn' : (n:ℝ) < 0 := by exact_mod_cast hn
    rw [nearest_neg' hn']
    have := key (-n) (by omega) (by rw [abs_of_neg hn] at h; exact h)
    push_cast at this
    rw [this, neg_neg]
  · simp [nearest_zero]
  · rw [nearest_pos (by exact_mod_cast hn)]
    exact key n hn (by rwa [abs_of_pos hn] at h)

private theorem pos_dbl {x : ℝ} (hx : 0 < x) : pos p (2 * x) = 2 * pos p x := by
  have hl : Int.log 2 (2 * x) = Int.log 2 x + 1 := by
    have h1 := Int.zpow_log_le_self (b := 2) (by norm_num) hx
    have h2 := Int.lt_zpow_succ_log_self (b := 2) (by norm_num) x
    push_cast at h1 h2
    have e : ∀ n : ℤ, (2:ℝ) ^ (n + 1) = 2 * 2 ^ n := fun n => by rw [zpow_add_one₀ two_ne_zero]; ring
    apply le_antisymm
    · have := (Int.lt_zpow_iff_log_lt (b := 2) (R := ℝ) (by norm_num) (by linarith : 0 < 2 * x) (x := Int.log 2 x + 1 + 1)).1
        (by push_cast; rw [e]; linarith)
      omega
    · exact (Int.zpow_le_iff_le_log (b := 2) (R := ℝ) (by norm_num) (by linarith)).1 (by push_cast; rw [e]; linarith)
  have e : (2:ℝ) ^ (Int.log 2 x + 1 - p + 1) = 2 * 2 ^ (Int.log 2 x - p + 1) := by
    rw [show Int.log 2 x + 1 - (p:ℤ) + 1 = (Int.log 2 x - p + 1) + 1 by ring, zpow_add_one₀ two_ne_zero]; ring
  rw [pos, pos, hl, e, mul_div_mul_left _ _ two_ne_zero]
  ring

private theorem nearest_dbl (x : ℝ) : nearest p (2 * x) = 2 * nearest p x := by
  rcases lt_trichotomy x 0 with h | rfl | h
  · rw [nearest_neg' h, nearest_neg' (by linarith), show -(2 * x) = 2 * -x by ring, pos_dbl (by linarith)]; ring
  · simp [nearest_zero]
  · rw [nearest_pos h, nearest_pos (by linarith), pos_dbl h]

/-- The value of a rounding, if the number is given with its exponent and is not halfway between two representable ones. -/
theorem nearest_eval {x : ℝ} (e n : ℤ) (h1 : (2:ℝ) ^ e ≤ x) (h2 : x < (2:ℝ) ^ (e + 1))
    (h : |x / (2:ℝ) ^ (e - p + 1) - n| < 1 / 2) : nearest p x = n * (2:ℝ) ^ (e - p + 1) := by
  have hx : 0 < x := (two_zpow_pos e).trans_le h1
  have hl : Int.log 2 x = e := by
    apply le_antisymm
    · have := (Int.lt_zpow_iff_log_lt (b := 2) (R := ℝ) (by norm_num) hx (x := e + 1)).1 (by push_cast; exact h2)
      omega
    · exact (Int.zpow_le_iff_le_log (b := 2) (R := ℝ) (by norm_num) hx).1 (by push_cast; exact h1)
  rw [nearest_pos hx, pos, hl]
  congr 2
  rw [abs_lt] at h
  rw [round_eq, Int.floor_eq_iff]
  constructor <;> linarith [h.1, h.2]

/-- Binary floating point numbers with `p` digits and unbounded exponent, rounding to nearest; `binary 53` has the precision of python's floats. -/
noncomputable def binary (p : ℕ) (hp : 10 ≤ p) : Rounding where
  rd := nearest p
  eps := (1/2) ^ p
  mono := nearest_mono (by omega)
  idem x := by
    rcases lt_trichotomy x 0 with h | rfl | h
    · have hp0 := pos_pos (p := p) (by omega) (x := -x) (by linarith)
      rw [nearest_neg' h, nearest_odd, nearest_pos hp0, pos_idem (by omega) (by linarith)]
    · simp [nearest_zero]
    · rw [nearest_pos h, nearest_pos (pos_pos (by omega) h), pos_idem (by omega) h]
  neg := nearest_odd
  rel x := by
    rcases lt_trichotomy x 0 with h | rfl | h
    · rw [nearest_neg' h, abs_of_neg h, ← abs_neg, show -(-pos p (-x) - x) = pos p (-x) - -x by ring]
      exact pos_rel (by linarith)
    · simp [nearest_zero]
    · rw [nearest_pos h, abs_of_pos h]; exact pos_rel h
  small := by
    have : ((1:ℝ)/2) ^ p ≤ (1/2) ^ 10 := pow_le_pow_of_le_one (by norm_num) (by norm_num) hp
    norm_num at this ⊢; linarith
  int n h := nearest_int hp h
  dbl := nearest_dbl

/-- Numbers with the precision of python's floats. -/
noncomputable def double : Rounding := binary 53 (by norm_num)

theorem double_eval {x : ℝ} (e n : ℤ) (h1 : (2:ℝ) ^ e ≤ x) (h2 : x < (2:ℝ) ^ (e + 1)) (h : |x / (2:ℝ) ^ (e - 52) - n| < 1 / 2) :
    double.rd x = n * (2:ℝ) ^ (e - 52) := by
  have he : e - ((53 : ℕ) : ℤ) + 1 = e - 52 := by push_cast; ring
  have := nearest_eval (p := 53) e n h1 h2 (by rw [he]; exact h)
  rw [he] at this
  exact this

end binary
end Rounding
end IBL
