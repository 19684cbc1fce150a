import Verif.Props.FiniteDiff
import Verif.Round
import Mathlib.Analysis.SpecialFunctions.Trigonometric.Deriv

/-! C88: the numerical velocity derivatives in arithmetic with rounding. -/

set_option linter.unusedSectionVars false

namespace IBL
open Rounding

variable {R : Rounding}

namespace FD

theorem rd_err {y x e m : ℝ} (h : |y - x| ≤ e) (hm : |y| ≤ m) : |R.rd y - x| ≤ e + R.eps * m := by
  have h1 := R.rel y
  have h2 := mul_le_mul_of_nonneg_left hm R.eps_nonneg
  have h3 := abs_add_le (R.rd y - y) (y - x)
  rw [sub_add_sub_cancel] at h3
  linarith

theorem rd_abs {y m : ℝ} (hm : |y| ≤ m) : |R.rd y| ≤ 1.001 * m := by
  have h1 := R.rel y
  have h2 := R.small
  have h3 := abs_add_le (R.rd y - y) y
  rw [sub_add_cancel] at h3
  have h4 : R.eps * |y| ≤ 1 / 1000 * |y| := mul_le_mul_of_nonneg_right h2 (abs_nonneg _)
  linarith

theorem rd_two : R.rd 2 = 2 := by simpa using R.int 2 (by norm_num)

theorem val_two : (lit 2 : R.F).val = 2 := by simpa using val_int (R := R) 2 (by norm_num)
theorem val_three : (lit 3 : R.F).val = 3 := by simpa using val_int (R := R) 3 (by norm_num)
theorem val_four : (lit 4 : R.F).val = 4 := by simpa using val_int (R := R) 4 (by norm_num)
theorem val_twelve : (lit 12 : R.F).val = 12 := by simpa using val_int (R := R) 12 (by norm_num)
theorem val_five_half : (lit (5/2) : R.F).val = 5 / 2 := by
  have h : R.rd 5 = 5 := by simpa using R.int 5 (by norm_num)
  have := R.dbl (5 / 2)
  rw [show (2:ℝ) * (5 / 2) = 5 by norm_num, h] at this
  rw [val_lit]; push_cast; linarith

theorem val_dbl (a : R.F) : (lit 2 * a).val = 2 * a.val := by rw [val_mul, val_two, R.dbl, a.rep]

theorem val_quad (a : R.F) : (lit 4 * a).val = 4 * a.val := by
  rw [val_mul, val_four, show (4:ℝ) * a.val = 2 * (2 * a.val) by ring, R.dbl, R.dbl, a.rep]

/-- The step used. -/
theorem step_bounds {q : ℚ} (hq : 0 < q) : 0.999 * (q:ℝ) ≤ (lit q : R.F).val ∧ (lit q : R.F).val ≤ 1.001 * q := by
  have hq' : (0:ℝ) < q := by exact_mod_cast hq
  obtain ⟨h1, h2⟩ := rd_bounds (R := R) hq'.le
  have := R.small
  rw [val_lit]
  constructor
  · nlinarith
  · nlinarith

/-- The arithmetic of the first derivative on values with error `s`, bounded by `B`. -/
theorem fd1Comb_rounded {a b c d h : R.F} {a' b' c' d' s B : ℝ} (hh : 0 < h.val) (ha : |a.val - a'| ≤ s) (hb : |b.val - b'| ≤ s)
    (hc : |c.val - c'| ≤ s) (hd : |d.val - d'| ≤ s) (Ba : |a'| ≤ B) (Bb : |b'| ≤ B) (Bc : |c'| ≤ B) (Bd : |d'| ≤ B) :
    |(fd1Comb a b c d h).val - fd1Comb a' b' c' d' h.val| ≤ (1.51 * s + 6.04 * R.eps * B) / h.val := by
  have e0 := R.eps_nonneg
  have e1 := R.small
  have s0 : 0 ≤ s := (abs_nonneg _).trans ha
  have B0 : 0 ≤ B := (abs_nonneg _).trans Ba
  have bound : ∀ {v v' : ℝ}, |v - v'| ≤ s → |v'| ≤ B → |v| ≤ B + s := by
    intro v v' h1 h2
    have := abs_add_le (v - v') v'
    rw [sub_add_cancel] at this; linarith
  have A1 := bound ha Ba
  have A2 := bound hb Bb
  have A3 := bound hc Bc
  have A4 := bound hd Bd
  set C := B + s with hC
  have C0 : 0 ≤ C := by linarith
  set ε := R.eps with hε
  have εC : 0 ≤ ε * C := mul_nonneg e0 C0
  have diff : ∀ {v w v' w' : ℝ}, |v - v'| ≤ s → |w - w'| ≤ s → |(v - w) - (v' - w')| ≤ 2 * s := by
    intro v w v' w' h1 h2
    have := abs_sub (v - v') (w - w')
    rw [show v - w - (v' - w') = v - v' - (w - w') by ring]; linarith
  have diffa : ∀ {v w x y : ℝ}, |v| ≤ x → |w| ≤ y → |v - w| ≤ x + y := fun h1 h2 => (abs_sub _ _).trans (by linarith)
  have divb : ∀ {v m : ℝ} {k : ℝ}, 0 < k → |v| ≤ m → |v / k| ≤ m / k := by
    intro v m k hk h
    rw [abs_div, abs_of_pos hk]; exact div_le_div_of_nonneg_right h hk.le
  -- the first difference
  have d1 : |(a - b).val - (a' - b')| ≤ 2 * s + ε * (2 * C) := by
    rw [val_sub]; exact rd_err (diff ha hb) (by have := diffa A1 A2; linarith)
  have m1 : |(a - b).val| ≤ 2.002 * C := by
    rw [val_sub]; have := rd_abs (R := R) (diffa A1 A2); linarith
  have q1 : |((a - b) / lit 12).val - (a' - b') / 12| ≤ s / 6 + 0.34 * (ε * C) := by
    rw [val_div, val_twelve]
    have := rd_err (R := R) (y := (a - b).val / 12) (x := (a' - b') / 12) (e := (2 * s + ε * (2 * C)) / 12) (m := 2.002 * C / 12)
      (by rw [← sub_div]; exact divb (by norm_num) d1) (divb (by norm_num) m1)
    linarith
  have n1 : |((a - b) / lit 12).val| ≤ 0.168 * C := by
    rw [val_div, val_twelve]
    have := rd_abs (R := R) (divb (k := 12) (by norm_num) m1)
    linarith
  -- the second difference
  have d2 : |(c - d).val - (c' - d')| ≤ 2 * s + ε * (2 * C) := by
    rw [val_sub]; exact rd_err (diff hc hd) (by have := diffa A3 A4; linarith)
  have m2 : |(c - d).val| ≤ 2.002 * C := by
    rw [val_sub]; have := rd_abs (R := R) (diffa A3 A4); linarith
  have t2 : |(lit 2 * (c - d)).val - 2 * (c' - d')| ≤ 4 * s + 4 * (ε * C) := by
    rw [val_dbl, ← mul_sub, abs_mul, abs_two]; linarith
  have m3 : |(lit 2 * (c - d)).val| ≤ 4.004 * C := by
    rw [val_dbl, abs_mul, abs_two]; linarith
  have q2 : |(lit 2 * (c - d) / lit 3).val - 2 * (c' - d') / 3| ≤ 4 / 3 * s + 2.67 * (ε * C) := by
    rw [val_div, val_three]
    have := rd_err (R := R) (y := (lit 2 * (c - d)).val / 3) (x := 2 * (c' - d') / 3) (e := (4 * s + 4 * (ε * C)) / 3) (m := 4.004 * C / 3)
      (by rw [← sub_div]; exact divb (by norm_num) t2) (divb (by norm_num) m3)
    linarith
  have n2 : |(lit 2 * (c - d) / lit 3).val| ≤ 1.3361 * C := by
    rw [val_div, val_three]
    have := rd_abs (R := R) (divb (k := 3) (by norm_num) m3)
    linarith
  -- their difference
  have d3 : |((a - b) / lit 12 - lit 2 * (c - d) / lit 3).val - ((a' - b') / 12 - 2 * (c' - d') / 3)| ≤ 1.5 * s + 4.52 * (ε * C) := by
    rw [val_sub]
    have h3 : |((a - b) / lit 12).val - (lit 2 * (c - d) / lit 3).val - ((a' - b') / 12 - 2 * (c' - d') / 3)| ≤
        s / 6 + 0.34 * (ε * C) + (4 / 3 * s + 2.67 * (ε * C)) := by
      rw [show ∀ p q r t : ℝ, p - q - (r - t) = (p - r) - (q - t) by intros; ring]
      exact (abs_sub _ _).trans (add_le_add q1 q2)
    have := rd_err (R := R) h3 (diffa n1 n2)
    linarith
  have m4 : |((a - b) / lit 12 - lit 2 * (c - d) / lit 3).val| ≤ 1.506 * C := by
    rw [val_sub]
    have := rd_abs (R := R) (diffa n1 n2)
    linarith
  have fin : |(fd1Comb a b c d h).val - ((a' - b') / 12 - 2 * (c' - d') / 3) / h.val| ≤
      (1.5 * s + 4.52 * (ε * C)) / h.val + ε * (1.506 * C / h.val) := by
    rw [fd1Comb, val_div]
    exact rd_err (by rw [← sub_div]; exact divb hh d3) (divb hh m4)
  have e : fd1Comb a' b' c' d' h.val = ((a' - b') / 12 - 2 * (c' - d') / 3) / h.val := by simp [fd1Comb]
  rw [e]
  refine fin.trans ?_
  rw [mul_div_assoc', ← add_div]
  refine div_le_div_of_nonneg_right ?_ hh.le
  have : ε * s ≤ 1 / 1000 * s := mul_le_mul_of_nonneg_right e1 s0
  have hεB : 0 ≤ ε * B := mul_nonneg e0 B0
  have : ε * C = ε * B + ε * s := by rw [hC]; ring
  linarith

set_option maxHeartbeats 1000000 in
/-- The arithmetic of the second derivative. -/
theorem fd2Comb_rounded {a b z c d h : R.F} {a' b' z' c' d' s B : ℝ} (hh : 0 < h.val) (ha : |a.val - a'| ≤ s) (hb : |b.val - b'| ≤ s)
    (hz : |z.val - z'| ≤ s) (hc : |c.val - c'| ≤ s) (hd : |d.val - d'| ≤ s) (Ba : |a'| ≤ B) (Bb : |b'| ≤ B) (Bz : |z'| ≤ B) (Bc : |c'| ≤ B)
    (Bd : |d'| ≤ B) :
    |(fd2Comb a b z c d h).val - fd2Comb a' b' z' c' d' h.val| ≤ (5.38 * s + 27 * R.eps * B) / (h.val * h.val) := by
  have e0 := R.eps_nonneg
  have e1 := R.small
  have s0 : 0 ≤ s := (abs_nonneg _).trans ha
  have B0 : 0 ≤ B := (abs_nonneg _).trans Ba
  have bound : ∀ {v v' : ℝ}, |v - v'| ≤ s → |v'| ≤ B → |v| ≤ B + s := by
    intro v v' h1 h2
    have := abs_add_le (v - v') v'
    rw [sub_add_cancel] at this; linarith
  have A1 := bound ha Ba
  have A2 := bound hb Bb
  have A3 := bound hc Bc
  have A4 := bound hd Bd
  have A5 := bound hz Bz
  set C := B + s with hC
  have C0 : 0 ≤ C := by linarith
  set ε := R.eps with hε
  have εC : 0 ≤ ε * C := mul_nonneg e0 C0
  have diff : ∀ {v w v' w' : ℝ}, |v - v'| ≤ s → |w - w'| ≤ s → |(v + w) - (v' + w')| ≤ 2 * s := by
    intro v w v' w' h1 h2
    have := abs_add_le (v - v') (w - w')
    rw [show v + w - (v' + w') = v - v' + (w - w') by ring]; linarith
  have diffa : ∀ {v w x y : ℝ}, |v| ≤ x → |w| ≤ y → |v - w| ≤ x + y := fun h1 h2 => (abs_sub _ _).trans (by linarith)
  have suma : ∀ {v w x y : ℝ}, |v| ≤ x → |w| ≤ y → |v + w| ≤ x + y := fun h1 h2 => (abs_add_le _ _).trans (by linarith)
  have divb : ∀ {v m : ℝ} {k : ℝ}, 0 < k → |v| ≤ m → |v / k| ≤ m / k := by
    intro v m k hk h
    rw [abs_div, abs_of_pos hk]; exact div_le_div_of_nonneg_right h hk.le
  have d1 : |(-(a + b)).val - -(a' + b')| ≤ 2 * s + ε * (2 * C) := by
    rw [val_neg, val_add, ← neg_sub_neg, neg_neg, neg_neg, abs_sub_comm]
    exact rd_err (diff ha hb) (by have := suma A1 A2; linarith)
  have m1 : |(-(a + b)).val| ≤ 2.002 * C := by
    rw [val_neg, abs_neg, val_add]; have := rd_abs (R := R) (suma A1 A2); linarith
  have q1 : |(-(a + b) / lit 12).val - -(a' + b') / 12| ≤ s / 6 + 0.34 * (ε * C) := by
    rw [val_div, val_twelve]
    have := rd_err (R := R) (y := (-(a + b)).val / 12) (x := -(a' + b') / 12) (e := (2 * s + ε * (2 * C)) / 12) (m := 2.002 * C / 12)
      (by rw [← sub_div]; exact divb (by norm_num) d1) (divb (by norm_num) m1)
    linarith
  have n1 : |(-(a + b) / lit 12).val| ≤ 0.168 * C := by
    rw [val_div, val_twelve]
    have := rd_abs (R := R) (divb (k := 12) (by norm_num) m1)
    linarith
  have p0 : |(lit (5/2) * z).val - 5 / 2 * z'| ≤ 5 / 2 * s + ε * (5 / 2 * C) := by
    rw [val_mul, val_five_half]
    refine rd_err ?_ ?_
    · rw [← mul_sub, abs_mul, abs_of_pos (by norm_num : (0:ℝ) < 5 / 2)]; linarith
    · rw [abs_mul, abs_of_pos (by norm_num : (0:ℝ) < 5 / 2)]; linarith
  have p1 : |(lit (5/2) * z).val| ≤ 2.5025 * C := by
    rw [val_mul, val_five_half]
    have := rd_abs (R := R) (y := 5 / 2 * z.val) (m := 5 / 2 * C) (by rw [abs_mul, abs_of_pos (by norm_num : (0:ℝ) < 5 / 2)]; linarith)
    linarith
  have r1 : |(-(a + b) / lit 12 - lit (5/2) * z).val - (-(a' + b') / 12 - 5 / 2 * z')| ≤ 2.667 * s + 5.52 * (ε * C) := by
    rw [val_sub]
    have h3 : |(-(a + b) / lit 12).val - (lit (5/2) * z).val - (-(a' + b') / 12 - 5 / 2 * z')| ≤
        s / 6 + 0.34 * (ε * C) + (5 / 2 * s + ε * (5 / 2 * C)) := by
      rw [show ∀ p q r t : ℝ, p - q - (r - t) = (p - r) - (q - t) by intros; ring]
      exact (abs_sub _ _).trans (add_le_add q1 p0)
    have := rd_err (R := R) h3 (diffa n1 p1)
    linarith
  have r2 : |(-(a + b) / lit 12 - lit (5/2) * z).val| ≤ 2.674 * C := by
    rw [val_sub]
    have := rd_abs (R := R) (diffa n1 p1)
    linarith
  have d2 : |(c + d).val - (c' + d')| ≤ 2 * s + ε * (2 * C) := by
    rw [val_add]; exact rd_err (diff hc hd) (by have := suma A3 A4; linarith)
  have m2 : |(c + d).val| ≤ 2.002 * C := by
    rw [val_add]; have := rd_abs (R := R) (suma A3 A4); linarith
  have t2 : |(lit 4 * (c + d)).val - 4 * (c' + d')| ≤ 8 * s + 8 * (ε * C) := by
    rw [val_quad, ← mul_sub, abs_mul, abs_of_pos (by norm_num : (0:ℝ) < 4)]; linarith
  have m3 : |(lit 4 * (c + d)).val| ≤ 8.008 * C := by
    rw [val_quad, abs_mul, abs_of_pos (by norm_num : (0:ℝ) < 4)]; linarith
  have q2 : |(lit 4 * (c + d) / lit 3).val - 4 * (c' + d') / 3| ≤ 8 / 3 * s + 5.34 * (ε * C) := by
    rw [val_div, val_three]
    have := rd_err (R := R) (y := (lit 4 * (c + d)).val / 3) (x := 4 * (c' + d') / 3) (e := (8 * s + 8 * (ε * C)) / 3) (m := 8.008 * C / 3)
      (by rw [← sub_div]; exact divb (by norm_num) t2) (divb (by norm_num) m3)
    linarith
  have n2 : |(lit 4 * (c + d) / lit 3).val| ≤ 2.6721 * C := by
    rw [val_div, val_three]
    have := rd_abs (R := R) (divb (k := 3) (by norm_num) m3)
    linarith
  set N := -(a' + b') / 12 - 5 / 2 * z' + 4 * (c' + d') / 3 with hN
  have d3 : |(-(a + b) / lit 12 - lit (5/2) * z + lit 4 * (c + d) / lit 3).val - N| ≤ 5.334 * s + 16.21 * (ε * C) := by
    rw [val_add]
    have h3 : |(-(a + b) / lit 12 - lit (5/2) * z).val + (lit 4 * (c + d) / lit 3).val - N| ≤
        2.667 * s + 5.52 * (ε * C) + (8 / 3 * s + 5.34 * (ε * C)) := by
      rw [hN, show ∀ p q r t : ℝ, p + q - (r + t) = (p - r) + (q - t) by intros; ring]
      exact (abs_add_le _ _).trans (add_le_add r1 q2)
    have := rd_err (R := R) h3 (suma r2 n2)
    linarith
  have m4 : |(-(a + b) / lit 12 - lit (5/2) * z + lit 4 * (c + d) / lit 3).val| ≤ 5.352 * C := by
    rw [val_add]
    have := rd_abs (R := R) (suma r2 n2)
    linarith
  have hNb : |N| ≤ 5.334 * C := by
    have k1 := suma Ba Bb
    have k2 := suma Bc Bd
    have h1 : |-(a' + b') / 12| ≤ 2 * B / 12 := divb (by norm_num) (by rw [abs_neg]; linarith)
    have h2 : |5 / 2 * z'| ≤ 5 / 2 * B := by rw [abs_mul, abs_of_pos (by norm_num : (0:ℝ) < 5 / 2)]; linarith
    have h3 : |4 * (c' + d') / 3| ≤ 8 * B / 3 := divb (by norm_num) (by rw [abs_mul, abs_of_pos (by norm_num : (0:ℝ) < 4)]; linarith)
    have := suma (diffa h1 h2) h3
    linarith
  have hD0 : 0 < h.val * h.val := mul_pos hh hh
  obtain ⟨D1, D2⟩ := rd_bounds (R := R) hD0.le
  have hD : (h * h).val = R.rd (h.val * h.val) := val_mul _ _
  set D := R.rd (h.val * h.val) with hDd
  set H := h.val * h.val with hH
  set n := (-(a + b) / lit 12 - lit (5/2) * z + lit 4 * (c + d) / lit 3).val with hn
  have hDpos : 0 < D := rd_pos hD0
  have hdd : |n / D - N / H| ≤ (5.334 * s + 16.21 * (ε * C)) / D + ε * (5.334 * C) / D := by
    have e : n / D - N / H = (n - N) / D + N * (H - D) / H / D := by field_simp; ring
    rw [e]
    refine (abs_add_le _ _).trans (add_le_add (divb hDpos d3) (divb hDpos ?_))
    rw [abs_div, abs_mul, abs_of_pos hD0, div_le_iff₀ hD0]
    have h1 : |H - D| ≤ ε * H := by rw [abs_le]; constructor <;> linarith
    have := mul_le_mul hNb h1 (abs_nonneg _) (by linarith)
    linarith
  have fin : |(fd2Comb a b z c d h).val - N / H| ≤
      (5.334 * s + 16.21 * (ε * C)) / D + ε * (5.334 * C) / D + ε * (5.352 * C / D) := by
    rw [fd2Comb, val_div, hD]
    exact rd_err hdd (divb hDpos m4)
  have e : fd2Comb a' b' z' c' d' h.val = N / H := by simp [fd2Comb, hN, hH]
  rw [e]
  refine fin.trans ?_
  rw [mul_div_assoc', ← add_div, ← add_div, div_le_div_iff₀ hDpos hD0]
  have k1 : ε * s ≤ 1 / 1000 * s := mul_le_mul_of_nonneg_right e1 s0
  have hεB : 0 ≤ ε * B := mul_nonneg e0 B0
  have k2 : ε * C = ε * B + ε * s := by rw [hC]; ring
  have hεs : 0 ≤ ε * s := mul_nonneg e0 s0
  have k3 : 0.999 * H ≤ D := le_trans (by nlinarith) D1
  have k4 : (5.334 * s + 16.21 * (ε * C) + ε * (5.334 * C) + ε * (5.352 * C)) ≤ 0.999 * (5.38 * s + 27 * ε * B) := by linarith
  calc _ ≤ 0.999 * (5.38 * s + 27 * ε * B) * H := mul_le_mul_of_nonneg_right k4 hD0.le
    _ = (5.38 * s + 27 * ε * B) * (0.999 * H) := by ring
    _ ≤ _ := mul_le_mul_of_nonneg_left k3 (by nlinarith)

end FD

/-- A user function without a `derivative` method that is computed with rounding. -/
def plainR (g : R.F → R.F) : Callable R.F := ⟨fun x => .ok (g x), none⟩

/-- `g` computes `f` on `I` with an error of at most `δ`. -/
def Computes (g : R.F → R.F) (f : ℝ → ℝ) (I : Set ℝ) (δ : ℝ) : Prop := ∀ y : R.F, y.val ∈ I → |(g y).val - f y.val| ≤ δ

/-- The locations that matter for a difference with step `q` at `x`. -/
def around (x : R.F) (q : ℝ) : Set ℝ := Set.Icc (x.val - (3 * q + R.eps * |x.val|)) (x.val + (3 * q + R.eps * |x.val|))

namespace FD

/-- A sample of the velocity: location and value are rounded. -/
theorem sample {g : R.F → R.F} {f : ℝ → ℝ} {x y : R.F} {q δ L t : ℝ} (hq : 0 < q) (hg : Computes g f (around x q) δ)
    (hf : ∀ t, DifferentiableAt ℝ f t) (hL : ∀ t ∈ around x q, |deriv f t| ≤ L) (ht : |t - x.val| ≤ 2.002 * q) (hy : |y.val - t| ≤ R.eps * |t|) :
    t ∈ around x q ∧ |(g y).val - f t| ≤ δ + L * (R.eps * (|x.val| + 3 * q)) := by
  have e0 := R.eps_nonneg
  have e1 := R.small
  have hta : |t| ≤ |x.val| + 2.002 * q := by
    have := abs_add_le (t - x.val) x.val
    rw [sub_add_cancel] at this; linarith
  have hεt : R.eps * |t| ≤ R.eps * (|x.val| + 2.002 * q) := mul_le_mul_of_nonneg_left hta e0
  have hεx : 0 ≤ R.eps * |x.val| := mul_nonneg e0 (abs_nonneg _)
  have hεq : R.eps * q ≤ 1 / 1000 * q := mul_le_mul_of_nonneg_right e1 hq.le
  have hεq0 : 0 ≤ R.eps * q := mul_nonneg e0 hq.le
  rw [abs_le] at ht
  have hti : t ∈ around x q := ⟨by linarith [ht.1], by linarith [ht.2]⟩
  have hy' := abs_le.1 hy
  have hyi : y.val ∈ around x q := ⟨by linarith [ht.1, hy'.1], by linarith [ht.2, hy'.2]⟩
  refine ⟨hti, ?_⟩
  have h1 := hg y hyi
  have h2 : |f y.val - f t| ≤ L * |y.val - t| := by
    have := (convex_Icc _ _).norm_image_sub_le_of_norm_deriv_le (s := around x q) (f := f) (C := L) (fun z _ => hf z)
      (fun z hz => by simpa [Real.norm_eq_abs] using hL z hz) hti hyi
    simpa [Real.norm_eq_abs] using this
  have hL0 : 0 ≤ L := (abs_nonneg _).trans (hL t hti)
  have h3 : L * |y.val - t| ≤ L * (R.eps * (|x.val| + 3 * q)) := mul_le_mul_of_nonneg_left (by linarith) hL0
  have h4 := abs_add_le ((g y).val - f y.val) (f y.val - f t)
  rw [sub_add_sub_cancel] at h4
  linarith

theorem around_sub {x : R.F} {q h : ℝ} (hq : 0 < q) (h2 : h ≤ 1.001 * q) : Set.Icc (x.val - 2 * h) (x.val + 2 * h) ⊆ around x q := by
  have := mul_nonneg R.eps_nonneg (abs_nonneg x.val)
  exact Set.Icc_subset_Icc (by linarith) (by linarith)

/-- The locations sampled. -/
theorem locations {x : R.F} {q : ℚ} (hq : 0 < q) :
    (|(x.val - 2 * (lit q : R.F).val) - x.val| ≤ 2.002 * q ∧ |(x - lit 2 * lit q).val - (x.val - 2 * (lit q : R.F).val)| ≤ R.eps * |x.val - 2 * (lit q : R.F).val|) ∧
    (|(x.val + 2 * (lit q : R.F).val) - x.val| ≤ 2.002 * q ∧ |(x + lit 2 * lit q).val - (x.val + 2 * (lit q : R.F).val)| ≤ R.eps * |x.val + 2 * (lit q : R.F).val|) ∧
    (|(x.val - (lit q : R.F).val) - x.val| ≤ 2.002 * q ∧ |(x - lit q).val - (x.val - (lit q : R.F).val)| ≤ R.eps * |x.val - (lit q : R.F).val|) ∧
    (|(x.val + (lit q : R.F).val) - x.val| ≤ 2.002 * q ∧ |(x + lit q).val - (x.val + (lit q : R.F).val)| ≤ R.eps * |x.val + (lit q : R.F).val|) := by
  have hq' : (0:ℝ) < q := by exact_mod_cast hq
  obtain ⟨h1, h2⟩ := step_bounds (R := R) hq
  have h0 : 0 < (lit q : R.F).val := lt_of_lt_of_le (by positivity) h1
  refine ⟨⟨?_, ?_⟩, ⟨?_, ?_⟩, ⟨?_, ?_⟩, ⟨?_, ?_⟩⟩
  · rw [abs_le]; constructor <;> linarith
  · rw [val_sub, val_dbl]; exact R.rel _
  · rw [abs_le]; constructor <;> linarith
  · rw [val_add, val_dbl]; exact R.rel _
  · rw [abs_le]; constructor <;> linarith
  · rw [val_sub]; exact R.rel _
  · rw [abs_le]; constructor <;> linarith
  · rw [val_add]; exact R.rel _

private theorem differentiable_of {n : ℕ} {f : ℝ → ℝ} (hf : ContDiff ℝ n f) (hn : n ≠ 0) (t : ℝ) : DifferentiableAt ℝ f t :=
  (hf.differentiable (by exact_mod_cast hn)) t

private theorem chain' {n : ℕ} {f : ℝ → ℝ} (hf : ContDiff ℝ n f) : ∀ k < n, ∀ t, HasDerivAt (iteratedDeriv k f) (iteratedDeriv (k + 1) f t) t := by
  intro k hk t
  have : DifferentiableAt ℝ (iteratedDeriv k f) t := hf.differentiable_iteratedDeriv k (by exact_mod_cast hk) t
  rw [iteratedDeriv_succ]
  exact this.hasDerivAt

/-- The first difference with step `q` of a computed function. -/
theorem fd1_rounded {g : R.F → R.F} {f : ℝ → ℝ} (hf : ContDiff ℝ 5 f) (x : R.F) {q : ℚ} {δ B L M : ℝ} (hq : 0 < q)
    (hg : Computes g f (around x q) δ) (hB : ∀ t ∈ around x q, |f t| ≤ B) (hL : ∀ t ∈ around x q, |deriv f t| ≤ L)
    (hM : ∀ t ∈ around x q, |iteratedDeriv 5 f t| ≤ M) :
    ∃ v, fd1 (fun y => .ok (g y)) x (lit q) = .ok v ∧
      |v.val - deriv f x.val| ≤ (q:ℝ) ^ 4 / 17 * M + (2 * (δ + L * (R.eps * (|x.val| + 3 * q))) + 7 * R.eps * B) / q := by
  refine ⟨_, rfl, ?_⟩
  have hq' : (0:ℝ) < q := by exact_mod_cast hq
  obtain ⟨h1, h2⟩ := step_bounds (R := R) hq
  have h0 : 0 < (lit q : R.F).val := lt_of_lt_of_le (by positivity) h1
  obtain ⟨⟨l1, l1'⟩, ⟨l2, l2'⟩, ⟨l3, l3'⟩, ⟨l4, l4'⟩⟩ := locations (x := x) hq
  have hd := differentiable_of (n := 5) (by exact_mod_cast hf) (by norm_num)
  obtain ⟨i1, s1⟩ := sample hq' hg hd hL l1 l1'
  obtain ⟨i2, s2⟩ := sample hq' hg hd hL l2 l2'
  obtain ⟨i3, s3⟩ := sample hq' hg hd hL l3 l3'
  obtain ⟨i4, s4⟩ := sample hq' hg hd hL l4 l4'
  have key := fd1Comb_rounded h0 s1 s2 s3 s4 (hB _ i1) (hB _ i2) (hB _ i3) (hB _ i4)
  have trunc := fd1_error (F := fun k => iteratedDeriv k f) (x := x.val) (h := (lit q : R.F).val) (M := M) h0
    (fun k hk t _ => chain' (n := 5) (by exact_mod_cast hf) k hk t) (fun t ht => hM t (around_sub hq' h2 ht))
  simp only [iteratedDeriv_zero, iteratedDeriv_one] at trunc
  have hM0 : 0 ≤ M := (abs_nonneg _).trans (hM _ i1)
  have hB0 : 0 ≤ B := (abs_nonneg _).trans (hB _ i1)
  have hs0 : 0 ≤ δ + L * (R.eps * (|x.val| + 3 * q)) := (abs_nonneg _).trans s1
  have t1 : (lit q : R.F).val ^ 4 / 18 * M ≤ (q:ℝ) ^ 4 / 17 * M := by
    refine mul_le_mul_of_nonneg_right ?_ hM0
    have : (lit q : R.F).val ^ 4 ≤ (1.001 * (q:ℝ)) ^ 4 := pow_le_pow_left₀ h0.le h2 4
    have h4 : (1.001 * (q:ℝ)) ^ 4 ≤ 1.005 * (q:ℝ) ^ 4 := by
      rw [mul_pow]; exact mul_le_mul_of_nonneg_right (by norm_num) (by positivity)
    have : (0:ℝ) < (q:ℝ) ^ 4 := by positivity
    linarith
  set σ := δ + L * (R.eps * (|x.val| + 3 * q)) with hσ
  have t2 : (1.51 * σ + 6.04 * R.eps * B) / (lit q : R.F).val ≤ (2 * σ + 7 * R.eps * B) / q := by
    rw [div_le_div_iff₀ h0 hq']
    have hεB : 0 ≤ R.eps * B := mul_nonneg R.eps_nonneg hB0
    have k : 1.51 * σ + 6.04 * R.eps * B ≤ 0.999 * (2 * σ + 7 * R.eps * B) := by linarith
    calc _ ≤ 0.999 * (2 * σ + 7 * R.eps * B) * q := mul_le_mul_of_nonneg_right k hq'.le
      _ = (2 * σ + 7 * R.eps * B) * (0.999 * q) := by ring
      _ ≤ _ := mul_le_mul_of_nonneg_left h1 (by linarith)
  have := abs_add_le ((fd1Comb (g (x - lit 2 * lit q)) (g (x + lit 2 * lit q)) (g (x - lit q)) (g (x + lit q)) (lit q)).val -
    fd1Comb (f (x.val - 2 * (lit q : R.F).val)) (f (x.val + 2 * (lit q : R.F).val)) (f (x.val - (lit q : R.F).val)) (f (x.val + (lit q : R.F).val))
      (lit q : R.F).val) (fd1Comb (f (x.val - 2 * (lit q : R.F).val)) (f (x.val + 2 * (lit q : R.F).val)) (f (x.val - (lit q : R.F).val))
      (f (x.val + (lit q : R.F).val)) (lit q : R.F).val - deriv f x.val)
  rw [sub_add_sub_cancel] at this
  linarith

/-- The second difference with step `q` of a computed function. -/
theorem fd2_rounded {g : R.F → R.F} {f : ℝ → ℝ} (hf : ContDiff ℝ 6 f) (x : R.F) {q : ℚ} {δ B L M : ℝ} (hq : 0 < q)
    (hg : Computes g f (around x q) δ) (hB : ∀ t ∈ around x q, |f t| ≤ B) (hL : ∀ t ∈ around x q, |deriv f t| ≤ L)
    (hM : ∀ t ∈ around x q, |iteratedDeriv 6 f t| ≤ M) :
    ∃ v, fd2 (fun y => .ok (g y)) x (lit q) = .ok v ∧
      |v.val - deriv (deriv f) x.val| ≤ (q:ℝ) ^ 4 / 53 * M + (6 * (δ + L * (R.eps * (|x.val| + 3 * q))) + 28 * R.eps * B) / (q:ℝ) ^ 2 := by
  refine ⟨_, rfl, ?_⟩
  have hq' : (0:ℝ) < q := by exact_mod_cast hq
  obtain ⟨h1, h2⟩ := step_bounds (R := R) hq
  have h0 : 0 < (lit q : R.F).val := lt_of_lt_of_le (by positivity) h1
  obtain ⟨⟨l1, l1'⟩, ⟨l2, l2'⟩, ⟨l3, l3'⟩, ⟨l4, l4'⟩⟩ := locations (x := x) hq
  have hd := differentiable_of (n := 6) (by exact_mod_cast hf) (by norm_num)
  obtain ⟨i1, s1⟩ := sample hq' hg hd hL l1 l1'
  obtain ⟨i2, s2⟩ := sample hq' hg hd hL l2 l2'
  obtain ⟨i3, s3⟩ := sample hq' hg hd hL l3 l3'
  obtain ⟨i4, s4⟩ := sample hq' hg hd hL l4 l4'
  obtain ⟨i5, s5⟩ := sample (y := x) (t := x.val) hq' hg hd hL (by simp; positivity) (by simp; exact mul_nonneg R.eps_nonneg (abs_nonneg _))
  have key := fd2Comb_rounded h0 s1 s2 s5 s3 s4 (hB _ i1) (hB _ i2) (hB _ i5) (hB _ i3) (hB _ i4)
  have trunc := fd2_error (F := fun k => iteratedDeriv k f) (x := x.val) (h := (lit q : R.F).val) (M := M) h0
    (fun k hk t _ => chain' (n := 6) (by exact_mod_cast hf) k hk t) (fun t ht => hM t (around_sub hq' h2 ht))
  have hdd : iteratedDeriv 2 f x.val = deriv (deriv f) x.val := by rw [iteratedDeriv_succ, iteratedDeriv_one]
  simp only [iteratedDeriv_zero, hdd] at trunc
  have hM0 : 0 ≤ M := (abs_nonneg _).trans (hM _ i1)
  have hB0 : 0 ≤ B := (abs_nonneg _).trans (hB _ i1)
  have hs0 : 0 ≤ δ + L * (R.eps * (|x.val| + 3 * q)) := (abs_nonneg _).trans s1
  have t1 : (lit q : R.F).val ^ 4 / 54 * M ≤ (q:ℝ) ^ 4 / 53 * M := by
    refine mul_le_mul_of_nonneg_right ?_ hM0
    have : (lit q : R.F).val ^ 4 ≤ (1.001 * (q:ℝ)) ^ 4 := pow_le_pow_left₀ h0.le h2 4
    have h4 : (1.001 * (q:ℝ)) ^ 4 ≤ 1.005 * (q:ℝ) ^ 4 := by
      rw [mul_pow]; exact mul_le_mul_of_nonneg_right (by norm_num) (by positivity)
    have : (0:ℝ) < (q:ℝ) ^ 4 := by positivity
    linarith
  set σ := δ + L * (R.eps * (|x.val| + 3 * q)) with hσ
  have t2 : (5.38 * σ + 27 * R.eps * B) / ((lit q : R.F).val * (lit q : R.F).val) ≤ (6 * σ + 28 * R.eps * B) / (q:ℝ) ^ 2 := by
    rw [div_le_div_iff₀ (mul_pos h0 h0) (by positivity)]
    have hεB : 0 ≤ R.eps * B := mul_nonneg R.eps_nonneg hB0
    have k : 5.38 * σ + 27 * R.eps * B ≤ 0.998 * (6 * σ + 28 * R.eps * B) := by linarith
    have k2 : 0.998 * (q:ℝ) ^ 2 ≤ (lit q : R.F).val * (lit q : R.F).val := by
      have : (0.999 * (q:ℝ)) * (0.999 * q) ≤ (lit q : R.F).val * (lit q : R.F).val := mul_le_mul h1 h1 (by positivity) h0.le
      have : (0:ℝ) < (q:ℝ) ^ 2 := by positivity
      linarith
    calc _ ≤ 0.998 * (6 * σ + 28 * R.eps * B) * (q:ℝ) ^ 2 := mul_le_mul_of_nonneg_right k (by positivity)
      _ = (6 * σ + 28 * R.eps * B) * (0.998 * (q:ℝ) ^ 2) := by ring
      _ ≤ _ := mul_le_mul_of_nonneg_left k2 (by linarith)
  have := abs_add_le ((fd2Comb (g (x - lit 2 * lit q)) (g (x + lit 2 * lit q)) (g x) (g (x - lit q)) (g (x + lit q)) (lit q)).val -
    fd2Comb (f (x.val - 2 * (lit q : R.F).val)) (f (x.val + 2 * (lit q : R.F).val)) (f x.val) (f (x.val - (lit q : R.F).val)) (f (x.val + (lit q : R.F).val))
      (lit q : R.F).val) (fd2Comb (f (x.val - 2 * (lit q : R.F).val)) (f (x.val + 2 * (lit q : R.F).val)) (f x.val) (f (x.val - (lit q : R.F).val))
      (f (x.val + (lit q : R.F).val)) (lit q : R.F).val - deriv (deriv f) x.val)
  rw [sub_add_sub_cancel] at this
  linarith

end FD

/-- C88: the slope from a velocity alone, with rounding. The velocity is computed with error `δ`, and it, its slope and its fifth derivative are bounded by
`B`, `L` and `M` near `x`. -/
theorem numeric_slope_rounded (pchip : Pchip R.F) (s : VelState R.F) (g : R.F → R.F) (f : ℝ → ℝ) (hf : ContDiff ℝ 5 f) (x : R.F) (δ B L M : ℝ)
    (hg : Computes g f (around x (1 / 10 ^ 4)) δ) (hB : ∀ t ∈ around x (1 / 10 ^ 4), |f t| ≤ B) (hL : ∀ t ∈ around x (1 / 10 ^ 4), |deriv f t| ≤ L)
    (hM : ∀ t ∈ around x (1 / 10 ^ 4), |iteratedDeriv 5 f t| ≤ M) :
    ∃ v, (setVelocity pchip s (.callable (plainR g)) .none .none).1.duE x = .ok v ∧
      |v.val - deriv f x.val| ≤ (1 / 10 ^ 4) ^ 4 / 17 * M + 10 ^ 4 * (2 * (δ + L * (R.eps * (|x.val| + 3 / 10 ^ 4))) + 7 * R.eps * B) := by
  have hc : ((1 / 10000 : ℚ) : ℝ) = 1 / 10 ^ 4 := by norm_num
  obtain ⟨v, h1, h2⟩ := FD.fd1_rounded hf x (q := 1 / 10000) (by norm_num) (by rw [hc]; exact hg) (by rw [hc]; exact hB) (by rw [hc]; exact hL)
    (by rw [hc]; exact hM)
  refine ⟨v, h1, h2.trans (le_of_eq ?_)⟩
  rw [hc]
  ring

/-- C88: the second derivative from a velocity alone, with rounding. -/
theorem numeric_curvature_rounded (pchip : Pchip R.F) (s : VelState R.F) (g : R.F → R.F) (f : ℝ → ℝ) (hf : ContDiff ℝ 6 f) (x : R.F) (δ B L M : ℝ)
    (hg : Computes g f (around x (1 / 10 ^ 4)) δ) (hB : ∀ t ∈ around x (1 / 10 ^ 4), |f t| ≤ B) (hL : ∀ t ∈ around x (1 / 10 ^ 4), |deriv f t| ≤ L)
    (hM : ∀ t ∈ around x (1 / 10 ^ 4), |iteratedDeriv 6 f t| ≤ M) :
    ∃ v, (setVelocity pchip s (.callable (plainR g)) .none .none).1.d2uE x = .ok v ∧
      |v.val - deriv (deriv f) x.val| ≤ (1 / 10 ^ 4) ^ 4 / 53 * M + 10 ^ 8 * (6 * (δ + L * (R.eps * (|x.val| + 3 / 10 ^ 4))) + 28 * R.eps * B) := by
  have hc : ((1 / 10000 : ℚ) : ℝ) = 1 / 10 ^ 4 := by norm_num
  obtain ⟨v, h1, h2⟩ := FD.fd2_rounded hf x (q := 1 / 10000) (by norm_num) (by rw [hc]; exact hg) (by rw [hc]; exact hB) (by rw [hc]; exact hL)
    (by rw [hc]; exact hM)
  refine ⟨v, h1, h2.trans (le_of_eq ?_)⟩
  rw [hc]
  ring

/-- C88: the second derivative from a given slope, with rounding; `f` is the slope that `g` computes. -/
theorem numeric_second_rounded (pchip : Pchip R.F) (s : VelState R.F) (u : Callable R.F) (g : R.F → R.F) (f : ℝ → ℝ) (hf : ContDiff ℝ 5 f) (x : R.F)
    (δ B L M : ℝ) (hg : Computes g f (around x (1 / 10 ^ 5)) δ) (hB : ∀ t ∈ around x (1 / 10 ^ 5), |f t| ≤ B)
    (hL : ∀ t ∈ around x (1 / 10 ^ 5), |deriv f t| ≤ L) (hM : ∀ t ∈ around x (1 / 10 ^ 5), |iteratedDeriv 5 f t| ≤ M) :
    ∃ v, (setVelocity pchip s (.callable u) (.callable (plainR g)) .none).1.d2uE x = .ok v ∧
      |v.val - deriv f x.val| ≤ (1 / 10 ^ 5) ^ 4 / 17 * M + 10 ^ 5 * (2 * (δ + L * (R.eps * (|x.val| + 3 / 10 ^ 5))) + 7 * R.eps * B) := by
  have hc : ((1 / 100000 : ℚ) : ℝ) = 1 / 10 ^ 5 := by norm_num
  obtain ⟨v, h1, h2⟩ := FD.fd1_rounded hf x (q := 1 / 100000) (by norm_num) (by rw [hc]; exact hg) (by rw [hc]; exact hB) (by rw [hc]; exact hL)
    (by rw [hc]; exact hM)
  refine ⟨v, h1, h2.trans (le_of_eq ?_)⟩
  rw [hc]
  ring

/-- Non-vacuity: a sine computed as well as possible, with the precision of python's floats; at `|x| <= 1` the slope is right to eleven digits. -/
example (R : Rounding) (heps : R.eps ≤ (1 / 2) ^ 53) (pchip : Pchip R.F) (x : R.F) (hx : |x.val| ≤ 1) :
    ∃ v, (setVelocity pchip .empty (.callable (plainR (fun y : R.F => R.round (Real.sin y.val)))) .none .none).1.duE x = .ok v ∧
      |v.val - Real.cos x.val| ≤ 2 / 10 ^ 11 := by
  have e0 := R.eps_nonneg
  have hit : ∀ t, |iteratedDeriv 5 Real.sin t| ≤ 1 := by
    intro t
    have : iteratedDeriv 5 Real.sin = Real.cos := by
      simp [iteratedDeriv_succ, iteratedDeriv_one]
    rw [this]; exact Real.abs_cos_le_one t
  obtain ⟨v, h1, h2⟩ := numeric_slope_rounded pchip .empty (fun y : R.F => R.round (Real.sin y.val)) Real.sin Real.contDiff_sin x R.eps 1 1 1
    (by
      intro y _
      have h1 := R.rel (Real.sin y.val)
      have h2 := mul_le_mul_of_nonneg_left (Real.abs_sin_le_one y.val) e0
      show |R.rd (Real.sin y.val) - _| ≤ _
      linarith)
    (fun t _ => Real.abs_sin_le_one t) (fun t _ => by rw [Real.deriv_sin]; exact Real.abs_cos_le_one t) (fun t _ => hit t)
  refine ⟨v, h1, ?_⟩
  rw [Real.deriv_sin] at h2
  refine h2.trans ?_
  have k : R.eps * (|x.val| + 3 / 10 ^ 4) ≤ R.eps * (1 + 3 / 10 ^ 4) := mul_le_mul_of_nonneg_left (by linarith) e0
  have : (1 / 10 ^ 4) ^ 4 / 17 * 1 + 10 ^ 4 * (2 * (R.eps + 1 * (R.eps * (1 + 3 / 10 ^ 4))) + 7 * R.eps * 1) ≤ (2 / 10 ^ 11 : ℝ) := by
    have h3 : (1 / 10 ^ 4) ^ 4 / 17 * 1 + 10 ^ 4 * (2 * ((1 / 2) ^ 53 + 1 * ((1 / 2) ^ 53 * (1 + 3 / 10 ^ 4))) + 7 * (1 / 2) ^ 53 * 1) ≤ (2 / 10 ^ 11 : ℝ) := by
      norm_num
    linarith
  linarith

end IBL
