import Verif.Lemmas.Pchip
import Verif.Round

/-! Monotone cubic interpolation (`Model/Pchip.lean`) in arithmetic with rounding, compared with the same in exact arithmetic. -/

set_option linter.unusedSectionVars false

namespace IBL.Pchip
open PPoly Rounding
variable {R : Rounding}

/-! ### Relative errors -/

/-- `y` is `x` up to the relative error of `n` roundings. -/
def Near (R : Rounding) (n : ℕ) (y x : ℝ) : Prop := ∃ l : ℝ, (1 - R.eps) ^ n ≤ l ∧ l * (1 - R.eps) ^ n ≤ 1 ∧ y = l * x

private theorem base_pos (R : Rounding) : 0 < 1 - R.eps := by linarith [R.small]
private theorem base_le (R : Rounding) : 1 - R.eps ≤ 1 := by linarith [R.eps_nonneg]

theorem Near.refl (x : ℝ) : Near R 0 x x := ⟨1, by simp, by simp, by simp⟩

theorem Near.mono {n m : ℕ} (h : n ≤ m) {y x : ℝ} (hn : Near R n y x) : Near R m y x := by
  obtain ⟨l, h1, h2, h3⟩ := hn
  have h4 : (1 - R.eps) ^ m ≤ (1 - R.eps) ^ n := pow_le_pow_of_le_one (base_pos R).le (base_le R) h
  have h5 : 0 < (1 - R.eps) ^ n := pow_pos (base_pos R) n
  exact ⟨l, h4.trans h1, (mul_le_mul_of_nonneg_left h4 (h5.le.trans h1)).trans h2, h3⟩

theorem Near.mul {n m : ℕ} {a b x y : ℝ} (h : Near R n a x) (h' : Near R m b y) : Near R (n + m) (a * b) (x * y) := by
  obtain ⟨l, h1, h2, rfl⟩ := h
  obtain ⟨k, k1, k2, rfl⟩ := h'
  have p := pow_pos (base_pos R) n
  have q := pow_pos (base_pos R) m
  refine ⟨l * k, ?_, ?_, by ring⟩
  · rw [pow_add]; exact mul_le_mul h1 k1 q.le (p.le.trans h1)
  · rw [pow_add, show l * k * ((1 - R.eps) ^ n * (1 - R.eps) ^ m) = (l * (1 - R.eps) ^ n) * (k * (1 - R.eps) ^ m) by ring]
    exact mul_le_one₀ h2 (mul_nonneg (q.le.trans k1) q.le) k2

theorem Near.inv {m : ℕ} {b y : ℝ} (h' : Near R m b y) : Near R m b⁻¹ y⁻¹ := by
  obtain ⟨k, k1, k2, rfl⟩ := h'
  have q := pow_pos (base_pos R) m
  have k0 : 0 < k := q.trans_le k1
  refine ⟨k⁻¹, ?_, ?_, by rw [mul_inv]⟩
  · rw [le_inv_comm₀ q k0, ← one_div, le_div_iff₀ q]; exact k2
  · rw [inv_mul_le_iff₀ k0, mul_one]; exact k1

theorem Near.div {n m : ℕ} {a b x y : ℝ} (h : Near R n a x) (h' : Near R m b y) : Near R (n + m) (a / b) (x / y) := by
  rw [div_eq_mul_inv, div_eq_mul_inv]; exact h.mul h'.inv

theorem Near.rd {n : ℕ} {y x : ℝ} (h : Near R n y x) : Near R (n + 1) (R.rd y) x := by
  rcases eq_or_ne y 0 with rfl | hy
  · rw [R.rd_zero]; exact h.mono (Nat.le_succ n)
  have e : R.rd y = R.rd y / y * y := by field_simp
  have h1 := R.rel y
  have hr : |R.rd y / y - 1| ≤ R.eps := by
    rw [show R.rd y / y - 1 = (R.rd y - y) / y by field_simp, abs_div, div_le_iff₀ (abs_pos.2 hy)]; exact h1
  obtain ⟨r1, r2⟩ := abs_le.1 hr
  have := R.eps_nonneg
  have := R.small
  have h2 : Near R 1 (R.rd y / y) 1 := ⟨R.rd y / y, by rw [pow_one]; linarith, by rw [pow_one]; nlinarith, by ring⟩
  have h3 := h2.mul h
  rwa [← e, one_mul, add_comm 1 n] at h3

theorem Near.neg {n : ℕ} {y x : ℝ} (h : Near R n y x) : Near R n (-y) (-x) := by
  obtain ⟨l, h1, h2, h3⟩ := h
  exact ⟨l, h1, h2, by rw [h3]; ring⟩

private theorem Near.add_nonneg {n : ℕ} {a b x y : ℝ} (h : Near R n a x) (h' : Near R n b y) (hx : 0 ≤ x) (hy : 0 ≤ y) :
    Near R n (a + b) (x + y) := by
  obtain ⟨l, h1, h2, rfl⟩ := h
  obtain ⟨k, k1, k2, rfl⟩ := h'
  have q := pow_pos (base_pos R) n
  rcases eq_or_lt_of_le (_root_.add_nonneg hx hy) with h0 | h0
  · have hx0 : x = 0 := by linarith
    have hy0 : y = 0 := by linarith
    subst hx0; subst hy0
    exact ⟨l, h1, h2, by ring⟩
  · refine ⟨(l * x + k * y) / (x + y), ?_, ?_, by field_simp⟩
    · rw [le_div_iff₀ h0]; nlinarith
    · rw [div_mul_eq_mul_div, div_le_one h0]; nlinarith

theorem Near.add {n : ℕ} {a b x y : ℝ} (h : Near R n a x) (h' : Near R n b y) (hs : 0 ≤ x ∧ 0 ≤ y ∨ x ≤ 0 ∧ y ≤ 0) :
    Near R n (a + b) (x + y) := by
  rcases hs with ⟨hx, hy⟩ | ⟨hx, hy⟩
  · exact h.add_nonneg h' hx hy
  · have := (h.neg.add_nonneg h'.neg (by linarith) (by linarith)).neg
    rwa [show -(-a + -b) = a + b by ring, show -(-x + -y) = x + y by ring] at this

/-- The factor of a few roundings. -/
theorem Near.coef {n : ℕ} (hn : n ≤ 20) {y x : ℝ} (h : Near R n y x) : ∃ l, 0 < l ∧ |l - 1| ≤ 1.03 * n * R.eps ∧ y = l * x := by
  obtain ⟨l, h1, h2, h3⟩ := h
  have e0 := R.eps_nonneg
  have e1 := R.small
  have q := pow_pos (base_pos R) n
  have hb := one_add_mul_le_pow (a := -R.eps) (by linarith) n
  rw [← sub_eq_add_neg] at hb
  have hn' : (n : ℝ) ≤ 20 := by exact_mod_cast hn
  have n0 : (0 : ℝ) ≤ n := Nat.cast_nonneg n
  set t : ℝ := n * R.eps with ht
  have t0 : 0 ≤ t := mul_nonneg n0 e0
  have t1 : t ≤ 0.02 := by nlinarith
  have hl : 0 < l := q.trans_le h1
  have hb' : 1 - t ≤ (1 - R.eps) ^ n := by linarith
  refine ⟨l, hl, abs_le.2 ⟨by linarith, ?_⟩, h3⟩
  have h4 : l * (1 - t) ≤ 1 := (mul_le_mul_of_nonneg_left hb' hl.le).trans h2
  nlinarith

theorem Near.pos {n : ℕ} {y x : ℝ} (h : Near R n y x) (hx : 0 < x) : 0 < y := by
  obtain ⟨l, h1, -, rfl⟩ := h
  exact mul_pos ((pow_pos (base_pos R) n).trans_le h1) hx

/-- The signs agree. -/
theorem Near.sign {n : ℕ} {y x : ℝ} (h : Near R n y x) : (0 < y ↔ 0 < x) ∧ (y < 0 ↔ x < 0) ∧ (y = 0 ↔ x = 0) := by
  obtain ⟨l, h1, -, rfl⟩ := h
  have hl := (pow_pos (base_pos R) n).trans_le h1
  exact ⟨by simp [hl], by simp [mul_neg_iff, hl, hl.le, not_lt], by simp [hl.ne']⟩

/-! ### Slopes -/

theorem F_sign (v : R.F) : (sign v).val = sign v.val := by
  unfold sign
  have h1 : PyCmp.gt v (lit 0) = PyCmp.gt v.val (lit 0) := by rw [Bool.eq_iff_iff]; simp [R.rd_zero]
  have h2 : PyCmp.lt v (lit 0) = PyCmp.lt v.val (lit 0) := by rw [Bool.eq_iff_iff]; simp [R.rd_zero]
  rw [h1, h2]
  split_ifs <;> simp [R.rd_one]

theorem F_signsDiffer (a b : R.F) : signsDiffer a b = signsDiffer a.val b.val := by
  unfold signsDiffer
  have : PyCmp.eq (sign a) (sign b) = PyCmp.eq (sign a.val) (sign b.val) := by
    rw [Bool.eq_iff_iff, F_eq, real_eq, F_sign, F_sign]
  rw [this]

private theorem signsDiffer_near {n m : ℕ} {a b x y : ℝ} (h : Near R n a x) (h' : Near R m b y) : signsDiffer a b = signsDiffer x y := by
  rw [Bool.eq_iff_iff, signsDiffer_iff, signsDiffer_iff, h.sign.1, h.sign.2.1, h'.sign.1, h'.sign.2.1]

theorem rd_two_mul (a : R.F) : R.rd (R.rd 2 * a.val) = 2 * a.val := by
  have : R.rd 2 = 2 := by simpa using R.int 2 (by norm_num)
  rw [this, R.dbl, a.rep]

private theorem lit_two_mul (a : R.F) : (lit 2 * a).val = 2 * a.val := by
  rw [val_mul, val_lit]; push_cast; exact rd_two_mul a

private theorem lit_three : (lit 3 : R.F).val = 3 := by simpa using val_int (R := R) 3 (by norm_num)

theorem innerSlope_near {h0 h1 m0 m1 : R.F} {H0 H1 M0 M1 : ℝ} (p0 : 0 < H0) (p1 : 0 < H1) (n0 : Near R 1 h0.val H0)
    (n1 : Near R 1 h1.val H1) (k0 : Near R 3 m0.val M0) (k1 : Near R 3 m1.val M1) :
    Near R 12 (innerSlope h0 h1 m0 m1).val (innerSlope H0 H1 M0 M1) := by
  have hc : (signsDiffer m1 m0 || PyCmp.eq m1 (lit 0) || PyCmp.eq m0 (lit 0)) =
      (signsDiffer M1 M0 || PyCmp.eq M1 (lit 0) || PyCmp.eq M0 (lit 0)) := by
    have e1 : PyCmp.eq m1 (lit 0) = PyCmp.eq M1 (lit 0) := by rw [Bool.eq_iff_iff]; simpa [R.rd_zero] using k1.sign.2.2
    have e0 : PyCmp.eq m0 (lit 0) = PyCmp.eq M0 (lit 0) := by rw [Bool.eq_iff_iff]; simpa [R.rd_zero] using k0.sign.2.2
    rw [e1, e0, F_signsDiffer, signsDiffer_near k1 k0]
  unfold innerSlope
  rw [hc]
  split_ifs with h
  · simpa [R.rd_zero] using (Near.refl (R := R) 0).mono (Nat.zero_le 12)
  · rw [Bool.or_eq_true, Bool.or_eq_true, real_eq, real_eq, signsDiffer_iff] at h
    push Not at h
    obtain ⟨⟨⟨hp, hn⟩, z1⟩, z0⟩ := h
    simp only [real_lit] at z1 z0 ⊢
    push_cast at z1 z0 ⊢
    have w1 : Near R 2 (R.rd (2 * h1.val + h0.val)) (2 * H1 + H0) := by
      refine Near.rd (Near.add ?_ n0 (.inl ⟨by linarith, p0.le⟩))
      simpa using (Near.refl (R := R) 2).mul n1
    have w2 : Near R 2 (R.rd (h1.val + 2 * h0.val)) (H1 + 2 * H0) := by
      refine Near.rd (Near.add n1 ?_ (.inl ⟨p1.le, by linarith⟩))
      simpa using (Near.refl (R := R) 2).mul n0
    have w3 := (w1.add w2 (.inl ⟨by linarith, by linarith⟩)).rd
    have s : 0 ≤ (2 * H1 + H0) / M0 ∧ 0 ≤ (H1 + 2 * H0) / M1 ∨ (2 * H1 + H0) / M0 ≤ 0 ∧ (H1 + 2 * H0) / M1 ≤ 0 := by
      rcases lt_or_gt_of_ne z0 with hm | hm
      · have := hn.2 hm
        exact .inr ⟨div_nonpos_of_nonneg_of_nonpos (by linarith) hm.le, div_nonpos_of_nonneg_of_nonpos (by linarith) this.le⟩
      · have := hp.2 hm
        exact .inl ⟨div_nonneg (by linarith) hm.le, div_nonneg (by linarith) this.le⟩
    have v := (((w1.div k0).rd.add (w2.div k1).rd s).rd.div w3).rd
    have f := ((Near.refl (R := R) 1).div v).rd
    simp only [val_div, val_add, lit_two_mul, val_one]
    exact f

/-- A number cut off at 0 and `K`. -/
noncomputable def cut (x K : ℝ) : ℝ := max 0 (min x K)

/-- The limited slope at an end point, for a rising end segment. -/
private theorem limit_pos {d m0 m1 K : ℝ} (hm : 0 < m0) (hK : 0 < K) (h : 0 < m1 → d ≤ K) :
    (if signsDiffer d m0 = true then 0 else if signsDiffer m0 m1 = true ∧ K < |d| then K else d) = cut d K := by
  unfold cut
  by_cases hd : 0 < d
  · have h1 : ¬ signsDiffer d m0 = true := by
      rw [signsDiffer_iff, not_not]
      exact ⟨by simp [hd, hm], by constructor <;> intro hh <;> linarith⟩
    rw [if_neg h1, abs_of_pos hd]
    by_cases h2 : signsDiffer m0 m1 = true ∧ K < d
    · rw [if_pos h2, min_eq_right h2.2.le, max_eq_right hK.le]
    · rw [if_neg h2]
      have : d ≤ K := by
        by_cases h3 : 0 < m1
        · exact h h3
        · by_contra h4
          refine h2 ⟨?_, not_le.1 h4⟩
          rw [signsDiffer_iff]
          intro h5
          exact h3 (h5.1.1 hm)
      rw [min_eq_left this, max_eq_right hd.le]
  · have h1 : signsDiffer d m0 = true := by
      rw [signsDiffer_iff]
      intro h5
      exact hd (h5.1.2 hm)
    rw [if_pos h1, max_eq_left]
    exact (min_le_left _ _).trans (not_lt.1 hd)

private theorem signsDiffer_neg (a b : ℝ) : signsDiffer (-a) (-b) = signsDiffer a b := by
  rw [Bool.eq_iff_iff, signsDiffer_iff, signsDiffer_iff]
  simp only [Left.neg_pos_iff, Left.neg_neg_iff]
  tauto

private theorem limit_neg {d m0 m1 K : ℝ} (hm : m0 < 0) (hK : 0 < K) (h : m1 < 0 → -d ≤ K) :
    (if signsDiffer d m0 = true then 0 else if signsDiffer m0 m1 = true ∧ K < |d| then -K else d) = -cut (-d) K := by
  have := limit_pos (d := -d) (m0 := -m0) (m1 := -m1) (K := K) (by linarith) hK (fun hh => h (by linarith))
  rw [signsDiffer_neg, signsDiffer_neg, abs_neg] at this
  rw [← this]
  split_ifs <;> simp

private theorem cut_close {x y K L e : ℝ} (h1 : |x - y| ≤ e) (h2 : |K - L| ≤ e) : |cut x K - cut y L| ≤ e := by
  unfold cut
  have h3 : |min x K - min y L| ≤ max |x - y| |K - L| := abs_min_sub_min_le_max x K y L
  have h4 := abs_max_sub_max_le_max 0 (min x K) 0 (min y L)
  have h0 : 0 ≤ e := (abs_nonneg _).trans h1
  refine h4.trans (max_le (by simpa using h0) (h3.trans (max_le h1 h2)))

private theorem limit_close {m a c l1 l2 l3 l4 e : ℝ} (hm : 0 < m) (a1 : m ≤ a) (a2 : a ≤ 2 * m) (e0 : 0 ≤ e) (e1 : e ≤ 1 / 1000)
    (h1 : |l1 - 1| ≤ 6.2 * e) (h2 : |l2 - 1| ≤ 6.2 * e) (h3 : |l3 - 1| ≤ 4.2 * e) (h4 : |l4 - 1| ≤ 4.2 * e) :
    |cut (l3 * (l1 * a - l2 * c)) (l4 * (3 * m)) - cut (a - c) (3 * m)| ≤ 55 * e * m := by
  have hK : |l4 * (3 * m) - 3 * m| ≤ 12.6 * e * m := by
    rw [show l4 * (3 * m) - 3 * m = (l4 - 1) * (3 * m) by ring, abs_mul, abs_of_pos (by linarith : 0 < 3 * m)]
    nlinarith
  have em : 0 ≤ e * m := mul_nonneg e0 hm.le
  obtain ⟨i1, j1⟩ := abs_le.1 h1
  obtain ⟨i2, j2⟩ := abs_le.1 h2
  obtain ⟨i3, j3⟩ := abs_le.1 h3
  obtain ⟨i4, j4⟩ := abs_le.1 h4
  have p3 : 0.99 ≤ l3 := by linarith
  have pK : 0 < l4 * (3 * m) := mul_pos (by linarith) (by linarith)
  have ua : l1 * a ≤ 2.02 * m := by nlinarith
  have la : 0.99 * m ≤ l1 * a := by nlinarith
  by_cases c1 : 3.1 * m < c
  · have hv : 3.07 * m ≤ l2 * c := by nlinarith
    have hd : l3 * (l1 * a - l2 * c) ≤ 0 := mul_nonpos_of_nonneg_of_nonpos (by linarith) (by linarith)
    have z1 : cut (l3 * (l1 * a - l2 * c)) (l4 * (3 * m)) = 0 := max_eq_left ((min_le_left _ _).trans hd)
    have z2 : cut (a - c) (3 * m) = 0 := max_eq_left ((min_le_left _ _).trans (by linarith))
    rw [z1, z2, sub_zero, abs_zero]; nlinarith
  by_cases c2 : c < -(3.1 * m)
  · have hv : l2 * c ≤ -(3.07 * m) := by nlinarith
    have hd : l4 * (3 * m) ≤ l3 * (l1 * a - l2 * c) := by nlinarith
    have z1 : cut (l3 * (l1 * a - l2 * c)) (l4 * (3 * m)) = l4 * (3 * m) := by
      unfold cut; rw [min_eq_right hd, max_eq_right pK.le]
    have z2 : cut (a - c) (3 * m) = 3 * m := by
      unfold cut; rw [min_eq_right (by linarith), max_eq_right (by linarith)]
    rw [z1, z2]; linarith
  · have hc : |c| ≤ 3.1 * m := abs_le.2 ⟨by linarith, by linarith⟩
    refine cut_close ?_ (by linarith)
    have e1' : |(l1 * a - l2 * c) - (a - c)| ≤ 31.62 * e * m := by
      rw [show (l1 * a - l2 * c) - (a - c) = (l1 - 1) * a - (l2 - 1) * c by ring]
      refine (abs_sub _ _).trans ?_
      rw [abs_mul, abs_mul, abs_of_pos (by linarith : 0 < a)]
      have t1 : |l1 - 1| * a ≤ 6.2 * e * (2 * m) := mul_le_mul h1 a2 (by linarith) (by linarith)
      have t2 : |l2 - 1| * |c| ≤ 6.2 * e * (3.1 * m) := mul_le_mul h2 hc (abs_nonneg _) (by linarith)
      linarith
    have e2' : |a - c| ≤ 5.1 * m := by
      refine (abs_sub _ _).trans ?_
      rw [abs_of_pos (by linarith : 0 < a)]; linarith
    rw [show l3 * (l1 * a - l2 * c) - (a - c) = l3 * ((l1 * a - l2 * c) - (a - c)) + (l3 - 1) * (a - c) by ring]
    refine (abs_add_le _ _).trans ?_
    rw [abs_mul, abs_mul, abs_of_pos (by linarith : 0 < l3)]
    have t1 : l3 * |(l1 * a - l2 * c) - (a - c)| ≤ 1.0042 * (31.62 * e * m) :=
      mul_le_mul (by linarith) e1' (abs_nonneg _) (by norm_num)
    have t2 : |l3 - 1| * |a - c| ≤ 4.2 * e * (5.1 * m) := mul_le_mul h3 e2' (abs_nonneg _) (by linarith)
    nlinarith

theorem edgeCase_rounded {h0 h1 m0 m1 : R.F} {H0 H1 M0 M1 : ℝ} (p0 : 0 < H0) (p1 : 0 < H1) (n0 : Near R 1 h0.val H0)
    (n1 : Near R 1 h1.val H1) (k0 : Near R 3 m0.val M0) (k1 : Near R 3 m1.val M1) :
    |(edgeCase h0 h1 m0 m1).val - edgeCase H0 H1 M0 M1| ≤ 55 * R.eps * |M0| := by
  have e0 := R.eps_nonneg
  have e1 := R.small
  have hs : 0 < H0 + H1 := by linarith
  -- the unlimited slope
  have x1 : Near R 2 (R.rd (2 * h0.val + h1.val)) (2 * H0 + H1) := by
    refine Near.rd (Near.add ?_ n1 (.inl ⟨by linarith, p1.le⟩))
    simpa using (Near.refl (R := R) 2).mul n0
  have x2 := (x1.mul k0).rd
  have x3 := (n0.mul k1).rd
  have x4 := (n0.add n1 (.inl ⟨p0.le, p1.le⟩)).rd
  obtain ⟨l1, l1p, hl1, x2e⟩ := x2.coef (by norm_num)
  obtain ⟨l2, l2p, hl2, x3e⟩ := x3.coef (by norm_num)
  have x5 := (((Near.refl (R := R) (R.rd (R.rd (2 * h0.val + h1.val) * m0.val) - R.rd (h0.val * m1.val))).rd).div x4).rd
  obtain ⟨l3, l3p, hl3, x5e⟩ := x5.coef (by norm_num)
  have x6 := (((Near.refl (R := R) 3).mul k0).rd)
  obtain ⟨l4, l4p, hl4, x6e⟩ := x6.coef (by norm_num)
  push_cast at hl1 hl2 hl3 hl4
  set a := (2 * H0 + H1) * M0 / (H0 + H1) with ha
  set c := H0 * M1 / (H0 + H1) with hc
  have hd : R.rd (R.rd (R.rd (R.rd (2 * h0.val + h1.val) * m0.val) - R.rd (h0.val * m1.val)) / R.rd (h0.val + h1.val)) =
      l3 * (l1 * a - l2 * c) := by
    rw [x5e, x2e, x3e, ha, hc]; ring
  set d := R.rd (R.rd (R.rd (R.rd (2 * h0.val + h1.val) * m0.val) - R.rd (h0.val * m1.val)) / R.rd (h0.val + h1.val)) with hdd
  have hK : R.rd (3 * |m0.val|) = l4 * (3 * |M0|) := by
    rcases le_total 0 M0 with h | h
    · have : 0 ≤ m0.val := by
        by_contra hh; exact absurd (k0.sign.2.1.1 (not_le.1 hh)) (not_lt.2 h)
      rw [abs_of_nonneg h, abs_of_nonneg this, x6e]
    · have : m0.val ≤ 0 := by
        by_contra hh; exact absurd (k0.sign.1.1 (not_le.1 hh)) (not_lt.2 h)
      rw [abs_of_nonpos h, abs_of_nonpos this, mul_neg, R.neg, x6e]; ring
  have flo : (edgeCase h0 h1 m0 m1).val = if signsDiffer d m0.val = true then 0 else
      if signsDiffer m0.val m1.val = true ∧ R.rd (3 * |m0.val|) < |d| then R.rd (3 * m0.val) else d := by
    unfold edgeCase
    have hv : (((lit 2 * h0 + h1) * m0 - h0 * m1) / (h0 + h1)).val = d := by
      simp only [val_div, val_sub, val_mul, val_add, lit_two_mul, hdd]
      rw [← val_mul, lit_two_mul]
    simp only [Bool.and_eq_true, F_gt, val_abs, F_signsDiffer, hv]
    have h3 : (lit 3 * PyCmp.abs m0).val = R.rd (3 * |m0.val|) := by rw [val_mul, lit_three, val_abs]
    rw [h3]
    split_ifs
    · simp [R.rd_zero]
    · rw [val_mul, lit_three]
    · exact hv
  have exa : edgeCase H0 H1 M0 M1 = if signsDiffer (a - c) M0 = true then 0 else
      if signsDiffer M0 M1 = true ∧ 3 * |M0| < |a - c| then 3 * M0 else a - c := by
    unfold edgeCase
    simp only [real_lit, real_abs, Bool.and_eq_true, real_gt]
    push_cast
    rw [show ((2 * H0 + H1) * M0 - H0 * M1) / (H0 + H1) = a - c by rw [ha, hc]; ring]
  rw [flo, exa]
  have bounds : ∀ m : ℝ, 0 < m → m ≤ (2 * H0 + H1) * m / (H0 + H1) ∧ (2 * H0 + H1) * m / (H0 + H1) ≤ 2 * m := by
    intro m hm
    constructor
    · rw [le_div_iff₀ hs]; nlinarith
    · rw [div_le_iff₀ hs]; nlinarith
  have tiny : ∀ {l k : ℝ}, |l - 1| ≤ k → 1 - k ≤ l ∧ l ≤ 1 + k := fun h => by
    obtain ⟨h1, h2⟩ := abs_le.1 h; exact ⟨by linarith, by linarith⟩
  obtain ⟨i1, j1⟩ := tiny hl1
  obtain ⟨i3, j3⟩ := tiny hl3
  obtain ⟨i4, j4⟩ := tiny hl4
  -- a rising end segment, up to the sign
  have main : ∀ m n : ℝ, 0 < m → 0 < n → l3 * (l1 * ((2 * H0 + H1) * m / (H0 + H1)) - l2 * (H0 * n / (H0 + H1))) ≤ l4 * (3 * m) := by
    intro m n hm hn
    obtain ⟨b1, b2⟩ := bounds m hm
    have t1 : 0 ≤ l2 * (H0 * n / (H0 + H1)) := by positivity
    have t2 : l3 * (l1 * ((2 * H0 + H1) * m / (H0 + H1)) - l2 * (H0 * n / (H0 + H1))) ≤ l3 * (l1 * ((2 * H0 + H1) * m / (H0 + H1))) :=
      mul_le_mul_of_nonneg_left (by linarith) l3p.le
    have t3 : l1 * ((2 * H0 + H1) * m / (H0 + H1)) ≤ 1.01 * (2 * m) := mul_le_mul (by linarith) b2 (by linarith) (by norm_num)
    have t4 : l3 * (l1 * ((2 * H0 + H1) * m / (H0 + H1))) ≤ 1.01 * (1.01 * (2 * m)) :=
      mul_le_mul (by linarith) t3 (by positivity) (by norm_num)
    have t5 : 0.99 * (3 * m) ≤ l4 * (3 * m) := mul_le_mul_of_nonneg_right (by linarith) (by linarith)
    linarith
  rcases lt_trichotomy M0 0 with hm | hm | hm
  · have hmf := k0.sign.2.1.2 hm
    have e3 : R.rd (3 * m0.val) = -R.rd (3 * |m0.val|) := by rw [abs_of_neg hmf, ← R.neg]; congr 1; ring
    have hKp : 0 < R.rd (3 * |m0.val|) := rd_pos (by have := abs_pos.2 hmf.ne; linarith)
    obtain ⟨b1, b2⟩ := bounds (-M0) (by linarith)
    have na : -a = (2 * H0 + H1) * -M0 / (H0 + H1) := by rw [ha]; ring
    have nc : -c = H0 * -M1 / (H0 + H1) := by rw [hc]; ring
    rw [e3, limit_neg hmf hKp, show 3 * M0 = -(3 * |M0|) by rw [abs_of_neg hm]; ring,
      limit_neg hm (by have := abs_pos.2 hm.ne; linarith)]
    · rw [hK, hd, show -cut (-(l3 * (l1 * a - l2 * c))) (l4 * (3 * |M0|)) - -cut (-(a - c)) (3 * |M0|) =
        -(cut (-(l3 * (l1 * a - l2 * c))) (l4 * (3 * |M0|)) - cut (-(a - c)) (3 * |M0|)) by ring, abs_neg,
        show -(l3 * (l1 * a - l2 * c)) = l3 * (l1 * -a - l2 * -c) by ring, show -(a - c) = -a - -c by ring]
      refine limit_close (abs_pos.2 hm.ne) ?_ ?_ e0 e1 (by linarith) (by linarith) (by linarith) (by linarith)
      · rw [abs_of_neg hm, na]; exact b1
      · rw [abs_of_neg hm, na]; exact b2
    · intro h1
      have t : 0 ≤ -c := by rw [nc]; exact div_nonneg (mul_nonneg p0.le (by linarith)) hs.le
      rw [abs_of_neg hm]; rw [← na] at b2; linarith
    · intro h1
      have := main (-M0) (-M1) (by linarith) (by have := k1.sign.2.1.1 h1; linarith)
      rw [← na, ← nc] at this
      rw [hK, hd, abs_of_neg hm]; linarith
  · have hmf := k0.sign.2.2.2 hm
    have z : ∀ (d m1 K K' : ℝ), (if signsDiffer d 0 = true then 0 else if signsDiffer 0 m1 = true ∧ K < |d| then K' else d) =
        if signsDiffer d 0 = true then 0 else if signsDiffer 0 m1 = true ∧ K < 0 then K' else 0 := by
      intro d m1 K K'
      by_cases h : signsDiffer d 0 = true
      · rw [if_pos h, if_pos h]
      · have hd0 : d = 0 := by
          rw [signsDiffer_iff, not_not] at h
          simp only [lt_irrefl, iff_false, not_lt] at h
          exact le_antisymm h.1 h.2
        rw [hd0]; simp
    rw [hmf, hm, z, z (a - c)]
    simp [R.rd_zero]
  · have hmf := k0.sign.1.2 hm
    have hKp : 0 < R.rd (3 * |m0.val|) := rd_pos (by have := abs_pos.2 hmf.ne'; linarith)
    obtain ⟨b1, b2⟩ := bounds M0 hm
    have e3 : R.rd (3 * m0.val) = R.rd (3 * |m0.val|) := by rw [abs_of_pos hmf]
    rw [e3, limit_pos hmf hKp, show 3 * M0 = 3 * |M0| by rw [abs_of_pos hm], limit_pos hm (by have := abs_pos.2 hm.ne'; linarith)]
    · rw [hK, hd]
      refine limit_close (abs_pos.2 hm.ne') ?_ ?_ e0 e1 (by linarith) (by linarith) (by linarith) (by linarith)
      · rw [abs_of_pos hm]; exact b1
      · rw [abs_of_pos hm]; exact b2
    · intro h1
      have t : 0 ≤ c := div_nonneg (mul_nonneg p0.le h1.le) hs.le
      rw [abs_of_pos hm]; linarith
    · intro h1
      have := main M0 M1 hm (k1.sign.1.1 h1)
      rw [hK, hd, abs_of_pos hm]; exact this

theorem innerSlope_rounded {h0 h1 m0 m1 : R.F} {H0 H1 M0 M1 : ℝ} (p0 : 0 < H0) (p1 : 0 < H1) (n0 : Near R 1 h0.val H0)
    (n1 : Near R 1 h1.val H1) (k0 : Near R 3 m0.val M0) (k1 : Near R 3 m1.val M1) :
    |(innerSlope h0 h1 m0 m1).val - innerSlope H0 H1 M0 M1| ≤ 55 * R.eps * |M0| ∧
    |(innerSlope h0 h1 m0 m1).val - innerSlope H0 H1 M0 M1| ≤ 55 * R.eps * |M1| := by
  obtain ⟨l, -, hl, e⟩ := (innerSlope_near p0 p1 n0 n1 k0 k1).coef (by norm_num)
  obtain ⟨lim0, lim1⟩ := innerSlope_lim M0 M1 p0 p1
  push_cast at hl
  have e0 := R.eps_nonneg
  have key : ∀ {m : ℝ}, Lim m (innerSlope H0 H1 M0 M1) → |(innerSlope h0 h1 m0 m1).val - innerSlope H0 H1 M0 M1| ≤ 55 * R.eps * |m| := by
    intro m hm
    rw [e, show l * innerSlope H0 H1 M0 M1 - innerSlope H0 H1 M0 M1 = (l - 1) * innerSlope H0 H1 M0 M1 by ring, abs_mul]
    have h3 : |innerSlope H0 H1 M0 M1| ≤ 3 * |m| := by
      rcases le_total 0 m with h | h
      · rw [abs_of_nonneg h, abs_of_nonneg (hm.1 h).1]; exact (hm.1 h).2
      · rw [abs_of_nonpos h, abs_of_nonpos (hm.2 h).2]; linarith [(hm.2 h).1]
    have := mul_le_mul hl h3 (abs_nonneg _) (by linarith)
    have := mul_nonneg e0 (abs_nonneg m)
    linarith
  exact ⟨key lim0, key lim1⟩

/-! ### One interval -/

private theorem mulErr {e n a b k l y x : ℝ} (e0 : 0 ≤ e) (e1 : e ≤ 1 / 1000) (n0 : 0 ≤ n) (k0 : 0 ≤ k) (h : |y - x| ≤ a * (e * n))
    (hb : |x| ≤ b * n) (hl : |l - 1| ≤ k * e) : |l * y - x| ≤ ((1 + k / 1000) * a + k * b) * (e * n) := by
  rw [show l * y - x = l * (y - x) + (l - 1) * x by ring]
  refine (abs_add_le _ _).trans ?_
  rw [abs_mul, abs_mul]
  have hl' : |l| ≤ 1 + k / 1000 := by
    have := abs_add_le (l - 1) 1
    rw [sub_add_cancel, abs_one] at this
    nlinarith
  have t1 := mul_le_mul hl' h (abs_nonneg _) (by positivity)
  have t2 := mul_le_mul hl hb (abs_nonneg _) (by positivity)
  nlinarith

private theorem addErr {a b y x y' x' u : ℝ} (h : |y - x| ≤ a * u) (h' : |y' - x'| ≤ b * u) : |(y + y') - (x + x')| ≤ (a + b) * u := by
  have := abs_add_le (y - x) (y' - x')
  rw [show (y + y') - (x + x') = (y - x) + (y' - x') by ring]; linarith

private theorem subErr {a b y x y' x' u : ℝ} (h : |y - x| ≤ a * u) (h' : |y' - x'| ≤ b * u) : |(y - y') - (x - x')| ≤ (a + b) * u := by
  have := abs_sub (y - x) (y' - x')
  rw [show (y - y') - (x - x') = (y - x) - (y' - x') by ring]; linarith

private theorem rdErr {n a b y x : ℝ} (n0 : 0 ≤ n) (h : |y - x| ≤ a * (R.eps * n)) (hb : |x| ≤ b * n) :
    |R.rd y - x| ≤ (1.001 * a + b) * (R.eps * n) := by
  have h1 := R.rel y
  have e0 := R.eps_nonneg
  have e1 := R.small
  have t : |R.rd y - x| ≤ |R.rd y - y| + |y - x| := by
    have := abs_add_le (R.rd y - y) (y - x); rwa [sub_add_sub_cancel] at this
  have t2 : |y| ≤ |y - x| + |x| := by
    have := abs_add_le (y - x) x; rwa [sub_add_cancel] at this
  have t3 : R.eps * |y| ≤ R.eps * (|y - x| + b * n) := mul_le_mul_of_nonneg_left (by linarith) e0
  have t4 : R.eps * |y - x| ≤ 1 / 1000 * |y - x| := mul_le_mul_of_nonneg_right e1 (abs_nonneg _)
  nlinarith

/-- Neighbouring knots in both arithmetics: the same points, slopes that differ little. -/
def Twins (R : Rounding) (a b : Knot R.F × Knot ℝ) : Prop :=
  a.2.x = a.1.x.val ∧ a.2.y = a.1.y.val ∧ b.2.x = b.1.x.val ∧ b.2.y = b.1.y.val ∧
  |a.1.d.val - a.2.d| ≤ 55 * R.eps * |rise a.2 b.2| ∧ |b.1.d.val - b.2.d| ≤ 55 * R.eps * |rise a.2 b.2|

theorem Lim.abs {s d : ℝ} (h : Lim s d) : |d| ≤ 3 * |s| ∧ |s - d| ≤ 2 * |s| := by
  rcases le_total 0 s with hs | hs
  · obtain ⟨h1, h2⟩ := h.1 hs
    rw [abs_of_nonneg hs, abs_of_nonneg h1]
    exact ⟨h2, abs_le.2 ⟨by linarith, by linarith⟩⟩
  · obtain ⟨h1, h2⟩ := h.2 hs
    rw [abs_of_nonpos hs, abs_of_nonpos h2]
    exact ⟨by linarith, abs_le.2 ⟨by linarith, by linarith⟩⟩

/-- Quadratic and cubic coefficient of an interval. -/
theorem hermite_coefficients {a b : Knot R.F} {a' b' : Knot ℝ} (h : Twins R (a, a') (b, b')) (hn : Neighbours a' b') :
    ∃ c2 c3 : R.F, hermite a b = (a.x, [a.y, a.d, c2, c3]) ∧
      |c2.val * (b'.x - a'.x) - (3 * rise a' b' - 2 * a'.d - b'.d)| ≤ 206 * (R.eps * |rise a' b'|) ∧
      |c3.val * (b'.x - a'.x) ^ 2 - (a'.d + b'.d - 2 * rise a' b')| ≤ 144 * (R.eps * |rise a' b'|) := by
  obtain ⟨ax, ay, bx, by', ad, bd⟩ := h
  simp only at ax ay bx by' ad bd
  obtain ⟨hx, la, lb⟩ := hn
  have e0 := R.eps_nonneg
  have e1 := R.small
  set H := b'.x - a'.x with hH
  set m := rise a' b' with hm
  have Hp : 0 < H := by linarith
  have n0 := abs_nonneg m
  set u := R.eps * |m| with hu
  have u0 : 0 ≤ u := mul_nonneg e0 n0
  obtain ⟨pa, pa2⟩ := la.abs
  obtain ⟨qa, qa2⟩ := lb.abs
  -- length and slope of the segment
  have hlen : Near R 1 (b.x - a.x).val H := by
    rw [val_sub, ← ax, ← bx]; exact (Near.refl _).rd
  have hs : Near R 3 ((b.y - a.y) / (b.x - a.x)).val m := by
    rw [val_div, hm, rise, ← hH, ay, by']
    exact (((Near.refl (b.y.val - a.y.val)).rd).div hlen).rd
  obtain ⟨ls, -, hls, es⟩ := hs.coef (by norm_num)
  push_cast at hls
  have es' : |((b.y - a.y) / (b.x - a.x)).val - m| ≤ 3.1 * u := by
    rw [es, show ls * m - m = (ls - 1) * m by ring, abs_mul, hu]
    have := mul_le_mul_of_nonneg_right hls n0
    have := mul_nonneg e0 n0
    linarith
  set s := (b.y - a.y) / (b.x - a.x) with hsdef
  have ad' : |a.d.val - a'.d| ≤ 55 * u := by rw [hu]; linarith
  have bd' : |b.d.val - b'.d| ≤ 55 * u := by rw [hu]; linarith
  have s1 : |(a.d + b.d).val - (a'.d + b'.d)| ≤ 116.11 * u := by
    have := rdErr (b := 6) n0 (addErr ad' bd') (by have := abs_add_le a'.d b'.d; linarith)
    rw [val_add]; refine this.trans ?_
    exact mul_le_mul_of_nonneg_right (by norm_num) u0
  have hq : |a'.d + b'.d - 2 * m| ≤ 4 * |m| := by
    have := abs_add_le (m - a'.d) (m - b'.d)
    rw [← abs_neg]
    rw [show -(a'.d + b'.d - 2 * m) = (m - a'.d) + (m - b'.d) by ring]; linarith
  have s2 : |(a.d + b.d - lit 2 * s).val - (a'.d + b'.d - 2 * m)| ≤ 126.44 * u := by
    have h2 : |2 * s.val - 2 * m| ≤ 6.2 * u := by
      rw [show 2 * s.val - 2 * m = 2 * (s.val - m) by ring, abs_mul, abs_two]; linarith
    have := rdErr n0 (subErr s1 h2) hq
    rw [val_sub, lit_two_mul]; refine this.trans ?_
    exact mul_le_mul_of_nonneg_right (by norm_num) u0
  set w := a.d + b.d - lit 2 * s with hw
  -- the coefficients
  have divH : ∀ y : R.F, ∃ l, |l - 1| ≤ 2.06 * R.eps ∧ (y / (b.x - a.x)).val * H = l * y.val := by
    intro y
    obtain ⟨l, -, hl, el⟩ := ((Near.refl (R := R) y.val).div hlen).rd.coef (by norm_num)
    push_cast at hl
    refine ⟨l, by linarith, ?_⟩
    rw [val_div, el]; field_simp
  obtain ⟨lt, hlt, et⟩ := divH w
  have s3 : |(w / (b.x - a.x)).val * H - (a'.d + b'.d - 2 * m)| ≤ 134.95 * u := by
    rw [et]
    refine (mulErr e0 e1 n0 (by norm_num) s2 hq hlt).trans ?_
    exact mul_le_mul_of_nonneg_right (by norm_num) u0
  set t := w / (b.x - a.x) with ht
  obtain ⟨l3, hl3, e3⟩ := divH t
  have s4 : |(t / (b.x - a.x)).val * H ^ 2 - (a'.d + b'.d - 2 * m)| ≤ 144 * u := by
    rw [show (t / (b.x - a.x)).val * H ^ 2 = (t / (b.x - a.x)).val * H * H by ring, e3, mul_assoc]
    refine (mulErr e0 e1 n0 (by norm_num) s3 hq hl3).trans ?_
    exact mul_le_mul_of_nonneg_right (by norm_num) u0
  have s5 : |(s - a.d).val - (m - a'.d)| ≤ 60.2 * u := by
    have := rdErr n0 (subErr es' ad') pa2
    rw [val_sub]; refine this.trans ?_
    exact mul_le_mul_of_nonneg_right (by norm_num) u0
  obtain ⟨lg, hlg, eg⟩ := divH (s - a.d)
  have s6 : |((s - a.d) / (b.x - a.x)).val * H - (m - a'.d)| ≤ 64.5 * u := by
    rw [eg]
    refine (mulErr e0 e1 n0 (by norm_num) s5 pa2 hlg).trans ?_
    exact mul_le_mul_of_nonneg_right (by norm_num) u0
  have s7 : |((s - a.d) / (b.x - a.x) - t).val * H - (3 * m - 2 * a'.d - b'.d)| ≤ 206 * u := by
    obtain ⟨l, -, hl, el⟩ := (Near.refl (R := R) (((s - a.d) / (b.x - a.x)).val - t.val)).rd.coef (by norm_num)
    push_cast at hl
    rw [val_sub, el, show l * (((s - a.d) / (b.x - a.x)).val - t.val) * H =
      l * (((s - a.d) / (b.x - a.x)).val * H - t.val * H) by ring]
    have h6 : |3 * m - 2 * a'.d - b'.d| ≤ 6 * |m| := by
      have t1 := abs_add_le (2 * (m - a'.d)) (m - b'.d)
      rw [abs_mul, abs_two] at t1
      rw [show 3 * m - 2 * a'.d - b'.d = 2 * (m - a'.d) + (m - b'.d) by ring]; linarith
    have h7 := subErr s6 s3
    rw [show m - a'.d - (a'.d + b'.d - 2 * m) = 3 * m - 2 * a'.d - b'.d by ring] at h7
    refine (mulErr (k := 1.03) e0 e1 n0 (by norm_num) h7 h6 (by linarith)).trans ?_
    exact mul_le_mul_of_nonneg_right (by norm_num) u0
  exact ⟨_, _, rfl, s7, s4⟩

set_option maxHeartbeats 1000000 in
/-- Value and slope inside an interval. -/
theorem hermite_rounded {a b : Knot R.F} {a' b' : Knot ℝ} (h : Twins R (a, a') (b, b')) (hn : Neighbours a' b') {x : R.F}
    (hx : x.val ∈ Set.Icc a'.x b'.x) :
    |(polyEval (hermite a b).2 (x - a.x)).val - polyEval (hermite a' b').2 (x.val - a'.x)| ≤ 500 * R.eps * (|a'.y| + |b'.y|) ∧
    |(polyEval (polyDer (hermite a b).2) (x - a.x)).val - polyEval (polyDer (hermite a' b').2) (x.val - a'.x)| ≤
      1050 * R.eps * |rise a' b'| := by
  obtain ⟨c2, c3, hc, h2, h3⟩ := hermite_coefficients h hn
  obtain ⟨ax, ay, bx, by', ad, bd⟩ := h
  simp only at ax ay bx by' ad bd
  obtain ⟨hlt, la, lb⟩ := hn
  have e0 := R.eps_nonneg
  have e1 := R.small
  set H := b'.x - a'.x with hH
  set m := rise a' b' with hm
  have Hp : 0 < H := by linarith
  have n0 := abs_nonneg m
  obtain ⟨pa, pa2⟩ := la.abs
  obtain ⟨qa, qa2⟩ := lb.abs
  set q2 := 3 * m - 2 * a'.d - b'.d with hq2
  set q3 := a'.d + b'.d - 2 * m with hq3
  have B2 : |q2| ≤ 6 * |m| := by
    have t1 := abs_add_le (2 * (m - a'.d)) (m - b'.d)
    rw [abs_mul, abs_two] at t1
    rw [show q2 = 2 * (m - a'.d) + (m - b'.d) by rw [hq2]; ring]; linarith
  have B3 : |q3| ≤ 4 * |m| := by
    have := abs_add_le (m - a'.d) (m - b'.d)
    rw [← abs_neg, show -q3 = (m - a'.d) + (m - b'.d) by rw [hq3]; ring]; linarith
  -- the exact polynomial
  set τ := (x.val - a'.x) / H with hτ
  have τ0 : 0 ≤ τ := div_nonneg (by linarith [hx.1]) Hp.le
  have τ1 : τ ≤ 1 := by rw [hτ, div_le_one Hp]; linarith [hx.2]
  have xe : x.val - a'.x = τ * H := by rw [hτ]; field_simp
  have ex : polyEval (hermite a' b').2 (x.val - a'.x) = a'.y + a'.d * H * τ + q2 * H * τ ^ 2 + q3 * H * τ ^ 3 := by
    rw [xe]
    simp only [hermite, polyEval_nil, polyEval_cons, real_lit, ← hH]
    rw [hq2, hq3, hm, rise, ← hH]
    push_cast
    field_simp
    ring
  have exd : polyEval (polyDer (hermite a' b').2) (x.val - a'.x) = a'.d + 2 * q2 * τ + 3 * q3 * τ ^ 2 := by
    rw [xe]
    simp only [hermite, polyDer, derFrom, polyEval_nil, polyEval_cons, real_lit, ← hH]
    rw [hq2, hq3, hm, rise, ← hH]
    push_cast
    field_simp
    ring
  -- powers of the argument
  set z := x - a.x with hz
  have hz1 : Near R 1 z.val (τ * H) := by
    rw [hz, val_sub, ← ax, xe]; exact (Near.refl _).rd
  have hz2 : Near R 3 (z * z).val (τ * H * (τ * H)) := by rw [val_mul]; exact (hz1.mul hz1).rd
  have hz3 : Near R 5 (z * z * z).val (τ * H * (τ * H) * (τ * H)) := by rw [val_mul]; exact (hz2.mul hz1).rd
  have one : (lit 1 : R.F) * z = z := by
    ext; rw [val_mul, val_one, one_mul, z.rep]
  have first : ∀ c : R.F, (lit 0 : R.F) + c * lit 1 = c := by
    intro c; ext; rw [val_add, val_mul, val_one, val_zero, mul_one, c.rep, zero_add, c.rep]
  have fl : polyEval (hermite a b).2 z = a.y + a.d * z + c2 * (z * z) + c3 * (z * z * z) := by
    rw [hc]; simp only [polyEval, polySum, first, one]
  have fld : polyEval (polyDer (hermite a b).2) z = a.d + (lit 2 * c2) * z + (lit 3 * c3) * (z * z) := by
    rw [hc]
    have o : ∀ c : R.F, (lit 1 : R.F) * c = c := by intro c; ext; rw [val_mul, val_one, one_mul, c.rep]
    simp only [polyDer, derFrom, polyEval, polySum]
    push_cast
    simp only [first, one, o]
  have term : ∀ {n : ℕ}, n ≤ 18 → ∀ (c y : R.F) {Y : ℝ}, Near R n y.val Y → ∃ l, |l - 1| ≤ 1.03 * (n + 1) * R.eps ∧
      (c * y).val = l * (c.val * Y) := by
    intro n hn c y Y hy
    obtain ⟨l, -, hl, el⟩ := (((Near.refl (R := R) c.val).mul hy).rd).coef (by omega)
    refine ⟨l, ?_, by rw [val_mul, el]⟩
    push_cast at hl ⊢; simpa using hl
  have pw2 : τ ^ 2 ≤ 1 := pow_le_one₀ τ0 τ1
  have pw3 : τ ^ 3 ≤ 1 := pow_le_one₀ τ0 τ1
  constructor
  · set M := |a'.y| + |b'.y| with hM
    have M0 : 0 ≤ M := by positivity
    have mH : |m| * H ≤ M := by
      rw [hm, rise, ← hH, abs_div, abs_of_pos Hp, div_mul_cancel₀ _ Hp.ne']
      have := abs_sub b'.y a'.y; rw [hM]; linarith
    set u := R.eps * M with hu
    have u0 : 0 ≤ u := mul_nonneg e0 M0
    -- scaling a bound on slopes to one on values
    have sc : ∀ {k v : ℝ}, 0 ≤ v → v ≤ 1 → 0 ≤ k → ∀ {y : ℝ}, |y| ≤ k * |m| → |y * H * v| ≤ k * M := by
      intro k v v0 v1 k0 y hy
      rw [abs_mul, abs_mul, abs_of_pos Hp, abs_of_nonneg v0]
      have t1 : |y| * H ≤ k * |m| * H := mul_le_mul_of_nonneg_right hy Hp.le
      have t2 : |y| * H * v ≤ |y| * H := mul_le_of_le_one_right (by positivity) v1
      have t3 : k * (|m| * H) ≤ k * M := mul_le_mul_of_nonneg_left mH k0
      nlinarith
    have sce : ∀ {k v : ℝ}, 0 ≤ v → v ≤ 1 → 0 ≤ k → ∀ {y : ℝ}, |y| ≤ k * (R.eps * |m|) → |y * H * v| ≤ k * u := by
      intro k v v0 v1 k0 y hy
      have := sc v0 v1 (mul_nonneg k0 e0) (y := y) (by linarith)
      rw [hu]; linarith
    -- linear term
    obtain ⟨l1, hl1, t1⟩ := term (by norm_num) a.d z hz1
    obtain ⟨l2, hl2, t2⟩ := term (by norm_num) c2 (z * z) hz2
    obtain ⟨l3, hl3, t3⟩ := term (by norm_num) c3 (z * z * z) hz3
    push_cast at hl1 hl2 hl3
    have y1 : |(a.d * z).val - a'.d * H * τ| ≤ 61.4 * u := by
      rw [t1]
      have d1 : |a.d.val * (τ * H) - a'.d * H * τ| ≤ 55 * u := by
        rw [show a.d.val * (τ * H) - a'.d * H * τ = (a.d.val - a'.d) * H * τ by ring]
        exact sce τ0 τ1 (by norm_num) (by linarith)
      refine (mulErr (k := 2.06) e0 e1 M0 (by norm_num) d1 (sc τ0 τ1 (by norm_num) pa) (by linarith)).trans ?_
      exact mul_le_mul_of_nonneg_right (by norm_num) u0
    have y2 : |(c2 * (z * z)).val - q2 * H * τ ^ 2| ≤ 231.7 * u := by
      rw [t2]
      have d1 : |c2.val * (τ * H * (τ * H)) - q2 * H * τ ^ 2| ≤ 206 * u := by
        rw [show c2.val * (τ * H * (τ * H)) - q2 * H * τ ^ 2 = (c2.val * H - q2) * H * τ ^ 2 by ring]
        exact sce (by positivity) pw2 (by norm_num) h2
      refine (mulErr (k := 4.12) e0 e1 M0 (by norm_num) d1 (sc (by positivity) pw2 (by norm_num) B2) (by linarith)).trans ?_
      exact mul_le_mul_of_nonneg_right (by norm_num) u0
    have y3 : |(c3 * (z * z * z)).val - q3 * H * τ ^ 3| ≤ 169.7 * u := by
      rw [t3]
      have d1 : |c3.val * (τ * H * (τ * H) * (τ * H)) - q3 * H * τ ^ 3| ≤ 144 * u := by
        rw [show c3.val * (τ * H * (τ * H) * (τ * H)) - q3 * H * τ ^ 3 = (c3.val * H ^ 2 - q3) * H * τ ^ 3 by ring]
        exact sce (by positivity) pw3 (by norm_num) h3
      refine (mulErr (k := 6.18) e0 e1 M0 (by norm_num) d1 (sc (by positivity) pw3 (by norm_num) B3) (by linarith)).trans ?_
      exact mul_le_mul_of_nonneg_right (by norm_num) u0
    have b0 : |a'.y| ≤ 1 * M := by have := abs_nonneg b'.y; rw [hM]; linarith
    have b1 : |a'.y + a'.d * H * τ| ≤ 4 * M := by
      have := abs_add_le a'.y (a'.d * H * τ); have := sc τ0 τ1 (by norm_num) pa; linarith
    have b2 : |a'.y + a'.d * H * τ + q2 * H * τ ^ 2| ≤ 10 * M := by
      have := abs_add_le (a'.y + a'.d * H * τ) (q2 * H * τ ^ 2)
      have := sc (v := τ ^ 2) (by positivity) pw2 (by norm_num) B2; linarith
    have b3 : |a'.y + a'.d * H * τ + q2 * H * τ ^ 2 + q3 * H * τ ^ 3| ≤ 14 * M := by
      have := abs_add_le (a'.y + a'.d * H * τ + q2 * H * τ ^ 2) (q3 * H * τ ^ 3)
      have := sc (v := τ ^ 3) (by positivity) pw3 (by norm_num) B3; linarith
    have z0 : |a.y.val - a'.y| ≤ 0 * u := by rw [ay]; simp
    have r1 := rdErr M0 (addErr z0 y1) b1
    have r2 := rdErr M0 (addErr r1 y2) b2
    have r3 := rdErr M0 (addErr r2 y3) b3
    rw [ex, fl, val_add, val_add, val_add]
    refine r3.trans ?_
    rw [show 500 * R.eps * M = 500 * u by rw [hu]; ring]
    exact mul_le_mul_of_nonneg_right (by norm_num) u0
  · set u := R.eps * |m| with hu
    have u0 : 0 ≤ u := mul_nonneg e0 n0
    have sc : ∀ {k v : ℝ}, 0 ≤ v → v ≤ 1 → ∀ {y : ℝ}, |y| ≤ k → |y * v| ≤ k := by
      intro k v v0 v1 y hy
      rw [abs_mul, abs_of_nonneg v0]
      exact (mul_le_of_le_one_right (abs_nonneg _) v1).trans hy
    obtain ⟨l2, hl2, t2⟩ := term (by norm_num) (lit 2 * c2) z hz1
    have d3 : Near R 1 (lit 3 * c3).val (3 * c3.val) := by rw [val_mul, lit_three]; exact (Near.refl _).rd
    obtain ⟨l3, -, hl3, t3⟩ := (d3.mul hz2).rd.coef (by norm_num)
    rw [lit_two_mul] at t2
    push_cast at hl2 hl3
    have y2 : |(lit 2 * c2 * z).val - 2 * q2 * τ| ≤ 437.7 * u := by
      rw [t2, show l2 * (2 * c2.val * (τ * H)) = l2 * (2 * (c2.val * H) * τ) by ring]
      have d1 : |2 * (c2.val * H) * τ - 2 * q2 * τ| ≤ 412 * u := by
        rw [show 2 * (c2.val * H) * τ - 2 * q2 * τ = 2 * (c2.val * H - q2) * τ by ring]
        refine sc τ0 τ1 ?_
        rw [abs_mul, abs_two]; linarith
      refine (mulErr (k := 2.06) (b := 12) e0 e1 n0 (by norm_num) d1 (sc τ0 τ1 ?_) (by linarith)).trans ?_
      · rw [abs_mul, abs_two]; linarith
      · exact mul_le_mul_of_nonneg_right (by norm_num) u0
    have y3 : |(lit 3 * c3 * (z * z)).val - 3 * q3 * τ ^ 2| ≤ 496.1 * u := by
      rw [val_mul, t3, show l3 * (3 * c3.val * (τ * H * (τ * H))) = l3 * (3 * (c3.val * H ^ 2) * τ ^ 2) by ring]
      have d1 : |3 * (c3.val * H ^ 2) * τ ^ 2 - 3 * q3 * τ ^ 2| ≤ 432 * u := by
        rw [show 3 * (c3.val * H ^ 2) * τ ^ 2 - 3 * q3 * τ ^ 2 = 3 * (c3.val * H ^ 2 - q3) * τ ^ 2 by ring]
        refine sc (by positivity) pw2 ?_
        rw [abs_mul, abs_of_pos (by norm_num : (0:ℝ) < 3)]; linarith
      refine (mulErr (k := 5.15) (b := 12) e0 e1 n0 (by norm_num) d1 (sc (by positivity) pw2 ?_) (by linarith)).trans ?_
      · rw [abs_mul, abs_of_pos (by norm_num : (0:ℝ) < 3)]; linarith
      · exact mul_le_mul_of_nonneg_right (by norm_num) u0
    have v2 : |2 * q2 * τ| ≤ 12 * |m| := sc τ0 τ1 (by rw [abs_mul, abs_two]; linarith)
    have v3 : |3 * q3 * τ ^ 2| ≤ 12 * |m| :=
      sc (by positivity) pw2 (by rw [abs_mul, abs_of_pos (by norm_num : (0:ℝ) < 3)]; linarith)
    have b1 : |a'.d + 2 * q2 * τ| ≤ 15 * |m| := by have := abs_add_le a'.d (2 * q2 * τ); linarith
    have b2 : |a'.d + 2 * q2 * τ + 3 * q3 * τ ^ 2| ≤ 27 * |m| := by
      have := abs_add_le (a'.d + 2 * q2 * τ) (3 * q3 * τ ^ 2); linarith
    have z0 : |a.d.val - a'.d| ≤ 55 * u := by rw [hu]; linarith
    have r1 := rdErr n0 (addErr z0 y2) b1
    have r2 := rdErr n0 (addErr r1 y3) b2
    rw [exd, fld, val_add, val_add]
    refine r2.trans ?_
    rw [show 1050 * R.eps * |m| = 1050 * u by rw [hu]; ring]
    exact mul_le_mul_of_nonneg_right (by norm_num) u0

/-! ### All intervals -/

/-- A point as real numbers. -/
def valPoint (p : R.F × R.F) : ℝ × ℝ := (p.1.val, p.2.val)

theorem len_near (p q : R.F × R.F) : Near R 1 (len p q).val (len (valPoint p) (valPoint q)) := (Near.refl _).rd

theorem chord_near (p q : R.F × R.F) : Near R 3 (chord p q).val (chord (valPoint p) (valPoint q)) :=
  (((Near.refl _).rd).div (Near.refl _).rd).rd

private theorem later_twins (a b c : R.F × R.F) (rest : List (R.F × R.F)) (d : R.F) (d' : ℝ)
    (h : (a :: b :: c :: rest).IsChain fun p q => p.1.val < q.1.val)
    (hd : |d.val - d'| ≤ 55 * R.eps * |chord (valPoint b) (valPoint c)|) :
    ((⟨b.1, b.2, d⟩ :: later a b c rest).zip
      (⟨b.1.val, b.2.val, d'⟩ :: later (valPoint a) (valPoint b) (valPoint c) (rest.map valPoint))).IsChain (Twins R) := by
  induction rest generalizing a b c d d' with
  | nil =>
    simp only [List.isChain_cons_cons, List.isChain_singleton, and_true] at h
    simp only [later, List.map_nil, List.zip_cons_cons, List.zip_nil_right, List.isChain_cons_cons, List.isChain_singleton, and_true]
    refine ⟨rfl, rfl, rfl, rfl, hd, ?_⟩
    exact edgeCase_rounded (by simp only [len, valPoint]; linarith) (by simp only [len, valPoint]; linarith) (len_near b c) (len_near a b)
      (chord_near b c) (chord_near a b)
  | cons e rest ih =>
    have h' := h
    simp only [List.isChain_cons_cons] at h
    have hl := innerSlope_rounded (h0 := len b c) (h1 := len c e) (by simp only [len, valPoint]; linarith)
      (by simp only [len, valPoint]; linarith) (len_near b c) (len_near c e) (chord_near b c) (chord_near c e)
    rw [later, List.map_cons, later, List.zip_cons_cons, List.zip_cons_cons, List.isChain_cons_cons]
    rw [List.isChain_cons_cons] at h'
    have := ih b c e _ _ h'.2 hl.2
    rw [List.zip_cons_cons] at this
    exact ⟨⟨rfl, rfl, rfl, rfl, hd, hl.1⟩, this⟩

/-- The knots of a table in both arithmetics. -/
theorem knots_twins {pts : List (R.F × R.F)} (h : pts.IsChain fun p q => p.1.val < q.1.val) :
    ((knots pts).zip (knots (pts.map valPoint))).IsChain (Twins R) := by
  match pts with
  | [] => exact .nil
  | [a] => exact .nil
  | [a, b] =>
    simp only [List.isChain_cons_cons, List.isChain_singleton, and_true] at h
    simp only [knots, List.map_cons, List.map_nil, List.zip_cons_cons, List.zip_nil_right, List.isChain_cons_cons,
      List.isChain_singleton, and_true]
    have : |(chord a b).val - chord (valPoint a) (valPoint b)| ≤ 55 * R.eps * |chord (valPoint a) (valPoint b)| := by
      obtain ⟨l, -, hl, e⟩ := (chord_near a b).coef (by norm_num)
      push_cast at hl
      rw [e, show l * chord (valPoint a) (valPoint b) - chord (valPoint a) (valPoint b) = (l - 1) * chord (valPoint a) (valPoint b) by ring,
        abs_mul]
      refine mul_le_mul_of_nonneg_right (hl.trans ?_) (abs_nonneg _)
      have := R.eps_nonneg; linarith
    exact ⟨rfl, rfl, rfl, rfl, this, this⟩
  | a :: b :: c :: rest =>
    have h' := h
    simp only [List.isChain_cons_cons] at h
    have hl := innerSlope_rounded (h0 := len a b) (h1 := len b c) (by simp only [len, valPoint]; linarith)
      (by simp only [len, valPoint]; linarith) (len_near a b) (len_near b c) (chord_near a b) (chord_near b c)
    have he := edgeCase_rounded (h0 := len a b) (h1 := len b c) (by simp only [len, valPoint]; linarith)
      (by simp only [len, valPoint]; linarith) (len_near a b) (len_near b c) (chord_near a b) (chord_near b c)
    have := later_twins a b c rest _ _ h' hl.2
    rw [List.zip_cons_cons] at this
    rw [List.map_cons, List.map_cons, List.map_cons, knots, knots, List.zip_cons_cons, List.zip_cons_cons, List.isChain_cons_cons]
    exact ⟨⟨rfl, rfl, rfl, rfl, he, hl.1⟩, this⟩

theorem knots_length {α : Type} [Add α] [Sub α] [Mul α] [Div α] [Neg α] [PyLit α] [PyCmp α] (pts : List (α × α)) (h : 2 ≤ pts.length) :
    (knots pts).length = pts.length := by
  have := congrArg List.length (knots_points pts h)
  simpa using this

/-- Neighbouring points of a table come from neighbouring knots in both arithmetics. -/
theorem twins_infix {pts : List (R.F × R.F)} (hl : 2 ≤ pts.length) {p q : R.F × R.F} (h : [p, q] <:+: pts) :
    ∃ a b : Knot R.F × Knot ℝ, [a, b] <:+: (knots pts).zip (knots (pts.map valPoint)) ∧ (a.1.x, a.1.y) = p ∧ (b.1.x, b.1.y) = q := by
  have len : (knots pts).length = (knots (pts.map valPoint)).length := by
    rw [knots_length pts hl, knots_length _ (by simpa using hl), List.length_map]
  have : ((knots pts).zip (knots (pts.map valPoint))).map (fun z => (z.1.x, z.1.y)) = pts := by
    rw [show (fun z : Knot R.F × Knot ℝ => (z.1.x, z.1.y)) = (fun k : Knot R.F => (k.x, k.y)) ∘ Prod.fst from rfl, ← List.map_map,
      List.map_fst_zip len.le, knots_points pts hl]
  obtain ⟨l, r, hlr⟩ := h
  rw [← hlr, List.append_assoc] at this
  obtain ⟨l1, l2, e1, -, e3⟩ := List.map_eq_append_iff.1 this
  obtain ⟨l3, l4, e4, e5, -⟩ := List.map_eq_append_iff.1 e3
  match l3, e5 with
  | [a, b], e5 =>
    simp only [List.map_cons, List.map_nil, List.cons.injEq, and_true] at e5
    exact ⟨a, b, ⟨l1, l4, by rw [← hlr, List.append_assoc l, e1, e4]; simp⟩, e5.1, e5.2⟩

/-- The value between two neighbouring knots is that of their piece; at the right one it is that of the next piece, if there is one. -/
theorem F_glued_eval (G : Knot R.F → Knot R.F → List R.F) {K : List (Knot R.F)} (h : K.IsChain fun a b => a.x.val < b.x.val)
    {a b : Knot R.F} (hab : [a, b] <:+: K) {x : R.F} (h0 : a.x.val ≤ x.val) (h1 : x.val ≤ b.x.val) :
    (eval (gluedBy G K) x = polyEval (G a b) (x - a.x) ∧ (x.val = b.x.val → ∃ l, K = l ++ [a, b])) ∨
    ∃ c, x.val = b.x.val ∧ eval (gluedBy G K) x = polyEval (G b c) (x - b.x) := by
  induction K with
  | nil => simp at hab
  | cons k K ih =>
    cases K with
    | nil => have := hab.length_le; simp at this
    | cons k2 K =>
      have h' := h
      rw [List.isChain_cons_cons] at h'
      rw [List.infix_cons_iff] at hab
      rcases hab with hp | hi
      · rw [List.cons_prefix_cons] at hp
        obtain ⟨rfl, hp⟩ := hp
        rw [List.cons_prefix_cons] at hp
        obtain ⟨rfl, -⟩ := hp
        cases K with
        | nil => exact .inl ⟨by simp [gluedBy, eval], fun _ => ⟨[], rfl⟩⟩
        | cons c K =>
          rw [gluedBy, gluedBy, eval]
          by_cases hb : PyCmp.lt x b.x = true
          · rw [if_pos hb]
            rw [F_lt] at hb
            exact .inl ⟨rfl, fun hh => absurd hb (by rw [hh]; exact lt_irrefl _)⟩
          · rw [if_neg hb]
            rw [F_lt, not_lt] at hb
            have hxb := le_antisymm h1 hb
            refine .inr ⟨c, hxb, ?_⟩
            cases K with
            | nil => simp [gluedBy, eval]
            | cons c' K =>
              have h3 := h'.2
              rw [List.isChain_cons_cons] at h3
              rw [gluedBy, eval, if_pos]
              rw [F_lt, hxb]; exact h3.1
      · have ka : k2.x.val ≤ a.x.val := by
          have hmem : a ∈ k2 :: K := hi.subset (by simp)
          have hpw : (k2 :: K).Pairwise fun a b => a.x.val < b.x.val := by
            have : IsTrans (Knot R.F) fun a b => a.x.val < b.x.val := ⟨fun a b c h1 h2 => lt_trans h1 h2⟩
            exact List.isChain_iff_pairwise.1 h'.2
          rcases List.mem_cons.1 hmem with rfl | hm
          · exact le_refl _
          · exact ((List.pairwise_cons.1 hpw).1 a hm).le
        cases K with
        | nil => have := hi.length_le; simp at this
        | cons c K =>
          have hn : ¬ PyCmp.lt x k2.x = true := by rw [F_lt, not_lt]; exact ka.trans h0
          rw [gluedBy, gluedBy, eval, if_neg hn]
          rcases ih h'.2 hi with ⟨e, hh⟩ | hr
          · refine .inl ⟨e, fun hx => ?_⟩
            obtain ⟨l, hl⟩ := hh hx
            exact ⟨k :: l, by rw [hl]; rfl⟩
          · exact .inr hr

end IBL.Pchip
