import Mathlib.Analysis.Calculus.MeanValue
import Verif.Lemmas.Pchip

/-! How far the slopes of scipy's monotone cubic interpolation are from the slopes of the segments. -/

namespace IBL.Pchip
open PPoly

private theorem abs_le_of_signs {m0 m1 : ℝ} (h : ¬ ((0 < m0 ↔ 0 < m1) ∧ (m0 < 0 ↔ m1 < 0))) : |m0| ≤ |m0 - m1| := by
  rcases lt_trichotomy m0 0 with a | a | a
  · have : 0 ≤ m1 := by
      by_contra hc
      rw [not_le] at hc
      exact h ⟨by constructor <;> intro <;> linarith, by constructor <;> intro <;> assumption⟩
    rw [abs_of_neg a, abs_of_nonpos (by linarith)]; linarith
  · rw [a]; simp
  · have : m1 ≤ 0 := by
      by_contra hc
      rw [not_le] at hc
      exact h ⟨by constructor <;> intro <;> assumption, by constructor <;> intro <;> linarith⟩
    rw [abs_of_pos a, abs_of_nonneg (by linarith)]; linarith

/-- The slope at an end point. -/
theorem edgeCase_close {h0 h1 : ℝ} (m0 m1 : ℝ) (p0 : 0 < h0) (p1 : 0 < h1) : |edgeCase h0 h1 m0 m1 - m0| ≤ 2 * |m0 - m1| := by
  unfold edgeCase
  simp only [real_lit, real_abs, Bool.and_eq_true, real_gt, signsDiffer_iff]
  push_cast
  set d := ((2 * h0 + h1) * m0 - h0 * m1) / (h0 + h1) with hd
  have hs : 0 < h0 + h1 := by linarith
  have e : d - m0 = h0 / (h0 + h1) * (m0 - m1) := by rw [hd]; field_simp; ring
  have hd1 : |d - m0| ≤ |m0 - m1| := by
    rw [e, abs_mul, abs_of_pos (div_pos p0 hs)]
    exact mul_le_of_le_one_left (abs_nonneg _) (by rw [div_le_one hs]; linarith)
  have hn := abs_nonneg (m0 - m1)
  split_ifs with h h'
  · have := abs_le_of_signs h'.1
    have e3 : 3 * m0 - m0 = 2 * m0 := by ring
    rw [e3, abs_mul, abs_two]
    linarith
  · linarith
  · have := abs_le_of_signs (m0 := m0) (m1 := d) (fun hh => h ⟨hh.1.symm, hh.2.symm⟩)
    rw [abs_sub_comm] at hd1
    rw [zero_sub, abs_neg]
    linarith

private theorem harmonic_between {h0 h1 m0 m1 : ℝ} (p0 : 0 < h0) (p1 : 0 < h1) (q0 : 0 < m0) (q1 : 0 < m1) :
    min m0 m1 ≤ 1 / (((2 * h1 + h0) / m0 + (h1 + 2 * h0) / m1) / (2 * h1 + h0 + (h1 + 2 * h0))) ∧
    1 / (((2 * h1 + h0) / m0 + (h1 + 2 * h0) / m1) / (2 * h1 + h0 + (h1 + 2 * h0))) ≤ max m0 m1 := by
  have e : 1 / (((2 * h1 + h0) / m0 + (h1 + 2 * h0) / m1) / (2 * h1 + h0 + (h1 + 2 * h0))) =
      3 * (h0 + h1) * (m0 * m1) / ((2 * h1 + h0) * m1 + (h1 + 2 * h0) * m0) := by
    field_simp
    ring
  rw [e]
  have hden : 0 < (2 * h1 + h0) * m1 + (h1 + 2 * h0) * m0 := by positivity
  rw [le_div_iff₀ hden, div_le_iff₀ hden]
  rcases le_total m0 m1 with h | h
  · rw [min_eq_left h, max_eq_right h]
    constructor <;> nlinarith [mul_nonneg (mul_pos q0 p0).le (sub_nonneg.2 h), mul_nonneg (mul_pos q0 p1).le (sub_nonneg.2 h),
      mul_nonneg (mul_pos q1 p0).le (sub_nonneg.2 h), mul_nonneg (mul_pos q1 p1).le (sub_nonneg.2 h)]
  · rw [min_eq_right h, max_eq_left h]
    constructor <;> nlinarith [mul_nonneg (mul_pos q0 p0).le (sub_nonneg.2 h), mul_nonneg (mul_pos q0 p1).le (sub_nonneg.2 h),
      mul_nonneg (mul_pos q1 p0).le (sub_nonneg.2 h), mul_nonneg (mul_pos q1 p1).le (sub_nonneg.2 h)]

private theorem close_of_between {m0 m1 v : ℝ} (h : min m0 m1 ≤ v ∧ v ≤ max m0 m1) : |v - m0| ≤ |m0 - m1| ∧ |v - m1| ≤ |m0 - m1| := by
  rcases le_total m0 m1 with hm | hm
  · rw [min_eq_left hm, max_eq_right hm] at h
    rw [abs_of_nonpos (by linarith : m0 - m1 ≤ 0), abs_of_nonneg (by linarith [h.1] : 0 ≤ v - m0), abs_of_nonpos (by linarith [h.2] : v - m1 ≤ 0)]
    constructor <;> linarith [h.1, h.2]
  · rw [min_eq_right hm, max_eq_left hm] at h
    rw [abs_of_nonneg (by linarith : 0 ≤ m0 - m1), abs_of_nonpos (by linarith [h.2] : v - m0 ≤ 0), abs_of_nonneg (by linarith [h.1] : 0 ≤ v - m1)]
    constructor <;> linarith [h.1, h.2]

/-- The slope at an inner point. -/
theorem innerSlope_close {h0 h1 : ℝ} (m0 m1 : ℝ) (p0 : 0 < h0) (p1 : 0 < h1) :
    |innerSlope h0 h1 m0 m1 - m0| ≤ |m0 - m1| ∧ |innerSlope h0 h1 m0 m1 - m1| ≤ |m0 - m1| := by
  unfold innerSlope
  simp only [real_lit, Bool.or_eq_true, real_eq, signsDiffer_iff]
  push_cast
  by_cases h : (¬ ((0 < m1 ↔ 0 < m0) ∧ (m1 < 0 ↔ m0 < 0)) ∨ m1 = 0) ∨ m0 = 0
  · rw [if_pos h, zero_sub, zero_sub, abs_neg, abs_neg]
    rcases h with (h | rfl) | rfl
    · exact ⟨abs_le_of_signs fun hh => h ⟨hh.1.symm, hh.2.symm⟩, by rw [abs_sub_comm]; exact abs_le_of_signs h⟩
    · simp
    · simp
  rw [if_neg h]
  push Not at h
  obtain ⟨⟨⟨hp, hn⟩, h1'⟩, h0'⟩ := h
  rcases lt_or_gt_of_ne h0' with hm | hm
  · have hm1 := hn.2 hm
    have hb := harmonic_between p0 p1 (neg_pos.2 hm) (neg_pos.2 hm1)
    have e : 1 / (((2 * h1 + h0) / -m0 + (h1 + 2 * h0) / -m1) / (2 * h1 + h0 + (h1 + 2 * h0))) =
        -(1 / (((2 * h1 + h0) / m0 + (h1 + 2 * h0) / m1) / (2 * h1 + h0 + (h1 + 2 * h0)))) := by
      rw [div_neg, div_neg, ← neg_add, neg_div, div_neg]
    rw [e] at hb
    apply close_of_between
    rw [min_neg_neg, max_neg_neg] at hb
    rw [neg_le_neg_iff, neg_le_neg_iff] at hb
    exact ⟨hb.2, hb.1⟩
  · exact close_of_between (harmonic_between p0 p1 hm (hp.2 hm))

/-- The slopes at both ends of a segment are near its own slope. -/
def Close (w : ℝ) (a b : Knot ℝ) : Prop := |a.d - rise a b| ≤ 2 * w ∧ |b.d - rise a b| ≤ 2 * w

private theorem later_close (w : ℝ) (a b c : ℝ × ℝ) (rest : List (ℝ × ℝ)) (d : ℝ) (h : (a :: b :: c :: rest).IsChain fun p q => p.1 < q.1)
    (hw : ∀ p q r, [p, q, r] <:+: a :: b :: c :: rest → |chord p q - chord q r| ≤ w)
    (hd : |d - chord b c| ≤ 2 * w) : (⟨b.1, b.2, d⟩ :: later a b c rest).IsChain (Close w) := by
  induction rest generalizing a b c d with
  | nil =>
    simp only [List.isChain_cons_cons, List.isChain_singleton, and_true] at h
    simp only [later, List.isChain_cons_cons, List.isChain_singleton, and_true]
    refine ⟨hd, ?_⟩
    have h1 := edgeCase_close (h0 := len b c) (h1 := len a b) (chord b c) (chord a b) (by simp only [len]; linarith) (by simp only [len]; linarith)
    have h2 := hw a b c (List.infix_refl _)
    rw [abs_sub_comm] at h2
    have h3 : rise ⟨b.1, b.2, d⟩ ⟨c.1, c.2, edgeCase (len b c) (len a b) (chord b c) (chord a b)⟩ = chord b c := rfl
    rw [h3]
    exact h1.trans (by linarith)
  | cons e rest ih =>
    have h' := h
    simp only [List.isChain_cons_cons] at h
    have hl := innerSlope_close (chord b c) (chord c e) (h0 := len b c) (h1 := len c e) (by simp only [len]; linarith)
      (by simp only [len]; linarith)
    have hbc := hw b c e ⟨[a], rest, rfl⟩
    have hn := abs_nonneg (chord b c - chord c e)
    rw [later, List.isChain_cons_cons]
    refine ⟨⟨hd, hl.1.trans (by linarith)⟩, ih b c e _ ?_ ?_ (hl.2.trans (by linarith))⟩
    · rw [List.isChain_cons_cons] at h'
      exact h'.2
    · exact fun p q r hpq => hw p q r (hpq.trans ⟨[a], [], by simp⟩)

/-- All slopes are near those of the segments if neighbouring segments have nearly the same slope. -/
theorem knots_close (w : ℝ) (w0 : 0 ≤ w) (pts : List (ℝ × ℝ)) (h : pts.IsChain fun p q => p.1 < q.1)
    (hw : ∀ p q r, [p, q, r] <:+: pts → |chord p q - chord q r| ≤ w) : (knots pts).IsChain (Close w) := by
  match pts with
  | [] => exact .nil
  | [a] => exact .nil
  | [a, b] =>
    simp only [knots, List.isChain_cons_cons, List.isChain_singleton, and_true]
    have : rise ⟨a.1, a.2, chord a b⟩ ⟨b.1, b.2, chord a b⟩ = chord a b := rfl
    simp only [Close, this, sub_self, abs_zero]
    constructor <;> linarith
  | a :: b :: c :: rest =>
    have h' := h
    simp only [List.isChain_cons_cons] at h
    have hl := innerSlope_close (chord a b) (chord b c) (h0 := len a b) (h1 := len b c) (by simp only [len]; linarith)
      (by simp only [len]; linarith)
    have he := edgeCase_close (chord a b) (chord b c) (h0 := len a b) (h1 := len b c) (by simp only [len]; linarith)
      (by simp only [len]; linarith)
    have habc := hw a b c ⟨[], rest, rfl⟩
    rw [knots, List.isChain_cons_cons]
    exact ⟨⟨he.trans (by linarith), hl.1.trans (by linarith)⟩, later_close w a b c rest _ h' hw (hl.2.trans (by linarith))⟩

/-- Between two such knots the slope of the cubic is near that of the segment. -/
theorem hermite_close {w : ℝ} {a b : Knot ℝ} (h : a.x < b.x) (hc : Close w a b) {x : ℝ} (hx : x ∈ Set.Icc a.x b.x) :
    |polyEval (polyDer (hermite a b).2) (x - a.x) - rise a b| ≤ 2 * w := by
  have hp : 0 < b.x - a.x := by linarith
  have t0 : 0 ≤ (x - a.x) / (b.x - a.x) := div_nonneg (by linarith [hx.1]) hp.le
  have t1 : (x - a.x) / (b.x - a.x) ≤ 1 := by rw [div_le_one hp]; linarith [hx.2]
  have e : x - a.x = (x - a.x) / (b.x - a.x) * (b.x - a.x) := by field_simp
  rw [e, hermite_deriv_eq h]
  generalize (x - a.x) / (b.x - a.x) = t at t0 t1
  have e2 : a.d * ((1 - t) * (1 - 3 * t)) + b.d * (t * (3 * t - 2)) + 6 * rise a b * (t * (1 - t)) - rise a b =
      (a.d - rise a b) * ((1 - t) * (1 - 3 * t)) + (b.d - rise a b) * (t * (3 * t - 2)) := by ring
  rw [e2]
  have w0 : 0 ≤ 2 * w := (abs_nonneg _).trans hc.1
  have hA : |(1 - t) * (1 - 3 * t)| + |t * (3 * t - 2)| ≤ 1 := by
    rcases abs_cases ((1 - t) * (1 - 3 * t)) with ⟨h1, _⟩ | ⟨h1, _⟩ <;> rcases abs_cases (t * (3 * t - 2)) with ⟨h2, _⟩ | ⟨h2, _⟩ <;>
      rw [h1, h2] <;> nlinarith [sq_nonneg (2 * t - 1)]
  calc _ ≤ |(a.d - rise a b) * ((1 - t) * (1 - 3 * t))| + |(b.d - rise a b) * (t * (3 * t - 2))| := abs_add_le _ _
    _ = |a.d - rise a b| * |(1 - t) * (1 - 3 * t)| + |b.d - rise a b| * |t * (3 * t - 2)| := by rw [abs_mul (a.d - rise a b), abs_mul (b.d - rise a b)]
    _ ≤ 2 * w * |(1 - t) * (1 - 3 * t)| + 2 * w * |t * (3 * t - 2)| :=
        add_le_add (mul_le_mul_of_nonneg_right hc.1 (abs_nonneg _)) (mul_le_mul_of_nonneg_right hc.2 (abs_nonneg _))
    _ = 2 * w * (|(1 - t) * (1 - 3 * t)| + |t * (3 * t - 2)|) := by ring
    _ ≤ 2 * w * 1 := mul_le_mul_of_nonneg_left hA w0
    _ = 2 * w := mul_one _

end IBL.Pchip
