import Verif.Model.Pchip
import Verif.Props.PPoly

/-! Facts about scipy's monotone cubic interpolation as modelled in `Model/Pchip.lean`, over the real numbers. -/

set_option linter.unusedSectionVars false

namespace IBL.Pchip
open PPoly

/-! ### Slopes -/

/-- The slope `d` at an end of a segment of slope `s` is limited: same direction and at most three times as steep. -/
def Lim (s d : ℝ) : Prop := (0 ≤ s → 0 ≤ d ∧ d ≤ 3 * s) ∧ (s ≤ 0 → 3 * s ≤ d ∧ d ≤ 0)

theorem Lim.zero (s : ℝ) : Lim s 0 := ⟨fun h => ⟨le_refl _, by linarith⟩, fun h => ⟨by linarith, le_refl _⟩⟩

theorem Lim.self (s : ℝ) : Lim s s := ⟨fun h => ⟨h, by linarith⟩, fun h => ⟨by linarith, h⟩⟩

theorem real_sign (v : ℝ) : sign v = if 0 < v then 1 else if v < 0 then -1 else 0 := by
  simp only [sign, real_gt, real_lt, real_lit]
  push_cast
  split_ifs with h1 h2
  · rfl
  · rfl
  · exact le_antisymm (not_lt.1 h1) (not_lt.1 h2)

theorem signsDiffer_iff (a b : ℝ) : signsDiffer a b = true ↔ ¬ ((0 < a ↔ 0 < b) ∧ (a < 0 ↔ b < 0)) := by
  have : signsDiffer a b = true ↔ ¬ (sign a = sign b) := by
    unfold signsDiffer
    rw [Bool.not_eq_true', ← Bool.not_eq_true, real_eq]
  rw [this, not_iff_not, real_sign, real_sign]
  rcases lt_trichotomy a 0 with ha | ha | ha <;> rcases lt_trichotomy b 0 with hb | hb | hb <;>
    simp [ha, hb, ha.le, hb.le, not_lt_of_gt] <;> norm_num

/-- The slope at an end point is limited. -/
theorem edgeCase_lim {h0 h1 : ℝ} (m0 m1 : ℝ) (p0 : 0 < h0) (p1 : 0 < h1) : Lim m0 (edgeCase h0 h1 m0 m1) := by
  unfold edgeCase
  simp only [real_lit, real_abs, Bool.and_eq_true, real_gt, signsDiffer_iff]
  push_cast
  set d := ((2 * h0 + h1) * m0 - h0 * m1) / (h0 + h1) with hd
  have hs : 0 < h0 + h1 := by linarith
  have e : d * (h0 + h1) = (2 * h0 + h1) * m0 - h0 * m1 := by rw [hd]; field_simp
  by_cases h : ¬ ((0 < d ↔ 0 < m0) ∧ (d < 0 ↔ m0 < 0))
  · rw [if_pos h]; exact Lim.zero _
  rw [if_neg h]
  rw [not_not] at h
  by_cases h' : ¬ ((0 < m0 ↔ 0 < m1) ∧ (m0 < 0 ↔ m1 < 0)) ∧ 3 * |m0| < |d|
  · rw [if_pos h']
    exact ⟨fun h => ⟨by linarith, le_refl _⟩, fun h => ⟨le_refl _, by linarith⟩⟩
  rw [if_neg h']
  rcases lt_trichotomy m0 0 with hm | hm | hm
  · have hdn := h.2.2 hm
    refine ⟨fun h => absurd hm (not_lt.2 h), fun _ => ⟨?_, hdn.le⟩⟩
    by_contra hc
    rw [not_le] at hc
    refine h' ⟨fun hh => ?_, by rw [abs_of_neg hm, abs_of_neg hdn]; linarith⟩
    have hm1 := hh.2.1 hm
    nlinarith [mul_pos p0 (neg_pos.2 hm1), mul_pos p0 (neg_pos.2 hm), mul_pos p1 (neg_pos.2 hm)]
  · have : d = 0 := by
      rcases lt_trichotomy d 0 with hc | hc | hc
      · exact absurd (h.2.1 hc) (by linarith)
      · exact hc
      · exact absurd (h.1.1 hc) (by linarith)
    rw [this]; exact Lim.zero _
  · have hdn := h.1.2 hm
    refine ⟨fun _ => ⟨hdn.le, ?_⟩, fun h => absurd hm (not_lt.2 h)⟩
    by_contra hc
    rw [not_le] at hc
    refine h' ⟨fun hh => ?_, by rw [abs_of_pos hm, abs_of_pos hdn]; linarith⟩
    have hm1 := hh.1.1 hm
    nlinarith [mul_pos p0 hm1, mul_pos p0 hm, mul_pos p1 hm]

private theorem harmonic {h0 h1 m0 m1 : ℝ} (p0 : 0 < h0) (p1 : 0 < h1) (q0 : 0 < m0) (q1 : 0 < m1) :
    0 ≤ 1 / (((2 * h1 + h0) / m0 + (h1 + 2 * h0) / m1) / (2 * h1 + h0 + (h1 + 2 * h0))) ∧
    1 / (((2 * h1 + h0) / m0 + (h1 + 2 * h0) / m1) / (2 * h1 + h0 + (h1 + 2 * h0))) ≤ 3 * m0 ∧
    1 / (((2 * h1 + h0) / m0 + (h1 + 2 * h0) / m1) / (2 * h1 + h0 + (h1 + 2 * h0))) ≤ 3 * m1 := by
  have e : 1 / (((2 * h1 + h0) / m0 + (h1 + 2 * h0) / m1) / (2 * h1 + h0 + (h1 + 2 * h0))) =
      3 * (h0 + h1) * (m0 * m1) / ((2 * h1 + h0) * m1 + (h1 + 2 * h0) * m0) := by
    field_simp
    ring
  rw [e]
  have hden : 0 < (2 * h1 + h0) * m1 + (h1 + 2 * h0) * m0 := by positivity
  refine ⟨by positivity, ?_, ?_⟩
  · rw [div_le_iff₀ hden]
    nlinarith [mul_pos (mul_pos q0 q1) p1, mul_pos (mul_pos q0 q0) p1, mul_pos (mul_pos q0 q0) p0, mul_pos (mul_pos q0 q1) p0]
  · rw [div_le_iff₀ hden]
    nlinarith [mul_pos (mul_pos q0 q1) p1, mul_pos (mul_pos q1 q1) p1, mul_pos (mul_pos q1 q1) p0, mul_pos (mul_pos q0 q1) p0]

/-- The slope at an inner point is limited with respect to both neighbouring segments. -/
theorem innerSlope_lim {h0 h1 : ℝ} (m0 m1 : ℝ) (p0 : 0 < h0) (p1 : 0 < h1) :
    Lim m0 (innerSlope h0 h1 m0 m1) ∧ Lim m1 (innerSlope h0 h1 m0 m1) := by
  unfold innerSlope
  simp only [real_lit, Bool.or_eq_true, real_eq, signsDiffer_iff]
  push_cast
  by_cases h : (¬ ((0 < m1 ↔ 0 < m0) ∧ (m1 < 0 ↔ m0 < 0)) ∨ m1 = 0) ∨ m0 = 0
  · rw [if_pos h]; exact ⟨Lim.zero _, Lim.zero _⟩
  rw [if_neg h]
  push Not at h
  obtain ⟨⟨⟨hp, hn⟩, h1'⟩, h0'⟩ := h
  rcases lt_or_gt_of_ne h0' with hm | hm
  · have hm1 := hn.2 hm
    obtain ⟨a, b, c⟩ := harmonic p0 p1 (neg_pos.2 hm) (neg_pos.2 hm1)
    have e : 1 / (((2 * h1 + h0) / -m0 + (h1 + 2 * h0) / -m1) / (2 * h1 + h0 + (h1 + 2 * h0))) =
        -(1 / (((2 * h1 + h0) / m0 + (h1 + 2 * h0) / m1) / (2 * h1 + h0 + (h1 + 2 * h0)))) := by
      rw [div_neg, div_neg, ← neg_add, neg_div, div_neg]
    rw [e] at a b c
    exact ⟨⟨fun h => absurd hm (not_lt.2 h), fun _ => ⟨by linarith, by linarith⟩⟩,
      ⟨fun h => absurd hm1 (not_lt.2 h), fun _ => ⟨by linarith, by linarith⟩⟩⟩
  · have hm1 := hp.2 hm
    obtain ⟨a, b, c⟩ := harmonic p0 p1 hm hm1
    exact ⟨⟨fun _ => ⟨a, b⟩, fun h => absurd hm (not_lt.2 h)⟩, ⟨fun _ => ⟨a, c⟩, fun h => absurd hm1 (not_lt.2 h)⟩⟩

/-! ### One interval -/

/-- Slope of the segment between two knots. -/
noncomputable def rise (a b : Knot ℝ) : ℝ := (b.y - a.y) / (b.x - a.x)

theorem hermite_left (a b : Knot ℝ) : polyEval (hermite a b).2 0 = a.y := by simp [hermite, polyEval_nil, polyEval_cons]

theorem hermite_right {a b : Knot ℝ} (h : a.x < b.x) : polyEval (hermite a b).2 (b.x - a.x) = b.y := by
  have : b.x - a.x ≠ 0 := by linarith
  simp only [hermite, polyEval_nil, polyEval_cons, real_lit]
  push_cast
  field_simp
  ring

theorem hermite_deriv_left (a b : Knot ℝ) : polyEval (polyDer (hermite a b).2) 0 = a.d := by
  simp [hermite, polyDer, derFrom, polyEval_nil, polyEval_cons]

theorem hermite_deriv_right {a b : Knot ℝ} (h : a.x < b.x) : polyEval (polyDer (hermite a b).2) (b.x - a.x) = b.d := by
  have : b.x - a.x ≠ 0 := by linarith
  simp only [hermite, polyDer, derFrom, polyEval_nil, polyEval_cons, real_lit]
  push_cast
  field_simp
  ring

theorem hermite_deriv_eq {a b : Knot ℝ} (h : a.x < b.x) (t : ℝ) : polyEval (polyDer (hermite a b).2) (t * (b.x - a.x)) =
    a.d * ((1 - t) * (1 - 3 * t)) + b.d * (t * (3 * t - 2)) + 6 * rise a b * (t * (1 - t)) := by
  have : b.x - a.x ≠ 0 := by linarith
  simp only [hermite, polyDer, derFrom, polyEval_nil, polyEval_cons, real_lit, rise]
  push_cast
  field_simp
  ring

private theorem box {s d0 d1 t : ℝ} (hs : 0 ≤ s) (a0 : 0 ≤ d0) (a1 : d0 ≤ 3 * s) (b0 : 0 ≤ d1) (b1 : d1 ≤ 3 * s) (t0 : 0 ≤ t) (t1 : t ≤ 1) :
    0 ≤ d0 * ((1 - t) * (1 - 3 * t)) + d1 * (t * (3 * t - 2)) + 6 * s * (t * (1 - t)) := by
  have u : 0 ≤ 1 - t := by linarith
  have hA : min 0 (3 * s * ((1 - t) * (1 - 3 * t))) ≤ d0 * ((1 - t) * (1 - 3 * t)) := by
    rcases le_total 0 ((1 - t) * (1 - 3 * t)) with h | h
    · exact (min_le_left _ _).trans (mul_nonneg a0 h)
    · exact (min_le_right _ _).trans (mul_le_mul_of_nonpos_right a1 h)
  have hB : min 0 (3 * s * (t * (3 * t - 2))) ≤ d1 * (t * (3 * t - 2)) := by
    rcases le_total 0 (t * (3 * t - 2)) with h | h
    · exact (min_le_left _ _).trans (mul_nonneg b0 h)
    · exact (min_le_right _ _).trans (mul_le_mul_of_nonpos_right b1 h)
  have c1 : 0 ≤ s * (t * (1 - t)) := by positivity
  have c2 : 0 ≤ s * (1 - t) ^ 2 := by positivity
  have c3 : 0 ≤ s * t ^ 2 := by positivity
  have c4 : 0 ≤ s * (1 - 2 * t) ^ 2 := by positivity
  rcases min_choice 0 (3 * s * ((1 - t) * (1 - 3 * t))) with h | h <;> rcases min_choice 0 (3 * s * (t * (3 * t - 2))) with h' | h' <;>
    rw [h] at hA <;> rw [h'] at hB <;> nlinarith

/-- Between two knots with limited slopes the cubic goes in the direction of the segment. -/
theorem hermite_monotone {a b : Knot ℝ} (h : a.x < b.x) (la : Lim (rise a b) a.d) (lb : Lim (rise a b) b.d) {x : ℝ}
    (hx : x ∈ Set.Icc a.x b.x) : (0 ≤ rise a b → 0 ≤ polyEval (polyDer (hermite a b).2) (x - a.x)) ∧
      (rise a b ≤ 0 → polyEval (polyDer (hermite a b).2) (x - a.x) ≤ 0) := by
  have hp : 0 < b.x - a.x := by linarith
  have t0 : 0 ≤ (x - a.x) / (b.x - a.x) := div_nonneg (by linarith [hx.1]) hp.le
  have t1 : (x - a.x) / (b.x - a.x) ≤ 1 := by rw [div_le_one hp]; linarith [hx.2]
  have e : x - a.x = (x - a.x) / (b.x - a.x) * (b.x - a.x) := by field_simp
  rw [e, hermite_deriv_eq h]
  constructor
  · intro hs
    exact box hs (la.1 hs).1 (la.1 hs).2 (lb.1 hs).1 (lb.1 hs).2 t0 t1
  · intro hs
    have := box (s := -rise a b) (d0 := -a.d) (d1 := -b.d) (by linarith) (by linarith [(la.2 hs).2]) (by linarith [(la.2 hs).1])
      (by linarith [(lb.2 hs).2]) (by linarith [(lb.2 hs).1]) t0 t1
    nlinarith

private theorem box_le {s d0 d1 t : ℝ} (hs : 0 ≤ s) (a0 : 0 ≤ d0) (a1 : d0 ≤ 3 * s) (b0 : 0 ≤ d1) (b1 : d1 ≤ 3 * s) (t0 : 0 ≤ t) (t1 : t ≤ 1) :
    d0 * ((1 - t) * (1 - 3 * t)) + d1 * (t * (3 * t - 2)) + 6 * s * (t * (1 - t)) ≤ 3 * s := by
  have hA : d0 * ((1 - t) * (1 - 3 * t)) ≤ max 0 (3 * s * ((1 - t) * (1 - 3 * t))) := by
    rcases le_total 0 ((1 - t) * (1 - 3 * t)) with h | h
    · exact (mul_le_mul_of_nonneg_right a1 h).trans (le_max_right _ _)
    · exact (mul_nonpos_of_nonneg_of_nonpos a0 h).trans (le_max_left _ _)
  have hB : d1 * (t * (3 * t - 2)) ≤ max 0 (3 * s * (t * (3 * t - 2))) := by
    rcases le_total 0 (t * (3 * t - 2)) with h | h
    · exact (mul_le_mul_of_nonneg_right b1 h).trans (le_max_right _ _)
    · exact (mul_nonpos_of_nonneg_of_nonpos b0 h).trans (le_max_left _ _)
  have c0 : 6 * s * (t * (1 - t)) ≤ 3 * s := by nlinarith [mul_nonneg hs (sq_nonneg (2 * t - 1))]
  have c1 : 3 * s * ((1 - t) * (1 - 3 * t)) + 6 * s * (t * (1 - t)) ≤ 3 * s := by
    nlinarith [mul_nonneg hs (mul_nonneg t0 (by linarith : 0 ≤ 2 - t))]
  have c2 : 3 * s * (t * (3 * t - 2)) + 6 * s * (t * (1 - t)) ≤ 3 * s := by
    nlinarith [mul_nonneg hs (mul_nonneg (by linarith : 0 ≤ 1 - t) (by linarith : 0 ≤ 1 + t))]
  have c3 : 3 * s * ((1 - t) * (1 - 3 * t)) + 3 * s * (t * (3 * t - 2)) + 6 * s * (t * (1 - t)) ≤ 3 * s := by
    nlinarith [mul_nonneg hs (mul_nonneg t0 (by linarith : 0 ≤ 1 - t))]
  rcases max_choice 0 (3 * s * ((1 - t) * (1 - 3 * t))) with h | h <;> rcases max_choice 0 (3 * s * (t * (3 * t - 2))) with h' | h' <;>
    rw [h] at hA <;> rw [h'] at hB <;> linarith

/-- Between two knots with limited slopes the cubic is at most three times as steep as the segment. -/
theorem hermite_steep {a b : Knot ℝ} (h : a.x < b.x) (la : Lim (rise a b) a.d) (lb : Lim (rise a b) b.d) {x : ℝ}
    (hx : x ∈ Set.Icc a.x b.x) : |polyEval (polyDer (hermite a b).2) (x - a.x)| ≤ 3 * |rise a b| := by
  have hm := hermite_monotone h la lb hx
  have hp : 0 < b.x - a.x := by linarith
  have t0 : 0 ≤ (x - a.x) / (b.x - a.x) := div_nonneg (by linarith [hx.1]) hp.le
  have t1 : (x - a.x) / (b.x - a.x) ≤ 1 := by rw [div_le_one hp]; linarith [hx.2]
  have e : x - a.x = (x - a.x) / (b.x - a.x) * (b.x - a.x) := by field_simp
  rcases le_total 0 (rise a b) with hs | hs
  · rw [abs_of_nonneg (hm.1 hs), abs_of_nonneg hs, e, hermite_deriv_eq h]
    exact box_le hs (la.1 hs).1 (la.1 hs).2 (lb.1 hs).1 (lb.1 hs).2 t0 t1
  · rw [abs_of_nonpos (hm.2 hs), abs_of_nonpos hs, e, hermite_deriv_eq h]
    have := box_le (s := -rise a b) (d0 := -a.d) (d1 := -b.d) (by linarith) (by linarith [(la.2 hs).2]) (by linarith [(la.2 hs).1])
      (by linarith [(lb.2 hs).2]) (by linarith [(lb.2 hs).1]) t0 t1
    linarith

/-! ### All intervals -/

section generic
variable {α : Type} [Add α] [Sub α] [Mul α] [Div α] [Neg α] [PyLit α] [PyCmp α]

/-- Pieces made from neighbouring knots. -/
def gluedBy {α : Type} (G : Knot α → Knot α → List α) : List (Knot α) → Pieces α
  | a :: b :: rest => (a.x, G a b) :: gluedBy G (b :: rest)
  | _ => []

theorem pieces_glued (K : List (Knot α)) : pieces K = gluedBy (fun a b => (hermite a b).2) K := by
  induction K with
  | nil => rfl
  | cons a K ih =>
    cases K with
    | nil => rfl
    | cons b K => simp only [pieces, gluedBy]; rw [ih]; rfl

theorem deriv_glued (G : Knot α → Knot α → List α) (K : List (Knot α)) :
    PPoly.deriv (gluedBy G K) = gluedBy (fun a b => polyDer (G a b)) K := by
  induction K with
  | nil => rfl
  | cons a K ih =>
    cases K with
    | nil => rfl
    | cons b K => simp only [gluedBy, PPoly.deriv, List.map_cons] at ih ⊢; rw [ih]

end generic

/-- The abscissae increase. -/
abbrev Ascending (K : List (Knot ℝ)) : Prop := K.IsChain fun a b => a.x < b.x

theorem glued_increasing {G : Knot ℝ → Knot ℝ → List ℝ} {K : List (Knot ℝ)} (h : Ascending K) : Increasing (gluedBy G K) := by
  induction K with
  | nil => trivial
  | cons a K ih =>
    cases K with
    | nil => trivial
    | cons b K =>
      cases K with
      | nil => trivial
      | cons c K =>
        rw [Ascending, List.isChain_cons_cons] at h
        exact ⟨h.1, ih h.2⟩

theorem glued_joined {G : Knot ℝ → Knot ℝ → List ℝ} {V : Knot ℝ → ℝ} (h0 : ∀ a b, polyEval (G a b) 0 = V a)
    (h1 : ∀ a b : Knot ℝ, a.x < b.x → polyEval (G a b) (b.x - a.x) = V b) {K : List (Knot ℝ)} (h : Ascending K) : Joined (gluedBy G K) := by
  induction K with
  | nil => trivial
  | cons a K ih =>
    cases K with
    | nil => trivial
    | cons b K =>
      cases K with
      | nil => trivial
      | cons c K =>
        rw [Ascending, List.isChain_cons_cons] at h
        exact ⟨(h1 a b h.1).trans (h0 b c).symm, ih h.2⟩

/-- Between two neighbouring knots the value is that of their piece. -/
theorem glued_eval {G : Knot ℝ → Knot ℝ → List ℝ} {V : Knot ℝ → ℝ} (h0 : ∀ a b, polyEval (G a b) 0 = V a)
    (h1 : ∀ a b : Knot ℝ, a.x < b.x → polyEval (G a b) (b.x - a.x) = V b) {K : List (Knot ℝ)} (h : Ascending K) {a b : Knot ℝ}
    (hab : [a, b] <:+: K) {x : ℝ} (hx : x ∈ Set.Icc a.x b.x) : eval (gluedBy G K) x = polyEval (G a b) (x - a.x) := by
  induction K with
  | nil => simp at hab
  | cons k K ih =>
    cases K with
    | nil => have := hab.length_le; simp at this
    | cons k2 K =>
      have h' := h
      rw [Ascending, List.isChain_cons_cons] at h'
      rw [List.infix_cons_iff] at hab
      rcases hab with hp | hi
      · rw [List.cons_prefix_cons] at hp
        obtain ⟨rfl, hp⟩ := hp
        rw [List.cons_prefix_cons] at hp
        obtain ⟨rfl, -⟩ := hp
        cases K with
        | nil => simp [gluedBy, eval]
        | cons c K =>
          rw [gluedBy, gluedBy, eval_cons2]
          split_ifs with hb
          · have hxb : x = b.x := le_antisymm hx.2 hb
            have hi : Increasing ((b.x, G b c) :: gluedBy G (c :: K)) := glued_increasing (K := b :: c :: K) h'.2
            rw [hxb, eval_first _ _ _ hi, h0, h1 a b h'.1]
          · rfl
      · have ka : k2.x ≤ a.x := by
          have hmem : a ∈ k2 :: K := hi.subset (by simp)
          have hpw : (k2 :: K).Pairwise fun a b => a.x < b.x := by
            have : IsTrans (Knot ℝ) fun a b => a.x < b.x := ⟨fun a b c h1 h2 => lt_trans h1 h2⟩
            exact List.isChain_iff_pairwise.1 h'.2
          rcases List.mem_cons.1 hmem with rfl | hm
          · exact le_refl _
          · exact ((List.pairwise_cons.1 hpw).1 a hm).le
        cases K with
        | nil => have := hi.length_le; simp at this
        | cons c K =>
          have := ih h'.2 hi
          rw [gluedBy] at this
          rw [gluedBy, gluedBy, eval_cons2, if_pos (ka.trans hx.1), this]

/-! ### The knots of a table -/

section generic
variable {α : Type} [Add α] [Sub α] [Mul α] [Div α] [Neg α] [PyLit α] [PyCmp α]

theorem later_points (a b c : α × α) (rest : List (α × α)) : (later a b c rest).map (fun k => (k.x, k.y)) = c :: rest := by
  induction rest generalizing a b c with
  | nil => rfl
  | cons e rest ih => simp [later, ih]

/-- The knots are the points of the table. -/
theorem knots_points (pts : List (α × α)) (h : 2 ≤ pts.length) : (knots pts).map (fun k => (k.x, k.y)) = pts := by
  match pts, h with
  | [a, b], _ => rfl
  | a :: b :: c :: rest, _ => simp [knots, later_points]

end generic

/-- Neighbouring knots: increasing abscissae and limited slopes. -/
def Neighbours (a b : Knot ℝ) : Prop := a.x < b.x ∧ Lim (rise a b) a.d ∧ Lim (rise a b) b.d

private theorem later_lim (a b c : ℝ × ℝ) (rest : List (ℝ × ℝ)) (d : ℝ) (h : (a :: b :: c :: rest).IsChain fun p q => p.1 < q.1)
    (hd : Lim (chord b c) d) : (⟨b.1, b.2, d⟩ :: later a b c rest).IsChain Neighbours := by
  induction rest generalizing a b c d with
  | nil =>
    simp only [List.isChain_cons_cons, List.isChain_singleton, and_true] at h
    simp only [later, List.isChain_cons_cons, List.isChain_singleton, and_true]
    exact ⟨h.2, hd, edgeCase_lim _ _ (by simp only [len]; linarith) (by simp only [len]; linarith)⟩
  | cons e rest ih =>
    have h' := h
    simp only [List.isChain_cons_cons] at h
    have hl := innerSlope_lim (chord b c) (chord c e) (h0 := len b c) (h1 := len c e) (by simp only [len]; linarith)
      (by simp only [len]; linarith)
    rw [later, List.isChain_cons_cons]
    refine ⟨⟨h.2.1, hd, hl.1⟩, ih b c e _ ?_ hl.2⟩
    rw [List.isChain_cons_cons] at h'
    exact h'.2

theorem knots_neighbours (pts : List (ℝ × ℝ)) (h : pts.IsChain fun p q => p.1 < q.1) : (knots pts).IsChain Neighbours := by
  match pts with
  | [] => exact .nil
  | [a] => exact .nil
  | [a, b] =>
    simp only [List.isChain_cons_cons, List.isChain_singleton, and_true] at h
    simp only [knots, List.isChain_cons_cons, List.isChain_singleton, and_true]
    exact ⟨h, Lim.self _, Lim.self _⟩
  | a :: b :: c :: rest =>
    have h' := h
    simp only [List.isChain_cons_cons] at h
    have hl := innerSlope_lim (chord a b) (chord b c) (h0 := len a b) (h1 := len b c) (by simp only [len]; linarith)
      (by simp only [len]; linarith)
    rw [knots, List.isChain_cons_cons]
    exact ⟨⟨h.1, edgeCase_lim _ _ (by simp only [len]; linarith) (by simp only [len]; linarith), hl.1⟩, later_lim a b c rest _ h' hl.2⟩

theorem knots_ascending {pts : List (ℝ × ℝ)} (h : pts.IsChain fun p q => p.1 < q.1) : Ascending (knots pts) :=
  (knots_neighbours pts h).imp fun _ _ h => h.1

/-- Neighbouring points of the table come from neighbouring knots. -/
theorem knots_infix {pts : List (ℝ × ℝ)} (hl : 2 ≤ pts.length) {p q : ℝ × ℝ} (h : [p, q] <:+: pts) :
    ∃ a b : Knot ℝ, [a, b] <:+: knots pts ∧ (a.x, a.y) = p ∧ (b.x, b.y) = q := by
  obtain ⟨l, r, hlr⟩ := h
  have := knots_points pts hl
  rw [← hlr, List.append_assoc] at this
  obtain ⟨l1, l2, e1, -, e3⟩ := List.map_eq_append_iff.1 this
  obtain ⟨l3, l4, e4, e5, -⟩ := List.map_eq_append_iff.1 e3
  match l3, e5 with
  | [a, b], e5 =>
    simp only [List.map_cons, List.map_nil, List.cons.injEq, and_true] at e5
    exact ⟨a, b, ⟨l1, l4, by rw [← hlr, List.append_assoc l, e1, e4]; simp⟩, e5.1, e5.2⟩

/-- Neighbours in a chain satisfy its relation. -/
theorem chain_infix {α : Type} {R : α → α → Prop} {l : List α} (h : l.IsChain R) {a b : α} (hab : [a, b] <:+: l) : R a b := by
  have := h.infix hab
  simpa using this

/-- Every point of a list of at least two has a neighbour. -/
theorem mem_infix {α : Type} {l : List α} (hl : 2 ≤ l.length) {a : α} (ha : a ∈ l) : (∃ b, [a, b] <:+: l) ∨ ∃ b, [b, a] <:+: l := by
  obtain ⟨s, t, rfl⟩ := List.append_of_mem ha
  cases t with
  | cons b t => exact .inl ⟨b, s, t, by simp⟩
  | nil =>
    rcases List.eq_nil_or_concat s with rfl | ⟨s, b, rfl⟩
    · simp at hl
    · exact .inr ⟨b, s, [], by simp⟩

end IBL.Pchip
