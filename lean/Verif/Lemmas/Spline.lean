import Verif.Spec.Spline
import Mathlib.Tactic.Ring
import Mathlib.Tactic.FieldSimp
import Mathlib.Tactic.LinearCombination
import Mathlib.Data.Real.Basic

/-!
Computing the not-a-knot spline of a rational table exactly ("shooting": a segment is determined by its points and by slope and curvature at
its left end, which the previous segment gives, so all segments are affine in slope and curvature at the first point), and the proof that the
result is the only not-a-knot spline. Nothing here models code of /repo or scipy; it is the tool with which `Props/FitsSpline.lean` finds out
what `Spec/Spline.lean` says about the tables of /repo.
-/

namespace IBL.SplineSolve
open Cubic

/-! ### Segments from slope and curvature at the first point -/

section field
variable {K : Type} [Field K]

def build : K → K → List (K × K) → List (Cubic K)
  | b, c, (x0, y0) :: (x1, y1) :: ps =>
    ⟨y0, b, c, (y1 - y0 - b * (x1 - x0) - c * (x1 - x0) ^ 2) / (x1 - x0) ^ 3⟩ ::
      build (b + 2 * c * (x1 - x0) + 3 * ((y1 - y0 - b * (x1 - x0) - c * (x1 - x0) ^ 2) / (x1 - x0) ^ 3) * (x1 - x0) ^ 2)
        (c + 3 * ((y1 - y0 - b * (x1 - x0) - c * (x1 - x0) ^ 2) / (x1 - x0) ^ 3) * (x1 - x0)) ((x1, y1) :: ps)
  | _, _, _ => []

/-- The conditions of `NotAKnot` except those at the ends, by recursion. -/
def Chain : List (K × K) → List (Cubic K) → Prop
  | [_], [] => True
  | (x0, y0) :: (x1, y1) :: ps, q :: qs => q.value 0 = y0 ∧ q.value (x1 - x0) = y1 ∧
      (∀ q', qs[0]? = some q' → q.slope (x1 - x0) = q'.slope 0 ∧ q.curv (x1 - x0) = q'.curv 0) ∧ Chain ((x1, y1) :: ps) qs
  | _, _ => False

/-- Neighbouring abscissae differ. -/
def Distinct : List (K × K) → Prop
  | (x0, _) :: (x1, y1) :: ps => x1 ≠ x0 ∧ Distinct ((x1, y1) :: ps)
  | _ => True

theorem chain_of_notAKnot {pts : List (K × K)} {qs : List (Cubic K)} (h : NotAKnot pts qs) : Chain pts qs := by
  obtain ⟨hl, h1, h2, h3, h4, -, -⟩ := h
  induction qs generalizing pts with
  | nil =>
    cases pts with
    | nil => simp at hl
    | cons p pts => cases pts with
      | nil => trivial
      | cons p' pts => simp at hl
  | cons q qs ih =>
    obtain _ | ⟨⟨x0, y0⟩, _ | ⟨⟨x1, y1⟩, pts⟩⟩ := pts
    · simp at hl
    · simp at hl
    · refine ⟨h1 0 _ q rfl rfl, h2 0 (x0, y0) (x1, y1) q rfl rfl rfl, fun q' hq' => ⟨?_, ?_⟩, ?_⟩
      · exact h3 0 (x0, y0) (x1, y1) q q' rfl rfl rfl (by simpa using hq')
      · exact h4 0 (x0, y0) (x1, y1) q q' rfl rfl rfl (by simpa using hq')
      · apply ih
        · simpa using hl
        · exact fun i p q ha hb => h1 (i + 1) p q (by simpa using ha) (by simpa using hb)
        · exact fun i p p' q ha hb hc => h2 (i + 1) p p' q (by simpa using ha) (by simpa using hb) (by simpa using hc)
        · exact fun i p p' q q' ha hb hc hd =>
            h3 (i + 1) p p' q q' (by simpa using ha) (by simpa using hb) (by simpa using hc) (by simpa using hd)
        · exact fun i p p' q q' ha hb hc hd =>
            h4 (i + 1) p p' q q' (by simpa using ha) (by simpa using hb) (by simpa using hc) (by simpa using hd)

theorem notAKnot_of_chain {pts : List (K × K)} {qs : List (Cubic K)} (h : Chain pts qs)
    (hf : ∀ q q' : Cubic K, qs[0]? = some q → qs[1]? = some q' → q.d = q'.d)
    (hl : ∀ q q' : Cubic K, qs.reverse[0]? = some q → qs.reverse[1]? = some q' → q.d = q'.d) : NotAKnot pts qs := by
  suffices hs : qs.length + 1 = pts.length ∧
      (∀ (i : ℕ) (p : K × K) (q : Cubic K), pts[i]? = some p → qs[i]? = some q → q.value 0 = p.2) ∧
      (∀ (i : ℕ) (p p' : K × K) (q : Cubic K), pts[i]? = some p → pts[i + 1]? = some p' → qs[i]? = some q → q.value (p'.1 - p.1) = p'.2) ∧
      (∀ (i : ℕ) (p p' : K × K) (q q' : Cubic K), pts[i]? = some p → pts[i + 1]? = some p' → qs[i]? = some q → qs[i + 1]? = some q' →
        q.slope (p'.1 - p.1) = q'.slope 0 ∧ q.curv (p'.1 - p.1) = q'.curv 0) from
    ⟨hs.1, hs.2.1, hs.2.2.1, fun i p p' q q' a b c d => (hs.2.2.2 i p p' q q' a b c d).1,
      fun i p p' q q' a b c d => (hs.2.2.2 i p p' q q' a b c d).2, hf, hl⟩
  clear hf hl
  induction qs generalizing pts with
  | nil =>
    obtain _ | ⟨p, _ | ⟨p', pts⟩⟩ := pts
    · exact h.elim
    · simp
    · exact h.elim
  | cons q qs ih =>
    obtain _ | ⟨⟨x0, y0⟩, _ | ⟨⟨x1, y1⟩, pts⟩⟩ := pts
    · exact h.elim
    · exact h.elim
    · obtain ⟨a1, a2, a3, a4⟩ := h
      obtain ⟨b0, b1, b2, b3⟩ := ih a4
      refine ⟨by simpa using b0, ?_, ?_, ?_⟩
      · rintro (_ | i) p r h1 h2
        · simp only [List.getElem?_cons_zero, Option.some.injEq] at h1 h2
          rw [← h1, ← h2]; exact a1
        · exact b1 i p r (by simpa using h1) (by simpa using h2)
      · rintro (_ | i) p p' r h1 h2 h3
        · simp only [List.getElem?_cons_zero, Nat.zero_add, List.getElem?_cons_succ, Option.some.injEq] at h1 h2 h3
          rw [← h1, ← h2, ← h3]; exact a2
        · exact b2 i p p' r (by simpa using h1) (by simpa using h2) (by simpa using h3)
      · rintro (_ | i) p p' r r' h1 h2 h3 h4
        · simp only [List.getElem?_cons_zero, Nat.zero_add, List.getElem?_cons_succ, Option.some.injEq] at h1 h2 h3 h4
          rw [← h1, ← h2, ← h3]; exact a3 r' h4
        · exact b3 i p p' r r' (by simpa using h1) (by simpa using h2) (by simpa using h3) (by simpa using h4)

theorem build_of_chain [CharZero K] {pts : List (K × K)} {qs : List (Cubic K)} (hd : Distinct pts) (h : Chain pts qs) (q : Cubic K)
    (hq : qs[0]? = some q) : qs = build q.b q.c pts := by
  induction qs generalizing pts q with
  | nil => simp at hq
  | cons r qs ih =>
    simp only [List.getElem?_cons_zero, Option.some.injEq] at hq
    subst hq
    obtain _ | ⟨⟨x0, y0⟩, _ | ⟨⟨x1, y1⟩, pts⟩⟩ := pts
    · exact h.elim
    · exact h.elim
    · obtain ⟨a1, a2, a3, a4⟩ := h
      have hne : x1 - x0 ≠ 0 := sub_ne_zero.2 hd.1
      have ha : r.a = y0 := by simpa [value] using a1
      have hdd : (y1 - y0 - r.b * (x1 - x0) - r.c * (x1 - x0) ^ 2) / (x1 - x0) ^ 3 = r.d := by
        rw [div_eq_iff (pow_ne_zero _ hne)]
        simp only [value, ha] at a2
        linear_combination -a2
      have hr : r = ⟨y0, r.b, r.c, r.d⟩ := by rw [← ha]
      simp only [build, hdd]
      rw [← hr]
      congr 1
      cases qs with
      | nil =>
        cases pts with
        | nil => rfl
        | cons p pts => exact a4.elim
      | cons r' qs =>
        have := ih hd.2 a4 r' rfl
        obtain ⟨s1, s2⟩ := a3 r' rfl
        have e1 : r'.b = r.b + 2 * r.c * (x1 - x0) + 3 * r.d * (x1 - x0) ^ 2 := by
          simp only [slope] at s1; linear_combination -s1
        have e2 : r'.c = r.c + 3 * r.d * (x1 - x0) := by
          simp only [curv] at s2
          have h2 : (2:K) ≠ 0 := by exact_mod_cast (Nat.cast_ne_zero (R := K)).2 (two_ne_zero)
          apply mul_left_cancel₀ h2
          linear_combination -s2
        rw [this, e1, e2]

theorem build_chain {pts : List (K × K)} (hd : Distinct pts) (hne : pts ≠ []) (b c : K) : Chain pts (build b c pts) ∧
    ∀ q, (build b c pts)[0]? = some q → q.b = b ∧ q.c = c := by
  induction pts generalizing b c with
  | nil => exact absurd rfl hne
  | cons p pts ih =>
    obtain ⟨x0, y0⟩ := p
    cases pts with
    | nil => exact ⟨trivial, by simp [build]⟩
    | cons p' pts =>
      obtain ⟨x1, y1⟩ := p'
      have hx : x1 - x0 ≠ 0 := sub_ne_zero.2 hd.1
      simp only [build]
      set d := (y1 - y0 - b * (x1 - x0) - c * (x1 - x0) ^ 2) / (x1 - x0) ^ 3 with hdd
      obtain ⟨i1, i2⟩ := ih hd.2 (by simp) (b + 2 * c * (x1 - x0) + 3 * d * (x1 - x0) ^ 2) (c + 3 * d * (x1 - x0))
      have hd' : d * (x1 - x0) ^ 3 = y1 - y0 - b * (x1 - x0) - c * (x1 - x0) ^ 2 := by
        rw [hdd, div_mul_cancel₀ _ (pow_ne_zero _ hx)]
      refine ⟨⟨by simp [value], ?_, ?_, i1⟩, ?_⟩
      · simp only [value]; linear_combination hd'
      · intro q' hq'
        obtain ⟨e1, e2⟩ := i2 q' hq'
        constructor
        · simp only [slope, e1]; ring
        · simp only [curv, e2]; ring
      · intro q hq
        simp only [List.getElem?_cons_zero, Option.some.injEq] at hq
        rw [← hq]; exact ⟨rfl, rfl⟩

end field

/-! ### Affine forms in the two unknowns -/

structure Aff where
  k0 : ℚ
  k1 : ℚ
  k2 : ℚ

namespace Aff
variable {K : Type} [Field K] [CharZero K]

def at' (f : Aff) (u v : K) : K := f.k0 + f.k1 * u + f.k2 * v

end Aff

/-- One segment: `d` and slope and curvature parameter at its right end, as affine forms. -/
def stepD (b c : Aff) (h dy : ℚ) : Aff :=
  ⟨(dy - b.k0 * h - c.k0 * (h * h)) / (h * h * h), (-b.k1 * h - c.k1 * (h * h)) / (h * h * h), (-b.k2 * h - c.k2 * (h * h)) / (h * h * h)⟩
def stepB (b c d : Aff) (h : ℚ) : Aff :=
  ⟨b.k0 + 2 * c.k0 * h + 3 * d.k0 * (h * h), b.k1 + 2 * c.k1 * h + 3 * d.k1 * (h * h), b.k2 + 2 * c.k2 * h + 3 * d.k2 * (h * h)⟩
def stepC (c d : Aff) (h : ℚ) : Aff := ⟨c.k0 + 3 * d.k0 * h, c.k1 + 3 * d.k1 * h, c.k2 + 3 * d.k2 * h⟩

def buildA : Aff → Aff → List (ℚ × ℚ) → List (Cubic Aff)
  | b, c, (x0, y0) :: (x1, y1) :: ps =>
    ⟨⟨y0, 0, 0⟩, b, c, stepD b c (x1 - x0) (y1 - y0)⟩ ::
      buildA (stepB b c (stepD b c (x1 - x0) (y1 - y0)) (x1 - x0)) (stepC c (stepD b c (x1 - x0) (y1 - y0)) (x1 - x0)) ((x1, y1) :: ps)
  | _, _, _ => []

section cast
variable {K : Type} [Field K] [CharZero K]

/-- The segments for given slope and curvature parameter at the first point. -/
def segAt (u v : K) (q : Cubic Aff) : Cubic K := ⟨q.a.at' u v, q.b.at' u v, q.c.at' u v, q.d.at' u v⟩

def castPts (K : Type) [Field K] (pts : List (ℚ × ℚ)) : List (K × K) := pts.map fun p => ((p.1 : K), (p.2 : K))

theorem buildA_at (u v : K) (b c : Aff) (pts : List (ℚ × ℚ)) :
    (buildA b c pts).map (segAt u v) = build (b.at' u v) (c.at' u v) (castPts K pts) := by
  induction pts generalizing b c with
  | nil => rfl
  | cons p pts ih =>
    obtain ⟨x0, y0⟩ := p
    cases pts with
    | nil => rfl
    | cons p' pts =>
      obtain ⟨x1, y1⟩ := p'
      have ed : (stepD b c (x1 - x0) (y1 - y0)).at' u v = ((y1 : K) - y0 - b.at' u v * (x1 - x0) - c.at' u v * (x1 - x0) ^ 2) /
          ((x1 : K) - x0) ^ 3 := by
        simp only [stepD, Aff.at']
        push_cast
        ring
      simp only [buildA, List.map_cons, ih, castPts, build]
      rw [← ed]
      congr 1
      · simp only [segAt, Aff.at', Cubic.mk.injEq, and_true]
        push_cast; ring
      · congr 1
        · simp only [stepB, Aff.at']; push_cast; ring
        · simp only [stepC, Aff.at']; push_cast; ring

end cast

/-- All segments as affine forms in slope and curvature parameter at the first point. -/
def forms (pts : List (ℚ × ℚ)) : List (Cubic Aff) := buildA ⟨0, 1, 0⟩ ⟨0, 0, 1⟩ pts

/-- The difference of the third derivatives of the first two segments of a list. -/
def jump : List (Cubic Aff) → Option Aff
  | q :: q' :: _ => some ⟨q.d.k0 - q'.d.k0, q.d.k1 - q'.d.k1, q.d.k2 - q'.d.k2⟩
  | _ => none

/-- The spline, if there is exactly one. -/
def solve (pts : List (ℚ × ℚ)) : Option (List (Cubic ℚ)) :=
  match jump (forms pts), jump (forms pts).reverse with
  | some e, some f =>
    if e.k1 * f.k2 - e.k2 * f.k1 = 0 then none
    else some ((forms pts).map (segAt ((e.k2 * f.k0 - e.k0 * f.k2) / (e.k1 * f.k2 - e.k2 * f.k1))
      ((e.k0 * f.k1 - e.k1 * f.k0) / (e.k1 * f.k2 - e.k2 * f.k1))))
  | _, _ => none

def castSeg (K : Type) [Field K] (q : Cubic ℚ) : Cubic K := ⟨q.a, q.b, q.c, q.d⟩

section sound
variable {K : Type} [Field K] [CharZero K]

private theorem jump_at (u v : K) (l : List (Cubic Aff)) (e : Aff) (h : jump l = some e) :
    (∀ q q' : Cubic K, (l.map (segAt u v))[0]? = some q → (l.map (segAt u v))[1]? = some q' → q.d = q'.d) ↔ e.at' u v = 0 := by
  obtain _ | ⟨q, _ | ⟨q', l⟩⟩ := l
  · cases h
  · cases h
  · simp only [jump, Option.some.injEq] at h
    subst h
    simp only [List.map_cons, List.getElem?_cons_zero, List.getElem?_cons_succ, Option.some.injEq]
    constructor
    · intro h
      have h := h _ _ rfl rfl
      simp only [segAt, Aff.at'] at h ⊢
      push_cast
      linear_combination h
    · rintro h _ _ rfl rfl
      simp only [segAt, Aff.at'] at h ⊢
      push_cast at h
      linear_combination h

private theorem distinct_cast (pts : List (ℚ × ℚ)) (h : Distinct pts) : Distinct (castPts K pts) := by
  induction pts with
  | nil => trivial
  | cons p pts ih =>
    obtain ⟨x0, y0⟩ := p
    cases pts with
    | nil => trivial
    | cons p' pts =>
      obtain ⟨x1, y1⟩ := p'
      exact ⟨fun e => h.1 (by exact_mod_cast e), ih h.2⟩

private theorem cast_segAt (u v : ℚ) (q : Cubic Aff) : castSeg K (segAt u v q) = segAt (u : K) (v : K) q := by
  simp only [castSeg, segAt, Aff.at', Rat.cast_eq_id, id_eq]
  push_cast
  rfl

/-- The computed segments are the not-a-knot spline, and nothing else is. -/
theorem solve_iff (pts : List (ℚ × ℚ)) (hd : Distinct pts) (qs : List (Cubic ℚ)) (h : solve pts = some qs) (rs : List (Cubic K)) :
    NotAKnot (castPts K pts) rs ↔ rs = qs.map (castSeg K) := by
  unfold solve at h
  rcases he : jump (forms pts) with _ | e
  · rw [he] at h; cases h
  rcases hf : jump (forms pts).reverse with _ | f
  · rw [he, hf] at h; cases h
  rw [he, hf] at h
  simp only at h
  by_cases hD : e.k1 * f.k2 - e.k2 * f.k1 = 0
  · rw [if_pos hD] at h; cases h
  rw [if_neg hD, Option.some.injEq] at h
  have hmap : ∀ u v : K, (forms pts).map (segAt u v) = build u v (castPts K pts) := by
    intro u v
    rw [forms, buildA_at]
    congr 1 <;> simp [Aff.at']
  have hrev : ∀ u v : K, ((forms pts).map (segAt u v)).reverse = (forms pts).reverse.map (segAt u v) := fun u v => by simp
  have hne : castPts K pts ≠ [] := by
    intro h0
    have : pts = [] := by simpa [castPts] using h0
    subst this; cases he
  have hDK : ((e.k1 : K) * f.k2 - e.k2 * f.k1) ≠ 0 := by exact_mod_cast hD
  set D := e.k1 * f.k2 - e.k2 * f.k1 with hDD
  have hqs : qs.map (castSeg K) = (forms pts).map
      (segAt (((e.k2 * f.k0 - e.k0 * f.k2) / D : ℚ) : K) (((e.k0 * f.k1 - e.k1 * f.k0) / D : ℚ) : K)) := by
    rw [← h, List.map_map]
    apply List.map_congr_left
    intro q _
    exact cast_segAt _ _ q
  have hlin : ∀ u v : K, (e.at' u v = 0 ∧ f.at' u v = 0) ↔
      u = (((e.k2 * f.k0 - e.k0 * f.k2) / D : ℚ) : K) ∧ v = (((e.k0 * f.k1 - e.k1 * f.k0) / D : ℚ) : K) := by
    intro u v
    simp only [Aff.at']
    push_cast
    have hDK' : (D : K) ≠ 0 := by rw [hDD]; push_cast; exact hDK
    rw [eq_div_iff hDK', eq_div_iff hDK']
    have hDc : (D : K) = e.k1 * f.k2 - e.k2 * f.k1 := by rw [hDD]; push_cast; rfl
    rw [hDc] at hDK' ⊢
    constructor
    · rintro ⟨h1, h2⟩
      constructor
      · linear_combination (f.k2 : K) * h1 - (e.k2 : K) * h2
      · linear_combination (e.k1 : K) * h2 - (f.k1 : K) * h1
    · rintro ⟨h1, h2⟩
      constructor
      · apply mul_left_cancel₀ hDK'
        linear_combination (e.k1 : K) * h1 + (e.k2 : K) * h2
      · apply mul_left_cancel₀ hDK'
        linear_combination (f.k1 : K) * h1 + (f.k2 : K) * h2
  constructor
  · intro hn
    have hch := chain_of_notAKnot hn
    obtain _ | ⟨r, rs⟩ := rs
    · exfalso
      have hl := hn.length
      simp only [castPts, List.length_nil, List.length_map] at hl
      obtain _ | ⟨p, _ | ⟨p', pts⟩⟩ := pts
      · cases he
      · cases he
      · simp at hl
    · have hb := build_of_chain (distinct_cast pts hd) hch r rfl
      rw [← hmap] at hb
      have h1 := (jump_at r.b r.c _ e he).1 (by rw [← hb]; exact hn.first)
      have h2 := (jump_at r.b r.c _ f hf).1 (by rw [← hrev, ← hb]; exact hn.last)
      obtain ⟨h3, h4⟩ := (hlin r.b r.c).1 ⟨h1, h2⟩
      rw [hb, hqs, h3, h4]
  · intro hr
    rw [hqs] at hr
    obtain ⟨h1, h2⟩ := (hlin _ _).2 ⟨rfl, rfl⟩
    rw [hr]
    refine notAKnot_of_chain ?_ ((jump_at _ _ _ e he).2 h1) (by rw [hrev]; exact (jump_at _ _ _ f hf).2 h2)
    rw [hmap]
    exact (build_chain (distinct_cast pts hd) hne _ _).1

end sound

end IBL.SplineSolve
