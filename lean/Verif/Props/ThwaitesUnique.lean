import Mathlib.Analysis.Calculus.ContDiff.RCLike
import Mathlib.Analysis.Calculus.ContDiff.Operations
import Mathlib.Analysis.SpecialFunctions.Pow.Deriv
import Mathlib.Analysis.SpecialFunctions.Pow.NNReal
import Verif.Props.Positivity

/-!
C82: the nonlinear Thwaites equation determines its solution, for all built-in fits.
-/

namespace IBL
open Fits

/-- Lipschitz continuity on an interval. -/
def LipOn (h : ℝ → ℝ) (p q : ℝ) : Prop := ∃ K, 0 ≤ K ∧ ∀ x ∈ Set.Icc p q, ∀ y ∈ Set.Icc p q, |h x - h y| ≤ K * |x - y|

theorem smooth_lip {h : ℝ → ℝ} {p q : ℝ} (hs : ContDiffOn ℝ 1 h (Set.Icc p q)) : LipOn h p q := by
  obtain ⟨K, hK⟩ := hs.exists_lipschitzOnWith one_ne_zero (convex_Icc p q) isCompact_Icc
  refine ⟨K, K.2, fun x hx y hy => ?_⟩
  have := hK.dist_le_mul x hx y hy
  rwa [Real.dist_eq, Real.dist_eq] at this

theorem LipOn.comp {h c : ℝ → ℝ} {p q p' q' : ℝ} (hl : LipOn h p q) (hc : ∀ x ∈ Set.Icc p' q', c x ∈ Set.Icc p q)
    (h1 : ∀ x y, |c x - c y| ≤ |x - y|) : LipOn (fun x => h (c x)) p' q' := by
  obtain ⟨K, hK, H⟩ := hl
  exact ⟨K, hK, fun x hx y hy => (H _ (hc x hx) _ (hc y hy)).trans (mul_le_mul_of_nonneg_left (h1 x y) hK)⟩

/-- What makes the equation well-posed for positive solutions: on bounded ranges the slope of the right hand side is bounded above for
`lambda >= 0` and below for `lambda <= 0`. -/
def OneSided (m : Fits ℝ) : Prop :=
  ∀ B, 0 ≤ B → ∃ L, 0 ≤ L ∧ (∀ l1 l2, 0 ≤ l1 → l1 ≤ l2 → l2 ≤ B → m.fAt l2 - m.fAt l1 ≤ L * (l2 - l1)) ∧
    ∀ l1 l2, -B ≤ l1 → l1 ≤ l2 → l2 ≤ 0 → m.fAt l1 - m.fAt l2 ≤ L * (l2 - l1)

private theorem product_lip {h : ℝ → ℝ} {B K : ℝ} (hK : 0 ≤ K) {p q : ℝ} (hp : -B ≤ p) (hq : q ≤ B) (h0 : (0:ℝ) ∈ Set.Icc p q)
    (H : ∀ x ∈ Set.Icc p q, ∀ y ∈ Set.Icc p q, |h x - h y| ≤ K * |x - y|) (l1 l2 : ℝ) (h1 : l1 ∈ Set.Icc p q) (h2 : l2 ∈ Set.Icc p q)
    (h12 : l1 ≤ l2) : |l2 * h l2 - l1 * h l1| ≤ (2 * (B * K) + |h 0|) * (l2 - l1) := by
  have hB : ∀ l ∈ Set.Icc p q, |l| ≤ B := fun l hl => abs_le.2 ⟨by linarith [hl.1], by linarith [hl.2]⟩
  have hb : |h l1| ≤ B * K + |h 0| := by
    have a1 : |h l1| ≤ |h l1 - h 0| + |h 0| := by have := abs_add_le (h l1 - h 0) (h 0); simpa using this
    have a2 := H l1 h1 0 h0
    rw [sub_zero] at a2
    have a3 := mul_le_mul_of_nonneg_left (hB l1 h1) hK
    nlinarith
  have e : l2 * h l2 - l1 * h l1 = l2 * (h l2 - h l1) + h l1 * (l2 - l1) := by ring
  rw [e]
  refine (abs_add_le _ _).trans ?_
  rw [abs_mul, abs_mul, abs_of_nonneg (sub_nonneg.2 h12)]
  have b1 := H l2 h2 l1 h1
  rw [abs_of_nonneg (sub_nonneg.2 h12)] at b1
  have b2 : |l2| * |h l2 - h l1| ≤ B * (K * (l2 - l1)) :=
    mul_le_mul (hB l2 h2) b1 (abs_nonneg _) ((abs_nonneg _).trans (hB l2 h2))
  have b3 := mul_le_mul_of_nonneg_right hb (sub_nonneg.2 h12)
  nlinarith

/-- Both sides of zero: the shape factor, and the wall shear, Lipschitz continuous, up to the value of the shape factor at zero. -/
def Sides (m : Fits ℝ) : Prop := ∀ B, 0 ≤ B → (∃ h, LipOn h 0 B ∧ ∀ l ∈ Set.Icc 0 B, l * m.shapeAt l = l * h l) ∧ LipOn m.shearAt 0 B ∧
  (∃ h, LipOn h (-B) 0 ∧ ∀ l ∈ Set.Icc (-B) 0, l * m.shapeAt l = l * h l) ∧ LipOn m.shearAt (-B) 0

/-- Enough for that: on each side of zero a Lipschitz continuous shape factor, and a wall shear that is Lipschitz continuous or, on the
negative side, increasing. -/
private theorem oneSided_of (m : Fits ℝ)
    (H : ∀ B, 0 ≤ B → (∃ h, LipOn h 0 B ∧ ∀ l ∈ Set.Icc 0 B, l * m.shapeAt l = l * h l) ∧ LipOn m.shearAt 0 B ∧
      (∃ h, LipOn h (-B) 0 ∧ ∀ l ∈ Set.Icc (-B) 0, l * m.shapeAt l = l * h l) ∧
      (LipOn m.shearAt (-B) 0 ∨ ∀ l1 l2, l1 ≤ l2 → m.shearAt l1 ≤ m.shearAt l2)) : OneSided m := by
  intro B hB
  obtain ⟨⟨h, ⟨K, hK, hl⟩, he⟩, ⟨S, hS, hs⟩, ⟨h', ⟨K', hK', hl'⟩, he'⟩, hsn⟩ := H B hB
  obtain ⟨S', hS', hs'⟩ : ∃ S', 0 ≤ S' ∧ ∀ l1 ∈ Set.Icc (-B) 0, ∀ l2 ∈ Set.Icc (-B) 0, l1 ≤ l2 → m.shearAt l1 - m.shearAt l2 ≤ S' * (l2 - l1) := by
    rcases hsn with ⟨S', h1, h2⟩ | hmono
    · refine ⟨S', h1, fun l1 m1 l2 m2 h => ?_⟩
      have := (abs_le.1 (h2 l1 m1 l2 m2)).2
      rwa [abs_sub_comm, abs_of_nonneg (sub_nonneg.2 h)] at this
    · exact ⟨0, le_refl _, fun l1 _ l2 _ h => by rw [zero_mul]; linarith [hmono l1 l2 h]⟩
  refine ⟨2 * (S + S' + (2 * (B * K) + |h 0|) + (2 * (B * K') + |h' 0|) + 2), by positivity, fun l1 l2 a1 a2 a3 => ?_, fun l1 l2 a1 a2 a3 => ?_⟩
  · have m1 : l1 ∈ Set.Icc 0 B := ⟨a1, a2.trans a3⟩
    have m2 : l2 ∈ Set.Icc 0 B := ⟨a1.trans a2, a3⟩
    have p1 := product_lip hK (by linarith) (le_refl B) ⟨le_refl _, hB⟩ hl l1 l2 m1 m2 a2
    have p2 := (abs_le.1 (hs l2 m2 l1 m1)).2
    rw [abs_of_nonneg (sub_nonneg.2 a2)] at p2
    have p3 := (abs_le.1 p1).1
    rw [← he l1 m1, ← he l2 m2] at p3
    simp only [fAt, real_lit]
    push_cast
    have q1 : 0 ≤ S' * (l2 - l1) := mul_nonneg hS' (sub_nonneg.2 a2)
    have q2 : 0 ≤ (2 * (B * K') + |h' 0|) * (l2 - l1) := mul_nonneg (by positivity) (sub_nonneg.2 a2)
    nlinarith
  · have m1 : l1 ∈ Set.Icc (-B) 0 := ⟨a1, a2.trans a3⟩
    have m2 : l2 ∈ Set.Icc (-B) 0 := ⟨a1.trans a2, a3⟩
    have p1 := product_lip hK' (le_refl (-B)) (by linarith) ⟨by linarith, le_refl _⟩ hl' l1 l2 m1 m2 a2
    have p2 := hs' l1 m1 l2 m2 a2
    have p3 := (abs_le.1 p1).2
    rw [← he' l1 m1, ← he' l2 m2] at p3
    simp only [fAt, real_lit]
    push_cast
    have q1 : 0 ≤ S * (l2 - l1) := mul_nonneg hS (sub_nonneg.2 a2)
    have q2 : 0 ≤ (2 * (B * K) + |h 0|) * (l2 - l1) := mul_nonneg (by positivity) (sub_nonneg.2 a2)
    nlinarith

private theorem oneSided_of_sides {m : Fits ℝ} (h : Sides m) : OneSided m :=
  oneSided_of m fun B hB => let ⟨p, q, r, s⟩ := h B hB; ⟨p, q, r, .inl s⟩

/-- Then the right hand side is Lipschitz continuous on every bounded range. -/
theorem Sides.lip {m : Fits ℝ} (h : Sides m) {B : ℝ} (hB : 0 ≤ B) : LipOn m.fAt (-B) B := by
  obtain ⟨⟨h, ⟨K, hK, hl⟩, he⟩, ⟨S, hS, hs⟩, ⟨h', ⟨K', hK', hl'⟩, he'⟩, ⟨S', hS', hs'⟩⟩ := h B hB
  have h1 : ∀ l1 l2, 0 ≤ l1 → l1 ≤ l2 → l2 ≤ B → |m.fAt l2 - m.fAt l1| ≤ 2 * (S + (2 * (B * K) + |h 0|) + 2) * (l2 - l1) := by
    intro l1 l2 a1 a2 a3
    have m1 : l1 ∈ Set.Icc 0 B := ⟨a1, a2.trans a3⟩
    have m2 : l2 ∈ Set.Icc 0 B := ⟨a1.trans a2, a3⟩
    have p1 := abs_le.1 (product_lip hK (by linarith) (le_refl B) ⟨le_refl _, hB⟩ hl l1 l2 m1 m2 a2)
    have p2 := abs_le.1 (hs l2 m2 l1 m1)
    rw [abs_of_nonneg (sub_nonneg.2 a2)] at p2
    rw [← he l1 m1, ← he l2 m2] at p1
    simp only [fAt, real_lit]
    push_cast
    exact abs_le.2 ⟨by nlinarith, by nlinarith⟩
  have h2 : ∀ l1 l2, -B ≤ l1 → l1 ≤ l2 → l2 ≤ 0 → |m.fAt l2 - m.fAt l1| ≤ 2 * (S' + (2 * (B * K') + |h' 0|) + 2) * (l2 - l1) := by
    intro l1 l2 a1 a2 a3
    have m1 : l1 ∈ Set.Icc (-B) 0 := ⟨a1, a2.trans a3⟩
    have m2 : l2 ∈ Set.Icc (-B) 0 := ⟨a1.trans a2, a3⟩
    have p1 := abs_le.1 (product_lip hK' (le_refl (-B)) (by linarith) ⟨by linarith, le_refl _⟩ hl' l1 l2 m1 m2 a2)
    have p2 := abs_le.1 (hs' l2 m2 l1 m1)
    rw [abs_of_nonneg (sub_nonneg.2 a2)] at p2
    rw [← he' l1 m1, ← he' l2 m2] at p1
    simp only [fAt, real_lit]
    push_cast
    exact abs_le.2 ⟨by nlinarith, by nlinarith⟩
  have hP : 0 ≤ 2 * (S + (2 * (B * K) + |h 0|) + 2) := by positivity
  have hN : 0 ≤ 2 * (S' + (2 * (B * K') + |h' 0|) + 2) := by positivity
  generalize 2 * (S + (2 * (B * K) + |h 0|) + 2) = P at h1 hP
  generalize 2 * (S' + (2 * (B * K') + |h' 0|) + 2) = N at h2 hN
  have main : ∀ x y, -B ≤ x → x ≤ y → y ≤ B → |m.fAt y - m.fAt x| ≤ (P + N) * (y - x) := by
    intro x y a1 a2 a3
    have hd := sub_nonneg.2 a2
    rcases le_total 0 x with c1 | c1
    · exact (h1 x y c1 a2 a3).trans (mul_le_mul_of_nonneg_right (by linarith) hd)
    · rcases le_total y 0 with c2 | c2
      · exact (h2 x y a1 a2 c2).trans (mul_le_mul_of_nonneg_right (by linarith) hd)
      · have e1 := h1 0 y (le_refl _) c2 a3
        have e2 := h2 x 0 a1 c1 (le_refl _)
        have e3 := abs_add_le (m.fAt y - m.fAt 0) (m.fAt 0 - m.fAt x)
        rw [sub_add_sub_cancel] at e3
        nlinarith [mul_nonneg hP (neg_nonneg.2 c1), mul_nonneg hN c2]
  refine ⟨P + N, by linarith, fun x hx y hy => ?_⟩
  rcases le_total x y with c | c
  · rw [abs_sub_comm, abs_sub_comm x, abs_of_nonneg (sub_nonneg.2 c)]; exact main x y hx.1 c hy.2
  · rw [abs_of_nonneg (sub_nonneg.2 c)]; exact main y x hy.1 c hx.2

private theorem lip_max (a : ℝ) (x y : ℝ) : |max x a - max y a| ≤ |x - y| := abs_max_sub_max_le_abs x y a
theorem lip_clip (a b : ℝ) (x y : ℝ) : |min (max x a) b - min (max y a) b| ≤ |x - y| :=
  (abs_min_sub_min_le_max _ _ _ _).trans (by simpa using lip_max a x y)

theorem sides_spline {cs : CubicSpline ℝ} (hcs : TableSplines cs) : Sides (spline cs) := by
  obtain ⟨K, hK, H⟩ := spline_lipschitz hcs
  have h1 : ∀ p q, LipOn (spline cs).shearAt p q := fun p q => ⟨K, hK, fun x _ y _ => (H y x).1⟩
  have h2 : ∀ p q, LipOn (spline cs).shapeAt p q := fun p q => ⟨K, hK, fun x _ y _ => (H y x).2⟩
  exact fun B _ => ⟨⟨_, h2 _ _, fun _ _ => rfl⟩, h1 _ _, ⟨_, h2 _ _, fun _ _ => rfl⟩, h1 _ _⟩

theorem sides_drela : Sides drela := by
  have hm : ∀ B : ℝ, 0 ≤ B → ∀ x ∈ Set.Icc (-B) B, max x (-9/100) ∈ Set.Icc (-9/100) B := fun B hB x hx =>
    ⟨le_max_right _ _, max_le hx.2 (by linarith)⟩
  have hs : ∀ B : ℝ, 0 ≤ B → LipOn (drela : Fits ℝ).shearAt (-B) B ∧ LipOn (drela : Fits ℝ).shapeAt (-B) B := fun B hB => by
    have e1 : (drela : Fits ℝ).shearAt = fun x => (drela : Fits ℝ).shear (max x (-9/100)) := funext fun x => by rw [shearAt, drela_clip]
    have e2 : (drela : Fits ℝ).shapeAt = fun x => (drela : Fits ℝ).shape (max x (-9/100)) := funext fun x => by rw [shapeAt, drela_clip]
    rw [e1, e2]
    have hd : ∀ x ∈ Set.Icc (-9/100) B, (x + ((18/100 : ℚ) : ℝ)) * (x + ((18/100 : ℚ) : ℝ)) ≠ 0 := fun x hx => by
      have h0 : (0:ℝ) < x + ((18/100 : ℚ) : ℝ) := by have := hx.1; push_cast; linarith
      positivity
    refine ⟨(smooth_lip ?_).comp (hm B hB) (lip_max _), (smooth_lip ?_).comp (hm B hB) (lip_max _)⟩
    · simp only [drela, real_lit]
      refine ContDiffOn.sub (by fun_prop) (ContDiffOn.div (by fun_prop) (by fun_prop) hd)
    · simp only [drela, real_lit]
      refine ContDiffOn.add (by fun_prop) (ContDiffOn.div (by fun_prop) (by fun_prop) hd)
  have sub : ∀ {h : ℝ → ℝ} {B : ℝ}, 0 ≤ B → LipOn h (-B) B → LipOn h 0 B ∧ LipOn h (-B) 0 := fun hB ⟨K, hK, H⟩ =>
    ⟨⟨K, hK, fun x hx y hy => H x ⟨by linarith [hx.1], hx.2⟩ y ⟨by linarith [hy.1], hy.2⟩⟩,
      ⟨K, hK, fun x hx y hy => H x ⟨hx.1, by linarith [hx.2]⟩ y ⟨hy.1, by linarith [hy.2]⟩⟩⟩
  exact fun B hB => ⟨⟨_, (sub hB (hs B hB).2).1, fun _ _ => rfl⟩, (sub hB (hs B hB).1).1,
    ⟨_, (sub hB (hs B hB).2).2, fun _ _ => rfl⟩, (sub hB (hs B hB).1).2⟩

private theorem oneSided_white : OneSided Fits.white := by
  have hm : ∀ B : ℝ, 0 ≤ B → ∀ x ∈ Set.Icc (-B) B, max x (-9/100) ∈ Set.Icc (-9/100) B := fun B hB x hx =>
    ⟨le_max_right _ _, max_le hx.2 (by linarith)⟩
  have e1 : (Fits.white : Fits ℝ).shearAt = fun x => (Fits.white : Fits ℝ).shear (max x (-9/100)) := funext fun x => by rw [shearAt, white_clip]
  have e2 : (Fits.white : Fits ℝ).shapeAt = fun x => (Fits.white : Fits ℝ).shape (max x (-9/100)) := funext fun x => by rw [shapeAt, white_clip]
  have hs : ∀ B : ℝ, 0 ≤ B → LipOn (Fits.white : Fits ℝ).shapeAt (-B) B := fun B hB => by
    rw [e2]
    refine (smooth_lip ?_).comp (hm B hB) (lip_max _)
    simp only [Fits.white, real_lit]
    fun_prop
  have sub : ∀ {h : ℝ → ℝ} {B : ℝ}, 0 ≤ B → LipOn h (-B) B → LipOn h 0 B ∧ LipOn h (-B) 0 := fun hB ⟨K, hK, H⟩ =>
    ⟨⟨K, hK, fun x hx y hy => H x ⟨by linarith [hx.1], hx.2⟩ y ⟨by linarith [hy.1], hy.2⟩⟩,
      ⟨K, hK, fun x hx y hy => H x ⟨hx.1, by linarith [hx.2]⟩ y ⟨hy.1, by linarith [hy.2]⟩⟩⟩
  refine oneSided_of _ fun B hB => ⟨⟨_, (sub hB (hs B hB)).1, fun _ _ => rfl⟩, ?_, ⟨_, (sub hB (hs B hB)).2, fun _ _ => rfl⟩, .inr ?_⟩
  · rw [e1]
    refine (smooth_lip (p := 0) (q := B) ?_).comp (fun x hx => ?_) (lip_max _)
    · simp only [Fits.white, real_lit, real_pow]
      intro x hx
      have h0 : x + ((9/100 : ℚ) : ℝ) ≠ 0 := by have := hx.1; push_cast; linarith
      exact (((contDiff_id.add contDiff_const).contDiffAt (x := x)).rpow_const_of_ne h0).contDiffWithinAt
    · rw [max_eq_left (by linarith [hx.1])]; exact hx
  · intro l1 l2 h
    rw [e1]
    simp only [Fits.white, real_lit, real_pow]
    have h9 : -9/100 ≤ max l1 (-9/100 : ℝ) := le_max_right _ _
    exact Real.rpow_le_rpow (by push_cast; linarith) (by have := max_le_max h (le_refl (-9/100 : ℝ)); linarith) (by norm_num)

theorem sides_cb : Sides cebeciBradshaw := by
  have e1 : ∀ x, (cebeciBradshaw : Fits ℝ).shearAt x = (cebeciBradshaw : Fits ℝ).shear (min (max x (-1/10)) (1/10)) := fun x => by
    rw [shearAt, cb_clip]
  have e2 : ∀ x, (cebeciBradshaw : Fits ℝ).shapeAt x = (cebeciBradshaw : Fits ℝ).shape (min (max x (-1/10)) (1/10)) := fun x => by
    rw [shapeAt, cb_clip]
  have hpos : ∀ x : ℝ, 0 ≤ x → min (max x (-1/10)) (1/10) ∈ Set.Icc (0:ℝ) (1/10) := fun x hx =>
    ⟨le_min (le_max_of_le_left hx) (by norm_num), min_le_right _ _⟩
  have hneg : ∀ x : ℝ, x ≤ 0 → min (max x (-1/10)) (1/10) ∈ Set.Icc (-1/10 : ℝ) 0 := fun x hx =>
    ⟨le_min (le_max_right _ _) (by norm_num), (min_le_left _ _).trans (max_le hx (by norm_num))⟩
  have c0 : min (max (0:ℝ) (-1/10)) (1/10) = 0 := by norm_num
  have cneg : ∀ x : ℝ, x < 0 → min (max x (-1/10)) (1/10) < (0:ℝ) := fun x hx => lt_of_le_of_lt (min_le_left _ _) (max_lt hx (by norm_num))
  refine fun B hB => ⟨?_, ?_, ?_, ?_⟩
  · refine ⟨fun x => (fun t : ℝ => 261/100 - 375/100 * t + 524/100 * (t * t)) (min (max x (-1/10)) (1/10)),
      LipOn.comp (h := fun t : ℝ => 261/100 - 375/100 * t + 524/100 * (t * t)) (smooth_lip (by fun_prop)) (fun x hx => hpos x hx.1)
        (lip_clip _ _), fun l hl => ?_⟩
    have := (hpos l hl.1).1
    rw [e2]
    simp only [cebeciBradshaw, piecewise0, real_lt, real_ge, real_lit]
    rw [if_neg (by push_cast; linarith), if_pos (by push_cast; exact this)]
    push_cast; ring
  · have : ∀ x ∈ Set.Icc 0 B, (cebeciBradshaw : Fits ℝ).shearAt x =
        (fun t : ℝ => 22/100 + 157/100 * t - 18/10 * (t * t)) (min (max x (-1/10)) (1/10)) := fun x hx => by
      have := (hpos x hx.1).1
      rw [e1]
      simp only [cebeciBradshaw, piecewise0, real_lt, real_ge, real_lit]
      rw [if_neg (by push_cast; linarith), if_pos (by push_cast; exact this)]
      push_cast; ring
    obtain ⟨K, hK, H⟩ := (smooth_lip (h := fun t : ℝ => 22/100 + 157/100 * t - 18/10 * (t * t)) (p := 0) (q := 1/10) (by fun_prop)).comp
      (p' := 0) (q' := B) (fun x hx => hpos x hx.1) (lip_clip _ _)
    exact ⟨K, hK, fun x hx y hy => by rw [this x hx, this y hy]; exact H x hx y hy⟩
  · refine ⟨fun x => (fun t : ℝ => 2088/1000 + 731/10000 / (14/100 + t)) (min (max x (-1/10)) (1/10)),
      LipOn.comp (h := fun t : ℝ => 2088/1000 + 731/10000 / (14/100 + t)) (smooth_lip ?_) (fun x hx => hneg x hx.2) (lip_clip _ _),
      fun l hl => ?_⟩
    · refine ContDiffOn.add (by fun_prop) (ContDiffOn.div (by fun_prop) (by fun_prop) fun x hx => ?_)
      have := hx.1; linarith
    · rcases hl.2.eq_or_lt with h0 | h0
      · rw [h0]; simp
      · rw [e2]
        simp only [cebeciBradshaw, piecewise0, real_lt, real_lit]
        rw [if_pos (by push_cast; exact cneg l h0)]
        push_cast; ring
  · have : ∀ x ∈ Set.Icc (-B) 0, (cebeciBradshaw : Fits ℝ).shearAt x =
        (fun t : ℝ => 22/100 + 1402/1000 * t + 18/1000 * t / (107/1000 + t)) (min (max x (-1/10)) (1/10)) := fun x hx => by
      rw [e1]
      rcases hx.2.eq_or_lt with h0 | h0
      · rw [h0, c0]
        simp only [cebeciBradshaw, piecewise0, real_lt, real_ge, real_lit]
        norm_num
      · simp only [cebeciBradshaw, piecewise0, real_lt, real_lit]
        rw [if_pos (by push_cast; exact cneg x h0)]
        push_cast; ring
    obtain ⟨K, hK, H⟩ := (smooth_lip (h := fun t : ℝ => 22/100 + 1402/1000 * t + 18/1000 * t / (107/1000 + t)) (p := -1/10) (q := 0)
      (ContDiffOn.add (by fun_prop) (ContDiffOn.div (by fun_prop) (by fun_prop) fun x hx => by have := hx.1; linarith))).comp
      (p' := -B) (q' := 0) (fun x hx => hneg x hx.2) (lip_clip _ _)
    exact ⟨K, hK, fun x hx y hy => by rw [this x hx, this y hy]; exact H x hx y hy⟩

theorem builtin_oneSided {m : Fits ℝ} (hm : BuiltIn m) : OneSided m := by
  rcases hm with rfl | rfl | rfl | ⟨cs, hcs, rfl⟩
  · exact oneSided_white
  · exact oneSided_of_sides sides_cb
  · exact oneSided_of_sides sides_drela
  · exact oneSided_of_sides (sides_spline hcs)

/-! ### The equation -/

/-- `G` satisfies the method's equation at `x` up to a residual of at most `eps`: its slope there differs from the right hand side handed to
the integrator by no more than that. -/
def SatisfiesUpTo (o : Obj ℝ) (eps : ℝ) (G : ℝ → ℝ) (x : ℝ) : Prop :=
  ∃ r g, o.rhs x [G x] = .ok [r] ∧ HasDerivAt G g x ∧ |g - r| ≤ eps

/-- Gronwall's inequality with a one-sided bound. -/
theorem one_sided_gronwall {E E' : ℝ → ℝ} {a b M eps : ℝ} (hM : 0 ≤ M) (he : 0 ≤ eps) (hE : ∀ t ∈ Set.Icc a b, HasDerivAt E (E' t) t)
    (hb : ∀ t ∈ Set.Icc a b, E t * E' t ≤ M * E t ^ 2 + eps * |E t|) :
    ∀ x ∈ Set.Icc a b, |E x| ≤ (|E a| + eps * (x - a)) * Real.exp (M * (x - a)) := by
  intro x hx
  have key : ∀ δ : ℝ, 0 < δ → |E x| ≤ (|E a| + δ + eps * (x - a)) * Real.exp (M * (x - a)) := by
    intro δ hδ
    have hp : ∀ t, 0 < E t ^ 2 + δ ^ 2 := fun t => by positivity
    let s : ℝ → ℝ := fun t => Real.sqrt (E t ^ 2 + δ ^ 2)
    have hs : ∀ t, 0 < s t := fun t => Real.sqrt_pos.2 (hp t)
    have hs2 : ∀ t, s t ^ 2 = E t ^ 2 + δ ^ 2 := fun t => Real.sq_sqrt (hp t).le
    have hsE : ∀ t, |E t| ≤ s t := fun t => Real.abs_le_sqrt (by nlinarith)
    have hds : ∀ t ∈ Set.Icc a b, HasDerivAt s (E t * E' t / s t) t := fun t ht => by
      have h1 : HasDerivAt (fun t => E t ^ 2 + δ ^ 2) (2 * E t * E' t) t :=
        ((hE t ht).fun_pow 2).add_const (δ ^ 2) |>.congr_deriv (by push_cast; ring)
      refine (h1.sqrt (hp t).ne').congr_deriv ?_
      have := (hs t).ne'
      change 2 * E t * E' t / (2 * s t) = E t * E' t / s t
      field_simp
    have hexp : ∀ t, HasDerivAt (fun t => Real.exp (-(M * (t - a)))) (Real.exp (-(M * (t - a))) * (-M)) t := fun t =>
      ((((hasDerivAt_id t).sub_const a).const_mul M).neg.exp).congr_deriv (by simp)
    let φ : ℝ → ℝ := fun t => s t * Real.exp (-(M * (t - a))) - eps * (t - a)
    have hφ : ∀ t ∈ Set.Icc a b, HasDerivAt φ (E t * E' t / s t * Real.exp (-(M * (t - a))) + s t * (Real.exp (-(M * (t - a))) * (-M)) - eps) t :=
      fun t ht => (((hds t ht).mul (hexp t)).sub (((hasDerivAt_id t).sub_const a).const_mul eps)).congr_deriv (by simp)
    have hanti : AntitoneOn φ (Set.Icc a b) := by
      refine antitoneOn_of_hasDerivWithinAt_nonpos (convex_Icc a b) (fun t ht => (hφ t ht).continuousAt.continuousWithinAt)
        (fun t ht => (hφ t (interior_subset ht)).hasDerivWithinAt) fun t ht => ?_
      have ht := interior_subset ht
      have h1 : E t * E' t / s t - M * s t ≤ eps := by
        rw [sub_le_iff_le_add, div_le_iff₀ (hs t)]
        have := hb t ht
        have h2 : eps * |E t| ≤ eps * s t := mul_le_mul_of_nonneg_left (hsE t) he
        have h3 : M * E t ^ 2 ≤ M * s t ^ 2 := mul_le_mul_of_nonneg_left (by rw [hs2]; nlinarith) hM
        nlinarith
      have h2 : Real.exp (-(M * (t - a))) ≤ 1 := Real.exp_le_one_iff.2 (by have := mul_nonneg hM (sub_nonneg.2 ht.1); linarith)
      have h3 := Real.exp_pos (-(M * (t - a)))
      have h4 := mul_le_mul_of_nonneg_right h1 h3.le
      have h5 := mul_le_mul_of_nonneg_left h2 he
      nlinarith
    have h1 := hanti ⟨le_refl a, hx.1.trans hx.2⟩ hx hx.1
    simp only [φ, sub_self, mul_zero, neg_zero, Real.exp_zero, mul_one, sub_zero] at h1
    have h2 : s a ≤ |E a| + δ := Real.sqrt_le_iff.2 ⟨by positivity, by
      have := sq_abs (E a); nlinarith [mul_nonneg (abs_nonneg (E a)) hδ.le]⟩
    have h3 : s x * Real.exp (-(M * (x - a))) ≤ |E a| + δ + eps * (x - a) := by linarith
    rw [Real.exp_neg, ← div_eq_mul_inv, div_le_iff₀ (Real.exp_pos _)] at h3
    exact (hsE x).trans h3
  refine le_of_forall_pos_le_add fun η hη => ?_
  have hpos := Real.exp_pos (M * (x - a))
  have := key (η / Real.exp (M * (x - a))) (by positivity)
  have e : (|E a| + η / Real.exp (M * (x - a)) + eps * (x - a)) * Real.exp (M * (x - a)) =
      (|E a| + eps * (x - a)) * Real.exp (M * (x - a)) + η := by field_simp; ring
  rwa [e] at this

theorem nonlinear_rhs {o : Obj ℝ} {m : Fits ℝ} {u du : ℝ → ℝ} (hc : o.cls = .thwaitesNonlinear) (hf : o.fits = some m)
    (huE : ∀ t, o.vel.uE t = .ok (u t)) (hduE : ∀ t, o.vel.duE t = .ok (du t)) (x F : ℝ) :
    o.rhs x [F] = .ok [m.fAt (F * du x) / (1/1000 + u x)] := by
  simp [Obj.rhs, hc, hf, Obj.thwaitesRhs, Obj.calcF, Obj.calcLambda, huE, hduE, bind, Except.bind, pure, Except.pure]

/-- **C82**: for each built-in fit and bounds `C` on the solutions, `D` on the velocity gradient and `w0` on the shifted velocity there is a
rate `M` such that, in every flow and on every interval respecting the bounds, whatever satisfies the equation of the nonlinear method up to a
residual `eps` stays near the exact solution. -/
theorem thwaites_nonlinear_error {m : Fits ℝ} (hm : BuiltIn m) (C D w0 : ℝ) (hC : 0 ≤ C) (hD : 0 ≤ D) (hw0 : 0 < w0) :
    ∃ M, 0 ≤ M ∧ ∀ (o : Obj ℝ) (u du F G : ℝ → ℝ) (a b eps : ℝ), o.cls = .thwaitesNonlinear → o.fits = some m →
      (∀ t, o.vel.uE t = .ok (u t)) → (∀ t, o.vel.duE t = .ok (du t)) → 0 ≤ eps →
      (∀ x ∈ Set.Icc a b, w0 ≤ u x + 1/1000 ∧ |du x| ≤ D ∧ 0 ≤ F x ∧ F x ≤ C ∧ 0 ≤ G x ∧ G x ≤ C) →
      (∀ x ∈ Set.Icc a b, SatisfiesOde o F x) → (∀ x ∈ Set.Icc a b, SatisfiesUpTo o eps G x) →
      ∀ x ∈ Set.Icc a b, |F x - G x| ≤ (|F a - G a| + eps * (x - a)) * Real.exp (M * (x - a)) := by
  obtain ⟨L, hL, hpos, hneg⟩ := builtin_oneSided hm (C * D) (mul_nonneg hC hD)
  refine ⟨L * D / w0, by positivity, fun o u du F G a b eps hc hf huE hduE he hbd hF hG => ?_⟩
  have hF' : ∀ t ∈ Set.Icc a b, HasDerivAt F (m.fAt (F t * du t) / (1/1000 + u t)) t := fun t ht => by
    obtain ⟨r, hr, hd⟩ := hF t ht
    rw [nonlinear_rhs hc hf huE hduE] at hr
    simp only [Except.ok.injEq, List.cons.injEq, and_true] at hr
    rw [hr]; exact hd
  have hG' : ∀ t ∈ Set.Icc a b, HasDerivAt G (deriv G t) t ∧ |deriv G t - m.fAt (G t * du t) / (1/1000 + u t)| ≤ eps := fun t ht => by
    obtain ⟨r, g, hr, hd, hg⟩ := hG t ht
    rw [nonlinear_rhs hc hf huE hduE] at hr
    simp only [Except.ok.injEq, List.cons.injEq, and_true] at hr
    rw [hd.deriv, hr]; exact ⟨hd, hg⟩
  refine one_sided_gronwall (E := fun t => F t - G t) (E' := fun t => m.fAt (F t * du t) / (1/1000 + u t) - deriv G t) (by positivity) he
    (fun t ht => (hF' t ht).sub (hG' t ht).1) fun t ht => ?_
  obtain ⟨b1, b2, b3, b4, b5, b6⟩ := hbd t ht
  have hw : 0 < 1/1000 + u t := by linarith
  -- the contribution of the right hand sides
  have h1 : (F t - G t) * (m.fAt (F t * du t) - m.fAt (G t * du t)) ≤ L * D * (F t - G t) ^ 2 := by
    have main : ∀ p q : ℝ, 0 ≤ p → p ≤ q → q ≤ C → m.fAt (q * du t) - m.fAt (p * du t) ≤ L * D * (q - p) := by
      intro p q p0 pq qC
      have hab := abs_le.1 b2
      rcases le_total 0 (du t) with hd | hd
      · have := hpos (p * du t) (q * du t) (mul_nonneg p0 hd) (mul_le_mul_of_nonneg_right pq hd)
          (mul_le_mul qC hab.2 hd hC)
        have h2 : L * (q * du t - p * du t) ≤ L * D * (q - p) := by
          have := mul_le_mul_of_nonneg_left (mul_le_mul_of_nonneg_left hab.2 (sub_nonneg.2 pq)) hL
          linarith
        exact this.trans h2
      · have := hneg (q * du t) (p * du t) (by nlinarith [mul_le_mul qC (show -du t ≤ D by linarith) (by linarith) hC])
          (mul_le_mul_of_nonpos_right pq hd) (mul_nonpos_of_nonneg_of_nonpos p0 hd)
        have h2 : L * (p * du t - q * du t) ≤ L * D * (q - p) := by
          have := mul_le_mul_of_nonneg_left (mul_le_mul_of_nonneg_left (show -du t ≤ D by linarith) (sub_nonneg.2 pq)) hL
          linarith
        exact this.trans h2
    rcases le_total (G t) (F t) with h | h
    · have := mul_le_mul_of_nonneg_left (main (G t) (F t) b5 h b4) (sub_nonneg.2 h)
      nlinarith
    · have := mul_le_mul_of_nonneg_left (main (F t) (G t) b3 h b6) (sub_nonneg.2 h)
      nlinarith
  have h2 : (F t - G t) * (m.fAt (F t * du t) / (1/1000 + u t) - m.fAt (G t * du t) / (1/1000 + u t)) ≤ L * D / w0 * (F t - G t) ^ 2 := by
    have e : (F t - G t) * (m.fAt (F t * du t) / (1/1000 + u t) - m.fAt (G t * du t) / (1/1000 + u t)) =
      (F t - G t) * (m.fAt (F t * du t) - m.fAt (G t * du t)) / (1/1000 + u t) := by ring
    rw [e, div_mul_eq_mul_div]
    refine (div_le_div_of_nonneg_right h1 hw.le).trans (div_le_div_of_nonneg_left ?_ hw0 (by linarith))
    positivity
  have h3 : (F t - G t) * (m.fAt (G t * du t) / (1/1000 + u t) - deriv G t) ≤ eps * |F t - G t| := by
    refine (le_abs_self _).trans ?_
    rw [abs_mul, mul_comm eps, abs_sub_comm (m.fAt _ / _)]
    exact mul_le_mul_of_nonneg_left (hG' t ht).2 (abs_nonneg _)
  linarith

/-- **C82**: two solutions of the nonlinear method with a built-in fit that start from the same positive value are the same, in every flow with
`u_e > -0.001` and a bounded velocity gradient. -/
theorem thwaites_nonlinear_unique (o : Obj ℝ) (m : Fits ℝ) (u du F G : ℝ → ℝ) (a b D : ℝ) (hm : BuiltIn m) (hc : o.cls = .thwaitesNonlinear)
    (hf : o.fits = some m) (huE : ∀ t, o.vel.uE t = .ok (u t)) (hduE : ∀ t, o.vel.duE t = .ok (du t)) (hnu : 0 < o.nu)
    (hu : ContinuousOn u (Set.Icc a b)) (hu0 : ∀ x ∈ Set.Icc a b, -(1/1000) < u x) (hdu : ∀ x ∈ Set.Icc a b, |du x| ≤ D)
    (hF : ∀ x ∈ Set.Icc a b, SatisfiesOde o F x) (hG : ∀ x ∈ Set.Icc a b, SatisfiesOde o G x) (h0 : F a = G a) (hpos : 0 < F a) :
    ∀ x ∈ Set.Icc a b, F x = G x := by
  intro x hx
  have hab : a ≤ b := hx.1.trans hx.2
  have hcont : ∀ {H : ℝ → ℝ}, (∀ x ∈ Set.Icc a b, SatisfiesOde o H x) → ContinuousOn H (Set.Icc a b) := fun hH t ht => by
    obtain ⟨r, -, hd⟩ := hH t ht
    exact hd.continuousAt.continuousWithinAt
  have hD : 0 ≤ D := (abs_nonneg _).trans (hdu x hx)
  have hp : ∀ {H : ℝ → ℝ}, (∀ x ∈ Set.Icc a b, SatisfiesOde o H x) → 0 < H a → ∀ x ∈ Set.Icc a b, 0 ≤ H x := fun {H} hH h t ht => by
    obtain ⟨_, d, -, hd, hd0, -⟩ := thwaites_bounded_below { o with sol := some fun t => [H t] } m u du H a b (D + 1)
      ⟨by simp [hc, Cls.isThwaites], hf, rfl, huE, hduE⟩ (.inr hm) hnu (by linarith) hu0
      (fun t ht => by have := (abs_le.1 (hdu t ht)).2; linarith) hH h t ht
    have hq : ({ o with sol := some fun t => [H t] } : Obj ℝ).deltaM t = .ok (Real.sqrt (H t * o.nu)) := by
      simp [Obj.deltaM, hc, Obj.comp, Obj.state, bind, Except.bind, pure, Except.pure]
    rw [hq] at hd
    rw [← Except.ok.inj hd, Real.sqrt_pos] at hd0
    by_contra h; nlinarith
  obtain ⟨x0, hx0, hmin⟩ := isCompact_Icc.exists_isMinOn ⟨a, le_refl a, hab⟩ hu
  obtain ⟨xF, hxF, hmaxF⟩ := isCompact_Icc.exists_isMaxOn ⟨a, le_refl a, hab⟩ (hcont hF)
  obtain ⟨xG, hxG, hmaxG⟩ := isCompact_Icc.exists_isMaxOn ⟨a, le_refl a, hab⟩ (hcont hG)
  obtain ⟨M, -, H⟩ := thwaites_nonlinear_error hm (max (F xF) (G xG)) D (u x0 + 1/1000) (le_max_of_le_left (hp hF hpos xF hxF)) hD
    (by have := hu0 x0 hx0; linarith)
  have := H o u du F G a b 0 hc hf huE hduE (le_refl _) (fun t ht => ⟨by have := hmin ht; simp at this; linarith, hdu t ht, hp hF hpos t ht,
    le_max_of_le_left (hmaxF ht), hp hG (h0 ▸ hpos) t ht, le_max_of_le_right (hmaxG ht)⟩) hF (fun t ht => by
      obtain ⟨r, hr, hd⟩ := hG t ht
      exact ⟨r, r, hr, hd, by simp⟩) x hx
  rw [h0, sub_self, abs_zero, zero_mul, add_zero, zero_mul] at this
  have := abs_nonpos_iff.1 this
  linarith

/-- **C82**, linear method: the same with the rate `6 D / w0`, for any fits and any sign of the solutions. -/
theorem thwaites_linear_error (o : Obj ℝ) (u du F G : ℝ → ℝ) (a b eps D w0 : ℝ) (hc : o.cls = .thwaitesLinear)
    (huE : ∀ t, o.vel.uE t = .ok (u t)) (hduE : ∀ t, o.vel.duE t = .ok (du t)) (he : 0 ≤ eps) (hw0 : 0 < w0)
    (hu : ∀ x ∈ Set.Icc a b, w0 ≤ u x + 1/1000 ∧ |du x| ≤ D) (hF : ∀ x ∈ Set.Icc a b, SatisfiesOde o F x)
    (hG : ∀ x ∈ Set.Icc a b, SatisfiesUpTo o eps G x) :
    ∀ x ∈ Set.Icc a b, |F x - G x| ≤ (|F a - G a| + eps * (x - a)) * Real.exp (6 * D / w0 * (x - a)) := by
  intro x hx
  have hD : 0 ≤ D := (abs_nonneg _).trans (hu x hx).2
  have hr : ∀ t y, o.rhs t [y] = .ok [(45/100 - 6 * (y * du t)) / (1/1000 + u t)] := fun t y => by
    simp [Obj.rhs, hc, Obj.thwaitesRhs, Obj.calcF, Obj.calcLambda, huE, hduE, bind, Except.bind, pure, Except.pure]
  have hF' : ∀ t ∈ Set.Icc a b, HasDerivAt F ((45/100 - 6 * (F t * du t)) / (1/1000 + u t)) t := fun t ht => by
    obtain ⟨r, h1, hd⟩ := hF t ht
    rw [hr] at h1
    simp only [Except.ok.injEq, List.cons.injEq, and_true] at h1
    rw [h1]; exact hd
  have hG' : ∀ t ∈ Set.Icc a b, HasDerivAt G (deriv G t) t ∧ |deriv G t - (45/100 - 6 * (G t * du t)) / (1/1000 + u t)| ≤ eps := fun t ht => by
    obtain ⟨r, g, h1, hd, hg⟩ := hG t ht
    rw [hr] at h1
    simp only [Except.ok.injEq, List.cons.injEq, and_true] at h1
    rw [hd.deriv, h1]; exact ⟨hd, hg⟩
  refine one_sided_gronwall (E := fun t => F t - G t) (E' := fun t => (45/100 - 6 * (F t * du t)) / (1/1000 + u t) - deriv G t)
    (by positivity) he (fun t ht => (hF' t ht).sub (hG' t ht).1) (fun t ht => ?_) x hx
  obtain ⟨b1, b2⟩ := hu t ht
  have hw : 0 < 1/1000 + u t := by linarith
  have h2 : (F t - G t) * ((45/100 - 6 * (F t * du t)) / (1/1000 + u t) - (45/100 - 6 * (G t * du t)) / (1/1000 + u t)) ≤
      6 * D / w0 * (F t - G t) ^ 2 := by
    have e : (F t - G t) * ((45/100 - 6 * (F t * du t)) / (1/1000 + u t) - (45/100 - 6 * (G t * du t)) / (1/1000 + u t)) =
      6 * (-du t) * (F t - G t) ^ 2 / (1/1000 + u t) := by ring
    rw [e, div_mul_eq_mul_div]
    have h1 : 6 * (-du t) * (F t - G t) ^ 2 ≤ 6 * D * (F t - G t) ^ 2 :=
      mul_le_mul_of_nonneg_right (by linarith [(abs_le.1 b2).1]) (sq_nonneg _)
    refine (div_le_div_of_nonneg_right h1 hw.le).trans (div_le_div_of_nonneg_left ?_ hw0 (by linarith))
    positivity
  have h3 : (F t - G t) * ((45/100 - 6 * (G t * du t)) / (1/1000 + u t) - deriv G t) ≤ eps * |F t - G t| := by
    refine (le_abs_self _).trans ?_
    rw [abs_mul, mul_comm eps, abs_sub_comm (_ / _)]
    exact mul_le_mul_of_nonneg_left (hG' t ht).2 (abs_nonneg _)
  linarith

/-- Non-vacuity: flat plate at speed 0.999, Drela's fits; the exact solution from 1, and a line off by `0.1` in slope. -/
example : ∃ (o : Obj ℝ) (u du F G : ℝ → ℝ), o.cls = .thwaitesNonlinear ∧ o.fits = some drela ∧ BuiltIn drela ∧
    (∀ t, o.vel.uE t = .ok (u t)) ∧ (∀ t, o.vel.duE t = .ok (du t)) ∧ 0 < o.nu ∧
    (∀ x ∈ Set.Icc (0:ℝ) 1, 1 ≤ u x + 1/1000 ∧ |du x| ≤ 1 ∧ 0 ≤ F x ∧ F x ≤ 2 ∧ 0 ≤ G x ∧ G x ≤ 2) ∧
    (∀ x ∈ Set.Icc (0:ℝ) 1, SatisfiesOde o F x) ∧ (∀ x ∈ Set.Icc (0:ℝ) 1, SatisfiesUpTo o (1/10) G x) ∧ F ≠ G := by
  let o : Obj ℝ := ⟨.thwaitesNonlinear, 1, ⟨some (.fn fun _ => .ok (999/1000)), some (.fn fun _ => .ok 0), none⟩, .manual 0 1 1 1 1, [],
    none, some drela⟩
  have huE : ∀ t, o.vel.uE t = .ok (999/1000) := fun t => by simp [o, VelState.uE, VelState.rawU, callOpt, Vel.call]
  have hduE : ∀ t, o.vel.duE t = .ok 0 := fun t => by simp [o, VelState.duE, VelState.rawDu, callOpt, Vel.call]
  have hf : (drela : Fits ℝ).fAt 0 = 44/100 := by
    rw [fAt, shearAt, shapeAt, drela_clip, max_eq_left (by norm_num)]
    simp [drela, real_lit]
    norm_num
  have hr : ∀ x y, o.rhs x [y] = .ok [44/100] := fun x y => by
    rw [nonlinear_rhs (u := fun _ => 999/1000) (du := fun _ => 0) rfl rfl huE hduE, mul_zero, hf]
    norm_num
  refine ⟨o, fun _ => 999/1000, fun _ => 0, fun x => 1 + 44/100 * x, fun x => 1 + 54/100 * x, rfl, rfl, .inr (.inr (.inl rfl)), huE, hduE,
    one_pos, fun x hx => ?_, fun x _ => ⟨44/100, hr _ _, ?_⟩, fun x _ => ⟨44/100, 54/100, hr _ _, ?_, ?_⟩, fun h => ?_⟩
  · obtain ⟨h1, h2⟩ := hx
    refine ⟨by norm_num, by norm_num, ?_, ?_, ?_, ?_⟩ <;> dsimp only <;> linarith
  · exact (((hasDerivAt_id x).const_mul (44/100)).const_add 1).congr_deriv (by ring)
  · exact (((hasDerivAt_id x).const_mul (54/100)).const_add 1).congr_deriv (by ring)
  · rw [abs_le]; norm_num
  · have := congrFun h 1; norm_num at this

end IBL
