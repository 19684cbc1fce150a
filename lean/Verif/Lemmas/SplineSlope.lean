import Verif.Lemmas.Spline
import Verif.Lemmas.PolyEval
import Mathlib.Analysis.Calculus.Deriv.Pow
import Mathlib.Analysis.Calculus.Deriv.Add
import Mathlib.Analysis.Calculus.Deriv.Mul
import Mathlib.Analysis.Calculus.Deriv.Shift
import Mathlib.Analysis.Calculus.Deriv.MeanValue
import Mathlib.Tactic.Linarith
import Mathlib.Tactic.Positivity

/-!
Derivative and monotonicity of a function that is one of the given cubics on each interval of a table, and a certificate for the sign of the
slope (Bernstein coefficients), which the kernel evaluates on the tables of /repo.
-/

namespace IBL.SplineSolve
open Cubic

/-- `f` and `f'` are segment `q` on its interval, all along the table. -/
def Segs (f f' : ℝ → ℝ) : List ℚ → List (Cubic ℚ) → Prop
  | x0 :: x1 :: xs, q :: qs => (∀ x : ℝ, (x0 : ℝ) ≤ x → x ≤ x1 →
      f x = (castSeg ℝ q).value (x - x0) ∧ f' x = (castSeg ℝ q).slope (x - x0)) ∧ Segs f f' (x1 :: xs) qs
  | [_], [] => True
  | _, _ => False

/-- The slope of each segment has sign `s` on its interval, by Bernstein coefficients; the abscissae increase. -/
def slopeSign (s : ℚ) : List ℚ → List (Cubic ℚ) → Bool
  | x0 :: x1 :: xs, q :: qs => decide (x0 < x1) && decide (0 < s * q.b) && decide (0 < s * (q.b + q.c * (x1 - x0))) &&
      decide (0 < s * (q.b + 2 * q.c * (x1 - x0) + 3 * q.d * ((x1 - x0) * (x1 - x0)))) && slopeSign s (x1 :: xs) qs
  | [_], [] => true
  | _, _ => false

def lastOf (x0 : ℚ) : List ℚ → ℚ
  | [] => x0
  | x :: xs => lastOf x xs

theorem value_deriv (q : Cubic ℝ) (x0 x : ℝ) : HasDerivAt (fun x => q.value (x - x0)) (q.slope (x - x0)) x := by
  have h1 : HasDerivAt (fun x : ℝ => x - x0) 1 x := (hasDerivAt_id x).sub_const x0
  have h := (((h1.const_mul q.b).const_add q.a).add ((h1.pow 2).const_mul q.c)).add ((h1.pow 3).const_mul q.d)
  refine h.congr_deriv ?_ |>.congr_of_eventuallyEq (Filter.Eventually.of_forall fun t => ?_)
  · simp only [Cubic.slope]; push_cast; ring
  · simp only [value, Pi.add_apply, Pi.pow_apply]

private theorem bernstein {A B C h t : ℝ} (hA : 0 < A) (hB : 0 < B) (hC : 0 < C) (h0 : 0 ≤ t) (h1 : t ≤ h) (hh : 0 < h) :
    0 < A * (h - t) ^ 2 + 2 * B * t * (h - t) + C * t ^ 2 := by
  have h2 : 0 ≤ h - t := by linarith
  rcases eq_or_lt_of_le h0 with ht | ht
  · subst ht; have : 0 < A * h ^ 2 := by positivity
    linarith [mul_nonneg (mul_nonneg (mul_nonneg (by norm_num : (0:ℝ) ≤ 2) hB.le) (le_refl (0:ℝ))) h2, this]
  · have : 0 < C * t ^ 2 := by positivity
    have : 0 ≤ A * (h - t) ^ 2 := by positivity
    have : 0 ≤ 2 * B * t * (h - t) := by positivity
    linarith

theorem lastOf_ge (s : ℚ) (x0 : ℚ) (xs : List ℚ) (qs : List (Cubic ℚ)) (hc : slopeSign s (x0 :: xs) qs = true) : x0 ≤ lastOf x0 xs := by
  induction xs generalizing x0 qs with
  | nil => exact le_refl _
  | cons x1 xs ih =>
    cases qs with
    | nil => cases hc
    | cons q qs =>
      simp only [slopeSign, Bool.and_eq_true, decide_eq_true_eq] at hc
      exact hc.1.1.1.1.le.trans (ih x1 qs hc.2)

theorem segs_deriv (f f' : ℝ → ℝ) (s : ℚ) (x0 : ℚ) (xs : List ℚ) (qs : List (Cubic ℚ)) (hc : slopeSign s (x0 :: xs) qs = true)
    (hs : Segs f f' (x0 :: xs) qs) (hne : xs ≠ []) (x : ℝ) (h0 : (x0 : ℝ) ≤ x) (h1 : x ≤ (lastOf x0 xs : ℝ)) :
    HasDerivWithinAt f (f' x) (Set.Icc (x0 : ℝ) (lastOf x0 xs)) x ∧ 0 < (s : ℝ) * f' x := by
  induction xs generalizing x0 qs with
  | nil => exact absurd rfl hne
  | cons x1 xs ih =>
    cases qs with
    | nil => cases hc
    | cons q qs =>
      have hc' := hc
      simp only [slopeSign, Bool.and_eq_true, decide_eq_true_eq] at hc'
      obtain ⟨⟨⟨⟨c0, c1⟩, c2⟩, c3⟩, c4⟩ := hc'
      obtain ⟨hq, hrest⟩ := hs
      have hle := lastOf_ge s x1 xs qs c4
      have c0' : (x0 : ℝ) < x1 := by exact_mod_cast c0
      have hle' : (x1 : ℝ) ≤ (lastOf x1 xs : ℝ) := by exact_mod_cast hle
      -- on the first segment
      have seg : ∀ x : ℝ, (x0 : ℝ) ≤ x → x ≤ x1 → HasDerivWithinAt f (f' x) (Set.Icc (x0 : ℝ) x1) x ∧ 0 < (s : ℝ) * f' x := by
        intro x h0 h1
        rw [(hq x h0 h1).2]
        constructor
        · exact (value_deriv _ _ _).hasDerivWithinAt.congr (fun t ht => (hq t ht.1 ht.2).1) (hq x h0 h1).1
        · have hh : (0:ℝ) < x1 - x0 := by linarith
          have := bernstein (A := ((s * q.b : ℚ) : ℝ)) (B := ((s * (q.b + q.c * (x1 - x0)) : ℚ) : ℝ))
            (C := ((s * (q.b + 2 * q.c * (x1 - x0) + 3 * q.d * ((x1 - x0) * (x1 - x0))) : ℚ) : ℝ)) (h := x1 - x0) (t := x - x0)
            (by exact_mod_cast c1) (by exact_mod_cast c2) (by exact_mod_cast c3) (by linarith) (by linarith) hh
          have e : ((s * q.b : ℚ) : ℝ) * ((x1 - x0 : ℝ) - (x - x0)) ^ 2 +
              2 * ((s * (q.b + q.c * (x1 - x0)) : ℚ) : ℝ) * (x - x0) * ((x1 - x0 : ℝ) - (x - x0)) +
              ((s * (q.b + 2 * q.c * (x1 - x0) + 3 * q.d * ((x1 - x0) * (x1 - x0))) : ℚ) : ℝ) * (x - x0) ^ 2 =
              (s : ℝ) * (castSeg ℝ q).slope (x - x0) * (x1 - x0) ^ 2 := by
            simp only [castSeg, Cubic.slope]; push_cast; ring
          rw [e] at this
          exact pos_of_mul_pos_left this (by positivity)
      have hun : Set.Icc (x0 : ℝ) (lastOf x0 (x1 :: xs)) = Set.Icc (x0 : ℝ) x1 ∪ Set.Icc (x1 : ℝ) (lastOf x1 xs) :=
        (Set.Icc_union_Icc_eq_Icc c0'.le hle').symm
      cases xs with
      | nil => exact seg x h0 h1
      | cons x2 xs =>
        have rest := ih x1 qs c4 hrest (by simp)
        rw [hun]
        rcases lt_trichotomy x (x1 : ℝ) with hlt | heq | hgt
        · refine ⟨(seg x h0 hlt.le).1.union (HasFDerivWithinAt.of_notMem_closure ?_), (seg x h0 hlt.le).2⟩
          rw [isClosed_Icc.closure_eq]
          exact fun h => absurd h.1 (not_le.2 hlt)
        · refine ⟨(seg x h0 heq.le).1.union (rest heq.ge ?_).1, (seg x h0 heq.le).2⟩
          rw [heq]; exact hle'
        · refine ⟨HasDerivWithinAt.union (HasFDerivWithinAt.of_notMem_closure ?_) (rest hgt.le h1).1, (rest hgt.le h1).2⟩
          rw [isClosed_Icc.closure_eq]
          exact fun h => absurd h.2 (not_le.2 hgt)

/-- What the certificate gives: on the open range `f'` is the derivative of `f`, on the closed range `f` is strictly monotone. -/
theorem segs_mono (f f' : ℝ → ℝ) (s : ℚ) (x0 : ℚ) (xs : List ℚ) (qs : List (Cubic ℚ)) (hc : slopeSign s (x0 :: xs) qs = true)
    (hs : Segs f f' (x0 :: xs) qs) (hne : xs ≠ []) :
    (∀ x : ℝ, (x0 : ℝ) < x → x < (lastOf x0 xs : ℝ) → HasDerivAt f (f' x) x) ∧
    (∀ x : ℝ, (x0 : ℝ) ≤ x → x ≤ (lastOf x0 xs : ℝ) → 0 < (s : ℝ) * f' x) ∧
    StrictMonoOn (fun x => (s : ℝ) * f x) (Set.Icc (x0 : ℝ) (lastOf x0 xs)) := by
  have hd := segs_deriv f f' s x0 xs qs hc hs hne
  have h1 : ∀ x : ℝ, (x0 : ℝ) < x → x < (lastOf x0 xs : ℝ) → HasDerivAt f (f' x) x := fun x a b =>
    (hd x a.le b.le).1.hasDerivAt (Icc_mem_nhds a b)
  refine ⟨h1, fun x a b => (hd x a b).2, ?_⟩
  refine strictMonoOn_of_deriv_pos (convex_Icc _ _) ?_ ?_
  · intro x hx
    exact ((hd x hx.1 hx.2).1.const_mul (s : ℝ)).continuousWithinAt
  · intro x hx
    rw [interior_Icc] at hx
    rw [((h1 x hx.1 hx.2).const_mul (s : ℝ)).deriv]
    exact (hd x hx.1.le hx.2.le).2

/-- Such a function is Lipschitz continuous. -/
theorem segs_lip (f f' : ℝ → ℝ) (s : ℚ) (x0 : ℚ) (xs : List ℚ) (qs : List (Cubic ℚ)) (hc : slopeSign s (x0 :: xs) qs = true)
    (hs : Segs f f' (x0 :: xs) qs) :
    ∃ K, 0 ≤ K ∧ ∀ x y : ℝ, (x0 : ℝ) ≤ x → x ≤ y → y ≤ (lastOf x0 xs : ℝ) → |f y - f x| ≤ K * (y - x) := by
  induction xs generalizing x0 qs with
  | nil =>
    refine ⟨0, le_refl _, fun x y h0 h1 h2 => ?_⟩
    have : x = y := le_antisymm h1 (h2.trans h0)
    rw [this]; simp
  | cons x1 xs ih =>
    cases qs with
    | nil => cases hc
    | cons q qs =>
      have hc' := hc
      simp only [slopeSign, Bool.and_eq_true, decide_eq_true_eq] at hc'
      obtain ⟨⟨⟨⟨c0, -⟩, -⟩, -⟩, c4⟩ := hc'
      have c0' : (x0 : ℝ) < x1 := by exact_mod_cast c0
      obtain ⟨hq, hrest⟩ := hs
      obtain ⟨K, hK, h⟩ := ih x1 qs c4 hrest
      let w : ℝ := x1 - x0
      let M : ℝ := |(q.b : ℝ)| + |(q.c : ℝ)| * (2 * w) + |(q.d : ℝ)| * (3 * w ^ 2)
      have hw : 0 < w := sub_pos.2 c0'
      have hM : 0 ≤ M := by positivity
      have seg : ∀ x y : ℝ, (x0 : ℝ) ≤ x → x ≤ y → y ≤ x1 → |f y - f x| ≤ M * (y - x) := fun x y h0 h1 h2 => by
        rw [(hq x h0 (h1.trans h2)).1, (hq y (h0.trans h1) h2).1]
        have e : (castSeg ℝ q).value (y - x0) - (castSeg ℝ q).value (x - x0) =
            ((q.b : ℝ) + (q.c : ℝ) * ((y - x0) + (x - x0)) +
              (q.d : ℝ) * ((y - x0) ^ 2 + (y - x0) * (x - x0) + (x - x0) ^ 2)) * (y - x) := by
          simp only [castSeg, value]; ring
        rw [e, abs_mul, abs_of_nonneg (sub_nonneg.2 h1)]
        refine mul_le_mul_of_nonneg_right ?_ (sub_nonneg.2 h1)
        have hx0 : 0 ≤ x - x0 := sub_nonneg.2 h0
        have hy0 : 0 ≤ y - x0 := by linarith
        have hxw : x - x0 ≤ w := by simp only [w]; linarith
        have hyw : y - x0 ≤ w := by simp only [w]; linarith
        refine (abs_add_le _ _).trans (add_le_add ((abs_add_le _ _).trans (add_le_add (le_refl _) ?_)) ?_)
        · rw [abs_mul]
          refine mul_le_mul_of_nonneg_left ?_ (abs_nonneg _)
          rw [abs_of_nonneg (by linarith)]; linarith
        · rw [abs_mul]
          refine mul_le_mul_of_nonneg_left ?_ (abs_nonneg _)
          rw [abs_of_nonneg (by positivity)]
          nlinarith
      refine ⟨max M K, le_max_of_le_left hM, fun x y h0 h1 h2 => ?_⟩
      have m1 : M ≤ max M K := le_max_left _ _
      have m2 : K ≤ max M K := le_max_right _ _
      rcases le_total y (x1 : ℝ) with hy | hy
      · exact (seg x y h0 h1 hy).trans (mul_le_mul_of_nonneg_right m1 (sub_nonneg.2 h1))
      · rcases le_total (x1 : ℝ) x with hx | hx
        · exact (h x y hx h1 h2).trans (mul_le_mul_of_nonneg_right m2 (sub_nonneg.2 h1))
        · have a1 := seg x x1 h0 hx (le_refl _)
          have a2 := h x1 y (le_refl _) hy h2
          have a3 : |f y - f x| ≤ |f y - f x1| + |f x1 - f x| := abs_sub_le _ _ _
          have b1 := mul_le_mul_of_nonneg_right m1 (sub_nonneg.2 hx)
          have b2 := mul_le_mul_of_nonneg_right m2 (sub_nonneg.2 hy)
          nlinarith

/-- From the specification of `CubicSpline` to the computed segments. -/
theorem segs_of_spline (f : (ℝ → ℝ) × (ℝ → ℝ)) (xs ys : List ℚ) (hlen : xs.length = ys.length) (hd : Distinct (xs.zip ys))
    (qs : List (Cubic ℚ)) (hsol : solve (xs.zip ys) = some qs) (h : IsSplineOf f xs ys) : Segs f.1 f.2 xs qs := by
  obtain ⟨rs, hn, hf⟩ := h.ex
  have hn' : NotAKnot (castPts ℝ (xs.zip ys)) rs := hn
  have hl := hn.length
  have hr := (solve_iff _ hd qs hsol rs).1 hn'
  subst hr
  simp only [List.length_map, List.length_zip, ← hlen, min_self] at hl
  clear hn hn' hsol hd hlen h
  induction xs generalizing qs with
  | nil => simp at hl
  | cons x0 xs ih =>
    cases xs with
    | nil =>
      cases qs with
      | nil => trivial
      | cons q qs => simp at hl
    | cons x1 xs =>
      cases qs with
      | nil => simp at hl
      | cons q qs =>
        refine ⟨fun x a b => hf 0 x0 x1 _ rfl rfl rfl x a b, ih qs ?_ (by simpa using hl)⟩
        intro i a b q ha hb hq
        exact hf (i + 1) a b q (by simpa using ha) (by simpa using hb) (by simpa using hq)

/-! ### A spline exists -/

private theorem segs_congr (f f' g g' : ℝ → ℝ) (s : ℚ) (x0 : ℚ) (xs : List ℚ) (qs : List (Cubic ℚ))
    (hc : slopeSign s (x0 :: xs) qs = true) (hfg : ∀ x : ℝ, (x0 : ℝ) ≤ x → f x = g x ∧ f' x = g' x) (h : Segs f f' (x0 :: xs) qs) :
    Segs g g' (x0 :: xs) qs := by
  induction xs generalizing x0 qs with
  | nil => cases qs <;> exact h
  | cons x1 xs ih =>
    cases qs with
    | nil => exact h
    | cons q qs =>
      simp only [slopeSign, Bool.and_eq_true, decide_eq_true_eq] at hc
      have hlt : (x0 : ℝ) < x1 := by exact_mod_cast hc.1.1.1.1
      refine ⟨fun x a b => ?_, ih x1 qs hc.2 (fun x a => hfg x (hlt.le.trans a)) h.2⟩
      rw [← (hfg x a).1, ← (hfg x a).2]
      exact h.1 x a b

/-- The segments as a piecewise polynomial of `Model/PPoly.lean`. -/
def pieces : List ℚ → List (Cubic ℚ) → PPoly.Pieces ℝ
  | x :: xs, q :: qs => ((x : ℝ), [(q.a : ℝ), (q.b : ℝ), (q.c : ℝ), (q.d : ℝ)]) :: pieces xs qs
  | _, _ => []

private theorem poly_value (q : Cubic ℚ) (t : ℝ) : PPoly.polyEval [(q.a : ℝ), (q.b : ℝ), (q.c : ℝ), (q.d : ℝ)] t = (castSeg ℝ q).value t := by
  simp only [PPoly.polyEval_nil, PPoly.polyEval_cons, real_lit, castSeg, value]; push_cast; ring

private theorem poly_slope (q : Cubic ℚ) (t : ℝ) :
    PPoly.polyEval (PPoly.polyDer [(q.a : ℝ), (q.b : ℝ), (q.c : ℝ), (q.d : ℝ)]) t = (castSeg ℝ q).slope t := by
  simp only [PPoly.polyDer, PPoly.derFrom, PPoly.polyEval_nil, PPoly.polyEval_cons, real_lit, castSeg, Cubic.slope]; push_cast; ring

theorem pieces_segs (s : ℚ) (xs ys : List ℚ) (qs : List (Cubic ℚ)) (hc : slopeSign s xs qs = true) (hlen : xs.length = ys.length)
    (hch : Chain (castPts ℝ (xs.zip ys)) (qs.map (castSeg ℝ))) :
    Segs (PPoly.eval (pieces xs qs)) (PPoly.eval (PPoly.deriv (pieces xs qs))) xs qs := by
  induction xs generalizing ys qs with
  | nil => cases qs <;> cases hc
  | cons x0 xs ih =>
    cases xs with
    | nil =>
      cases qs with
      | nil => trivial
      | cons q qs => cases hc
    | cons x1 xs =>
      obtain _ | ⟨y0, _ | ⟨y1, ys⟩⟩ := ys
      · simp at hlen
      · simp at hlen
      cases qs with
      | nil => cases hc
      | cons q qs =>
        obtain ⟨h1, h2, h3, h4⟩ := hch
        have hc' := hc
        simp only [slopeSign, Bool.and_eq_true, decide_eq_true_eq] at hc'
        have hlt : (x0 : ℝ) < x1 := by exact_mod_cast hc'.1.1.1.1
        cases qs with
        | nil =>
          cases xs with
          | cons x2 xs => exact absurd hc'.2 (by simp [slopeSign])
          | nil =>
            refine ⟨fun x _ _ => ?_, trivial⟩
            simp only [pieces, PPoly.deriv, List.map_cons, List.map_nil, PPoly.eval]
            exact ⟨poly_value q _, poly_slope q _⟩
        | cons q' qs =>
          have e1 : ∀ x : ℝ, PPoly.eval (pieces (x0 :: x1 :: xs) (q :: q' :: qs)) x =
              if x < x1 then (castSeg ℝ q).value (x - x0) else PPoly.eval (pieces (x1 :: xs) (q' :: qs)) x := by
            intro x; rw [← poly_value]; simp [pieces, PPoly.eval]
          have e2 : ∀ x : ℝ, PPoly.eval (PPoly.deriv (pieces (x0 :: x1 :: xs) (q :: q' :: qs))) x =
              if x < x1 then (castSeg ℝ q).slope (x - x0) else PPoly.eval (PPoly.deriv (pieces (x1 :: xs) (q' :: qs))) x := by
            intro x; rw [← poly_slope]; simp [pieces, PPoly.eval, PPoly.deriv]
          have hrest := ih (y1 :: ys) (q' :: qs) hc'.2 (by simpa using hlen) h4
          refine ⟨fun x a b => ?_, segs_congr _ _ _ _ s x1 xs (q' :: qs) hc'.2 (fun x hx => ?_) hrest⟩
          · rw [e1, e2]
            rcases eq_or_lt_of_le b with hb | hb
            · rw [if_neg (by rw [hb]; exact lt_irrefl _), if_neg (by rw [hb]; exact lt_irrefl _)]
              cases xs with
              | nil => exact absurd hc'.2 (by simp [slopeSign])
              | cons x2 xs =>
                have hc2 := hc'.2
                simp only [slopeSign, Bool.and_eq_true, decide_eq_true_eq] at hc2
                have hlt2 : (x1 : ℝ) < x2 := by exact_mod_cast hc2.1.1.1.1
                obtain ⟨g1, g2⟩ := hrest.1 x hb.ge (hb.le.trans hlt2.le)
                rw [g1, g2, hb, sub_self]
                cases ys with
                | nil => simp at hlen
                | cons y2 ys =>
                  obtain ⟨k1, -⟩ := h4
                  exact ⟨by rw [k1, h2], (h3 _ rfl).1.symm⟩
            · rw [if_pos hb, if_pos hb]; exact ⟨rfl, rfl⟩
          · rw [e1, e2, if_neg (not_lt.2 hx), if_neg (not_lt.2 hx)]; exact ⟨rfl, rfl⟩

/-- The piecewise polynomial of the computed segments is what the specification of `CubicSpline` asks for. -/
theorem pieces_spline (s : ℚ) (xs ys : List ℚ) (qs : List (Cubic ℚ)) (hlen : xs.length = ys.length) (hd : Distinct (xs.zip ys))
    (hsol : solve (xs.zip ys) = some qs) (hc : slopeSign s xs qs = true) :
    IsSplineOf (PPoly.eval (pieces xs qs), PPoly.eval (PPoly.deriv (pieces xs qs))) xs ys := by
  have hn := (solve_iff (K := ℝ) _ hd qs hsol (qs.map (castSeg ℝ))).2 rfl
  refine ⟨qs.map (castSeg ℝ), hn, ?_⟩
  have hs := pieces_segs s xs ys qs hc hlen (chain_of_notAKnot hn)
  generalize PPoly.eval (pieces xs qs) = f at hs ⊢
  generalize PPoly.eval (PPoly.deriv (pieces xs qs)) = f' at hs ⊢
  clear hn hsol hd hlen hc
  intro i
  induction i generalizing xs qs with
  | zero =>
    intro x0 x1 q h0 h1 hq x ha hb
    obtain _ | ⟨z0, _ | ⟨z1, xs⟩⟩ := xs
    · cases h0
    · cases h1
    · cases qs with
      | nil => cases hq
      | cons r qs =>
        simp only [List.getElem?_cons_zero, Nat.zero_add, List.getElem?_cons_succ, List.map_cons, Option.some.injEq] at h0 h1 hq
        subst h0 h1 hq
        exact hs.1 x ha hb
  | succ i ih =>
    intro x0 x1 q h0 h1 hq x ha hb
    obtain _ | ⟨z0, _ | ⟨z1, xs⟩⟩ := xs
    · cases h0
    · simp at h0
    · cases qs with
      | nil => cases hq
      | cons r qs => exact ih (z1 :: xs) qs hs.2 x0 x1 q (by simpa using h0) (by simpa using h1) (by simpa using hq) x ha hb

end IBL.SplineSolve
