import Verif.Lemmas.Pchip

/-! The interpolation of a table of finite numbers in extended arithmetic is the one in real arithmetic: no operation leaves the finite numbers. -/

namespace IBL.Pchip
open PPoly Flt

theorem fin_gt (a b : ℝ) : PyCmp.gt (fin a) (fin b) = decide (b < a) := rfl

private theorem rgt (a b : ℝ) : PyCmp.gt a b = decide (b < a) := by rw [Bool.eq_iff_iff]; simp
private theorem rlt (a b : ℝ) : PyCmp.lt a b = decide (a < b) := by rw [Bool.eq_iff_iff]; simp
private theorem rle (a b : ℝ) : PyCmp.le a b = decide (a ≤ b) := by rw [Bool.eq_iff_iff]; simp
private theorem req (a b : ℝ) : PyCmp.eq a b = decide (a = b) := by rw [Bool.eq_iff_iff]; simp

theorem fin_abs (a : ℝ) : PyCmp.abs (fin a) = fin |a| := rfl

private theorem fin_ite (c : Bool) (a b : ℝ) : (if c = true then fin a else fin b) = fin (if c = true then a else b) := by cases c <;> rfl

theorem sign_fin (v : ℝ) : sign (fin v) = fin (sign v) := by
  simp only [sign, lit_fin, fin_neg, fin_gt, fin_lt, real_lit, rgt, rlt, decide_eq_true_eq]
  split_ifs <;> simp_all

theorem signsDiffer_fin (a b : ℝ) : signsDiffer (fin a) (fin b) = signsDiffer a b := by
  simp only [signsDiffer, sign_fin, fin_eq, req]

theorem edgeCase_fin {h0 h1 : ℝ} (m0 m1 : ℝ) (h : h0 + h1 ≠ 0) : edgeCase (fin h0) (fin h1) (fin m0) (fin m1) = fin (edgeCase h0 h1 m0 m1) := by
  simp only [edgeCase, lit_fin, fin_mul, fin_add, fin_sub, fin_div _ _ h, signsDiffer_fin, fin_abs, fin_gt, rgt, real_abs, real_lit, fin_ite]

theorem innerSlope_fin {h0 h1 : ℝ} (m0 m1 : ℝ) (p0 : 0 < h0) (p1 : 0 < h1) :
    innerSlope (fin h0) (fin h1) (fin m0) (fin m1) = fin (innerSlope h0 h1 m0 m1) := by
  simp only [innerSlope, signsDiffer_fin, lit_fin, fin_eq, req, real_lit, Rat.cast_zero]
  by_cases hc : (signsDiffer m1 m0 || decide (m1 = 0) || decide (m0 = 0)) = true
  · simp only [hc, if_true]
  · simp only [hc, Bool.false_eq_true, if_false]
    simp only [Bool.or_eq_true, decide_eq_true_eq, not_or] at hc
    obtain ⟨⟨hs, n1⟩, n0⟩ := hc
    have hs' := (signsDiffer_iff m1 m0).not.1 hs
    rw [not_not] at hs'
    have w1 : 0 < 2 * h1 + h0 := by linarith
    have w2 : 0 < h1 + 2 * h0 := by linarith
    have hsum : (2 * h1 + h0) + (h1 + 2 * h0) ≠ 0 := by linarith
    have hne : ((2 * h1 + h0) / m0 + (h1 + 2 * h0) / m1) / ((2 * h1 + h0) + (h1 + 2 * h0)) ≠ 0 := by
      refine div_ne_zero ?_ hsum
      rcases lt_or_gt_of_ne n0 with hm | hm
      · have hm1 := hs'.2.2 hm
        have a1 := div_neg_of_pos_of_neg w1 hm
        have a2 := div_neg_of_pos_of_neg w2 hm1
        linarith
      · have hm1 := hs'.1.2 hm
        have a1 := div_pos w1 hm
        have a2 := div_pos w2 hm1
        linarith
    simp only [fin_mul, fin_add, Rat.cast_ofNat, Rat.cast_one, fin_div _ _ n0, fin_div _ _ n1, fin_div _ _ hsum, fin_div _ _ hne]

/-- A point of finite numbers. -/
def finPoint (p : ℝ × ℝ) : Flt ℝ × Flt ℝ := (fin p.1, fin p.2)
/-- A point with slope of finite numbers. -/
def finKnot (k : Knot ℝ) : Knot (Flt ℝ) := ⟨fin k.x, fin k.y, fin k.d⟩
/-- Pieces of finite numbers. -/
def finPieces (p : Pieces ℝ) : Pieces (Flt ℝ) := p.map fun (x0, q) => (fin x0, q.map fin)

private theorem len_fin (a b : ℝ × ℝ) : len (finPoint a) (finPoint b) = fin (len a b) := by simp only [len, finPoint, fin_sub]

private theorem chord_fin {a b : ℝ × ℝ} (h : a.1 < b.1) : chord (finPoint a) (finPoint b) = fin (chord a b) := by
  simp only [chord, finPoint, fin_sub, fin_div _ _ (sub_pos.2 h).ne']

private theorem len_pos {a b : ℝ × ℝ} (h : a.1 < b.1) : 0 < len a b := sub_pos.2 h

private theorem later_fin (a b c : ℝ × ℝ) (rest : List (ℝ × ℝ)) (h : (a :: b :: c :: rest).IsChain fun p q => p.1 < q.1) :
    later (finPoint a) (finPoint b) (finPoint c) (rest.map finPoint) = (later a b c rest).map finKnot := by
  induction rest generalizing a b c with
  | nil =>
    simp only [List.isChain_cons_cons] at h
    have hab := len_pos h.1
    have hbc := len_pos h.2.1
    simp only [List.map_nil, later, len_fin, chord_fin h.1, chord_fin h.2.1,
      edgeCase_fin _ _ (add_pos hbc hab).ne', List.map_cons]
    rfl
  | cons e rest ih =>
    have h' : (b :: c :: e :: rest).IsChain fun p q => p.1 < q.1 := (List.isChain_cons_cons.1 h).2
    have h1 := List.isChain_cons_cons.1 h'
    have h2 := List.isChain_cons_cons.1 h1.2
    simp only [List.map_cons, later, len_fin, chord_fin h1.1, chord_fin h2.1, innerSlope_fin _ _ (len_pos h1.1) (len_pos h2.1), ih b c e h']
    rfl

theorem knots_fin {pts : List (ℝ × ℝ)} (h : pts.IsChain fun p q => p.1 < q.1) : knots (pts.map finPoint) = (knots pts).map finKnot := by
  match pts, h with
  | [], _ => rfl
  | [_], _ => rfl
  | [a, b], h =>
    have h1 := List.isChain_cons_cons.1 h
    simp only [List.map_cons, List.map_nil, knots, chord_fin h1.1]
    rfl
  | a :: b :: c :: rest, h =>
    have h1 := List.isChain_cons_cons.1 h
    have h2 := List.isChain_cons_cons.1 h1.2
    simp only [List.map_cons, knots, len_fin, chord_fin h1.1, chord_fin h2.1, innerSlope_fin _ _ (len_pos h1.1) (len_pos h2.1),
      edgeCase_fin _ _ (add_pos (len_pos h1.1) (len_pos h2.1)).ne', later_fin a b c rest h]
    rfl

private theorem hermite_fin {a b : Knot ℝ} (h : a.x < b.x) : hermite (finKnot a) (finKnot b) = (fin (hermite a b).1, (hermite a b).2.map fin) := by
  have hx : b.x - a.x ≠ 0 := (sub_pos.2 h).ne'
  simp only [hermite, finKnot, fin_sub, fin_div _ _ hx, fin_add, fin_mul, lit_fin, real_lit, List.map_cons, List.map_nil]

theorem pieces_fin {K : List (Knot ℝ)} (h : Ascending K) : pieces (K.map finKnot) = finPieces (pieces K) := by
  induction K with
  | nil => rfl
  | cons a K ih =>
    cases K with
    | nil => rfl
    | cons b K =>
      have h' := List.isChain_cons_cons.1 h
      have := ih h'.2
      simp only [List.map_cons] at this
      simp only [List.map_cons, pieces, hermite_fin h'.1, this, finPieces]

theorem polyEval_fin (q : List ℝ) (t : ℝ) : polyEval (q.map fin) (fin t) = fin (polyEval q t) := by
  have h : ∀ acc z : ℝ, polySum (fin t) (fin acc) (fin z) (q.map fin) = fin (polySum t acc z q) := by
    induction q with
    | nil => intro _ _; rfl
    | cons c q ih => intro acc z; simp only [List.map_cons, polySum, ih, fin_mul, fin_add]
  simp only [polyEval, lit_fin, real_lit]
  exact h _ _

theorem eval_fin (p : Pieces ℝ) (x : ℝ) : eval (finPieces p) (fin x) = fin (eval p x) := by
  induction p with
  | nil => simp [finPieces, eval]
  | cons a p ih =>
    cases p with
    | nil => simp only [finPieces, List.map_cons, List.map_nil, eval, fin_sub, polyEval_fin]
    | cons b p =>
      simp only [finPieces, List.map_cons] at ih
      simp only [finPieces, List.map_cons, eval, fin_sub, polyEval_fin, ih, fin_lt, rlt, fin_ite]

private theorem derFrom_fin (n : ℕ) (q : List ℝ) : derFrom n (q.map fin) = (derFrom n q).map fin := by
  induction q generalizing n with
  | nil => rfl
  | cons c q ih => simp only [List.map_cons, derFrom, ih, lit_fin, fin_mul, real_lit]

theorem deriv_fin (p : Pieces ℝ) : PPoly.deriv (finPieces p) = finPieces (PPoly.deriv p) := by
  simp only [PPoly.deriv, finPieces, List.map_map]
  refine List.map_congr_left fun a _ => ?_
  rcases a with ⟨x, q⟩
  cases q with
  | nil => rfl
  | cons c q => simp only [Function.comp, polyDer, List.map_cons, derFrom_fin]

private theorem intFrom_fin (n : ℕ) (q : List ℝ) : intFrom n (q.map fin) = (intFrom n q).map fin := by
  induction q generalizing n with
  | nil => rfl
  | cons c q ih =>
    have : (((n : ℚ) + 1 : ℚ) : ℝ) ≠ 0 := by exact_mod_cast Nat.succ_ne_zero n
    simp only [List.map_cons, intFrom, ih, lit_fin, real_lit, fin_div _ _ this]

theorem anti_fin (c : ℝ) (p : Pieces ℝ) : anti (fin c) (finPieces p) = finPieces (anti c p) := by
  induction p generalizing c with
  | nil => rfl
  | cons a p ih =>
    cases p with
    | nil => simp only [finPieces, List.map_cons, List.map_nil, anti, polyInt, intFrom_fin]
    | cons b p =>
      have e := ih (polyEval (polyInt c a.2) (b.1 - a.1))
      simp only [finPieces, List.map_cons] at e
      have e2 : polyEval (fin c :: (intFrom 0 a.2).map fin) (fin b.1 - fin a.1) = fin (polyEval (c :: intFrom 0 a.2) (b.1 - a.1)) := by
        rw [fin_sub, ← List.map_cons (f := fin), polyEval_fin]
      simp only [finPieces, List.map_cons, anti, polyInt, intFrom_fin, e2]
      simp only [polyInt] at e
      rw [e]

/-- At an undefined location a piecewise polynomial of degree at least one is undefined. -/
theorem eval_nan (p : Pieces (Flt ℝ)) (hne : p ≠ []) (hq : ∀ a ∈ p, 2 ≤ a.2.length) : eval p nan = nan := by
  have add_nan : ∀ c : Flt ℝ, c + nan = nan := fun c => by cases c <;> rfl
  have nan_add : ∀ c : Flt ℝ, nan + c = nan := fun c => by cases c <;> rfl
  have mul_nan : ∀ c : Flt ℝ, c * nan = nan := fun c => by cases c <;> rfl
  have nan_sub : ∀ c : Flt ℝ, nan - c = nan := fun c => by cases c <;> rfl
  induction p with
  | nil => exact absurd rfl hne
  | cons a p ih =>
    cases p with
    | nil =>
      obtain ⟨x, q⟩ := a
      have := hq (x, q) (by simp)
      have stay : ∀ (q : List (Flt ℝ)) (z : Flt ℝ), polySum nan nan z q = nan := by
        intro q
        induction q with
        | nil => intro _; rfl
        | cons c q ih => intro z; rw [polySum, nan_add, ih]
      match q, this with
      | c :: e :: q, _ => simp only [eval, polyEval, polySum, nan_sub, mul_nan, add_nan, stay]
    | cons b p =>
      have : PyCmp.lt (nan : Flt ℝ) b.1 = false := rfl
      simp only [eval, this, Bool.false_eq_true, if_false]
      exact ih (by simp) fun a ha => hq a (List.mem_cons_of_mem _ ha)

end IBL.Pchip
