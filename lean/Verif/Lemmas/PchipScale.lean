import Verif.Lemmas.Pchip

/-! Monotone cubic interpolation of a moved and scaled table, and of a table with all points on one straight line. -/

namespace IBL.Pchip
open PPoly

/-! ### Piecewise polynomials -/

/-- Coefficients of `w` times the polynomial at `t / L`. -/
noncomputable def scalePoly (L w : ℝ) : List ℝ → List ℝ
  | [] => []
  | c :: cs => w * c :: scalePoly L (w / L) cs

theorem polyEval_scale {L : ℝ} (hL : L ≠ 0) (w : ℝ) (q : List ℝ) (t : ℝ) : polyEval (scalePoly L w q) (L * t) = w * polyEval q t := by
  induction q generalizing w with
  | nil => simp [scalePoly, polyEval_nil, polyEval_cons]
  | cons c cs ih =>
    rw [scalePoly, polyEval_cons, polyEval_cons, ih]
    field_simp

private theorem derFrom_scale (L w : ℝ) (n : ℕ) (q : List ℝ) : derFrom n (scalePoly L w q) = scalePoly L w (derFrom n q) := by
  induction q generalizing w n with
  | nil => rfl
  | cons c cs ih => rw [scalePoly, derFrom, derFrom, scalePoly, ih]; congr 1; ring

private theorem polyDer_scale (L w : ℝ) (q : List ℝ) : polyDer (scalePoly L w q) = scalePoly L (w / L) (polyDer q) := by
  cases q with
  | nil => rfl
  | cons c cs => rw [scalePoly, polyDer, polyDer, derFrom_scale]

private theorem intFrom_scale (L w : ℝ) (n : ℕ) (q : List ℝ) : intFrom n (scalePoly L w q) = scalePoly L w (intFrom n q) := by
  induction q generalizing w n with
  | nil => rfl
  | cons c cs ih => rw [scalePoly, intFrom, intFrom, scalePoly, ih]; congr 1; ring

private theorem polyInt_scale {L : ℝ} (hL : L ≠ 0) (w c : ℝ) (q : List ℝ) :
    polyInt (w * L * c) (scalePoly L w q) = scalePoly L (w * L) (polyInt c q) := by
  rw [polyInt, polyInt, scalePoly, intFrom_scale, mul_div_assoc, div_self hL, mul_one]

/-- All pieces moved and scaled. -/
noncomputable def scalePieces (L s w : ℝ) (p : Pieces ℝ) : Pieces ℝ := p.map fun (x0, q) => (L * x0 + s, scalePoly L w q)

theorem eval_scale {L : ℝ} (hL : 0 < L) (s w : ℝ) (p : Pieces ℝ) (x : ℝ) : eval (scalePieces L s w p) (L * x + s) = w * eval p x := by
  have hp : ∀ (x0 : ℝ) (q : List ℝ), polyEval (scalePoly L w q) (L * x + s - (L * x0 + s)) = w * polyEval q (x - x0) := fun x0 q => by
    rw [← polyEval_scale hL.ne' w q]; congr 1; ring
  induction p with
  | nil => simp [scalePieces, eval]
  | cons a p ih =>
    obtain ⟨x0, q⟩ := a
    cases p with
    | nil => exact hp x0 q
    | cons b p =>
      obtain ⟨x1, q1⟩ := b
      have e : scalePieces L s w ((x0, q) :: (x1, q1) :: p) =
        (L * x0 + s, scalePoly L w q) :: (L * x1 + s, scalePoly L w q1) :: scalePieces L s w p := rfl
      have e' : scalePieces L s w ((x1, q1) :: p) = (L * x1 + s, scalePoly L w q1) :: scalePieces L s w p := rfl
      rw [e'] at ih
      rw [e, eval_cons2, eval_cons2, ih, hp]
      have : L * x1 + s ≤ L * x + s ↔ x1 ≤ x := by
        rw [add_le_add_iff_right, mul_le_mul_iff_right₀ hL]
      simp only [this]
      split_ifs <;> rfl

theorem deriv_scale (L s w : ℝ) (p : Pieces ℝ) : deriv (scalePieces L s w p) = scalePieces L s (w / L) (deriv p) := by
  simp only [PPoly.deriv, scalePieces, List.map_map]
  refine List.map_congr_left fun a _ => ?_
  simp [polyDer_scale]

theorem anti_scale {L : ℝ} (hL : L ≠ 0) (s w c : ℝ) (p : Pieces ℝ) :
    anti (w * L * c) (scalePieces L s w p) = scalePieces L s (w * L) (anti c p) := by
  induction p generalizing c with
  | nil => rfl
  | cons a p ih =>
    obtain ⟨x0, q⟩ := a
    cases p with
    | nil => simp [scalePieces, anti, polyInt_scale hL]
    | cons b p =>
      obtain ⟨x1, q1⟩ := b
      have e : scalePieces L s w ((x0, q) :: (x1, q1) :: p) =
        (L * x0 + s, scalePoly L w q) :: (L * x1 + s, scalePoly L w q1) :: scalePieces L s w p := rfl
      have e' : scalePieces L s w ((x1, q1) :: p) = (L * x1 + s, scalePoly L w q1) :: scalePieces L s w p := rfl
      have hv : polyEval (scalePoly L (w * L) (polyInt c q)) (L * x1 + s - (L * x0 + s)) = w * L * polyEval (polyInt c q) (x1 - x0) := by
        rw [← polyEval_scale hL]; congr 1; ring
      rw [e, anti, anti, polyInt_scale hL, hv, ← e', ih]
      rfl

/-! ### Slopes -/

private theorem signsDiffer_scale {r : ℝ} (hr : r ≠ 0) (a b : ℝ) : signsDiffer (r * a) (r * b) = signsDiffer a b := by
  rw [Bool.eq_iff_iff, signsDiffer_iff, signsDiffer_iff, not_iff_not]
  rcases lt_or_gt_of_ne hr with h | h
  · simp only [mul_pos_iff, mul_neg_iff, h, not_lt_of_gt h, false_and, true_and, false_or]
    tauto
  · simp only [mul_pos_iff_of_pos_left h, mul_neg_iff, h, not_lt_of_gt h, false_and, true_and, or_false]

private theorem edgeCase_scale {L r : ℝ} (hL : 0 < L) (hr : r ≠ 0) (h0 h1 m0 m1 : ℝ) :
    edgeCase (L * h0) (L * h1) (r * m0) (r * m1) = r * edgeCase h0 h1 m0 m1 := by
  unfold edgeCase
  simp only [real_lit]
  push_cast
  have hd : ((2 * (L * h0) + L * h1) * (r * m0) - L * h0 * (r * m1)) / (L * h0 + L * h1) =
      r * (((2 * h0 + h1) * m0 - h0 * m1) / (h0 + h1)) := by
    rw [← mul_add, show (2 * (L * h0) + L * h1) * (r * m0) - L * h0 * (r * m1) = L * (r * ((2 * h0 + h1) * m0 - h0 * m1)) by ring,
      mul_div_mul_left _ _ hL.ne', mul_div_assoc]
  have ha : ∀ d m : ℝ, PyCmp.gt (PyCmp.abs (r * d)) (3 * PyCmp.abs (r * m)) = PyCmp.gt (PyCmp.abs d) (3 * PyCmp.abs m) := fun d m => by
    rw [Bool.eq_iff_iff, real_gt, real_gt, real_abs, real_abs, real_abs, real_abs, abs_mul, abs_mul,
      show 3 * (|r| * |m|) = |r| * (3 * |m|) by ring, mul_lt_mul_iff_right₀ (abs_pos.2 hr)]
  rw [hd, signsDiffer_scale hr, signsDiffer_scale hr, ha]
  split_ifs <;> ring

private theorem innerSlope_scale {L r : ℝ} (hL : 0 < L) (hr : r ≠ 0) (h0 h1 m0 m1 : ℝ) :
    innerSlope (L * h0) (L * h1) (r * m0) (r * m1) = r * innerSlope h0 h1 m0 m1 := by
  unfold innerSlope
  have he : ∀ m : ℝ, PyCmp.eq (r * m) (lit 0) = PyCmp.eq m (lit 0) := fun m => by
    rw [Bool.eq_iff_iff, real_eq, real_eq]; simp [hr]
  rw [signsDiffer_scale hr, he, he]
  simp only [real_lit]
  push_cast
  split_ifs
  · ring
  · rw [show 2 * (L * h1) + L * h0 = L * (2 * h1 + h0) by ring, show L * h1 + 2 * (L * h0) = L * (h1 + 2 * h0) by ring,
      mul_div_mul_comm, mul_div_mul_comm, ← mul_add, ← mul_add, mul_div_mul_comm, one_div, one_div, mul_inv]
    congr 1
    field_simp

/-- A point moved and scaled. -/
def scalePoint (L s V : ℝ) (p : ℝ × ℝ) : ℝ × ℝ := (L * p.1 + s, V * p.2)

/-- A point with slope moved and scaled. -/
noncomputable def scaleKnot (L s V : ℝ) (k : Knot ℝ) : Knot ℝ := ⟨L * k.x + s, V * k.y, V / L * k.d⟩

private theorem len_scale (L s V : ℝ) (a b : ℝ × ℝ) : len (scalePoint L s V a) (scalePoint L s V b) = L * len a b := by
  simp only [len, scalePoint]; ring

private theorem chord_scale (L s V : ℝ) (a b : ℝ × ℝ) : chord (scalePoint L s V a) (scalePoint L s V b) = V / L * chord a b := by
  simp only [chord, scalePoint]
  rw [← mul_sub, show L * b.1 + s - (L * a.1 + s) = L * (b.1 - a.1) by ring, mul_div_mul_comm]

private theorem later_scale {L V : ℝ} (hL : 0 < L) (hV : V ≠ 0) (s : ℝ) (a b c : ℝ × ℝ) (rest : List (ℝ × ℝ)) :
    later (scalePoint L s V a) (scalePoint L s V b) (scalePoint L s V c) (rest.map (scalePoint L s V)) =
      (later a b c rest).map (scaleKnot L s V) := by
  have hr : V / L ≠ 0 := div_ne_zero hV hL.ne'
  induction rest generalizing a b c with
  | nil => simp only [List.map_nil, later, List.map_cons, len_scale, chord_scale, edgeCase_scale hL hr]; rfl
  | cons e rest ih => simp only [List.map_cons, later, len_scale, chord_scale, innerSlope_scale hL hr, ih]; rfl

theorem knots_scale {L V : ℝ} (hL : 0 < L) (hV : V ≠ 0) (s : ℝ) (pts : List (ℝ × ℝ)) :
    knots (pts.map (scalePoint L s V)) = (knots pts).map (scaleKnot L s V) := by
  have hr : V / L ≠ 0 := div_ne_zero hV hL.ne'
  match pts with
  | [] => rfl
  | [_] => rfl
  | [a, b] => simp only [List.map_cons, List.map_nil, knots, chord_scale]; rfl
  | a :: b :: c :: rest =>
    simp only [List.map_cons, knots, len_scale, chord_scale, edgeCase_scale hL hr, innerSlope_scale hL hr, later_scale hL hV]; rfl

private theorem hermite_scale {L : ℝ} (hL : 0 < L) (V s : ℝ) (a b : Knot ℝ) :
    hermite (scaleKnot L s V a) (scaleKnot L s V b) = (L * (hermite a b).1 + s, scalePoly L V (hermite a b).2) := by
  have hx : L * b.x + s - (L * a.x + s) = L * (b.x - a.x) := by ring
  have hy : (V * b.y - V * a.y) / (L * (b.x - a.x)) = V / L * ((b.y - a.y) / (b.x - a.x)) := by rw [← mul_sub, mul_div_mul_comm]
  simp only [hermite, scaleKnot, scalePoly, hx, hy, real_lit]
  push_cast
  have h1 : V / L * a.d + V / L * b.d - 2 * (V / L * ((b.y - a.y) / (b.x - a.x))) =
      V / L * (a.d + b.d - 2 * ((b.y - a.y) / (b.x - a.x))) := by ring
  have h2 : ∀ z : ℝ, V / L * z / (L * (b.x - a.x)) = V / L / L * (z / (b.x - a.x)) := fun z => by
    rw [mul_div_mul_comm]
  rw [h1, ← mul_sub, h2, h2, ← mul_sub]
  have h3 : ∀ z : ℝ, V / L / L * z / (L * (b.x - a.x)) = V / L / L / L * (z / (b.x - a.x)) := fun z => by
    rw [mul_div_mul_comm]
  rw [h3]

theorem pieces_scale {L : ℝ} (hL : 0 < L) (V s : ℝ) (K : List (Knot ℝ)) :
    pieces (K.map (scaleKnot L s V)) = scalePieces L s V (pieces K) := by
  induction K with
  | nil => rfl
  | cons a K ih =>
    cases K with
    | nil => rfl
    | cons b K =>
      rw [List.map_cons] at ih
      simp only [List.map_cons, pieces, hermite_scale hL, ih]
      rfl

/-! ### Points on a straight line -/

private theorem edgeCase_same {h0 h1 : ℝ} (m : ℝ) (p0 : 0 < h0) (p1 : 0 < h1) : edgeCase h0 h1 m m = m := by
  unfold edgeCase
  have hd : (((2:ℝ) * h0 + h1) * m - h0 * m) / (h0 + h1) = m := by
    have : h0 + h1 ≠ 0 := by positivity
    field_simp
    ring
  have hs : signsDiffer m m = false := by rw [← Bool.not_eq_true, signsDiffer_iff]; simp
  simp only [real_lit]
  push_cast
  simp [hd, hs]

private theorem innerSlope_same {h0 h1 : ℝ} (m : ℝ) (p0 : 0 < h0) (p1 : 0 < h1) : innerSlope h0 h1 m m = m := by
  unfold innerSlope
  have hs : signsDiffer m m = false := by rw [← Bool.not_eq_true, signsDiffer_iff]; simp
  simp only [hs, real_lit]
  push_cast
  by_cases hm : m = 0
  · simp [hm, real_eq]
  · have : PyCmp.eq m 0 = false := by rw [← Bool.not_eq_true, real_eq]; exact hm
    simp only [this, Bool.or_self, Bool.false_eq_true, if_false]
    have h2 : 2 * h1 + h0 + (h1 + 2 * h0) ≠ 0 := by positivity
    rw [← add_div]
    field_simp

/-- All slopes are `m` and all points on the line with ordinate `c` at 0. -/
def OnLine (c m : ℝ) (k : Knot ℝ) : Prop := k.y = c + m * k.x ∧ k.d = m

private theorem chord_line {c m : ℝ} {a b : ℝ × ℝ} (h : a.1 < b.1) (ha : a.2 = c + m * a.1) (hb : b.2 = c + m * b.1) : chord a b = m := by
  have : b.1 - a.1 ≠ 0 := (sub_pos.2 h).ne'
  rw [chord, ha, hb]
  field_simp
  ring

private theorem later_line {c m : ℝ} (a b e : ℝ × ℝ) (rest : List (ℝ × ℝ)) (h : (a :: b :: e :: rest).IsChain fun p q => p.1 < q.1)
    (hl : ∀ p ∈ a :: b :: e :: rest, p.2 = c + m * p.1) : ∀ k ∈ later a b e rest, OnLine c m k := by
  induction rest generalizing a b e with
  | nil =>
    simp only [List.isChain_cons_cons] at h
    simp only [List.mem_cons, forall_eq_or_imp] at hl
    simp only [later, List.mem_singleton, forall_eq]
    refine ⟨hl.2.2.1, ?_⟩
    show edgeCase _ _ _ _ = _
    rw [chord_line h.2.1 hl.2.1 hl.2.2.1, chord_line h.1 hl.1 hl.2.1]
    exact edgeCase_same m (sub_pos.2 h.2.1) (sub_pos.2 h.1)
  | cons f rest ih =>
    have h' := h
    have hl' := hl
    simp only [List.isChain_cons_cons] at h
    simp only [List.mem_cons, forall_eq_or_imp] at hl
    simp only [later, List.mem_cons, forall_eq_or_imp]
    refine ⟨⟨hl.2.2.1, ?_⟩, ih b e f (List.isChain_cons_cons.1 h').2 fun p hp => hl' p (List.mem_cons_of_mem _ hp)⟩
    show innerSlope _ _ _ _ = _
    rw [chord_line h.2.1 hl.2.1 hl.2.2.1, chord_line h.2.2.1 hl.2.2.1 hl.2.2.2.1]
    exact innerSlope_same m (sub_pos.2 h.2.1) (sub_pos.2 h.2.2.1)

theorem knots_line {c m : ℝ} (pts : List (ℝ × ℝ)) (h : pts.IsChain fun p q => p.1 < q.1) (hl : ∀ p ∈ pts, p.2 = c + m * p.1) :
    ∀ k ∈ knots pts, OnLine c m k := by
  match pts with
  | [] => simp [knots]
  | [_] => simp [knots]
  | [a, b] =>
    simp only [List.isChain_cons_cons] at h
    simp only [List.mem_cons, forall_eq_or_imp] at hl
    have := chord_line h.1 hl.1 hl.2.1
    simp only [knots, List.mem_cons, forall_eq_or_imp]
    exact ⟨⟨hl.1, this⟩, ⟨hl.2.1, this⟩, by simp⟩
  | a :: b :: e :: rest =>
    have hr := later_line a b e rest h hl
    simp only [List.isChain_cons_cons] at h
    simp only [List.mem_cons, forall_eq_or_imp] at hl
    have h1 := chord_line h.1 hl.1 hl.2.1
    have h2 := chord_line h.2.1 hl.2.1 hl.2.2.1
    simp only [knots, List.mem_cons, forall_eq_or_imp]
    refine ⟨⟨hl.1, ?_⟩, ⟨hl.2.1, ?_⟩, hr⟩
    · show edgeCase _ _ _ _ = _
      rw [h1, h2]
      exact edgeCase_same m (sub_pos.2 h.1) (sub_pos.2 h.2.1)
    · show innerSlope _ _ _ _ = _
      rw [h1, h2]
      exact innerSlope_same m (sub_pos.2 h.1) (sub_pos.2 h.2.1)

private theorem hermite_line {c m : ℝ} {a b : Knot ℝ} (h : a.x < b.x) (ha : OnLine c m a) (hb : OnLine c m b) :
    hermite a b = (a.x, [c + m * a.x, m, 0, 0]) := by
  have hx : b.x - a.x ≠ 0 := (sub_pos.2 h).ne'
  have hs : (b.y - a.y) / (b.x - a.x) = m := by
    rw [ha.1, hb.1]; field_simp; ring
  simp only [hermite, hs, ha.2, hb.2, real_lit]
  push_cast
  have : m + m - 2 * m = 0 := by ring
  simp [this, ha.1]

/-- The interpolant of points on a line, its derivative and its second derivative. -/
theorem pieces_line {c m : ℝ} (K : List (Knot ℝ)) (h : Ascending K) (hk : ∀ k ∈ K, OnLine c m k) (h2 : 2 ≤ K.length) (x : ℝ) :
    eval (pieces K) x = c + m * x ∧ eval (deriv (pieces K)) x = m ∧ eval (deriv (deriv (pieces K))) x = 0 := by
  induction K with
  | nil => simp at h2
  | cons a K ih =>
    match K with
    | [] => simp at h2
    | [b] =>
      have hab : a.x < b.x := (List.isChain_cons_cons.1 h).1
      simp only [pieces, hermite_line hab (hk a (by simp)) (hk b (by simp))]
      simp [eval, PPoly.deriv, polyEval_nil, polyEval_cons, polyDer, derFrom]
      ring
    | b :: e :: K =>
      have hab : a.x < b.x := (List.isChain_cons_cons.1 h).1
      have hbe : b.x < e.x := (List.isChain_cons_cons.1 (List.isChain_cons_cons.1 h).2).1
      obtain ⟨i1, i2, i3⟩ := ih (List.isChain_cons_cons.1 h).2 (fun k hk' => hk k (List.mem_cons_of_mem _ hk')) (by simp)
      have e0 : pieces (a :: b :: e :: K) = (a.x, [c + m * a.x, m, 0, 0]) :: (b.x, [c + m * b.x, m, 0, 0]) :: pieces (e :: K) := by
        simp only [pieces, hermite_line hab (hk a (by simp)) (hk b (by simp)), hermite_line hbe (hk b (by simp)) (hk e (by simp))]
      have e1 : pieces (b :: e :: K) = (b.x, [c + m * b.x, m, 0, 0]) :: pieces (e :: K) := by
        simp only [pieces, hermite_line hbe (hk b (by simp)) (hk e (by simp))]
      rw [e1] at i1 i2 i3
      simp only [PPoly.deriv, List.map_cons] at i2 i3
      rw [e0]
      simp only [PPoly.deriv, List.map_cons]
      rw [eval_cons2, eval_cons2, eval_cons2, i1, i2, i3]
      refine ⟨?_, ?_, ?_⟩ <;> split_ifs <;> simp [polyEval_nil, polyEval_cons, polyDer, derFrom]
      ring

end IBL.Pchip
