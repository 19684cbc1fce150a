import Verif.Props.HeadFloat
import Verif.Lemmas.PchipRound
import Verif.Model.Pchip

/-!
C155: tables of velocities in rounded arithmetic, in units of length and velocity that differ by powers of two. No rounding of the interpolation
changes.
-/

set_option linter.unusedSectionVars false

namespace IBL

variable {R : Rounding}

/-! ### Specification -/

/-- The array with `2 ^ n` times the entries. -/
noncomputable def Arr.times (n : ℤ) (a : Arr R.F) : Arr R.F := ⟨a.shape, a.data.map (IBL.times n)⟩

/-- The velocities `v'` are those of `v` in other units: lengths are `2 ^ k` times and velocities `2 ^ n` times as large. -/
def BinaryUnits (k n : ℤ) (v v' : VelState R.F) : Prop :=
  ∀ x, v'.uE (times k x) = (v.uE x).map (times n) ∧ v'.duE (times k x) = (v.duE x).map (times (n - k)) ∧
    v'.d2uE (times k x) = (v.d2uE x).map (times (n - 2 * k))

/-! ### Exact multiples -/

namespace Pchip
open PPoly

variable [PyPow R.F]

private theorem pp (n : ℤ) : (0:ℝ) < 2 ^ n := zpow_pos two_pos n

private theorem tt (m n : ℤ) (a : R.F) : times m (times n a) = times (m + n) a := by
  apply Rounding.F.ext; show 2 ^ m * (2 ^ n * a.val) = 2 ^ (m + n) * a.val; rw [zpow_add₀ two_ne_zero, mul_assoc]
private theorem t0 (a : R.F) : times 0 a = a := by
  apply Rounding.F.ext; show 2 ^ (0:ℤ) * a.val = a.val; simp
private theorem tz (n : ℤ) : times n (lit 0 : R.F) = lit 0 := by
  apply Rounding.F.ext; show 2 ^ n * (lit 0 : R.F).val = (lit 0 : R.F).val; rw [Rounding.val_zero, mul_zero]
private theorem td (m n : ℤ) (a b : R.F) : times m a / times n b = times (m - n) (a / b) := by
  have h : times m a = times n (times (m - n) a) := by rw [tt]; congr 1; ring
  rw [h, times_div_times, times_div]
private theorem tm (m n : ℤ) (a b : R.F) : times m a * times n b = times (m + n) (a * b) := by
  rw [times_mul, mul_times, tt]
private theorem od (n : ℤ) (a b : R.F) : a / times n b = times (-n) (a / b) := by
  conv_lhs => rw [← t0 a]
  rw [td, zero_sub]
private theorem tabs (n : ℤ) (a : R.F) : PyCmp.abs (times n a) = times n (PyCmp.abs a) := by
  apply Rounding.F.ext; show |2 ^ n * a.val| = 2 ^ n * |a.val|; rw [abs_mul, abs_of_pos (pp n)]
private theorem tgt (n : ℤ) (a b : R.F) : PyCmp.gt (times n a) (times n b) = PyCmp.gt a b := by
  rw [Bool.eq_iff_iff, Rounding.F_gt, Rounding.F_gt]; exact mul_lt_mul_iff_right₀ (pp n)
private theorem tlt (n : ℤ) (a b : R.F) : PyCmp.lt (times n a) (times n b) = PyCmp.lt a b := by
  rw [Bool.eq_iff_iff, Rounding.F_lt, Rounding.F_lt]; exact mul_lt_mul_iff_right₀ (pp n)
private theorem tsign (n : ℤ) (a b : R.F) : signsDiffer (times n a) (times n b) = signsDiffer a b := by
  rw [F_signsDiffer, F_signsDiffer, Bool.eq_iff_iff, signsDiffer_iff, signsDiffer_iff, not_iff_not]
  simp only [times, mul_pos_iff_of_pos_left (pp n), mul_neg_iff, pp n, not_lt_of_gt (pp n), false_and, true_and, or_false]

private theorem edgeCase_times (k r : ℤ) (h0 h1 m0 m1 : R.F) :
    edgeCase (times k h0) (times k h1) (times r m0) (times r m1) = times r (edgeCase h0 h1 m0 m1) := by
  have hd : ((lit 2 * times k h0 + times k h1) * times r m0 - times k h0 * times r m1) / (times k h0 + times k h1) =
      times r (((lit 2 * h0 + h1) * m0 - h0 * m1) / (h0 + h1)) := by
    rw [mul_times k (lit 2), times_add, times_add, tm, tm, times_sub, td, add_sub_cancel_left]
  unfold edgeCase
  rw [hd]
  dsimp only
  rw [tsign, tsign, tabs, tabs, mul_times, mul_times, tgt]
  split_ifs
  · rw [tz]
  · rfl
  · rfl

private theorem innerSlope_times (k r : ℤ) (h0 h1 m0 m1 : R.F) :
    innerSlope (times k h0) (times k h1) (times r m0) (times r m1) = times r (innerSlope h0 h1 m0 m1) := by
  have hd : lit 1 / (((lit 2 * times k h1 + times k h0) / times r m0 + (times k h1 + lit 2 * times k h0) / times r m1) /
      (lit 2 * times k h1 + times k h0 + (times k h1 + lit 2 * times k h0))) =
      times r (lit 1 / (((lit 2 * h1 + h0) / m0 + (h1 + lit 2 * h0) / m1) / (lit 2 * h1 + h0 + (h1 + lit 2 * h0)))) := by
    rw [mul_times, mul_times, times_add, times_add, times_add, td, td, times_add, td, od]
    congr 1; ring
  unfold innerSlope
  dsimp only
  rw [hd, tsign, eq_times, eq_times]
  split_ifs
  · rw [tz]
  · rfl

/-- A point of a table in the other units. -/
noncomputable def timesPoint (k n : ℤ) (p : R.F × R.F) : R.F × R.F := (times k p.1, times n p.2)

/-- A point with slope in the other units. -/
noncomputable def timesKnot (k n : ℤ) (p : Knot R.F) : Knot R.F := ⟨times k p.x, times n p.y, times (n - k) p.d⟩

/-- Coefficients in the other units. -/
noncomputable def timesPoly (k : ℤ) : ℤ → List R.F → List R.F
  | _, [] => []
  | w, c :: cs => times w c :: timesPoly k (w - k) cs

/-- All pieces in the other units. -/
noncomputable def timesPieces (k w : ℤ) (p : Pieces R.F) : Pieces R.F := p.map fun (x0, q) => (times k x0, timesPoly k w q)

private theorem len_times (k n : ℤ) (a b : R.F × R.F) : len (timesPoint k n a) (timesPoint k n b) = times k (len a b) := by
  simp only [len, timesPoint, times_sub]
private theorem chord_times (k n : ℤ) (a b : R.F × R.F) : chord (timesPoint k n a) (timesPoint k n b) = times (n - k) (chord a b) := by
  simp only [chord, timesPoint, times_sub, td]

private theorem later_times (k n : ℤ) (a b c : R.F × R.F) (rest : List (R.F × R.F)) :
    later (timesPoint k n a) (timesPoint k n b) (timesPoint k n c) (rest.map (timesPoint k n)) = (later a b c rest).map (timesKnot k n) := by
  induction rest generalizing a b c with
  | nil => simp only [List.map_nil, later, List.map_cons, len_times, chord_times, edgeCase_times]; rfl
  | cons e rest ih => simp only [List.map_cons, later, len_times, chord_times, innerSlope_times, ih]; rfl

private theorem knots_times (k n : ℤ) (pts : List (R.F × R.F)) : knots (pts.map (timesPoint k n)) = (knots pts).map (timesKnot k n) := by
  match pts with
  | [] => rfl
  | [_] => rfl
  | [a, b] => simp only [List.map_cons, List.map_nil, knots, chord_times]; rfl
  | a :: b :: c :: rest =>
    simp only [List.map_cons, knots, len_times, chord_times, edgeCase_times, innerSlope_times, later_times]; rfl

private theorem hermite_times (k n : ℤ) (a b : Knot R.F) :
    hermite (timesKnot k n a) (timesKnot k n b) = (times k (hermite a b).1, timesPoly k n (hermite a b).2) := by
  simp only [hermite, timesKnot, timesPoly, times_sub, td, mul_times, times_add]

private theorem pieces_times (k n : ℤ) (K : List (Knot R.F)) : pieces (K.map (timesKnot k n)) = timesPieces k n (pieces K) := by
  induction K with
  | nil => rfl
  | cons a K ih =>
    cases K with
    | nil => rfl
    | cons b K =>
      rw [List.map_cons] at ih
      simp only [List.map_cons, pieces, hermite_times, ih]
      rfl

private theorem polySum_times (k w j : ℤ) (t acc z : R.F) (cs : List R.F) :
    polySum (times k t) (times (w + j) acc) (times j z) (timesPoly k w cs) = times (w + j) (polySum t acc z cs) := by
  induction cs generalizing w j acc z with
  | nil => rfl
  | cons c cs ih =>
    simp only [timesPoly, polySum, tm, times_add]
    have := ih (w - k) (j + k) (acc + c * z) (z * t)
    rwa [show w - k + (j + k) = w + j by ring] at this

private theorem polyEval_times (k w : ℤ) (q : List R.F) (t : R.F) : polyEval (timesPoly k w q) (times k t) = times w (polyEval q t) := by
  have := polySum_times k w 0 t (lit 0) (lit 1) q
  rwa [tz, t0, add_zero] at this

private theorem eval_times (k w : ℤ) (p : Pieces R.F) (x : R.F) : eval (timesPieces k w p) (times k x) = times w (eval p x) := by
  induction p with
  | nil => exact (tz w).symm
  | cons a p ih =>
    obtain ⟨x0, q⟩ := a
    cases p with
    | nil => show polyEval (timesPoly k w q) (times k x - times k x0) = _; rw [times_sub, polyEval_times]; rfl
    | cons b p =>
      obtain ⟨x1, q1⟩ := b
      show (if PyCmp.lt (times k x) (times k x1) then polyEval (timesPoly k w q) (times k x - times k x0) else
        eval (timesPieces k w ((x1, q1) :: p)) (times k x)) = times w (if PyCmp.lt x x1 then polyEval q (x - x0) else eval ((x1, q1) :: p) x)
      rw [ih, tlt, times_sub, polyEval_times]
      split_ifs <;> rfl

private theorem derFrom_times (k w : ℤ) (i : ℕ) (q : List R.F) : derFrom i (timesPoly k w q) = timesPoly k w (derFrom i q) := by
  induction q generalizing w i with
  | nil => rfl
  | cons c cs ih => rw [timesPoly, derFrom, derFrom, timesPoly, ih, mul_times]

private theorem polyDer_times (k w : ℤ) (q : List R.F) : polyDer (timesPoly k w q) = timesPoly k (w - k) (polyDer q) := by
  cases q with
  | nil => rfl
  | cons c cs => rw [timesPoly, polyDer, polyDer, derFrom_times]

private theorem intFrom_times (k w : ℤ) (i : ℕ) (q : List R.F) : intFrom i (timesPoly k w q) = timesPoly k w (intFrom i q) := by
  induction q generalizing w i with
  | nil => rfl
  | cons c cs ih => rw [timesPoly, intFrom, intFrom, timesPoly, ih, times_div]

private theorem polyInt_times (k w : ℤ) (c : R.F) (q : List R.F) : polyInt (times (w + k) c) (timesPoly k w q) = timesPoly k (w + k) (polyInt c q) := by
  rw [polyInt, polyInt, timesPoly, intFrom_times, add_sub_cancel_right]

private theorem deriv_times (k w : ℤ) (p : Pieces R.F) : deriv (timesPieces k w p) = timesPieces k (w - k) (deriv p) := by
  simp only [PPoly.deriv, timesPieces, List.map_map]
  refine List.map_congr_left fun a _ => ?_
  simp [polyDer_times]

private theorem anti_times (k w : ℤ) (c : R.F) (p : Pieces R.F) : anti (times (w + k) c) (timesPieces k w p) = timesPieces k (w + k) (anti c p) := by
  induction p generalizing c with
  | nil => rfl
  | cons a p ih =>
    obtain ⟨x0, q⟩ := a
    cases p with
    | nil => simp [timesPieces, anti, polyInt_times]
    | cons b p =>
      obtain ⟨x1, q1⟩ := b
      show (times k x0, polyInt (times (w + k) c) (timesPoly k w q)) ::
        anti (polyEval (polyInt (times (w + k) c) (timesPoly k w q)) (times k x1 - times k x0)) (timesPieces k w ((x1, q1) :: p)) = _
      rw [polyInt_times, times_sub, polyEval_times, ih]
      rfl

private theorem finite_times (n : ℤ) (l : List R.F) : (l.map (times n)).all isFinite = l.all isFinite := by
  rw [List.all_map]
  congr 1
  funext v
  simp only [Function.comp_apply, isFinite, times_sub, eq_times]

private theorem increasing_times (k : ℤ) (l : List R.F) : increasing (l.map (times k)) = increasing l := by
  induction l with
  | nil => rfl
  | cons a l ih =>
    cases l with
    | nil => rfl
    | cons b l =>
      rw [List.map_cons] at ih
      simp only [List.map_cons, increasing, times_sub, le_times, ih]

/-- The interpolants of a table in two systems of units: the same exception, or splines that agree to the last digit. -/
theorem interpolator_times (other : Pchip R.F) (k n : ℤ) (xs ys : Arr R.F) (hx : xs.shape.length = 1) (hy : ys.shape.length = 1) :
    (∃ e, interpolator other xs ys = .error e ∧ interpolator other (xs.times k) (ys.times n) = .error e) ∨
    ∃ p p', interpolator other xs ys = .ok p ∧ interpolator other (xs.times k) (ys.times n) = .ok p' ∧
      ∀ x, p'.call (times k x) = times n (p.call x) ∧ p'.d1 (times k x) = times (n - k) (p.d1 x) ∧ p'.d2 (times k x) = times (n - 2 * k) (p.d2 x) ∧
        p'.anti (times k x) = times (n + k) (p.anti x) := by
  obtain ⟨sx, dx⟩ := xs
  obtain ⟨sy, dy⟩ := ys
  obtain ⟨a, rfl⟩ := List.length_eq_one_iff.mp hx
  obtain ⟨b, rfl⟩ := List.length_eq_one_iff.mp hy
  simp only [interpolator, Arr.times, finite_times, increasing_times]
  split_ifs
  · exact .inl ⟨_, rfl, rfl⟩
  · exact .inl ⟨_, rfl, rfl⟩
  · exact .inl ⟨_, rfl, rfl⟩
  · exact .inl ⟨_, rfl, rfl⟩
  · have hz : (dx.map (times k)).zip (dy.map (times n)) = (dx.zip dy).map (timesPoint k n) := by
      rw [List.zip_map]; rfl
    refine .inr ⟨_, _, rfl, rfl, fun x => ?_⟩
    simp only [toSpline, hz, knots_times, pieces_times, deriv_times, eval_times]
    refine ⟨trivial, trivial, by congr 1; ring, ?_⟩
    rw [← tz (n + k), anti_times, eval_times, tz]

end Pchip

/-! ### C155 -/

variable [PyPow R.F]

/-- **C155**: two objects are given the same table of velocities, each in its units. Both calls return, or both raise the same exception; if they return,
the velocities are the same in the two systems of units, to the last digit, everywhere. The other arguments are ignored. -/
theorem float_table_units (ext : Ext R.F) (other : Pchip R.F) (hext : ext.pchip = Pchip.interpolator other) (k n : ℤ) (o o' : Obj R.F)
    (xs ys : Arr R.F) (a b a' b' : Arg R.F) :
    (o'.setVelocity ext (.pair (xs.times k) (ys.times n)) a' b').2 = (o.setVelocity ext (.pair xs ys) a b).2 ∧
    ((o.setVelocity ext (.pair xs ys) a b).2 = .ok () →
      BinaryUnits k n (o.setVelocity ext (.pair xs ys) a b).1.vel (o'.setVelocity ext (.pair (xs.times k) (ys.times n)) a' b').1.vel) := by
  have hs : ∀ m (z : Arr R.F), (z.times m).shape = z.shape := fun _ _ => rfl
  have key := Pchip.interpolator_times (R := R) other k n xs ys
  simp only [Obj.setVelocity, setVelocity, hs, hext]
  rcases hxs : xs.shape with _ | ⟨npts, tl⟩
  · exact ⟨rfl, fun h => by cases h⟩
  rcases hys : ys.shape with _ | ⟨m, _ | ⟨_, _⟩⟩
  · dsimp only; split_ifs <;> exact ⟨rfl, fun h => by cases h⟩
  · dsimp only
    split_ifs with h1 h2 h3
    · exact ⟨rfl, fun h => by cases h⟩
    · exact ⟨rfl, fun h => by cases h⟩
    · exact ⟨rfl, fun h => by cases h⟩
    · rcases key (by rw [hxs, not_not.mp h1]; rfl) (by rw [hys]; rfl) with ⟨e, e1, e2⟩ | ⟨p, p', e1, e2, hp⟩
      · rw [e1, e2]; exact ⟨rfl, fun h => by cases h⟩
      · rw [e1, e2]
        refine ⟨rfl, fun _ x => ?_⟩
        obtain ⟨q1, q2, q3, -⟩ := hp x
        refine ⟨?_, ?_, ?_⟩
        · show Except.ok (p'.call (times k x)) = _; rw [q1]; rfl
        · show Except.ok (p'.d1 (times k x)) = _; rw [q2]; rfl
        · show Except.ok (p'.d2 (times k x)) = _; rw [q3]; rfl
  · dsimp only; split_ifs <;> exact ⟨rfl, fun h => by cases h⟩

/-- **C155** for a table of slopes with a start value. -/
theorem float_table_slope_units (ext : Ext R.F) (other : Pchip R.F) (hext : ext.pchip = Pchip.interpolator other) (k n : ℤ) (o o' : Obj R.F)
    (start : R.F) (xs ys : Arr R.F) (hx : xs.shape.length = 1) (hy : ys.shape.length = 1) (b b' : Arg R.F) :
    (o'.setVelocity ext (.num (times n start)) (.pair (xs.times k) (ys.times (n - k))) b').2 = (o.setVelocity ext (.num start) (.pair xs ys) b).2 ∧
    ((o.setVelocity ext (.num start) (.pair xs ys) b).2 = .ok () →
      BinaryUnits k n (o.setVelocity ext (.num start) (.pair xs ys) b).1.vel
        (o'.setVelocity ext (.num (times n start)) (.pair (xs.times k) (ys.times (n - k))) b').1.vel) := by
  simp only [Obj.setVelocity, setVelocity, hext]
  rcases Pchip.interpolator_times (R := R) other k (n - k) xs ys hx hy with ⟨e, e1, e2⟩ | ⟨p, p', e1, e2, hp⟩
  · rw [e1, e2]; exact ⟨rfl, fun h => by cases h⟩
  · rw [e1, e2]
    refine ⟨rfl, fun _ x => ?_⟩
    obtain ⟨q1, q2, -, q4⟩ := hp x
    refine ⟨?_, ?_, ?_⟩
    · show Except.ok (p'.anti (times k x) + times n start) = Except.ok (times n (p.anti x + start))
      rw [q4, sub_add_cancel, times_add]
    · show Except.ok (p'.call (times k x)) = _; rw [q1]; rfl
    · show Except.ok (p'.d1 (times k x)) = Except.ok (times (n - 2 * k) (p.d1 x)); rw [q2]; congr 2; ring

/-- A table that is accepted, so that the second parts say something. -/
theorem float_table_case (ext : Ext R.F) (other : Pchip R.F) (hext : ext.pchip = Pchip.interpolator other) (o : Obj R.F) (start : R.F) (a b : Arg R.F) :
    ∃ xs ys : Arr R.F, (o.setVelocity ext (.pair xs ys) a b).2 = .ok () ∧ (o.setVelocity ext (.num start) (.pair xs ys) b).2 = .ok () ∧
      xs.shape.length = 1 ∧ ys.shape.length = 1 := by
  have h0 : ∀ v : R.F, PyCmp.eq (v - v) (lit 0) = true := fun v => by
    rw [Rounding.F_eq, Rounding.val_zero]; show R.rd (v.val - v.val) = 0; rw [sub_self, R.rd_zero]
  have hi : PyCmp.le ((lit 1 : R.F) - lit 0) (lit 0) = false := by
    rw [Bool.eq_false_iff, ne_eq, Rounding.F_le, Rounding.val_zero, not_le]
    show 0 < R.rd ((lit 1 : R.F).val - (lit 0 : R.F).val)
    rw [Rounding.val_one, Rounding.val_zero, sub_zero, R.rd_one]; norm_num
  have h : Pchip.interpolator other ⟨[2], [lit 0, lit 1]⟩ ⟨[2], [lit 1, lit 0]⟩ =
      .ok (PPoly.toSpline (Pchip.pieces (Pchip.knots [(lit 0, lit 1), ((lit 1 : R.F), lit 0)]))) := by
    simp [Pchip.interpolator, Pchip.isFinite, Pchip.increasing, h0, hi]
  refine ⟨⟨[2], [lit 0, lit 1]⟩, ⟨[2], [lit 1, lit 0]⟩, ?_, ?_, rfl, rfl⟩
  · simp only [Obj.setVelocity, setVelocity, hext, h]
    rfl
  · simp only [Obj.setVelocity, setVelocity, hext, h]

end IBL
