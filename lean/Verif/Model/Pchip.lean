import Verif.Model.PPoly

/-!
Model of scipy's `PchipInterpolator(x, y)` for vectors, called at `ibl/ibl_method.py` 477 and 508: argument checks, slopes at the points,
coefficients. External code: this is scipy's algorithm (`scipy/interpolate/_cubic.py`, `prepare_input`, `PchipInterpolator._find_derivatives`,
`PchipInterpolator._edge_case`, `CubicHermiteSpline.__init__`), written down from its published source, not code of /repo.
-/

namespace IBL.Pchip
open PPoly
variable {α : Type} [Add α] [Sub α] [Mul α] [Div α] [Neg α] [PyLit α] [PyCmp α]

/-- `np.sign`, NaN kept. -/
def sign (v : α) : α := if PyCmp.gt v (lit 0) then lit 1 else if PyCmp.lt v (lit 0) then -lit 1 else v

/-- `np.sign(a) != np.sign(b)`. -/
def signsDiffer (a b : α) : Bool := !PyCmp.eq (sign a) (sign b)

/-- `_edge_case(h0, h1, m0, m1)`: the slope at an end point. `h0`, `m0` are length and slope of the end segment, `h1`, `m1` of its neighbour. -/
def edgeCase (h0 h1 m0 m1 : α) : α :=
  let d := ((lit 2 * h0 + h1) * m0 - h0 * m1) / (h0 + h1)
  if signsDiffer d m0 then lit 0 else
  if signsDiffer m0 m1 && PyCmp.gt (PyCmp.abs d) (lit 3 * PyCmp.abs m0) then lit 3 * m0 else d

/-- The slope at an inner point, from `_find_derivatives`: 0 at an extremum or next to a flat segment, otherwise the weighted harmonic mean.
`h0`, `m0` belong to the segment on the left, `h1`, `m1` to that on the right. -/
def innerSlope (h0 h1 m0 m1 : α) : α :=
  if signsDiffer m1 m0 || PyCmp.eq m1 (lit 0) || PyCmp.eq m0 (lit 0) then lit 0 else
  let w1 := lit 2 * h1 + h0
  let w2 := h1 + lit 2 * h0
  lit 1 / ((w1 / m0 + w2 / m1) / (w1 + w2))

/-- A point of the table with the slope there. -/
structure Knot (α : Type) where
  x : α
  y : α
  d : α

/-- Length of the segment between two points, `hk`. -/
def len (a b : α × α) : α := b.1 - a.1
/-- Slope of the segment between two points, `mk`. -/
def chord (a b : α × α) : α := (b.2 - a.2) / (b.1 - a.1)

/-- The points from the third on with their slopes: `a b c` are the last three points so far, `c` is the next to get a slope. (The code
computes the slopes of all points at once; the values are the same.) -/
def later (a b c : α × α) : List (α × α) → List (Knot α)
  | [] => [⟨c.1, c.2, edgeCase (len b c) (len a b) (chord b c) (chord a b)⟩]
  | e :: rest => ⟨c.1, c.2, innerSlope (len b c) (len c e) (chord b c) (chord c e)⟩ :: later b c e rest

/-- `_find_derivatives`: the points with their slopes. Two points: linear. Fewer points are rejected before. -/
def knots : List (α × α) → List (Knot α)
  | [a, b] => [⟨a.1, a.2, chord a b⟩, ⟨b.1, b.2, chord a b⟩]
  | a :: b :: c :: rest =>
    ⟨a.1, a.2, edgeCase (len a b) (len b c) (chord a b) (chord b c)⟩ ::
      ⟨b.1, b.2, innerSlope (len a b) (len b c) (chord a b) (chord b c)⟩ :: later a b c rest
  | _ => []

/-- `CubicHermiteSpline.__init__` for one interval: left end and coefficients, constant first. -/
def hermite (a b : Knot α) : α × List α :=
  let h := b.x - a.x
  let slope := (b.y - a.y) / h
  let t := (a.d + b.d - lit 2 * slope) / h
  (a.x, [a.y, a.d, (slope - a.d) / h - t, t / h])

/-- All intervals. -/
def pieces : List (Knot α) → Pieces α
  | a :: b :: rest => hermite a b :: pieces (b :: rest)
  | _ => []

/-- `np.isfinite`. -/
def isFinite (v : α) : Bool := PyCmp.eq (v - v) (lit 0)

/-- `np.all(np.diff(x) > 0)`, written as the code does: no difference is `<= 0`. -/
def increasing : List α → Bool
  | a :: b :: rest => !PyCmp.le (b - a) (lit 0) && increasing (b :: rest)
  | _ => true

/-- `PchipInterpolator(x, y)` for two vectors. For arrays of other shapes the result is left open (`other`): scipy refuses some of them
and interpolates the columns of others. -/
def interpolator (other : Pchip α) : Pchip α := fun xs ys =>
  match xs.shape, ys.shape with
  | [n], [m] =>
    if n < 2 then .error .valueError else
    if n ≠ m then .error .valueError else
    if !(xs.data.all isFinite && ys.data.all isFinite) then .error .valueError else
    if !increasing xs.data then .error .valueError else
    .ok (toSpline (pieces (knots (xs.data.zip ys.data))))
  | _, _ => other xs ys

end IBL.Pchip
