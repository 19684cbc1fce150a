import Mathlib.Algebra.Field.Basic
import Mathlib.Data.Rat.Cast.CharZero
import Mathlib.Data.Real.Basic

/-!
Specification of scipy's `CubicSpline(x, y)` with its default boundary condition, from scipy's documentation: a piecewise cubic through the
points, twice continuously differentiable, and "the first and second segment at a curve end are the same polynomial" (`not-a-knot`).
External code, not code of /repo.
-/

namespace IBL

/-- `a + b t + c t^2 + d t^3`, `t` the distance to the left end of the segment. -/
structure Cubic (K : Type) where
  a : K
  b : K
  c : K
  d : K

namespace Cubic
variable {K : Type} [Field K]

def value (q : Cubic K) (t : K) : K := q.a + q.b * t + q.c * t ^ 2 + q.d * t ^ 3
def slope (q : Cubic K) (t : K) : K := q.b + 2 * q.c * t + 3 * q.d * t ^ 2
def curv (q : Cubic K) (t : K) : K := 2 * q.c + 6 * q.d * t

end Cubic

/-- `qs` are the segments of the not-a-knot cubic spline through the points `(x, y)` of `pts`. Two neighbouring segments that join with equal
value, slope and curvature are the same polynomial exactly if their third derivatives agree. -/
structure NotAKnot {K : Type} [Field K] (pts : List (K × K)) (qs : List (Cubic K)) : Prop where
  /-- one segment between each point and the next -/
  length : qs.length + 1 = pts.length
  /-- a segment starts at its left point -/
  left : ∀ (i : ℕ) (p : K × K) (q : Cubic K), pts[i]? = some p → qs[i]? = some q → q.value 0 = p.2
  /-- and ends at its right point -/
  right : ∀ (i : ℕ) (p p' : K × K) (q : Cubic K), pts[i]? = some p → pts[i + 1]? = some p' → qs[i]? = some q →
    q.value (p'.1 - p.1) = p'.2
  /-- the slope is continuous -/
  slope : ∀ (i : ℕ) (p p' : K × K) (q q' : Cubic K), pts[i]? = some p → pts[i + 1]? = some p' → qs[i]? = some q → qs[i + 1]? = some q' →
    q.slope (p'.1 - p.1) = q'.slope 0
  /-- the second derivative is continuous -/
  curv : ∀ (i : ℕ) (p p' : K × K) (q q' : Cubic K), pts[i]? = some p → pts[i + 1]? = some p' → qs[i]? = some q → qs[i + 1]? = some q' →
    q.curv (p'.1 - p.1) = q'.curv 0
  /-- the first two segments have the same third derivative -/
  first : ∀ q q' : Cubic K, qs[0]? = some q → qs[1]? = some q' → q.d = q'.d
  /-- and so have the last two -/
  last : ∀ q q' : Cubic K, qs.reverse[0]? = some q → qs.reverse[1]? = some q' → q.d = q'.d

/-- What `CubicSpline` returned for the table `xs`, `ys`, given as the function and its `derivative()`: on each table interval its
segment. Nothing is said about points beyond the table. -/
structure IsSplineOf (f : (ℝ → ℝ) × (ℝ → ℝ)) (xs ys : List ℚ) : Prop where
  ex : ∃ qs : List (Cubic ℝ), NotAKnot ((xs.zip ys).map fun p => ((p.1 : ℝ), (p.2 : ℝ))) qs ∧
    ∀ (i : ℕ) (x0 x1 : ℚ) (q : Cubic ℝ), xs[i]? = some x0 → xs[i + 1]? = some x1 → qs[i]? = some q →
      ∀ x : ℝ, (x0 : ℝ) ≤ x → x ≤ x1 → f.1 x = q.value (x - x0) ∧ f.2 x = q.slope (x - x0)

end IBL
