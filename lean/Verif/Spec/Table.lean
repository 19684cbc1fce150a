import Mathlib.Analysis.Calculus.Deriv.Basic
import Verif.Model.Velocity

/-! What a user expects of a velocity given by a table. -/

namespace IBL

/-- A vector. -/
def vector {α : Type} (l : List α) : Arr α := ⟨[l.length], l⟩

/-- The argument `(x, y)` of `set_velocity` for a list of points. -/
def tableArg {α : Type} (pts : List (α × α)) : Arg α := .pair (vector (pts.map Prod.fst)) (vector (pts.map Prod.snd))

/-- At least two points, from left to right. -/
structure Table (pts : List (ℝ × ℝ)) : Prop where
  long : 2 ≤ pts.length
  ascending : pts.IsChain fun p q => p.1 < q.1

/-- First and last abscissa. -/
def firstX (pts : List (ℝ × ℝ)) : ℝ := (pts.map Prod.fst).headD 0
@[inherit_doc firstX]
def lastX (pts : List (ℝ × ℝ)) : ℝ := (pts.map Prod.fst).getLastD 0

/-- Slope of the line through two points. -/
noncomputable def secant (p q : ℝ × ℝ) : ℝ := (q.2 - p.2) / (q.1 - p.1)

/-- `f` goes through the points of the table, with continuous slope `f'`, and does nothing between two neighbouring points that they do
not ask for: it stays between their values, goes in one direction and is nowhere more than three times as steep as the line between them. Where the table hardly
bends its slope is nearly that of the line. `f''` is the second derivative; where it jumps, which it may do at the
points of the table, the one to the right. -/
structure MonotoneThrough (pts : List (ℝ × ℝ)) (f f' f'' : ℝ → ℝ) : Prop where
  through : ∀ p ∈ pts, f p.1 = p.2
  slope : ∀ x, HasDerivAt f (f' x) x
  slopeCont : Continuous f'
  curvature : ∀ x, (∀ p ∈ pts, x ≠ p.1) → HasDerivAt f' (f'' x) x
  curvatureRight : ∀ x, HasDerivWithinAt f' (f'' x) (Set.Ici x) x
  between : ∀ p q, [p, q] <:+: pts → ∀ x ∈ Set.Icc p.1 q.1, min p.2 q.2 ≤ f x ∧ f x ≤ max p.2 q.2
  direction : ∀ p q, [p, q] <:+: pts → ∀ x ∈ Set.Icc p.1 q.1, (p.2 ≤ q.2 → 0 ≤ f' x) ∧ (q.2 ≤ p.2 → f' x ≤ 0)
  steep : ∀ p q, [p, q] <:+: pts → ∀ x ∈ Set.Icc p.1 q.1, |f' x| * (q.1 - p.1) ≤ 3 * |q.2 - p.2|
  near : ∀ w, 0 ≤ w → (∀ p q r, [p, q, r] <:+: pts → |secant p q - secant q r| ≤ w) →
    ∀ p q, [p, q] <:+: pts → ∀ x ∈ Set.Icc p.1 q.1, |f' x - secant p q| ≤ 2 * w

end IBL
