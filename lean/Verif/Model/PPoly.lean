import Verif.Model.Velocity

/-!
Model of scipy's piecewise polynomials (`PchipInterpolator` is one) as far as `set_velocity` uses them (`ibl/ibl_method.py` 472-486):
evaluation with extrapolation, `derivative()`, `antiderivative()`, and adding a number to the constant coefficients. External code:
this is scipy's documented behaviour, not code of /repo. How the coefficients are obtained from a table: `Model/Pchip.lean`.
-/

namespace IBL.PPoly
variable {α : Type} [Add α] [Sub α] [Mul α] [Div α] [PyLit α] [PyCmp α]

/-- The loop of scipy's `evaluate_poly1` (`scipy/interpolate/_ppoly.pyx`): the sum so far, the next power of the argument, the coefficients
left. (The factor 1.0 of every term is omitted.) -/
def polySum (t : α) : α → α → List α → α
  | acc, _, [] => acc
  | acc, z, c :: cs => polySum t (acc + c * z) (z * t) cs

/-- A polynomial by its coefficients, constant first (scipy stores them in the opposite order). -/
def polyEval (cs : List α) (t : α) : α := polySum t (lit 0) (lit 1) cs

/-- Coefficients of `t^-n` times the integral of `t^n` times the polynomial, without the constant. -/
def intFrom (n : ℕ) : List α → List α
  | [] => []
  | c :: cs => c / lit (n + 1) :: intFrom (n + 1) cs

/-- The antiderivative with the given value at 0. -/
def polyInt (c0 : α) (cs : List α) : List α := c0 :: intFrom 0 cs

/-- Coefficients of `t^(1-n)` times the derivative of `t^n` times the polynomial. -/
def derFrom (n : ℕ) : List α → List α
  | [] => []
  | c :: cs => lit n * c :: derFrom (n + 1) cs

/-- The derivative. -/
def polyDer : List α → List α
  | [] => []
  | _ :: cs => derFrom 1 cs

/-- The pieces, left to right: left breakpoint and coefficients in powers of the distance to it. The last breakpoint
does not matter for the values. -/
abbrev Pieces (α : Type) := List (α × List α)

/-- `PPoly.__call__` with extrapolation by the end pieces: the piece is the last one whose left breakpoint is not right of `x`. -/
def eval : Pieces α → α → α
  | [], _ => lit 0
  | [(x0, q)], x => polyEval q (x - x0)
  | (x0, q) :: (x1, q1) :: rest, x =>
    if PyCmp.lt x x1 then polyEval q (x - x0) else eval ((x1, q1) :: rest) x

/-- `PPoly.derivative()`. -/
def deriv (p : Pieces α) : Pieces α := p.map fun (x0, q) => (x0, polyDer q)

/-- `PPoly.antiderivative()`: the first constant is `c`, the others make the function continuous. -/
def anti (c : α) : Pieces α → Pieces α
  | [] => []
  | [(x0, q)] => [(x0, polyInt c q)]
  | (x0, q) :: (x1, q1) :: rest =>
    (x0, polyInt c q) :: anti (polyEval (polyInt c q) (x1 - x0)) ((x1, q1) :: rest)

/-- `c[-1, :] += a`, ibl_method.py 481. -/
def addConst (a : α) (p : Pieces α) : Pieces α := p.map fun (x0, q) =>
  (x0, match q with
    | [] => []
    | c :: cs => (c + a) :: cs)

/-- A scipy piecewise polynomial as the model of `set_velocity` sees it (`Model/Velocity.lean`). -/
def toSpline (p : Pieces α) : Spline α where
  call := eval p
  d1 := eval (deriv p)
  d2 := eval (deriv (deriv p))
  anti := eval (anti (lit 0) p)

end IBL.PPoly
