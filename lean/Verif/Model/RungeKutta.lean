import Verif.Model.Pchip
import Verif.Model.SolveIvp

/-!
Model of scipy's `RK45`, the integrator that `solve` asks for (`ibl/ibl_method.py` 567: `method="RK45"`; scipy 1.12 is what `pyproject.toml` 35
requires). External code, modelled from scipy's source (`scipy/integrate/_ivp/rk.py`: `rk_step`, `RungeKutta`, `RK45`, `RkDenseOutput`;
`_ivp/base.py`: `OdeSolver.step`; `_ivp/common.py`: `norm`, `validate_tol`, `select_initial_step`), not code of /repo. The step size loop and
the sequence of steps have no bound, so they are relations (`Tries`, `Steps`); that they always end is a theorem (C128). Simplified: the
sums of `np.dot` are taken from the left (BLAS may take them in another order); a right hand side that returns a vector of another length
than the state raises ValueError (numpy would broadcast a vector of length 1; the methods of /repo always return one of the right length).
`max_step` is infinite (not passed by /repo). The distance to the next float in the direction of integration is a parameter.
-/

namespace IBL.RungeKutta
open SolveIvp
variable {α : Type} [Add α] [Sub α] [Mul α] [Div α] [Neg α] [PyLit α] [PyCmp α] [PySqrt α] [PyPow α]

/-- `np.maximum`: NaN if one of the two is. -/
def npMax (a b : α) : α := if PyCmp.eq a a then (if PyCmp.le b a then a else b) else a

/-- Python's `min(a, b)` and `max(a, b)`: the first unless the second is smaller (larger). -/
def pyMin (a b : α) : α := if PyCmp.lt b a then b else a
@[inherit_doc pyMin]
def pyMax (a b : α) : α := if PyCmp.gt b a then b else a

/-- Sum of two vectors. -/
def vadd (a b : List α) : List α := List.zipWith (· + ·) a b

/-- `np.dot(K.T, a)`: the linear combination of the vectors `K` of length `n` with the coefficients `a`. -/
def comb (n : ℕ) (K : List (List α)) (a : List ℚ) : List α :=
  (List.zip K a).foldl (fun acc k => vadd acc (k.1.map (· * lit k.2))) (List.replicate n (lit 0))

/-- `norm`, common.py: `np.linalg.norm(x) / x.size ** 0.5`. -/
def norm (x : List α) : α :=
  PySqrt.sqrt (x.foldl (fun s v => s + v * v) (lit 0)) / PyPow.pow (lit x.length) (lit (1/2))

/-! ### The tableau, class `RK45` -/

/-- `C[1:]` with `A[1:]`. -/
def tableau : List (ℚ × List ℚ) :=
  [(1/5, [1/5]), (3/10, [3/40, 9/40]), (4/5, [44/45, -56/15, 32/9]), (8/9, [19372/6561, -25360/2187, 64448/6561, -212/729]),
   (1, [9017/3168, -355/33, 46732/5247, 49/176, -5103/18656])]

/-- `B`. -/
def weights : List ℚ := [35/384, 0, 500/1113, 125/192, -2187/6784, 11/84]

/-- `E`. -/
def errorWeights : List ℚ := [-71/57600, 0, 71/16695, -71/1920, 17253/339200, -22/525, 1/40]

/-- The columns of `P`. -/
def denseWeights : List (List ℚ) :=
  [[1, 0, 0, 0, 0, 0, 0],
   [-8048581381/2820520608, 0, 131558114200/32700410799, -1754552775/470086768, 127303824393/49829197408, -282668133/205662961,
    40617522/29380423],
   [8663915743/2820520608, 0, -68118460800/10900136933, 14199869525/1410260304, -318862633887/49829197408, 2019193451/616988883,
    -110615467/29380423],
   [-12715105075/11282082432, 0, 87487479700/32700410799, -10690763975/1880347072, 701980252875/199316789632, -1453857185/822651844,
    69997945/29380423]]

/-- The right hand side as the solver calls it, for a state of length `n`. -/
def call (rhs : α → List α → Except Exc (List α)) (n : ℕ) (t : α) (y : List α) : Except Exc (List α) :=
  match rhs t y with
  | .error e => .error e
  | .ok v => if v.length = n then .ok v else .error .valueError

/-- The loop of `rk_step`: appends the stages of the remaining rows of the tableau to `K`. -/
def stages (rhs : α → List α → Except Exc (List α)) (t : α) (y : List α) (h : α) : List (ℚ × List ℚ) → List (List α) →
    Except Exc (List (List α))
  | [], K => .ok K
  | (c, a) :: rows, K =>
    match call rhs y.length (t + lit c * h) (vadd y ((comb y.length K a).map (· * h))) with
    | .error e => .error e
    | .ok k => stages rhs t y h rows (K ++ [k])

/-- `rk_step`: the new state, the slope there and the seven stages. -/
def rkStep (rhs : α → List α → Except Exc (List α)) (t : α) (y f : List α) (h : α) : Except Exc (List α × List α × List (List α)) :=
  match stages rhs t y h tableau [f] with
  | .error e => .error e
  | .ok K =>
    let yNew := vadd y ((comb y.length K weights).map (h * ·))
    match call rhs y.length (t + h) yNew with
    | .error e => .error e
    | .ok fNew => .ok (yNew, fNew, K ++ [fNew])

/-- `RkDenseOutput`: `y_old + h * Q p` with `p` the powers of the relative position. -/
def denseOutput (tOld tNew : α) (yOld : List α) (K : List (List α)) (t : α) : List α :=
  let h := tNew - tOld
  let x := (t - tOld) / h
  let p := [x, x * x, x * x * x, x * x * x * x]
  let Q := denseWeights.map (comb yOld.length K)
  vadd ((List.zip Q p).foldl (fun acc k => vadd acc (k.1.map (· * k.2))) (List.replicate yOld.length (lit 0)) |>.map (h * ·)) yOld

/-- The state of the solver between steps: `t`, `y`, `f`, `h_abs`. -/
structure St (α : Type) where
  t : α
  y : List α
  f : List α
  hAbs : α

/-- `OdeSolver.__init__`: `direction`. -/
def direction (p : IvpProblem α) : α :=
  if PyCmp.eq p.x1 p.x0 then lit 1 else if PyCmp.gt p.x1 p.x0 then lit 1 else -lit 1

/-- `validate_tol`: `rtol` is at least 100 machine epsilons. -/
def relTol (p : IvpProblem α) : α := if PyCmp.lt p.rtol (lit (100 / 2 ^ 52)) then lit (100 / 2 ^ 52) else p.rtol

/-- `atol + np.maximum(np.abs(a), np.abs(b)) * rtol`, componentwise. -/
def scale (p : IvpProblem α) (a b : List α) : List α :=
  List.zipWith (fun u v => p.atol + npMax (PyCmp.abs u) (PyCmp.abs v) * relTol p) a b

/-- `x / scale`. -/
def vdiv (a b : List α) : List α := List.zipWith (· / ·) a b

/-- `select_initial_step` with `order = 4`. For a state without components scipy returns infinity, here 0 (never used, see `Steps.trivial`). -/
def initialStep (p : IvpProblem α) (f0 : List α) : Except Exc α :=
  let len := PyCmp.abs (p.x1 - p.x0)
  if p.y0.length = 0 || PyCmp.eq len (lit 0) then .ok (lit 0) else
  let sc := p.y0.map fun u => p.atol + PyCmp.abs u * relTol p
  let d0 := norm (vdiv p.y0 sc)
  let d1 := norm (vdiv f0 sc)
  let h0 := if PyCmp.lt d0 (lit (1/100000)) || PyCmp.lt d1 (lit (1/100000)) then lit (1/1000000) else lit (1/100) * d0 / d1
  let h0 := pyMin h0 len
  match call p.rhs p.y0.length (p.x0 + h0 * direction p) (vadd p.y0 (f0.map (h0 * direction p * ·))) with
  | .error e => .error e
  | .ok f1 =>
    let d2 := norm (vdiv (List.zipWith (· - ·) f1 f0) sc) / h0
    let h1 := if PyCmp.le d1 (lit (1/10^15)) && PyCmp.le d2 (lit (1/10^15)) then pyMax (lit (1/1000000)) (h0 * lit (1/1000))
      else PyPow.pow (lit (1/100) / pyMax d1 d2) (lit (1/5))
    .ok (pyMin (pyMin (lit 100 * h0) h1) len)

/-- `RungeKutta.__init__` and what precedes it in `OdeSolver.__init__` and `check_arguments`: the start state must be finite, `atol` not
negative. -/
def start (p : IvpProblem α) : Except Exc (St α) :=
  if !(p.y0.all Pchip.isFinite) then .error .valueError else
  if PyCmp.lt p.atol (lit 0) then .error .valueError else
  match call p.rhs p.y0.length p.x0 p.y0 with
  | .error e => .error e
  | .ok f =>
    match initialStep p f with
    | .error e => .error e
    | .ok h => .ok ⟨p.x0, p.y0, f, h⟩

/-- What one pass of the loop of `_step_impl` computes from a proposed step length. -/
structure Trial (α : Type) where
  t : α
  y : List α
  f : List α
  K : List (List α)
  h : α
  err : α

/-- One pass: the proposed step is cut at the end of the interval, then taken, and its error is estimated. -/
def trial (p : IvpProblem α) (s : St α) (hAbs : α) : Except Exc (Trial α) :=
  let tNew := s.t + hAbs * direction p
  let tNew := if PyCmp.gt (direction p * (tNew - p.x1)) (lit 0) then p.x1 else tNew
  let h := tNew - s.t
  match rkStep p.rhs s.t s.y s.f h with
  | .error e => .error e
  | .ok (y, f, K) =>
    .ok ⟨tNew, y, f, K, h, norm (vdiv ((comb s.y.length K errorWeights).map (· * h)) (scale p s.y y))⟩

/-- `error_norm ** error_exponent` times `SAFETY`. -/
def control (err : α) : α := lit (9/10) * PyPow.pow err (lit (-(1/5)))

/-- The factor after an accepted step. -/
def growth (rejected : Bool) (err : α) : α :=
  let factor := if PyCmp.eq err (lit 0) then lit 10 else pyMin (lit 10) (control err)
  if rejected then pyMin (lit 1) factor else factor

/-- What `_step_impl` ends with. -/
inductive Outcome (α : Type)
  | accepted (s : St α) (step : Step α)
  | tooSmall
  | raised (e : Exc)

/-- The loop of `_step_impl`. -/
inductive Tries (p : IvpProblem α) (minStep : α) (s : St α) : Bool → α → Outcome α → Prop
  | small {rej h} : PyCmp.lt h minStep = true → Tries p minStep s rej h .tooSmall
  | raised {rej h e} : PyCmp.lt h minStep = false → trial p s h = .error e → Tries p minStep s rej h (.raised e)
  | accept {rej h q} : PyCmp.lt h minStep = false → trial p s h = .ok q → PyCmp.lt q.err (lit 1) = true →
      Tries p minStep s rej h (.accepted ⟨q.t, q.y, q.f, PyCmp.abs q.h * growth rej q.err⟩ ⟨q.t, q.y, denseOutput s.t q.t s.y q.K⟩)
  | reject {rej h q o} : PyCmp.lt h minStep = false → trial p s h = .ok q → PyCmp.lt q.err (lit 1) = false →
      Tries p minStep s true (PyCmp.abs q.h * pyMax (lit (1/5)) (control q.err)) o → Tries p minStep s rej h o

/-- `TOO_SMALL_STEP`, base.py. -/
def tooSmallMessage : String := "Required step size is less than spacing between numbers."

/-- `min_step` of `_step_impl`; `gap t d` is the distance from `t` to the next float in the direction `d`. -/
def minStep (gap : α → α → α) (p : IvpProblem α) (t : α) : α := lit 10 * gap t (direction p)

/-- The first step length that `_step_impl` tries. -/
def firstTry (m h : α) : α := if PyCmp.lt h m then m else h

/-- `OdeSolver.step` until the solver is no longer running. -/
inductive Steps (gap : α → α → α) (p : IvpProblem α) : St α → Run α → Prop
  /-- corner case: the interval (or the state) is empty -/
  | trivial {s} : (s.y.length = 0 ∨ PyCmp.eq s.t p.x1 = true) → Steps gap p s ⟨[⟨p.x1, s.y, fun _ => s.y⟩], .reached⟩
  | small {s} : s.y.length ≠ 0 → PyCmp.eq s.t p.x1 = false →
      Tries p (minStep gap p s.t) s false (firstTry (minStep gap p s.t) s.hAbs) .tooSmall → Steps gap p s ⟨[], .failed tooSmallMessage⟩
  | raised {s e} : s.y.length ≠ 0 → PyCmp.eq s.t p.x1 = false →
      Tries p (minStep gap p s.t) s false (firstTry (minStep gap p s.t) s.hAbs) (.raised e) → Steps gap p s ⟨[], .raised e⟩
  | last {s s' st} : s.y.length ≠ 0 → PyCmp.eq s.t p.x1 = false →
      Tries p (minStep gap p s.t) s false (firstTry (minStep gap p s.t) s.hAbs) (.accepted s' st) →
      PyCmp.ge (direction p * (s'.t - p.x1)) (lit 0) = true → Steps gap p s ⟨[st], .reached⟩
  | more {s s' st run} : s.y.length ≠ 0 → PyCmp.eq s.t p.x1 = false →
      Tries p (minStep gap p s.t) s false (firstTry (minStep gap p s.t) s.hAbs) (.accepted s' st) →
      PyCmp.ge (direction p * (s'.t - p.x1)) (lit 0) = false → Steps gap p s' run → Steps gap p s ⟨st :: run.steps, run.ending⟩

/-- A whole run of RK45. -/
inductive Runs (gap : α → α → α) (p : IvpProblem α) : Run α → Prop
  | raised {e} : start p = .error e → Runs gap p ⟨[], .raised e⟩
  | run {s r} : start p = .ok s → Steps gap p s r → Runs gap p r

end IBL.RungeKutta
