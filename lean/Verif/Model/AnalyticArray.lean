import Verif.Model.Analytic

/-!
Model of the queries of the similarity classes on one-dimensional float arrays (`ibl/analytic/_analytic_2d_base.py` 137-432, `_falkner_skan.py`
131-146, `_blasius.py` 63-78). The difference to single python floats (`Model/Analytic.lean`): numpy's power and division do not raise, arrays
are combined according to numpy's broadcasting, and scipy's dense solution refuses an empty array.
Simplification: arrays of more dimensions are not modelled.
-/

namespace IBL.Analytic
variable {α : Type}

/-- What is passed for a coordinate: a python float or a one-dimensional array. -/
inductive Nd (α : Type) where
  | sc (v : α)
  | ar (vs : List α)

/-- A function applied to every element. -/
def Nd.map (f : α → α) : Nd α → Nd α
  | .sc v => .sc (f v)
  | .ar vs => .ar (vs.map f)

/-- Broadcasting of two arrays: the lengths must be equal or one of them 1. -/
def broadcast (f : α → α → α) (as bs : List α) : Except Exc (List α) :=
  if as.length = bs.length then .ok (List.zipWith f as bs) else
  match as, bs with
  | [a], bs => .ok (bs.map (f a))
  | as, [b] => .ok (as.map (f · b))
  | _, _ => .error .valueError

/-- An operation of numpy on two operands. -/
def Nd.op (f : α → α → α) : Nd α → Nd α → Except Exc (Nd α)
  | .sc a, .sc b => .ok (.sc (f a b))
  | .sc a, .ar bs => .ok (.ar (bs.map (f a)))
  | .ar as, .sc b => .ok (.ar (as.map (f · b)))
  | .ar as, .ar bs => do return .ar (← broadcast f as bs)

section
variable [Add α] [Sub α] [Mul α] [Div α] [Neg α] [PyLit α] [PyCmp α] [PySpecial α] [PySqrt α] [PyPow α]

/-- `self._f(eta)[i]` with the check before it, _analytic_2d_base.py 151-154, 170-173, 189-192. scipy's `OdeSolution.__call__` evaluates arrays
element by element and raises ValueError for an empty array (it concatenates a list of no arrays). -/
def Sim.fNd (s : Sim α) (i : V3 α → α) : Nd α → Except Exc (Nd α)
  | .sc e => match s.f with
    | none => .error .valueError
    | some sol => .ok (.sc (i (sol e)))
  | .ar es => match s.f with
    | none => .error .valueError
    | some sol => if es.isEmpty then .error .valueError else .ok (.ar (es.map fun e => i (sol e)))

/-- `u_e`, _analytic_2d_base.py 194-210. -/
def Sim.uENd (s : Sim α) (x : Nd α) : Except Exc (Nd α) := do
  let m ← pyDiv s.beta (lit 2 * s.alpha - s.beta)
  match x with
  | .sc x => do
    let p ← pyPow x m
    return .sc (s.uRef * p)
  | .ar xs => return .ar (xs.map fun x => s.uRef * PyPow.pow x m)

/-- `_g`, _falkner_skan.py 131-146 and _blasius.py 63-78. -/
def Sim.gNd (s : Sim α) (x : Nd α) : Except Exc (Nd α) := do
  match x with
  | .sc x => do
    let g ← s.g x
    return .sc g
  | .ar xs => do
    let u ← s.uENd (.ar xs)
    let q ← u.op (· / ·) (.ar (xs.map fun x => s.gFactor * s.nuRef * x))
    return q.map PySqrt.sqrt

/-- `v_e`, _analytic_2d_base.py 212-226. -/
def Sim.vENd (s : Sim α) (x : Nd α) : Except Exc (Nd α) := do
  let g ← s.gNd x
  return g.map fun g => s.nuRef * g * s.etaD

/-- `eta`, _analytic_2d_base.py 228-250: a python float becomes a numpy number first. -/
def Sim.etaNd (s : Sim α) (x y : Nd α) : Except Exc (Nd α) := do
  let g ← match x with
    | .sc x => do
      let g ← s.gArray x
      pure (.sc g)
    | .ar xs => s.gNd (.ar xs)
  y.op (· * ·) g

/-- `u`, _analytic_2d_base.py 252-272. -/
def Sim.uNd (s : Sim α) (x y : Nd α) : Except Exc (Nd α) := do
  let ue ← s.uENd x
  let eta ← s.etaNd x y
  let fp ← s.fNd (fun v => v.2.1) eta
  ue.op (· * ·) fp

/-- `v`, _analytic_2d_base.py 274-297. -/
def Sim.vNd (s : Sim α) (x y : Nd α) : Except Exc (Nd α) := do
  let eta ← s.etaNd x y
  let g ← s.gNd x
  let f ← s.fNd (fun v => v.1) eta
  let r ← pyDiv s.beta s.alpha
  let fp ← s.fNd (fun v => v.2.1) eta
  let p ← (eta.map fun e => (r - lit 1) * e).op (· * ·) fp
  let q ← f.op (· + ·) p
  let w ← (g.map fun g => s.alpha * s.nuRef * g).op (· * ·) q
  return w.map (- ·)

/-- `delta_d`, _analytic_2d_base.py 299-313. -/
def Sim.deltaDNd (s : Sim α) (x : Nd α) : Except Exc (Nd α) := do
  let g ← s.gNd x
  return g.map fun g => s.etaD / g
/-- `delta_m`, _analytic_2d_base.py 315-329. -/
def Sim.deltaMNd (s : Sim α) (x : Nd α) : Except Exc (Nd α) := do
  let g ← s.gNd x
  return g.map fun g => s.etaM / g
/-- `delta_k`, _analytic_2d_base.py 331-345. -/
def Sim.deltaKNd (s : Sim α) (x : Nd α) : Except Exc (Nd α) := do
  let g ← s.gNd x
  return g.map fun g => s.etaK / g
/-- `delta_s`, _analytic_2d_base.py 347-361. -/
def Sim.deltaSNd (s : Sim α) (x : Nd α) : Except Exc (Nd α) := do
  let g ← s.gNd x
  return g.map fun g => s.etaS / g

/-- `shape_d`, _analytic_2d_base.py 363-378. -/
def Sim.shapeDNd (s : Sim α) (x : Nd α) : Except Exc (Nd α) := do
  let q ← pyDiv s.etaD s.etaM
  return x.map fun _ => q * lit 1
/-- `shape_k`, _analytic_2d_base.py 380-395. -/
def Sim.shapeKNd (s : Sim α) (x : Nd α) : Except Exc (Nd α) := do
  let q ← pyDiv s.etaK s.etaM
  return x.map fun _ => q * lit 1

/-- `tau_w`, _analytic_2d_base.py 397-413. -/
def Sim.tauWNd (s : Sim α) (x : Nd α) (rho : α) : Except Exc (Nd α) := do
  let ue ← s.uENd x
  let g ← s.gNd x
  let w ← (ue.map fun u => rho * s.nuRef * u).op (· * ·) g
  return w.map (· * s.fwPp)

/-- `dissipation`, _analytic_2d_base.py 415-432 (`**2` as a product). -/
def Sim.dissipationNd (s : Sim α) (x : Nd α) (rho : α) : Except Exc (Nd α) := do
  let g ← s.gNd x
  let ue ← s.uENd x
  let w ← (g.map fun g => rho * s.nuRef * g).op (· * ·) (ue.map fun u => u * u)
  return w.map (· * (lit (1/2) * (s.alpha + lit 2 * s.beta) * s.etaK))

end
end IBL.Analytic
