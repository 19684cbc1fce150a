import Verif.Py

/-!
Model of the similarity solutions: `ibl/analytic/_analytic_2d_base.py`, `_falkner_skan.py`, `_blasius.py`.
Arguments are python floats. The integrator, the quadrature and the root finder of scipy are parameters.
-/

namespace IBL.Analytic
variable {α : Type}

/-- A state of the third order equation: `f`, `f'`, `f''`. -/
abbrev V3 (α : Type) := α × α × α

/-- What is passed to `solve_ivp`, _analytic_2d_base.py 580-583 and 661-664: right hand side (which does not depend on the coordinate),
end of the interval (it starts at 0) and start vector. -/
structure Problem (α : Type) where
  rhs : V3 α → V3 α
  tEnd : α
  y0 : V3 α

/-- The fields of the result that are read: `success`, the last column of `y`, and the dense solution. -/
structure Result (α : Type) where
  success : Bool
  yEnd : V3 α
  sol : α → V3 α

/-- scipy's functions: `solve_ivp`, `quad(fun, a, b)[0]`, `root_scalar(fun, "bisect", [a, b])` with the fields
`converged` and `root`. -/
structure Tools (α : Type) where
  ivp : Problem α → Except Exc (Result α)
  quad : (α → α) → α → α → Except Exc α
  root : (α → α) → α → α → Except Exc (Bool × α)

/-- The two concrete classes. -/
inductive Cls
  | falknerSkan
  | blasius
  deriving DecidableEq, Repr

/-- The attributes of an `Analytic2dSimilarityIncompressible` object, _analytic_2d_base.py 41-60. -/
structure Sim (α : Type) where
  cls : Cls
  uRef : α
  nuRef : α
  alpha : α
  beta : α
  gamma : α
  f : Option (α → V3 α)
  etaInf : α
  etaD : α
  etaM : α
  etaK : α
  etaS : α

section profile
variable [PyLit α] [PySpecial α]

/-- `f`, _analytic_2d_base.py 137-154. -/
def Sim.fAt (s : Sim α) (eta : α) : Except Exc α :=
  match s.f with
  | none => .error .valueError
  | some sol => .ok (sol eta).1
/-- `f_p`, _analytic_2d_base.py 156-173. -/
def Sim.fpAt (s : Sim α) (eta : α) : Except Exc α :=
  match s.f with
  | none => .error .valueError
  | some sol => .ok (sol eta).2.1
/-- `f_pp`, _analytic_2d_base.py 175-192. -/
def Sim.fppAt (s : Sim α) (eta : α) : Except Exc α :=
  match s.f with
  | none => .error .valueError
  | some sol => .ok (sol eta).2.2

/-- The property `fw_pp`, _analytic_2d_base.py 92-99. -/
def Sim.fwPp (s : Sim α) : α :=
  match s.f with
  | none => PySpecial.inf
  | some sol => (sol (lit 0)).2.2

end profile

section guards
variable [PyLit α] [PyCmp α]

/-- `u_ref.setter`, _analytic_2d_base.py 70-75. -/
def Sim.setURef (s : Sim α) (u : α) : Sim α × Except Exc Unit :=
  if PyCmp.le u (lit 0) then (s, .error .valueError) else ({ s with uRef := u }, .ok ())
/-- `nu_ref.setter`, _analytic_2d_base.py 85-90. -/
def Sim.setNuRef (s : Sim α) (nu : α) : Sim α × Except Exc Unit :=
  if PyCmp.le nu (lit 0) then (s, .error .valueError) else ({ s with nuRef := nu }, .ok ())

end guards

section solve
variable [Add α] [Sub α] [Mul α] [Div α] [Neg α] [PyLit α] [PyCmp α] [PySpecial α]

/-- `_ode_fun` of the search, _analytic_2d_base.py 554-577 (`**2` as a product). -/
def Sim.scaledRhs (s : Sim α) (etaInf : α) (f : V3 α) : V3 α :=
  (etaInf * f.2.1, etaInf * f.2.2, -etaInf * (s.alpha * f.1 * f.2.2 + s.beta * (s.gamma - f.2.1 * f.2.1)))

/-- `_ode_fun` of the final solution, _analytic_2d_base.py 635-658. -/
def Sim.plainRhs (s : Sim α) (f : V3 α) : V3 α :=
  (f.2.1, f.2.2, -(s.alpha * f.1 * f.2.2 + s.beta * (s.gamma - f.2.1 * f.2.1)))

/-- `_solve` of the search, _analytic_2d_base.py 530-590: `f'` and `f''` at the end of the interval. -/
def Sim.endValues (s : Sim α) (t : Tools α) (etaInf fwPp : α) : Except Exc (α × α) :=
  match t.ivp ⟨s.scaledRhs etaInf, lit 1, (lit 0, lit 0, fwPp)⟩ with
  | .error e => .error e
  | .ok r => if r.success then .ok r.yEnd.2 else .error .valueError

/-- The variables of the inner loop: `fw_pp_prev`, `fw_pp_curr`, `f1_prev`, `f2_curr`, `fw_pp_converged`. -/
structure Inner (α : Type) where
  prev : α
  curr : α
  f1Prev : α
  f2 : α
  converged : Bool

/-- The inner loop, _analytic_2d_base.py 610-620, with at most `n` further rounds; `solve` is `_solve` for the current `eta_inf`.
`f1_curr` and `f1_prev` are numpy floats, so the division does not raise. -/
def innerLoop (solve : α → Except Exc (α × α)) : ℕ → Inner α → Except Exc (Inner α)
  | 0, i => .ok i
  | n + 1, i =>
    match solve i.curr with
    | .error e => .error e
    | .ok (f1, f2) =>
      if PyCmp.eq i.prev i.curr || PyCmp.lt (PyCmp.abs (lit 1 - f1)) (lit (1/100000000)) then
        .ok { i with f2 := f2, converged := true }
      else
        innerLoop solve n ⟨i.curr, i.curr + (lit 1 - f1) * (i.curr - i.prev) / (f1 - i.f1Prev), f1, f2, false⟩

/-- The variables of the outer loop: `eta_inf_prev`, `eta_inf_curr`, `f2_prev`, `fw_pp_prev`, `fw_pp_curr`, `f1_prev`,
`eta_inf_converged`, `fw_pp_converged`. -/
structure Outer (α : Type) where
  prev : α
  curr : α
  f2Prev : α
  fwPrev : α
  fwCurr : α
  f1Prev : α
  converged : Bool
  fwConverged : Bool

/-- The outer loop, _analytic_2d_base.py 602-629, with at most `n` further rounds. `fwGiven`: was `fw_pp` passed. -/
def outerLoop (solve : α → α → Except Exc (α × α)) (fwGiven : Bool) : ℕ → Outer α → Except Exc (Outer α)
  | 0, o => .ok o
  | n + 1, o =>
    match innerLoop (solve o.curr) 100
        ⟨o.fwPrev, if fwGiven then o.fwPrev else lit (101/100) * o.fwPrev, o.f1Prev, lit 0, false⟩ with
    | .error e => .error e
    | .ok i =>
      if PyCmp.eq o.curr o.prev || PyCmp.lt (PyCmp.abs i.f2) (lit (1/100000000)) then
        .ok { o with fwPrev := i.prev, fwCurr := i.curr, f1Prev := i.f1Prev, converged := true, fwConverged := i.converged }
      else
        outerLoop solve fwGiven n ⟨o.curr, o.curr + -i.f2 * (o.curr - o.prev) / (i.f2 - o.f2Prev), i.f2, i.prev, i.curr, i.f1Prev,
          false, i.converged⟩

/-- The search of `_calculate_solution`, _analytic_2d_base.py 512-632: the values of `eta_inf_curr` and `fw_pp_curr` with which the final
solution is made, and the two flags, which the code does not look at again. -/
def search (solve : α → α → Except Exc (α × α)) (etaInf fwPp : Option α) : Except Exc (α × α × Bool × Bool) :=
  match etaInf, fwPp with
  | some e, some f => .ok (e, f, true, true)
  | _, _ =>
    let etaPrev := etaInf.getD (lit 1)
    let fwPrev := fwPp.getD (lit 1)
    match solve etaPrev fwPrev with
    | .error e => .error e
    | .ok (f1, f2) =>
      let etaCurr := if etaInf.isSome then etaPrev else lit (101/100) * etaPrev
      match outerLoop solve fwPp.isSome 100 ⟨etaPrev, etaCurr, f2, fwPrev, lit 0, f1, false, false⟩ with
      | .error e => .error e
      | .ok o => .ok (o.curr, o.fwCurr, o.converged, o.fwConverged)

/-- `_calculate_solution`, _analytic_2d_base.py 486-672. -/
def Sim.calculateSolution (s : Sim α) (t : Tools α) (fwPp etaInf : Option α) : Sim α × Except Exc Unit :=
  match search (s.endValues t) etaInf fwPp with
  | .error e => (s, .error e)
  | .ok (eta, fw, _, _) =>
    let s := { s with etaInf := eta }
    match t.ivp ⟨s.plainRhs, eta, (lit 0, lit 0, fw)⟩ with
    | .error e => (s, .error e)
    | .ok r => if r.success then ({ s with f := some r.sol }, .ok ()) else ({ s with f := none }, .error .valueError)

/-- The second half of `set_solution_parameters`, _analytic_2d_base.py 467-484, for the solution `sol` just found. The attributes are
written one after the other. -/
def Sim.thicknesses (s : Sim α) (t : Tools α) (sol : α → V3 α) : Sim α × Except Exc Unit :=
  let s := { s with etaD := s.etaInf - (sol s.etaInf).1 }
  match pyDiv (s.fwPp - s.beta * s.etaD) (s.alpha + s.beta) with
  | .error e => (s, .error e)
  | .ok m =>
    let s := { s with etaM := m }
    match t.quad (fun eta => lit 2 * (sol eta).1 * (sol eta).2.1 * (sol eta).2.2) (lit 0) s.etaInf with
    | .error e => (s, .error e)
    | .ok k =>
      let s := { s with etaK := k }
      match t.root (fun eta => lit (99/100) - (sol eta).2.1) (lit 0) s.etaInf with
      | .error e => (s, .error e)
      | .ok (conv, r) => if conv then ({ s with etaS := r }, .ok ()) else (s, .error .valueError)

/-- Is a supplied value rejected, _analytic_2d_base.py 457-463. -/
def badParam (v : Option α) : Bool :=
  match v with
  | none => false
  | some v => PyCmp.le v (lit 0)

/-- `set_solution_parameters`, _analytic_2d_base.py 434-484. -/
def Sim.setSolutionParameters (s : Sim α) (t : Tools α) (etaInf fwPp : Option α) : Sim α × Except Exc Unit :=
  if badParam etaInf then (s, .error .valueError) else
  if badParam fwPp then (s, .error .valueError) else
  match s.calculateSolution t fwPp etaInf with
  | (s, .error e) => (s, .error e)
  | (s, .ok ()) =>
    match s.f with
    | none => (s, .error .valueError)
    | some sol => s.thicknesses t sol

/-- `Analytic2dSimilarityIncompressible.__init__`, _analytic_2d_base.py 41-60; no object if anything raises. -/
def mkBase (t : Tools α) (cls : Cls) (uRef nuRef alpha beta gamma : α) (fwPp etaInf : Option α) : Except Exc (Sim α) :=
  if PyCmp.le uRef (lit 0) then .error .valueError else
  if PyCmp.le nuRef (lit 0) then .error .valueError else
  let s : Sim α := ⟨cls, uRef, nuRef, alpha, beta, gamma, none, lit (-1), lit (-1), lit (-1), lit (-1), lit (-1)⟩
  match s.setSolutionParameters t etaInf fwPp with
  | (_, .error e) => .error e
  | (s, .ok ()) => .ok s

/-- The range check on the wedge angle parameter, _falkner_skan.py 42 and 91. -/
def badBeta (beta : α) : Bool := PyCmp.lt beta (lit (-19884/100000)) || PyCmp.gt beta (lit 2)

/-- `FalknerSkan.__init__`, _falkner_skan.py 38-47. -/
def mkFalknerSkan (t : Tools α) (beta uRef nuRef : α) (fwPp etaInf : Option α) : Except Exc (Sim α) :=
  if badBeta beta then .error .valueError else
  mkBase t .falknerSkan uRef nuRef (lit 1) beta (lit 1) fwPp etaInf

/-- `Blasius.__init__`, _blasius.py 38-51. -/
def mkBlasius (t : Tools α) (uRef nuRef : α) (fwPp etaInf : Option α) : Except Exc (Sim α) :=
  match fwPp, etaInf with
  | none, none =>
    mkBase t .blasius uRef nuRef (lit 1) (lit 0) (lit 1) (some (lit (4695999888844369/10000000000000000)))
      (some (lit (714513231841832/100000000000000)))
  | _, _ => mkBase t .blasius uRef nuRef (lit 1) (lit 0) (lit 1) fwPp etaInf

/-- The property `m`, _falkner_skan.py 57-63. -/
def Sim.m (s : Sim α) : Except Exc α :=
  if PyCmp.eq s.beta (lit 2) then .ok PySpecial.inf else pyDiv s.beta (lit 2 - s.beta)

/-- `reset_beta`, _falkner_skan.py 65-96. -/
def Sim.resetBeta (s : Sim α) (t : Tools α) (beta : α) (etaInf fwPp : Option α) : Sim α × Except Exc Unit :=
  if badBeta beta then (s, .error .valueError) else
  { s with beta := beta }.setSolutionParameters t etaInf fwPp

/-- `reset_m`, _falkner_skan.py 98-129. -/
def Sim.resetM (s : Sim α) (t : Tools α) (m : α) (etaInf fwPp : Option α) : Sim α × Except Exc Unit :=
  if PyCmp.eq m PySpecial.inf then s.resetBeta t (lit 2) etaInf fwPp else
  match pyDiv (lit 2 * m) (lit 1 + m) with
  | .error e => (s, .error e)
  | .ok beta => s.resetBeta t beta etaInf fwPp

/-- The public calls that change an object. The `reset_` methods exist only on Falkner-Skan objects. Every call brings its own behaviour
of the numerical tools. -/
inductive Op (α : Type)
  | setURef (u : α)
  | setNuRef (nu : α)
  | setSolutionParameters (t : Tools α) (etaInf fwPp : Option α)
  | resetBeta (t : Tools α) (beta : α) (etaInf fwPp : Option α)
  | resetM (t : Tools α) (m : α) (etaInf fwPp : Option α)

/-- One public call. -/
def Sim.step (s : Sim α) : Op α → Sim α × Except Exc Unit
  | .setURef u => s.setURef u
  | .setNuRef nu => s.setNuRef nu
  | .setSolutionParameters t e f => s.setSolutionParameters t e f
  | .resetBeta t b e f => if s.cls = .falknerSkan then s.resetBeta t b e f else (s, .error .other)
  | .resetM t m e f => if s.cls = .falknerSkan then s.resetM t m e f else (s, .error .other)

/-- A history of public calls, each of which may have raised. -/
def Sim.run (s : Sim α) (ops : List (Op α)) : Sim α := ops.foldl (fun s op => (s.step op).1) s

end solve

section query
variable [Add α] [Sub α] [Mul α] [Div α] [Neg α] [PyLit α] [PyCmp α] [PySpecial α] [PySqrt α] [PyPow α]

/-- `u_e`, _analytic_2d_base.py 194-210, for a python float. The exponent is computed with python floats: for beta = 2 it raises. -/
def Sim.uE (s : Sim α) (x : α) : Except Exc α := do
  let m ← pyDiv s.beta (lit 2 * s.alpha - s.beta)
  let p ← pyPow x m
  return s.uRef * p

/-- `u_e` of a numpy number, or at an element of an array: numpy's power does not raise. -/
def Sim.uENp (s : Sim α) (x : α) : Except Exc α := do
  let m ← pyDiv s.beta (lit 2 * s.alpha - s.beta)
  return s.uRef * PyPow.pow x m

/-- The factor below the root in `_g` besides `nu_ref*x`: _falkner_skan.py 146, _blasius.py 78. -/
def Sim.gFactor (s : Sim α) : α :=
  match s.cls with
  | .falknerSkan => lit 2 - s.beta
  | .blasius => lit 2

/-- `_g`, _falkner_skan.py 131-146 and _blasius.py 63-78, for a python float. -/
def Sim.g (s : Sim α) (x : α) : Except Exc α := do
  let u ← s.uE x
  let q ← pyDiv u (s.gFactor * s.nuRef * x)
  return PySqrt.sqrt q

/-- `_g` of `np.asarray(x)`, as used by `eta` (248-250): numpy's division does not raise. -/
def Sim.gArray (s : Sim α) (x : α) : Except Exc α := do
  let u ← s.uENp x
  return PySqrt.sqrt (u / (s.gFactor * s.nuRef * x))

/-- `v_e`, _analytic_2d_base.py 212-226. -/
def Sim.vE (s : Sim α) (x : α) : Except Exc α := do
  let g ← s.g x
  return s.nuRef * g * s.etaD

/-- `eta`, _analytic_2d_base.py 228-250. -/
def Sim.eta (s : Sim α) (x y : α) : Except Exc α := do
  let g ← s.gArray x
  return y * g

/-- `u`, _analytic_2d_base.py 252-272. -/
def Sim.u (s : Sim α) (x y : α) : Except Exc α := do
  let ue ← s.uE x
  let eta ← s.eta x y
  let fp ← s.fpAt eta
  return ue * fp

/-- `v`, _analytic_2d_base.py 274-297. -/
def Sim.v (s : Sim α) (x y : α) : Except Exc α := do
  let eta ← s.eta x y
  let g ← s.g x
  let f ← s.fAt eta
  let r ← pyDiv s.beta s.alpha
  let fp ← s.fpAt eta
  return -(s.alpha * s.nuRef * g * (f + (r - lit 1) * eta * fp))

/-- `delta_d`, _analytic_2d_base.py 299-313. `_g` returns a numpy float, so the division does not raise. -/
def Sim.deltaD (s : Sim α) (x : α) : Except Exc α := do
  let g ← s.g x
  return s.etaD / g
/-- `delta_m`, _analytic_2d_base.py 315-329. -/
def Sim.deltaM (s : Sim α) (x : α) : Except Exc α := do
  let g ← s.g x
  return s.etaM / g
/-- `delta_k`, _analytic_2d_base.py 331-345. -/
def Sim.deltaK (s : Sim α) (x : α) : Except Exc α := do
  let g ← s.g x
  return s.etaK / g
/-- `delta_s`, _analytic_2d_base.py 347-361. -/
def Sim.deltaS (s : Sim α) (x : α) : Except Exc α := do
  let g ← s.g x
  return s.etaS / g

/-- `shape_d`, _analytic_2d_base.py 363-378, at one point. -/
def Sim.shapeD (s : Sim α) (_x : α) : Except Exc α := do
  let q ← pyDiv s.etaD s.etaM
  return q * lit 1
/-- `shape_k`, _analytic_2d_base.py 380-395, at one point. -/
def Sim.shapeK (s : Sim α) (_x : α) : Except Exc α := do
  let q ← pyDiv s.etaK s.etaM
  return q * lit 1

/-- `tau_w`, _analytic_2d_base.py 397-413. -/
def Sim.tauW (s : Sim α) (x rho : α) : Except Exc α := do
  let ue ← s.uE x
  let g ← s.g x
  return rho * s.nuRef * ue * g * s.fwPp

/-- `dissipation`, _analytic_2d_base.py 415-432 (`**2` as a product). -/
def Sim.dissipation (s : Sim α) (x rho : α) : Except Exc α := do
  let g ← s.g x
  let ue ← s.uE x
  return rho * s.nuRef * g * (ue * ue) * (lit (1/2) * (s.alpha + lit 2 * s.beta) * s.etaK)

end query
end IBL.Analytic
