import Verif.Model.Fits
import Verif.Model.Head
import Verif.Model.InitialCondition

/-! Model of the method objects: `IBLMethod` (`ibl/ibl_method.py`), `ThwaitesMethodLinear/Nonlinear`
(`ibl/thwaites_method.py`) and `HeadMethod` (`ibl/head_method.py`), as a state machine driven by public calls. -/

namespace IBL
variable {α : Type}

/-- `TermReason`, ibl_method.py 34-60. -/
inductive TermReason
  | reachedEnd
  | separated
  | transitioned
  | unknown
  deriving DecidableEq, Repr

/-- The integer values of the enumeration, ibl_method.py 50-60. -/
def TermReason.code : TermReason → ℕ
  | reachedEnd => 0
  | separated => 1
  | transitioned => 2
  | unknown => 3

/-- `TermReason.__str__`, ibl_method.py 39-48. -/
def TermReason.text : TermReason → String
  | reachedEnd => "Completed"
  | separated => "Separated"
  | transitioned => "Transition"
  | unknown => "Unknown Event"

/-- A termination event (`TermEvent` objects, ibl_method.py 155-243): the two separation events the library makes itself
(thwaites_method.py 698-739 with the shear function of the fits given at construction; head_method.py 427-477) and user
events. For a user event: its value at a state (may raise) and what `event_info()` returns. -/
inductive Event (α : Type)
  | sepThwaites (fits : Fits α)
  | sepHead (crit : α)
  | user (g : α → List α → Except Exc α) (reason : TermReason) (info : String)

/-- `event_info()`, thwaites_method.py 738-739, head_method.py 476-477. -/
def Event.info : Event α → TermReason × String
  | sepThwaites _ => (.separated, "")
  | sepHead _ => (.separated, "")
  | user _ r s => (r, s)

/-- `IntegrationResult`, ibl_method.py 63-134. -/
structure IntegrationResult (α : Type) where
  xEnd : α
  fEnd : List α
  status : TermReason
  message : String
  success : Bool

/-- What is passed to `solve_ivp`, ibl_method.py 567-569 (`method="RK45"` and `dense_output=True` always). -/
structure IvpProblem (α : Type) where
  rhs : α → List α → Except Exc (List α)
  x0 : α
  x1 : α
  y0 : List α
  rtol : α
  atol : α
  events : List (Event α)

/-- The fields of the object returned by `solve_ivp` that `solve` reads, ibl_method.py 572-593. -/
structure IvpResult (α : Type) where
  success : Bool
  status : Int
  message : String
  t : List α
  tEvents : List (List α)
  sol : α → List α

/-- The integrator: any function that returns a result or raises. -/
abbrev Ivp (α : Type) := IvpProblem α → Except Exc (IvpResult α)

/-- The three concrete classes. -/
inductive Cls
  | thwaitesLinear
  | thwaitesNonlinear
  | head
  deriving DecidableEq, Repr

/-- Is it one of the Thwaites classes. -/
def Cls.isThwaites : Cls → Bool
  | head => false
  | _ => true

/-- A method object. `events` is `_kill_events`, `sol` is `_solution`, `fits` is `_model` (Thwaites only). -/
structure Obj (α : Type) where
  cls : Cls
  nu : α
  vel : VelState α
  ic : IC α
  events : List (Event α)
  sol : Option (α → List α)
  fits : Option (Fits α)

/-- An element of the tuple given to `set_data_fits`. -/
inductive FitFn (α : Type)
  | fn (f : α → α)
  | notCallable

/-- The argument of `set_data_fits`, thwaites_method.py 114-159: a string, a tuple, or something else. -/
inductive FitsArg (α : Type)
  | name (s : String)
  | tuple (l : List (FitFn α))
  | other

/-- External constructors used by the library: scipy's interpolators. -/
structure Ext (α : Type) where
  pchip : Pchip α
  cubic : Fits.CubicSpline α

/-- `term_event` argument of `solve`: `None`, one event, or a list. -/
inductive TermArg (α : Type)
  | none
  | one (e : Event α)
  | list (l : List (Event α))

/-- The events contained in a `term_event` argument. -/
def TermArg.toList : TermArg α → List (Event α)
  | none => []
  | one e => [e]
  | list l => l

section fits
variable [Add α] [Sub α] [Mul α] [Div α] [Neg α] [PyLit α] [PyCmp α] [PyPow α]

/-- The choice of fits in `set_data_fits`, thwaites_method.py 114-159. -/
def chooseFits (ext : Ext α) : FitsArg α → Except Exc (Fits α)
  | .name s =>
    if s = "Spline" then .ok (Fits.spline ext.cubic) else
    if s = "White" then .ok Fits.white else
    if s = "Cebeci-Bradshaw" then .ok Fits.cebeciBradshaw else
    if s = "Drela" then .ok Fits.drela else
    .error .valueError
  | .tuple l =>
    match l with
    | [.fn a, .fn b, .fn c] => .ok ⟨"Custom", a, b, .fn c, none, none⟩
    | [.fn a, .fn b] => .ok ⟨"Custom", a, b, .fdOfShape, none, none⟩
    | _ => .error .valueError
  | .other => .error .valueError

/-- `set_data_fits`, thwaites_method.py 81-162: selects the fits and replaces the whole event list by a fresh
list with the separation event for these fits (`_set_kill_event`, ibl_method.py 685-698). -/
def Obj.setDataFits (ext : Ext α) (o : Obj α) (a : FitsArg α) : Obj α × Except Exc Unit :=
  match chooseFits ext a with
  | .error e => (o, .error e)
  | .ok m => ({ o with fits := some m, events := [.sepThwaites m] }, .ok ())

end fits

/-- `set_shape_d_critical`, head_method.py 67-82 (no validation). -/
def Obj.setShapeDCritical (o : Obj α) (crit : α) : Obj α :=
  { o with events := [.sepHead crit] }

section construct
variable [PyLit α] [PyCmp α] [PySpecial α]

/-- `nu.setter`, ibl_method.py 366-370. -/
def Obj.setNu (o : Obj α) (nu : α) : Obj α × Except Exc Unit :=
  if PyCmp.le nu (lit 0) then (o, .error .valueError) else ({ o with nu := nu }, .ok ())

/-- `set_initial_condition`, ibl_method.py 372-381. -/
def Obj.setInitialCondition (o : Obj α) (ic : IC α) : Obj α := { o with ic := ic }

/-- `initial_delta_m.setter`, thwaites_method.py 75-79 and head_method.py 47-51. -/
def Obj.setInitialDeltaM (o : Obj α) (v : α) : Obj α × Except Exc Unit :=
  if PyCmp.le v (lit 0) then (o, .error .valueError) else ({ o with ic := o.ic.assignDelM v }, .ok ())

variable [Add α] [Sub α] [Mul α] [Div α] [Neg α] [PySqrt α] [PyPow α]

/-- `initial_shape_d.setter`, head_method.py 61-65. -/
def Obj.setInitialShapeD (o : Obj α) (v : α) : Obj α × Except Exc Unit :=
  if PyCmp.le v (lit 0) then (o, .error .valueError) else
  match o.ic.deltaM with
  | .error e => (o, .error e)
  | .ok m => ({ o with ic := o.ic.assignDelD (v * m) }, .ok ())

/-- `set_velocity` of an object, ibl_method.py 383-513. -/
def Obj.setVelocity (ext : Ext α) (o : Obj α) (u du d2u : Arg α) : Obj α × Except Exc Unit :=
  let r := IBL.setVelocity ext.pchip o.vel u du d2u
  ({ o with vel := r.1 }, r.2)

/-- `IBLMethod.__init__`, ibl_method.py 331-356, called with the `ic` that the subclasses pass.
The temporary `FalknerSkanStagCondition(0, nu)` (line 335) is what rejects a bad `nu`.
If anything raises, no object is created. -/
def Obj.mkBase (ext : Ext α) (cls : Cls) (nu : α) (u du d2u : Arg α) (ic : IC α) : Except Exc (Obj α) :=
  match IC.mkStag (lit 0) nu with
  | .error e => .error e
  | .ok c0 =>
    let o : Obj α := ⟨cls, nu, VelState.empty, c0, [], none, none⟩
    match u with
    | .none =>
      match du with
      | .none =>
        match d2u with
        | .none => .ok (o.setInitialCondition ic)
        | _ => .error .valueError
      | _ => .error .valueError
    | _ =>
      match o.setVelocity ext u du d2u with
      | (_, .error e) => .error e
      | (o, .ok ()) => .ok (o.setInitialCondition ic)

/-- `ThwaitesMethod.__init__`, thwaites_method.py 57-65. -/
def Obj.mkThwaites (ext : Ext α) (linear : Bool) (nu : α) (u du d2u : Arg α) (fits : FitsArg α) :
    Except Exc (Obj α) :=
  match Obj.mkBase ext (if linear then .thwaitesLinear else .thwaitesNonlinear) nu u du d2u
      (IC.mkManual (lit 0) PySpecial.inf (lit 0)) with
  | .error e => .error e
  | .ok o =>
    match o.setDataFits ext fits with
    | (_, .error e) => .error e
    | (o, .ok ()) => .ok o

/-- `HeadMethod.__init__`, head_method.py 30-37. -/
def Obj.mkHead (ext : Ext α) (nu : α) (u du d2u : Arg α) (crit : α) : Except Exc (Obj α) :=
  match Obj.mkBase ext .head nu u du d2u (IC.mkManual PySpecial.inf PySpecial.inf (lit 0)) with
  | .error e => .error e
  | .ok o => .ok (o.setShapeDCritical crit)

end construct

section ode
variable [Add α] [Sub α] [Mul α] [Div α] [Neg α] [PyLit α] [PyCmp α] [PySqrt α] [PyPow α]

/-- `_calc_lambda`, thwaites_method.py 363-380. -/
def Obj.calcLambda (o : Obj α) (x F : α) : Except Exc α := do
  let d ← o.vel.duE x
  return F * d

/-- `_calc_f` of the two Thwaites classes, thwaites_method.py 449-452 and 499-500. -/
def Obj.calcF (o : Obj α) (x F : α) : Except Exc α := do
  let lam ← o.calcLambda x F
  match o.cls, o.fits with
  | .thwaitesLinear, _ => return lit (45/100) - lit 6 * lam
  | _, some m => return m.fAt lam
  | _, none => .error .other

/-- `_ode_impl` of Thwaites, thwaites_method.py 343-361. -/
def Obj.thwaitesRhs (o : Obj α) (x F : α) : Except Exc α := do
  let f ← o.calcF x F
  let u ← o.vel.uE x
  return f / (lit (1/1000) + u)

/-- `_ode_impl` of Head, head_method.py 262-300, when the edge velocity is a float. -/
def Obj.headRhs (o : Obj α) (x dm h : α) : Except Exc (α × α) := do
  let h := Head.odeClamp h
  let u ← o.vel.uE x
  let u := Head.floorScalar u
  let du ← o.vel.duE x
  return Head.rates o.nu u du dm h

/-- `_ode_impl` of the object's class on a state vector. -/
def Obj.rhs (o : Obj α) (x : α) (y : List α) : Except Exc (List α) :=
  match o.cls, y with
  | .head, [dm, h] => do let (a, b) ← o.headRhs x dm h; return [a, b]
  | .head, _ => .error .indexError
  | _, [F] => do let r ← o.thwaitesRhs x F; return [r]
  | _, _ => .error .indexError

/-- The start vector made by `_ode_setup`, thwaites_method.py 340 (`**2` as a product) and head_method.py 259. -/
def Obj.startVector (o : Obj α) : Except Exc (List α) :=
  match o.cls with
  | .head => do
    let m ← o.ic.deltaM
    let h ← o.ic.shapeD
    return [m, h]
  | _ => do
    let m ← o.ic.deltaM
    let F ← pyDiv (m * m) o.nu
    return [F]

/-- The value of an event of this object, thwaites_method.py 716-735 and head_method.py 452-473. -/
def Obj.eventValue (o : Obj α) (e : Event α) (x : α) (y : List α) : Except Exc α :=
  match e with
  | .sepThwaites m =>
    match y with
    | F :: _ => do let lam ← o.calcLambda x F; return m.shearAt lam
    | [] => .error .indexError
  | .sepHead crit =>
    match y with
    | _ :: h :: _ => return crit - h
    | _ => .error .indexError
  | .user g _ _ => g x y

/-- The search for the event that fired, ibl_method.py 587-593: the first position with a non-empty list of
locations; `some (i, x)` gives position and first location. -/
def firstFired (tEvents : List (List α)) (i : ℕ := 0) : Option (ℕ × α) :=
  match tEvents with
  | [] => none
  | [] :: rest => firstFired rest (i + 1)
  | (x :: _) :: _ => some (i, x)

/-- Composition of the final message, ibl_method.py 595-598. -/
def composeMessage (status : TermReason) (message : String) : String :=
  if message.length > 0 then status.text ++ ": " ++ message else status.text

/-- The evaluation of the integrator's result, ibl_method.py 572-599; `events` is the list that was passed. -/
def evalResult (x0 : α) (y0 : List α) (events : List (Event α)) (r : IvpResult α) :
    Except Exc (IntegrationResult α) :=
  if r.success then
    if r.status = 0 then
      match r.t.getLast? with
      | none => .error .indexError
      | some xe => .ok ⟨xe, r.sol xe, .reachedEnd, composeMessage .reachedEnd "", r.success⟩
    else if r.status = 1 then
      match firstFired r.tEvents with
      | none => .ok ⟨x0, y0, .unknown, composeMessage .unknown "Event not found.", r.success⟩
      | some (i, xe) =>
        match events[i]? with
        | none => .error .indexError
        | some e => .ok ⟨xe, r.sol xe, e.info.1, composeMessage e.info.1 e.info.2, r.success⟩
    else .ok ⟨x0, y0, .unknown, composeMessage .unknown r.message, r.success⟩
  else .ok ⟨x0, y0, .unknown, composeMessage .unknown r.message, r.success⟩

/-- First half of `solve`, ibl_method.py 543-569: everything up to the call of `solve_ivp`. Writes happen in this order: the
condition's `nu`, its `du_e`, the event list (line 560 aliases `self._kill_events`, so the `+=` / `append` of
lines 562-565 changes the object's list). Returns the arguments passed to the integrator. -/
def Obj.prepare (o : Obj α) (x0 x1 : α) (te : TermArg α) : Obj α × Except Exc (IvpProblem α) :=
  match o.ic.setNu o.nu with
  | .error e => (o, .error e)
  | .ok ic =>
    let o := { o with ic := ic }
    match o.vel.duE x0 with
    | .error e => (o, .error e)
    | .ok d =>
      let o := { o with ic := o.ic.setDu d }
      match o.startVector with
      | .error e => (o, .error e)
      | .ok y0 =>
        let o := { o with events := o.events ++ te.toList }
        (o, .ok ⟨o.rhs, x0, x1, y0, lit (1/100000000), lit (1/100000000000), o.events⟩)

/-- `solve`, ibl_method.py 515-599: prepare, integrate, then store the dense solution (only if the integrator
returned) and evaluate the result. -/
def Obj.solve (o : Obj α) (x0 x1 : α) (te : TermArg α) (ivp : Ivp α) :
    Obj α × Except Exc (IntegrationResult α) :=
  match o.prepare x0 x1 te with
  | (o, .error e) => (o, .error e)
  | (o, .ok p) =>
    match ivp p with
    | .error e => (o, .error e)
    | .ok r => ({ o with sol := if r.success then some r.sol else none }, evalResult x0 p.y0 o.events r)

/-! ### Queries -/

/-- `self._solution(x)`, with the check that precedes it in every query (e.g. thwaites_method.py 226-227, head_method.py 141-142). -/
def Obj.state (o : Obj α) (x : α) : Except Exc (List α) :=
  match o.sol with
  | none => .error .valueError
  | some s => .ok (s x)

/-- `self._solution(x)[i]`. -/
def Obj.comp (o : Obj α) (i : ℕ) (x : α) : Except Exc α := do
  let y ← o.state x
  match y[i]? with
  | some v => return v
  | none => .error .indexError

/-- `delta_m`, thwaites_method.py 212-229 and head_method.py 127-144. -/
def Obj.deltaM (o : Obj α) (x : α) : Except Exc α := do
  match o.cls with
  | .head => o.comp 0 x
  | _ => do
    let F ← o.comp 0 x
    return PySqrt.sqrt (F * o.nu)

/-- `shape_d`, thwaites_method.py 249-267 and head_method.py 164-181. -/
def Obj.shapeD (o : Obj α) (x : α) : Except Exc α := do
  match o.cls with
  | .head => o.comp 1 x
  | _ => do
    let F ← o.comp 0 x
    let lam ← o.calcLambda x F
    match o.fits with
    | some m => return m.shapeAt lam
    | none => .error .other

/-- `delta_d`, thwaites_method.py 195-209 and head_method.py 110-124. -/
def Obj.deltaD (o : Obj α) (x : α) : Except Exc α := do
  let m ← o.deltaM x
  let h ← o.shapeD x
  return m * h

/-- `tau_w` of Thwaites, thwaites_method.py 287-307. (Head: see `Model/HeadArray.lean`.) -/
def Obj.tauWThwaites (o : Obj α) (x rho : α) : Except Exc α := do
  let F ← o.comp 0 x
  let lam ← o.calcLambda x F
  let u ← o.vel.uE x
  match o.fits with
  | some m => do
    let d ← o.deltaM x
    return rho * o.nu * u * m.shearAt lam / d
  | none => .error .other

/-- `delta_k`, thwaites_method.py 232-246 and head_method.py 147-161: zeros, solved or not. -/
def Obj.deltaK (_o : Obj α) (_x : α) : Except Exc α := .ok (lit 0)

/-- `shape_k`, thwaites_method.py 270-284 and head_method.py 184-198 (numpy division). -/
def Obj.shapeK (o : Obj α) (x : α) : Except Exc α := do
  let k ← o.deltaK x
  let m ← o.deltaM x
  return k / m

/-- `dissipation`, thwaites_method.py 310-326 and head_method.py 229-245: zeros, solved or not. -/
def Obj.dissipation (_o : Obj α) (_x _rho : α) : Except Exc α := .ok (lit 0)

/-- `v_e` of Thwaites, thwaites_method.py 165-192. -/
def Obj.vEThwaites (o : Obj α) (x : α) : Except Exc α := do
  let F ← o.comp 0 x
  let u ← o.vel.uE x
  let du ← o.vel.duE x
  let dd ← o.deltaD x
  let term1 := du * dd
  let term2 := PySqrt.sqrt (o.nu / F)
  let ds ← o.thwaitesRhs x F
  let h ← o.shapeD x
  let term3 := lit (1/2) * u * h * ds
  let lam ← o.calcLambda x F
  match o.fits with
  | some m => do
    let term4 := u * F * m.shapePAt lam
    let d2 ← o.vel.d2uE x
    let term5 := du * ds + d2 * F
    return term1 + term2 * (term3 + term4 * term5)
  | none => .error .other

/-- `v_e` of Head, head_method.py 85-107, when the edge velocity is a float. -/
def Obj.vEHead (o : Obj α) (x : α) : Except Exc α := do
  let dm ← o.comp 0 x
  let h ← o.comp 1 x
  let yp ← o.headRhs x dm h
  let u ← o.vel.uE x
  let du ← o.vel.duE x
  return du * h * dm + u * yp.2 * dm + u * h * yp.1

/-- `v_e`. -/
def Obj.vE (o : Obj α) (x : α) : Except Exc α :=
  match o.cls with
  | .head => o.vEHead x
  | _ => o.vEThwaites x

/-- `initial_delta_m`, thwaites_method.py 67-73, head_method.py 39-45. -/
def Obj.initialDeltaM (o : Obj α) : Except Exc α := o.ic.deltaM

/-- `initial_shape_d`, head_method.py 53-59. -/
def Obj.initialShapeD (o : Obj α) : Except Exc α := o.ic.shapeD

end ode

/-! ### Histories -/

/-- One public call that can change an object. Reads (`u_e`, `delta_m`, ... ) do not change the object and are functions of
its state. A call that the object's class does not have is an AttributeError. -/
inductive Op (α : Type)
  | setNu (nu : α)
  | setVelocity (u du d2u : Arg α)
  | setInitialCondition (ic : IC α)
  | setInitialDeltaM (v : α)
  | setInitialShapeD (v : α)
  | setDataFits (a : FitsArg α)
  | setShapeDCritical (c : α)
  | solve (x0 x1 : α) (te : TermArg α) (ivp : Ivp α)

section run
variable [Add α] [Sub α] [Mul α] [Div α] [Neg α] [PyLit α] [PyCmp α] [PySqrt α] [PyPow α]

/-- What a call returns. -/
abbrev Out (α : Type) := Except Exc (Option (IntegrationResult α))

/-- Discard the trivial return value. -/
def outOf (e : Except Exc Unit) : Out α :=
  match e with
  | .ok () => .ok none
  | .error e => .error e

/-- One public call. -/
def Obj.step (ext : Ext α) (o : Obj α) : Op α → Obj α × Out α
  | .setNu nu => let r := o.setNu nu; (r.1, outOf r.2)
  | .setVelocity u du d2u => let r := o.setVelocity ext u du d2u; (r.1, outOf r.2)
  | .setInitialCondition ic => (o.setInitialCondition ic, .ok none)
  | .setInitialDeltaM v => let r := o.setInitialDeltaM v; (r.1, outOf r.2)
  | .setInitialShapeD v =>
    if o.cls = .head then let r := o.setInitialShapeD v; (r.1, outOf r.2) else (o, .error .other)
  | .setDataFits a =>
    if o.cls.isThwaites then let r := o.setDataFits ext a; (r.1, outOf r.2) else (o, .error .other)
  | .setShapeDCritical c => if o.cls = .head then (o.setShapeDCritical c, .ok none) else (o, .error .other)
  | .solve x0 x1 te ivp =>
    let r := o.solve x0 x1 te ivp
    (r.1, r.2.map some)

/-- A history of public calls, each of which may have raised. -/
def Obj.run (ext : Ext α) (o : Obj α) (ops : List (Op α)) : Obj α :=
  ops.foldl (fun o op => (o.step ext op).1) o

end run
end IBL
