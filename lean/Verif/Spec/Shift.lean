import Verif.Model.Method

/-! Moving everything a method object is given downstream by the distance `s`: the specification used by C76. -/

namespace IBL

/-- A stored velocity function, moved. The finite difference closures contain no location. -/
def Vel.shift (s : ℝ) : Vel ℝ → Vel ℝ
  | .fn f => .fn fun x => f (x - s)
  | v => v

/-- The three stored functions, moved. -/
def VelState.shift (s : ℝ) (v : VelState ℝ) : VelState ℝ := ⟨v.u.map (·.shift s), v.du.map (·.shift s), v.d2u.map (·.shift s)⟩

/-- A user's callable, moved. -/
def Callable.shift (s : ℝ) (c : Callable ℝ) : Callable ℝ :=
  ⟨fun x => c.call (x - s), c.deriv.map fun d => (fun x => d.1 (x - s), fun x => d.2 (x - s))⟩

/-- A table of locations, moved. -/
def Arr.shift (s : ℝ) (a : Arr ℝ) : Arr ℝ := ⟨a.shape, a.data.map (· + s)⟩

/-- An argument of `set_velocity`, moved: functions are moved and of a table the locations. -/
def Arg.shift (s : ℝ) : Arg ℝ → Arg ℝ
  | .callable c => .callable (c.shift s)
  | .pair a b => .pair (a.shift s) b
  | a => a

/-- An interpolant, moved. -/
def Spline.shift (s : ℝ) (p : Spline ℝ) : Spline ℝ :=
  ⟨fun x => p.call (x - s), fun x => p.d1 (x - s), fun x => p.d2 (x - s), fun x => p.anti (x - s)⟩

/-- The interpolator gives the moved interpolant for moved locations. -/
def PchipMoves (s : ℝ) (pchip : Pchip ℝ) : Prop := ∀ xs ys, pchip (xs.shift s) ys = (pchip xs ys).map (·.shift s)

/-- An event, moved: users' events may look at the location. -/
def Event.shift (s : ℝ) : Event ℝ → Event ℝ
  | .user g r i => .user (fun x y => g (x - s) y) r i
  | e => e

/-- The `term_event` argument, moved. -/
def TermArg.shift (s : ℝ) : TermArg ℝ → TermArg ℝ
  | .none => .none
  | .one e => .one (e.shift s)
  | .list l => .list (l.map (·.shift s))

/-- An object, moved. Viscosity, initial condition, fits do not know locations. -/
def Obj.shift (s : ℝ) (o : Obj ℝ) : Obj ℝ :=
  { o with vel := o.vel.shift s, events := o.events.map (·.shift s), sol := o.sol.map fun f x => f (x - s) }

/-- An initial value problem, moved. -/
def IvpProblem.shift (s : ℝ) (p : IvpProblem ℝ) : IvpProblem ℝ :=
  { p with rhs := fun x y => p.rhs (x - s) y, x0 := p.x0 + s, x1 := p.x1 + s, events := p.events.map (·.shift s) }

/-- What an integrator returns, moved. -/
def IvpResult.shift (s : ℝ) (r : IvpResult ℝ) : IvpResult ℝ :=
  { r with t := r.t.map (· + s), tEvents := r.tEvents.map (·.map (· + s)), sol := fun x => r.sol (x - s) }

/-- `ivp'` does for moved problems what `ivp` does for the original ones. -/
def SameIntegrator (s : ℝ) (ivp ivp' : Ivp ℝ) : Prop := ∀ p, ivp' (p.shift s) = (ivp p).map (·.shift s)

/-- What `solve` returns, moved. -/
def IntegrationResult.shift (s : ℝ) (r : IntegrationResult ℝ) : IntegrationResult ℝ := { r with xEnd := r.xEnd + s }

/-- `op'` is the call `op` with everything moved. -/
inductive MovedOp (s : ℝ) : Op ℝ → Op ℝ → Prop
  | setNu (nu) : MovedOp s (.setNu nu) (.setNu nu)
  | setVelocity (u du d2u) : MovedOp s (.setVelocity u du d2u) (.setVelocity (u.shift s) (du.shift s) (d2u.shift s))
  | setInitialCondition (ic) : MovedOp s (.setInitialCondition ic) (.setInitialCondition ic)
  | setInitialDeltaM (v) : MovedOp s (.setInitialDeltaM v) (.setInitialDeltaM v)
  | setInitialShapeD (v) : MovedOp s (.setInitialShapeD v) (.setInitialShapeD v)
  | setDataFits (a) : MovedOp s (.setDataFits a) (.setDataFits a)
  | setShapeDCritical (c) : MovedOp s (.setShapeDCritical c) (.setShapeDCritical c)
  | solve (x0 x1 te ivp ivp') : SameIntegrator s ivp ivp' →
      MovedOp s (.solve x0 x1 te ivp) (.solve (x0 + s) (x1 + s) (te.shift s) ivp')

end IBL
