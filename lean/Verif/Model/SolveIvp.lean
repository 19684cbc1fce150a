import Verif.Model.Method

/-!
Model of the event handling of scipy's `solve_ivp`, which `solve` relies on (`ibl/ibl_method.py` 567-569: `dense_output=True`, a list of events).
External code, modelled from scipy's documentation and source (`scipy/integrate/_ivp/ivp.py`: `solve_ivp`, `find_active_events`,
`handle_events`, `solve_event_equation`; `_ivp/common.py`: `OdeSolution`), not code of /repo. How steps are taken (RK45, step size control) is a
parameter, and so is the bracketing root finder. Simplified: all events have `terminal = True` (set by `TermEvent.__init__`, ibl_method.py 175-178)
and no `direction` (no class of /repo sets it; scipy then takes 0); user events that change these attributes are not covered.
-/

namespace IBL.SolveIvp
variable {α : Type}

/-- One accepted step: its end, the state there, and the local interpolant. -/
structure Step (α : Type) where
  t : α
  y : List α
  dense : α → List α

/-- What follows the listed steps if no event stops the integration before: the end of the interval, a step size failure, or an exception in
the right hand side. -/
inductive Ending
  | reached
  | failed (message : String)
  | raised (e : Exc)

/-- The accepted steps in order. -/
structure Run (α : Type) where
  steps : List (Step α)
  ending : Ending

abbrev Stepper (α : Type) := IvpProblem α → Run α

/-- `brentq` on an interval. -/
abbrev RootFinder (α : Type) := (α → Except Exc α) → α → α → Except Exc α

section
variable [PyLit α] [PyCmp α]

/-- `find_active_events` for one event with direction 0: `(g <= 0) & (g_new >= 0) | (g >= 0) & (g_new <= 0)`. -/
def changes (g gNew : α) : Bool :=
  (PyCmp.le g (lit 0) && PyCmp.ge gNew (lit 0)) || (PyCmp.ge g (lit 0) && PyCmp.le gNew (lit 0))

/-- `[event(t, y) for event in events]`. -/
def evalAll (evs : List (α → List α → Except Exc α)) (t : α) (y : List α) : Except Exc (List α) :=
  match evs with
  | [] => .ok []
  | e :: evs =>
    match e t y with
    | .error x => .error x
    | .ok v =>
      match evalAll evs t y with
      | .error x => .error x
      | .ok vs => .ok (v :: vs)

/-- The active events with their roots (`solve_event_equation`), as position and location, in the order of the events. -/
def activeRoots (root : RootFinder α) (tOld : α) (s : Step α) : ℕ → List (α → List α → Except Exc α) → List α → List α →
    Except Exc (List (ℕ × α))
  | i, e :: evs, g :: gs, h :: hs =>
    if changes g h then
      match root (fun t => e t (s.dense t)) tOld s.t with
      | .error x => .error x
      | .ok te =>
        match activeRoots root tOld s (i + 1) evs gs hs with
        | .error x => .error x
        | .ok l => .ok ((i, te) :: l)
    else activeRoots root tOld s (i + 1) evs gs hs
  | _, _, _, _ => .ok []

/-- `handle_events` when every event is terminal: the roots are sorted in the direction of integration and the first is kept. For equal roots
the earlier event is kept (numpy sorts lists this short by insertion). -/
def earliest (forward : Bool) : List (ℕ × α) → Option (ℕ × α)
  | [] => none
  | a :: l =>
    match earliest forward l with
    | none => some a
    | some b => if (if forward then PyCmp.lt b.2 a.2 else PyCmp.gt b.2 a.2) then some b else some a

/-- The integration loop: goes through the steps until an event is active. Returns the steps passed before and, if an event stopped the
integration, the step, the event and the location. -/
def loop (root : RootFinder α) (evs : List (α → List α → Except Exc α)) : α → List α → List (Step α) →
    Except Exc (List (Step α) × Option (Step α × ℕ × α))
  | _, _, [] => .ok ([], none)
  | tOld, g, s :: steps =>
    match evalAll evs s.t s.y with
    | .error x => .error x
    | .ok gNew =>
      match activeRoots root tOld s 0 evs g gNew with
      | .error x => .error x
      | .ok act =>
        match earliest (PyCmp.gt s.t tOld) act with
        | some hit => .ok ([], some (s, hit))
        | none =>
          match loop root evs s.t gNew steps with
          | .error x => .error x
          | .ok (pre, r) => .ok (s :: pre, r)

/-- `OdeSolution._call_single` (RK45: `alt_segment=False`): the first interval whose far end is not before `x` in the direction of
integration, beyond the end the last one. No check that `x` was integrated over. -/
def denseAt (forward : Bool) : List (Step α) → α → List α
  | [], _ => []
  | [s], x => s.dense x
  | s :: s' :: steps, x =>
    if (if forward then PyCmp.le x s.t else PyCmp.ge x s.t) then s.dense x else denseAt forward (s' :: steps) x

/-- `OdeSolution.__init__`, `ascending`: `ts[-1] >= ts[0]`. -/
def ascending (x0 : α) (ts : List α) : Bool := PyCmp.ge (ts.getLastD x0) x0

/-- `t_events`: one list of locations per event, only that of the event that stopped the integration is not empty. -/
def tEventsOf (n : ℕ) (hit : ℕ × α) : List (List α) := (List.range n).map fun i => if i = hit.1 then [hit.2] else []

/-- `solve_ivp`. The value of an event at a point is given by `ev`. -/
def ivp (ev : Event α → α → List α → Except Exc α) (stepper : Stepper α) (root : RootFinder α) : Ivp α := fun p =>
  let evs := p.events.map ev
  match evalAll evs p.x0 p.y0 with
  | .error x => .error x
  | .ok g =>
    match loop root evs p.x0 g (stepper p).steps with
    | .error x => .error x
    | .ok (pre, some (s, hit)) => .ok
        { success := true, status := 1, message := "A termination event occurred.", t := p.x0 :: pre.map Step.t ++ [hit.2],
          tEvents := tEventsOf p.events.length hit, sol := denseAt (ascending p.x0 [hit.2]) (pre ++ [s]) }
    | .ok (pre, none) =>
      match (stepper p).ending with
      | .raised x => .error x
      | .failed m => .ok
          { success := false, status := -1, message := m, t := p.x0 :: pre.map Step.t, tEvents := p.events.map fun _ => [],
            sol := denseAt (ascending p.x0 (pre.map Step.t)) pre }
      | .reached => .ok
          { success := true, status := 0, message := "The solver successfully reached the end of the integration interval.",
            t := p.x0 :: pre.map Step.t, tEvents := p.events.map fun _ => [], sol := denseAt (ascending p.x0 (pre.map Step.t)) pre }

end
end IBL.SolveIvp
