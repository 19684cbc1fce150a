import Verif.Model.Method

/-! Specification vocabulary for the method objects. -/

namespace IBL
variable {α : Type}
variable [Add α] [Sub α] [Mul α] [Div α] [Neg α] [PyLit α] [PyCmp α] [PySpecial α] [PySqrt α] [PyPow α]

/-- An object some constructor returned. -/
inductive Built (ext : Ext α) : Obj α → Prop
  | thwaites {linear nu u du d2u fits o} (h : Obj.mkThwaites ext linear nu u du d2u fits = .ok o) : Built ext o
  | head {nu u du d2u crit o} (h : Obj.mkHead ext nu u du d2u crit = .ok o) : Built ext o

omit [PySpecial α] [PySqrt α] in
/-- The fits a user believes to be selected: those of the last accepted selection. -/
def lastFits (ext : Ext α) (m : Fits α) : List (Op α) → Fits α
  | [] => m
  | .setDataFits a :: rest =>
    match chooseFits ext a with
    | .ok m' => lastFits ext m' rest
    | .error _ => lastFits ext m rest
  | _ :: rest => lastFits ext m rest

omit [Add α] [Sub α] [Mul α] [Div α] [Neg α] [PyLit α] [PyCmp α] [PySpecial α] [PySqrt α] [PyPow α] in
/-- The critical shape factor a user believes to be in force: the last one set. -/
def lastCrit (c : α) : List (Op α) → α
  | [] => c
  | .setShapeDCritical c' :: rest => lastCrit c' rest
  | _ :: rest => lastCrit c rest

omit [Add α] [Sub α] [Mul α] [Div α] [Neg α] [PyLit α] [PyCmp α] [PySpecial α] [PySqrt α] [PyPow α] in
/-- The report `res` tells what the integrator did: `p` is what it was asked, `r` what it returned. -/
structure FaithfulReport (p : IvpProblem α) (r : IvpResult α) (res : IntegrationResult α) : Prop where
  success : res.success = r.success
  failed : r.success = false → res.status = .unknown ∧ res.xEnd = p.x0 ∧ res.fEnd = p.y0
  completed : r.success = true → r.status = 0 →
    res.status = .reachedEnd ∧ r.t.getLast? = some res.xEnd ∧ res.fEnd = r.sol res.xEnd
  stopped : r.success = true → r.status = 1 → ∀ (i : ℕ) (e : Event α) (x : α) (xs : List α),
    p.events[i]? = some e → r.tEvents[i]? = some (x :: xs) → (∀ j < i, r.tEvents[j]? = some []) →
    res.status = e.info.1 ∧ res.xEnd = x ∧ res.fEnd = r.sol x
  noEvent : r.success = true → r.status = 1 → (∀ l ∈ r.tEvents, l = []) →
    res.status = .unknown ∧ res.xEnd = p.x0 ∧ res.fEnd = p.y0
  other : r.success = true → r.status ≠ 0 → r.status ≠ 1 →
    res.status = .unknown ∧ res.xEnd = p.x0 ∧ res.fEnd = p.y0

omit [Add α] [Sub α] [Mul α] [Div α] [Neg α] [PyLit α] [PyCmp α] [PySpecial α] [PySqrt α] [PyPow α] in
/-- The part of scipy's contract `solve` relies on for not raising itself: at least one time point, one list
of locations per event. -/
structure IvpContract (p : IvpProblem α) (r : IvpResult α) : Prop where
  times : r.t ≠ []
  events : r.tEvents.length = p.events.length

end IBL
