import Verif.Model.Method

/-!
Several method objects and the initial condition objects they refer to. `Model/Method.lean` stores the condition inside the method
object; here it is what python has: a reference (`self._ic = ic`, ibl_method.py 381), so that method objects and the caller can hold the same
condition object.
-/

namespace IBL
variable {α : Type}

/-- The objects of a program. `conds r` is the condition object at address `r < next`, `objs j` for `j < size` is method object `j` together with the
address in its `_ic` attribute; the `ic` field of the record is not used, nor are `conds` and `objs` at other numbers. -/
structure World (α : Type) where
  conds : ℕ → IC α
  next : ℕ
  size : ℕ
  objs : ℕ → Obj α × ℕ

/-- Method object `j` with the condition it refers to. -/
def World.view (w : World α) (j : ℕ) : Obj α := { (w.objs j).1 with ic := w.conds (w.objs j).2 }

/-- What a program can do with these objects. -/
inductive WOp (α : Type)
  /-- a public call on method object `j`; a condition given to `set_initial_condition` is made on the spot -/
  | call (j : ℕ) (op : Op α)
  /-- `set_initial_condition` of method object `j` with the existing condition object `r`, ibl_method.py 372-381 -/
  | setIC (j r : ℕ)

section step
variable [Add α] [Sub α] [Mul α] [Div α] [Neg α] [PyLit α] [PyCmp α] [PySqrt α] [PyPow α]

/-- One action, which object was called and what it returned. -/
def World.step (ext : Ext α) (w : World α) : WOp α → World α × (ℕ × Out α)
  | .call j (.setInitialCondition ic) =>
    (⟨Function.update w.conds w.next ic, w.next + 1, w.size, Function.update w.objs j ((w.objs j).1, w.next)⟩, (j, .ok none))
  | .call j op =>
    let r := (w.view j).step ext op
    (⟨Function.update w.conds (w.objs j).2 r.1.ic, w.next, w.size, Function.update w.objs j (r.1, (w.objs j).2)⟩, (j, r.2))
  | .setIC j r => ({ w with objs := Function.update w.objs j ((w.objs j).1, r) }, (j, .ok none))

/-- A program: the final state and what each call returned, in order. -/
def World.run (ext : Ext α) : World α → List (WOp α) → World α × List (ℕ × Out α)
  | w, [] => (w, [])
  | w, a :: l =>
    let r := w.step ext a
    let s := World.run ext r.1 l
    (s.1, r.2 :: s.2)

end step
end IBL
