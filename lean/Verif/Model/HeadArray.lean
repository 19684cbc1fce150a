import Verif.Model.Method

/-!
Model of the queries `tau_w` and `v_e` of Head's method (`ibl/head_method.py` 85-107, 201-226, 262-300) including arrays and
the writes into arrays. One-dimensional float arrays live in a memory; a callable may return a new array, its argument, or an array
it keeps.
-/

namespace IBL.HeadArr
variable {α : Type}

/-- Contents of all arrays; an array is a position in this list. -/
abbrev Heap (α : Type) := List (List α)

/-- What is passed to a query and what a velocity callable can return: a python or numpy double (`isinstance(v, float)`), another scalar
(such as an int, which is neither a float nor supports item assignment), or an array. -/
inductive Val (α : Type)
  | flt (a : α)
  | int (a : α)
  | arr (r : ℕ)

/-- A velocity callable (the methods `u_e` and `du_e`, ibl_method.py 601-645): may allocate, write and raise. -/
abbrev ArrFn (α : Type) := Heap α → Val α → Except Exc (Heap α × Val α)

/-- A number or the contents of an array: operands of the arithmetic. -/
inductive Num (α : Type)
  | s (a : α)
  | v (l : List α)

/-- The contents of a value. -/
def Val.read (hp : Heap α) : Val α → Num α
  | .flt a => .s a
  | .int a => .s a
  | .arr r => .v (hp[r]?.getD [])

/-- Elementwise operation with one operand. -/
def Num.map (f : α → α) : Num α → Num α
  | .s a => .s (f a)
  | .v l => .v (l.map f)

/-- Elementwise operation with two operands and numpy's broadcasting of numbers. Simplification: arrays of different lengths are
an error also if one of them has length one. -/
def Num.map2 (f : α → α → α) : Num α → Num α → Except Exc (Num α)
  | .s a, .s b => .ok (.s (f a b))
  | .s a, .v m => .ok (.v (m.map (f a)))
  | .v l, .s b => .ok (.v (l.map (f · b)))
  | .v l, .v m => if l.length = m.length then .ok (.v (List.zipWith f l m)) else .error .valueError

/-- Storing the value `n` in a row of `f_p`, whose elements have the form of `like` (head_method.py 295-296): a number fills the row. -/
def Num.store (like n : Num α) : Except Exc (Num α) :=
  match like, n with
  | .s _, .s b => .ok (.s b)
  | .s _, .v _ => .error .valueError
  | .v l, .s b => .ok (.v (l.map fun _ => b))
  | .v l, .v m => if l.length = m.length then .ok (.v m) else .error .valueError

section num
variable [Add α] [Sub α] [Mul α] [Div α] [Neg α] [PyLit α] [PyCmp α] [PyPow α]

/-- The in-place floor `u_e[np.abs(u_e) < 0.001] = 0.001`, head_method.py 223 and 287: only arrays support it. -/
def floorInPlace (hp : Heap α) : Val α → Except Exc (Heap α × Val α)
  | .arr r => .ok (hp.set r ((hp[r]?.getD []).map Head.floorArray), .arr r)
  | _ => .error .typeError

/-- The floor in `_ode_impl`, head_method.py 284-287. -/
def floorOde (hp : Heap α) : Val α → Except Exc (Heap α × Val α)
  | .flt a => .ok (hp, .flt (Head.floorScalar a))
  | v => floorInPlace hp v

/-- `tau_w`, head_method.py 201-226. `sol` is the dense solution, which is evaluated elementwise and returns new arrays. -/
def tauW (u : ArrFn α) (sol : α → α × α) (nu : α) (hp : Heap α) (x : Val α) (rho : α) : Except Exc (Heap α × Num α) := do
  let dm := (x.read hp).map fun a => (sol a).1
  let h := (x.read hp).map fun a => (sol a).2
  let (hp, uv) ← u hp x
  let (hp, uv) ← floorInPlace hp uv
  let un := uv.read hp
  let re ← Num.map2 (fun u d => u * d / nu) un dm
  let cf ← Num.map2 ludwiegTillman re h
  let r ← Num.map2 (fun u c => lit (1/2) * rho * (u * u) * c) un cf
  return (hp, r)

/-- `_ode_impl`, head_method.py 262-300, on the solution values `dm`, `h` (new arrays, so that clipping the shape factor
in place is not visible outside). Returns the two rows of `f_p`. -/
def odeImpl (u du : ArrFn α) (nu : α) (hp : Heap α) (x : Val α) (dm h : Num α) : Except Exc (Heap α × Num α × Num α) := do
  let h := h.map Head.odeClamp
  let (hp, uv) ← u hp x
  let (hp, uv) ← floorOde hp uv
  let (hp, dv) ← du hp x
  let un := uv.read hp
  let dn := dv.read hp
  let re ← Num.map2 (fun u d => u * d / nu) un dm
  let cf ← Num.map2 ludwiegTillman re h
  let e := h.map Head.h1
  let ep := h.map Head.h1p
  let a ← Num.map2 (fun d h => d * (lit 2 + h)) dm h
  let a ← Num.map2 (· * ·) a dn
  let a ← Num.map2 (· / ·) a un
  let p0 ← Num.map2 (fun c a => lit (1/2) * c - a) cf a
  let f0 ← Num.store dm p0
  let t1 ← Num.map2 (fun u e => u * Head.entrainment e) un e
  let t2 ← Num.map2 (· * ·) un f0
  let t2 ← Num.map2 (· * ·) t2 e
  let t3 ← Num.map2 (· * ·) dn dm
  let t3 ← Num.map2 (· * ·) t3 e
  let n ← Num.map2 (· - ·) t1 t2
  let n ← Num.map2 (· - ·) n t3
  let q ← Num.map2 (· * ·) ep un
  let q ← Num.map2 (· * ·) q dm
  let p1 ← Num.map2 (· / ·) n q
  let f1 ← Num.store dm p1
  return (hp, f0, f1)

/-- `v_e`, head_method.py 85-107: everything but the rates is evaluated again after `_ode_impl`. -/
def vE (u du : ArrFn α) (sol : α → α × α) (nu : α) (hp : Heap α) (x : Val α) : Except Exc (Heap α × Num α) := do
  let dm := (x.read hp).map fun a => (sol a).1
  let h := (x.read hp).map fun a => (sol a).2
  let (hp, f0, f1) ← odeImpl u du nu hp x dm h
  let h := (x.read hp).map fun a => (sol a).2
  let (hp, uv) ← u hp x
  let (hp, dv) ← du hp x
  let un := uv.read hp
  let dn := dv.read hp
  let dm := (x.read hp).map fun a => (sol a).1
  let a ← Num.map2 (· * ·) dn h
  let a ← Num.map2 (· * ·) a dm
  let b ← Num.map2 (· * ·) un f1
  let b ← Num.map2 (· * ·) b dm
  let c ← Num.map2 (· * ·) un h
  let c ← Num.map2 (· * ·) c f0
  let r ← Num.map2 (· + ·) a b
  let r ← Num.map2 (· + ·) r c
  return (hp, r)

end num

/-! ### Callables used in statements -/

/-- A callable that applies `f` to a float or to every element of an array, returning new arrays: `lambda x: 2*x`, splines, ... -/
def elementwise (f : α → α) : ArrFn α := fun hp x =>
  match x with
  | .flt a => .ok (hp, .flt (f a))
  | .int a => .ok (hp, .flt (f a))
  | .arr r => .ok (hp ++ [(hp[r]?.getD []).map f], .arr hp.length)

/-- The callable `lambda x: x`, which returns its argument. -/
def identity : ArrFn α := fun hp x => .ok (hp, x)

end IBL.HeadArr
