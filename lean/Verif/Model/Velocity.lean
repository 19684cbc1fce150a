import Verif.Py

/-! Model of the edge velocity handling of `IBLMethod` (`ibl/ibl_method.py` 383-513, 601-668). -/

namespace IBL
variable {α : Type}

section fd
variable [Add α] [Sub α] [Mul α] [Div α] [Neg α] [PyLit α]

/-- Arithmetic of `fd_1f` (ibl_method.py 407-410, and again thwaites_method.py 140-145) on the four sampled values
`f(xo-2dx)`, `f(xo+2dx)`, `f(xo-dx)`, `f(xo+dx)`. -/
def fd1Comb (fm2 fp2 fm1 fp1 dx : α) : α :=
  ((fm2 - fp2) / lit 12 - lit 2 * (fm1 - fp1) / lit 3) / dx

/-- Arithmetic of `fd_2f` (ibl_method.py 411-415) on the five sampled values. `dx**2` is modelled as `dx*dx`. -/
def fd2Comb (fm2 fp2 f0 fm1 fp1 dx : α) : α :=
  (-(fm2 + fp2) / lit 12 - lit (5/2) * f0 + lit 4 * (fm1 + fp1) / lit 3) / (dx * dx)

/-- `fd_1f(fun, xo, dx)` for a function that may raise. -/
def fd1 (f : α → Except Exc α) (xo dx : α) : Except Exc α := do
  let a ← f (xo - lit 2 * dx)
  let b ← f (xo + lit 2 * dx)
  let c ← f (xo - dx)
  let d ← f (xo + dx)
  return fd1Comb a b c d dx

/-- `fd_2f(fun, xo, dx)` for a function that may raise. -/
def fd2 (f : α → Except Exc α) (xo dx : α) : Except Exc α := do
  let a ← f (xo - lit 2 * dx)
  let b ← f (xo + lit 2 * dx)
  let z ← f xo
  let c ← f (xo - dx)
  let d ← f (xo + dx)
  return fd2Comb a b z c d dx

end fd

/-- A numpy array as `set_velocity` sees it: its shape and its entries. -/
structure Arr (α : Type) where
  shape : List ℕ
  data : List α

/-- What `set_velocity` uses of a scipy piecewise polynomial: the polynomial, its first two derivatives and
its antiderivative, as functions. See `Model/PPoly.lean` for the coefficients. -/
structure Spline (α : Type) where
  call : α → α
  d1 : α → α
  d2 : α → α
  anti : α → α

/-- A python callable passed by the user: what it returns (or raises), and what its `derivative()` and `derivative(2)`
are, if it has a callable attribute `derivative` (ibl_method.py 428-431, 455-457). -/
structure Callable (α : Type) where
  call : α → Except Exc α
  deriv : Option ((α → Except Exc α) × (α → Except Exc α))

/-- The kinds of python values `set_velocity` distinguishes (ibl_method.py 418, 472, 475, 489):
`None`; a callable; an int or float; something of length two whose elements are turned into arrays;
something of another length; something without a length. -/
inductive Arg (α : Type)
  | none
  | callable (c : Callable α)
  | num (a : α)
  | pair (a b : Arr α)
  | sized (n : ℕ) (h : n ≠ 2)
  | unsized

/-- What the attributes `_u_e`, `_du_e`, `_d2u_e` can hold, besides `None`. The finite difference closures
(ibl_method.py 435-446, 459-463) read `self._u_e` / `self._du_e` when they are called, not when they are made. -/
inductive Vel (α : Type)
  | fn (f : α → Except Exc α)
  | notCallable
  | fd1OfU (dx : α)
  | fd2OfU (dx : α)
  | fd1OfDu (dx : α)

/-- The three velocity attributes of an `IBLMethod` object. -/
structure VelState (α : Type) where
  u : Option (Vel α)
  du : Option (Vel α)
  d2u : Option (Vel α)

/-- ibl_method.py 342-344. -/
def VelState.empty : VelState α := ⟨none, none, none⟩

section eval
variable [Add α] [Sub α] [Mul α] [Div α] [Neg α] [PyLit α]

/-- Calling what is stored, given how to evaluate `self._u_e` and `self._du_e`. -/
def Vel.call (callU callDu : α → Except Exc α) (v : Vel α) (x : α) : Except Exc α :=
  match v with
  | .fn f => f x
  | .notCallable => .error .typeError
  | .fd1OfU dx => fd1 callU x dx
  | .fd2OfU dx => fd2 callU x dx
  | .fd1OfDu dx => fd1 callDu x dx

/-- Calling an optional attribute: `None(...)` is a TypeError (only met inside the closures). -/
def callOpt (callU callDu : α → Except Exc α) (v : Option (Vel α)) (x : α) : Except Exc α :=
  match v with
  | none => .error .typeError
  | some v => v.call callU callDu x

/-- `self._u_e(x)`. `_u_e` is never one of the closures. -/
def VelState.rawU (s : VelState α) : α → Except Exc α :=
  callOpt (fun _ => .error .typeError) (fun _ => .error .typeError) s.u
/-- `self._du_e(x)`. `_du_e` is never a closure over itself. -/
def VelState.rawDu (s : VelState α) : α → Except Exc α :=
  callOpt s.rawU (fun _ => .error .typeError) s.du
/-- `self._d2u_e(x)`. -/
def VelState.rawD2u (s : VelState α) : α → Except Exc α :=
  callOpt s.rawU s.rawDu s.d2u

/-- Method `u_e`, ibl_method.py 601-622. -/
def VelState.uE (s : VelState α) (x : α) : Except Exc α :=
  if s.u.isNone then .error .valueError else s.rawU x
/-- Method `du_e`, ibl_method.py 624-645. -/
def VelState.duE (s : VelState α) (x : α) : Except Exc α :=
  if s.du.isNone then .error .valueError else s.rawDu x
/-- Method `d2u_e`, ibl_method.py 647-668. -/
def VelState.d2uE (s : VelState α) (x : α) : Except Exc α :=
  if s.d2u.isNone then .error .valueError else s.rawD2u x

end eval

/-- scipy's `PchipInterpolator(x, y)`: may reject its arguments. -/
abbrev Pchip (α : Type) := Arr α → Arr α → Except Exc (Spline α)

section set
variable [Add α] [PyLit α]

/-- The branch of `set_velocity` for a callable `u_e`, ibl_method.py 418-471. `self._u_e` is written first, so that the
errors raised afterwards leave it changed. Note that line 466 tests `du_e` again instead of `d2u_e`,
so that any `d2u_e` other than `None` is stored. -/
def setVelCallable (s : VelState α) (c : Callable α) (du d2u : Arg α) : VelState α × Except Exc Unit :=
  let s := { s with u := some (.fn c.call) }
  match du with
  | .none =>
    match d2u with
    | .none =>
      match c.deriv with
      | some (d1, d2) => ({ s with du := some (.fn d1), d2u := some (.fn d2) }, .ok ())
      | none => ({ s with du := some (.fd1OfU (lit (1/10000))),
                          d2u := some (.fd2OfU (lit (1/10000))) }, .ok ())
    | _ => (s, .error .valueError)
  | .callable cd =>
    let s := { s with du := some (.fn cd.call) }
    match d2u with
    | .none =>
      match cd.deriv with
      | some (d1, _) => ({ s with d2u := some (.fn d1) }, .ok ())
      | none => ({ s with d2u := some (.fd1OfDu (lit (1/100000))) }, .ok ())
    | .callable c2 => ({ s with d2u := some (.fn c2.call) }, .ok ())
    | _ => ({ s with d2u := some .notCallable }, .ok ())
  | _ => (s, .error .valueError)

/-- A scipy spline as a callable with a `derivative` method. -/
def Spline.toCallable (p : Spline α) : Callable α :=
  ⟨fun x => .ok (p.call x), some (fun x => .ok (p.d1 x), fun x => .ok (p.d2 x))⟩

/-- `set_velocity`, ibl_method.py 383-513. In the scalar branch (472-486) `d2u_e` is ignored; in the tabulated branch
(487-513) both `du_e` and `d2u_e` are ignored and the function calls itself with the interpolating
spline (506-508). Adding the scalar to the constant coefficients (481) is adding it to the value. -/
def setVelocity (pchip : Pchip α) (s : VelState α) (u du d2u : Arg α) : VelState α × Except Exc Unit :=
  match u with
  | .callable c => setVelCallable s c du d2u
  | .num a =>
    match du with
    | .pair xs ys =>
      match pchip xs ys with
      | .error e => (s, .error e)
      | .ok p => ({ u := some (.fn fun x => .ok (p.anti x + a)),
                    du := some (.fn fun x => .ok (p.call x)),
                    d2u := some (.fn fun x => .ok (p.d1 x)) }, .ok ())
    | .sized _ _ => (s, .error .valueError)
    | _ => (s, .error .typeError)
  | .pair xs ys =>
    match xs.shape with
    | [] => (s, .error .indexError)
    | npts :: xtl =>
      if xtl ≠ [] then (s, .error .valueError) else
      match ys.shape with
      | [m] =>
        if npts ≠ m then (s, .error .valueError) else
        if npts < 2 then (s, .error .valueError) else
        match pchip xs ys with
        | .error e => (s, .error e)
        | .ok p => setVelCallable s p.toCallable .none .none
      | _ => (s, .error .valueError)
  | .sized _ _ => (s, .error .valueError)
  | .none => (s, .error .typeError)
  | .unsized => (s, .error .typeError)

end set
end IBL
