import Verif.Py

/-! Model of `ibl/initial_condition.py`. -/

namespace IBL
variable {α : Type}

/-- The two initial condition classes of `ibl/initial_condition.py` (27-57 base class attributes `_du_e`, `_nu`;
115-138 `FalknerSkanStagCondition`; 192-220 `ManualCondition`).
User-defined subclasses are not modelled. All attributes are taken to be python floats.
Attributes that python lets one create on an object but that nobody reads (such as `del_m` on a
`FalknerSkanStagCondition`, see `IC.assignDelM`) are not represented. -/
inductive IC (α : Type)
  | stag (du nu : α)
  | manual (du nu delD delM delK : α)

namespace IC

section ctor
variable [PyLit α] [PyCmp α]

/-- `FalknerSkanStagCondition(du_e, nu)`, initial_condition.py 27-32, 53-57, 123-128. -/
def mkStag (du nu : α) : Except Exc (IC α) :=
  if PyCmp.le nu (lit 0) then .error .valueError else .ok (.stag du nu)

/-- `ManualCondition(delta_d, delta_m, delta_k)`, initial_condition.py 209-213. No validation in the code. -/
def mkManual (dD dM dK : α) : IC α := .manual (lit 0) (lit (1/100000)) dD dM dK

/-- The `nu` property, initial_condition.py 45-51. -/
def nu : IC α → α
  | stag _ n => n
  | manual _ n _ _ _ => n

/-- The `du_e` property, initial_condition.py 34-39. -/
def du : IC α → α
  | stag d _ => d
  | manual d _ _ _ _ => d

/-- The `nu` setter, initial_condition.py 53-57: writes only if the guard passes. -/
def setNu (c : IC α) (n : α) : Except Exc (IC α) :=
  if PyCmp.le n (lit 0) then .error .valueError else
    match c with
    | stag d _ => .ok (stag d n)
    | manual d _ a b e => .ok (manual d n a b e)

/-- The `du_e` setter, initial_condition.py 41-43. -/
def setDu (c : IC α) (d : α) : IC α :=
  match c with
  | stag _ n => stag d n
  | manual _ n a b e => manual d n a b e

end ctor

/-- Assignment of the attribute `del_m`, as done by `initial_delta_m.setter` (thwaites_method.py 79, head_method.py 51)
on whatever condition object is installed: on a `FalknerSkanStagCondition` python creates a new attribute
that nothing reads. -/
def assignDelM (c : IC α) (v : α) : IC α :=
  match c with
  | stag d n => stag d n
  | manual d n a _ e => manual d n a v e

/-- Assignment of the attribute `del_d` (head_method.py 65); see `assignDelM`. -/
def assignDelD (c : IC α) (v : α) : IC α :=
  match c with
  | stag d n => stag d n
  | manual d n _ b e => manual d n v b e

section num
variable [Add α] [Mul α] [Div α] [PyLit α] [PyCmp α] [PySqrt α]

/-- Constants of `FalknerSkanStagCondition.__init__`, initial_condition.py 125-128. -/
def stagFpp0 : α := lit (123259/100000)
@[inherit_doc stagFpp0]
def stagShapeD : α := lit (22162/10000)
@[inherit_doc stagFpp0]
def stagShapeK : α := lit (16257/10000)
@[inherit_doc stagFpp0]
def stagEtaM : α := lit (29235/100000)

/-- `delta_m()`, initial_condition.py 167-177 and 252-261. The division is between python floats. -/
def deltaM : IC α → Except Exc α
  | stag du nu => do
      let q ← pyDiv (nu * stagEtaM * stagFpp0) ((stagShapeD + lit 2) * du)
      return PySqrt.sqrt q
  | manual _ _ _ m _ => .ok m

/-- `shape_d()`, initial_condition.py 131-140 and 216-225. -/
def shapeD : IC α → Except Exc α
  | stag _ _ => .ok stagShapeD
  | manual _ _ d m _ => pyDiv d m

/-- `shape_k()`, initial_condition.py 143-152 and 228-237. -/
def shapeK : IC α → Except Exc α
  | stag _ _ => .ok stagShapeK
  | manual _ _ _ m k => pyDiv k m

/-- `delta_d()`, initial_condition.py 155-164 and 240-249. -/
def deltaD : IC α → Except Exc α
  | c@(stag _ _) => do
      let m ← c.deltaM
      return m * stagShapeD
  | manual _ _ d _ _ => .ok d

/-- `delta_k()`, initial_condition.py 180-189 and 264-273. -/
def deltaK : IC α → Except Exc α
  | c@(stag _ _) => do
      let m ← c.deltaM
      return m * stagShapeK
  | manual _ _ _ _ k => .ok k

end num
end IC
end IBL
