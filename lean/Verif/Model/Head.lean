import Verif.Model.SkinFriction

/-! Model of the closure relations and the right hand side of Head's method (`ibl/head_method.py` 262-424)
for one point. Arrays and in-place writes are in `Model/HeadArray.lean`. -/

namespace IBL.Head
variable {α : Type} [Add α] [Sub α] [Mul α] [Div α] [Neg α] [PyLit α] [PyCmp α] [PyPow α]

/-- The constant `d` of the high branch, head_method.py 334, 392, 401. -/
def dHigh : ℚ := 332254659218600974 / 100000000000000000

/-- `shape_entrainment_low`, head_method.py 323-328. -/
def h1Low (h : α) : α := lit (33/10) + lit (8234/10000) / PyPow.pow (h - lit (11/10)) (lit (1287/1000))

/-- `shape_entrainment_high`, head_method.py 330-335. -/
def h1High (h : α) : α := lit dHigh + lit (15501/10000) / PyPow.pow (h - lit (6778/10000)) (lit (3064/1000))

/-- The replacement of small shape factors at the top of `_shape_entrainment` and `_shape_entrainment_p`,
head_method.py 317-319 and 355-357. -/
def clampShape (h : α) : α := if PyCmp.le h (lit (11/10)) then lit (11001/10000) else h

/-- `_shape_entrainment`, head_method.py 303-338. `np.piecewise` gives 0 if neither condition holds (NaN). -/
def h1 (h : α) : α :=
  let h := clampShape h
  if PyCmp.le h (lit (16/10)) then h1Low h else
  if PyCmp.gt h (lit (16/10)) then h1High h else lit 0

/-- `_shape_entrainment_p`, head_method.py 341-374; `c + 1` is computed in the code from the decimal `c`. -/
def h1p (h : α) : α :=
  let h := clampShape h
  if PyCmp.le h (lit (16/10)) then
    -lit (8234/10000) * lit (1287/1000) / PyPow.pow (h - lit (11/10)) (lit (1287/1000) + lit 1) else
  if PyCmp.gt h (lit (16/10)) then
    -lit (15501/10000) * lit (3064/1000) / PyPow.pow (h - lit (6778/10000)) (lit (3064/1000) + lit 1) else
  lit 0

/-- `shape_d_low`, head_method.py 397-402. -/
def hOfLow (e : α) : α :=
  lit (6778/10000) + PyPow.pow (lit (15501/10000) / (e - lit dHigh)) (lit 1 / lit (3064/1000))

/-- `shape_d_high`, head_method.py 404-409. -/
def hOfHigh (e : α) : α :=
  lit (11/10) + PyPow.pow (lit (8234/10000) / (e - lit (33/10))) (lit 1 / lit (1287/1000))

/-- `_shape_d`, head_method.py 377-415. -/
def hOf (e : α) : α :=
  let e := if PyCmp.le e (lit dHigh) then lit (3323/1000) else e
  let brk := h1 (lit (16/10) : α)
  if PyCmp.le e brk then hOfLow e else
  if PyCmp.gt e brk then hOfHigh e else lit 0

/-- `_entrainment_velocity`, head_method.py 418-424. -/
def entrainment (e : α) : α :=
  let e := if PyCmp.le e (lit 3) then lit (3001/1000) else e
  lit (306/10000) / PyPow.pow (e - lit 3) (lit (6169/10000))

/-- The clipping of the shape factor in `_ode_impl`, head_method.py 280-282. -/
def odeClamp (h : α) : α := if PyCmp.lt h (lit (111/100)) then lit (111/100) else h

/-- The floor on the edge velocity in `_ode_impl` for a python/numpy float, `max(u_e, 0.001)`, head_method.py 284-285. -/
def floorScalar (u : α) : α := if PyCmp.gt (lit (1/1000)) u then lit (1/1000) else u

/-- The floor on the edge velocity in `_ode_impl` for arrays, one element, head_method.py 287 (and in `tau_w`, 223). -/
def floorArray (u : α) : α := if PyCmp.lt (PyCmp.abs u) (lit (1/1000)) then lit (1/1000) else u

/-- The arithmetic of `_ode_impl`, head_method.py 288-300, after clipping: `u` edge velocity, `du` its slope,
`dm` momentum thickness, `h` shape factor. Returns the two rates. -/
def rates (nu u du dm h : α) : α × α :=
  let re := u * dm / nu
  let cf := ludwiegTillman re h
  let e := h1 h
  let ep := h1p h
  let p0 := lit (1/2) * cf - dm * (lit 2 + h) * du / u
  (p0, (u * entrainment e - u * p0 * e - du * dm * e) / (ep * u * dm))

end IBL.Head
