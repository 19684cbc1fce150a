import Verif.Py

/-! Model of `ibl/skin_friction.py`, for one pair of values. -/

namespace IBL
variable {α : Type} [Add α] [Sub α] [Mul α] [Div α] [Neg α] [PyLit α] [PyCmp α] [PyPow α]

/-- `ludwieg_tillman`, skin_friction.py 14-36. -/
def ludwiegTillman (re shapeD : α) : α :=
  lit (246/1000) / (PyPow.pow re (lit (268/1000)) * PyPow.pow (lit 10) (lit (678/1000) * shapeD))

/-- `np.clip(v, lo, hi)` (used at skin_friction.py 62): `minimum(maximum(v, lo), hi)`, NaN kept. -/
def npClip (v lo hi : α) : α :=
  let m := if PyCmp.lt v lo then lo else v
  if PyCmp.lt hi m then hi else m

/-- `felsch`, skin_friction.py 39-63. -/
def felsch (re shapeD : α) : α :=
  let term1 := lit (195/100) * PyPow.log10 (npClip shapeD (lit 1) (lit (29986313485/10000000000)))
  lit (58/1000) * PyPow.pow (lit (93/100) - term1) (lit (1705/1000)) / PyPow.pow re (lit (268/1000))

/-- `white`, skin_friction.py 66-89. -/
def white (re shapeD : α) : α :=
  lit (3/10) * PyPow.exp (-lit (133/100) * shapeD)
    / PyPow.pow (PyPow.log10 re) (lit (174/100) + lit (31/100) * shapeD)

end IBL
