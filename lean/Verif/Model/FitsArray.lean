import Verif.Model.Fits

/-! Model of `_check_range` of the data fit classes on arrays of lambdas (`ibl/thwaites_method.py` 539-551). -/

namespace IBL.Fits
variable {α : Type} [PyCmp α]

/-- `_check_range` on a one-dimensional float array, thwaites_method.py 539-551. `np.array(lam)` copies, so the
caller's array is a different object; the two tests over the whole array are an `if`/`elif`. -/
def checkRangeArr (m : Fits α) (lams : List α) : List α :=
  let below := fun lam => match m.lo with
    | some lo => PyCmp.lt lam lo
    | none => false
  let above := fun lam => match m.hi with
    | some hi => PyCmp.gt lam hi
    | none => false
  if lams.any below then
    lams.map fun lam => match m.lo with
      | some lo => if PyCmp.lt lam lo then lo else lam
      | none => lam
  else if lams.any above then
    lams.map fun lam => match m.hi with
      | some hi => if PyCmp.gt lam hi then hi else lam
      | none => lam
  else lams

/-- `shape` on an array, thwaites_method.py 519-521; the fit functions act elementwise. -/
def shapeArr (m : Fits α) (lams : List α) : List α := (m.checkRangeArr lams).map m.shape

/-- `shear` on an array, thwaites_method.py 527-529. -/
def shearArr (m : Fits α) (lams : List α) : List α := (m.checkRangeArr lams).map m.shear

end IBL.Fits
