import Verif.Model.Velocity

/-! Model of the data fit classes of `ibl/thwaites_method.py` (503-739), for one value of lambda.
Arrays of lambdas are in `Model/FitsArray.lean`. -/

namespace IBL
variable {α : Type}

/-- The derivative of the shape function stored in a fits object: a function, or the finite difference closure made for a
2-tuple (thwaites_method.py 141-146). The closure reads `self._model.shape` when called; it is only ever
called through `self._model.shape_p`, so the model it finds is the one it belongs to. -/
inductive ShapeP (α : Type)
  | fn (f : α → α)
  | fdOfShape

/-- `_ThwaitesFunctions`, thwaites_method.py 503-533. `none` as range limit stands for `-np.inf` / `np.inf`,
with which no float compares less / greater. User callables are taken to be total. -/
structure Fits (α : Type) where
  name : String
  shear : α → α
  shape : α → α
  shapeP : ShapeP α
  lo : Option α
  hi : Option α

namespace Fits

section cmp
variable [PyCmp α]

/-- `_check_range` for a single value, thwaites_method.py 539-551. -/
def checkRange (m : Fits α) (lam : α) : α :=
  match m.lo with
  | some lo => if PyCmp.lt lam lo then lo else
      match m.hi with
      | some hi => if PyCmp.gt lam hi then hi else lam
      | none => lam
  | none =>
      match m.hi with
      | some hi => if PyCmp.gt lam hi then hi else lam
      | none => lam

/-- `shape`, thwaites_method.py 519-521. -/
def shapeAt (m : Fits α) (lam : α) : α := m.shape (m.checkRange lam)

/-- `shear`, thwaites_method.py 527-529. -/
def shearAt (m : Fits α) (lam : α) : α := m.shear (m.checkRange lam)

end cmp

section num
variable [Add α] [Sub α] [Mul α] [Div α] [PyLit α] [PyCmp α]

/-- `shape_p`, thwaites_method.py 523-525 with 141-146. -/
def shapePAt (m : Fits α) (lam : α) : α :=
  match m.shapeP with
  | .fn f => f (m.checkRange lam)
  | .fdOfShape =>
    let xo := m.checkRange lam
    let dx : α := lit (1/100000)
    fd1Comb (m.shapeAt (xo - lit 2 * dx)) (m.shapeAt (xo + lit 2 * dx))
      (m.shapeAt (xo - dx)) (m.shapeAt (xo + dx)) dx

/-- `f`, thwaites_method.py 531-533: note that lambda itself is not clipped here. -/
def fAt (m : Fits α) (lam : α) : α :=
  lit 2 * (m.shearAt lam - lam * (m.shapeAt lam + lit 2))

end num

section builtin
variable [Add α] [Sub α] [Mul α] [Div α] [Neg α] [PyLit α] [PyCmp α] [PyPow α]

/-- `_ThwaitesFunctionsWhite`, thwaites_method.py 554-569. -/
def white : Fits α where
  name := "White"
  shear lam := PyPow.pow (lam + lit (9/100)) (lit (62/100))
  shape lam :=
    let z := lit (1/4) - lam;
    lit 2 + z * (lit (414/100) + z * (lit (-835/10) + z * (lit 854 + z * (lit (-3337) + z * lit 4576))))
  shapeP := .fn fun lam =>
    let z := lit (1/4) - lam;
    -(lit (414/100) + z * (lit (-2) * lit (835/10) + z * (lit 3 * lit 854
      + z * (lit (-4) * lit 3337 + z * lit 5 * lit 4576))))
  lo := some (lit (-9/100))
  hi := none

/-- `np.piecewise(lam, [lam < 0, lam >= 0], [a, b])`: 0 when neither condition holds (NaN). -/
def piecewise0 (lam : α) (a b : α → α) : α :=
  if PyCmp.lt lam (lit 0) then a lam else if PyCmp.ge lam (lit 0) then b lam else lit 0

/-- `_ThwaitesFunctionsCebeciBradshaw`, thwaites_method.py 572-597. `lam**2` is modelled as `lam*lam`. -/
def cebeciBradshaw : Fits α where
  name := "Cebeci and Bradshaw"
  shear lam := piecewise0 lam
    (fun lam => lit (22/100) + lit (1402/1000) * lam + lit (18/1000) * lam / (lit (107/1000) + lam))
    (fun lam => lit (22/100) + lit (157/100) * lam - lit (18/10) * (lam * lam))
  shape lam := piecewise0 lam
    (fun lam => lit (2088/1000) + lit (731/10000) / (lit (14/100) + lam))
    (fun lam => lit (261/100) - lit (375/100) * lam + lit (524/100) * (lam * lam))
  shapeP := .fn fun lam => piecewise0 lam
    (fun lam => -lit (731/10000) / ((lit (14/100) + lam) * (lit (14/100) + lam)))
    (fun lam => lit (-375/100) + lit 2 * lit (524/100) * lam)
  lo := some (lit (-1/10))
  hi := some (lit (1/10))

/-- `_ThwaitesFunctionsDrela`, thwaites_method.py 600-613. Integer powers are modelled as products. -/
def drela : Fits α where
  name := "Drela"
  shear lam := lit (220/1000) + lit (152/100) * lam - lit 5 * (lam * lam * lam)
    - lit (72/1000) * (lam * lam) / ((lam + lit (18/100)) * (lam + lit (18/100)))
  shape lam := lit (261/100) - lit (41/10) * lam + lit 14 * (lam * lam * lam)
    + lit (56/100) * (lam * lam) / ((lam + lit (18/100)) * (lam + lit (18/100)))
  shapeP := .fn fun lam => lit (-41/10) + lit 42 * (lam * lam)
    + lit (2016/10000) * lam / ((lam + lit (18/100)) * (lam + lit (18/100)) * (lam + lit (18/100)))
  lo := some (lit (-9/100))
  hi := none

end builtin

/-- `_tab_shear` in thousandths, thwaites_method.py 620-624. -/
def tabShear : List ℚ := [0, 15, 27, 38, 56, 72, 85, 95, 104, 113, 122, 130, 138, 153, 168, 195, 220, 244,
  268, 291, 313, 333, 359, 382, 404, 463, 500].map (· / 1000)
/-- `_tab_shape` in hundredths, thwaites_method.py 625-629. -/
def tabShape : List ℚ := [355, 349, 344, 339, 330, 322, 315, 309, 304, 299, 294, 290, 287, 281, 275, 267, 261, 255,
  249, 244, 239, 234, 228, 223, 218, 207, 200].map (· / 100)
/-- `_tab_lambda` in thousandths, thwaites_method.py 630-634. -/
def tabLambda : List ℚ := [-90, -88, -86, -84, -80, -76, -72, -68, -64, -60, -56, -52, -48, -40, -32, -16, 0, 16,
  32, 48, 64, 80, 100, 120, 140, 200, 250].map (· / 1000)

/-- scipy's `CubicSpline(x, y)`: the interpolating function and its derivative. -/
abbrev CubicSpline (α : Type) := List ℚ → List ℚ → (α → α) × (α → α)

/-- `_ThwaitesFunctionsSpline`, thwaites_method.py 616-675; the range is the smallest and largest table lambda. -/
def spline [PyLit α] (cs : CubicSpline α) : Fits α where
  name := "Thwaites Splines"
  shear := (cs tabLambda tabShear).1
  shape := (cs tabLambda tabShape).1
  shapeP := .fn (cs tabLambda tabShape).2
  lo := some (lit (-90/1000))
  hi := some (lit (250/1000))

end Fits
end IBL
