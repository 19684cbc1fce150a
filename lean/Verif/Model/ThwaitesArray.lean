import Verif.Model.Method
import Verif.Model.FitsArray

/-!
Model of the queries of the Thwaites classes on a one-dimensional float array (`ibl/thwaites_method.py` 165-326, 343-380, 420-452, 480-500).
Simplification: the velocity callables and the dense solution are evaluated element by element and return new arrays (what happens if they
return their argument or an array they keep is the subject of `Model/HeadArray.lean`). The data fits act on whole arrays, which matters because
`_check_range` looks at the whole array.
-/

namespace IBL
variable {α : Type}

namespace Fits
variable [Add α] [Sub α] [Mul α] [Div α] [PyLit α] [PyCmp α]

/-- `shape_p` on an array, thwaites_method.py 523-525 with 141-146; the inner calls of `shape` again see whole arrays. -/
def shapePArr (m : Fits α) (lams : List α) : List α :=
  match m.shapeP with
  | .fn f => (m.checkRangeArr lams).map f
  | .fdOfShape =>
    let xo := m.checkRangeArr lams
    let dx : α := lit (1/100000)
    let a := m.shapeArr (xo.map (· - lit 2 * dx))
    let b := m.shapeArr (xo.map (· + lit 2 * dx))
    let c := m.shapeArr (xo.map (· - dx))
    let d := m.shapeArr (xo.map (· + dx))
    List.zipWith (fun p q => fd1Comb p.1 p.2 q.1 q.2 dx) (a.zip b) (c.zip d)

/-- `f` on an array, thwaites_method.py 531-533. -/
def fArr (m : Fits α) (lams : List α) : List α :=
  List.zipWith (fun s p => lit 2 * (s - p.1 * (p.2 + lit 2))) (m.shearArr lams) (lams.zip (m.shapeArr lams))

end Fits

namespace Obj
variable [Add α] [Sub α] [Mul α] [Div α] [Neg α] [PyLit α] [PyCmp α] [PySqrt α] [PyPow α]

/-- `self._solution(x)[0]` on an array, with the check that precedes it (e.g. thwaites_method.py 226-229). -/
def solArr (o : Obj α) (xs : List α) : Except Exc (List α) :=
  match o.sol with
  | none => .error .valueError
  | some _ => xs.mapM (o.comp 0)

/-- `u_e` on an array, ibl_method.py 601-622. -/
def uArr (o : Obj α) (xs : List α) : Except Exc (List α) :=
  match o.vel.u with
  | none => .error .valueError
  | some _ => xs.mapM o.vel.uE

/-- `du_e` on an array, ibl_method.py 624-645. -/
def duArr (o : Obj α) (xs : List α) : Except Exc (List α) :=
  match o.vel.du with
  | none => .error .valueError
  | some _ => xs.mapM o.vel.duE

/-- `d2u_e` on an array, ibl_method.py 647-668. -/
def d2uArr (o : Obj α) (xs : List α) : Except Exc (List α) :=
  match o.vel.d2u with
  | none => .error .valueError
  | some _ => xs.mapM o.vel.d2uE

/-- `_calc_lambda` on arrays, thwaites_method.py 364-380. -/
def lambdaArr (o : Obj α) (xs Fs : List α) : Except Exc (List α) := do
  let d ← o.duArr xs
  return List.zipWith (· * ·) Fs d

/-- The attribute `_model`. -/
def model (o : Obj α) : Except Exc (Fits α) :=
  match o.fits with
  | some m => .ok m
  | none => .error .other

/-- `_calc_f` on arrays, thwaites_method.py 427-452 and 480-500. -/
def calcFArr (o : Obj α) (xs Fs : List α) : Except Exc (List α) := do
  let lams ← o.lambdaArr xs Fs
  match o.cls with
  | .thwaitesLinear => return lams.map fun lam => lit (45/100) - lit 6 * lam
  | _ => do
    let m ← o.model
    return m.fArr lams

/-- `_ode_impl` on arrays, thwaites_method.py 342-362. -/
def rhsArr (o : Obj α) (xs Fs : List α) : Except Exc (List α) := do
  let f ← o.calcFArr xs Fs
  let u ← o.uArr xs
  return List.zipWith (fun f u => f / (lit (1/1000) + u)) f u

/-- `delta_m` on an array, thwaites_method.py 212-229. -/
def deltaMArr (o : Obj α) (xs : List α) : Except Exc (List α) := do
  let F ← o.solArr xs
  return F.map fun F => PySqrt.sqrt (F * o.nu)

/-- `shape_d` on an array, thwaites_method.py 249-267. -/
def shapeDArr (o : Obj α) (xs : List α) : Except Exc (List α) := do
  let F ← o.solArr xs
  let lams ← o.lambdaArr xs F
  let m ← o.model
  return m.shapeArr lams

/-- `delta_d` on an array, thwaites_method.py 195-209. -/
def deltaDArr (o : Obj α) (xs : List α) : Except Exc (List α) := do
  let d ← o.deltaMArr xs
  let h ← o.shapeDArr xs
  return List.zipWith (· * ·) d h

/-- `delta_k` on an array, thwaites_method.py 232-246. -/
def deltaKArr (_o : Obj α) (xs : List α) : Except Exc (List α) := .ok (xs.map fun _ => lit 0)

/-- `shape_k` on an array, thwaites_method.py 270-284. -/
def shapeKArr (o : Obj α) (xs : List α) : Except Exc (List α) := do
  let k ← o.deltaKArr xs
  let d ← o.deltaMArr xs
  return List.zipWith (· / ·) k d

/-- `dissipation` on an array, thwaites_method.py 310-326. -/
def dissipationArr (_o : Obj α) (xs : List α) (_rho : α) : Except Exc (List α) := .ok (xs.map fun _ => lit 0)

/-- `tau_w` on an array, thwaites_method.py 287-307. -/
def tauWArr (o : Obj α) (xs : List α) (rho : α) : Except Exc (List α) := do
  let F ← o.solArr xs
  let lams ← o.lambdaArr xs F
  let u ← o.uArr xs
  let m ← o.model
  let d ← o.deltaMArr xs
  let us := List.zipWith (fun u s => rho * o.nu * u * s) u (m.shearArr lams)
  return List.zipWith (· / ·) us d

/-- `v_e` on an array, thwaites_method.py 165-192. -/
def vEArr (o : Obj α) (xs : List α) : Except Exc (List α) := do
  let F ← o.solArr xs
  let u ← o.uArr xs
  let du ← o.duArr xs
  let dd ← o.deltaDArr xs
  let term1 := List.zipWith (· * ·) du dd
  let term2 := F.map fun F => PySqrt.sqrt (o.nu / F)
  let ds ← o.rhsArr xs F
  let h ← o.shapeDArr xs
  let term3 := List.zipWith (· * ·) (List.zipWith (fun u h => lit (1/2) * u * h) u h) ds
  let lams ← o.lambdaArr xs F
  let m ← o.model
  let term4 := List.zipWith (· * ·) (List.zipWith (· * ·) u F) (m.shapePArr lams)
  let d2 ← o.d2uArr xs
  let term5 := List.zipWith (· + ·) (List.zipWith (· * ·) du ds) (List.zipWith (· * ·) d2 F)
  let t45 := List.zipWith (· * ·) term4 term5
  let t345 := List.zipWith (· + ·) term3 t45
  return List.zipWith (· + ·) term1 (List.zipWith (· * ·) term2 t345)

end Obj
end IBL
