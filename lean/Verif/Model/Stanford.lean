import Verif.PyText

/-!
The station and smoothed velocity objects of the 1968 Stanford data: _stanford_1968_station.py. `float(word)` is a parameter (`none` for
ValueError); so is what `np.empty` returns (`Mem`).
-/

set_option linter.unusedSectionVars false

namespace IBL.Stanford
variable {α : Type}

/-- `float(text)`. -/
abbrev Floats (α : Type) := Text → Option α

/-- The uninitialised memory that `np.empty` hands out: number of the array, index. -/
abbrev Mem (α : Type) := ℕ → ℕ → α

/-- `np.empty(n)`. -/
def Mem.empty (mem : Mem α) (k n : ℕ) : List α := (List.range n).map (mem k)

/-- `StanfordOlympics1968StationData`, _stanford_1968_station.py 55-80: `_x`, `_u_e`, `_du_e`, `_delta_m`, `_shape_d`, `_shape_k`, `_shape_eq`,
`_c_f`, `_c_f_lt`, `_c_f_exp`, `_beta_eq`, `_u_star`, `_nu`, `_delta_d`, `_delta_k`, `_delta_c`, `_re_delta_m`, `_re_delta_d` and the six arrays
`_y_plus`, `_u_plus`, `_y`, `_u`, `_y_c`, `_u_defect`. Simplification: the arrays are values, so a caller's write into an array that a getter
returned is not modelled. -/
structure Station (α : Type) where
  x : α
  ue : α
  due : α
  deltaM : α
  shapeD : α
  shapeK : α
  shapeEq : α
  cf : α
  cfLt : α
  cfExp : α
  beta : α
  uStar : α
  nu : α
  deltaD : α
  deltaK : α
  deltaC : α
  reM : α
  reD : α
  yPlus : List α
  uPlus : List α
  y : List α
  u : List α
  yC : List α
  uDef : List α

/-- The scalar attributes that can be assigned. -/
inductive Field
  | x | ue | due | deltaM | shapeD | shapeK | shapeEq | cf | cfLt | cfExp | beta | uStar | nu | deltaD | deltaK | deltaC | reM | reD
  deriving DecidableEq

/-- The array attributes that can be assigned. -/
inductive Arr
  | yPlus | uPlus | y | u | yC | uDef
  deriving DecidableEq

section
variable [Add α] [Sub α] [Mul α] [Div α] [PyLit α] [PyCmp α] [PySpecial α] [PySqrt α] [PyPow α]

/-- The scalar property setters, _stanford_1968_station.py 93-338. -/
def Station.set (p : Station α) (f : Field) (v : α) : Station α × Except Exc Unit :=
  match f with
  | .x => ({ p with x := v }, .ok ())
  | .ue => if PyCmp.le v (lit 0) then (p, .error .valueError) else ({ p with ue := v }, .ok ())
  | .due => ({ p with due := v }, .ok ())
  | .deltaD => if PyCmp.le v (lit 0) then (p, .error .valueError) else ({ p with deltaD := v }, .ok ())
  | .deltaM => if PyCmp.le v (lit 0) then (p, .error .valueError) else ({ p with deltaM := v }, .ok ())
  | .deltaK => if PyCmp.le v (lit 0) then (p, .error .valueError) else ({ p with deltaK := v }, .ok ())
  | .deltaC => if PyCmp.le v (lit 0) then (p, .error .valueError) else ({ p with deltaC := v }, .ok ())
  | .shapeD => if PyCmp.le v (lit 0) then (p, .error .valueError) else ({ p with shapeD := v }, .ok ())
  | .shapeK => if PyCmp.le v (lit 0) then (p, .error .valueError) else ({ p with shapeK := v }, .ok ())
  | .shapeEq => if PyCmp.le v (lit 0) then (p, .error .valueError) else ({ p with shapeEq := v }, .ok ())
  | .cf => ({ p with cf := v }, .ok ())
  | .cfLt => ({ p with cfLt := v }, .ok ())
  | .cfExp => ({ p with cfExp := v }, .ok ())
  | .beta => ({ p with beta := v }, .ok ())
  | .uStar => if PyCmp.le v (lit 0) then (p, .error .valueError) else ({ p with uStar := v }, .ok ())
  | .nu => if PyCmp.le v (lit 0) then (p, .error .valueError) else ({ p with nu := v }, .ok ())
  | .reD => if PyCmp.le v (lit 0) then (p, .error .valueError) else ({ p with reD := v }, .ok ())
  | .reM => if PyCmp.le v (lit 0) then (p, .error .valueError) else ({ p with reM := v }, .ok ())

/-- The array property setters, _stanford_1968_station.py 349-428. -/
def Station.setArr (p : Station α) (f : Arr) (v : List α) : Station α × Except Exc Unit :=
  if v.any fun a => PyCmp.lt a (lit 0) then (p, .error .valueError) else
  match f with
  | .y => ({ p with y := v }, .ok ())
  | .yPlus => ({ p with yPlus := v }, .ok ())
  | .yC => ({ p with yC := v }, .ok ())
  | .u => ({ p with u := v }, .ok ())
  | .uPlus => ({ p with uPlus := v }, .ok ())
  | .uDef => ({ p with uDef := v }, .ok ())

/-- Assignments one after the other; the first one that raises ends it. -/
def Station.sets (p : Station α) : List (Field × α) → Station α × Except Exc Unit
  | [] => (p, .ok ())
  | (f, v) :: l =>
    match p.set f v with
    | (p, .error e) => (p, .error e)
    | (p, .ok ()) => p.sets l

/-- `FOOT_PER_METER = 0.3048`, _stanford_1968_station.py 14 (it is the number of metres in a foot). -/
def foot : α := lit (3048 / 10000)

/-- `INCH_PER_METER`, _stanford_1968_station.py 15-17: `1/(12*(1/FOOT_PER_METER))`. -/
def inch : α := lit 1 / (lit 12 * (lit 1 / foot))

/-- `FOOT_PER_METER**2`. -/
def foot2 : α := PyPow.pow foot (lit 2)

/-- Every attribute at its value in the first lines of `__init__`, _stanford_1968_station.py 55-80. -/
def Station.blank : Station α :=
  ⟨PySpecial.inf, PySpecial.inf, PySpecial.inf, PySpecial.inf, PySpecial.inf, PySpecial.inf, PySpecial.inf, PySpecial.inf, PySpecial.inf,
    PySpecial.inf, PySpecial.inf, PySpecial.inf, PySpecial.inf, PySpecial.inf, PySpecial.inf, PySpecial.inf, PySpecial.inf, PySpecial.inf,
    [], [], [], [], [], []⟩

/-- The eleven numbers of a row of the summary, _stanford_1968_station.py 497-498. -/
structure Summary (α : Type) where
  x : α
  ui : α
  dui : α
  theta : α
  h : α
  hs : α
  g : α
  cf : α
  cflt : α
  cfe : α
  beta : α

/-- _stanford_1968_station.py 496-501; `none` for the ValueError of a wrong number of columns or a column that is not a number. -/
def Summary.ofRow (fl : Floats α) (row : Text) : Option (Summary α) :=
  match row.split.mapM fl with
  | some [x, ui, dui, theta, h, hs, g, cf, cflt, cfe, beta] => some ⟨x, ui, dui, theta, h, hs, g, cf, cflt, cfe, beta⟩
  | _ => none

/-- Unit conversion, _stanford_1968_station.py 504-509. -/
def Summary.toSI (si : Bool) (v : Summary α) : Summary α :=
  if si then { v with theta := v.theta * lit (1 / 100) }
  else { v with x := v.x * foot, ui := v.ui * foot, theta := v.theta * inch }

/-- The order of assignment, _stanford_1968_station.py 512-522. -/
def Summary.assignments (v : Summary α) : List (Field × α) :=
  [(.x, v.x), (.ue, v.ui), (.due, v.dui), (.deltaM, v.theta), (.shapeD, v.h), (.shapeK, v.hs), (.shapeEq, v.g), (.cf, v.cf), (.cfLt, v.cflt),
    (.cfExp, v.cfe), (.beta, v.beta)]

/-- The derived values, _stanford_1968_station.py 525-527 and 559-561 (none of the assigned attributes is read by a later one). -/
def Station.derived (p : Station α) : List (Field × α) :=
  [(.deltaD, p.shapeD * p.deltaM), (.deltaK, p.shapeK * p.deltaM), (.uStar, p.ue * PySqrt.sqrt (lit (1 / 2) * p.cf))]

/-- `_reset_summary_data`, _stanford_1968_station.py 466-527. -/
def Station.resetSummary (fl : Floats α) (p : Station α) (si : Bool) (row : Text) : Station α × Except Exc Unit :=
  let p : Station α :=
    { p with x := PySpecial.inf, ue := PySpecial.inf, due := PySpecial.inf, deltaM := PySpecial.inf, shapeD := PySpecial.inf,
             shapeK := PySpecial.inf, shapeEq := PySpecial.inf, cf := PySpecial.inf, cfLt := PySpecial.inf, cfExp := PySpecial.inf,
             beta := PySpecial.inf }
  match Summary.ofRow fl row with
  | none => (p, .error .valueError)
  | some v =>
    match p.sets (v.toSI si).assignments with
    | (p, .error e) => (p, .error e)
    | (p, .ok ()) => p.sets p.derived

/-- The thirteen numbers of a row of the station summaries, _stanford_1968_station.py 568-569. -/
structure Detail (α : Type) where
  x : α
  us : α
  ui : α
  v : α
  theta : α
  dels : α
  enth : α
  clth : α
  h : α
  g : α
  hs : α
  rtheta : α
  rdels : α

/-- _stanford_1968_station.py 567-572. -/
def Detail.ofRow (fl : Floats α) (row : Text) : Option (Detail α) :=
  match row.split.mapM fl with
  | some [x, us, ui, v, theta, dels, enth, clth, h, g, hs, rtheta, rdels] =>
    some ⟨x, us, ui, v, theta, dels, enth, clth, h, g, hs, rtheta, rdels⟩
  | _ => none

/-- Unit conversion, _stanford_1968_station.py 575-589. -/
def Detail.toSI (si : Bool) (d : Detail α) : Detail α :=
  if si then
    { d with v := d.v * lit (1 / 10000), theta := d.theta * lit (1 / 100), dels := d.dels * lit (1 / 100), enth := d.enth * lit (1 / 100),
             clth := d.clth * lit (1 / 100) }
  else
    { d with v := d.v * foot2, x := d.x * foot, us := d.us * foot, ui := d.ui * foot, theta := d.theta * inch, dels := d.dels * inch,
             enth := d.enth * inch, clth := d.clth * inch }

/-- `if np.abs(a - b) >= tol: raise ValueError`. -/
def differs (a b tol : α) : Bool := PyCmp.ge (PyCmp.abs (a - b)) tol

/-- The comparisons with the summary in their order, _stanford_1968_station.py 592-637. `u_e*dels/v` is a division of python floats. -/
def Station.check (p : Station α) (d : Detail α) : Except Exc Unit :=
  if differs d.x p.x (lit (2 / 1000)) then .error .valueError
  else if differs d.ui p.ue (lit (6 / 100)) then .error .valueError
  else if differs d.theta p.deltaM (lit (2 / 1000)) then .error .valueError
  else if differs d.h p.shapeD (lit (2 / 1000)) then .error .valueError
  else if differs d.hs p.shapeK (lit (2 / 1000)) then .error .valueError
  else if differs d.g p.shapeEq (lit (2 / 1000)) then .error .valueError
  else if differs d.dels (p.shapeD * p.deltaM) (lit (5 / 1000)) then .error .valueError
  else if differs d.enth (p.shapeK * p.deltaM) (lit (5 / 1000)) then .error .valueError
  else match pyDiv (p.ue * d.dels) d.v with
  | .error e => .error e
  | .ok rd =>
    if differs d.rdels rd (lit 5) then .error .valueError
    else match pyDiv (p.ue * d.theta) d.v with
    | .error e => .error e
    | .ok rt =>
      if differs d.rtheta rt (lit 5) then .error .valueError
      else if differs d.us (p.ue * PySqrt.sqrt (lit (1 / 2) * p.cf)) (lit (5 / 1000)) then .error .valueError
      else .ok ()

/-- The order of assignment, _stanford_1968_station.py 640-652. -/
def Detail.assignments (d : Detail α) : List (Field × α) :=
  [(.x, d.x), (.uStar, d.us), (.ue, d.ui), (.nu, d.v), (.deltaM, d.theta), (.deltaD, d.dels), (.deltaK, d.enth), (.deltaC, d.clth), (.shapeD, d.h),
    (.shapeEq, d.g), (.shapeK, d.hs), (.reM, d.rtheta), (.reD, d.rdels)]

/-- `_reset_station_summary`, _stanford_1968_station.py 529-652. -/
def Station.resetDetail (fl : Floats α) (p : Station α) (si : Bool) (row : Text) : Station α × Except Exc Unit :=
  let p : Station α := { p with nu := PySpecial.inf, deltaC := PySpecial.inf, reM := PySpecial.inf, reD := PySpecial.inf }
  match (if PyCmp.eq p.x PySpecial.inf then
      (({ p with uStar := PySpecial.inf, deltaD := PySpecial.inf, deltaK := PySpecial.inf } : Station α), .ok ())
    else p.sets p.derived : Station α × Except Exc Unit) with
  | (p, .error e) => (p, .error e)
  | (p, .ok ()) =>
    if row = [] then (p, .ok ()) else
    match Detail.ofRow fl row with
    | none => (p, .error .valueError)
    | some d =>
      match p.check (d.toSI si) with
      | .error e => (p, .error e)
      | .ok () => p.sets (d.toSI si).assignments

/-- The six numbers of a sample, _stanford_1968_station.py 683-684. -/
structure Sample (α : Type) where
  yplus : α
  uplus : α
  y : α
  uoui : α
  ycd : α
  udef : α

/-- _stanford_1968_station.py 682-688. -/
def Sample.ofRow (fl : Floats α) (row : Text) : Option (Sample α) :=
  match row.split.mapM fl with
  | some [yplus, uplus, y, uoui, ycd, udef] => some ⟨yplus, uplus, y, uoui, ycd, udef⟩
  | _ => none

/-- Unit conversion, _stanford_1968_station.py 691-694. -/
def Sample.toSI (si : Bool) (d : Sample α) : Sample α :=
  { d with y := if si then d.y * lit (1 / 100) else d.y * inch }

/-- `(np.abs(a - b) > tol).any()`. -/
def exceeds (a b tol : α) : Bool := PyCmp.gt (PyCmp.abs (a - b)) tol

/-- The comparisons of a sample, _stanford_1968_station.py 697-713. The divisors were assigned through setters that reject zero, so plain division
is used for them. -/
def Station.checkSample (p : Station α) (d : Sample α) : Except Exc Unit :=
  if exceeds d.yplus (d.y * p.uStar / p.nu) (lit 1) then .error .valueError
  else if exceeds d.ycd (d.y / p.deltaC) (lit (1 / 2)) then .error .valueError
  else if exceeds d.uplus (p.ue * d.uoui / p.uStar) (lit (1 / 2)) then .error .valueError
  else if exceeds d.udef ((p.ue - p.ue * d.uoui) / p.uStar) (lit (1 / 2)) then .error .valueError
  else .ok ()

/-- The loop over the rows, _stanford_1968_station.py 681-721: row `i` is checked and then written to index `i` of the arrays. -/
def Station.readSamples (fl : Floats α) (si : Bool) (p : Station α) (i : ℕ) : List Text → Station α × Except Exc Unit
  | [] => (p, .ok ())
  | row :: rows =>
    match Sample.ofRow fl row with
    | none => (p, .error .valueError)
    | some d =>
      let d := d.toSI si
      match p.checkSample d with
      | .error e => (p, .error e)
      | .ok () =>
        Station.readSamples fl si
          { p with yPlus := p.yPlus.set i d.yplus, uPlus := p.uPlus.set i d.uplus, y := p.y.set i d.y, u := p.u.set i (p.ue * d.uoui),
                   yC := p.yC.set i d.ycd, uDef := p.uDef.set i d.udef } (i + 1) rows

/-- `_reset_station_data`, _stanford_1968_station.py 654-721. -/
def Station.resetData (fl : Floats α) (mem : Mem α) (p : Station α) (si : Bool) (rows : List Text) : Station α × Except Exc Unit :=
  let n := rows.length
  Station.readSamples fl si
    { p with yPlus := mem.empty 0 n, uPlus := mem.empty 1 n, y := mem.empty 2 n, u := mem.empty 3 n, yC := mem.empty 4 n, uDef := mem.empty 5 n }
    0 rows

/-- `reset`, _stanford_1968_station.py 430-453. -/
def Station.reset (fl : Floats α) (mem : Mem α) (p : Station α) (si : Bool) (summ stat : Text) (rows : List Text) :
    Station α × Except Exc Unit :=
  match p.resetSummary fl si summ with
  | (p, .error e) => (p, .error e)
  | (p, .ok ()) =>
    match p.resetDetail fl si stat with
    | (p, .error e) => (p, .error e)
    | (p, .ok ()) => p.resetData fl mem si rows

/-- `StanfordOlympics1968StationData(si_unit, summ_data, stat_summ, stat_data)`, _stanford_1968_station.py 38-83. -/
def Station.mk' (fl : Floats α) (mem : Mem α) (si : Bool) (summ stat : Text) (rows : List Text) : Except Exc (Station α) :=
  match Station.blank.reset fl mem si summ stat rows with
  | (_, .error e) => .error e
  | (p, .ok ()) => .ok p

/-- `sample_count`, _stanford_1968_station.py 455-464. -/
def Station.sampleCount (p : Station α) : ℕ := p.y.length

/-- `StanfordOlympics1968SmoothVel`, _stanford_1968_station.py 737-739. -/
structure Smooth (α : Type) where
  x : List α
  ue : List α
  due : List α

/-- The loop over the rows, _stanford_1968_station.py 792-807. -/
def Smooth.read (fl : Floats α) (si : Bool) (p : Smooth α) (i : ℕ) : List Text → Smooth α × Except Exc Unit
  | [] => (p, .ok ())
  | row :: rows =>
    match row.split.mapM fl with
    | some [x, ui, dui] =>
      let x := if si then x else x * foot
      let ui := if si then ui else ui * foot
      Smooth.read fl si { x := p.x.set i x, ue := p.ue.set i ui, due := p.due.set i dui } (i + 1) rows
    | _ => (p, .error .valueError)

/-- `StanfordOlympics1968SmoothVel.reset`, _stanford_1968_station.py 769-807. -/
def Smooth.reset (fl : Floats α) (mem : Mem α) (_ : Smooth α) (si : Bool) (rows : List Text) : Smooth α × Except Exc Unit :=
  Smooth.read fl si ⟨mem.empty 0 rows.length, mem.empty 1 rows.length, mem.empty 2 rows.length⟩ 0 rows

/-- `StanfordOlympics1968SmoothVel(si_unit, data)`, _stanford_1968_station.py 736-741. -/
def Smooth.mk' (fl : Floats α) (mem : Mem α) (si : Bool) (rows : List Text) : Except Exc (Smooth α) :=
  match Smooth.reset fl mem ⟨[], [], []⟩ si rows with
  | (_, .error e) => .error e
  | (p, .ok ()) => .ok p

/-- `size`, _stanford_1968_station.py 758-767. -/
def Smooth.size (p : Smooth α) : ℕ := p.x.length

end
end IBL.Stanford
