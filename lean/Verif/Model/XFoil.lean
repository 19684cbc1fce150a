import Verif.PyText

/-!
The XFoil dump reader: _xfoil_data.py and _xfoil_reader.py. Points are mutable objects that two lists may share, so the reader has a heap.
`float(word)` is a parameter (`none` for ValueError).
-/

set_option linter.unusedSectionVars false

namespace IBL.XFoil
variable {α : Type}

/-- `float(text)`. -/
abbrev Floats (α : Type) := Text → Option α

/-- `XFoilAirfoilData`, _xfoil_data.py 11-48: `_s`, `_x`, `_y`, `_u_e_rel`, `_delta_d`, `_delta_m`, `_c_f`, `_shape_d`, `_shape_k`, `_mom_defect`,
`_mass_defect`, `_ke_defect`. -/
structure Pt (α : Type) where
  s : α
  x : α
  y : α
  u : α
  deltaD : α
  deltaM : α
  cf : α
  shapeD : α
  shapeK : α
  mom : α
  mass : α
  ke : α

/-- `XFoilWakeData`, _xfoil_data.py 267-291. -/
structure Wake (α : Type) where
  s : α
  x : α
  y : α
  u : α
  deltaD : α
  deltaM : α
  shapeD : α

/-- The attributes of a point that can be assigned. -/
inductive Field
  | s | x | y | u | deltaD | deltaM | cf | shapeD | shapeK | mom | mass | ke
  deriving DecidableEq

section data
variable [PyLit α] [PyCmp α] [PySpecial α]

/-- The property setters, _xfoil_data.py 61-66, 76-78, 88-90, 100-102, 113-117, 128-132, 143-147, 158-162, 173-177, 187-189, 199-201, 211-213. -/
def Pt.set (p : Pt α) (f : Field) (v : α) : Pt α × Except Exc Unit :=
  match f with
  | .s => if PyCmp.lt v (lit 0) then (p, .error .valueError) else ({ p with s := v }, .ok ())
  | .x => ({ p with x := v }, .ok ())
  | .y => ({ p with y := v }, .ok ())
  | .u => ({ p with u := v }, .ok ())
  | .deltaD => if PyCmp.lt v (lit 0) then (p, .error .valueError) else ({ p with deltaD := v }, .ok ())
  | .deltaM => if PyCmp.lt v (lit 0) then (p, .error .valueError) else ({ p with deltaM := v }, .ok ())
  | .cf => if PyCmp.lt v (lit 0) then (p, .error .valueError) else ({ p with cf := v }, .ok ())
  | .shapeD => if PyCmp.le v (lit 0) then (p, .error .valueError) else ({ p with shapeD := v }, .ok ())
  | .shapeK => if PyCmp.le v (lit 0) then (p, .error .valueError) else ({ p with shapeK := v }, .ok ())
  | .mom => ({ p with mom := v }, .ok ())
  | .mass => ({ p with mass := v }, .ok ())
  | .ke => ({ p with ke := v }, .ok ())

/-- Assignments one after the other; the first one that raises ends it. -/
def Pt.sets (p : Pt α) : List (Field × α) → Pt α × Except Exc Unit
  | [] => (p, .ok ())
  | (f, v) :: l =>
    match p.set f v with
    | (p, .error e) => (p, .error e)
    | (p, .ok ()) => p.sets l

/-- The assignments in the order of `reset`, _xfoil_data.py 230-241 and 253-264. -/
def Pt.assignments (v : Pt α) : List (Field × α) :=
  [(.s, v.s), (.x, v.x), (.y, v.y), (.u, v.u), (.deltaD, v.deltaD), (.deltaM, v.deltaM), (.cf, v.cf), (.shapeD, v.shapeD), (.shapeK, v.shapeK),
    (.mom, v.mom), (.mass, v.mass), (.ke, v.ke)]

/-- All values infinite: _xfoil_data.py 37-48 and 230-241. -/
def Pt.infs : Pt α :=
  ⟨PySpecial.inf, PySpecial.inf, PySpecial.inf, PySpecial.inf, PySpecial.inf, PySpecial.inf, PySpecial.inf, PySpecial.inf, PySpecial.inf,
    PySpecial.inf, PySpecial.inf, PySpecial.inf⟩

/-- The unpacking of a row of text, _xfoil_data.py 246-252; `none` for the ValueError of a wrong number of columns or a column that is not a number. -/
def Pt.ofRow (fl : Floats α) (data : Text) : Option (Pt α) :=
  match data.split.mapM fl with
  | some [s, x, y, u, dd, dm, cf, hd, hk, mom, mass, ke] => some ⟨s, x, y, u, dd, dm, cf, hd, hk, mom, mass, ke⟩
  | _ => none

/-- `XFoilAirfoilData.reset`, _xfoil_data.py 215-264. -/
def Pt.reset (fl : Floats α) (p : Pt α) (data : Text) : Pt α × Except Exc Unit :=
  match p.sets Pt.infs.assignments with
  | (p, .error e) => (p, .error e)
  | (p, .ok ()) =>
    if data = [] then (p, .ok ()) else
    match Pt.ofRow fl data with
    | none => (p, .error .valueError)
    | some v => p.sets v.assignments

/-- `XFoilAirfoilData(data)`, _xfoil_data.py 28-50. -/
def Pt.mk' (fl : Floats α) (data : Text) : Except Exc (Pt α) :=
  match Pt.infs.reset fl data with
  | (_, .error e) => .error e
  | (p, .ok ()) => .ok p

/-- The property setters of `XFoilWakeData`, _xfoil_data.py 302-307, 317-319, 329-331, 341-343, 354-358, 369-373, 384-388; attributes it does not
have are ordinary new attributes in python (no effect here). -/
def Wake.set (p : Wake α) (f : Field) (v : α) : Wake α × Except Exc Unit :=
  match f with
  | .s => if PyCmp.lt v (lit 0) then (p, .error .valueError) else ({ p with s := v }, .ok ())
  | .x => ({ p with x := v }, .ok ())
  | .y => ({ p with y := v }, .ok ())
  | .u => ({ p with u := v }, .ok ())
  | .deltaD => if PyCmp.lt v (lit 0) then (p, .error .valueError) else ({ p with deltaD := v }, .ok ())
  | .deltaM => if PyCmp.lt v (lit 0) then (p, .error .valueError) else ({ p with deltaM := v }, .ok ())
  | .shapeD => if PyCmp.le v (lit 0) then (p, .error .valueError) else ({ p with shapeD := v }, .ok ())
  | _ => (p, .ok ())

def Wake.sets (p : Wake α) : List (Field × α) → Wake α × Except Exc Unit
  | [] => (p, .ok ())
  | (f, v) :: l =>
    match p.set f v with
    | (p, .error e) => (p, .error e)
    | (p, .ok ()) => p.sets l

/-- _xfoil_data.py 405-411 and 422-428. -/
def Wake.assignments (v : Wake α) : List (Field × α) :=
  [(.s, v.s), (.x, v.x), (.y, v.y), (.u, v.u), (.deltaD, v.deltaD), (.deltaM, v.deltaM), (.shapeD, v.shapeD)]

def Wake.infs : Wake α :=
  ⟨PySpecial.inf, PySpecial.inf, PySpecial.inf, PySpecial.inf, PySpecial.inf, PySpecial.inf, PySpecial.inf⟩

/-- _xfoil_data.py 415-421: the seventh of the eight columns is not used. -/
def Wake.ofRow (fl : Floats α) (data : Text) : Option (Wake α) :=
  match data.split.mapM fl with
  | some [s, x, y, u, dd, dm, _, hd] => some ⟨s, x, y, u, dd, dm, hd⟩
  | _ => none

/-- `XFoilWakeData.reset`, _xfoil_data.py 390-428. -/
def Wake.reset (fl : Floats α) (p : Wake α) (data : Text) : Wake α × Except Exc Unit :=
  match p.sets Wake.infs.assignments with
  | (p, .error e) => (p, .error e)
  | (p, .ok ()) =>
    if data = [] then (p, .ok ()) else
    match Wake.ofRow fl data with
    | none => (p, .error .valueError)
    | some v => p.sets v.assignments

/-- `XFoilWakeData(data)`, _xfoil_data.py 274-291. -/
def Wake.mk' (fl : Floats α) (data : Text) : Except Exc (Wake α) :=
  match Wake.infs.reset fl data with
  | (_, .error e) => .error e
  | (p, .ok ()) => .ok p

end data

/-- `_get_dump_data` after reading the lines, _xfoil_reader.py 797-814: the first line shorter than 80 characters starts the wake, unless it is the
very first line; a first line that starts with "#" is dropped. An empty file raises IndexError. -/
def dumpData (buff : List Text) : Except Exc (List Text × List Text) :=
  let wakeIdx := buff.findIdx fun l => l.length < 80
  match buff with
  | [] => .error .indexError
  | l :: _ =>
    let start := if l.head? = some '#' then 1 else 0
    if 0 < wakeIdx ∧ wakeIdx < buff.length then .ok ((buff.take wakeIdx).drop start, buff.drop wakeIdx) else .ok (buff.drop start, [])

/-- `XFoilReader`, _xfoil_reader.py 43-54. `heap` holds the airfoil points, `next` is the first unused place; `upper` and `lower` are the lists of
references. Wake points are never shared. -/
structure Reader (α : Type) where
  filename : Text
  name : Text
  alpha : α
  uRef : α
  c : α
  re : α
  xTransU : α
  xTransL : α
  nTrans : α
  heap : ℕ → Pt α
  next : ℕ
  upper : List ℕ
  lower : List ℕ
  wake : List (Wake α)

section reader
variable [Add α] [Sub α] [Mul α] [Div α] [Neg α] [PyLit α] [PyCmp α] [PySpecial α]

/-- The values set first by the `filename` setter, _xfoil_reader.py 166-177 (also 43-53). -/
def Reader.empty : Reader α :=
  ⟨[], [], PySpecial.inf, lit 1, lit 1, lit 0, PySpecial.inf, PySpecial.inf, PySpecial.inf, fun _ => Pt.infs, 0, [], [], []⟩

/-- A new object. -/
def Reader.alloc (r : Reader α) (p : Pt α) : Reader α × ℕ :=
  ({ r with heap := Function.update r.heap r.next p, next := r.next + 1 }, r.next)

/-- The loop over the rows of the upper surface, _xfoil_reader.py 185-191: the state and the index of the first row with negative velocity,
if there is one. (The object made of that row is dropped and gets no place.) -/
def Reader.readUpper (fl : Floats α) : Reader α → ℕ → List Text → Reader α × Except Exc (Option ℕ)
  | r, _, [] => (r, .ok none)
  | r, i, ad :: rows =>
    match Pt.mk' fl ad with
    | .error e => (r, .error e)
    | .ok p =>
      if PyCmp.lt p.u (lit 0) then (r, .ok (some i)) else
      let (r, a) := r.alloc p
      Reader.readUpper fl { r with upper := a :: r.upper } (i + 1) rows

/-- The list comprehension of line 194. -/
def mkAll (fl : Floats α) : List Text → Except Exc (List (Pt α))
  | [] => .ok []
  | x :: l =>
    match Pt.mk' fl x with
    | .error e => .error e
    | .ok p =>
      match mkAll fl l with
      | .error e => .error e
      | .ok ps => .ok (p :: ps)

/-- _xfoil_reader.py 195-198 for one point. -/
def Pt.flip (p : Pt α) : Pt α := { p with u := p.u * lit (-1), mass := p.mass * lit (-1), ke := p.ke * lit (-1) }

/-- New objects for all points, in order. -/
def Reader.allocAll : Reader α → List (Pt α) → Reader α × List ℕ
  | r, [] => (r, [])
  | r, p :: ps =>
    let (r, a) := r.alloc p
    let (r, as) := Reader.allocAll r ps
    (r, a :: as)

/-- `_interpolate_aifoil_data`, _xfoil_reader.py 816-834: the assignments in order. -/
def interpolate (up lo : Pt α) (frac : α) : List (Field × α) :=
  [(.u, lit 0), (.x, PyCmp.abs (-frac * lo.x + (lit 1 - frac) * up.x)), (.u, PyCmp.abs (-frac * lo.u + (lit 1 - frac) * up.u)),
    (.s, frac * lo.s + (lit 1 - frac) * up.s), (.y, frac * lo.y + (lit 1 - frac) * up.y),
    (.deltaD, frac * lo.deltaD + (lit 1 - frac) * up.deltaD), (.deltaM, frac * lo.deltaM + (lit 1 - frac) * up.deltaM),
    (.cf, frac * lo.cf + (lit 1 - frac) * up.cf), (.shapeD, frac * lo.shapeD + (lit 1 - frac) * up.shapeD),
    (.shapeK, frac * lo.shapeK + (lit 1 - frac) * up.shapeK), (.mom, frac * lo.mom + (lit 1 - frac) * up.mom),
    (.mass, frac * lo.mass + (lit 1 - frac) * up.mass), (.ke, frac * lo.ke + (lit 1 - frac) * up.ke)]

/-- The stagnation point, _xfoil_reader.py 200-214: the state and `stag_s`. -/
def Reader.stagnation (fl : Floats α) (r : Reader α) : Reader α × Except Exc α :=
  match r.upper with
  | [] => (r, .error .indexError)
  | a :: _ =>
    if PyCmp.eq (r.heap a).u (lit 0) then ({ r with lower := a :: r.lower }, .ok (r.heap a).s) else
    match r.lower with
    | [] => (r, .error .indexError)
    | b :: _ =>
      match pyDiv (r.heap a).u ((r.heap a).u + (r.heap b).u) with
      | .error e => (r, .error e)
      | .ok frac =>
        match Pt.mk' fl [] with
        | .error e => (r, .error e)
        | .ok p =>
          match p.sets (interpolate (r.heap a) (r.heap b) frac) with
          | (_, .error e) => (r, .error e)
          | (p, .ok ()) =>
            let (r, i) := r.alloc p
            let (r, j) := r.alloc p
            ({ r with upper := i :: r.upper, lower := j :: r.lower }, .ok p.s)

/-- `a.s = f(a.s)` for all references in a list, _xfoil_reader.py 217-220. -/
def adjust (f : α → α) : List ℕ → (ℕ → Pt α) → (ℕ → Pt α) × Except Exc Unit
  | [], h => (h, .ok ())
  | i :: l, h =>
    match (h i).set .s (f (h i).s) with
    | (_, .error e) => (h, .error e)
    | (p, .ok ()) => adjust f l (Function.update h i p)

/-- The list comprehension of line 224. -/
def mkWake (fl : Floats α) : List Text → Except Exc (List (Wake α))
  | [] => .ok []
  | x :: l =>
    match Wake.mk' fl x with
    | .error e => .error e
    | .ok p =>
      match mkWake fl l with
      | .error e => .error e
      | .ok ps => .ok (p :: ps)

/-- _xfoil_reader.py 226-227. -/
def adjustWake (off : α) : List (Wake α) → List (Wake α) × Except Exc Unit
  | [] => ([], .ok ())
  | w :: l =>
    match w.set .s (w.s - off) with
    | (_, .error e) => (w :: l, .error e)
    | (w, .ok ()) =>
      match adjustWake off l with
      | (l, res) => (w :: l, res)

/-- The wake, _xfoil_reader.py 222-227. -/
def Reader.readWake (fl : Floats α) (r : Reader α) (rows : List Text) : Reader α × Except Exc Unit :=
  match rows with
  | [] => (r, .ok ())
  | _ =>
    match mkWake fl rows with
    | .error e => (r, .error e)
    | .ok [] => ({ r with wake := [] }, .error .indexError)
    | .ok (w :: l) =>
      match adjustWake w.s (w :: l) with
      | (l, res) => ({ r with wake := l }, res)

/-- The `filename` setter, _xfoil_reader.py 164-227, on the freshly reset object. The name itself is never stored. -/
def Reader.load (fl : Floats α) (fs : Files) (name : Text) : Reader α × Except Exc Unit :=
  if name = [] then (.empty, .ok ()) else
  match fs name with
  | .error e => (.empty, .error e)
  | .ok content =>
    match dumpData (readlines content) with
    | .error e => (.empty, .error e)
    | .ok (rows, wakeRows) =>
      match Reader.empty.readUpper fl 0 rows with
      | (r, .error e) => (r, .error e)
      | (r, .ok idx) =>
        match mkAll fl (rows.drop (idx.getD (rows.length - 1))) with
        | .error e => (r, .error e)
        | .ok ps =>
          match r.allocAll (ps.map Pt.flip) with
          | (r, lower) =>
            match { r with lower := lower }.stagnation fl with
            | (r, .error e) => (r, .error e)
            | (r, .ok stag) =>
              match adjust (fun s => stag - s) r.upper r.heap with
              | (h, .error e) => ({ r with heap := h }, .error e)
              | (h, .ok ()) =>
                match adjust (fun s => s - stag) r.lower h with
                | (h, .error e) => ({ r with heap := h }, .error e)
                | (h, .ok ()) => { r with heap := h }.readWake fl wakeRows

/-- `XFoilReader(filename)`, _xfoil_reader.py 34-54; no object if the load raises. -/
def mkReader (fl : Floats α) (fs : Files) (name : Text) : Except Exc (Reader α) :=
  match Reader.load fl fs name with
  | (_, .error e) => .error e
  | (r, .ok ()) => .ok r

/-- The public calls that change a reader or one of its points. -/
inductive Op (α : Type)
  | setFilename (fs : Files) (name : Text)
  | setName (name : Text)
  | setAlpha (v : α)
  | setURef (v : α)
  | setC (v : α)
  | setReynolds (v : α)
  | setNTrans (v : α)
  | setXTransUpper (v : α)
  | setXTransLower (v : α)
  | upperSet (i : ℤ) (f : Field) (v : α)
  | lowerSet (i : ℤ) (f : Field) (v : α)
  | wakeSet (i : ℤ) (f : Field) (v : α)
  | upperReset (i : ℤ) (data : Text)
  | lowerReset (i : ℤ) (data : Text)
  | wakeReset (i : ℤ) (data : Text)

/-- A call on the object that a list element refers to. -/
def Reader.onPoint (r : Reader α) (refs : List ℕ) (i : ℤ) (f : Pt α → Pt α × Except Exc Unit) : Reader α × Except Exc Unit :=
  match pyIndex refs.length i with
  | .error e => (r, .error e)
  | .ok k =>
    match refs[k]? with
    | none => (r, .error .indexError)
    | some a => ({ r with heap := Function.update r.heap a (f (r.heap a)).1 }, (f (r.heap a)).2)

/-- The same for the wake. -/
def Reader.onWake (r : Reader α) (i : ℤ) (f : Wake α → Wake α × Except Exc Unit) : Reader α × Except Exc Unit :=
  match pyIndex r.wake.length i with
  | .error e => (r, .error e)
  | .ok k =>
    match r.wake[k]? with
    | none => (r, .error .indexError)
    | some w => ({ r with wake := r.wake.set k (f w).1 }, (f w).2)

/-- One public call: setters _xfoil_reader.py 63-155, and the setters and `reset` of the points returned by `upper`, `lower`, `wake` (262-308). -/
def Reader.step (fl : Floats α) (r : Reader α) : Op α → Reader α × Except Exc Unit
  | .setFilename fs name => Reader.load fl fs name
  | .setName v => ({ r with name := v }, .ok ())
  | .setAlpha v => ({ r with alpha := v }, .ok ())
  | .setURef v => if PyCmp.le v (lit 0) then (r, .error .valueError) else ({ r with uRef := v }, .ok ())
  | .setC v => if PyCmp.le v (lit 0) then (r, .error .valueError) else ({ r with c := v }, .ok ())
  | .setReynolds v => if PyCmp.lt v (lit 0) then (r, .error .valueError) else ({ r with re := v }, .ok ())
  | .setNTrans v => if PyCmp.le v (lit 0) then (r, .error .valueError) else ({ r with nTrans := v }, .ok ())
  | .setXTransUpper v => ({ r with xTransU := v }, .ok ())
  | .setXTransLower v => ({ r with xTransL := v }, .ok ())
  | .upperSet i f v => r.onPoint r.upper i fun p => p.set f v
  | .lowerSet i f v => r.onPoint r.lower i fun p => p.set f v
  | .wakeSet i f v => r.onWake i fun p => p.set f v
  | .upperReset i d => r.onPoint r.upper i fun p => p.reset fl d
  | .lowerReset i d => r.onPoint r.lower i fun p => p.reset fl d
  | .wakeReset i d => r.onWake i fun p => p.reset fl d

/-- The points of the two surfaces, as the accessors see them. -/
def Reader.upperPts (r : Reader α) : List (Pt α) := r.upper.map r.heap
@[inherit_doc Reader.upperPts]
def Reader.lowerPts (r : Reader α) : List (Pt α) := r.lower.map r.heap

/-- `upper_count`, `lower_count`, `wake_count`, _xfoil_reader.py 230-261. -/
def Reader.upperCount (r : Reader α) : ℕ := r.upper.length
@[inherit_doc Reader.upperCount]
def Reader.lowerCount (r : Reader α) : ℕ := r.lower.length
@[inherit_doc Reader.upperCount]
def Reader.wakeCount (r : Reader α) : ℕ := r.wake.length

/-- What the array accessors are named after. -/
inductive Quantity
  | s | x | y | uE | deltaD | deltaM | deltaK | shapeD | shapeK | cf | mass | mom | ke
  deriving DecidableEq

inductive Surface
  | upper | lower | wake
  deriving DecidableEq

/-- `l = []`, `for sd in ...: l.append(f(sd))`. -/
def gather {β : Type} (f : β → α) (l : List β) : List α := l.foldl (fun acc sd => acc ++ [f sd]) []

/-- The loop bodies of the accessors of one surface, _xfoil_reader.py 310-772 (`self.u_ref` times the array for `u_e_*`). -/
def Reader.surface (r : Reader α) (pts : List (Pt α)) : Quantity → List α
  | .s => gather (·.s) pts
  | .x => gather (·.x) pts
  | .y => gather (·.y) pts
  | .uE => (gather (·.u) pts).map (r.uRef * ·)
  | .deltaD => gather (·.deltaD) pts
  | .deltaM => gather (·.deltaM) pts
  | .deltaK => gather (fun sd => sd.shapeK * sd.deltaM) pts
  | .shapeD => gather (·.shapeD) pts
  | .shapeK => gather (·.shapeK) pts
  | .cf => gather (·.cf) pts
  | .mass => gather (·.mass) pts
  | .mom => gather (·.mom) pts
  | .ke => gather (·.ke) pts

/-- The array accessors `s_upper` ... `ke_defect_lower`, _xfoil_reader.py 310-772; `none` where there is no such method. -/
def Reader.array (r : Reader α) (q : Quantity) : Surface → Option (List α)
  | .upper => some (r.surface r.upperPts q)
  | .lower => some (r.surface r.lowerPts q)
  | .wake =>
    match q with
    | .s => some (gather (·.s) r.wake)
    | .x => some (gather (·.x) r.wake)
    | .y => some (gather (·.y) r.wake)
    | .uE => some ((gather (·.u) r.wake).map (r.uRef * ·))
    | .deltaD => some (gather (·.deltaD) r.wake)
    | .deltaM => some (gather (·.deltaM) r.wake)
    | .shapeD => some (gather (·.shapeD) r.wake)
    | _ => none

end reader
end IBL.XFoil
