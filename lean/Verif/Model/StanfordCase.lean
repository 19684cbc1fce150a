import Verif.Model.Stanford

/-! `StanfordOlympics1968`, _stanford_1968.py: the case object and the splitting of a case file into blocks. -/

set_option linter.unusedSectionVars false

namespace IBL.Stanford
variable {α : Type}

/-- The case files of the package by case name: `none` if `is_file` is false, else the decoded content or the exception from reading it. -/
abbrev CaseFiles := Text → Option (Except Exc Text)

/-- `buff[a:b]` with `0 ≤ a`, `0 ≤ b`. -/
def slice {β : Type} (l : List β) (a b : ℕ) : List β := (l.take b).drop a

/-- `"# " in s`, _stanford_1968.py 598. -/
def marked (s : Text) : Bool := Text.contains ['#', ' '] s

/-- The rows of a slice of the lines: joined, split at newlines, empty rows removed; _stanford_1968.py 603-605. -/
def rowsOf (ls : List Text) : List Text := (Text.splitOn '\n' ls.flatten).filter fun r => !r.isEmpty

/-- The loop over the indices of the marked lines, _stanford_1968.py 601-609. -/
def blocks (buff : List Text) (prev : ℕ) : List ℕ → List (List Text)
  | [] => []
  | c :: cs => if prev < c then rowsOf (slice buff (prev + 1) c) :: blocks buff (c + 1) cs else blocks buff c cs

/-- `chunk_idx`, _stanford_1968.py 598-599. -/
def chunkIdx (buff : List Text) : List ℕ :=
  ((buff.zipIdx.filter fun p => marked p.1).map Prod.snd) ++ [buff.length]

/-- What `_get_case_data` does with the lines of the file, _stanford_1968.py 595-611. -/
def caseBlocks (buff : List Text) : List (List Text) :=
  match chunkIdx buff with
  | [] => []
  | prev :: cs => blocks buff prev cs

/-- `_get_case_data`, _stanford_1968.py 569-611. -/
def getCaseData (files : CaseFiles) (name : Text) : Except Exc (List (List Text)) :=
  match files name with
  | none => .ok []
  | some (.error e) => .error e
  | some (.ok content) => .ok (caseBlocks (readlines content))

/-- The state of a case object, _stanford_1968.py 74-80. -/
structure Case (α : Type) where
  case : Text
  nuRef : α
  smooth : Option (Smooth α)
  stations : List (Station α)

/-- `[x.rstrip().lstrip() for x in s.split("=")]`, _stanford_1968.py 123 and 134. -/
def parts (s : Text) : List Text := (Text.splitOn '=' s).map fun x => x.rstrip.lstrip

/-- Element of a list at a non-negative constant index: IndexError if there is none. -/
def item {β : Type} (l : List β) (i : ℕ) : Except Exc β :=
  match l[i]? with
  | some b => .ok b
  | none => .error .indexError

section
variable [Add α] [Sub α] [Mul α] [Div α] [PyLit α] [PyCmp α] [PySpecial α] [PySqrt α] [PyPow α]

/-- The lines 123-130 of _stanford_1968.py up to the assignment of `_case`: the identifier line is checked. -/
def identify (data : List (List Text)) (name : Text) : Except Exc Unit :=
  match item data 0 with
  | .error e => .error e
  | .ok b0 =>
    match item b0 0 with
    | .error e => .error e
    | .ok l0 =>
      match item (parts l0) 0 with
      | .error e => .error e
      | .ok key =>
        if key ≠ "IDENT".toList ∧ key ≠ "ident".toList then .error .valueError
        else match item (parts l0) 1 with
        | .error e => .error e
        | .ok val => if val ≠ name then .error .valueError else .ok ()

/-- `case[0] == "1"`, _stanford_1968.py 132 (the name is not empty there). -/
def siUnit (name : Text) : Bool := name.head? == some '1'

/-- The kinematic viscosity, _stanford_1968.py 134-140. -/
def viscosity (fl : Floats α) (data : List (List Text)) (si : Bool) : Except Exc α :=
  match item data 0 with
  | .error e => .error e
  | .ok b0 =>
    match item b0 1 with
    | .error e => .error e
    | .ok l1 =>
      match item (parts l1) 0 with
      | .error e => .error e
      | .ok key =>
        if key ≠ "V".toList ∧ key ≠ "v".toList then .error .valueError
        else match item (parts l1) 1 with
        | .error e => .error e
        | .ok val =>
          match fl val with
          | none => .error .valueError
          | some v => .ok (if si then v * lit (1 / 10000) else v * foot2)

/-- The texts given to the stations one after the other, _stanford_1968.py 147-168: `zip` ends with the shortest list. -/
def stationTexts (data : List (List Text)) : Except Exc (List (Text × Text × List Text)) :=
  match item data 1 with
  | .error e => .error e
  | .ok b1 =>
    if data.length < 4 then .ok (b1.map fun r => (r, [], []))
    else match item data 3 with
    | .error e => .error e
    | .ok b3 =>
      if data.length < 5 then .ok ((b1.zip b3).map fun p => (p.1, p.2, []))
      else .ok (b1.zip (b3.zip (data.drop 4)))

/-- The loop that appends the stations, _stanford_1968.py 148-168: those before the one that raises stay. -/
def addStations (fl : Floats α) (mem : Mem α) (si : Bool) (o : Case α) : List (Text × Text × List Text) → Case α × Except Exc Unit
  | [] => (o, .ok ())
  | (a, b, c) :: l =>
    match Station.mk' fl mem si a b c with
    | .error e => (o, .error e)
    | .ok s => addStations fl mem si { o with stations := o.stations ++ [s] } l

/-- The `case` setter, _stanford_1968.py 92-168. -/
def Case.select (files : CaseFiles) (fl : Floats α) (mem : Mem α) (o : Case α) (name : Text) : Case α × Except Exc Unit :=
  let o : Case α := { o with nuRef := PySpecial.inf, smooth := none, stations := [] }
  if name = [] then ({ o with case := [] }, .ok ()) else
  match getCaseData files name with
  | .error e => (o, .error e)
  | .ok data =>
    match identify data name with
    | .error e => (o, .error e)
    | .ok () =>
      let o : Case α := { o with case := name }
      let si := siUnit name
      match viscosity fl data si with
      | .error e => (o, .error e)
      | .ok nu =>
        let o : Case α := { o with nuRef := nu }
        match item data 2 with
        | .error e => (o, .error e)
        | .ok b2 =>
          match Smooth.mk' fl mem si b2 with
          | .error e => (o, .error e)
          | .ok sm =>
            let o : Case α := { o with smooth := some sm }
            match stationTexts data with
            | .error e => (o, .error e)
            | .ok l => addStations fl mem si o l

/-- The object of the first lines of `__init__` (and of `StanfordOlympics1968()`), _stanford_1968.py 74-78. -/
def Case.empty : Case α := ⟨[], PySpecial.inf, none, []⟩

/-- `StanfordOlympics1968(case)`, _stanford_1968.py 65-80. -/
def Case.mk' (files : CaseFiles) (fl : Floats α) (mem : Mem α) : Option Text → Except Exc (Case α)
  | none => .ok .empty
  | some name =>
    match Case.empty.select files fl mem name with
    | (_, .error e) => .error e
    | (o, .ok ()) => .ok o

/-- `station_count`, _stanford_1968.py 170-179. -/
def Case.stationCount (o : Case α) : ℕ := o.stations.length

/-- `station(i)`, _stanford_1968.py 181-196, and the object that `y(idx)`, `u(idx)` and the other profile accessors read, 473-567. -/
def Case.station (o : Case α) (i : ℤ) : Except Exc (Station α) :=
  match pyIndex o.stations.length i with
  | .error e => .error e
  | .ok k => item o.stations k

/-- `x_smooth`, `u_e_smooth`, `du_e_smooth`, _stanford_1968.py 198-235. -/
def Case.xSmooth (o : Case α) : List α := match o.smooth with | none => [] | some s => s.x
@[inherit_doc Case.xSmooth]
def Case.ueSmooth (o : Case α) : List α := match o.smooth with | none => [] | some s => s.ue
@[inherit_doc Case.xSmooth]
def Case.dueSmooth (o : Case α) : List α := match o.smooth with | none => [] | some s => s.due

/-- The attribute of a station that a getter returns. -/
def Station.get (p : Station α) : Field → α
  | .x => p.x | .ue => p.ue | .due => p.due | .deltaM => p.deltaM | .shapeD => p.shapeD | .shapeK => p.shapeK | .shapeEq => p.shapeEq
  | .cf => p.cf | .cfLt => p.cfLt | .cfExp => p.cfExp | .beta => p.beta | .uStar => p.uStar | .nu => p.nu | .deltaD => p.deltaD
  | .deltaK => p.deltaK | .deltaC => p.deltaC | .reM => p.reM | .reD => p.reD

/-- `x()`, `u_e()`, ..., `re_delta_m()`: `np.fromiter` over the stations, _stanford_1968.py 237-471. -/
def Case.column (o : Case α) (f : Field) : List α := o.stations.map fun s => s.get f

/-- One use of a case object: selecting a case, assigning to an attribute of one of its stations, or resetting one of its stations. -/
inductive Op (α : Type)
  | select (mem : Mem α) (name : Text)
  | set (i : ℤ) (f : Field) (v : α)
  | setArr (i : ℤ) (f : Arr) (v : List α)
  | reset (i : ℤ) (mem : Mem α) (si : Bool) (summ stat : Text) (rows : List Text)

/-- A station method that may write before it raises, applied to station `i`. -/
def Case.onStation (o : Case α) (i : ℤ) (f : Station α → Station α × Except Exc Unit) : Case α × Except Exc Unit :=
  match pyIndex o.stations.length i with
  | .error e => (o, .error e)
  | .ok k =>
    match o.stations[k]? with
    | none => (o, .error .indexError)
    | some s => ({ o with stations := o.stations.set k (f s).1 }, (f s).2)

def Case.step (files : CaseFiles) (fl : Floats α) (o : Case α) : Op α → Case α × Except Exc Unit
  | .select mem name => o.select files fl mem name
  | .set i f v => o.onStation i fun s => s.set f v
  | .setArr i f v => o.onStation i fun s => s.setArr f v
  | .reset i mem si a b c => o.onStation i fun s => s.reset fl mem si a b c

/-- The object after a history of uses; exceptions are caught by the caller. -/
def Case.run (files : CaseFiles) (fl : Floats α) (o : Case α) : List (Op α) → Case α
  | [] => o
  | op :: ops => Case.run files fl (o.step files fl op).1 ops

end
end IBL.Stanford
