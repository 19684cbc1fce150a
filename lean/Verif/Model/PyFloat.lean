import Verif.PyText

/-!
Python's `float(text)`, used by _xfoil_data.py 249 and 418, _stanford_1968.py 138-140 and _stanford_1968_station.py 498, 569, 684 and 794; written from
its documentation. The result is the number that the text stands for; that the nearest double is returned is left to the literals of the number
domain. Simplified: only ASCII digits (python takes every decimal digit of Unicode), no overflow to infinity, no negative zero.
-/

namespace IBL.PyFloat

def isDigit (c : Char) : Bool := 48 ≤ c.toNat && c.toNat ≤ 57

/-- The value of a sequence of digits. -/
def natOf (ds : Text) : ℕ := ds.foldl (fun n c => 10 * n + (c.toNat - 48)) 0

/-- The sign, and what follows it. -/
def takeSign : Text → ℤ × Text
  | '-' :: s => (-1, s)
  | '+' :: s => (1, s)
  | s => (1, s)

/-- What follows the digits: nothing or an exponent. -/
def exponent : Text → Option ℤ
  | [] => some 0
  | c :: r =>
    if c = 'e' ∨ c = 'E' then
      if (takeSign r).2 ≠ [] ∧ (takeSign r).2.all isDigit then some ((takeSign r).1 * natOf (takeSign r).2) else none
    else none

/-- A numeral without sign. -/
def unsigned (s : Text) : Option ℚ :=
  let r := s.dropWhile isDigit
  let ip := s.takeWhile isDigit
  let fp := if r.head? = some '.' then r.tail.takeWhile isDigit else []
  let rest := if r.head? = some '.' then r.tail.dropWhile isDigit else r
  if ip ++ fp = [] then none else (exponent rest).map fun k => (natOf (ip ++ fp) : ℚ) / 10 ^ fp.length * 10 ^ k

/-- Underscores may stand between digits and are dropped; `none` if one stands elsewhere. The first argument is the character before. -/
def underscores : Option Char → Text → Option Text
  | p, [] => if p = some '_' then none else some []
  | p, c :: s =>
    if c = '_' then (if p.any isDigit then underscores (some c) s else none)
    else if p = some '_' ∧ !isDigit c then none
    else (underscores (some c) s).map (c :: ·)

/-- The names of the special values, in lower case. -/
def special : Text → Option (Flt ℚ)
  | ['i', 'n', 'f'] => some .pinf
  | ['i', 'n', 'f', 'i', 'n', 'i', 't', 'y'] => some .pinf
  | ['n', 'a', 'n'] => some .nan
  | _ => none

/-- `float(text)`; `none` for ValueError. -/
def float (text : Text) : Option (Flt ℚ) :=
  match underscores none text.lstrip.rstrip with
  | none => none
  | some t =>
    match special ((takeSign t).2.map Char.toLower) with
    | some .pinf => some (if (takeSign t).1 = -1 then .ninf else .pinf)
    | some v => some v
    | none => (unsigned (takeSign t).2).map fun q => .fin ((takeSign t).1 * q)

variable {α : Type} [PyLit α] [PySpecial α] [Neg α]

/-- The value in the number domain. -/
def toNumber : Flt ℚ → α
  | .nan => PySpecial.nan
  | .ninf => -PySpecial.inf
  | .fin q => lit q
  | .pinf => PySpecial.inf

/-- `float(text)` in the number domain, the parameter of the readers. -/
def floats (text : Text) : Option α := (float text).map toNumber

end IBL.PyFloat
