import Mathlib.Data.List.Basic
import Verif.Py

/-! Python text: `str.split()`, `readlines()`, indexing and slicing of lists. Strings are lists of code points. -/

namespace IBL

abbrev Text := List Char

/-- The characters for which `str.isspace` holds, at which `str.split()` splits. -/
def isSpace (c : Char) : Bool :=
  let n := c.toNat
  (9 ≤ n && n ≤ 13) || (28 ≤ n && n ≤ 32) || n == 0x85 || n == 0xa0 || n == 0x1680 || (0x2000 ≤ n && n ≤ 0x200a) || n == 0x2028 || n == 0x2029 ||
    n == 0x202f || n == 0x205f || n == 0x3000

/-- `str.split()` of the text that follows the unfinished word `w`. -/
def splitAux : Text → Text → List Text
  | w, [] => if w = [] then [] else [w]
  | w, c :: s => if isSpace c then (if w = [] then splitAux [] s else w :: splitAux [] s) else splitAux (w ++ [c]) s

/-- `str.split()`. -/
def Text.split (s : Text) : List Text := splitAux [] s

/-- Universal newlines of text files: `\r\n` and `\r` are read as `\n`. -/
def newlines : Text → Text
  | '\r' :: '\n' :: s => '\n' :: newlines s
  | c :: s => (if c = '\r' then '\n' else c) :: newlines s
  | [] => []

/-- Lines with their ends, after the unfinished line `l`. -/
def linesAux : Text → Text → List Text
  | l, [] => if l = [] then [] else [l]
  | l, c :: s => if c = '\n' then (l ++ ['\n']) :: linesAux [] s else linesAux (l ++ [c]) s

/-- `readlines()` of an open text file with this content. -/
def readlines (s : Text) : List Text := linesAux [] (newlines s)

/-- `str.split(sep)` with a one-character separator, after the unfinished part `w`. -/
def splitOnAux (sep : Char) : Text → Text → List Text
  | w, [] => [w]
  | w, c :: s => if c = sep then w :: splitOnAux sep [] s else splitOnAux sep (w ++ [c]) s

/-- `str.split(sep)` with a one-character separator. -/
def Text.splitOn (sep : Char) (s : Text) : List Text := splitOnAux sep [] s

/-- `str.lstrip()`. -/
def Text.lstrip (s : Text) : Text := s.dropWhile isSpace

/-- `str.rstrip()`. -/
def Text.rstrip (s : Text) : Text := (s.reverse.dropWhile isSpace).reverse

/-- `p in s` for strings. -/
def Text.contains (p : Text) : Text → Bool
  | [] => p.isEmpty
  | c :: s => p.isPrefixOf (c :: s) || Text.contains p s

/-- The file system: the decoded content of a file or the exception from opening and reading it. -/
abbrev Files := Text → Except Exc Text

/-- Index of a list element in python: negative indices count from the end; `IndexError` otherwise. -/
def pyIndex (n : ℕ) (i : ℤ) : Except Exc ℕ :=
  if 0 ≤ i ∧ i < n then .ok i.toNat else if i < 0 ∧ 0 ≤ i + n then .ok (i + n).toNat else .error .indexError

end IBL
