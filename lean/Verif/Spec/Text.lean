import Mathlib.Data.List.Basic
import Verif.Py

/-! What columns of a row and lines of a file are, independently of how they are computed. -/

namespace IBL.Spec

/-- The characters between columns: python's whitespace (the documentation of `str.isspace`: category Zs or bidirectional type WS, B, S). -/
def whitespace : List Char :=
  ['\t', '\n', '\x0b', '\x0c', '\r', '\x1c', '\x1d', '\x1e', '\x1f', ' ', '\u0085', '\u00a0', '\u1680', '\u2000', '\u2001', '\u2002', '\u2003',
    '\u2004', '\u2005', '\u2006', '\u2007', '\u2008', '\u2009', '\u200a', '\u2028', '\u2029', '\u202f', '\u205f', '\u3000']
@[inherit_doc whitespace]
def blank (c : Char) : Bool := whitespace.contains c

/-- `ws` are the maximal runs of non-blank characters of `s`, in order. -/
inductive Columns (blank : Char → Bool) : List Char → List (List Char) → Prop
  | none (s) (h : ∀ c ∈ s, blank c = true) : Columns blank s []
  | cons (sp w rest ws) (hsp : ∀ c ∈ sp, blank c = true) (hne : w ≠ []) (hw : ∀ c ∈ w, blank c = false)
      (hrest : ∀ c, rest.head? = some c → blank c = true) (h : Columns blank rest ws) : Columns blank (sp ++ w ++ rest) (w :: ws)

/-- `ls` are the lines of `s`, each with its `\n` (which only the last one may lack). -/
structure Lines (s : List Char) (ls : List (List Char)) : Prop where
  join : ls.flatten = s
  nonempty : ∀ l ∈ ls, l ≠ []
  inner : ∀ l ∈ ls, '\n' ∉ l.dropLast
  ends : ∀ l ∈ ls.dropLast, l.getLast? = some '\n'

/-- `t` is `s` with each line end `\r\n` or `\r` written as `\n`. -/
inductive Normal : List Char → List Char → Prop
  | nil : Normal [] []
  | crlf (s t) (h : Normal s t) : Normal ('\r' :: '\n' :: s) ('\n' :: t)
  | cr (s t) (hs : s.head? ≠ some '\n') (h : Normal s t) : Normal ('\r' :: s) ('\n' :: t)
  | other (c s t) (hc : c ≠ '\r') (h : Normal s t) : Normal (c :: s) (c :: t)

end IBL.Spec
