import Mathlib.Data.Rat.Defs
import Mathlib.Algebra.Order.Field.Rat

/-! What number a numeral stands for, independently of how it is read. -/

namespace IBL.Spec

/-- The text is a sequence of decimal digits and stands for `n`. -/
inductive Digits : List Char → ℕ → Prop
  | nil : Digits [] 0
  | snoc (ds n c k) (h : Digits ds n) (hc : ['0', '1', '2', '3', '4', '5', '6', '7', '8', '9'][k]? = some c) : Digits (ds ++ [c]) (10 * n + k)

/-- A sign. -/
inductive Sign : List Char → ℤ → Prop
  | none : Sign [] 1
  | plus : Sign ['+'] 1
  | minus : Sign ['-'] (-1)

/-- An exponent, as in `E-04`. -/
inductive Exponent : List Char → ℤ → Prop
  | none : Exponent [] 0
  | some (c sg s ds n) (hc : c = 'e' ∨ c = 'E') (hs : Sign sg s) (hd : Digits ds n) (hne : ds ≠ []) : Exponent (c :: sg ++ ds) (s * n)

/-- The text is a decimal numeral and stands for `q`: a sign, digits before and after a point, at least one of them, and an exponent; sign, point
and exponent may be missing. -/
def Numeral (w : List Char) (q : ℚ) : Prop :=
  ∃ sg s ip pt fp ex n k, Sign sg s ∧ (pt = ['.'] ∨ pt = [] ∧ fp = []) ∧ Digits (ip ++ fp) n ∧ ip ++ fp ≠ [] ∧ Exponent ex k ∧
    w = sg ++ ip ++ pt ++ fp ++ ex ∧ q = s * n / 10 ^ fp.length * 10 ^ k

/-- The text is a numeral with a point and without exponent, as Fortran's `F` formats print, and stands for `q`. -/
def Fixed (w : List Char) (q : ℚ) : Prop :=
  ∃ sg s ip fp n, Sign sg s ∧ Digits (ip ++ fp) n ∧ ip ++ fp ≠ [] ∧ w = sg ++ ip ++ '.' :: fp ∧ q = s * n / 10 ^ fp.length

end IBL.Spec
