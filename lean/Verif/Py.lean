import Mathlib.Algebra.Order.Field.Basic
import Mathlib.Data.Rat.Cast.Defs
import Mathlib.Analysis.Real.Sqrt
import Mathlib.Analysis.SpecialFunctions.Pow.Real
import Mathlib.Analysis.SpecialFunctions.Log.Base

/-!
Python values used by the model: exceptions, float operations without laws, and
the exact extended numbers `Flt K`.
-/

set_option linter.unusedSectionVars false

namespace IBL

/-- The python exception classes that the modelled code can raise. Messages are not modelled
(except where they are part of an ordinary return value, see `solve`). -/
inductive Exc
  | valueError
  | typeError
  | indexError
  | zeroDivision
  | fileNotFound
  | other
  deriving DecidableEq, Repr

/-- Python/numpy float literals: every literal in the code is a decimal, hence rational, number.
Also the result of `float("...")` on a decimal numeral. -/
class PyLit (α : Type) where
  lit : ℚ → α

/-- Python float comparisons `a < b`, `a <= b`, `a == b` and `abs`. No laws are assumed: for IEEE floats
all three comparisons are false as soon as an operand is NaN. -/
class PyCmp (α : Type) where
  lt : α → α → Bool
  le : α → α → Bool
  eq : α → α → Bool
  abs : α → α

/-- `np.inf` and NaN. -/
class PySpecial (α : Type) where
  inf : α
  nan : α

/-- `np.sqrt`. -/
class PySqrt (α : Type) where
  sqrt : α → α

/-- `pow`, `np.exp`, `np.log10`. -/
class PyPow (α : Type) where
  pow : α → α → α
  exp : α → α
  log10 : α → α

export PyLit (lit)

/-- `a > b` and `a >= b` of python. -/
def PyCmp.gt {α : Type} [PyCmp α] (a b : α) : Bool := PyCmp.lt b a
@[inherit_doc PyCmp.gt]
def PyCmp.ge {α : Type} [PyCmp α] (a b : α) : Bool := PyCmp.le b a

/-- Division of two python floats: `ZeroDivisionError` for a zero divisor (numpy floats
do not raise, for those plain `/` is used in the model). -/
def pyDiv {α : Type} [Div α] [PyLit α] [PyCmp α] (a b : α) : Except Exc α :=
  if PyCmp.eq b (lit 0) then .error .zeroDivision else .ok (a / b)

/-- Power of two python floats: zero cannot be raised to a negative power (numpy gives infinity; for numpy numbers plain `PyPow.pow` is used in
the model). Not modelled: python's OverflowError, and the complex result for a negative base and a non-integer exponent. -/
def pyPow {α : Type} [PyLit α] [PyCmp α] [PyPow α] (a b : α) : Except Exc α :=
  if PyCmp.eq a (lit 0) && PyCmp.lt b (lit 0) then .error .zeroDivision else .ok (PyPow.pow a b)

/-! ### Real numbers as exact floats -/

noncomputable instance : PyLit ℝ := ⟨fun q => (q : ℝ)⟩
noncomputable instance : PyCmp ℝ where
  lt a b := by classical exact decide (a < b)
  le a b := by classical exact decide (a ≤ b)
  eq a b := by classical exact decide (a = b)
  abs a := |a|
noncomputable instance : PySqrt ℝ := ⟨Real.sqrt⟩
noncomputable instance : PyPow ℝ where
  pow a b := a ^ b
  exp := Real.exp
  log10 a := Real.logb 10 a

@[simp] theorem real_lit (q : ℚ) : (lit q : ℝ) = (q : ℝ) := rfl
@[simp] theorem real_lt (a b : ℝ) : PyCmp.lt a b = true ↔ a < b := by simp [PyCmp.lt]
@[simp] theorem real_le (a b : ℝ) : PyCmp.le a b = true ↔ a ≤ b := by simp [PyCmp.le]
@[simp] theorem real_gt (a b : ℝ) : PyCmp.gt a b = true ↔ b < a := by simp [PyCmp.gt]
@[simp] theorem real_ge (a b : ℝ) : PyCmp.ge a b = true ↔ b ≤ a := by simp [PyCmp.ge]
@[simp] theorem real_eq (a b : ℝ) : PyCmp.eq a b = true ↔ a = b := by simp [PyCmp.eq]
@[simp] theorem real_abs (a : ℝ) : PyCmp.abs a = |a| := rfl
@[simp] theorem real_sqrt (a : ℝ) : PySqrt.sqrt a = Real.sqrt a := rfl
@[simp] theorem real_pow (a b : ℝ) : PyPow.pow a b = a ^ b := rfl
@[simp] theorem real_exp (a : ℝ) : PyPow.exp a = Real.exp a := rfl
@[simp] theorem real_log10 (a : ℝ) : PyPow.log10 a = Real.logb 10 a := rfl

/-! ### IEEE doubles

Only to make visible that the generic theorems apply to them: lean's `Float` is IEEE binary64 and opaque
to the logic, so nothing but the generic theorems is known about this instance. -/

def Float.ofRatApprox (q : ℚ) : Float := Float.ofInt q.num / Float.ofNat q.den

instance : PyLit Float := ⟨Float.ofRatApprox⟩
instance : PyCmp Float where
  lt a b := a < b
  le a b := a ≤ b
  eq a b := a == b
  abs := Float.abs
instance : PySpecial Float := ⟨1.0 / 0.0, 0.0 / 0.0⟩
instance : PySqrt Float := ⟨Float.sqrt⟩
instance : PyPow Float := ⟨Float.pow, Float.exp, Float.log10⟩

/-! ### Exact extended numbers -/

/-- Floats with exact finite arithmetic: NaN, the two infinities and the elements of a field.
Simplification: no rounding, no overflow, a single zero. -/
inductive Flt (K : Type)
  | nan
  | ninf
  | fin (q : K)
  | pinf
  deriving DecidableEq, Repr

namespace Flt
variable {K : Type} [Field K] [LinearOrder K]

def neg : Flt K → Flt K
  | nan => nan
  | ninf => pinf
  | fin q => fin (-q)
  | pinf => ninf

def add : Flt K → Flt K → Flt K
  | nan, _ => nan
  | _, nan => nan
  | pinf, ninf => nan
  | ninf, pinf => nan
  | pinf, _ => pinf
  | _, pinf => pinf
  | ninf, _ => ninf
  | _, ninf => ninf
  | fin a, fin b => fin (a + b)

/-- The sign of an operand: positive, negative, zero. -/
def sgn : Flt K → Option Ordering
  | nan => none
  | ninf => some .lt
  | pinf => some .gt
  | fin q => some (compare q 0)

/-- `±inf` times something with the given sign. -/
def infTimes : Option Ordering → Flt K
  | none => nan
  | some .eq => nan
  | some .lt => ninf
  | some .gt => pinf

def mul : Flt K → Flt K → Flt K
  | fin a, fin b => fin (a * b)
  | nan, _ => nan
  | _, nan => nan
  | pinf, b => infTimes b.sgn
  | ninf, b => (infTimes b.sgn).neg
  | a, pinf => infTimes a.sgn
  | a, ninf => (infTimes a.sgn).neg

def div : Flt K → Flt K → Flt K
  | nan, _ => nan
  | _, nan => nan
  | fin a, fin b => if b = 0 then infTimes (some (compare a 0)) else fin (a / b)
  | fin _, _ => fin 0
  | pinf, fin b => if b < 0 then ninf else pinf
  | ninf, fin b => if b < 0 then pinf else ninf
  | _, _ => nan

def lt : Flt K → Flt K → Bool
  | nan, _ => false
  | _, nan => false
  | fin a, fin b => decide (a < b)
  | ninf, ninf => false
  | ninf, _ => true
  | _, ninf => false
  | pinf, _ => false
  | fin _, pinf => true

def eq : Flt K → Flt K → Bool
  | fin a, fin b => decide (a = b)
  | ninf, ninf => true
  | pinf, pinf => true
  | _, _ => false

def le (a b : Flt K) : Bool := lt a b || eq a b

def abs : Flt K → Flt K
  | nan => nan
  | fin q => fin (max q (-q))
  | _ => pinf

instance : Neg (Flt K) := ⟨neg⟩
instance : Add (Flt K) := ⟨add⟩
instance : Sub (Flt K) := ⟨fun a b => add a (neg b)⟩
instance : Mul (Flt K) := ⟨mul⟩
instance : Div (Flt K) := ⟨div⟩
instance : PyLit (Flt K) := ⟨fun q => fin (q : K)⟩
instance : PyCmp (Flt K) := ⟨lt, le, eq, abs⟩
instance : PySpecial (Flt K) := ⟨pinf, nan⟩

/-- `np.sqrt` on extended reals: NaN for negative arguments. -/
noncomputable instance : PySqrt (Flt ℝ) where
  sqrt
    | nan => nan
    | ninf => nan
    | pinf => pinf
    | fin q => if q < 0 then nan else fin (Real.sqrt q)

/-- `pow`, `exp`, `log10` on extended reals, following C's `pow` for the special values. -/
noncomputable instance : PyPow (Flt ℝ) where
  pow a b := by
    classical exact if b = fin 0 ∨ a = fin 1 then fin 1 else match a, b with
    | nan, _ => nan
    | _, nan => nan
    | fin a, fin b =>
      if 0 < a then fin (a ^ b)
      else if a = 0 then (if 0 < b then fin 0 else pinf)
      else if ∃ n : ℤ, (n : ℝ) = b then fin (a ^ b) else nan
    | pinf, fin b => if 0 < b then pinf else fin 0
    | ninf, fin b => if 0 < b then pinf else fin 0
    | fin a, pinf => if |a| < 1 then fin 0 else pinf
    | fin a, ninf => if |a| < 1 then pinf else fin 0
    | _, pinf => pinf
    | _, ninf => fin 0
  exp
    | nan => nan
    | ninf => fin 0
    | fin a => fin (Real.exp a)
    | pinf => pinf
  log10
    | nan => nan
    | ninf => nan
    | pinf => pinf
    | fin a => if a < 0 then nan else if a = 0 then ninf else fin (Real.logb 10 a)

@[simp] theorem fin_add (a b : K) : (fin a + fin b : Flt K) = fin (a + b) := rfl
@[simp] theorem fin_sub (a b : K) : (fin a - fin b : Flt K) = fin (a - b) := by
  show add (fin a) (neg (fin b)) = _
  simp [add, neg, sub_eq_add_neg]
@[simp] theorem fin_mul (a b : K) : (fin a * fin b : Flt K) = fin (a * b) := rfl
@[simp] theorem fin_neg (a : K) : (-fin a : Flt K) = fin (-a) := rfl
theorem fin_div (a b : K) (hb : b ≠ 0) : (fin a / fin b : Flt K) = fin (a / b) := by
  show div (fin a) (fin b) = _
  simp [div, hb]
@[simp] theorem fin_lt (a b : K) : PyCmp.lt (fin a) (fin b) = decide (a < b) := rfl
@[simp] theorem fin_eq (a b : K) : PyCmp.eq (fin a) (fin b) = decide (a = b) := rfl
@[simp] theorem fin_le (a b : K) : PyCmp.le (fin a) (fin b) = decide (a ≤ b) := by
  show (decide (a < b) || decide (a = b)) = _
  simp [le_iff_lt_or_eq]
@[simp] theorem lit_fin (q : ℚ) : (lit q : Flt K) = fin (q : K) := rfl

end Flt
end IBL
