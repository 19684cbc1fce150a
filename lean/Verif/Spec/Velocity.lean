import Verif.Model.Method

/-! What a user of `set_velocity` expects of the three velocity functions. -/

namespace IBL
variable {α : Type}
variable [Add α] [Sub α] [Mul α] [Div α] [Neg α] [PyLit α]

/-- `du` is the derivative representation that goes with a function `f` given by the user, when the user gives no derivative:
its own `derivative()` if it has one, else the five point difference of `f` with step `h`. -/
def DerivOf (f : Callable α) (h : α) (du : α → Except Exc α) : Prop :=
  (∀ d1 d2, f.deriv = some (d1, d2) → ∀ x, du x = d1 x) ∧ (f.deriv = none → ∀ x, du x = fd1 f.call x h)

/-- The same for the second derivative. -/
def Deriv2Of (f : Callable α) (h : α) (d2u : α → Except Exc α) : Prop :=
  (∀ d1 d2, f.deriv = some (d1, d2) → ∀ x, d2u x = d2 x) ∧ (f.deriv = none → ∀ x, d2u x = fd2 f.call x h)

/-- The three functions belong to the arguments `u du d2u` of `set_velocity`. One clause per documented way of calling it. -/
inductive VelocityOf (pchip : Pchip α) : Arg α → Arg α → Arg α →
    (α → Except Exc α) → (α → Except Exc α) → (α → Except Exc α) → Prop
  /-- only the velocity, as a callable -/
  | callable {c U DU D2U} (h0 : ∀ x, U x = c.call x) (h1 : DerivOf c (lit (1/10000)) DU)
      (h2 : Deriv2Of c (lit (1/10000)) D2U) : VelocityOf pchip (.callable c) .none .none U DU D2U
  /-- velocity and slope, as callables -/
  | callable2 {c cd U DU D2U} (h0 : ∀ x, U x = c.call x) (h1 : ∀ x, DU x = cd.call x)
      (h2 : DerivOf cd (lit (1/100000)) D2U) : VelocityOf pchip (.callable c) (.callable cd) .none U DU D2U
  /-- all three as callables -/
  | callable3 {c cd cdd U DU D2U} (h0 : ∀ x, U x = c.call x) (h1 : ∀ x, DU x = cd.call x)
      (h2 : ∀ x, D2U x = cdd.call x) : VelocityOf pchip (.callable c) (.callable cd) (.callable cdd) U DU D2U
  /-- start value and tabulated slope -/
  | slope {a xs ys p d2u U DU D2U} (hp : pchip xs ys = .ok p) (h0 : ∀ x, U x = .ok (p.anti x + a))
      (h1 : ∀ x, DU x = .ok (p.call x)) (h2 : ∀ x, D2U x = .ok (p.d1 x)) :
      VelocityOf pchip (.num a) (.pair xs ys) d2u U DU D2U
  /-- tabulated velocity -/
  | table {xs ys p du d2u U DU D2U} (hp : pchip xs ys = .ok p) (h0 : ∀ x, U x = .ok (p.call x))
      (h1 : ∀ x, DU x = .ok (p.d1 x)) (h2 : ∀ x, D2U x = .ok (p.d2 x)) :
      VelocityOf pchip (.pair xs ys) du d2u U DU D2U

omit [Add α] [Sub α] [Mul α] [Div α] [Neg α] [PyLit α] in
/-- Two equal-length vectors with at least two points. -/
def IsTable (xs ys : Arr α) : Prop := ∃ n, 2 ≤ n ∧ xs.shape = [n] ∧ ys.shape = [n]

/-- All three velocity functions evaluate alike. -/
def SameVelocity (s t : VelState α) : Prop := ∀ x, s.uE x = t.uE x ∧ s.duE x = t.duE x ∧ s.d2uE x = t.d2uE x

end IBL
