import Verif.Model.Method
import Mathlib.Data.Real.Basic
import Mathlib.Tactic.NormNum
import Mathlib.Tactic.Linarith

/-! C71: kinetic energy quantities of the method objects. -/

namespace IBL
set_option linter.unusedSectionVars false
variable {α : Type}

section gen
variable [Add α] [Sub α] [Mul α] [Div α] [Neg α] [PyLit α] [PyCmp α] [PySqrt α] [PyPow α]

/-- An unsolved object refuses the query. -/
def RefusesUnsolved (q : Obj α → α → Except Exc α) : Prop := ∀ (o : Obj α) (x : α), o.sol = none → ∃ e, q o x = .error e

/-- **C71**, what holds: the kinetic energy shape factor is refused before a solution exists (missing: the thickness and the dissipation). -/
theorem shapeK_refused_partial : RefusesUnsolved (α := α) Obj.shapeK := by
  intro o x h
  refine ⟨.valueError, ?_⟩
  cases hc : o.cls <;> simp [Obj.shapeK, Obj.deltaK, Obj.deltaM, Obj.comp, Obj.state, h, hc, bind, Except.bind]

end gen

/-- **C71** as stated: refused before a solution exists; afterwards between once and twice the momentum thickness, as for every velocity profile
between 0 and the edge velocity. -/
structure KineticComputed (k : Obj ℝ → ℝ → Except Exc ℝ) : Prop where
  refused : RefusesUnsolved k
  range : ∀ (o : Obj ℝ) (x m : ℝ), o.deltaM x = .ok m → 0 < m → ∃ v, k o x = .ok v ∧ m ≤ v ∧ v ≤ 2 * m

/-- Why the range is right: for any two weights in [0, 1] the integrand of the kinetic energy thickness lies between once and twice that of the
momentum thickness. -/
theorem kinetic_integrand (u : ℝ) (h0 : 0 ≤ u) (h1 : u ≤ 1) : u * (1 - u) ≤ u * (1 - u ^ 2) ∧ u * (1 - u ^ 2) ≤ 2 * (u * (1 - u)) := by
  have h : 0 ≤ u * (1 - u) := mul_nonneg h0 (by linarith)
  constructor
  · nlinarith [mul_nonneg h h0]
  · nlinarith [mul_nonneg h (by linarith : (0:ℝ) ≤ 1 - u)]

/-- A solved Head object with momentum thickness 1. -/
noncomputable def kineticWitness : Obj ℝ :=
  ⟨.head, 1, ⟨none, none, none⟩, .manual 0 1 2 1 0, [.sepHead 2], some fun _ => [1, 2], none⟩

/-- **C71** is false, both parts, for every object: `delta_k` and `dissipation` are zero, solved or not. -/
theorem kinetic_computed_fails : (∀ (o : Obj ℝ) (x rho : ℝ), o.deltaK x = .ok 0 ∧ o.dissipation x rho = .ok 0) ∧
    ¬ RefusesUnsolved (α := ℝ) Obj.deltaK ∧ ¬ KineticComputed Obj.deltaK ∧
    ∃ (o : Obj ℝ) (x m : ℝ), o.deltaM x = .ok m ∧ 0 < m ∧ o.shapeK x = .ok 0 := by
  have hz : ∀ (o : Obj ℝ) (x rho : ℝ), o.deltaK x = .ok 0 ∧ o.dissipation x rho = .ok 0 := by
    intro o x rho; simp [Obj.deltaK, Obj.dissipation]
  have hn : ¬ RefusesUnsolved (α := ℝ) Obj.deltaK := by
    intro h
    obtain ⟨e, he⟩ := h { kineticWitness with sol := none } 0 rfl
    rw [(hz _ _ 0).1] at he; cases he
  refine ⟨hz, hn, fun h => hn h.refused, kineticWitness, 0, 1, ?_, by norm_num, ?_⟩
  · simp [kineticWitness, Obj.deltaM, Obj.comp, Obj.state, bind, Except.bind, pure, Except.pure]
  · simp [kineticWitness, Obj.shapeK, Obj.deltaK, Obj.deltaM, Obj.comp, Obj.state, bind, Except.bind, pure, Except.pure]

/-- **C71**, further: where the momentum thickness vanishes the reported kinetic energy shape factor is not even the zero it is elsewhere but NaN
(floats with infinities and NaN over exact reals). -/
theorem shapeK_zero_thickness (o : Obj (Flt ℝ)) (x : Flt ℝ) : (o.deltaM x = .ok (.fin 0) → o.shapeK x = .ok .nan) ∧
    ∀ m : ℝ, m ≠ 0 → o.deltaM x = .ok (.fin m) → o.shapeK x = .ok (.fin 0) := by
  refine ⟨fun h => ?_, fun m hm h => ?_⟩ <;> rw [Obj.shapeK, h] <;> simp [Obj.deltaK, bind, Except.bind, pure, Except.pure, PyLit.lit]
  · change Flt.div (.fin 0) (.fin 0) = _
    simp [Flt.div]; rfl
  · change Flt.div (.fin 0) (.fin m) = _
    simp [Flt.div, hm]

/-- Non-vacuity: a solved Head object whose momentum thickness is `x`. -/
example : ∃ o : Obj (Flt ℝ), o.deltaM (.fin 0) = .ok (.fin 0) ∧ o.deltaM (.fin 1) = .ok (.fin 1) :=
  ⟨⟨.head, .fin 1, ⟨none, none, none⟩, .manual (.fin 0) (.fin 1) (.fin 2) (.fin 1) (.fin 0), [], some fun t => [t, .fin 2], none⟩, by
    simp [Obj.deltaM, Obj.comp, Obj.state, bind, Except.bind, pure, Except.pure]⟩

end IBL
