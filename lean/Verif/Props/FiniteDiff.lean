import Verif.Lemmas.FiniteDiff
import Mathlib.Analysis.Calculus.ContDiff.Basic
import Mathlib.Analysis.Calculus.IteratedDeriv.Lemmas
import Mathlib.Analysis.Calculus.Deriv.Polynomial
import Mathlib.Analysis.SpecialFunctions.ExpDeriv

/-!
Property C10: accuracy of the numerical velocity derivatives, in exact arithmetic (rounding is not modelled).
-/

namespace IBL

/-- A user function without a `derivative` method. -/
def plain (f : ℝ → ℝ) : Callable ℝ := ⟨fun x => .ok (f x), none⟩

private theorem chain {f : ℝ → ℝ} {n : ℕ} (hf : ContDiff ℝ n f) (k : ℕ) (hk : k < n) (t : ℝ) :
    HasDerivAt (iteratedDeriv k f) (iteratedDeriv (k + 1) f t) t := by
  have := (hf.differentiable_iteratedDeriv k (by exact_mod_cast hk)) t
  rw [iteratedDeriv_succ]
  exact this.hasDerivAt

/-- **C10**, slope from a velocity alone: error at most `h^4/18` times a bound on the fifth derivative
on the sampled interval, `h = 1e-4`. -/
theorem numeric_slope_accuracy (pchip : Pchip ℝ) (s : VelState ℝ) (f : ℝ → ℝ) (hf : ContDiff ℝ 5 f) (x M : ℝ)
    (hM : ∀ t ∈ Set.Icc (x - 2 / 10 ^ 4) (x + 2 / 10 ^ 4), |iteratedDeriv 5 f t| ≤ M) :
    ∃ v, (setVelocity pchip s (.callable (plain f)) .none .none).1.duE x = .ok v ∧
      |v - deriv f x| ≤ (1 / 10 ^ 4) ^ 4 / 18 * M := by
  refine ⟨_, rfl, ?_⟩
  have := FD.fd1_error (F := fun k => iteratedDeriv k f) (x := x) (h := 1 / 10 ^ 4) (M := M) (by norm_num)
    (fun k hk t _ => chain (n := 5) (by exact_mod_cast hf) k hk t) (fun t ht => hM t (by
      convert ht using 2 <;> norm_num))
  simp only [iteratedDeriv_zero, iteratedDeriv_one] at this
  convert this using 6 <;> norm_num

/-- **C10**, second derivative from a velocity alone: error at most `h^4/54` times a bound on the sixth derivative, `h = 1e-4`. -/
theorem numeric_curvature_accuracy (pchip : Pchip ℝ) (s : VelState ℝ) (f : ℝ → ℝ) (hf : ContDiff ℝ 6 f) (x M : ℝ)
    (hM : ∀ t ∈ Set.Icc (x - 2 / 10 ^ 4) (x + 2 / 10 ^ 4), |iteratedDeriv 6 f t| ≤ M) :
    ∃ v, (setVelocity pchip s (.callable (plain f)) .none .none).1.d2uE x = .ok v ∧
      |v - deriv (deriv f) x| ≤ (1 / 10 ^ 4) ^ 4 / 54 * M := by
  refine ⟨_, rfl, ?_⟩
  have := FD.fd2_error (F := fun k => iteratedDeriv k f) (x := x) (h := 1 / 10 ^ 4) (M := M) (by norm_num)
    (fun k hk t _ => chain (n := 6) (by exact_mod_cast hf) k hk t) (fun t ht => hM t (by
      convert ht using 2 <;> norm_num))
  have h2 : iteratedDeriv 2 f x = deriv (deriv f) x := by
    rw [iteratedDeriv_succ, iteratedDeriv_one]
  simp only [iteratedDeriv_zero, h2] at this
  convert this using 6 <;> norm_num

/-- **C10**, second derivative from a given slope `g`: the slope formula with `h = 1e-5`. -/
theorem numeric_second_accuracy (pchip : Pchip ℝ) (s : VelState ℝ) (c : Callable ℝ) (g : ℝ → ℝ) (hg : ContDiff ℝ 5 g) (x M : ℝ)
    (hM : ∀ t ∈ Set.Icc (x - 2 / 10 ^ 5) (x + 2 / 10 ^ 5), |iteratedDeriv 5 g t| ≤ M) :
    ∃ v, (setVelocity pchip s (.callable c) (.callable (plain g)) .none).1.d2uE x = .ok v ∧
      |v - deriv g x| ≤ (1 / 10 ^ 5) ^ 4 / 18 * M := by
  refine ⟨_, rfl, ?_⟩
  have := FD.fd1_error (F := fun k => iteratedDeriv k g) (x := x) (h := 1 / 10 ^ 5) (M := M) (by norm_num)
    (fun k hk t _ => chain (n := 5) (by exact_mod_cast hg) k hk t) (fun t ht => hM t (by
      convert ht using 2 <;> norm_num))
  simp only [iteratedDeriv_zero, iteratedDeriv_one] at this
  convert this using 6 <;> norm_num

open Polynomial in
private theorem poly_chain (p : ℝ[X]) (k : ℕ) (t : ℝ) :
    HasDerivAt (fun t => (derivative^[k] p).eval t) ((derivative^[k + 1] p).eval t) t := by
  rw [Function.iterate_succ_apply']
  exact (derivative^[k] p).hasDerivAt t

open Polynomial in
/-- **C10**: for a polynomial velocity of degree at most 4 the slope is exact. -/
theorem numeric_slope_exact (pchip : Pchip ℝ) (s : VelState ℝ) (p : ℝ[X]) (hp : p.natDegree ≤ 4) (x : ℝ) :
    (setVelocity pchip s (.callable (plain fun x => p.eval x)) .none .none).1.duE x = .ok (p.derivative.eval x) := by
  have h0 : derivative^[5] p = 0 := iterate_derivative_eq_zero (by omega)
  have := FD.fd1_error (F := fun k t => (derivative^[k] p).eval t) (x := x) (h := 1 / 10000) (M := 0) (by norm_num)
    (fun k _ t _ => poly_chain p k t) (fun t _ => by simp only [h0]; simp)
  rw [mul_zero, abs_nonpos_iff, sub_eq_zero] at this
  refine congrArg Except.ok (Eq.trans ?_ this)
  simp [real_lit]

open Polynomial in
/-- **C10**: for a polynomial velocity of degree at most 5 the second derivative is exact. -/
theorem numeric_curvature_exact (pchip : Pchip ℝ) (s : VelState ℝ) (p : ℝ[X]) (hp : p.natDegree ≤ 5) (x : ℝ) :
    (setVelocity pchip s (.callable (plain fun x => p.eval x)) .none .none).1.d2uE x =
      .ok (p.derivative.derivative.eval x) := by
  have h0 : derivative^[6] p = 0 := iterate_derivative_eq_zero (by omega)
  have := FD.fd2_error (F := fun k t => (derivative^[k] p).eval t) (x := x) (h := 1 / 10000) (M := 0) (by norm_num)
    (fun k _ t _ => poly_chain p k t) (fun t _ => by simp only [h0]; simp)
  rw [mul_zero, abs_nonpos_iff, sub_eq_zero] at this
  refine congrArg Except.ok (Eq.trans ?_ this)
  simp [real_lit]

open Polynomial in
/-- **C10**: for a given polynomial slope of degree at most 4 the second derivative is exact. -/
theorem numeric_second_exact (pchip : Pchip ℝ) (s : VelState ℝ) (c : Callable ℝ) (p : ℝ[X]) (hp : p.natDegree ≤ 4) (x : ℝ) :
    (setVelocity pchip s (.callable c) (.callable (plain fun x => p.eval x)) .none).1.d2uE x =
      .ok (p.derivative.eval x) := by
  have h0 : derivative^[5] p = 0 := iterate_derivative_eq_zero (by omega)
  have := FD.fd1_error (F := fun k t => (derivative^[k] p).eval t) (x := x) (h := 1 / 100000) (M := 0) (by norm_num)
    (fun k _ t _ => poly_chain p k t) (fun t _ => by simp only [h0]; simp)
  rw [mul_zero, abs_nonpos_iff, sub_eq_zero] at this
  refine congrArg Except.ok (Eq.trans ?_ this)
  simp [real_lit]

/-- Non-vacuity: the exponential function as velocity. -/
example (pchip : Pchip ℝ) (x : ℝ) : ∃ v, (setVelocity pchip .empty (.callable (plain Real.exp)) .none .none).1.duE x = .ok v ∧
    |v - Real.exp x| ≤ (1 / 10 ^ 4) ^ 4 / 18 * Real.exp (x + 2 / 10 ^ 4) := by
  have := numeric_slope_accuracy pchip .empty Real.exp Real.contDiff_exp x (Real.exp (x + 2 / 10 ^ 4)) (by
    intro t ht
    rw [iteratedDeriv_eq_iterate, Real.iter_deriv_exp, abs_of_pos (Real.exp_pos t)]
    exact Real.exp_le_exp.2 ht.2)
  simpa using this

end IBL
