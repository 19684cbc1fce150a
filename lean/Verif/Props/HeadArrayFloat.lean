import Verif.Props.HeadFloat
import Verif.Props.HeadArray

/-!
C154: wall shear stress and transpiration velocity of Head's method on arrays in rounded arithmetic, in units of time and mass that differ by
powers of two.
-/

set_option linter.unusedSectionVars false

namespace IBL.HeadArr

variable {R : Rounding} [PyPow R.F]

/-! ### Specification -/

/-- No velocity of the array, nor `2 ^ n` times it, is among those in place of which the code takes 0.001. -/
def AwayFromZero (n : ℤ) (u : R.F → R.F) (xs : List R.F) : Prop :=
  ∀ a ∈ xs, (lit (1/1000) : R.F).val ≤ |(u a).val| ∧ (lit (1/1000) : R.F).val ≤ |2 ^ n * (u a).val|

/-- The array with `2 ^ n` times the elements. -/
noncomputable def scaled (n : ℤ) (xs : List R.F) : List R.F := xs.map (times n)

/-! ### Proofs -/

private theorem floor_eq {u : R.F} (h : (lit (1/1000) : R.F).val ≤ |u.val|) : Head.floorArray u = u := by
  rw [Head.floorArray, if_neg]
  rw [Rounding.F_lt]
  exact not_lt.2 h

private theorem tau_eq (m n : ℤ) (nu rho u dm h : R.F) (h1 : (lit (1/1000) : R.F).val ≤ |u.val|) (h2 : (lit (1/1000) : R.F).val ≤ |2 ^ n * u.val|) :
    tauPoint (times n nu) (times m rho) (times n u) dm h = times (m + 2 * n) (tauPoint nu rho u dm h) := by
  have e2 : Head.floorArray (times n u) = times n u := floor_eq h2
  simp only [tauPoint, floor_eq h1, e2, times_mul, mul_times, times_div_times]
  apply Rounding.F.ext
  simp only [times]
  rw [show m + 2 * n = n + (n + m) by ring, zpow_add₀ two_ne_zero, zpow_add₀ two_ne_zero]
  ring

private theorem v_eq (n : ℤ) (nu u du dm h : R.F) (h1 : (lit (1/1000) : R.F).val ≤ |u.val|) (h2 : (lit (1/1000) : R.F).val ≤ |2 ^ n * u.val|) :
    vEPoint Head.floorArray (times n nu) (times n u) (times n du) dm h = times n (vEPoint Head.floorArray nu u du dm h) := by
  have e2 : Head.floorArray (times n u) = times n u := floor_eq h2
  have e : Head.rates (times n nu) (times n u) (times n du) dm (Head.odeClamp h) = Head.rates nu u du dm (Head.odeClamp h) := by
    simp only [Head.rates, times_mul, mul_times, times_div_times, times_sub]
  simp only [vEPoint, floor_eq h1, e2, e, times_mul, times_add]

/-- **C154**: `tau_w` on an array. With velocity and viscosity `2 ^ n` times and density `2 ^ m` times as large both calls succeed and every element is
exactly `2 ^ (m + 2 * n)` times as large. -/
theorem float_time_shear (u : R.F → R.F) (sol : R.F → R.F × R.F) (nu rho : R.F) (m n : ℤ) (hp : Heap R.F) (r : ℕ) (xs : List R.F)
    (hr : hp[r]? = some xs) (h : AwayFromZero n u xs) :
    ∃ hp1 hp2 l, tauW (elementwise u) sol nu hp (.arr r) rho = .ok (hp1, .v l) ∧ l.length = xs.length ∧
      tauW (elementwise fun a => times n (u a)) sol (times n nu) hp (.arr r) (times m rho) = .ok (hp2, .v (scaled (m + 2 * n) l)) := by
  refine ⟨_, hp ++ [xs.map fun a => Head.floorArray (times n (u a))], _, tau_w_array u sol nu rho hp r xs hr, by simp, ?_⟩
  rw [tau_w_array _ sol _ _ hp r xs hr, scaled, List.map_map]
  congr 3
  exact List.map_congr_left fun a ha => tau_eq m n nu rho _ _ _ (h a ha).1 (h a ha).2

/-- **C154**: `v_e` on an array. With velocity, slope and viscosity `2 ^ n` times as large both calls succeed and every element is exactly `2 ^ n`
times as large. -/
theorem float_time_transpiration (u du : R.F → R.F) (sol : R.F → R.F × R.F) (nu : R.F) (n : ℤ) (hp : Heap R.F) (r : ℕ) (xs : List R.F)
    (hr : hp[r]? = some xs) (h : AwayFromZero n u xs) :
    ∃ hp1 hp2 l, vE (elementwise u) (elementwise du) sol nu hp (.arr r) = .ok (hp1, .v l) ∧ l.length = xs.length ∧
      vE (elementwise fun a => times n (u a)) (elementwise fun a => times n (du a)) sol (times n nu) hp (.arr r) = .ok (hp2, .v (scaled n l)) := by
  obtain ⟨e1, h1⟩ := v_e_array u du sol nu hp r xs hr
  obtain ⟨e2, h2⟩ := v_e_array (fun a => times n (u a)) (fun a => times n (du a)) sol (times n nu) hp r xs hr
  refine ⟨_, hp ++ e2, _, h1, by simp, ?_⟩
  rw [h2, scaled, List.map_map]
  congr 3
  exact List.map_congr_left fun a ha => v_eq n nu _ _ _ _ (h a ha).1 (h a ha).2

/-- A velocity away from zero. -/
theorem float_time_shear_case : ∃ (u : R.F → R.F) (xs : List R.F) (hp : Heap R.F), hp[0]? = some xs ∧ xs.length = 2 ∧ AwayFromZero 3 u xs := by
  refine ⟨fun _ => lit 1, [lit 0, lit 1], [[lit 0, lit 1]], rfl, rfl, fun a _ => ?_⟩
  have h1 : (lit (1/1000) : R.F).val ≤ 1 := by
    show R.rd _ ≤ 1
    rw [← R.rd_one]; exact R.mono (by norm_num)
  simp only [Rounding.val_one]
  exact ⟨by simpa using h1, h1.trans (by norm_num)⟩

end IBL.HeadArr
