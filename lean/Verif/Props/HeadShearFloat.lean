import Verif.Props.HeadArray
import Verif.Props.SkinFrictionFloat
import Verif.Props.LaminarQueriesFloat

/-! C160: wall shear stress of Head's method on arrays in rounded arithmetic. -/

set_option linter.unusedSectionVars false

namespace IBL.HeadArr

open Rounding
open Pchip (Near)

variable {R : Rounding} [PyPow R.F]

private theorem lit_pos {q : ℚ} (h : 0 < q) : 0 < (lit q : R.F).val := rd_pos (by exact_mod_cast h)

private theorem half_val : (lit (1/2) : R.F).val = 1/2 := by
  have h := R.dbl (1/2)
  rw [show (2:ℝ) * (1/2) = 1 by norm_num, R.rd_one] at h
  rw [val_lit]
  push_cast
  linarith

private theorem floor_pos {u : R.F} (h : 0 ≤ u.val) : 0 < (Head.floorArray u).val := by
  have p : 0 < (lit (1/1000) : R.F).val := lit_pos (by norm_num)
  unfold Head.floorArray
  by_cases c : |u.val| < (lit (1/1000) : R.F).val
  · rw [if_pos (by rw [F_lt]; exact c)]; exact p
  · rw [if_neg (by rw [F_lt]; exact c)]
    rw [abs_of_nonneg h] at c
    exact p.trans_le (not_lt.1 c)

private theorem floor_id {u : R.F} (h : (lit (1/1000) : R.F).val ≤ u.val) : Head.floorArray u = u := by
  rw [Head.floorArray, if_neg]
  rw [F_lt]
  exact not_lt.2 (h.trans (le_abs_self _))

private theorem lt_anti (E : Elementary R) {re re' h h' : R.F} (h0 : 0 < re.val) (hr : re.val ≤ re'.val) (hh : h.val ≤ h'.val) :
    (ludwiegTillman re' h').val ≤ (ludwiegTillman re h).val := rounded_ludwieg_tillman_anti E re re' h h' h0 hr hh

/-- **C160**: `tau_w` on an array succeeds and gives a positive number at every location with positive momentum thickness and velocity that is not negative, whatever the
shape factor: the shear stress never shows separation. Where the velocity is at least 0.001 it is half the density times the square of the velocity times Ludwieg-Tillman's
skin friction, up to four rounding errors. -/
theorem rounded_shear_positive (E : Elementary R) (u : R.F → R.F) (sol : R.F → R.F × R.F) (nu rho : R.F) (hp : Heap R.F) (r : ℕ) (xs : List R.F)
    (hr : hp[r]? = some xs) (hnu : 0 < nu.val) (hrho : 0 < rho.val) (hu : ∀ a ∈ xs, 0 ≤ (u a).val) (hd : ∀ a ∈ xs, 0 < (sol a).1.val) :
    ∃ hp' l, tauW (elementwise u) sol nu hp (.arr r) rho = .ok (hp', .v l) ∧ List.Forall₂ (fun a t => 0 < t.val ∧
      ((lit (1/1000) : R.F).val ≤ (u a).val → Accurate R 4 t.val (1/2 * rho.val * (u a).val ^ 2 *
        (ludwiegTillman (u a * (sol a).1 / nu) (sol a).2).val))) xs l := by
  refine ⟨_, _, tau_w_array u sol nu rho hp r xs hr, ?_⟩
  rw [List.forall₂_map_right_iff]
  refine List.forall₂_same.2 fun a ha => ⟨?_, fun k => ?_⟩
  · have f := floor_pos (hu a ha)
    have re : 0 < (Head.floorArray (u a) * (sol a).1 / nu : R.F).val := rd_pos (div_pos (rd_pos (mul_pos f (hd a ha))) hnu)
    exact rd_pos (mul_pos (rd_pos (mul_pos (rd_pos (mul_pos (lit_pos (by norm_num)) hrho)) (rd_pos (mul_pos f f)))) (rounded_ludwieg_tillman_pos E _ _ re))
  · simp only [tauPoint, floor_id k]
    rw [← half_val (R := R)]
    set c := ludwiegTillman (u a * (sol a).1 / nu) (sol a).2
    have n1 : Near R 1 (lit (1/2) * rho : R.F).val ((lit (1/2) : R.F).val * rho.val) := (Near.refl _).rd
    have n2 : Near R 1 (u a * u a : R.F).val ((u a).val ^ 2) := by rw [sq]; exact (Near.refl _).rd
    have n3 : Near R 3 (lit (1/2) * rho * (u a * u a) : R.F).val ((lit (1/2) : R.F).val * rho.val * (u a).val ^ 2) := (n1.mul n2).rd
    have n4 : Near R 4 (lit (1/2) * rho * (u a * u a) * c : R.F).val ((lit (1/2) : R.F).val * rho.val * (u a).val ^ 2 * c.val) := (n3.mul (Near.refl c.val)).rd
    obtain ⟨l, -, hl, e⟩ := n4.coef (by norm_num)
    unfold Accurate
    rw [e]
    rw [show ∀ x : ℝ, l * x - x = (l - 1) * x from fun x => by ring, abs_mul]
    exact mul_le_mul_of_nonneg_right hl (abs_nonneg _)

/-- **C160**: a thicker layer with a larger shape factor in a fluid that is not denser has nowhere a larger shear stress. -/
theorem rounded_shear_order (E : Elementary R) (u : R.F → R.F) (sol sol' : R.F → R.F × R.F) (nu rho rho' : R.F) (hp : Heap R.F) (r : ℕ) (xs : List R.F)
    (hr : hp[r]? = some xs) (hnu : 0 < nu.val) (hrho : 0 < rho'.val) (hrr : rho'.val ≤ rho.val) (hu : ∀ a ∈ xs, 0 ≤ (u a).val) (hd : ∀ a ∈ xs, 0 < (sol a).1.val)
    (hs : ∀ a ∈ xs, (sol a).1.val ≤ (sol' a).1.val ∧ (sol a).2.val ≤ (sol' a).2.val) :
    ∃ hp1 hp2 l l', tauW (elementwise u) sol nu hp (.arr r) rho = .ok (hp1, .v l) ∧ tauW (elementwise u) sol' nu hp (.arr r) rho' = .ok (hp2, .v l') ∧
      l.length = xs.length ∧ List.Forall₂ (fun t t' => t'.val ≤ t.val) l l' := by
  refine ⟨_, _, _, _, tau_w_array u sol nu rho hp r xs hr, tau_w_array u sol' nu rho' hp r xs hr, by simp, ?_⟩
  rw [List.forall₂_map_right_iff, List.forall₂_map_left_iff]
  refine List.forall₂_same.2 fun a ha => ?_
  have f := floor_pos (hu a ha)
  have re : 0 < (Head.floorArray (u a) * (sol a).1 / nu : R.F).val := rd_pos (div_pos (rd_pos (mul_pos f (hd a ha))) hnu)
  have rr : (Head.floorArray (u a) * (sol a).1 / nu : R.F).val ≤ (Head.floorArray (u a) * (sol' a).1 / nu : R.F).val :=
    R.mono (div_le_div_of_nonneg_right (R.mono (mul_le_mul_of_nonneg_left (hs a ha).1 f.le)) hnu.le)
  have half : 0 < (lit (1/2) : R.F).val := lit_pos (by norm_num)
  have c' := rounded_ludwieg_tillman_pos E _ (sol' a).2 (re.trans_le rr)
  have sq0 : 0 < (Head.floorArray (u a) * Head.floorArray (u a) : R.F).val := rd_pos (mul_pos f f)
  have p : 0 < (lit (1/2) * rho : R.F).val := rd_pos (mul_pos half (hrho.trans_le hrr))
  refine R.mono (mul_le_mul (R.mono (mul_le_mul_of_nonneg_right (R.mono (mul_le_mul_of_nonneg_left hrr half.le)) sq0.le)) (lt_anti E re rr (hs a ha).2) c'.le ?_)
  exact (rd_pos (mul_pos p sq0)).le

/-- The hypotheses can be met: double precision, correctly rounded library functions, velocity 1 and two layers on an array of two locations. -/
theorem rounded_shear_case : ∃ (R : Rounding) (_ : PyPow R.F) (u : R.F → R.F) (sol sol' : R.F → R.F × R.F) (xs : List R.F) (hp : Heap R.F), Elementary R ∧ hp[0]? = some xs ∧
    xs.length = 2 ∧ ∀ a ∈ xs, (lit (1/1000) : R.F).val ≤ (u a).val ∧ 0 < (sol a).1.val ∧ (sol a).1.val < (sol' a).1.val ∧ (sol a).2.val < (sol' a).2.val := by
  have R : Rounding := Rounding.double
  let inst : PyPow R.F := ⟨fun x p => R.round (x.val ^ p.val), fun x => R.round (Real.exp x.val), fun x => R.round (Real.logb 10 x.val)⟩
  refine ⟨R, inst, fun _ => lit 1, fun _ => (lit 1, lit 1), fun _ => (lit 2, lit 2), [lit 0, lit 1], [[lit 0, lit 1]], elementary_correct, rfl, rfl, fun a _ => ?_⟩
  have two : (lit 2 : R.F).val = 2 := by simpa using val_int (R := R) 2 (by norm_num)
  refine ⟨R.mono (by push_cast; norm_num), ?_, ?_, ?_⟩ <;> simp only [two, val_one] <;> norm_num

end IBL.HeadArr
