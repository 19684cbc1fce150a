import Verif.Model.Method
import Verif.Lemmas.PchipRound

/-! C159: the reported thicknesses and wall shear stress of a laminar layer in rounded arithmetic. -/

set_option linter.unusedSectionVars false

namespace IBL

open Rounding
open Pchip (Near)

variable {R : Rounding} [PyPow R.F]

/-! ### Specification -/

/-- `y` is `x` up to about `n` rounding errors. -/
def Accurate (R : Rounding) (n : ℕ) (y x : ℝ) : Prop := |y - x| ≤ 1.03 * n * R.eps * |x|

/-! ### Proofs -/

private theorem accurate {n : ℕ} (hn : n ≤ 20) {y x : ℝ} (h : Near R n y x) : Accurate R n y x := by
  obtain ⟨l, -, hl, rfl⟩ := h.coef hn
  unfold Accurate
  rw [show l * x - x = (l - 1) * x by ring, abs_mul]
  exact mul_le_mul_of_nonneg_right hl (abs_nonneg _)

private theorem near_sqrt {y x : ℝ} (h : Near R 1 y x) : Near R 1 (Real.sqrt y) (Real.sqrt x) := by
  obtain ⟨l, h1, h2, rfl⟩ := h
  have e0 := R.eps_nonneg
  have e1 := R.small
  rw [pow_one] at h1 h2
  have l0 : 0 < l := by linarith
  have s0 := Real.sqrt_nonneg l
  have ss := Real.mul_self_sqrt l0.le
  refine ⟨Real.sqrt l, ?_, ?_, Real.sqrt_mul l0.le x⟩
  · rw [pow_one]
    apply Real.le_sqrt_of_sq_le
    nlinarith
  · rw [pow_one]
    by_contra k
    push Not at k
    have : 1 < (Real.sqrt l * (1 - R.eps)) * (Real.sqrt l * (1 - R.eps)) := by nlinarith
    have h3 : (Real.sqrt l * (1 - R.eps)) * (Real.sqrt l * (1 - R.eps)) = l * (1 - R.eps) * (1 - R.eps) := by rw [← ss]; ring_nf; rw [Real.sq_sqrt (by positivity)]
    nlinarith

/-- **C159**, momentum thickness: where the solution is positive `delta_m` is positive and the root of solution times viscosity to two rounding errors. -/
theorem rounded_laminar_thickness (o : Obj R.F) (x F : R.F) (hc : o.cls ≠ .head) (hF : o.comp 0 x = .ok F) (h0 : 0 < F.val) (hnu : 0 < o.nu.val) :
    ∃ d, o.deltaM x = .ok d ∧ 0 < d.val ∧ Accurate R 2 d.val (Real.sqrt (F.val * o.nu.val)) := by
  refine ⟨PySqrt.sqrt (F * o.nu), ?_, rd_pos (Real.sqrt_pos.2 (rd_pos (mul_pos h0 hnu))), accurate (by norm_num) (near_sqrt (Near.refl _).rd).rd⟩
  unfold Obj.deltaM
  cases h : o.cls
  case head => exact absurd h hc
  all_goals simp only [hF, bind, Except.bind, pure, Except.pure]

/-- **C159**, displacement thickness, laminar and turbulent: `delta_d` is `delta_m` times `shape_d` to one rounding error, not smaller than `delta_m` where the shape factor is
at least 1, and positive exactly where the shape factor is. -/
theorem rounded_displacement (o : Obj R.F) (x d h : R.F) (hd : o.deltaM x = .ok d) (hh : o.shapeD x = .ok h) (h0 : 0 < d.val) :
    ∃ D, o.deltaD x = .ok D ∧ Accurate R 1 D.val (d.val * h.val) ∧ (1 ≤ h.val → d.val ≤ D.val) ∧ (0 < D.val ↔ 0 < h.val) := by
  refine ⟨d * h, ?_, accurate (by norm_num) (Near.refl _).rd, fun k => ?_, ?_⟩
  · simp only [Obj.deltaD, hd, hh, bind, Except.bind, pure, Except.pure]
  · calc d.val = R.rd d.val := d.rep.symm
      _ ≤ _ := R.mono (by nlinarith)
  · rw [val_mul, rd_pos_iff, mul_pos_iff_of_pos_left h0]

/-- **C159**, wall shear stress: with `s` the shear function of the model at the point's parameter `F du_e`, `tau_w` is `rho nu u_e s / delta_m` in the reported quantities to four rounding
errors; it has the sign of `s` and is zero only if `s` is; it does not decrease with the density where it is positive. -/
theorem rounded_laminar_shear (o : Obj R.F) (x F u du d rho rho' : R.F) (m : Fits R.F) (hF : o.comp 0 x = .ok F) (hu : o.vel.uE x = .ok u) (hdu : o.vel.duE x = .ok du)
    (hm : o.fits = some m) (hd : o.deltaM x = .ok d) (h0 : 0 < d.val) (hnu : 0 < o.nu.val) (hu0 : 0 < u.val) (hr : 0 < rho.val) (hrr : rho.val ≤ rho'.val) :
    ∃ s t t' : R.F, s = m.shearAt (F * du) ∧ o.tauWThwaites x rho = .ok t ∧ o.tauWThwaites x rho' = .ok t' ∧
      Accurate R 4 t.val (rho.val * o.nu.val * u.val * s.val / d.val) ∧ (0 < t.val ↔ 0 < s.val) ∧ (t.val < 0 ↔ s.val < 0) ∧ (t.val = 0 ↔ s.val = 0) ∧
      (0 ≤ s.val → t.val ≤ t'.val) := by
  have val : ∀ r : R.F, o.tauWThwaites x r = .ok (r * o.nu * u * m.shearAt (F * du) / d) := by
    intro r
    simp only [Obj.tauWThwaites, Obj.calcLambda, hF, hu, hdu, hm, hd, bind, Except.bind, pure, Except.pure]
  set s := m.shearAt (F * du) with hs
  have near : Near R 4 (rho * o.nu * u * s / d : R.F).val (rho.val * o.nu.val * u.val * s.val / d.val) := by
    have n1 : Near R 1 (rho * o.nu : R.F).val (rho.val * o.nu.val) := (Near.refl _).rd
    have n2 : Near R 2 (rho * o.nu * u : R.F).val (rho.val * o.nu.val * u.val) := (n1.mul (Near.refl u.val)).rd
    have n3 : Near R 3 (rho * o.nu * u * s : R.F).val (rho.val * o.nu.val * u.val * s.val) := (n2.mul (Near.refl s.val)).rd
    exact (n3.div (Near.refl d.val)).rd
  have p : 0 < rho.val * o.nu.val * u.val / d.val := by positivity
  have e : rho.val * o.nu.val * u.val * s.val / d.val = rho.val * o.nu.val * u.val / d.val * s.val := by ring
  obtain ⟨s1, s2, s3⟩ := near.sign
  refine ⟨s, _, _, rfl, val rho, val rho', accurate (by norm_num) near, ?_, ?_, ?_, fun k => ?_⟩
  · rw [s1, e, mul_pos_iff_of_pos_left p]
  · rw [s2, e, ← neg_pos, ← mul_neg, mul_pos_iff_of_pos_left p, neg_pos]
  · rw [s3, e, mul_eq_zero, or_iff_right p.ne']
  · exact R.mono (div_le_div_of_nonneg_right (R.mono (mul_le_mul_of_nonneg_right (R.mono (mul_le_mul_of_nonneg_right
      (R.mono (mul_le_mul_of_nonneg_right hrr hnu.le)) hu0.le)) k)) h0.le)

/-- The hypotheses can be met: a layer in constant velocity with solution 1. -/
theorem rounded_laminar_case : ∃ (o : Obj R.F) (x F u du d h : R.F) (m : Fits R.F), o.cls ≠ .head ∧ o.comp 0 x = .ok F ∧ 0 < F.val ∧ 0 < o.nu.val ∧
    o.vel.uE x = .ok u ∧ 0 < u.val ∧ o.vel.duE x = .ok du ∧ o.fits = some m ∧ o.deltaM x = .ok d ∧ 0 < d.val ∧ o.shapeD x = .ok h := by
  let vel : VelState R.F := ⟨some (.fn fun _ => .ok (lit 1)), some (.fn fun _ => .ok (lit 0)), some (.fn fun _ => .ok (lit 0))⟩
  let o : Obj R.F := ⟨.thwaitesLinear, lit 1, vel, .manual (lit 0) (lit 1) (lit 0) (lit 1) (lit 0), [], some fun _ => [lit 1], some Fits.drela⟩
  have one : 0 < (lit 1 : R.F).val := by rw [val_one]; norm_num
  obtain ⟨d, hd, d0, -⟩ := rounded_laminar_thickness o (lit 1) (lit 1) (by simp [o]) rfl one one
  exact ⟨o, lit 1, lit 1, lit 1, lit 0, d, _, Fits.drela, by simp [o], rfl, one, one, rfl, one, rfl, rfl, hd, d0, rfl⟩

end IBL
