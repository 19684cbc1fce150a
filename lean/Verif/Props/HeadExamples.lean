import Mathlib.Analysis.ODE.ExistUnique
import Mathlib.Analysis.SpecialFunctions.Pow.Deriv
import Verif.Props.HeadLimits

/-!
Existence of solutions of Head's equation in a uniform stream, so that the hypotheses of the theorems about them can be met.
-/

namespace IBL

private noncomputable def field (nu : ℝ) (p : ℝ × ℝ) : ℝ × ℝ :=
  let cf := 246/1000 / ((p.1 / nu) ^ (268/1000 : ℝ) * (10:ℝ) ^ (678/1000 * p.2))
  let e := 332254659218600974/10^17 + 15501/10000 / (p.2 - 6778/10000) ^ (3064/1000 : ℝ)
  let E := 306/10000 / (e - 3) ^ (6169/10000 : ℝ)
  let P := -(15501/10000) * (3064/1000) / (p.2 - 6778/10000) ^ (3064/1000 + 1 : ℝ)
  (cf / 2, (E - cf / 2 * e) / (P * p.1))

private theorem field_eq (nu : ℝ) (p : ℝ × ℝ) (hp : 16/10 < p.2) :
    Head.rates nu 1 0 p.1 (Head.odeClamp p.2) = field nu p := by
  have hc : Head.odeClamp p.2 = p.2 := by
    simp only [Head.odeClamp, real_lt, real_lit]
    exact if_neg (by push_cast; linarith)
  have hcl : Head.clampShape p.2 = p.2 := by
    simp only [Head.clampShape, real_le, real_lit]
    exact if_neg (by push_cast; linarith)
  have he : Head.h1 p.2 = 332254659218600974/10^17 + 15501/10000 / (p.2 - 6778/10000) ^ (3064/1000 : ℝ) := by
    rw [Head.h1_high hp, Head.h1High_real]
  have he3 : 3 < Head.h1 p.2 := by
    rw [Head.h1_high hp]
    exact lt_trans (by norm_num) (Head.high_gt_d p.2 (by linarith))
  have hE : Head.entrainment (Head.h1 p.2) = 306/10000 / (Head.h1 p.2 - 3) ^ (6169/10000 : ℝ) := by
    simp only [Head.entrainment, real_le, real_lit, real_pow]
    rw [if_neg (by push_cast; linarith)]
    norm_num
  have hP : Head.h1p p.2 = -(15501/10000) * (3064/1000) / (p.2 - 6778/10000) ^ (3064/1000 + 1 : ℝ) := by
    simp only [Head.h1p, hcl, real_le, real_gt, real_lit, real_pow]
    rw [if_neg (by push_cast; linarith), if_pos (by push_cast; linarith)]
    norm_num
  rw [he] at hE
  simp only [Head.rates, hc, hE, hP, he, ludwiegTillman, real_lit, real_pow, field]
  norm_num
  constructor
  · ring
  · congr 1
    ring

private theorem field_smooth (nu d0 h0 : ℝ) (hnu : 0 < nu) (hd : 0 < d0) (hh : 16/10 < h0) : ContDiffAt ℝ 1 (field nu) (d0, h0) := by
  have h1 : (d0 : ℝ) / nu ≠ 0 := by positivity
  have h2 : h0 - 6778/10000 ≠ 0 := by linarith
  have h2p : 0 < h0 - 6778/10000 := by linarith
  have h3 : (h0 - 6778/10000) ^ (3064/1000 : ℝ) ≠ 0 := (Real.rpow_pos_of_pos h2p _).ne'
  have h4 : (h0 - 6778/10000) ^ (3064/1000 + 1 : ℝ) ≠ 0 := (Real.rpow_pos_of_pos h2p _).ne'
  have h5 : 0 < 332254659218600974/10^17 + 15501/10000 / (h0 - 6778/10000) ^ (3064/1000 : ℝ) - 3 := by
    have : 0 < (15501/10000 : ℝ) / (h0 - 6778/10000) ^ (3064/1000 : ℝ) := div_pos (by norm_num) (Real.rpow_pos_of_pos h2p _)
    norm_num
    linarith
  have h6 : (332254659218600974/10^17 + 15501/10000 / (h0 - 6778/10000) ^ (3064/1000 : ℝ) - 3) ^ (6169/10000 : ℝ) ≠ 0 :=
    (Real.rpow_pos_of_pos h5 _).ne'
  have h7 : (d0 / nu) ^ (268/1000 : ℝ) * (10:ℝ) ^ (678/1000 * h0) ≠ 0 :=
    mul_ne_zero (Real.rpow_pos_of_pos (by positivity) _).ne' (Real.rpow_pos_of_pos (by norm_num) _).ne'
  have c1 : ContDiffAt ℝ 1 (fun p : ℝ × ℝ => p.1) (d0, h0) := contDiffAt_fst
  have c2 : ContDiffAt ℝ 1 (fun p : ℝ × ℝ => p.2) (d0, h0) := contDiffAt_snd
  have ccf : ContDiffAt ℝ 1 (fun p : ℝ × ℝ => 246/1000 / ((p.1 / nu) ^ (268/1000 : ℝ) * (10:ℝ) ^ (678/1000 * p.2))) (d0, h0) := by
    refine contDiffAt_const.div (((c1.div_const nu).rpow_const_of_ne h1).mul ?_) h7
    exact contDiffAt_const.rpow (contDiffAt_const.mul c2) (by norm_num)
  have cb : ContDiffAt ℝ 1 (fun p : ℝ × ℝ => p.2 - 6778/10000) (d0, h0) := c2.sub contDiffAt_const
  have ce : ContDiffAt ℝ 1 (fun p : ℝ × ℝ => (332254659218600974/10^17 + 15501/10000 / (p.2 - 6778/10000) ^ (3064/1000 : ℝ) : ℝ))
      (d0, h0) := contDiffAt_const.add (contDiffAt_const.div (cb.rpow_const_of_ne h2) h3)
  have cE := (contDiffAt_const (c := (306/10000 : ℝ))).div ((ce.sub (contDiffAt_const (c := (3:ℝ)))).rpow_const_of_ne (p := 6169/10000) h5.ne') h6
  have cP := (contDiffAt_const (c := (-(15501/10000) * (3064/1000) : ℝ))).div (cb.rpow_const_of_ne (p := 3064/1000 + 1) h2) h4
  have hP0 : (-(15501/10000) * (3064/1000) / (h0 - 6778/10000) ^ (3064/1000 + 1 : ℝ)) * d0 ≠ 0 :=
    mul_ne_zero (div_ne_zero (by norm_num) h4) hd.ne'
  exact (ccf.div_const 2).prodMk ((cE.sub ((ccf.div_const 2).mul ce)).div (cP.mul c1) hP0)

/-- In a uniform stream `u_e = 1`, from every positive momentum thickness and every shape factor above 1.6, Head's equation has a solution on
some interval; on it the thickness and the shape factor stay within any given distance of the first values. -/
theorem head_solution_at_exists (nu d0 h0 tol : ℝ) (ic : IC ℝ) (ev : List (Event ℝ)) (hnu : 0 < nu) (hd : 0 < d0) (hh : 16/10 < h0) (ht : 0 < tol) :
    ∃ (dm h : ℝ → ℝ) (b : ℝ), 0 < b ∧ (∀ x ∈ Set.Icc 0 b, HeadSolutionAt ⟨.head, nu, ⟨some (.fn fun _ => .ok 1), some (.fn fun _ => .ok 0), none⟩, ic, ev,
      some fun t => [dm t, h t], none⟩ (fun _ => 1) (fun _ => 0) dm h x) ∧ dm 0 = d0 ∧ h 0 = h0 ∧
      ∀ x ∈ Set.Icc 0 b, |dm x - d0| < tol ∧ |h x - h0| < tol := by
  obtain ⟨f, hf0, ε, hε, hf⟩ := (field_smooth nu d0 h0 hnu hd hh).exists_forall_mem_closedBall_exists_eq_forall_mem_Ioo_hasDerivAt₀ 0
  have hcont : ContinuousAt f 0 := (hf 0 ⟨by linarith, by linarith⟩).continuousAt
  have c1 : ContinuousAt (fun t => (f t).1) 0 := continuous_fst.continuousAt.comp hcont
  have c2 : ContinuousAt (fun t => (f t).2) 0 := continuous_snd.continuousAt.comp hcont
  have htol : 0 < min tol (h0 - 16/10) := lt_min ht (by linarith)
  obtain ⟨r1, hr1, hb1⟩ := Metric.continuousAt_iff.1 c1 tol ht
  obtain ⟨r2, hr2, hb2⟩ := Metric.continuousAt_iff.1 c2 _ htol
  let b := min (ε / 2) (min (r1 / 2) (r2 / 2))
  have hb : 0 < b := lt_min (by linarith) (lt_min (by linarith) (by linarith))
  have b1 : b ≤ ε / 2 := min_le_left _ _
  have b2 : b ≤ r1 / 2 := (min_le_right _ _).trans (min_le_left _ _)
  have b3 : b ≤ r2 / 2 := (min_le_right _ _).trans (min_le_right _ _)
  have near : ∀ x ∈ Set.Icc 0 b, |(f x).1 - d0| < tol ∧ |(f x).2 - h0| < min tol (h0 - 16/10) := fun x hx => by
    have h1 : dist x 0 < r1 := by rw [Real.dist_eq, sub_zero, abs_of_nonneg hx.1]; linarith [hx.2]
    have h2 : dist x 0 < r2 := by rw [Real.dist_eq, sub_zero, abs_of_nonneg hx.1]; linarith [hx.2]
    have e1 := hb1 h1
    have e2 := hb2 h2
    rw [Real.dist_eq, hf0] at e1 e2
    exact ⟨e1, e2⟩
  refine ⟨fun t => (f t).1, fun t => (f t).2, b, hb, fun x hx => ⟨rfl, rfl, fun t => ?_, fun t => ?_, hasDerivAt_const _ _, ?_⟩,
    by simp [hf0], by simp [hf0], fun x hx => ⟨(near x hx).1, lt_of_lt_of_le (near x hx).2 (min_le_left _ _)⟩⟩
  · simp [VelState.uE, VelState.rawU, callOpt, Vel.call]
  · simp [VelState.duE, VelState.rawDu, callOpt, Vel.call]
  · have hx2 : 16/10 < (f x).2 := by
      have h1 := (abs_lt.1 (lt_of_lt_of_le (near x hx).2 (min_le_right _ _))).1
      linarith
    have hfl : Head.floorScalar (1:ℝ) = 1 := by
      simp only [Head.floorScalar, real_gt, real_lit]
      exact if_neg (by push_cast; norm_num)
    have hd := hf x ⟨by linarith [hx.1], by linarith [hx.2]⟩
    rw [← field_eq nu (f x) hx2] at hd
    refine ⟨_, _, ?_, hd.fst, hd.snd⟩
    simp [Obj.rhs, Obj.headRhs, VelState.uE, VelState.duE, VelState.rawU, VelState.rawDu, callOpt, Vel.call, bind, Except.bind, pure,
      Except.pure, hfl]

theorem head_solution_exists (nu d0 h0 tol : ℝ) (ic : IC ℝ) (ev : List (Event ℝ)) (hnu : 0 < nu) (hd : 0 < d0) (hh : 16/10 < h0) (ht : 0 < tol) :
    ∃ (dm h : ℝ → ℝ) (b : ℝ), 0 < b ∧ HeadSolutionOn ⟨.head, nu, ⟨some (.fn fun _ => .ok 1), some (.fn fun _ => .ok 0), none⟩, ic, ev,
      some fun t => [dm t, h t], none⟩ (fun _ => 1) (fun _ => 0) dm h 0 b ∧ dm 0 = d0 ∧ h 0 = h0 ∧
      ∀ x ∈ Set.Icc 0 b, |dm x - d0| < tol ∧ |h x - h0| < tol := by
  obtain ⟨dm, h, b, hb, H, r⟩ := head_solution_at_exists nu d0 h0 tol ic ev hnu hd hh ht
  exact ⟨dm, h, b, hb, .of_at hb.le H, r⟩

/-- The hypotheses of `head_stays_positive`, `displacement_ordered_partial`, `displacement_ordered_decelerated` and `head_shape_bounded` are
met by one solution on an interval of positive length. -/
example : ∃ (o : Obj ℝ) (u du dm h : ℝ → ℝ) (b : ℝ), 0 < b ∧ HeadSolutionOn o u du dm h 0 b ∧ 0 < o.nu ∧ 0 < dm 0 ∧ 111/100 ≤ h 0 ∧
    ∀ x ∈ Set.Icc 0 b, 1/1000 ≤ u x ∧ du x = 0 ∧ 1 ≤ u x * dm x / o.nu ∧ u x * dm x / o.nu ≤ 10 ^ 12 := by
  obtain ⟨dm, h, b, hb, S, hd, hh, hx⟩ := head_solution_exists (1/1000) 1 2 (1/2) (.manual 0 1 1 1 1) [] (by norm_num) one_pos (by norm_num) (by norm_num)
  refine ⟨_, _, _, dm, h, b, hb, S, by norm_num, by rw [hd]; norm_num, by rw [hh]; norm_num, fun x hx' => ?_⟩
  have h1 := abs_lt.1 (hx x hx').1
  refine ⟨by norm_num, rfl, ?_, ?_⟩
  · rw [le_div_iff₀ (by norm_num)]; linarith
  · rw [div_le_iff₀ (by norm_num)]; norm_num; linarith

end IBL
