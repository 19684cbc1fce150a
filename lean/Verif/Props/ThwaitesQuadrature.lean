import Mathlib.MeasureTheory.Integral.IntervalIntegral.FundThmCalculus
import Verif.Props.ThwaitesOde

/-! C54: the linear Thwaites method computes Thwaites' quadrature. -/

namespace IBL

/-- **C54**: along any solution of the linear method that starts with a positive value, on any interval on which `u_e > -0.001`, the reported
momentum thickness is given by Thwaites' quadrature with the edge velocity shifted by 0.001. -/
theorem thwaites_quadrature (o : Obj ℝ) (m : Fits ℝ) (u du F : ℝ → ℝ) (a b : ℝ) (hab : a ≤ b) (S : ThwaitesSolution o m u du F)
    (hn : o.cls = .thwaitesLinear) (hnu : 0 < o.nu)
    (hu : ∀ x ∈ Set.Icc a b, HasDerivAt u (du x) x) (hu0 : ∀ x ∈ Set.Icc a b, -(1/1000) < u x)
    (ode : ∀ x ∈ Set.Icc a b, SatisfiesOde o F x) (h0 : 0 < F a) :
    ∃ da db, o.deltaM a = .ok da ∧ o.deltaM b = .ok db ∧
      db ^ 2 * (u b + 1/1000) ^ 6 = da ^ 2 * (u a + 1/1000) ^ 6 + 45/100 * o.nu * ∫ x in a..b, (u x + 1/1000) ^ 5 := by
  have pos := thwaites_stays_positive o m u du F a b S hn hnu hu hu0 ode h0
  obtain ⟨-, da, ha, -, ha2⟩ := pos a (Set.left_mem_Icc.2 hab)
  obtain ⟨-, db, hb, -, hb2⟩ := pos b (Set.right_mem_Icc.2 hab)
  refine ⟨da, db, ha, hb, ?_⟩
  have hG : ∀ t ∈ Set.uIcc a b, HasDerivAt (fun t => F t * (u t + 1/1000) ^ 6) (45/100 * (u t + 1/1000) ^ 5) t := fun t ht => by
    rw [Set.uIcc_of_le hab] at ht
    exact thwaites_linear_quadrature o m u du F t S hn (hu t ht) (by have := hu0 t ht; linarith) (ode t ht)
  have hc : ContinuousOn (fun t => 45/100 * (u t + 1/1000) ^ 5) (Set.uIcc a b) := by
    rw [Set.uIcc_of_le hab]
    have : ContinuousOn u (Set.Icc a b) := fun t ht => (hu t ht).continuousAt.continuousWithinAt
    exact continuousOn_const.mul ((this.add continuousOn_const).pow 5)
  have h := intervalIntegral.integral_eq_sub_of_hasDerivAt hG hc.intervalIntegrable
  rw [intervalIntegral.integral_const_mul] at h
  rw [ha2, hb2]
  linear_combination -o.nu * h

/-! The hypotheses are those of `thwaites_stays_positive`, beside which a case is shown (`u = x`, `F = 0.075`). -/
example : ∃ (o : Obj ℝ) (u du F : ℝ → ℝ), ThwaitesSolution o Fits.drela u du F ∧ o.cls = .thwaitesLinear ∧ 0 < o.nu ∧
    (∀ x ∈ Set.Icc (0:ℝ) 1, HasDerivAt u (du x) x ∧ -(1/1000) < u x ∧ SatisfiesOde o F x) ∧ 0 < F 0 := by
  let o : Obj ℝ := ⟨.thwaitesLinear, 1, ⟨some (.fn fun x => .ok x), some (.fn fun _ => .ok 1), none⟩, .manual 0 1 1 1 1, [],
    some fun _ => [75/1000], some Fits.drela⟩
  refine ⟨o, fun x => x, fun _ => 1, fun _ => 75/1000, ⟨rfl, rfl, rfl, fun t => ?_, fun t => ?_⟩, rfl, one_pos, ?_, by norm_num⟩
  · simp [o, VelState.uE, VelState.rawU, callOpt, Vel.call]
  · simp [o, VelState.duE, VelState.rawDu, callOpt, Vel.call]
  · intro x hx
    refine ⟨hasDerivAt_id x, by have := hx.1; linarith, 0, ?_, hasDerivAt_const _ _⟩
    simp [o, Obj.rhs, Obj.thwaitesRhs, Obj.calcF, Obj.calcLambda, VelState.uE, VelState.duE, VelState.rawU, VelState.rawDu, callOpt,
      Vel.call, bind, Except.bind, pure, Except.pure]
    left; norm_num

/-! ### C75 -/

/-- The equation of the linear method in terms of the edge velocity. -/
private theorem linear_ode_iff (o : Obj ℝ) (u du F : ℝ → ℝ) (x : ℝ) (hc : o.cls = .thwaitesLinear) (hu : o.vel.uE x = .ok (u x))
    (hdu : o.vel.duE x = .ok (du x)) : SatisfiesOde o F x ↔ HasDerivAt F ((45/100 - 6 * (F x * du x)) / (1/1000 + u x)) x := by
  have : o.rhs x [F x] = .ok [(45/100 - 6 * (F x * du x)) / (1/1000 + u x)] := by
    simp [Obj.rhs, hc, Obj.thwaitesRhs, Obj.calcF, Obj.calcLambda, hu, hdu, bind, Except.bind, pure, Except.pure]
  rw [SatisfiesOde, this]
  constructor
  · rintro ⟨r, hr, h⟩
    simp only [Except.ok.injEq, List.cons.injEq, and_true] at hr
    rw [hr]; exact h
  · exact fun h => ⟨_, rfl, h⟩

private theorem w6 {u : ℝ → ℝ} {d x : ℝ} (h : HasDerivAt u d x) :
    HasDerivAt (fun t => (u t + 1/1000) ^ 6) (6 * (u x + 1/1000) ^ 5 * d) x :=
  ((h.add_const (1/1000)).fun_pow 6).congr_deriv (by push_cast; ring)

/-- **C75**: the problem the linear method hands to the integrator has a solution on the whole interval for every start value, in every
flow with `u_e > -0.001` there. -/
theorem thwaites_linear_exists (o : Obj ℝ) (u du : ℝ → ℝ) (a b F0 : ℝ) (hc : o.cls = .thwaitesLinear) (huE : ∀ t, o.vel.uE t = .ok (u t))
    (hduE : ∀ t, o.vel.duE t = .ok (du t)) (hu : ∀ x, HasDerivAt u (du x) x) (hu0 : ∀ x ∈ Set.Icc a b, -(1/1000) < u x) (hab : a ≤ b) :
    ∃ F : ℝ → ℝ, F a = F0 ∧ (∀ x ∈ Set.Icc a b, SatisfiesOde o F x) ∧
      ∀ x ∈ Set.Icc a b, F x * (u x + 1/1000) ^ 6 = F0 * (u a + 1/1000) ^ 6 + 45/100 * ∫ t in a..x, (u t + 1/1000) ^ 5 := by
  have hcu : Continuous u := continuous_iff_continuousAt.2 fun x => (hu x).continuousAt
  have hci : Continuous fun t => (u t + 1/1000) ^ 5 := (hcu.add continuous_const).pow 5
  let F : ℝ → ℝ := fun x => (F0 * (u a + 1/1000) ^ 6 + 45/100 * ∫ t in a..x, (u t + 1/1000) ^ 5) / (u x + 1/1000) ^ 6
  have hw : ∀ x ∈ Set.Icc a b, 0 < u x + 1/1000 := fun x hx => by have := hu0 x hx; linarith
  refine ⟨F, ?_, fun x hx => ?_, fun x hx => ?_⟩
  · have := (hw a ⟨le_refl _, hab⟩).ne'
    simp only [F, intervalIntegral.integral_same, mul_zero, add_zero]
    rw [mul_div_assoc, div_self (pow_ne_zero 6 this), mul_one]
  · rw [linear_ode_iff o u du F x hc (huE x) (hduE x)]
    have hI : HasDerivAt (fun x => ∫ t in a..x, (u t + 1/1000) ^ 5) ((u x + 1/1000) ^ 5) x := (hci.integral_hasStrictDerivAt a x).hasDerivAt
    have hwx := (hw x hx).ne'
    have hD : HasDerivAt (fun x => (u x + 1/1000) ^ 6) (6 * (u x + 1/1000) ^ 5 * du x) x := w6 (hu x)
    have := ((hI.const_mul (45/100)).const_add (F0 * (u a + 1/1000) ^ 6)).div hD (pow_ne_zero 6 hwx)
    refine this.congr_deriv ?_
    have e : 1/1000 + u x = u x + 1/1000 := add_comm _ _
    simp only [F]
    rw [e]
    generalize (∫ t in a..x, (u t + 1/1000) ^ 5) = I
    generalize u x + 1/1000 = w at hwx
    field_simp
  · have := (hw x hx).ne'
    simp only [F]
    rw [div_mul_cancel₀ _ (pow_ne_zero 6 this)]

/-- **C75**: two solutions for the same flow differ by the first difference times `((u_e(a) + 0.001) / (u_e(x) + 0.001))^6`. -/
theorem thwaites_linear_difference (o : Obj ℝ) (u du F G : ℝ → ℝ) (a b : ℝ) (hc : o.cls = .thwaitesLinear) (huE : ∀ t, o.vel.uE t = .ok (u t))
    (hduE : ∀ t, o.vel.duE t = .ok (du t)) (hu : ∀ x ∈ Set.Icc a b, HasDerivAt u (du x) x) (hu0 : ∀ x ∈ Set.Icc a b, -(1/1000) < u x)
    (hF : ∀ x ∈ Set.Icc a b, SatisfiesOde o F x) (hG : ∀ x ∈ Set.Icc a b, SatisfiesOde o G x) :
    ∀ x ∈ Set.Icc a b, F x - G x = (F a - G a) * ((u a + 1/1000) / (u x + 1/1000)) ^ 6 := by
  intro x hx
  have hd : ∀ t ∈ Set.Icc a b, HasDerivAt (fun t => (F t - G t) * (u t + 1/1000) ^ 6) 0 t := fun t ht => by
    have h1 := (linear_ode_iff o u du F t hc (huE t) (hduE t)).1 (hF t ht)
    have h2 := (linear_ode_iff o u du G t hc (huE t) (hduE t)).1 (hG t ht)
    have hw : u t + 1/1000 ≠ 0 := by have := hu0 t ht; linarith
    have hD : HasDerivAt (fun x => (u x + 1/1000) ^ 6) (6 * (u t + 1/1000) ^ 5 * du t) t := w6 (hu t ht)
    refine ((h1.sub h2).mul hD).congr_deriv ?_
    have e : 1/1000 + u t = u t + 1/1000 := add_comm _ _
    simp only [Pi.sub_apply]
    rw [e]
    generalize u t + 1/1000 = w at hw
    field_simp
    ring
  have hconst := constant_of_has_deriv_right_zero (fun t ht => (hd t ht).continuousAt.continuousWithinAt)
    (fun t ht => (hd t ⟨ht.1, ht.2.le⟩).hasDerivWithinAt) x hx
  have hwx : u x + 1/1000 ≠ 0 := by have := hu0 x hx; linarith
  rw [div_pow, mul_div_assoc', eq_div_iff (pow_ne_zero 6 hwx)]
  exact hconst

/-- **C75**: so the solution is the only one. -/
theorem thwaites_linear_unique (o : Obj ℝ) (u du F G : ℝ → ℝ) (a b : ℝ) (hc : o.cls = .thwaitesLinear) (huE : ∀ t, o.vel.uE t = .ok (u t))
    (hduE : ∀ t, o.vel.duE t = .ok (du t)) (hu : ∀ x ∈ Set.Icc a b, HasDerivAt u (du x) x) (hu0 : ∀ x ∈ Set.Icc a b, -(1/1000) < u x)
    (hF : ∀ x ∈ Set.Icc a b, SatisfiesOde o F x) (hG : ∀ x ∈ Set.Icc a b, SatisfiesOde o G x) (h0 : F a = G a) :
    ∀ x ∈ Set.Icc a b, F x = G x := fun x hx => by
  have := thwaites_linear_difference o u du F G a b hc huE hduE hu hu0 hF hG x hx
  rw [h0, sub_self, zero_mul] at this
  linarith

/-- Non-vacuity: the accelerating flow `u_e = x` from 0 to 1. -/
example : ∃ (o : Obj ℝ) (u du : ℝ → ℝ), o.cls = .thwaitesLinear ∧ (∀ t, o.vel.uE t = .ok (u t)) ∧ (∀ t, o.vel.duE t = .ok (du t)) ∧
    (∀ x, HasDerivAt u (du x) x) ∧ ∀ x ∈ Set.Icc (0:ℝ) 1, -(1/1000) < u x := by
  let o : Obj ℝ := ⟨.thwaitesLinear, 1, ⟨some (.fn fun x => .ok x), some (.fn fun _ => .ok 1), none⟩, .manual 0 1 1 1 1, [],
    none, some Fits.drela⟩
  refine ⟨o, fun x => x, fun _ => 1, rfl, fun t => ?_, fun t => ?_, fun x => hasDerivAt_id x, fun x hx => ?_⟩
  · simp [o, VelState.uE, VelState.rawU, callOpt, Vel.call]
  · simp [o, VelState.duE, VelState.rawDu, callOpt, Vel.call]
  · have := hx.1; linarith

end IBL
