import Mathlib.Analysis.Calculus.Deriv.Mul
import Mathlib.Analysis.Calculus.Deriv.Pow
import Verif.Props.HeadClosure
import Verif.Props.HeadArray
import Verif.Spec.Turbulent

/-!
C23 and C24: what the reported quantities of a Head object satisfy along a solution of its own differential equation, over the reals.
-/

namespace IBL

/-- A Head object holding a solution `dm`, `h` (momentum thickness and shape factor) for the edge velocity `u`, which satisfies the
object's own differential equation (the function handed to the integrator) at the point `x`. -/
structure HeadSolutionAt (o : Obj ℝ) (u du dm h : ℝ → ℝ) (x : ℝ) : Prop where
  isHead : o.cls = .head
  sol : o.sol = some fun t => [dm t, h t]
  uE : ∀ t, o.vel.uE t = .ok (u t)
  duE : ∀ t, o.vel.duE t = .ok (du t)
  slope : HasDerivAt u (du x) x
  ode : ∃ p q, o.rhs x [dm x, h x] = .ok [p, q] ∧ HasDerivAt dm p x ∧ HasDerivAt h q x

/-- Inside the region where none of the safeguards of the implementation is active. -/
structure HeadRegular (o : Obj ℝ) (u dm h : ℝ → ℝ) (x : ℝ) : Prop where
  nu : 0 < o.nu
  u : 1/1000 ≤ u x
  dm : 0 < dm x
  h : 111/100 ≤ h x

private theorem queries {o : Obj ℝ} {u du dm h : ℝ → ℝ} {x : ℝ} (S : HeadSolutionAt o u du dm h x) (t : ℝ) :
    o.deltaM t = .ok (dm t) ∧ o.shapeD t = .ok (h t) ∧ o.deltaD t = .ok (dm t * h t) := by
  have h1 : o.deltaM t = .ok (dm t) := by
    simp [Obj.deltaM, S.isHead, Obj.comp, Obj.state, S.sol, bind, Except.bind, pure, Except.pure]
  have h2 : o.shapeD t = .ok (h t) := by
    simp [Obj.shapeD, S.isHead, Obj.comp, Obj.state, S.sol, bind, Except.bind, pure, Except.pure]
  refine ⟨h1, h2, ?_⟩
  simp [Obj.deltaD, h1, h2, bind, Except.bind, pure, Except.pure]

private theorem rhs_eq {o : Obj ℝ} {u du dm h : ℝ → ℝ} {x : ℝ} (S : HeadSolutionAt o u du dm h x) :
    o.rhs x [dm x, h x] = .ok
      [(Head.rates o.nu (Head.floorScalar (u x)) (du x) (dm x) (Head.odeClamp (h x))).1,
       (Head.rates o.nu (Head.floorScalar (u x)) (du x) (dm x) (Head.odeClamp (h x))).2] := by
  simp [Obj.rhs, S.isHead, Obj.headRhs, S.uE, S.duE, bind, Except.bind, pure, Except.pure]

private theorem floors {u : ℝ} (hu : 1/1000 ≤ u) : Head.floorScalar u = u ∧ Head.floorArray u = u := by
  constructor
  · simp only [Head.floorScalar, real_gt, real_lit]
    exact if_neg (by push_cast; linarith)
  · simp only [Head.floorArray, real_lt, real_lit, real_abs]
    refine if_neg ?_
    push_cast
    rw [abs_of_pos (by linarith)]; linarith

private theorem noclamp {h : ℝ} (hh : 111/100 ≤ h) : Head.odeClamp h = h := by
  simp only [Head.odeClamp, real_lt, real_lit]
  exact if_neg (by push_cast; linarith)

private theorem friction_law {re h : ℝ} (hre : 0 < re) : ludwiegTillman re h = lawFriction re h := by
  simp only [ludwiegTillman, lawFriction, real_lit, real_pow]
  push_cast
  rw [neg_mul, Real.rpow_neg (by norm_num : (0:ℝ) ≤ 10), Real.rpow_neg hre.le]
  field_simp

private theorem h1_law {h : ℝ} (hh : 11/10 < h) : Head.h1 h = lawH1 h := by
  have hc : Head.clampShape h = h := by
    simp only [Head.clampShape, real_le, real_lit]
    exact if_neg (by push_cast; linarith)
  simp only [Head.h1, hc, lawH1, real_le, real_gt, real_lit, Head.h1Low, Head.h1High, real_pow, Head.dHigh]
  push_cast
  by_cases h6 : h ≤ 16/10
  · rw [if_pos h6, if_pos h6, Real.rpow_neg (by linarith)]; rfl
  · rw [if_neg h6, if_neg h6, if_pos (not_le.1 h6), Real.rpow_neg (by linarith)]; norm_num [div_eq_mul_inv]

private theorem law_h1_gt {h : ℝ} (hh : 11/10 < h) : 3 < lawH1 h := by
  unfold lawH1
  split_ifs with h6
  · have := Real.rpow_pos_of_pos (sub_pos.2 hh) (-(1287/1000))
    linarith
  · have := Real.rpow_pos_of_pos (by linarith : 0 < h - 6778/10000) (-(3064/1000))
    norm_num
    linarith

private theorem entrainment_law {e : ℝ} (he : 3 < e) : Head.entrainment e = lawEntrainment e := by
  simp only [Head.entrainment, lawEntrainment, real_le, real_lit, real_pow]
  push_cast
  rw [if_neg (by linarith), Real.rpow_neg (by linarith)]
  rfl

/-- **C23**, momentum: `rho d(u_e^2 delta_m)/dx + rho delta_d u_e du_e/dx = tau_w` in the reported `delta_m`, `delta_d` and `tau_w`
(which must be queried as an array, see C27). `tau_w` is that of Ludwieg and Tillmann's law. -/
theorem head_momentum_integral (o : Obj ℝ) (u du dm h : ℝ → ℝ) (x rho : ℝ) (S : HeadSolutionAt o u du dm h x)
    (R : HeadRegular o u dm h x) :
    ∃ dd tau hp', o.deltaD x = .ok dd ∧
      HeadArr.tauW (HeadArr.elementwise u) (fun t => (dm t, h t)) o.nu [[x]] (.arr 0) rho = .ok (hp', .v [tau]) ∧
      (∀ t, o.deltaM t = .ok (dm t)) ∧
      tau = rho / 2 * u x ^ 2 * lawFriction (u x * dm x / o.nu) (h x) ∧
      HasDerivAt (fun t => rho * (u t ^ 2 * dm t)) (tau - rho * dd * u x * du x) x := by
  refine ⟨_, _, _, (queries S x).2.2, HeadArr.tau_w_array u _ o.nu rho [[x]] 0 [x] rfl, fun t => (queries S t).1, ?_, ?_⟩
  · have hu : 0 < u x := by have := R.u; linarith
    simp only [HeadArr.tauPoint, (floors R.u).2, real_lit]
    rw [friction_law (div_pos (mul_pos hu R.dm) R.nu)]
    push_cast
    ring
  obtain ⟨p, q, hr, hp, hq⟩ := S.ode
  rw [rhs_eq S, (floors R.u).1, noclamp R.h] at hr
  simp only [Except.ok.injEq, List.cons.injEq, and_true] at hr
  refine (((S.slope.pow 2).mul hp).const_mul rho).congr_deriv ?_
  rw [← hr.1]
  have hu : u x ≠ 0 := by have := R.u; intro h0; rw [h0] at this; norm_num at this
  simp only [Pi.pow_apply, Head.rates, HeadArr.tauPoint, (floors R.u).2, real_lit]
  generalize ludwiegTillman (u x * dm x / o.nu) (h x) = cf
  push_cast
  field_simp
  ring

/-- **C23**, entrainment: `d(u_e delta_m H1)/dx = u_e E(H1)`. The branch point 1.6, where H1 jumps, is excluded. -/
theorem head_entrainment_equation (o : Obj ℝ) (u du dm h : ℝ → ℝ) (x : ℝ) (S : HeadSolutionAt o u du dm h x)
    (R : HeadRegular o u dm h x) (hbr : h x ≠ 16/10) :
    HasDerivAt (fun t => u t * dm t * lawH1 (h t)) (u x * lawEntrainment (lawH1 (h x))) x := by
  have hh : 11/10 < h x := by have := R.h; linarith
  suffices H : HasDerivAt (fun t => u t * dm t * Head.h1 (h t)) (u x * Head.entrainment (Head.h1 (h x))) x by
    rw [h1_law hh, entrainment_law (law_h1_gt hh)] at H
    obtain ⟨p, q, -, -, hq⟩ := S.ode
    refine H.congr_of_eventuallyEq ?_
    filter_upwards [hq.continuousAt.eventually (lt_mem_nhds hh)] with t ht
    rw [h1_law ht]
  obtain ⟨p, q, hr, hp, hq⟩ := S.ode
  rw [rhs_eq S, (floors R.u).1, noclamp R.h] at hr
  simp only [Except.ok.injEq, List.cons.injEq, and_true] at hr
  have hH : HasDerivAt (fun t => Head.h1 (h t)) (Head.h1p (h x) * q) x :=
    (Head.entrainment_derivative (h x) (by have := R.h; linarith) hbr).comp x hq
  refine ((S.slope.mul hp).mul hH).congr_deriv ?_
  have hu : u x ≠ 0 := by have := R.u; intro h0; rw [h0] at this; norm_num at this
  have hd : dm x ≠ 0 := R.dm.ne'
  have he : Head.h1p (h x) ≠ 0 := (Head.entrainment_derivative_neg (h x)).ne
  rw [← hr.2, ← hr.1]
  simp only [Head.rates]
  generalize Head.h1p (h x) = ep at he
  generalize Head.entrainment (Head.h1 (h x)) = E
  generalize Head.h1 (h x) = H
  generalize (lit (1/2) * ludwiegTillman (u x * dm x / o.nu) (h x) - dm x * (lit 2 + h x) * du x / u x : ℝ) = p0
  simp only [Pi.mul_apply]
  field_simp
  ring

/-- **C24**: the reported transpiration velocity is `d(u_e delta_d)/dx` of the reported `delta_d`. No restriction on the state: this holds
also where the implementation clips velocity or shape factor in its equation. -/
theorem head_transpiration (o : Obj ℝ) (u du dm h : ℝ → ℝ) (x : ℝ) (S : HeadSolutionAt o u du dm h x) :
    ∃ (v : ℝ) (dd : ℝ → ℝ), o.vE x = .ok v ∧ (∀ t, o.deltaD t = .ok (dd t)) ∧ HasDerivAt (fun t => u t * dd t) v x := by
  obtain ⟨p, q, hr, hp, hq⟩ := S.ode
  rw [rhs_eq S] at hr
  simp only [Except.ok.injEq, List.cons.injEq, and_true] at hr
  refine ⟨du x * h x * dm x + u x * q * dm x + u x * h x * p, fun t => dm t * h t, ?_, fun t => (queries S t).2.2, ?_⟩
  · simp [Obj.vE, S.isHead, Obj.vEHead, Obj.headRhs, Obj.comp, Obj.state, S.sol, S.uE, S.duE, bind, Except.bind, pure, Except.pure,
      ← hr.1, ← hr.2]
  · refine (S.slope.mul (hp.mul hq)).congr_deriv ?_
    simp only [Pi.mul_apply]
    ring

/-- Non-vacuity: `u = 1`, slope zero, and straight lines with the slopes the equation asks for at `x = 0` is a solution at that point. -/
example : ∃ (o : Obj ℝ) (u du dm h : ℝ → ℝ), HeadSolutionAt o u du dm h 0 ∧ HeadRegular o u dm h 0 ∧ h 0 ≠ 16/10 := by
  let p := Head.rates (1:ℝ) 1 0 1 2
  let o : Obj ℝ := ⟨.head, 1, ⟨some (.fn fun _ => .ok 1), some (.fn fun _ => .ok 0), none⟩, .manual 0 1 1 1 1, [],
    some fun t => [1 + p.1 * t, 2 + p.2 * t], none⟩
  refine ⟨o, fun _ => 1, fun _ => 0, fun t => 1 + p.1 * t, fun t => 2 + p.2 * t, ⟨rfl, rfl, fun t => ?_, fun t => ?_, ?_, p.1, p.2, ?_, ?_, ?_⟩,
    ⟨?_, ?_, ?_, ?_⟩, ?_⟩
  · simp [o, VelState.uE, VelState.rawU, callOpt, Vel.call]
  · simp [o, VelState.duE, VelState.rawDu, callOpt, Vel.call]
  · exact hasDerivAt_const 0 1
  · have h1 : Head.floorScalar (1:ℝ) = 1 := (floors (by norm_num)).1
    have h2 : Head.odeClamp (2:ℝ) = 2 := noclamp (by norm_num)
    simp [o, p, Obj.rhs, Obj.headRhs, VelState.uE, VelState.duE, VelState.rawU, VelState.rawDu, callOpt, Vel.call, h1, h2,
      bind, Except.bind, pure, Except.pure]
  · simpa using ((hasDerivAt_id (0:ℝ)).const_mul p.1).const_add 1
  · simpa using ((hasDerivAt_id (0:ℝ)).const_mul p.2).const_add 2
  all_goals norm_num [o]

end IBL
