import Mathlib.Analysis.SpecialFunctions.ExpDeriv
import Verif.Lemmas.Barrier
import Verif.Props.HeadOde
import Verif.Props.SkinFriction

/-!
C72, C73 and the Head part of C74: limits on the state along a solution of Head's equation.
-/

namespace IBL

/-- The functions `dm` and `h` satisfy at `x` the differential equation that a Head object hands to the integrator. -/
def HeadOde (o : Obj ℝ) (dm h : ℝ → ℝ) (x : ℝ) : Prop := ∃ p q, o.rhs x [dm x, h x] = .ok [p, q] ∧ HasDerivAt dm p x ∧ HasDerivAt h q x

/-- A Head object holding a solution of its own equation on the interval from `a` to `b`: continuous functions that satisfy the equation with
the possible exception of finitely many points. Such exceptions occur where the shape factor passes 1.6, since the right hand side jumps there
(`head_no_smooth_passage`). -/
structure HeadSolutionOn (o : Obj ℝ) (u du dm h : ℝ → ℝ) (a b : ℝ) : Prop where
  isHead : o.cls = .head
  sol : o.sol = some fun t => [dm t, h t]
  uE : ∀ t, o.vel.uE t = .ok (u t)
  duE : ∀ t, o.vel.duE t = .ok (du t)
  slope : ∀ x ∈ Set.Icc a b, HasDerivAt u (du x) x
  dmCont : ContinuousOn dm (Set.Icc a b)
  hCont : ContinuousOn h (Set.Icc a b)
  ode : ∃ S : Set ℝ, S.Finite ∧ ∀ x ∈ Set.Icc a b, x ∉ S → HeadOde o dm h x

/-- Satisfying the equation at every point is enough. -/
theorem HeadSolutionOn.of_at {o : Obj ℝ} {u du dm h : ℝ → ℝ} {a b : ℝ} (hab : a ≤ b) (H : ∀ x ∈ Set.Icc a b, HeadSolutionAt o u du dm h x) :
    HeadSolutionOn o u du dm h a b := by
  have h0 := H a ⟨le_refl _, hab⟩
  refine ⟨h0.isHead, h0.sol, h0.uE, h0.duE, fun x hx => (H x hx).slope, fun x hx => ?_, fun x hx => ?_, ∅, Set.finite_empty,
    fun x hx _ => (H x hx).ode⟩
  · obtain ⟨p, q, -, hp, -⟩ := (H x hx).ode; exact hp.continuousAt.continuousWithinAt
  · obtain ⟨p, q, -, -, hq⟩ := (H x hx).ode; exact hq.continuousAt.continuousWithinAt

theorem HeadOde.derivs {o : Obj ℝ} {u du dm h : ℝ → ℝ} {x : ℝ} (H : HeadOde o dm h x) (hc : o.cls = .head)
    (hu : ∀ t, o.vel.uE t = .ok (u t)) (hdu : ∀ t, o.vel.duE t = .ok (du t)) :
    HasDerivAt dm (Head.rates o.nu (Head.floorScalar (u x)) (du x) (dm x) (Head.odeClamp (h x))).1 x ∧
    HasDerivAt h (Head.rates o.nu (Head.floorScalar (u x)) (du x) (dm x) (Head.odeClamp (h x))).2 x := by
  obtain ⟨p, q, hr, hp, hq⟩ := H
  have : o.rhs x [dm x, h x] = .ok
      [(Head.rates o.nu (Head.floorScalar (u x)) (du x) (dm x) (Head.odeClamp (h x))).1,
       (Head.rates o.nu (Head.floorScalar (u x)) (du x) (dm x) (Head.odeClamp (h x))).2] := by
    simp [Obj.rhs, hc, Obj.headRhs, hu, hdu, bind, Except.bind, pure, Except.pure]
  rw [this] at hr
  simp only [Except.ok.injEq, List.cons.injEq, and_true] at hr
  rw [hr.1, hr.2]
  exact ⟨hp, hq⟩

private theorem HeadSolutionOn.derivs {o : Obj ℝ} {u du dm h : ℝ → ℝ} {a b : ℝ} (S : HeadSolutionOn o u du dm h a b) :
    ∃ E : Set ℝ, E.Finite ∧ ∀ x ∈ Set.Icc a b, x ∉ E →
      HasDerivAt dm (Head.rates o.nu (Head.floorScalar (u x)) (du x) (dm x) (Head.odeClamp (h x))).1 x ∧
      HasDerivAt h (Head.rates o.nu (Head.floorScalar (u x)) (du x) (dm x) (Head.odeClamp (h x))).2 x := by
  obtain ⟨E, hE, H⟩ := S.ode
  exact ⟨E, hE, fun x hx hn => (H x hx hn).derivs S.isHead S.uE S.duE⟩

private theorem floor_real (u : ℝ) : Head.floorScalar u = max u (1/1000) := by
  simp only [Head.floorScalar, real_gt, real_lit]
  split_ifs with h
  · push_cast at h ⊢; rw [max_eq_right (le_of_lt h)]
  · push_cast at h; rw [max_eq_left (not_lt.1 h)]

private theorem clamp_real (h : ℝ) : Head.odeClamp h = max h (111/100) := by
  simp only [Head.odeClamp, real_lt, real_lit]
  split_ifs with hc
  · push_cast at hc ⊢; rw [max_eq_right hc.le]
  · push_cast at hc; rw [max_eq_left (not_lt.1 hc)]

private theorem rate1 (nu u du dm h : ℝ) : (Head.rates nu u du dm h).1 = ludwiegTillman (u * dm / nu) h / 2 - dm * (2 + h) * du / u := by
  simp only [Head.rates, real_lit]
  push_cast
  ring

private theorem rate2 (nu u du dm h : ℝ) (hu : u ≠ 0) : (Head.rates nu u du dm h).2 =
    (u * (Head.entrainment (Head.h1 h) - Head.h1 h * ludwiegTillman (u * dm / nu) h / 2) + (1 + h) * dm * du * Head.h1 h) /
      (Head.h1p h * u * dm) := by
  simp only [Head.rates, real_lit]
  push_cast
  congr 1
  field_simp
  ring

/-! ### C72 -/

/-- A function that satisfies the momentum equation of Head's method stays positive. -/
theorem head_positive {nu : ℝ} {u du dm h : ℝ → ℝ} {E : Set ℝ} {a b D : ℝ} (hnu : 0 < nu) (hE : E.Finite)
    (hode : ∀ t ∈ Set.Icc a b, t ∉ E → HasDerivAt dm (Head.rates nu (Head.floorScalar (u t)) (du t) (dm t) (Head.odeClamp (h t))).1 t)
    (hdm : ContinuousOn dm (Set.Icc a b)) (hcont : ContinuousOn h (Set.Icc a b)) (hdu : ∀ x ∈ Set.Icc a b, du x ≤ D) (h0 : 0 < dm a) : ∀ x ∈ Set.Icc a b, 0 < dm x := by
  intro x hx
  obtain ⟨M, hM⟩ := isCompact_Icc.exists_bound_of_continuousOn hcont
  let K := (2 + (|M| + 2)) * (|D| * 1000)
  have hK : ∀ t ∈ Set.Icc a b, (2 + Head.odeClamp (h t)) * du t / Head.floorScalar (u t) ≤ K := fun t ht => by
    rw [floor_real, clamp_real]
    have hf : 1/1000 ≤ max (u t) (1/1000) := le_max_right _ _
    have hfp : 0 < max (u t) (1/1000) := lt_of_lt_of_le (by norm_num) hf
    have hc1 : 0 ≤ 2 + max (h t) (111/100) := by linarith [le_max_right (h t) (111/100)]
    have hc2 : 2 + max (h t) (111/100) ≤ 2 + (|M| + 2) := by
      have h1 := hM t ht
      rw [Real.norm_eq_abs] at h1
      have h2 := (le_abs_self (h t)).trans (h1.trans (le_abs_self M))
      have : max (h t) (111/100) ≤ |M| + 2 := max_le (by linarith) (by linarith [abs_nonneg M])
      linarith
    rw [mul_div_assoc]
    have hd : du t / max (u t) (1/1000) ≤ |D| * 1000 := by
      rw [div_le_iff₀ hfp]
      have h1 : du t ≤ |D| := (hdu t ht).trans (le_abs_self D)
      nlinarith [abs_nonneg D]
    rcases le_or_gt 0 (du t / max (u t) (1/1000)) with hs | hs
    · exact mul_le_mul hc2 hd hs (by positivity)
    · exact (mul_nonpos_of_nonneg_of_nonpos hc1 hs.le).trans (by positivity)
  have hexp : ∀ t, HasDerivAt (fun t => Real.exp (K * (t - a))) (K * Real.exp (K * (t - a))) t := fun t => by
    have h1 : HasDerivAt (fun t => K * (t - a)) (K * 1) t := ((hasDerivAt_id t).sub_const a).const_mul K
    have := h1.exp
    rw [mul_one, mul_comm] at this
    exact this
  have key := barrier_off (F := fun t => dm t * Real.exp (K * (t - a)))
    (r := fun t => (Head.rates nu (Head.floorScalar (u t)) (du t) (dm t) (Head.odeClamp (h t))).1 * Real.exp (K * (t - a)) +
      dm t * (K * Real.exp (K * (t - a)))) (a := a) (b := b) (c := dm a) (lo := 0) hE h0
    (hdm.mul fun t _ => (hexp t).continuousAt.continuousWithinAt) (fun t ht hn => (hode t ht hn).mul (hexp t)) (by simp) (fun t ht _ h1 _ => by
      have hd : 0 < dm t := pos_of_mul_pos_left h1 (Real.exp_pos _).le
      have hfp : 0 < Head.floorScalar (u t) := by rw [floor_real]; exact lt_of_lt_of_le (by norm_num) (le_max_right _ _)
      have hcf := ludwieg_tillman_pos (Head.floorScalar (u t) * dm t / nu) (Head.odeClamp (h t)) (by positivity)
      have hk := mul_le_mul_of_nonneg_left (hK t ht) hd.le
      have e : dm t * (2 + Head.odeClamp (h t)) * du t / Head.floorScalar (u t) =
        dm t * ((2 + Head.odeClamp (h t)) * du t / Head.floorScalar (u t)) := by ring
      rw [rate1, e]
      have : 0 ≤ ludwiegTillman (Head.floorScalar (u t) * dm t / nu) (Head.odeClamp (h t)) / 2 -
          dm t * ((2 + Head.odeClamp (h t)) * du t / Head.floorScalar (u t)) + dm t * K := by linarith
      have hm := mul_nonneg this (Real.exp_pos (K * (t - a))).le
      linarith) x hx
  exact pos_of_mul_pos_left (lt_of_lt_of_le h0 key) (Real.exp_pos _).le

/-- **C72**: along every solution of Head's equation that starts with a positive momentum thickness the reported momentum thickness stays
positive, whatever the edge velocity and the shape factor do, as long as the velocity slope is bounded above. -/
theorem head_stays_positive (o : Obj ℝ) (u du dm h : ℝ → ℝ) (a b D : ℝ) (S : HeadSolutionOn o u du dm h a b) (hnu : 0 < o.nu)
    (hdu : ∀ x ∈ Set.Icc a b, du x ≤ D) (h0 : 0 < dm a) : ∀ x ∈ Set.Icc a b, ∃ d, o.deltaM x = .ok d ∧ 0 < d := by
  intro x hx
  have hxd : o.deltaM x = .ok (dm x) := by
    simp [Obj.deltaM, S.isHead, Obj.comp, Obj.state, S.sol, bind, Except.bind, pure, Except.pure]
  obtain ⟨E, hE, H⟩ := S.derivs
  exact ⟨dm x, hxd, head_positive hnu hE (fun t ht hn => (H t ht hn).1) S.dmCont S.hCont hdu h0 x hx⟩

/-! ### C73 -/

/-- **C73**, in full: the reported displacement thickness is never smaller than the reported momentum thickness along a solution that starts
with a positive momentum thickness and a shape factor the code does not clip, where the velocity is not clipped either. -/
def DisplacementOrdered : Prop :=
  ∀ (o : Obj ℝ) (u du dm h : ℝ → ℝ) (a b : ℝ), HeadSolutionOn o u du dm h a b → 0 < o.nu → 0 < dm a → 111/100 ≤ h a →
    (∀ x ∈ Set.Icc a b, 1/1000 ≤ u x) → ∀ x ∈ Set.Icc a b, ∃ d dd, o.deltaM x = .ok d ∧ o.deltaD x = .ok dd ∧ d ≤ dd

theorem entrainment_pos (e : ℝ) : 0 < Head.entrainment e := by
  simp only [Head.entrainment, real_le, real_lit, real_pow]
  apply div_pos (by norm_num)
  apply Real.rpow_pos_of_pos
  split_ifs with h
  · norm_num
  · push_cast at h ⊢; linarith

private theorem h1_min_pos : 0 < Head.h1 (111/100 : ℝ) := by
  rw [Head.h1_low (by norm_num) (by norm_num), Head.h1Low_real]
  have : (0:ℝ) < (111/100 - 11/10) ^ (1287/1000 : ℝ) := Real.rpow_pos_of_pos (by norm_num) _
  positivity

private theorem lt_real (re h : ℝ) : ludwiegTillman re h = 246/1000 / (re ^ (268/1000 : ℝ) * (10:ℝ) ^ (678/1000 * h)) := by
  simp only [ludwiegTillman, real_lit, real_pow]
  norm_num

/-- The case that shows it: `u_e = exp x`, exact solution with the shape factor clipped at 1.11 in the equation but not in the state. -/
theorem negative_displacement : ∃ (o : Obj ℝ) (u du dm h : ℝ → ℝ) (b : ℝ), HeadSolutionOn o u du dm h 0 b ∧ 0 < o.nu ∧ 0 < dm 0 ∧
    h 0 = 111/100 ∧ 0 ≤ b ∧ (∀ x ∈ Set.Icc (0:ℝ) b, 1/1000 ≤ u x) ∧ ∃ d dd, o.deltaM b = .ok d ∧ o.deltaD b = .ok dd ∧ 0 < d ∧ dd < 0 := by
  obtain ⟨e, he⟩ : ∃ e, e = Head.h1 (111/100 : ℝ) := ⟨_, rfl⟩
  obtain ⟨E, hE⟩ : ∃ E, E = Head.entrainment e := ⟨_, rfl⟩
  obtain ⟨P, hP⟩ : ∃ P, P = Head.h1p (111/100 : ℝ) := ⟨_, rfl⟩
  have e0 : 0 < e := he ▸ h1_min_pos
  have E0 : 0 < E := hE ▸ entrainment_pos e
  have P0 : P < 0 := hP ▸ Head.entrainment_derivative_neg _
  obtain ⟨g, hg⟩ : ∃ g : ℝ, g = 67/317 := ⟨_, rfl⟩
  obtain ⟨d0, hd0⟩ : ∃ d0, d0 = E / (2 * e) := ⟨_, rfl⟩
  have d0p : 0 < d0 := by rw [hd0]; positivity
  obtain ⟨C, hC⟩ : ∃ C : ℝ, C = (10:ℝ) ^ (678/1000 * (111/100) : ℝ) := ⟨_, rfl⟩
  have C0 : 0 < C := hC ▸ Real.rpow_pos_of_pos (by norm_num) _
  obtain ⟨N, hN⟩ : ∃ N, N = (311/100 - g) * d0 * d0 ^ (268/1000 : ℝ) * C * (2 / (246/1000)) := ⟨_, rfl⟩
  have dp0 : 0 < d0 ^ (268/1000 : ℝ) := Real.rpow_pos_of_pos d0p _
  have N0 : 0 < N := by
    rw [hN, hg]
    have : (0:ℝ) < 311/100 - 67/317 := by norm_num
    positivity
  obtain ⟨nu, hnu⟩ : ∃ nu, nu = N ^ ((268/1000 : ℝ)⁻¹) := ⟨_, rfl⟩
  have nu0 : 0 < nu := hnu ▸ Real.rpow_pos_of_pos N0 _
  have hnuN : nu ^ (268/1000 : ℝ) = N := by rw [hnu, Real.rpow_inv_rpow N0.le (by norm_num)]
  let dm : ℝ → ℝ := fun x => d0 * Real.exp (-g * x)
  let h : ℝ → ℝ := fun x => 111/100 + e / P * (2 * (Real.exp (g * x) - 1) / g - (1 - g) * x)
  let o : Obj ℝ := ⟨.head, nu, ⟨some (.fn fun x => .ok (Real.exp x)), some (.fn fun x => .ok (Real.exp x)), none⟩, .manual 0 1 1 1 1, [],
    some fun t => [dm t, h t], none⟩
  have hle : ∀ x, 0 ≤ x → h x ≤ 111/100 + e / P * x := fun x hx => by
    have h1 : g * x + 1 ≤ Real.exp (g * x) := Real.add_one_le_exp _
    have g0 : 0 < g := by rw [hg]; norm_num
    have h2 : 2 * x ≤ 2 * (Real.exp (g * x) - 1) / g := by rw [le_div_iff₀ g0]; linarith
    have h3 : x ≤ 2 * (Real.exp (g * x) - 1) / g - (1 - g) * x := by nlinarith
    have h4 : e / P ≤ 0 := div_nonpos_of_nonneg_of_nonpos e0.le P0.le
    have := mul_le_mul_of_nonpos_left h3 h4
    show 111/100 + e / P * _ ≤ _
    linarith
  have heP : e / P < 0 := div_neg_of_pos_of_neg e0 P0
  have hb : 0 ≤ -2 * P / e := by apply div_nonneg _ e0.le; linarith
  refine ⟨o, Real.exp, Real.exp, dm, h, -2 * P / e, .of_at hb fun x hx => ⟨rfl, rfl, fun t => ?_, fun t => ?_, Real.hasDerivAt_exp x, ?_⟩, nu0, ?_, ?_, hb,
    fun x hx => ?_, dm (-2 * P / e), dm (-2 * P / e) * h (-2 * P / e), ?_, ?_, ?_, ?_⟩
  · simp [o, VelState.uE, VelState.rawU, callOpt, Vel.call]
  · simp [o, VelState.duE, VelState.rawDu, callOpt, Vel.call]
  · have hcl : Head.odeClamp (h x) = 111/100 := by
      rw [clamp_real, max_eq_right]
      exact (hle x hx.1).trans (by linarith [mul_nonpos_of_nonpos_of_nonneg heP.le hx.1])
    have hfl : Head.floorScalar (Real.exp x) = Real.exp x := by
      rw [floor_real, max_eq_left]
      have := Real.add_one_le_exp x
      linarith [hx.1]
    have hrhs : o.rhs x [dm x, h x] = .ok [(Head.rates nu (Real.exp x) (Real.exp x) (dm x) (111/100)).1,
        (Head.rates nu (Real.exp x) (Real.exp x) (dm x) (111/100)).2] := by
      simp [Obj.rhs, o, Obj.headRhs, VelState.uE, VelState.duE, VelState.rawU, VelState.rawDu, callOpt, Vel.call, bind, Except.bind,
        pure, Except.pure, hcl, hfl]
    refine ⟨_, _, hrhs, ?_, ?_⟩
    all_goals
      have hx0 : Real.exp x ≠ 0 := (Real.exp_pos x).ne'
      have hcf : ludwiegTillman (Real.exp x * dm x / nu) (111/100) = 2 * (311/100 - g) * dm x := by
        rw [lt_real, ← hC, Real.div_rpow (by positivity) nu0.le, hnuN]
        have e1 : Real.exp x * dm x = d0 * Real.exp ((1 - g) * x) := by
          show Real.exp x * (d0 * Real.exp (-g * x)) = _
          have : (1 - g) * x = x + -g * x := by ring
          rw [this, Real.exp_add]; ring
        have e2 : (d0 * Real.exp ((1 - g) * x)) ^ (268/1000 : ℝ) = d0 ^ (268/1000 : ℝ) * Real.exp (g * x) := by
          rw [Real.mul_rpow d0p.le (Real.exp_pos _).le, ← Real.exp_mul]
          congr 2
          rw [hg]; ring
        rw [e1, e2, hN]
        show _ = 2 * (311/100 - g) * (d0 * Real.exp (-g * x))
        have e3 : Real.exp (-g * x) = (Real.exp (g * x))⁻¹ := by rw [neg_mul, Real.exp_neg]
        rw [e3]
        have hne : Real.exp (g * x) ≠ 0 := (Real.exp_pos _).ne'
        have h31 : (311/100 - g) ≠ 0 := by rw [hg]; norm_num
        field_simp
        try ring
    · rw [rate1, hcf]
      have hd : HasDerivAt dm (d0 * (Real.exp (-g * x) * (-g * 1))) x := (((hasDerivAt_id x).const_mul (-g)).exp).const_mul d0
      refine hd.congr_deriv ?_
      show d0 * (Real.exp (-g * x) * (-g * 1)) = 2 * (311/100 - g) * (d0 * Real.exp (-g * x)) / 2 - d0 * Real.exp (-g * x) * (2 + 111/100) * _ / _
      field_simp
      ring
    · rw [rate2 _ _ _ _ _ hx0, hcf, ← he, ← hE, ← hP]
      have g0 : g ≠ 0 := by rw [hg]; norm_num
      have hd : HasDerivAt h (e / P * (2 * (Real.exp (g * x) * (g * 1)) / g - (1 - g) * 1)) x :=
        (((((((hasDerivAt_id x).const_mul g).exp).sub_const 1).const_mul 2).div_const g).sub ((hasDerivAt_id x).const_mul (1 - g))).const_mul _
          |>.const_add _
      refine hd.congr_deriv ?_
      have hEe : E = 2 * e * d0 := by rw [hd0]; field_simp
      have e3 : Real.exp (g * x) = (Real.exp (-g * x))⁻¹ := by rw [neg_mul, Real.exp_neg, inv_inv]
      rw [hEe, e3]
      show _ = (Real.exp x * (2 * e * d0 - e * (2 * (311/100 - g) * (d0 * Real.exp (-g * x))) / 2) +
        (1 + 111/100) * (d0 * Real.exp (-g * x)) * Real.exp x * e) / (P * Real.exp x * (d0 * Real.exp (-g * x)))
      have hne : Real.exp (-g * x) ≠ 0 := (Real.exp_pos _).ne'
      have hPn := P0.ne
      field_simp
      ring
  · simpa [dm] using d0p
  · simp [h]
  · have := Real.add_one_le_exp x
    linarith [hx.1]
  · simp [Obj.deltaM, o, Obj.comp, Obj.state, bind, Except.bind, pure, Except.pure]
  · simp [Obj.deltaD, Obj.deltaM, Obj.shapeD, o, Obj.comp, Obj.state, bind, Except.bind, pure, Except.pure]
  · show 0 < d0 * Real.exp _
    positivity
  · refine mul_neg_of_pos_of_neg (by show 0 < d0 * Real.exp _; positivity) ?_
    have h1 := hle _ hb
    have h2 : e / P * (-2 * P / e) = -2 := by field_simp [P0.ne, e0.ne']
    rw [h2] at h1
    linarith

/-- **C73** is false of the code. -/
theorem displacement_not_ordered : ¬ DisplacementOrdered := fun H => by
  obtain ⟨o, u, du, dm, h, b, S, hnu, hd, hh, hb, hu, d, dd, h1, h2, h3, h4⟩ := negative_displacement
  obtain ⟨d', dd', h1', h2', hle⟩ := H o u du dm h 0 b S hnu hd hh.ge hu b ⟨hb, le_refl _⟩
  rw [h1] at h1'; rw [h2] at h2'
  cases h1'; cases h2'
  linarith

private theorem h1_min_gt : 26349/100 ≤ Head.h1 (111/100 : ℝ) := by
  rw [Head.h1_low (by norm_num) (by norm_num), Head.h1Low_real]
  have h1 : ((111/100 - 11/10 : ℝ)) ^ (1287/1000 : ℝ) ≤ 1/316 := by
    have e1 : ((111/100 - 11/10 : ℝ)) = 1/100 := by norm_num
    rw [e1]
    have h2 := Head.rpow_lt_of_pow_lt (x := 1/100) (r := 1/316) (p := 5) (q := 4) (by norm_num) (by norm_num) (by norm_num) (by norm_num)
    refine le_trans (Real.rpow_le_rpow_of_exponent_ge (by norm_num) (by norm_num) (?_ : (5:ℝ)/4 ≤ 1287/1000)) ?_
    · norm_num
    · push_cast at h2; exact h2.le
  have h0 : (0:ℝ) < (111/100 - 11/10) ^ (1287/1000 : ℝ) := Real.rpow_pos_of_pos (by norm_num) _
  have : (8234/10000 : ℝ) * 316 ≤ 8234/10000 / (111/100 - 11/10) ^ (1287/1000 : ℝ) := by
    rw [le_div_iff₀ h0]; nlinarith
  linarith

private theorem entrainment_min (e : ℝ) (he : 26349/100 ≤ e) : Head.entrainment e ≤ 306/10000 / 16 := by
  simp only [Head.entrainment, real_le, real_lit, real_pow]
  rw [if_neg (by push_cast; linarith)]
  have h1 : (16:ℝ) ≤ (e - ((3:ℚ):ℝ)) ^ (((6169/10000 : ℚ)) : ℝ) := by
    have h2 : (16:ℝ) = (256:ℝ) ^ ((1:ℝ)/2) := by
      rw [← Real.sqrt_eq_rpow, show (256:ℝ) = 16 ^ 2 by norm_num, Real.sqrt_sq (by norm_num)]
    rw [h2]
    refine (Real.rpow_le_rpow_of_exponent_le (by norm_num) (?_ : (1:ℝ)/2 ≤ ((6169/10000 : ℚ) : ℝ))).trans
      (Real.rpow_le_rpow (by norm_num) (by push_cast; linarith) (by norm_num))
    norm_num
  push_cast at h1 ⊢
  exact div_le_div_of_nonneg_left (by norm_num) (by norm_num) h1

/-- **C73**, what holds: wherever `4.22 delta_m du_e / u_e + 1.5e-5 <= c_f` (`c_f` for the shape factor 1.11), so in every flow that is not
strongly accelerated, the shape factor stays at or above 1.11. Missing: strong acceleration, where it is false. -/
theorem displacement_ordered_partial (o : Obj ℝ) (u du dm h : ℝ → ℝ) (a b D : ℝ) (S : HeadSolutionOn o u du dm h a b) (hnu : 0 < o.nu)
    (h0 : 0 < dm a) (hh : 111/100 ≤ h a) (hu : ∀ x ∈ Set.Icc a b, 1/1000 ≤ u x) (hdu : ∀ x ∈ Set.Icc a b, du x ≤ D)
    (hcf : ∀ x ∈ Set.Icc a b, 422/100 * dm x * du x / u x + 15/10^6 ≤ ludwiegTillman (u x * dm x / o.nu) (111/100)) :
    ∀ x ∈ Set.Icc a b, 111/100 ≤ h x ∧ ∃ d dd, o.deltaM x = .ok d ∧ o.deltaD x = .ok dd ∧ 0 < d ∧ 111/100 * d ≤ dd := by
  have hpos : ∀ x ∈ Set.Icc a b, 0 < dm x := fun x hx => by
    obtain ⟨d, h1, h2⟩ := head_stays_positive o u du dm h a b D S hnu hdu h0 x hx
    have hxd : o.deltaM x = .ok (dm x) := by
      simp [Obj.deltaM, S.isHead, Obj.comp, Obj.state, S.sol, bind, Except.bind, pure, Except.pure]
    rw [hxd] at h1
    cases h1
    exact h2
  obtain ⟨X, hX, H⟩ := S.derivs
  have key := barrier_off (F := h) (a := a) (b := b) (c := 111/100) (lo := 0) hX (by norm_num) S.hCont (fun x hx hn => (H x hx hn).2) hh
    (fun x hx _ _ hlt => by
      have hd := hpos x hx
      have hux := hu x hx
      have hu0 : 0 < u x := by linarith
      rw [clamp_real, max_eq_right hlt.le, floor_real, max_eq_left hux, rate2 _ _ _ _ _ hu0.ne']
      have hP := Head.entrainment_derivative_neg (111/100)
      have he := h1_min_gt
      have hE := entrainment_min _ he
      apply div_nonneg_of_nonpos _ (mul_nonpos_of_nonpos_of_nonneg (mul_nonpos_of_nonpos_of_nonneg hP.le hu0.le) hd.le)
      have hc := hcf x hx
      generalize ludwiegTillman (u x * dm x / o.nu) (111/100) = cf at hc
      generalize Head.entrainment (Head.h1 (111/100 : ℝ)) = E at hE
      generalize Head.h1 (111/100 : ℝ) = e at he hE
      have hc' : 422/100 * dm x * du x + 15/10^6 * u x ≤ cf * u x := by
        have := mul_le_mul_of_nonneg_right hc hu0.le
        have e1 : (422/100 * dm x * du x / u x + 15/10^6) * u x = 422/100 * dm x * du x + 15/10^6 * u x := by field_simp
        linarith
      have e0 : 0 ≤ e := by linarith
      have h1 := mul_le_mul_of_nonneg_left hc' e0
      have h2 : u x * E ≤ u x * (e * (75/10^7)) := mul_le_mul_of_nonneg_left (by nlinarith) hu0.le
      nlinarith)
  intro x hx
  refine ⟨key x hx, dm x, dm x * h x, ?_, ?_, hpos x hx, ?_⟩
  · simp [Obj.deltaM, S.isHead, Obj.comp, Obj.state, S.sol, bind, Except.bind, pure, Except.pure]
  · simp [Obj.deltaD, Obj.deltaM, Obj.shapeD, S.isHead, Obj.comp, Obj.state, S.sol, bind, Except.bind, pure, Except.pure]
  · have := mul_le_mul_of_nonneg_left (key x hx) (hpos x hx).le
    linarith

/-- In particular in every flow that is not accelerated at all, up to a Reynolds number of 1e12. -/
theorem displacement_ordered_decelerated (o : Obj ℝ) (u du dm h : ℝ → ℝ) (a b : ℝ) (S : HeadSolutionOn o u du dm h a b) (hnu : 0 < o.nu)
    (h0 : 0 < dm a) (hh : 111/100 ≤ h a) (hu : ∀ x ∈ Set.Icc a b, 1/1000 ≤ u x) (hdu : ∀ x ∈ Set.Icc a b, du x ≤ 0)
    (hre : ∀ x ∈ Set.Icc a b, u x * dm x / o.nu ≤ 10 ^ 12) :
    ∀ x ∈ Set.Icc a b, 111/100 ≤ h x ∧ ∃ d dd, o.deltaM x = .ok d ∧ o.deltaD x = .ok dd ∧ 0 < d ∧ 111/100 * d ≤ dd := by
  refine displacement_ordered_partial o u du dm h a b 0 S hnu h0 hh hu hdu fun x hx => ?_
  obtain ⟨d, h1, hd⟩ := head_stays_positive o u du dm h a b 0 S hnu hdu h0 x hx
  have hxd : o.deltaM x = .ok (dm x) := by
    simp [Obj.deltaM, S.isHead, Obj.comp, Obj.state, S.sol, bind, Except.bind, pure, Except.pure]
  rw [hxd] at h1
  cases h1
  have hu0 : 0 < u x := by linarith [hu x hx]
  have h1 : 422/100 * dm x * du x / u x ≤ 0 :=
    div_nonpos_of_nonpos_of_nonneg (mul_nonpos_of_nonneg_of_nonpos (by positivity) (hdu x hx)) hu0.le
  have hre0 : 0 < u x * dm x / o.nu := by positivity
  have hrx := hre x hx
  generalize u x * dm x / o.nu = re at hre0 hrx
  have h2 : 246/1000 / 10^4 ≤ ludwiegTillman re (111/100) := by
    rw [lt_real]
    have h3 : re ^ (268/1000 : ℝ) * (10:ℝ) ^ (678/1000 * (111/100) : ℝ) ≤ 10^4 := by
      have h4 : re ^ (268/1000 : ℝ) ≤ (10:ℝ) ^ (3216/1000 : ℝ) := by
        refine (Real.rpow_le_rpow hre0.le hrx (by norm_num)).trans (le_of_eq ?_)
        rw [← Real.rpow_natCast, ← Real.rpow_mul (by norm_num)]
        norm_num
      refine (mul_le_mul_of_nonneg_right h4 (Real.rpow_nonneg (by norm_num) _)).trans ?_
      rw [← Real.rpow_add (by norm_num), ← Real.rpow_natCast]
      exact Real.rpow_le_rpow_of_exponent_le (by norm_num) (by norm_num)
    exact div_le_div_of_nonneg_left (by norm_num) (mul_pos (Real.rpow_pos_of_pos hre0 _) (Real.rpow_pos_of_pos (by norm_num) _)) h3
  norm_num at h2 ⊢
  linarith

/-! ### C74, Head -/

private theorem h1_high_lt (h : ℝ) (hh : 2 < h) : 3 < Head.h1 h ∧ Head.h1 h < 4 := by
  rw [Head.h1_high (by linarith)]
  refine ⟨lt_trans (by norm_num) (Head.high_gt_d h (by linarith)), ?_⟩
  refine lt_trans (Head.high_anti (by norm_num) hh) ?_
  rw [Head.h1High_real]
  have h1 : (2311/1000 : ℝ) ≤ (2 - 6778/10000 : ℝ) ^ (3064/1000 : ℝ) := by
    refine le_trans ?_ (Real.rpow_le_rpow_of_exponent_le (by norm_num) (?_ : (3:ℝ) ≤ 3064/1000))
    · have : ((2 - 6778/10000 : ℝ)) ^ (3:ℝ) = (2 - 6778/10000 : ℝ) ^ (3:ℕ) := by rw [← Real.rpow_natCast]; norm_num
      rw [this]; norm_num
    · norm_num
  have h2 : (15501/10000 : ℝ) / (2 - 6778/10000) ^ (3064/1000 : ℝ) ≤ 15501/10000 / (2311/1000) :=
    div_le_div_of_nonneg_left (by norm_num) (by norm_num) h1
  refine lt_of_le_of_lt (add_le_add (le_refl _) h2) ?_
  norm_num

private theorem entrainment_high (e : ℝ) (h3 : 3 < e) (h4 : e < 4) : 306/10000 ≤ Head.entrainment e := by
  simp only [Head.entrainment, real_le, real_lit, real_pow]
  rw [if_neg (by push_cast; linarith)]
  have h1 : (e - ((3:ℚ):ℝ)) ^ (((6169/10000 : ℚ)) : ℝ) ≤ 1 := Real.rpow_le_one (by push_cast; linarith) (by push_cast; linarith) (by norm_num)
  have h0 : 0 < (e - ((3:ℚ):ℝ)) ^ (((6169/10000 : ℚ)) : ℝ) := Real.rpow_pos_of_pos (by push_cast; linarith) _
  push_cast at h0 h1 ⊢
  rw [le_div_iff₀ h0]
  linarith

private theorem cf_high (re h : ℝ) (hre : 1 ≤ re) (hh : 2 < h) : ludwiegTillman re h ≤ 246/1000 / (215/10) := by
  rw [lt_real]
  have h1 : 1 ≤ re ^ (268/1000 : ℝ) := Real.one_le_rpow hre (by norm_num)
  have h2 : (215/10 : ℝ) ≤ (10:ℝ) ^ (678/1000 * h) := by
    have h3 := Head.lt_rpow_of_lt_pow (x := 10) (r := 215/10) (p := 4) (q := 3) (by norm_num) (by norm_num) (by norm_num) (by norm_num)
    push_cast at h3
    exact h3.le.trans (Real.rpow_le_rpow_of_exponent_le (by norm_num) (by linarith))
  refine div_le_div_of_nonneg_left (by norm_num) (by norm_num) ?_
  nlinarith

/-- **C74**, Head: in a flow that is nowhere decelerated the shape factor never exceeds the larger of its first value and 2, for Reynolds
numbers (of the momentum thickness) of at least 1. -/
theorem head_shape_bounded (o : Obj ℝ) (u du dm h : ℝ → ℝ) (a b D : ℝ) (S : HeadSolutionOn o u du dm h a b) (hnu : 0 < o.nu)
    (h0 : 0 < dm a) (hu : ∀ x ∈ Set.Icc a b, 1/1000 ≤ u x) (hacc : ∀ x ∈ Set.Icc a b, 0 ≤ du x) (hdu : ∀ x ∈ Set.Icc a b, du x ≤ D)
    (hre : ∀ x ∈ Set.Icc a b, 1 ≤ u x * dm x / o.nu) : ∀ x ∈ Set.Icc a b, ∃ s, o.shapeD x = .ok s ∧ s ≤ max (h a) 2 := by
  have hpos : ∀ x ∈ Set.Icc a b, 0 < dm x := fun x hx => by
    obtain ⟨d, h1, h2⟩ := head_stays_positive o u du dm h a b D S hnu hdu h0 x hx
    have hxd : o.deltaM x = .ok (dm x) := by
      simp [Obj.deltaM, S.isHead, Obj.comp, Obj.state, S.sol, bind, Except.bind, pure, Except.pure]
    rw [hxd] at h1
    cases h1
    exact h2
  obtain ⟨X, hX, H⟩ := S.derivs
  have key := barrier_above_off (F := h) (a := a) (b := b) (c := max (h a) 2) (hi := max (h a) 2 + 1) hX (by linarith) S.hCont
    (fun x hx hn => (H x hx hn).2) (le_max_left _ _) (fun x hx _ hgt _ => by
      have hd := hpos x hx
      have hux := hu x hx
      have hu0 : 0 < u x := by linarith
      have h2 : 2 < h x := lt_of_le_of_lt (le_max_right _ _) hgt
      rw [clamp_real, max_eq_left (by linarith : (111/100 : ℝ) ≤ h x), floor_real, max_eq_left hux, rate2 _ _ _ _ _ hu0.ne']
      have hP := Head.entrainment_derivative_neg (h x)
      obtain ⟨he3, he4⟩ := h1_high_lt (h x) h2
      have hE := entrainment_high _ he3 he4
      have hcf := cf_high _ (h x) (hre x hx) h2
      apply div_nonpos_of_nonneg_of_nonpos _ (mul_nonpos_of_nonpos_of_nonneg (mul_nonpos_of_nonpos_of_nonneg hP.le hu0.le) hd.le)
      have hcf0 := ludwieg_tillman_pos (u x * dm x / o.nu) (h x) (by positivity)
      generalize ludwiegTillman (u x * dm x / o.nu) (h x) = cf at hcf hcf0
      generalize Head.entrainment (Head.h1 (h x)) = E at hE
      generalize Head.h1 (h x) = e at he3 he4 hE
      have h5 : 0 ≤ (1 + h x) * dm x * du x * e :=
        mul_nonneg (mul_nonneg (mul_nonneg (by linarith) hd.le) (hacc x hx)) (by linarith)
      have h6 : e * cf / 2 ≤ E := by nlinarith
      have h7 := mul_nonneg hu0.le (by linarith : 0 ≤ E - e * cf / 2)
      linarith)
  intro x hx
  exact ⟨h x, by simp [Obj.shapeD, S.isHead, Obj.comp, Obj.state, S.sol, bind, Except.bind, pure, Except.pure], key x hx⟩

end IBL
