import Mathlib.MeasureTheory.Integral.DivergenceTheorem
import Mathlib.MeasureTheory.Integral.IntervalIntegral.FundThmCalculus
import Verif.Props.Decelerated

/-!
C116: the friction drag, the integral of the reported wall shear over a length of the surface, against the momentum that the reported momentum
thickness says is lost.
-/

namespace IBL
open Fits

/-! ### Head's method -/

/-- `tau x` is what a Head object that holds the solution `dm`, `h` reports as the wall shear at `x` (queried with an array, see C27). -/
def HeadShear (o : Obj ℝ) (u dm h : ℝ → ℝ) (rho : ℝ) (tau : ℝ → ℝ) (x : ℝ) : Prop :=
  ∃ hp', HeadArr.tauW (HeadArr.elementwise u) (fun t => (dm t, h t)) o.nu [[x]] (.arr 0) rho = .ok (hp', .v [tau x])

private theorem tau_continuous {o : Obj ℝ} {u dm h : ℝ → ℝ} {a b rho : ℝ} (hnu : 0 < o.nu) (hu : ContinuousOn u (Set.Icc a b))
    (hd : ContinuousOn dm (Set.Icc a b)) (hh : ContinuousOn h (Set.Icc a b)) (hu0 : ∀ x ∈ Set.Icc a b, 1/1000 ≤ u x)
    (hd0 : ∀ x ∈ Set.Icc a b, 0 < dm x) : ContinuousOn (fun x => HeadArr.tauPoint o.nu rho (u x) (dm x) (h x)) (Set.Icc a b) := by
  have h1 : ContinuousOn (fun x => 1/2 * rho * (u x * u x) * (246/1000 / ((u x * dm x / o.nu) ^ (268/1000 : ℝ) * (10:ℝ) ^ (678/1000 * h x)))) (Set.Icc a b) := by
    have hre : ∀ x ∈ Set.Icc a b, 0 < u x * dm x / o.nu := fun x hx =>
      div_pos (mul_pos (by have := hu0 x hx; linarith) (hd0 x hx)) hnu
    refine ContinuousOn.mul (continuousOn_const.mul (hu.mul hu)) (continuousOn_const.div (ContinuousOn.mul ?_ ?_) fun x hx => ?_)
    · exact ((hu.mul hd).div_const _).rpow_const fun x hx => .inl (hre x hx).ne'
    · exact ContinuousOn.rpow continuousOn_const (continuousOn_const.mul hh) fun x _ => .inl (by norm_num)
    · exact (mul_pos (Real.rpow_pos_of_pos (hre x hx) _) (Real.rpow_pos_of_pos (by norm_num) _)).ne'
  refine h1.congr fun x hx => ?_
  have hf : Head.floorArray (u x) = u x := by
    simp only [Head.floorArray, real_lt, real_lit, real_abs]
    refine if_neg ?_
    have := hu0 x hx
    push_cast
    rw [abs_of_pos (by linarith)]; linarith
  simp only [HeadArr.tauPoint, hf, ludwiegTillman, real_lit, real_pow]
  push_cast
  rfl

/-- **C116**, Head: the wall shear over a length of the surface is the momentum lost along it plus what the pressure takes,
`int tau_w = rho (u_e^2 delta_m)(b) - rho (u_e^2 delta_m)(a) + int rho delta_d u_e du_e`. The velocity has a continuous slope; no safeguard of the
implementation is active. -/
theorem head_drag (o : Obj ℝ) (u du dm h : ℝ → ℝ) (a b rho : ℝ) (S : HeadSolutionOn o u du dm h a b) (hnu : 0 < o.nu) (hab : a ≤ b)
    (hu : ∀ x ∈ Set.Icc a b, 1/1000 ≤ u x) (hdu : ContinuousOn du (Set.Icc a b)) (hh : ∀ x ∈ Set.Icc a b, 111/100 ≤ h x) (h0 : 0 < dm a) :
    ∃ (da db : ℝ) (dd tau : ℝ → ℝ), o.deltaM a = .ok da ∧ o.deltaM b = .ok db ∧ (∀ x ∈ Set.Icc a b, o.deltaD x = .ok (dd x) ∧ HeadShear o u dm h rho tau x) ∧
      ∫ x in a..b, tau x = rho * (u b ^ 2 * db) - rho * (u a ^ 2 * da) + ∫ x in a..b, rho * dd x * u x * du x := by
  have hq : ∀ t, o.deltaM t = .ok (dm t) := fun t => by
    simp [Obj.deltaM, S.isHead, Obj.comp, Obj.state, S.sol, bind, Except.bind, pure, Except.pure]
  have hqs : ∀ t, o.deltaD t = .ok (dm t * h t) := fun t => by
    simp [Obj.deltaD, Obj.deltaM, Obj.shapeD, S.isHead, Obj.comp, Obj.state, S.sol, bind, Except.bind, pure, Except.pure]
  obtain ⟨D, hD⟩ := isCompact_Icc.exists_bound_of_continuousOn hdu
  have hpos : ∀ x ∈ Set.Icc a b, 0 < dm x := fun x hx => by
    obtain ⟨d, h1, h2⟩ := head_stays_positive o u du dm h a b D S hnu (fun t ht => (le_abs_self _).trans (hD t ht)) h0 x hx
    rw [hq] at h1
    rwa [Except.ok.inj h1]
  have hucont : ContinuousOn u (Set.Icc a b) := fun x hx => (S.slope x hx).continuousAt.continuousWithinAt
  have ctau := tau_continuous (rho := rho) hnu hucont S.dmCont S.hCont hu hpos
  have cdd : ContinuousOn (fun x => rho * (dm x * h x) * u x * du x) (Set.Icc a b) :=
    ((continuousOn_const.mul (S.dmCont.mul S.hCont)).mul hucont).mul hdu
  obtain ⟨E, hE, ode⟩ := S.ode
  have hder : ∀ x ∈ Set.Ioo a b \ E, HasDerivAt (fun t => rho * (u t ^ 2 * dm t))
      (HeadArr.tauPoint o.nu rho (u x) (dm x) (h x) - rho * (dm x * h x) * u x * du x) x := fun x hx => by
    have hxm : x ∈ Set.Icc a b := ⟨hx.1.1.le, hx.1.2.le⟩
    obtain ⟨dd, tau, hp', e1, e2, -, -, e3⟩ := head_momentum_integral o u du dm h x rho
      ⟨S.isHead, S.sol, S.uE, S.duE, S.slope x hxm, ode x hxm hx.2⟩ ⟨hnu, hu x hxm, hpos x hxm, hh x hxm⟩
    rw [hqs] at e1
    rw [HeadArr.tau_w_array u _ o.nu rho [[x]] 0 [x] rfl] at e2
    simp only [Except.ok.injEq, Prod.mk.injEq, HeadArr.Num.v.injEq, List.map_cons, List.map_nil, List.cons.injEq, and_true] at e1 e2
    rw [e1, e2.2]
    exact e3
  refine ⟨_, _, fun x => dm x * h x, fun x => HeadArr.tauPoint o.nu rho (u x) (dm x) (h x), hq a, hq b,
    fun x _ => ⟨hqs x, _, HeadArr.tau_w_array u _ o.nu rho [[x]] 0 [x] rfl⟩, ?_⟩
  rw [← Set.uIcc_of_le hab] at ctau cdd
  have i1 := ctau.intervalIntegrable (μ := MeasureTheory.volume)
  have i2 := cdd.intervalIntegrable (μ := MeasureTheory.volume)
  have ftc := MeasureTheory.integral_eq_of_hasDerivAt_off_countable_of_le (fun t => rho * (u t ^ 2 * dm t)) _ hab hE.countable
    (continuousOn_const.mul ((hucont.pow 2).mul S.dmCont)) hder (i1.sub i2)
  rw [intervalIntegral.integral_sub i1 i2] at ftc
  linarith

/-- **C116**, Head on a flat plate: the drag is `rho U^2` times the growth of the momentum thickness. -/
theorem head_plate_drag (o : Obj ℝ) (dm h : ℝ → ℝ) (U a b rho : ℝ) (S : HeadSolutionOn o (fun _ => U) (fun _ => 0) dm h a b) (hnu : 0 < o.nu)
    (hab : a ≤ b) (hu : 1/1000 ≤ U) (hh : ∀ x ∈ Set.Icc a b, 111/100 ≤ h x) (h0 : 0 < dm a) :
    ∃ (da db : ℝ) (tau : ℝ → ℝ), o.deltaM a = .ok da ∧ o.deltaM b = .ok db ∧ (∀ x ∈ Set.Icc a b, HeadShear o (fun _ => U) dm h rho tau x) ∧
      ∫ x in a..b, tau x = rho * U ^ 2 * (db - da) := by
  obtain ⟨da, db, dd, tau, e1, e2, e3, e4⟩ := head_drag o _ _ dm h a b rho S hnu hab (fun _ _ => hu) continuousOn_const hh h0
  refine ⟨da, db, tau, e1, e2, fun x hx => (e3 x hx).2, ?_⟩
  rw [e4]
  simp
  ring

/-- A layer to which both apply. -/
example : ∃ (o : Obj ℝ) (dm h : ℝ → ℝ) (b : ℝ), 0 < b ∧ HeadSolutionOn o (fun _ => 1) (fun _ => 0) dm h 0 b ∧ 0 < o.nu ∧ 0 < dm 0 ∧
    ∀ x ∈ Set.Icc 0 b, 111/100 ≤ h x := by
  obtain ⟨dm, h, b, hb, S, h1, h2, h3⟩ := head_solution_exists 1 1 2 (1/10) (.manual 0 1 1 1 1) [] one_pos one_pos (by norm_num) (by norm_num)
  refine ⟨_, dm, h, b, hb, S, one_pos, by rw [h1]; norm_num, fun x hx => ?_⟩
  have := (abs_lt.1 (h3 x hx).2).1
  linarith

/-! ### Thwaites' methods -/

/-- What holds on a flat plate for either Thwaites method: the drag is `rho U (U + 0.001)` times the growth of the momentum thickness, times twice
the shear of the fits over the growth coefficient of the method (0.45 for the linear one). -/
theorem thwaites_plate_drag_partial (o : Obj ℝ) (m : Fits ℝ) (F : ℝ → ℝ) (U a b rho : ℝ) (S : ThwaitesSolution o m (fun _ => U) (fun _ => 0) F)
    (hnu : 0 < o.nu) (hU : -(1/1000) < U) (hs : 0 < m.shearAt 0) (hab : a ≤ b) (ode : ∀ x ∈ Set.Icc a b, SatisfiesOde o F x) (h0 : 0 < F a) :
    ∃ (da db : ℝ) (tau : ℝ → ℝ), o.deltaM a = .ok da ∧ o.deltaM b = .ok db ∧ (∀ x ∈ Set.Icc a b, o.tauWThwaites x rho = .ok (tau x)) ∧
      ∫ x in a..b, tau x = rho * U * (U + 1/1000) * (db - da) * (2 * m.shearAt 0 / flatGrowth o.cls (m.shearAt 0)) := by
  obtain ⟨c, hc⟩ : ∃ c, c = flatGrowth o.cls (m.shearAt 0) := ⟨_, rfl⟩
  have hc0 : 0 < c := by rw [hc]; unfold flatGrowth; split_ifs <;> linarith
  have hw : 0 < U + 1/1000 := by linarith
  have plate := flat_plate o m F U a b S hnu hU hs.le ode h0.le
  obtain ⟨da, -, hda, -⟩ := plate a ⟨le_rfl, hab⟩
  have hda0 : 0 < da := by
    have : o.deltaM a = .ok (Real.sqrt (F a * o.nu)) := by
      have := S.isThwaites
      cases hcl : o.cls <;> rw [hcl] at this <;> try cases this
      all_goals simp [Obj.deltaM, hcl, Obj.comp, Obj.state, S.sol, bind, Except.bind, pure, Except.pure]
    rw [this] at hda
    rw [← Except.ok.inj hda]
    exact Real.sqrt_pos.2 (mul_pos h0 hnu)
  rw [← hc] at plate ⊢
  let q : ℝ → ℝ := fun x => da ^ 2 + c * o.nu * (x - a) / (U + 1/1000)
  have hq : ∀ x ∈ Set.Icc a b, 0 < q x := fun x hx => by
    have : 0 ≤ c * o.nu * (x - a) / (U + 1/1000) := div_nonneg (mul_nonneg (mul_pos hc0 hnu).le (sub_nonneg.2 hx.1)) hw.le
    have := pow_pos hda0 2
    simp only [q]; linarith
  have hdm : ∀ x ∈ Set.Icc a b, o.deltaM x = .ok (Real.sqrt (q x)) ∧ ∀ rho, o.tauWThwaites x rho = .ok (rho * o.nu * U * m.shearAt 0 / Real.sqrt (q x)) :=
      fun x hx => by
    obtain ⟨da', d, e1, e2, e3, e4, -, e5⟩ := plate x hx
    rw [hda] at e1
    have : d = Real.sqrt (q x) := by
      simp only [q]
      rw [Except.ok.inj e1, ← e4, Real.sqrt_sq e3]
    rw [← this]
    exact ⟨e2, e5⟩
  refine ⟨_, _, fun x => rho * o.nu * U * m.shearAt 0 / Real.sqrt (q x), (hdm a ⟨le_rfl, hab⟩).1, (hdm b ⟨hab, le_rfl⟩).1,
    fun x hx => (hdm x hx).2 rho, ?_⟩
  have hqd : ∀ x, HasDerivAt q (c * o.nu / (U + 1/1000)) x := fun x =>
    (((((hasDerivAt_id x).sub_const a).const_mul (c * o.nu)).div_const (U + 1/1000)).const_add (da ^ 2)).congr_deriv (by ring)
  have hd : ∀ x ∈ Set.uIcc a b, HasDerivAt (fun t => rho * U * (U + 1/1000) * (2 * m.shearAt 0 / c) * Real.sqrt (q t))
      (rho * o.nu * U * m.shearAt 0 / Real.sqrt (q x)) x := fun x hx => by
    rw [Set.uIcc_of_le hab] at hx
    refine (((hqd x).sqrt (hq x hx).ne').const_mul _).congr_deriv ?_
    have h1 := (Real.sqrt_pos.2 (hq x hx)).ne'
    have h2 := hc0.ne'
    have h3 := hw.ne'
    generalize Real.sqrt (q x) = g at h1
    generalize U + 1/1000 = w at h3
    field_simp
  have hi : IntervalIntegrable (fun x => rho * o.nu * U * m.shearAt 0 / Real.sqrt (q x)) MeasureTheory.volume a b := by
    apply ContinuousOn.intervalIntegrable
    rw [Set.uIcc_of_le hab]
    exact continuousOn_const.div (fun x _ => (hqd x).continuousAt.sqrt.continuousWithinAt) fun x hx => (Real.sqrt_pos.2 (hq x hx)).ne'
  rw [intervalIntegral.integral_eq_sub_of_hasDerivAt hd hi]
  ring

/-- **C116** for the nonlinear method: there the last factor is 1, and the drag is the momentum lost but for the factor `(U + 0.001) / U`. -/
theorem nonlinear_plate_drag (o : Obj ℝ) (m : Fits ℝ) (F : ℝ → ℝ) (U a b rho : ℝ) (S : ThwaitesSolution o m (fun _ => U) (fun _ => 0) F)
    (hc : o.cls = .thwaitesNonlinear) (hnu : 0 < o.nu) (hU : 0 < U) (hs : 0 < m.shearAt 0) (hab : a ≤ b)
    (ode : ∀ x ∈ Set.Icc a b, SatisfiesOde o F x) (h0 : 0 < F a) :
    ∃ (da db : ℝ) (tau : ℝ → ℝ), o.deltaM a = .ok da ∧ o.deltaM b = .ok db ∧ (∀ x ∈ Set.Icc a b, o.tauWThwaites x rho = .ok (tau x)) ∧
      ∫ x in a..b, tau x = rho * U ^ 2 * (db - da) * ((U + 1/1000) / U) := by
  obtain ⟨da, db, tau, e1, e2, e3, e4⟩ := thwaites_plate_drag_partial o m F U a b rho S hnu (by linarith) hs hab ode h0
  refine ⟨da, db, tau, e1, e2, e3, ?_⟩
  rw [e4, flatGrowth, hc, if_neg (by decide), div_self (by positivity)]
  field_simp

/-- The full claim for Thwaites' methods with built-in fits: the drag of a flat plate is `rho U^2` times the growth of the momentum thickness. -/
def PlateDrag : Prop :=
  ∀ (o : Obj ℝ) (m : Fits ℝ) (F : ℝ → ℝ) (U a b rho : ℝ), ThwaitesSolution o m (fun _ => U) (fun _ => 0) F → BuiltIn m → 0 < o.nu → 0 < U → a ≤ b →
    (∀ x ∈ Set.Icc a b, SatisfiesOde o F x) → 0 < F a → ∃ (da db : ℝ) (tau : ℝ → ℝ), o.deltaM a = .ok da ∧ o.deltaM b = .ok db ∧
      (∀ x ∈ Set.Icc a b, o.tauWThwaites x rho = .ok (tau x)) ∧ ∫ x in a..b, tau x = rho * U ^ 2 * (db - da)

/-- A plate at the speed 0.999 with Drela's fits and the nonlinear method. -/
private noncomputable def plateObj : Obj ℝ := ⟨.thwaitesNonlinear, 1, ⟨some (.fn fun _ => .ok (999/1000)), some (.fn fun _ => .ok 0), none⟩,
  .manual 0 1 1 1 1, [], some fun x => [44/100 * x], some Fits.drela⟩

private theorem plate_sol : ThwaitesSolution plateObj Fits.drela (fun _ => 999/1000) (fun _ => 0) (fun x => 44/100 * x) ∧
    (∀ x, SatisfiesOde plateObj (fun x => 44/100 * x) x) ∧ (drela : Fits ℝ).shearAt 0 = 22/100 := by
  obtain ⟨cs, hcs⟩ := table_splines_exist
  have hsh := (flat_plate_values hcs).1 drela (by simp)
  refine ⟨⟨rfl, rfl, rfl, fun t => ?_, fun t => ?_⟩, fun x => ?_, hsh.1⟩
  · simp [plateObj, VelState.uE, VelState.rawU, callOpt, Vel.call]
  · simp [plateObj, VelState.duE, VelState.rawDu, callOpt, Vel.call]
  · refine ⟨44/100, ?_, ((hasDerivAt_id x).const_mul (44/100)).congr_deriv (by ring)⟩
    have e : (drela : Fits ℝ).fAt 0 = 44/100 := by simp only [fAt, hsh.1, real_lit]; push_cast; ring
    simp [plateObj, Obj.rhs, Obj.thwaitesRhs, Obj.calcF, Obj.calcLambda, VelState.uE, VelState.duE, VelState.rawU, VelState.rawDu, callOpt,
      Vel.call, e, bind, Except.bind, pure, Except.pure]
    norm_num

/-- The full claim is false: the 0.001 that the code adds to the velocity is in the drag. -/
theorem plate_drag_fails : ¬ PlateDrag := by
  intro H
  obtain ⟨S, ode, hs⟩ := plate_sol
  obtain ⟨da, db, tau, e1, e2, e3, e4⟩ := H plateObj _ _ (999/1000) 1 2 1 S (.inr (.inr (.inl rfl))) one_pos (by norm_num) (by norm_num)
    (fun x _ => ode x) (by norm_num)
  obtain ⟨da', db', tau', f1, f2, f3, f4⟩ := nonlinear_plate_drag plateObj _ _ (999/1000) 1 2 1 S rfl one_pos (by norm_num) (by rw [hs]; norm_num)
    (by norm_num) (fun x _ => ode x) (by norm_num)
  rw [e1] at f1
  rw [e2] at f2
  have ht : ∫ x in (1:ℝ)..2, tau x = ∫ x in (1:ℝ)..2, tau' x := by
    apply intervalIntegral.integral_congr
    intro x hx
    rw [Set.uIcc_of_le (by norm_num)] at hx
    have := f3 x hx
    rw [e3 x hx] at this
    exact Except.ok.inj this
  rw [ht, f4, ← Except.ok.inj f1, ← Except.ok.inj f2] at e4
  have hg : GrowsOn plateObj 1 2 := thwaites_grows ⟨S, .inr (.inr (.inr (.inl rfl))), one_pos, fun _ _ => by norm_num, fun _ _ => le_rfl,
    fun x _ => ode x, by norm_num⟩
  obtain ⟨d, e, g1, g2, -, g3⟩ := hg 1 ⟨le_rfl, by norm_num⟩ 2 ⟨by norm_num, le_rfl⟩ (by norm_num)
  rw [e1] at g1
  rw [e2] at g2
  rw [Except.ok.inj g1, Except.ok.inj g2] at e4
  nlinarith

/-- The hypotheses of `thwaites_plate_drag_partial` and `nonlinear_plate_drag` hold there. -/
example : ∃ (o : Obj ℝ) (F : ℝ → ℝ), ThwaitesSolution o drela (fun _ => 999/1000) (fun _ => 0) F ∧ o.cls = .thwaitesNonlinear ∧ 0 < o.nu ∧
    0 < (drela : Fits ℝ).shearAt 0 ∧ (∀ x ∈ Set.Icc (1:ℝ) 2, SatisfiesOde o F x) ∧ 0 < F 1 :=
  ⟨plateObj, _, plate_sol.1, rfl, one_pos, by rw [plate_sol.2.2]; norm_num, fun x _ => plate_sol.2.1 x, by norm_num⟩

end IBL
