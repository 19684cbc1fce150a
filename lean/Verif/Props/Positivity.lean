import Verif.Lemmas.Barrier
import Verif.Props.FitsSpline
import Verif.Props.ThwaitesOde

/-!
C18 for both Thwaites methods and all built-in fits: the solution variable is bounded away from zero by the largest velocity slope.
-/

namespace IBL
open Fits

/-- The built-in data fits. -/
def BuiltIn (m : Fits ℝ) : Prop :=
  m = Fits.white ∨ m = cebeciBradshaw ∨ m = drela ∨ ∃ cs, TableSplines cs ∧ m = spline cs

private theorem f_pos_of (m : Fits ℝ) (lam : ℝ) (h : lam * (m.shapeAt lam + 2) < m.shearAt lam) : 0 < m.fAt lam := by
  simp only [fAt, real_lit]
  push_cast
  linarith

private theorem f_pos_white (lam : ℝ) (h : lam ≤ 1/25) : 0 < (Fits.white : Fits ℝ).fAt lam := by
  apply f_pos_of
  rcases lt_or_ge lam 0 with h0 | h0
  · have h1 : 0 ≤ (Fits.white : Fits ℝ).shearAt lam := by
      rw [shearAt, white_clip]
      simp only [Fits.white, real_pow, real_lit]
      apply Real.rpow_nonneg
      push_cast
      linarith [le_max_right lam (-9/100)]
    have h2 := white_shape_ge lam (by linarith)
    nlinarith
  · rw [shearAt, shapeAt, white_clip, max_eq_left (by linarith)]
    simp only [Fits.white, real_pow, real_lit]
    have e : (((62/100 : ℚ)) : ℝ) = 31 * (50:ℝ)⁻¹ := by norm_num
    have h1 : (22/100 : ℝ) ≤ (lam + ((9/100 : ℚ) : ℝ)) ^ (((62/100 : ℚ)) : ℝ) := by
      have h3 : (22/100 : ℝ) ≤ ((9/100 : ℝ) ^ 31) ^ ((50:ℝ)⁻¹) := by
        rw [Real.le_rpow_inv_iff_of_pos (by norm_num) (by norm_num) (by norm_num)]
        norm_num
      have h4 : ((9/100 : ℝ) ^ 31) ^ ((50:ℝ)⁻¹) = (9/100 : ℝ) ^ (((62/100 : ℚ)) : ℝ) := by
        rw [e, Real.rpow_mul (by norm_num)]
        norm_num
      rw [h4] at h3
      refine h3.trans (Real.rpow_le_rpow (by norm_num) ?_ (by norm_num))
      push_cast; linarith
    refine lt_of_lt_of_le ?_ h1
    push_cast
    have hz : 1/4 - 1/25 ≤ 1/4 - lam := by linarith
    have hz' : 1/4 - lam ≤ 1/4 := by linarith
    generalize hzz : 1/4 - lam = z at hz hz'
    have : z * (414/100 + z * (-835/10 + z * (854 + z * (-3337 + z * 4576)))) ≤ 11/10 := by
      have h5 : z * 4576 ≤ 1144 := by linarith
      have h6 : 854 + z * (-3337 + z * 4576) ≤ 854 + z * (-2193) := by nlinarith
      have h7 : -835/10 + z * (854 + z * (-3337 + z * 4576)) ≤ -835/10 + z * (854 + z * (-2193)) := by nlinarith
      have h8 : -835/10 + z * (854 + z * (-2193)) ≤ 0 := by nlinarith
      have h9 : 414/100 + z * (-835/10 + z * (854 + z * (-3337 + z * 4576))) ≤ 414/100 + z * (-835/10 + z * (854 + z * (-2193))) := by nlinarith
      have h10 : z * (-835/10 + z * (854 + z * (-2193))) ≤ 0 := mul_nonpos_of_nonneg_of_nonpos (by linarith) h8
      nlinarith
    nlinarith

private theorem f_pos_cb (lam : ℝ) (h : lam ≤ 1/25) : 0 < (cebeciBradshaw : Fits ℝ).fAt lam := by
  apply f_pos_of
  rw [shearAt, shapeAt, cb_clip]
  rcases lt_or_ge lam 0 with h0 | h0
  · have h1 : min (max lam (-1/10)) (1/10 : ℝ) < 0 := lt_of_le_of_lt (min_le_left _ _) (max_lt h0 (by norm_num))
    have h2 : -1/10 ≤ min (max lam (-1/10)) (1/10 : ℝ) := le_min (le_max_right _ _) (by norm_num)
    have h3 : lam ≤ min (max lam (-1/10)) (1/10 : ℝ) := le_min (le_max_left _ _) (by linarith)
    generalize min (max lam (-1/10)) (1/10 : ℝ) = t at h1 h2 h3
    have ht : t < ((0:ℚ) : ℝ) := by push_cast; exact h1
    simp only [cebeciBradshaw, piecewise0, real_lt, real_lit, if_pos ht]
    push_cast
    have hd : (0:ℝ) < 107/1000 + t := by linarith
    have hq : -(18/7) * -t ≤ 18/1000 * t / (107/1000 + t) := by
      rw [le_div_iff₀ hd]; nlinarith
    have hp : (0:ℝ) < 731/10000 / (14/100 + t) := by apply div_pos <;> linarith
    nlinarith
  · rw [max_eq_left (by linarith), min_eq_left (by linarith)]
    have ht : ¬ lam < ((0:ℚ) : ℝ) := by push_cast; linarith
    have ht' : lam ≥ ((0:ℚ) : ℝ) := by push_cast; linarith
    simp only [cebeciBradshaw, piecewise0, real_lt, real_ge, real_lit, if_neg ht, if_pos ht']
    push_cast
    nlinarith [mul_nonneg h0 h0, mul_nonneg h0 (mul_nonneg h0 h0)]

private theorem f_pos_drela (lam : ℝ) (h : lam ≤ 1/25) : 0 < (drela : Fits ℝ).fAt lam := by
  apply f_pos_of
  have key : ∀ t : ℝ, -9/100 ≤ t → t ≤ 1/25 → t * t / ((t + 18/100) * (t + 18/100)) ≤ 1 ∧
      (0 ≤ t → t * t / ((t + 18/100) * (t + 18/100)) ≤ 1/20) := fun t h1 h2 => by
    have hp : 0 < (t + 18/100) * (t + 18/100) := by apply mul_pos <;> linarith
    exact ⟨by rw [div_le_one hp]; nlinarith, fun h3 => by rw [div_le_iff₀ hp]; nlinarith⟩
  rcases lt_or_ge lam 0 with h0 | h0
  · have hH := drela_shape_gt lam (by linarith)
    have hs : 0 < (drela : Fits ℝ).shearAt lam := by
      rw [shearAt, drela_clip]
      have h1 : max lam (-9/100) ≤ 0 := max_le h0.le (by norm_num)
      have h2 : -9/100 ≤ max lam (-9/100) := le_max_right _ _
      generalize max lam (-9/100) = t at h1 h2
      have hk := (key t h2 (by linarith)).1
      simp only [drela, real_lit]
      push_cast
      rw [mul_div_assoc]
      nlinarith [mul_nonneg (mul_self_nonneg t) (by linarith : 0 ≤ -t)]
    nlinarith
  · rw [shearAt, shapeAt, drela_clip, max_eq_left (by linarith)]
    have hk := (key lam (by linarith) h).2 h0
    have hk0 : 0 ≤ lam * lam / ((lam + 18/100) * (lam + 18/100)) := div_nonneg (mul_self_nonneg _) (mul_self_nonneg _)
    simp only [drela, real_lit]
    push_cast
    rw [mul_div_assoc (72/1000), mul_div_assoc (56/100)]
    generalize lam * lam / ((lam + 18/100) * (lam + 18/100)) = q at hk hk0
    have h3 : lam * lam * lam ≤ 1/15625 := by
      have := pow_le_pow_left₀ h0 h 3
      nlinarith
    have h4 : 261/100 - 41/10 * lam + 14 * (lam * lam * lam) + 56/100 * q ≤ 265/100 := by nlinarith
    have h5 : lam * (261/100 - 41/10 * lam + 14 * (lam * lam * lam) + 56/100 * q + 2) ≤ lam * (265/100 + 2) :=
      mul_le_mul_of_nonneg_left (by linarith) h0
    nlinarith

private theorem f_pos_spline {cs : CubicSpline ℝ} (hcs : TableSplines cs) (lam : ℝ) (h : lam ≤ 1/25) : 0 < (spline cs).fAt lam := by
  apply f_pos_of
  obtain ⟨b1, -, b3, -⟩ := spline_bounds hcs lam
  rcases lt_or_ge lam 0 with h0 | h0
  · nlinarith
  · obtain ⟨e1, e2⟩ := spline_interpolates hcs 16 0 (220/1000) (261/100) (by decide +kernel) (by decide +kernel) (by decide +kernel)
    push_cast at e1 e2
    have hs : 22/100 ≤ (spline cs).shearAt lam ∧ (spline cs).shapeAt lam ≤ 261/100 := by
      rcases h0.eq_or_lt with h1 | h1
      · rw [← h1, e1, e2]; norm_num
      · obtain ⟨m1, m2⟩ := spline_monotone hcs 0 lam (by norm_num) h1 (by linarith)
        rw [e1] at m1; rw [e2] at m2
        exact ⟨by linarith, m2.le⟩
    nlinarith [hs.1, hs.2]

/-- For every built-in fit the right hand side is positive for every lambda up to 0.04, whatever is clipped. -/
theorem builtin_f_pos {m : Fits ℝ} (hm : BuiltIn m) (lam : ℝ) (h : lam ≤ 1/25) : 0 < m.fAt lam := by
  rcases hm with rfl | rfl | rfl | ⟨cs, hcs, rfl⟩
  · exact f_pos_white lam h
  · exact f_pos_cb lam h
  · exact f_pos_drela lam h
  · exact f_pos_spline hcs lam h

/-- **C18**: along every solution of either Thwaites method with a built-in fit, on every interval on which `u_e > -0.001` and
`du_e <= D`, the square of the reported momentum thickness stays at or above the smaller of its first value and `0.04 nu / D`. -/
theorem thwaites_bounded_below (o : Obj ℝ) (m : Fits ℝ) (u du F : ℝ → ℝ) (a b D : ℝ) (S : ThwaitesSolution o m u du F)
    (hm : o.cls = .thwaitesLinear ∨ BuiltIn m) (hnu : 0 < o.nu) (hD : 0 < D)
    (hu0 : ∀ x ∈ Set.Icc a b, -(1/1000) < u x) (hdu : ∀ x ∈ Set.Icc a b, du x ≤ D)
    (ode : ∀ x ∈ Set.Icc a b, SatisfiesOde o F x) (h0 : 0 < F a) :
    ∀ x ∈ Set.Icc a b, ∃ da d, o.deltaM a = .ok da ∧ o.deltaM x = .ok d ∧ 0 < d ∧ min (da ^ 2) (4/100 * o.nu / D) ≤ d ^ 2 := by
  have hq : ∀ t, o.deltaM t = .ok (Real.sqrt (F t * o.nu)) := fun t => by
    have hc : o.comp 0 t = .ok (F t) := by simp [Obj.comp, Obj.state, S.sol, bind, Except.bind, pure, Except.pure]
    have : o.cls = .thwaitesLinear ∨ o.cls = .thwaitesNonlinear := by
      have := S.isThwaites
      rcases hc : o.cls with _ | _ | _ <;> simp_all [Cls.isThwaites]
    rcases this with h | h <;> simp [Obj.deltaM, h, hc, bind, Except.bind, pure, Except.pure]
  have hrate : ∀ x ∈ Set.Icc a b, ∃ r, HasDerivAt F r x ∧ (F x * du x ≤ 1/25 → 0 ≤ r) := fun x hx => by
    obtain ⟨r, hr, hd⟩ := ode x hx
    refine ⟨r, hd, fun hl => ?_⟩
    have hu1 : 0 < 1/1000 + u x := by have := hu0 x hx; linarith
    have hcls : o.cls = .thwaitesLinear ∨ o.cls = .thwaitesNonlinear ∧ BuiltIn m := by
      rcases hm with h | h
      · exact .inl h
      · have := S.isThwaites
        rcases hc : o.cls with _ | _ | _ <;> simp_all [Cls.isThwaites]
    rcases hcls with hc | ⟨hc, hb⟩
    · have : o.rhs x [F x] = .ok [(45/100 - 6 * (F x * du x)) / (1/1000 + u x)] := by
        simp [Obj.rhs, hc, Obj.thwaitesRhs, Obj.calcF, Obj.calcLambda, S.uE, S.duE, bind, Except.bind, pure, Except.pure]
      rw [this] at hr
      simp only [Except.ok.injEq, List.cons.injEq, and_true] at hr
      rw [← hr]
      exact div_nonneg (by linarith) hu1.le
    · have : o.rhs x [F x] = .ok [m.fAt (F x * du x) / (1/1000 + u x)] := by
        simp [Obj.rhs, hc, Obj.thwaitesRhs, Obj.calcF, Obj.calcLambda, S.uE, S.duE, S.fits, bind, Except.bind, pure, Except.pure]
      rw [this] at hr
      simp only [Except.ok.injEq, List.cons.injEq, and_true] at hr
      rw [← hr]
      exact div_nonneg (builtin_f_pos hb _ hl).le hu1.le
  have hex : ∃ r : ℝ → ℝ, ∀ x ∈ Set.Icc a b, HasDerivAt F (r x) x ∧ (F x * du x ≤ 1/25 → 0 ≤ r x) :=
    ⟨fun x => deriv F x, fun x hx => by
      obtain ⟨r, h1, h2⟩ := hrate x hx
      show HasDerivAt F (deriv F x) x ∧ (_ → 0 ≤ deriv F x)
      rw [h1.deriv]; exact ⟨h1, h2⟩⟩
  obtain ⟨r, hr⟩ := hex
  have hD' : 0 < 1/25/D := by positivity
  have key := barrier (F := F) (r := r) (a := a) (b := b) (c := min (F a) (1/25/D)) (lo := 0) (lt_min h0 hD')
    (fun x hx => (hr x hx).1) (min_le_left _ _) (fun x hx h1 h2 => by
      refine (hr x hx).2 ?_
      have h3 : F x < 1/25/D := lt_of_lt_of_le h2 (min_le_right _ _)
      rw [lt_div_iff₀ hD] at h3
      have h4 := mul_le_mul_of_nonneg_left (hdu x hx) h1.le
      linarith)
  intro x hx
  have hx1 := key x hx
  have hpos : 0 < F x := lt_of_lt_of_le (lt_min h0 hD') hx1
  refine ⟨_, _, hq a, hq x, Real.sqrt_pos.2 (mul_pos hpos hnu), ?_⟩
  rw [Real.sq_sqrt (mul_pos h0 hnu).le, Real.sq_sqrt (mul_pos hpos hnu).le]
  rcases min_le_iff.1 hx1 with h | h
  · exact (min_le_left _ _).trans (mul_le_mul_of_nonneg_right h hnu.le)
  · refine (min_le_right _ _).trans ?_
    have := mul_le_mul_of_nonneg_right h hnu.le
    have e : 4/100 * o.nu / D = 1/25/D * o.nu := by ring
    rw [e]; exact this

/-- Non-vacuity: the nonlinear method with Drela's fits in a uniform stream has straight lines as solutions. -/
example : ∃ (o : Obj ℝ) (u du F : ℝ → ℝ), ThwaitesSolution o drela u du F ∧ o.cls = .thwaitesNonlinear ∧ BuiltIn drela ∧ 0 < o.nu ∧
    (∀ x ∈ Set.Icc (0:ℝ) 1, -(1/1000) < u x ∧ du x ≤ 1 ∧ SatisfiesOde o F x) ∧ 0 < F 0 := by
  let r := (drela : Fits ℝ).fAt 0 / (1/1000 + 1)
  let o : Obj ℝ := ⟨.thwaitesNonlinear, 1, ⟨some (.fn fun _ => .ok 1), some (.fn fun _ => .ok 0), none⟩,
    .manual 0 1 1 1 1, [], some fun t => [1 + r * t], some drela⟩
  refine ⟨o, fun _ => 1, fun _ => 0, fun t => 1 + r * t, ⟨rfl, rfl, rfl, fun t => ?_, fun t => ?_⟩, rfl, .inr (.inr (.inl rfl)), one_pos,
    fun x _ => ⟨by norm_num, by norm_num, r, ?_, ?_⟩, by norm_num⟩
  · simp [o, VelState.uE, VelState.rawU, callOpt, Vel.call]
  · simp [o, VelState.duE, VelState.rawDu, callOpt, Vel.call]
  · simp [o, r, Obj.rhs, Obj.thwaitesRhs, Obj.calcF, Obj.calcLambda, VelState.uE, VelState.duE, VelState.rawU, VelState.rawDu, callOpt,
      Vel.call, bind, Except.bind, pure, Except.pure]
  · simpa using ((hasDerivAt_id x).const_mul r).const_add 1

end IBL
