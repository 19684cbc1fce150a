import Mathlib.Analysis.ODE.ExistUnique
import Verif.Props.ThwaitesUnique

/-!
C83: the problem the nonlinear Thwaites method poses has a solution over the whole interval with three of the built-in fits, and not always
with White's.
-/

namespace IBL
open Fits

/-! ### Growth of the right hand side -/

/-- At most linear growth. -/
private def Grows (m : Fits ℝ) : Prop := ∃ A, 0 ≤ A ∧ ∀ lam, m.fAt lam ≤ A * (1 + |lam|)

private theorem grows_of {m : Fits ℝ} (h : ∀ lam, m.shearAt lam ≤ 1/2 ∧ -2 ≤ m.shapeAt lam ∧ m.shapeAt lam ≤ 4) : Grows m := by
  refine ⟨12, by norm_num, fun lam => ?_⟩
  obtain ⟨h1, h2, h3⟩ := h lam
  simp only [fAt, real_lit]
  push_cast
  have : -(lam * (m.shapeAt lam + 2)) ≤ |lam| * 6 := by
    rw [← neg_mul]
    exact mul_le_mul (neg_le_abs lam) (by linarith) (by linarith) (abs_nonneg _)
  nlinarith [abs_nonneg lam]

private theorem grows_spline {cs : CubicSpline ℝ} (hcs : TableSplines cs) : Grows (spline cs) :=
  grows_of fun lam => by
    obtain ⟨h1, h2, -, h4⟩ := spline_bounds hcs lam
    exact ⟨h4, by linarith, by linarith⟩

private theorem grows_cb : Grows cebeciBradshaw := by
  refine grows_of fun lam => ?_
  rw [shearAt, shapeAt, cb_clip]
  have h1 : -1/10 ≤ min (max lam (-1/10)) (1/10 : ℝ) := le_min (le_max_right _ _) (by norm_num)
  have h2 : min (max lam (-1/10)) (1/10 : ℝ) ≤ 1/10 := min_le_right _ _
  generalize min (max lam (-1/10)) (1/10 : ℝ) = t at h1 h2
  simp only [cebeciBradshaw, piecewise0, real_lt, real_ge, real_lit]
  rcases lt_or_ge t 0 with h0 | h0
  · have ht : t < ((0:ℚ) : ℝ) := by push_cast; exact h0
    rw [if_pos ht, if_pos ht]
    push_cast
    have d1 : 0 < 107/1000 + t := by linarith
    have d2 : 0 < 14/100 + t := by linarith
    have e1 : 18/1000 * t / (107/1000 + t) ≤ 0 := div_nonpos_of_nonpos_of_nonneg (by linarith) d1.le
    have e2 : 731/10000 / (14/100 + t) ≤ 1829/1000 := by rw [div_le_iff₀ d2]; linarith
    have e3 : 0 ≤ 731/10000 / (14/100 + t) := by positivity
    refine ⟨by linarith, by linarith, by linarith⟩
  · have ht : ¬ t < ((0:ℚ) : ℝ) := by push_cast; linarith
    rw [if_neg ht, if_neg ht, if_pos (by push_cast; exact h0), if_pos (by push_cast; exact h0)]
    push_cast
    refine ⟨by nlinarith, by nlinarith, by nlinarith⟩

private theorem grows_drela : Grows drela := by
  refine ⟨12, by norm_num, fun lam => ?_⟩
  rcases lt_or_ge lam 0 with h0 | h0
  · have h1 : shearAt drela lam ≤ 1/2 ∧ shapeAt drela lam ≤ 4 := by
      rw [shearAt, shapeAt, drela_clip]
      have h1 : -9/100 ≤ max lam (-9/100 : ℝ) := le_max_right _ _
      have h2 : max lam (-9/100 : ℝ) ≤ 0 := max_le h0.le (by norm_num)
      generalize max lam (-9/100 : ℝ) = t at h1 h2
      simp only [drela, real_lit]
      push_cast
      have d : 0 < (t + 18/100) * (t + 18/100) := by apply mul_pos <;> linarith
      have hq : 0 ≤ t * t / ((t + 18/100) * (t + 18/100)) := div_nonneg (mul_self_nonneg t) d.le
      have hq1 : t * t / ((t + 18/100) * (t + 18/100)) ≤ 1 := by rw [div_le_one d]; nlinarith
      have h3 : 0 ≤ t * t := mul_self_nonneg t
      have h4 : t * t ≤ 81/10000 := by nlinarith
      have h5 : -(t * t * t) ≤ 1/1000 := by nlinarith
      have h6 : t * t * t ≤ 0 := by nlinarith
      rw [mul_div_assoc (72/1000 : ℝ), mul_div_assoc (56/100 : ℝ)]
      exact ⟨by linarith, by linarith⟩
    have h2 := drela_shape_gt lam (by linarith)
    simp only [fAt, real_lit]
    push_cast
    have : -(lam * (shapeAt drela lam + 2)) ≤ |lam| * 6 := by
      rw [← neg_mul]
      exact mul_le_mul (neg_le_abs lam) (by linarith [h1.2]) (by linarith) (abs_nonneg _)
    nlinarith [abs_nonneg lam, h1.1]
  · rw [abs_of_nonneg h0, fAt, shearAt, shapeAt, drela_clip, max_eq_left (by linarith)]
    simp only [drela, real_lit]
    push_cast
    have d : 0 < (lam + 18/100) * (lam + 18/100) := by positivity
    have hq : 0 ≤ lam * lam / ((lam + 18/100) * (lam + 18/100)) := by positivity
    rw [mul_div_assoc (72/1000 : ℝ), mul_div_assoc (56/100 : ℝ)]
    generalize lam * lam / ((lam + 18/100) * (lam + 18/100)) = q at hq
    have h1 : 82/10 * (lam * lam) ≤ 10 * (lam * lam * lam) + 7 * lam := by
      have : 0 ≤ lam * (10 * (lam * lam) - 82/10 * lam + 7) := mul_nonneg h0 (by nlinarith [sq_nonneg (lam - 41/100)])
      linarith
    have h2 : 0 ≤ lam * q := mul_nonneg h0 hq
    have h3 : 0 ≤ lam * (lam * lam * lam) := by positivity
    linarith

/-- The fits with which the problem is solvable in every flow: the built-in ones but White's. -/
def TameFit (m : Fits ℝ) : Prop := m = cebeciBradshaw ∨ m = drela ∨ ∃ cs, TableSplines cs ∧ m = spline cs

private theorem TameFit.spec {m : Fits ℝ} (h : TameFit m) : BuiltIn m ∧ Grows m ∧ Sides m := by
  rcases h with rfl | rfl | ⟨cs, hcs, rfl⟩
  · exact ⟨.inr (.inl rfl), grows_cb, sides_cb⟩
  · exact ⟨.inr (.inr (.inl rfl)), grows_drela, sides_drela⟩
  · exact ⟨.inr (.inr (.inr ⟨cs, hcs, rfl⟩)), grows_spline hcs, sides_spline hcs⟩

/-! ### Existence -/

/-- Clamping. -/
noncomputable def clamp (p q x : ℝ) : ℝ := max p (min x q)

theorem clamp_mem {p q : ℝ} (h : p ≤ q) (x : ℝ) : clamp p q x ∈ Set.Icc p q := ⟨le_max_left _ _, max_le h (min_le_right _ _)⟩
theorem clamp_of_mem {p q x : ℝ} (h : x ∈ Set.Icc p q) : clamp p q x = x := by rw [clamp, min_eq_left h.2, max_eq_right h.1]
theorem clamp_lip (p q x y : ℝ) : |clamp p q x - clamp p q y| ≤ |x - y| := by
  have h1 : |clamp p q x - clamp p q y| ≤ |min x q - min y q| := by
    have := abs_max_sub_max_le_max p (min x q) p (min y q)
    simpa [clamp] using this
  refine h1.trans ?_
  have := abs_min_sub_min_le_max x q y q
  simpa using this
theorem clamp_cont (p q : ℝ) : Continuous (clamp p q) := by unfold clamp; fun_prop

/-- A scalar equation of this form whose right hand side is Lipschitz continuous on bounded ranges, grows at most linearly and is positive up to 0.04 has
a positive solution on the whole interval, with bounds that depend on the growth and the bounds of the flow only. -/
theorem exists_lip {f u du : ℝ → ℝ} {a b F0 A w0 D : ℝ} (hlips : ∀ B, 0 ≤ B → LipOn f (-B) B) (hA : 0 ≤ A) (hgrow : ∀ l, f l ≤ A * (1 + |l|))
    (hpos : ∀ l ≤ 1/25, 0 < f l) (hu : ContinuousOn u (Set.Icc a b)) (hdu : ContinuousOn du (Set.Icc a b)) (hw0p : 0 < w0)
    (hw : ∀ t ∈ Set.Icc a b, w0 ≤ 1/1000 + u t) (hD : 0 < D) (hd : ∀ t ∈ Set.Icc a b, |du t| ≤ D) (hab : a ≤ b) (h0 : 0 < F0) :
    ∃ y : ℝ → ℝ, y a = F0 ∧ ∀ t ∈ Set.Icc a b, HasDerivAt y (f (y t * du t) / (1/1000 + u t)) t ∧ min F0 (1 / (25 * D)) ≤ y t ∧
      y t ≤ (F0 + 1) * Real.exp ((A * (1 + D) / w0 + 1) * (b - a)) := by
  -- the a priori bound
  obtain ⟨K, hK⟩ : ∃ K, K = A * (1 + D) / w0 + 1 := ⟨_, rfl⟩
  have hKp : 0 < K := by rw [hK]; positivity
  obtain ⟨C, hCdef⟩ : ∃ C, C = (F0 + 1) * Real.exp (K * (b - a)) := ⟨_, rfl⟩
  have hC : 0 < C := by rw [hCdef]; positivity
  obtain ⟨L, hL, hlip⟩ := hlips (C * D) (mul_nonneg hC.le hD.le)
  -- the truncated right hand side
  let g : ℝ → ℝ → ℝ := fun t y => f (clamp 0 C y * du (clamp a b t)) / (1/1000 + u (clamp a b t))
  have hl : ∀ t y, clamp 0 C y * du (clamp a b t) ∈ Set.Icc (-(C * D)) (C * D) := fun t y => by
    have h1 := clamp_mem hC.le y
    have h2 := hd _ (clamp_mem hab t)
    refine abs_le.1 ?_
    rw [abs_mul, abs_of_nonneg h1.1]
    exact mul_le_mul h1.2 h2 (abs_nonneg _) hC.le
  have hwc : ∀ t, w0 ≤ 1/1000 + u (clamp a b t) := fun t => hw _ (clamp_mem hab t)
  obtain ⟨N, hN⟩ : ∃ N, N = (|f 0| + L * (C * D)) / w0 := ⟨_, rfl⟩
  have hN0 : 0 ≤ N := by rw [hN]; positivity
  have hgN : ∀ t y, |g t y| ≤ N := fun t y => by
    have h1 := hlip _ (hl t y) 0 ⟨by have := mul_pos hC hD; linarith, (mul_pos hC hD).le⟩
    have h2 : |clamp 0 C y * du (clamp a b t)| ≤ C * D := abs_le.2 (hl t y)
    have h3 : |f (clamp 0 C y * du (clamp a b t))| ≤ |f 0| + L * (C * D) := by
      have h4 := abs_add_le (f (clamp 0 C y * du (clamp a b t)) - f 0) (f 0)
      rw [sub_add_cancel] at h4
      rw [sub_zero] at h1
      have := mul_le_mul_of_nonneg_left h2 hL
      linarith
    rw [hN]
    simp only [g]
    rw [abs_div, abs_of_pos (lt_of_lt_of_le hw0p (hwc t))]
    exact div_le_div₀ (by positivity) h3 hw0p (hwc t)
  have hgL : ∀ t y z, |g t y - g t z| ≤ L * D / w0 * |y - z| := fun t y z => by
    simp only [g]
    rw [← sub_div, abs_div, abs_of_pos (lt_of_lt_of_le hw0p (hwc t)), div_mul_eq_mul_div]
    refine div_le_div₀ (by positivity) ?_ hw0p (hwc t)
    refine (hlip _ (hl t y) _ (hl t z)).trans ?_
    rw [← sub_mul, abs_mul, mul_assoc]
    refine mul_le_mul_of_nonneg_left ?_ hL
    rw [mul_comm]
    exact mul_le_mul (hd _ (clamp_mem hab t)) (clamp_lip 0 C y z) (abs_nonneg _) hD.le
  have hmt : ∀ t, clamp a b t ∈ Set.Icc a b := clamp_mem hab
  have hgc : ∀ y, Continuous fun t => g t y := fun y => by
    have cu : Continuous fun t => u (clamp a b t) := hu.comp_continuous (clamp_cont a b) hmt
    have cd : Continuous fun t => du (clamp a b t) := hdu.comp_continuous (clamp_cont a b) hmt
    have cf : ContinuousOn f (Set.Icc (-(C * D)) (C * D)) := by
      refine LipschitzOnWith.continuousOn (K := ⟨L, hL⟩) (LipschitzOnWith.of_dist_le_mul fun x hx y hy => ?_)
      rw [Real.dist_eq, Real.dist_eq]; exact hlip x hx y hy
    have c1 : Continuous fun t => f (clamp 0 C y * du (clamp a b t)) := cf.comp_continuous (continuous_const.mul cd) fun t => hl t y
    exact c1.div (continuous_const.add cu) fun t => (lt_of_lt_of_le hw0p (hwc t)).ne'
  -- Picard-Lindelöf
  have pl : IsPicardLindelof g (tmin := a - 1) (tmax := b + 1) ⟨a, by linarith, by linarith⟩ F0 ⟨N * (b + 1 - (a - 1)), by
      apply mul_nonneg hN0; linarith⟩ 0 ⟨N, hN0⟩ ⟨L * D / w0, by positivity⟩ := by
    refine ⟨fun t _ => LipschitzOnWith.of_dist_le_mul fun x _ y _ => ?_, fun y _ => (hgc y).continuousOn, fun t _ y _ => hgN t y, ?_⟩
    · rw [Real.dist_eq, Real.dist_eq]; exact hgL t x y
    · change N * max (b + 1 - a) (a - (a - 1)) ≤ N * (b + 1 - (a - 1)) - 0
      rw [sub_zero]
      exact mul_le_mul_of_nonneg_left (max_le (by linarith) (by linarith)) hN0
  obtain ⟨y, hya, hy⟩ := pl.exists_eq_forall_mem_Icc_hasDerivWithinAt₀
  have hy' : ∀ t ∈ Set.Icc a b, HasDerivAt y (g t (y t)) t := fun t ht =>
    (hy t ⟨by linarith [ht.1], by linarith [ht.2]⟩).hasDerivAt (Icc_mem_nhds (by linarith [ht.1]) (by linarith [ht.2]))
  have hyc : ContinuousOn y (Set.Icc a b) := fun t ht => (hy' t ht).continuousAt.continuousWithinAt
  change y a = F0 at hya
  have hgt : ∀ t ∈ Set.Icc a b, ∀ z, g t z = f (clamp 0 C z * du t) / (1/1000 + u t) := fun t ht z => by
    simp only [g, clamp_of_mem ht]
  -- positive
  obtain ⟨k, hk⟩ : ∃ k, k = min F0 (1 / (25 * D)) := ⟨_, rfl⟩
  have hkp : 0 < k := by rw [hk]; exact lt_min h0 (by positivity)
  have hlow : ∀ t ∈ Set.Icc a b, k ≤ y t := by
    have := image_le_of_deriv_right_lt_deriv_boundary (f := fun t => -y t) (f' := fun t => -g t (y t)) (B := fun _ => -k) (B' := fun _ => 0)
      (a := a) (b := b) hyc.neg (fun t ht => (hy' t ⟨ht.1, ht.2.le⟩).neg.hasDerivWithinAt) (by rw [hya, hk]; simp)
      (fun t => hasDerivAt_const t _) (fun t ht he => ?_)
    · intro t ht
      have h := this ht
      linarith
    · have ht' : t ∈ Set.Icc a b := ⟨ht.1, ht.2.le⟩
      have hyk : y t = k := by simpa using he
      rw [hgt t ht', hyk]
      have hcl := clamp_mem hC.le k
      have hck : clamp 0 C k ≤ k := max_le hkp.le (min_le_left _ _)
      have h1 : clamp 0 C k * du t ≤ 1/25 := by
        have h2 : clamp 0 C k * du t ≤ k * D := (mul_le_mul_of_nonneg_left ((le_abs_self _).trans (hd t ht')) hcl.1).trans
          (mul_le_mul_of_nonneg_right hck hD.le)
        have h3 : k ≤ 1 / (25 * D) := by rw [hk]; exact min_le_right _ _
        have h4 := mul_le_mul_of_nonneg_right h3 hD.le
        have h5 : 1 / (25 * D) * D = 1/25 := by field_simp
        linarith
      have := div_pos (hpos _ h1) (lt_of_lt_of_le hw0p (hw t ht'))
      linarith
  -- bounded
  have hup : ∀ t ∈ Set.Icc a b, y t ≤ C := by
    have hB : ∀ t, HasDerivAt (fun t => (F0 + 1) * Real.exp (K * (t - a))) (K * ((F0 + 1) * Real.exp (K * (t - a)))) t := fun t =>
      ((((hasDerivAt_id t).sub_const a).const_mul K).exp.const_mul (F0 + 1)).congr_deriv (by simp; ring)
    have := image_le_of_deriv_right_lt_deriv_boundary (a := a) (b := b) hyc
      (fun t ht => (hy' t ⟨ht.1, ht.2.le⟩).hasDerivWithinAt) (by rw [hya]; simp) hB (fun t ht he => ?_)
    · intro t ht
      refine (this ht).trans ?_
      rw [hCdef]
      refine mul_le_mul_of_nonneg_left (Real.exp_le_exp.2 (mul_le_mul_of_nonneg_left ?_ hKp.le)) (by linarith)
      linarith [ht.2]
    · have ht' : t ∈ Set.Icc a b := ⟨ht.1, ht.2.le⟩
      rw [← he, hgt t ht']
      have hy1 : 1 ≤ y t := by
        rw [he]
        have : 1 ≤ Real.exp (K * (t - a)) := Real.one_le_exp (mul_nonneg hKp.le (by linarith [ht.1]))
        nlinarith
      have hcl := clamp_mem hC.le (y t)
      have hcy : clamp 0 C (y t) ≤ y t := max_le (by linarith) (min_le_left _ _)
      have h1 : |clamp 0 C (y t) * du t| ≤ D * y t := by
        rw [abs_mul, abs_of_nonneg hcl.1, mul_comm]
        exact mul_le_mul (hd t ht') hcy hcl.1 hD.le
      have h2 : f (clamp 0 C (y t) * du t) ≤ A * (1 + D) * y t := by
        refine (hgrow _).trans ?_
        have := mul_le_mul_of_nonneg_left (show 1 + |clamp 0 C (y t) * du t| ≤ (1 + D) * y t by linarith) hA
        linarith
      have h3 : f (clamp 0 C (y t) * du t) / (1/1000 + u t) ≤ A * (1 + D) * y t / w0 :=
        (div_le_div_of_nonneg_right h2 (lt_of_lt_of_le hw0p (hw t ht')).le).trans
          (div_le_div_of_nonneg_left (by positivity) hw0p (hw t ht'))
      have h4 : A * (1 + D) * y t / w0 = (K - 1) * y t := by rw [hK]; ring
      rw [h4] at h3
      linarith
  rw [hk] at hlow
  rw [hCdef, hK] at hup
  refine ⟨y, hya, fun t ht => ⟨?_, hlow t ht, hup t ht⟩⟩
  have h1 := hy' t ht
  rw [← hK, ← hCdef] at hup
  rwa [hgt t ht, clamp_of_mem ⟨((lt_min h0 (by positivity)).trans_le (hlow t ht)).le, hup t ht⟩] at h1

/-- Bounds of a flow. -/
theorem flow_bounds {u du : ℝ → ℝ} {a b : ℝ} (hu : ContinuousOn u (Set.Icc a b)) (hdu : ContinuousOn du (Set.Icc a b))
    (hu0 : ∀ x ∈ Set.Icc a b, -(1/1000) < u x) (hab : a ≤ b) :
    ∃ w0 D, 0 < w0 ∧ 0 < D ∧ (∀ t ∈ Set.Icc a b, w0 ≤ 1/1000 + u t) ∧ ∀ t ∈ Set.Icc a b, |du t| ≤ D := by
  obtain ⟨x0, hx0, hmin⟩ := isCompact_Icc.exists_isMinOn ⟨a, le_refl a, hab⟩ hu
  obtain ⟨x1, hx1, hmax⟩ := isCompact_Icc.exists_isMaxOn ⟨a, le_refl a, hab⟩ hdu.abs
  refine ⟨u x0 + 1/1000, |du x1| + 1, by have := hu0 x0 hx0; linarith, by positivity, fun t ht => ?_, fun t ht => ?_⟩
  · have := hmin ht; simp at this; linarith
  · have := hmax ht; simp at this; linarith

/-- **C83**: with Cebeci-Bradshaw's, Drela's or the spline fits the equation of the nonlinear method has a positive solution over the whole
interval from every positive start value, in every flow with continuous edge velocity `u_e > -0.001` and velocity gradient. -/
theorem thwaites_nonlinear_exists_partial (o : Obj ℝ) (m : Fits ℝ) (u du : ℝ → ℝ) (a b F0 : ℝ) (hm : TameFit m)
    (hc : o.cls = .thwaitesNonlinear) (hf : o.fits = some m) (huE : ∀ t, o.vel.uE t = .ok (u t)) (hduE : ∀ t, o.vel.duE t = .ok (du t))
    (hu : ContinuousOn u (Set.Icc a b)) (hdu : ContinuousOn du (Set.Icc a b)) (hu0 : ∀ x ∈ Set.Icc a b, -(1/1000) < u x) (hab : a ≤ b)
    (h0 : 0 < F0) : ∃ F : ℝ → ℝ, F a = F0 ∧ (∀ x ∈ Set.Icc a b, SatisfiesOde o F x) ∧ ∀ x ∈ Set.Icc a b, 0 < F x := by
  obtain ⟨hbi, ⟨A, hA, hgrow⟩, hsides⟩ := hm.spec
  obtain ⟨w0, D, hw0, hD, hw, hd⟩ := flow_bounds hu hdu hu0 hab
  obtain ⟨y, hya, hy⟩ := exists_lip (fun B hB => hsides.lip hB) hA hgrow (fun l hl => builtin_f_pos hbi l hl) hu hdu hw0 hw hD hd hab h0
  refine ⟨y, hya, fun t ht => ⟨_, nonlinear_rhs hc hf huE hduE t (y t), (hy t ht).1⟩, fun t ht => ?_⟩
  exact (lt_min h0 (by positivity)).trans_le (hy t ht).2.1

/-- Non-vacuity: the decelerated flow `u_e = 1 - x` on `[0, 1/2]` with Drela's fits. -/
example : ∃ (o : Obj ℝ) (u du : ℝ → ℝ), TameFit drela ∧ o.cls = .thwaitesNonlinear ∧ o.fits = some drela ∧ (∀ t, o.vel.uE t = .ok (u t)) ∧
    (∀ t, o.vel.duE t = .ok (du t)) ∧ Continuous u ∧ Continuous du ∧ ∀ x ∈ Set.Icc (0:ℝ) (1/2), -(1/1000) < u x := by
  let o : Obj ℝ := ⟨.thwaitesNonlinear, 1, ⟨some (.fn fun x => .ok (1 - x)), some (.fn fun _ => .ok (-1)), none⟩, .manual 0 1 1 1 1, [],
    none, some drela⟩
  refine ⟨o, fun x => 1 - x, fun _ => -1, .inr (.inl rfl), rfl, rfl, fun t => ?_, fun t => ?_, by fun_prop, by fun_prop, fun x hx => ?_⟩
  · simp [o, VelState.uE, VelState.rawU, callOpt, Vel.call]
  · simp [o, VelState.duE, VelState.rawDu, callOpt, Vel.call]
  · have := hx.2; linarith

/-! ### White's fits -/

private theorem white_growth (lam : ℝ) (h : 1 ≤ lam) : 2000 * lam ^ 2 ≤ (Fits.white : Fits ℝ).fAt lam := by
  rw [fAt, shearAt, shapeAt, white_clip, max_eq_left (by linarith)]
  simp only [Fits.white, real_lit, real_pow]
  push_cast
  have h1 : 0 ≤ (lam + 9/100 : ℝ) ^ (62/100 : ℝ) := Real.rpow_nonneg (by linarith) _
  have h2 : 2 + (1/4 - lam) * (414/100 + (1/4 - lam) * (-835/10 + (1/4 - lam) * (854 + (1/4 - lam) * (-3337 + (1/4 - lam) * 4576)))) + 2 ≤
      -1000 * lam := by
    obtain ⟨y, hy⟩ : ∃ y, lam = y + 1 := ⟨lam - 1, by ring⟩
    have y0 : 0 ≤ y := by linarith
    rw [hy]
    have : 0 ≤ y ^ 2 ∧ 0 ≤ y ^ 3 ∧ 0 ≤ y ^ 4 ∧ 0 ≤ y ^ 5 := ⟨by positivity, by positivity, by positivity, by positivity⟩
    nlinarith
  have h3 := mul_le_mul_of_nonneg_left h2 (show 0 ≤ lam by linarith)
  nlinarith

/-- **C83**, White's fits: in the flow `u_e = x` a layer starting at 0 with `lambda = 1` has no continuation to `x = 1`: no function satisfies
the equation handed to the integrator on `[0, 1]`. The fit's shape factor falls below -2 past `lambda = 0.4`, which makes the equation run away. -/
theorem thwaites_white_no_solution (o : Obj ℝ) (hc : o.cls = .thwaitesNonlinear) (hf : o.fits = some Fits.white)
    (huE : ∀ t, o.vel.uE t = .ok t) (hduE : ∀ t, o.vel.duE t = .ok 1) :
    ¬ ∃ F : ℝ → ℝ, F 0 = 1 ∧ ∀ x ∈ Set.Icc (0:ℝ) 1, SatisfiesOde o F x := by
  rintro ⟨F, hF0, hode⟩
  have hF : ∀ t ∈ Set.Icc (0:ℝ) 1, HasDerivAt F ((Fits.white : Fits ℝ).fAt (F t) / (1/1000 + t)) t := fun t ht => by
    obtain ⟨r, hr, hd⟩ := hode t ht
    have : o.rhs t [F t] = .ok [(Fits.white : Fits ℝ).fAt (F t) / (1/1000 + t)] := by
      simp [Obj.rhs, hc, hf, Obj.thwaitesRhs, Obj.calcF, Obj.calcLambda, huE, hduE, bind, Except.bind, pure, Except.pure]
    rw [this] at hr
    simp only [Except.ok.injEq, List.cons.injEq, and_true] at hr
    rw [hr]; exact hd
  have hcont : ContinuousOn F (Set.Icc 0 1) := fun t ht => (hF t ht).continuousAt.continuousWithinAt
  have h1 : ∀ t ∈ Set.Icc (0:ℝ) 1, 1 ≤ F t := by
    have := image_le_of_deriv_right_lt_deriv_boundary (f := fun t => -F t) (f' := fun t => -((Fits.white : Fits ℝ).fAt (F t) / (1/1000 + t)))
      (B := fun _ => -1) (B' := fun _ => 0) (a := 0) (b := 1) hcont.neg (fun t ht => (hF t ⟨ht.1, ht.2.le⟩).neg.hasDerivWithinAt)
      (by rw [hF0]) (fun t => hasDerivAt_const t _) (fun t ht he => ?_)
    · intro t ht
      have h := this ht
      linarith
    · have hy : F t = 1 := by simpa using he
      have h2 := white_growth 1 (le_refl _)
      rw [hy]
      have := div_pos (show 0 < (Fits.white : Fits ℝ).fAt 1 by linarith) (show 0 < 1/1000 + t by linarith [ht.1])
      linarith
  -- the reciprocal decreases at a rate of at least 1000
  have hG : ∀ t ∈ Set.Icc (0:ℝ) 1, HasDerivAt (fun t => (F t)⁻¹ + 1000 * t)
      (-((Fits.white : Fits ℝ).fAt (F t) / (1/1000 + t)) / F t ^ 2 + 1000) t := fun t ht => by
    have := h1 t ht
    exact ((hF t ht).inv (by linarith)).add (((hasDerivAt_id t).const_mul 1000).congr_deriv (by simp))
  have hanti : AntitoneOn (fun t => (F t)⁻¹ + 1000 * t) (Set.Icc 0 1) := by
    refine antitoneOn_of_hasDerivWithinAt_nonpos (convex_Icc 0 1) (fun t ht => (hG t ht).continuousAt.continuousWithinAt)
      (fun t ht => (hG t (interior_subset ht)).hasDerivWithinAt) fun t ht => ?_
    have ht := interior_subset ht
    have hFt := h1 t ht
    have h2 := white_growth (F t) hFt
    have hp : 0 < F t ^ 2 := by positivity
    have h3 : 1000 ≤ (Fits.white : Fits ℝ).fAt (F t) / (1/1000 + t) / F t ^ 2 := by
      rw [le_div_iff₀ hp, le_div_iff₀ (by linarith [ht.1])]
      have : 1/1000 + t ≤ 2 := by linarith [ht.2]
      nlinarith
    rw [neg_div]
    linarith
  have h2 := hanti ⟨le_refl (0:ℝ), zero_le_one⟩ ⟨zero_le_one, le_refl (1:ℝ)⟩ zero_le_one
  simp only [hF0] at h2
  have h3 : 0 ≤ (F 1)⁻¹ := inv_nonneg.2 (by linarith [h1 1 ⟨zero_le_one, le_refl _⟩])
  norm_num at h2
  linarith

/-- The object of that theorem exists. -/
example : ∃ o : Obj ℝ, o.cls = .thwaitesNonlinear ∧ o.fits = some Fits.white ∧ (∀ t, o.vel.uE t = .ok t) ∧ ∀ t, o.vel.duE t = .ok 1 := by
  let o : Obj ℝ := ⟨.thwaitesNonlinear, 1, ⟨some (.fn fun x => .ok x), some (.fn fun _ => .ok 1), none⟩, .manual 0 1 1 1 1, [],
    none, some Fits.white⟩
  refine ⟨o, rfl, rfl, fun t => ?_, fun t => ?_⟩
  · simp [o, VelState.uE, VelState.rawU, callOpt, Vel.call]
  · simp [o, VelState.duE, VelState.rawDu, callOpt, Vel.call]

end IBL
