import Verif.Props.FlatPlate
import Verif.Props.HeadExamples

/-!
C114 and C115: a layer in a flow that is nowhere accelerated.
-/

namespace IBL
open Fits

/-- The reported momentum thickness is positive and larger at every location than at every location upstream of it. -/
def GrowsOn (o : Obj ℝ) (a b : ℝ) : Prop :=
  ∀ x ∈ Set.Icc a b, ∀ y ∈ Set.Icc a b, x < y → ∃ d e, o.deltaM x = .ok d ∧ o.deltaM y = .ok e ∧ 0 < d ∧ d < e

private theorem cls_cases {c : Cls} (h : c.isThwaites = true) : c = .thwaitesLinear ∨ c = .thwaitesNonlinear := by
  cases c <;> simp_all [Cls.isThwaites]

private theorem queries {o : Obj ℝ} {m : Fits ℝ} {u du F : ℝ → ℝ} (S : ThwaitesSolution o m u du F) (t rho : ℝ) :
    o.deltaM t = .ok (Real.sqrt (F t * o.nu)) ∧ o.shapeD t = .ok (m.shapeAt (F t * du t)) ∧
    o.tauWThwaites t rho = .ok (rho * o.nu * u t * m.shearAt (F t * du t) / Real.sqrt (F t * o.nu)) := by
  have hc : o.comp 0 t = .ok (F t) := by simp [Obj.comp, Obj.state, S.sol, bind, Except.bind, pure, Except.pure]
  have hl : o.calcLambda t (F t) = .ok (F t * du t) := by simp [Obj.calcLambda, S.duE, bind, Except.bind, pure, Except.pure]
  have h1 : o.deltaM t = .ok (Real.sqrt (F t * o.nu)) := by
    rcases cls_cases S.isThwaites with h | h <;> simp [Obj.deltaM, h, hc, bind, Except.bind, pure, Except.pure]
  refine ⟨h1, ?_, by simp [Obj.tauWThwaites, hc, hl, S.uE, S.fits, h1, bind, Except.bind, pure, Except.pure]⟩
  rcases cls_cases S.isThwaites with h | h <;> simp [Obj.shapeD, h, hc, hl, S.fits, bind, Except.bind, pure, Except.pure]

/-- The slope of the solution variable is positive as long as lambda is at most 0.04. -/
private theorem slope_pos {o : Obj ℝ} {m : Fits ℝ} {u du F : ℝ → ℝ} {x : ℝ} (S : ThwaitesSolution o m u du F)
    (hm : o.cls = .thwaitesLinear ∨ BuiltIn m) (hu0 : -(1/1000) < u x) (ode : SatisfiesOde o F x) (hl : F x * du x ≤ 1/25) :
    ∃ r, 0 < r ∧ HasDerivAt F r x := by
  obtain ⟨r, hr, hd⟩ := ode
  refine ⟨r, ?_, hd⟩
  have hw : 0 < 1/1000 + u x := by linarith
  have lin : o.cls = .thwaitesLinear → 0 < r := fun h => by
    have : o.rhs x [F x] = .ok [(45/100 - 6 * (F x * du x)) / (1/1000 + u x)] := by
      simp [Obj.rhs, h, Obj.thwaitesRhs, Obj.calcF, Obj.calcLambda, S.uE, S.duE, bind, Except.bind, pure, Except.pure]
    rw [this] at hr
    simp only [Except.ok.injEq, List.cons.injEq, and_true] at hr
    rw [← hr]
    exact div_pos (by linarith) hw
  rcases cls_cases S.isThwaites with h | h
  · exact lin h
  · have : o.rhs x [F x] = .ok [m.fAt (F x * du x) / (1/1000 + u x)] := by
      simp [Obj.rhs, h, Obj.thwaitesRhs, Obj.calcF, Obj.calcLambda, S.uE, S.duE, S.fits, bind, Except.bind, pure, Except.pure]
    rw [this] at hr
    simp only [Except.ok.injEq, List.cons.injEq, and_true] at hr
    rw [← hr]
    rcases hm with hm | hm
    · rw [h] at hm; cases hm
    · exact div_pos (builtin_f_pos hm _ hl) hw

/-! ### C114 -/

/-- A solution of a Thwaites method in a flow that is nowhere accelerated. -/
structure DeceleratedLayer (o : Obj ℝ) (m : Fits ℝ) (u du F : ℝ → ℝ) (a b : ℝ) : Prop where
  sol : ThwaitesSolution o m u du F
  fits : o.cls = .thwaitesLinear ∨ BuiltIn m
  nu : 0 < o.nu
  speed : ∀ x ∈ Set.Icc a b, -(1/1000) < u x
  decelerated : ∀ x ∈ Set.Icc a b, du x ≤ 0
  ode : ∀ x ∈ Set.Icc a b, SatisfiesOde o F x
  start : 0 < F a

section
variable {o : Obj ℝ} {m : Fits ℝ} {u du F : ℝ → ℝ} {a b : ℝ}

private theorem DeceleratedLayer.pos (L : DeceleratedLayer o m u du F a b) : ∀ x ∈ Set.Icc a b, F a ≤ F x := by
  have hex : ∀ x : ℝ, ∃ r, x ∈ Set.Icc a b → HasDerivAt F r x ∧ (0 < F x → 0 < r) := fun x => by
    by_cases hx : x ∈ Set.Icc a b
    · obtain ⟨r, hr, hd⟩ := L.ode x hx
      refine ⟨r, fun _ => ⟨hd, fun hF => ?_⟩⟩
      obtain ⟨r', hr', hd'⟩ := slope_pos L.sol L.fits (L.speed x hx) ⟨r, hr, hd⟩
        ((mul_nonpos_of_nonneg_of_nonpos hF.le (L.decelerated x hx)).trans (by norm_num))
      rwa [hd.unique hd']
    · exact ⟨0, fun h => absurd h hx⟩
  choose r hr using hex
  exact barrier (r := r) L.start (fun x hx => (hr x hx).1) le_rfl fun x hx h _ => ((hr x hx).2 h).le

private theorem DeceleratedLayer.strict (L : DeceleratedLayer o m u du F a b) : StrictMonoOn F (Set.Icc a b) := by
  have hs : ∀ x ∈ Set.Icc a b, ∃ r, 0 < r ∧ HasDerivAt F r x := fun x hx =>
    slope_pos L.sol L.fits (L.speed x hx) (L.ode x hx)
      ((mul_nonpos_of_nonneg_of_nonpos (L.start.le.trans (L.pos x hx)) (L.decelerated x hx)).trans (by norm_num))
  apply strictMonoOn_of_deriv_pos (convex_Icc a b)
  · intro x hx
    obtain ⟨r, -, hd⟩ := hs x hx
    exact hd.continuousAt.continuousWithinAt
  · intro x hx
    obtain ⟨r, h0, hd⟩ := hs x (interior_subset hx)
    rwa [hd.deriv]

/-- **C114**, Thwaites: in a flow that is nowhere accelerated the momentum thickness grows. Linear method with any fits, nonlinear method with any
built-in fits. -/
theorem thwaites_grows (L : DeceleratedLayer o m u du F a b) : GrowsOn o a b := by
  intro x hx y hy hxy
  have hFx : 0 < F x := L.start.trans_le (L.pos x hx)
  refine ⟨_, _, (queries L.sol x 0).1, (queries L.sol y 0).1, Real.sqrt_pos.2 (mul_pos hFx L.nu), ?_⟩
  exact Real.sqrt_lt_sqrt (mul_pos hFx L.nu).le (mul_lt_mul_of_pos_right (L.strict hx hy hxy) L.nu)

/-- **C114**, Head: the same, also across the finitely many points where the equation need not hold. -/
theorem head_grows (o : Obj ℝ) (u du dm h : ℝ → ℝ) (a b : ℝ) (S : HeadSolutionOn o u du dm h a b) (hnu : 0 < o.nu)
    (hdu : ∀ x ∈ Set.Icc a b, du x ≤ 0) (h0 : 0 < dm a) : GrowsOn o a b := by
  have hq : ∀ t, o.deltaM t = .ok (dm t) := fun t => by
    simp [Obj.deltaM, S.isHead, Obj.comp, Obj.state, S.sol, bind, Except.bind, pure, Except.pure]
  have hpos : ∀ x ∈ Set.Icc a b, 0 < dm x := fun x hx => by
    obtain ⟨d, h1, h2⟩ := head_stays_positive o u du dm h a b 0 S hnu hdu h0 x hx
    rw [hq] at h1
    rwa [Except.ok.inj h1]
  obtain ⟨E, hE, ode⟩ := S.ode
  have hder : ∀ x ∈ Set.Icc a b, x ∉ E → ∃ r, 0 < r ∧ HasDerivAt dm r x := fun x hx hn => by
    obtain ⟨hd, -⟩ := (ode x hx hn).derivs S.isHead S.uE S.duE
    refine ⟨_, ?_, hd⟩
    have hfp : 0 < Head.floorScalar (u x) := by
      simp only [Head.floorScalar, real_gt, real_lit]
      split_ifs with h
      · norm_num
      · push_cast at h; linarith
    have hc : 0 < 2 + Head.odeClamp (h x) := by
      simp only [Head.odeClamp, real_lt, real_lit]
      split_ifs with h
      · norm_num
      · push_cast at h; linarith
    have hcf := ludwieg_tillman_pos (Head.floorScalar (u x) * dm x / o.nu) (Head.odeClamp (h x))
      (div_pos (mul_pos hfp (hpos x hx)) hnu)
    simp only [Head.rates, real_lit]
    push_cast
    have h2 : dm x * (2 + Head.odeClamp (h x)) * du x / Head.floorScalar (u x) ≤ 0 :=
      div_nonpos_of_nonpos_of_nonneg (mul_nonpos_of_nonneg_of_nonpos (mul_pos (hpos x hx) hc).le (hdu x hx)) hfp.le
    linarith
  have hmono : MonotoneOn dm (Set.Icc a b) := by
    intro x hx y hy hxy
    have sub : Set.Icc x y ⊆ Set.Icc a b := Set.Icc_subset_Icc hx.1 hy.2
    have hex : ∀ t : ℝ, ∃ r, t ∈ Set.Icc x y → t ∉ E → HasDerivAt dm r t ∧ 0 ≤ r := fun t => by
      by_cases ht : t ∈ Set.Icc x y ∧ t ∉ E
      · obtain ⟨r, h1, h2⟩ := hder t (sub ht.1) ht.2
        exact ⟨r, fun _ _ => ⟨h2, h1.le⟩⟩
      · exact ⟨0, fun h1 h2 => absurd ⟨h1, h2⟩ ht⟩
    choose r hr using hex
    exact barrier_off (lo := dm x - 1) hE (by linarith) (S.dmCont.mono sub) (fun t h1 h2 => (hr t h1 h2).1) le_rfl
      (fun t h1 h2 _ _ => (hr t h1 h2).2) y ⟨hxy, le_rfl⟩
  intro x hx y hy hxy
  refine ⟨_, _, hq x, hq y, hpos x hx, lt_of_le_of_ne (hmono hx hy hxy.le) fun he => ?_⟩
  -- between x and y there is a regular point, where the slope is positive although the thickness is constant
  obtain ⟨z, hz, hzE⟩ : ∃ z ∈ Set.Ioo x y, z ∉ E := by
    by_contra hcon
    push Not at hcon
    exact (Set.Ioo_infinite hxy) (hE.subset hcon)
  obtain ⟨r, hr0, hd⟩ := hder z ⟨hx.1.trans hz.1.le, hz.2.le.trans hy.2⟩ hzE
  have hconst : dm =ᶠ[nhds z] fun _ => dm x := by
    filter_upwards [Ioo_mem_nhds hz.1 hz.2] with t ht
    have htm : t ∈ Set.Icc a b := ⟨hx.1.trans ht.1.le, ht.2.le.trans hy.2⟩
    exact le_antisymm (by rw [he]; exact hmono htm hy ht.2.le) (hmono hx htm ht.1.le)
  have := hd.unique ((hasDerivAt_const z (dm x)).congr_of_eventuallyEq hconst)
  linarith

/-! ### C115 -/

/-- Under adverse pressure gradients a smaller lambda means less shear and a larger shape factor. -/
def AdverseMonotone (m : Fits ℝ) : Prop :=
  ∀ l1 l2, l1 ≤ l2 → l2 ≤ 0 → m.shearAt l1 ≤ m.shearAt l2 ∧ m.shapeAt l2 ≤ m.shapeAt l1

private theorem adverse_white : AdverseMonotone Fits.white := by
  intro l1 l2 h h2
  rw [shearAt, shearAt, shapeAt, shapeAt, white_clip, white_clip]
  have ht : max l1 (-9/100) ≤ max l2 (-9/100) := max_le_max_right _ h
  have ht2 : max l2 (-9/100) ≤ 0 := max_le h2 (by norm_num)
  have ht1 : -9/100 ≤ max l1 (-9/100) := le_max_right _ _
  generalize max l1 (-9/100) = s at ht ht1
  generalize max l2 (-9/100) = t at ht ht2
  simp only [Fits.white, real_pow, real_lit]
  push_cast
  constructor
  · exact Real.rpow_le_rpow (by linarith) (by linarith) (by norm_num)
  · obtain ⟨p, hp⟩ : ∃ p, p = -t := ⟨_, rfl⟩
    obtain ⟨q, hq⟩ : ∃ q, q = t - s := ⟨_, rfl⟩
    have hp0 : 0 ≤ p := by linarith
    have hq0 : 0 ≤ q := by linarith
    have et : t = -p := by linarith
    have es : s = -p - q := by linarith
    rw [et, es]
    have key : (2 + (1/4 - (-p - q)) * (414/100 + (1/4 - (-p - q)) * (-835/10 + (1/4 - (-p - q)) * (854 + (1/4 - (-p - q)) * (-3337 + (1/4 - (-p - q)) * 4576))))) -
        (2 + (1/4 - -p) * (414/100 + (1/4 - -p) * (-835/10 + (1/4 - -p) * (854 + (1/4 - -p) * (-3337 + (1/4 - -p) * 4576))))) =
        q * (1331/400 + 165/4 * p + 165/8 * q + 1131 * p ^ 2 + 1131 * p * q + 377 * q ^ 2 + 9532 * p ^ 3 + 14298 * p ^ 2 * q + 9532 * p * q ^ 2 +
          2383 * q ^ 3 + 22880 * p ^ 4 + 45760 * p ^ 3 * q + 45760 * p ^ 2 * q ^ 2 + 22880 * p * q ^ 3 + 4576 * q ^ 4) := by
      ring
    have hnn : 0 ≤ q * (1331/400 + 165/4 * p + 165/8 * q + 1131 * p ^ 2 + 1131 * p * q + 377 * q ^ 2 + 9532 * p ^ 3 + 14298 * p ^ 2 * q + 9532 * p * q ^ 2 +
          2383 * q ^ 3 + 22880 * p ^ 4 + 45760 * p ^ 3 * q + 45760 * p ^ 2 * q ^ 2 + 22880 * p * q ^ 3 + 4576 * q ^ 4) := by positivity
    linarith

private theorem adverse_cb : AdverseMonotone cebeciBradshaw := by
  intro l1 l2 h h2
  rw [shearAt, shearAt, shapeAt, shapeAt, cb_clip, cb_clip, min_eq_left (max_le (by linarith) (by norm_num)),
    min_eq_left (max_le (by linarith) (by norm_num))]
  have ht : max l1 (-1/10) ≤ max l2 (-1/10) := max_le_max_right _ h
  have ht2 : max l2 (-1/10) ≤ 0 := max_le h2 (by norm_num)
  have ht1 : -1/10 ≤ max l1 (-1/10) := le_max_right _ _
  generalize max l1 (-1/10) = s at ht ht1
  generalize max l2 (-1/10) = t at ht ht2
  rcases ht.eq_or_lt with h | h
  · rw [h]; exact ⟨le_rfl, le_rfl⟩
  have hs : s < ((0:ℚ) : ℝ) := by push_cast; linarith
  simp only [cebeciBradshaw, piecewise0, real_lt, real_ge, real_lit, if_pos hs]
  have d1 : (0:ℝ) < 107/1000 + s := by linarith
  have d2 : (0:ℝ) < 14/100 + s := by linarith
  rcases ht2.eq_or_lt with h0 | h0
  · subst h0
    push_cast
    simp only [lt_irrefl, if_false, le_refl, ge_iff_le, if_true]
    constructor
    · have : 18/1000 * s / (107/1000 + s) ≤ 0 := div_nonpos_of_nonpos_of_nonneg (by linarith) d1.le
      linarith
    · have : (731/10000 : ℝ) / (14/100) ≤ 731/10000 / (14/100 + s) := div_le_div_of_nonneg_left (by norm_num) d2 (by linarith)
      norm_num at this ⊢
      linarith
  · have h0' : t < ((0:ℚ) : ℝ) := by push_cast; exact h0
    rw [if_pos h0', if_pos h0']
    push_cast
    constructor
    · have : 18/1000 * s / (107/1000 + s) ≤ 18/1000 * t / (107/1000 + t) := by
        rw [div_le_div_iff₀ d1 (by linarith)]; nlinarith
      linarith
    · have : (731/10000 : ℝ) / (14/100 + t) ≤ 731/10000 / (14/100 + s) := div_le_div_of_nonneg_left (by norm_num) d2 (by linarith)
      linarith

private theorem adverse_drela : AdverseMonotone drela := by
  intro l1 l2 h h2
  rw [shearAt, shearAt, shapeAt, shapeAt, drela_clip, drela_clip]
  have ht : max l1 (-9/100) ≤ max l2 (-9/100) := max_le_max_right _ h
  have ht2 : max l2 (-9/100) ≤ 0 := max_le h2 (by norm_num)
  have ht1 : -9/100 ≤ max l1 (-9/100) := le_max_right _ _
  generalize max l1 (-9/100) = s at ht ht1
  generalize max l2 (-9/100) = t at ht ht2
  have hq : t * t / ((t + 18/100) * (t + 18/100)) ≤ s * s / ((s + 18/100) * (s + 18/100)) := by
    have d1 : 0 < s + 18/100 := by linarith
    have d2 : 0 < t + 18/100 := by linarith
    rw [mul_div_mul_comm, mul_div_mul_comm]
    have h3 : -t / (t + 18/100) ≤ -s / (s + 18/100) := by
      rw [div_le_div_iff₀ d2 d1]; nlinarith
    have h4 : 0 ≤ -t / (t + 18/100) := div_nonneg (by linarith) d2.le
    have := mul_le_mul h3 h3 h4 (h4.trans h3)
    simpa [neg_div] using this
  have h3 : t * t * t - s * s * s ≤ (t - s) * (3 * (9/100) ^ 2) := by
    have : t * t * t - s * s * s = (t - s) * (t * t + t * s + s * s) := by ring
    rw [this]
    exact mul_le_mul_of_nonneg_left (by nlinarith) (by linarith)
  simp only [drela, real_lit]
  push_cast
  rw [mul_div_assoc (72/1000), mul_div_assoc (72/1000), mul_div_assoc (56/100), mul_div_assoc (56/100)]
  constructor <;> nlinarith

private theorem adverse_spline {cs : CubicSpline ℝ} (hcs : TableSplines cs) : AdverseMonotone (spline cs) := by
  intro l1 l2 h h2
  have clip : ∀ l : ℝ, l ≤ 0 → (spline cs).shearAt l = (spline cs).shearAt (max l (-9/100)) ∧
      (spline cs).shapeAt l = (spline cs).shapeAt (max l (-9/100)) := fun l hl => by
    rcases le_total l (-9/100) with h | h
    · rw [max_eq_right h]
      have e : ∀ l : ℝ, l ≤ -9/100 → (spline cs).checkRange l = -9/100 := fun l h => by
        rcases h.eq_or_lt with rfl | h
        all_goals
          simp only [checkRange, spline, real_lit, real_lt, PyCmp.gt]
          norm_num
          try intro h'
          try linarith
      rw [shearAt, shearAt, shapeAt, shapeAt, e l h, e _ le_rfl]
      exact ⟨rfl, rfl⟩
    · rw [max_eq_left h]; exact ⟨rfl, rfl⟩
  rw [(clip l1 (h.trans h2)).1, (clip l1 (h.trans h2)).2, (clip l2 h2).1, (clip l2 h2).2]
  rcases (max_le_max_right (-9/100) h).eq_or_lt with e | e
  · rw [e]; exact ⟨le_rfl, le_rfl⟩
  · obtain ⟨h3, h4⟩ := spline_monotone hcs _ _ (le_max_right _ _) e ((max_le h2 (by norm_num)).trans (by norm_num))
    exact ⟨h3.le, h4.le⟩

/-- All built-in fits have it. -/
theorem builtin_adverse {m : Fits ℝ} (hm : BuiltIn m) : AdverseMonotone m := by
  rcases hm with rfl | rfl | rfl | ⟨cs, hcs, rfl⟩
  · exact adverse_white
  · exact adverse_cb
  · exact adverse_drela
  · exact adverse_spline hcs

/-- A solution of a Thwaites method with built-in fits in a flow whose deceleration does not weaken. -/
structure WorseningLayer (o : Obj ℝ) (m : Fits ℝ) (u du F : ℝ → ℝ) (a b : ℝ) : Prop where
  layer : DeceleratedLayer o m u du F a b
  builtin : BuiltIn m
  slope : ∀ x ∈ Set.Icc a b, HasDerivAt u (du x) x
  steepening : AntitoneOn du (Set.Icc a b)

private theorem WorseningLayer.lambda (W : WorseningLayer o m u du F a b) {x y : ℝ} (hx : x ∈ Set.Icc a b) (hy : y ∈ Set.Icc a b) (h : x ≤ y) :
    F y * du y ≤ F x * du x ∧ F x * du x ≤ 0 := by
  have hFx : 0 < F x := W.layer.start.trans_le (W.layer.pos x hx)
  have hF : F x ≤ F y := W.layer.strict.monotoneOn hx hy h
  have hd := W.steepening hx hy h
  have h0 := W.layer.decelerated x hx
  refine ⟨?_, mul_nonpos_of_nonneg_of_nonpos hFx.le h0⟩
  calc F y * du y ≤ F y * du x := mul_le_mul_of_nonneg_left hd (hFx.le.trans hF)
    _ ≤ F x * du x := mul_le_mul_of_nonpos_right hF h0

private theorem builtin_shape_pos (hm : BuiltIn m) {lam : ℝ} (h : lam ≤ 0) : 0 < m.shapeAt lam := by
  have h3 := fits_shape_gt_one lam (by linarith)
  rcases hm with rfl | rfl | rfl | ⟨cs, hcs, rfl⟩
  · linarith [h3.1]
  · linarith [h3.2.1]
  · linarith [h3.2.2]
  · linarith [(spline_bounds hcs lam).1]

/-- **C115**: downstream the shape factor is not smaller, the displacement thickness is larger, and as long as the wall shear is not negative it
does not rise. -/
theorem layer_worsens (W : WorseningLayer o m u du F a b) {x y : ℝ} (hx : x ∈ Set.Icc a b) (hy : y ∈ Set.Icc a b) (hxy : x < y) :
    (∃ h1 h2, o.shapeD x = .ok h1 ∧ o.shapeD y = .ok h2 ∧ h1 ≤ h2) ∧ (∃ d1 d2, o.deltaD x = .ok d1 ∧ o.deltaD y = .ok d2 ∧ 0 < d1 ∧ d1 < d2) ∧
    ∀ rho, 0 ≤ rho → (∀ t ∈ Set.Icc a b, 0 ≤ u t) → ∃ t1 t2, o.tauWThwaites x rho = .ok t1 ∧ o.tauWThwaites y rho = .ok t2 ∧ (0 ≤ t1 → t2 ≤ t1) := by
  obtain ⟨hl, hl0⟩ := W.lambda hx hy hxy.le
  obtain ⟨hshear, hshape⟩ := builtin_adverse W.builtin _ _ hl hl0
  have hFx : 0 < F x := W.layer.start.trans_le (W.layer.pos x hx)
  have hF : F x < F y := W.layer.strict hx hy hxy
  have hsx : 0 < Real.sqrt (F x * o.nu) := Real.sqrt_pos.2 (mul_pos hFx W.layer.nu)
  have hs : Real.sqrt (F x * o.nu) < Real.sqrt (F y * o.nu) :=
    Real.sqrt_lt_sqrt (mul_pos hFx W.layer.nu).le (mul_lt_mul_of_pos_right hF W.layer.nu)
  have hH := builtin_shape_pos W.builtin hl0
  have hdd : ∀ t, o.deltaD t = .ok (Real.sqrt (F t * o.nu) * m.shapeAt (F t * du t)) := fun t => by
    simp [Obj.deltaD, (queries W.layer.sol t 0).1, (queries W.layer.sol t 0).2.1, bind, Except.bind, pure, Except.pure]
  refine ⟨⟨_, _, (queries W.layer.sol x 0).2.1, (queries W.layer.sol y 0).2.1, hshape⟩, ⟨_, _, hdd x, hdd y, mul_pos hsx hH, ?_⟩, ?_⟩
  · calc Real.sqrt (F x * o.nu) * m.shapeAt (F x * du x) < Real.sqrt (F y * o.nu) * m.shapeAt (F x * du x) := mul_lt_mul_of_pos_right hs hH
      _ ≤ _ := mul_le_mul_of_nonneg_left hshape (hsx.trans hs).le
  · intro rho hrho hu
    refine ⟨_, _, (queries W.layer.sol x rho).2.2, (queries W.layer.sol y rho).2.2, fun h0 => ?_⟩
    have hux := hu x hx
    have huy := hu y hy
    have hmono : u y ≤ u x := by
      have : AntitoneOn u (Set.Icc a b) := by
        apply antitoneOn_of_deriv_nonpos (convex_Icc a b)
        · exact fun t ht => (W.slope t ht).continuousAt.continuousWithinAt
        · exact fun t ht => (W.slope t (interior_subset ht)).differentiableAt.differentiableWithinAt
        · intro t ht
          rw [(W.slope t (interior_subset ht)).deriv]
          exact W.layer.decelerated t (interior_subset ht)
      exact this hx hy hxy.le
    have hnu := W.layer.nu.le
    have hc : 0 ≤ rho * o.nu := mul_nonneg hrho hnu
    rcases le_total 0 (m.shearAt (F y * du y)) with hp | hp
    · have h1 : rho * o.nu * u y * m.shearAt (F y * du y) ≤ rho * o.nu * u x * m.shearAt (F x * du x) :=
        mul_le_mul (mul_le_mul_of_nonneg_left hmono hc) hshear hp (mul_nonneg hc hux)
      have h2 : 0 ≤ rho * o.nu * u x * m.shearAt (F x * du x) := mul_nonneg (mul_nonneg hc hux) (hp.trans hshear)
      exact div_le_div₀ h2 h1 hsx hs.le
    · exact (div_nonpos_of_nonpos_of_nonneg (mul_nonpos_of_nonneg_of_nonpos (mul_nonneg hc huy) hp) (hsx.trans hs).le).trans h0

open SolveIvp

/-- The part of a run that `DeceleratedLayer` speaks about: the object that `solve` leaves behind holds the solution. -/
private theorem exact_layer {stepper : Stepper ℝ} {root : RootFinder ℝ} {p : IvpProblem ℝ} {r : IntegrationResult ℝ}
    (H : ThwaitesExact o m u du F a b stepper root p r) (hm : BuiltIn m) (hdec : ∀ x ∈ Set.Icc a b, du x ≤ 0) (hst : AntitoneOn du (Set.Icc a b)) :
    WorseningLayer { o with sol := some fun t => [F t] } m u du F a b where
  layer :=
    { sol := ⟨H.isThwaites, H.fits, rfl, H.uE, H.duE⟩
      fits := .inr hm
      nu := H.nu
      speed := H.velocity
      decelerated := hdec
      ode := H.ode
      start := H.start.2 }
  builtin := hm
  slope x _ := H.slope x
  steepening := hst

/-- **C115**, separation: downstream the value of the separation criterion is not larger, so the criterion stays met once it is met. -/
theorem criterion_falls {stepper : Stepper ℝ} {root : RootFinder ℝ} {p : IvpProblem ℝ} {r : IntegrationResult ℝ}
    (H : ThwaitesExact o m u du F a b stepper root p r) (hm : BuiltIn m) (hdec : ∀ x ∈ Set.Icc a b, du x ≤ 0) (hst : AntitoneOn du (Set.Icc a b)) :
    ∀ x ∈ Set.Icc a b, ∀ y ∈ Set.Icc a b, x ≤ y → ∃ v w, o.eventValue (.sepThwaites m) x [F x] = .ok v ∧
      o.eventValue (.sepThwaites m) y [F y] = .ok w ∧ w ≤ v := by
  intro x hx y hy hxy
  obtain ⟨hl, hl0⟩ := (exact_layer H hm hdec hst).lambda hx hy hxy
  exact ⟨_, _, (separation_event_value o m x (F x) _ (H.duE x)).1, (separation_event_value o m y (F y) _ (H.duE y)).1,
    (builtin_adverse hm _ _ hl hl0).1⟩

/-- **C115**, separation: a `solve` that starts attached, follows its solution and would get to the end reports SEPARATED exactly if the criterion is
met at the end. No step is long enough to miss the separation. -/
theorem separation_at_end_iff {stepper : Stepper ℝ} {root : RootFinder ℝ} {p : IvpProblem ℝ} {r : IntegrationResult ℝ}
    (H : ThwaitesExact o m u du F a b stepper root p r) (hm : BuiltIn m) (hdec : ∀ x ∈ Set.Icc a b, du x ≤ 0) (hst : AntitoneOn du (Set.Icc a b))
    (hab : a ≤ b) (hatt : ∃ v, o.eventValue (.sepThwaites m) a [F a] = .ok v ∧ 0 < v) (hend : ∃ s ∈ (stepper p).steps, s.t = b) :
    r.status = .separated ↔ ∃ v, o.eventValue (.sepThwaites m) b [F b] = .ok v ∧ v ≤ 0 := by
  obtain ⟨v0, hv0, hpos⟩ := hatt
  rw [separation_reported_iff H.run v0 (by rw [H.start.1]; exact hv0) hpos]
  constructor
  · rintro ⟨s, hs, v, hv, hle⟩
    obtain ⟨ht, hy⟩ := H.steps s hs
    rw [hy] at hv
    obtain ⟨v', w, h1, h2, h3⟩ := criterion_falls H hm hdec hst s.t ht b ⟨hab, le_rfl⟩ ht.2
    rw [h1] at hv
    exact ⟨w, h2, h3.trans ((Except.ok.inj hv).le.trans hle)⟩
  · rintro ⟨v, hv, hle⟩
    obtain ⟨s, hs, hb⟩ := hend
    obtain ⟨-, hy⟩ := H.steps s hs
    exact ⟨s, hs, v, by rw [hy, hb]; exact hv, hle⟩

/-- **C115**, separation: so two runs that differ in the steps taken and in the root finder report the same. -/
theorem separation_step_independent {st1 st2 : Stepper ℝ} {ro1 ro2 : RootFinder ℝ} {p1 p2 : IvpProblem ℝ} {r1 r2 : IntegrationResult ℝ}
    (H1 : ThwaitesExact o m u du F a b st1 ro1 p1 r1) (H2 : ThwaitesExact o m u du F a b st2 ro2 p2 r2) (hm : BuiltIn m)
    (hdec : ∀ x ∈ Set.Icc a b, du x ≤ 0) (hst : AntitoneOn du (Set.Icc a b)) (hab : a ≤ b)
    (hatt : ∃ v, o.eventValue (.sepThwaites m) a [F a] = .ok v ∧ 0 < v) (h1 : ∃ s ∈ (st1 p1).steps, s.t = b) (h2 : ∃ s ∈ (st2 p2).steps, s.t = b) :
    r1.status = .separated ↔ r2.status = .separated := by
  rw [separation_at_end_iff H1 hm hdec hst hab hatt h1, separation_at_end_iff H2 hm hdec hst hab hatt h2]

/-! ### A case -/

/-- Howarth's flow `u_e = 0.999 - x/8` with White's fits, from the momentum thickness 1/2: all hypotheses hold, and the layer separates. -/
theorem howarth_case : ∃ (o : Obj ℝ) (F : ℝ → ℝ) (stepper : Stepper ℝ) (root : RootFinder ℝ) (p : IvpProblem ℝ) (r : IntegrationResult ℝ),
    ThwaitesExact o Fits.white (fun t => 999/1000 + -(1/8) * t) (fun _ => -(1/8)) F 0 1 stepper root p r ∧
    WorseningLayer { o with sol := some fun t => [F t] } Fits.white (fun t => 999/1000 + -(1/8) * t) (fun _ => -(1/8)) F 0 1 ∧
    (∃ v, o.eventValue (.sepThwaites Fits.white) 0 [F 0] = .ok v ∧ 0 < v) ∧ (∃ s ∈ (stepper p).steps, s.t = 1) ∧
    (∀ t ∈ Set.Icc (0:ℝ) 1, (0:ℝ) ≤ 999/1000 + -(1/8) * t) ∧ r.status = .separated := by
  obtain ⟨cs, hcs⟩ := table_splines_exist
  have hw : ∀ lam, 0 < (Fits.white : Fits ℝ).shearAt lam ↔ -9/100 < lam := fun lam => (linear_flow_fits hcs lam).2
  obtain ⟨o, F, stepper, root, p, r, H, -, h0, hs, hsep⟩ := linear_flow_run Fits.white hw
  refine ⟨o, F, stepper, root, p, r, H, exact_layer H (.inl rfl) (fun _ _ => by norm_num) (fun _ _ _ _ _ => le_rfl),
    ⟨_, (separation_event_value o _ 0 (F 0) _ (H.duE 0)).1, (hw _).2 h0⟩, hs, fun t ht => by linarith [ht.2], hsep⟩

/-- Head's method: the layer of `head_solution_exists` meets the hypotheses of `head_grows`. -/
example : ∃ (o : Obj ℝ) (dm h : ℝ → ℝ) (b : ℝ), 0 < b ∧ HeadSolutionOn o (fun _ => 1) (fun _ => 0) dm h 0 b ∧ 0 < o.nu ∧ 0 < dm 0 := by
  obtain ⟨dm, h, b, hb, S, h1, -, -⟩ := head_solution_exists 1 1 2 1 (.manual 0 1 1 1 1) [] one_pos one_pos (by norm_num) one_pos
  exact ⟨_, dm, h, b, hb, S, one_pos, by rw [h1]; norm_num⟩

end
end IBL
