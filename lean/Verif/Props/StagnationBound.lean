import Verif.Props.Positivity

/-! C106: in a flow whose velocity slope nowhere increases, a laminar layer that starts at a stagnation point stays below the stagnation value of
Thwaites' parameter; the data fits are not used beyond the upper end of their range. -/

namespace IBL
open Fits

/-- A positive function that does not grow while its product with a non-increasing function lies between `L` and `hi`: the product does not exceed
`L` if it does not at the start. -/
theorem barrier_product {Y D r : ℝ → ℝ} {a b L hi : ℝ} (hL : 0 < L) (hhi : L < hi) (hY : ∀ x ∈ Set.Icc a b, HasDerivAt Y (r x) x)
    (hpos : ∀ x ∈ Set.Icc a b, 0 < Y x) (hD : AntitoneOn D (Set.Icc a b)) (hDc : ContinuousOn D (Set.Icc a b)) (h0 : Y a * D a ≤ L)
    (hr : ∀ x ∈ Set.Icc a b, L < Y x * D x → Y x * D x < hi → r x ≤ 0) : ∀ x ∈ Set.Icc a b, Y x * D x ≤ L := by
  intro x hx
  by_contra hlt
  push Not at hlt
  have hab : Set.Icc a x ⊆ Set.Icc a b := Set.Icc_subset_Icc_right hx.2
  have hYc : ContinuousOn Y (Set.Icc a b) := fun t ht => (hY t ht).continuousAt.continuousWithinAt
  have hcont : ContinuousOn (fun t => Y t * D t) (Set.Icc a x) := (hYc.mul hDc).mono hab
  let A := Set.Icc a x ∩ (fun t => Y t * D t) ⁻¹' Set.Iic L
  have hAc : IsClosed A := hcont.preimage_isClosed_of_isClosed isClosed_Icc isClosed_Iic
  have haA : a ∈ A := ⟨⟨le_refl _, hx.1⟩, h0⟩
  have hbd : BddAbove A := ⟨x, fun t ht => ht.1.2⟩
  let s := sSup A
  have hsA : s ∈ A := hAc.csSup_mem ⟨a, haA⟩ hbd
  have hs2 : Y s * D s ≤ L := hsA.2
  have hsx : s < x := by
    refine lt_of_le_of_ne hsA.1.2 fun h => ?_
    rw [h] at hs2
    exact absurd hs2 (not_le.2 hlt)
  have habove : ∀ t, s < t → t ≤ x → L < Y t * D t := fun t h1 h2 => by
    by_contra h
    push Not at h
    exact absurd (le_csSup hbd (show t ∈ A from ⟨⟨hsA.1.1.trans h1.le, h2⟩, h⟩)) (not_le.2 h1)
  have hev : ∀ᶠ t in nhdsWithin s (Set.Ici s), Y t * D t < hi := by
    have hc : ContinuousWithinAt (fun t => Y t * D t) (Set.Ici s) s := by
      rw [← continuousWithinAt_Icc_iff_Ici hsx]
      exact (hcont s hsA.1).mono (Set.Icc_subset_Icc_left hsA.1.1)
    exact hc.eventually_lt_const (lt_of_le_of_lt hs2 hhi)
  obtain ⟨z, hz, hsub⟩ := mem_nhdsGE_iff_exists_Icc_subset.1 hev
  obtain ⟨y, hy⟩ : ∃ y, y = min z x := ⟨_, rfl⟩
  have hsy : s < y := by rw [hy]; exact lt_min hz hsx
  have hyz : y ≤ z := by rw [hy]; exact min_le_left _ _
  have hyx : y ≤ x := by rw [hy]; exact min_le_right _ _
  have hmem : ∀ t ∈ Set.Icc s y, t ∈ Set.Icc a b := fun t ht => hab ⟨hsA.1.1.trans ht.1, ht.2.trans hyx⟩
  have hanti : AntitoneOn Y (Set.Icc s y) := by
    apply antitoneOn_of_deriv_nonpos (convex_Icc _ _)
    · exact hYc.mono hmem
    · intro t ht
      rw [interior_Icc] at ht
      exact (hY t (hmem t ⟨ht.1.le, ht.2.le⟩)).differentiableAt.differentiableWithinAt
    · intro t ht
      rw [interior_Icc] at ht
      rw [(hY t (hmem t ⟨ht.1.le, ht.2.le⟩)).deriv]
      exact hr t (hmem t ⟨ht.1.le, ht.2.le⟩) (habove t ht.1 (ht.2.le.trans hyx)) (hsub ⟨ht.1.le, ht.2.le.trans hyz⟩)
  have ms := hmem s ⟨le_refl _, hsy.le⟩
  have my := hmem y ⟨hsy.le, le_refl _⟩
  have h1 := hanti ⟨le_refl _, hsy.le⟩ ⟨hsy.le, le_refl _⟩ hsy.le
  have h2 := habove y hsy hyx
  have h3 := hD ms my hsy.le
  have h4 : 0 < D y := pos_of_mul_pos_right (hL.trans h2) (hpos y my).le
  have h5 := mul_le_mul h1 h3 h4.le (hpos s ms).le
  linarith

private theorem nonpos_of (m : Fits ℝ) (lam : ℝ) (h : m.shearAt lam ≤ lam * (m.shapeAt lam + 2)) : m.fAt lam ≤ 0 := by
  simp only [fAt, real_lit]
  push_cast
  linarith

private theorem white_nonpos (lam : ℝ) (h0 : 85/1000 ≤ lam) (h1 : lam ≤ 1/10) : (Fits.white : Fits ℝ).fAt lam ≤ 0 := by
  apply nonpos_of
  rw [shearAt, shapeAt, white_clip, max_eq_left (by linarith)]
  simp only [Fits.white, real_pow, real_lit]
  have e : (((62/100 : ℚ)) : ℝ) = 31 * (50:ℝ)⁻¹ := by norm_num
  have hS : (lam + ((9/100 : ℚ) : ℝ)) ^ (((62/100 : ℚ)) : ℝ) ≤ 36/100 := by
    have h3 : ((19/100 : ℝ) ^ 31) ^ ((50:ℝ)⁻¹) ≤ 36/100 := by
      rw [Real.rpow_inv_le_iff_of_pos (by norm_num) (by norm_num) (by norm_num)]
      norm_num
    have h4 : ((19/100 : ℝ) ^ 31) ^ ((50:ℝ)⁻¹) = (19/100 : ℝ) ^ (((62/100 : ℚ)) : ℝ) := by
      rw [e, Real.rpow_mul (by norm_num)]
      norm_num
    rw [h4] at h3
    refine (Real.rpow_le_rpow (by push_cast; linarith) ?_ (by norm_num)).trans h3
    push_cast; linarith
  refine hS.trans ?_
  push_cast
  obtain ⟨t, rfl⟩ : ∃ t, lam = 1/10 - t := ⟨1/10 - lam, by ring⟩
  have ht0 : 0 ≤ t := by linarith
  have ht1 : t ≤ 15/1000 := by linarith
  have hH : 9/4 ≤ 2 + (1/4 - (1/10 - t)) * (414/100 + (1/4 - (1/10 - t)) * (-835/10 + (1/4 - (1/10 - t)) *
      (854 + (1/4 - (1/10 - t)) * (-3337 + (1/4 - (1/10 - t)) * 4576)))) := by
    have a2 : 0 ≤ t ^ 2 := by positivity
    have a3 : t ^ 3 ≤ (15/1000) ^ 2 * t := by
      have := mul_le_mul_of_nonneg_right (pow_le_pow_left₀ ht0 ht1 2) ht0
      nlinarith
    have a4 : 0 ≤ t ^ 4 := by positivity
    have a5 : 0 ≤ t ^ 5 := by positivity
    have a6 : t ^ 4 ≤ (15/1000) ^ 3 * t := by
      have := mul_le_mul_of_nonneg_right (pow_le_pow_left₀ ht0 ht1 3) ht0
      nlinarith
    nlinarith
  nlinarith

private theorem cb_nonpos (lam : ℝ) (h0 : 85/1000 ≤ lam) (h1 : lam ≤ 1/10) : (cebeciBradshaw : Fits ℝ).fAt lam ≤ 0 := by
  apply nonpos_of
  rw [shearAt, shapeAt, cb_clip, max_eq_left (by linarith), min_eq_left (by linarith)]
  have ht : ¬ lam < ((0:ℚ) : ℝ) := by push_cast; linarith
  have ht' : lam ≥ ((0:ℚ) : ℝ) := by push_cast; linarith
  simp only [cebeciBradshaw, piecewise0, real_lt, real_ge, real_lit, if_neg ht, if_pos ht']
  push_cast
  have a3 : 0 ≤ lam * (lam * lam) := by positivity
  nlinarith

private theorem drela_nonpos (lam : ℝ) (h0 : 85/1000 ≤ lam) (h1 : lam ≤ 1/10) : (drela : Fits ℝ).fAt lam ≤ 0 := by
  apply nonpos_of
  rw [shearAt, shapeAt, drela_clip, max_eq_left (by linarith)]
  have hq : 0 ≤ lam * lam / ((lam + 18/100) * (lam + 18/100)) := div_nonneg (mul_self_nonneg _) (mul_self_nonneg _)
  simp only [drela, real_lit]
  push_cast
  rw [mul_div_assoc (72/1000), mul_div_assoc (56/100)]
  generalize lam * lam / ((lam + 18/100) * (lam + 18/100)) = q at hq
  have a3 : 0 ≤ lam * lam * lam := by positivity
  have h3 : lam * (2 + (261/100 - 41/10 * lam)) ≤ lam * (261/100 - 41/10 * lam + 14 * (lam * lam * lam) + 56/100 * q + 2) :=
    mul_le_mul_of_nonneg_left (by linarith) (by linarith)
  nlinarith

private theorem spline_nonpos {cs : CubicSpline ℝ} (hcs : TableSplines cs) (lam : ℝ) (h0 : 85/1000 ≤ lam) (h1 : lam ≤ 1/10) :
    (spline cs).fAt lam ≤ 0 := by
  apply nonpos_of
  obtain ⟨e1, e2⟩ := spline_interpolates hcs 22 (100/1000) (359/1000) (228/100) (by decide +kernel) (by decide +kernel) (by decide +kernel)
  push_cast at e1 e2
  have hs : (spline cs).shearAt lam ≤ 359/1000 ∧ 228/100 ≤ (spline cs).shapeAt lam := by
    rcases h1.eq_or_lt with h2 | h2
    · rw [h2, show (1/10 : ℝ) = 100/1000 by norm_num, e1, e2]; norm_num
    · obtain ⟨m1, m2⟩ := spline_monotone hcs lam (100/1000) (by linarith) (by linarith) (by norm_num)
      rw [e1] at m1; rw [e2] at m2
      exact ⟨m1.le, m2.le⟩
  nlinarith [hs.1, hs.2]

/-- For every built-in fit the right hand side is not positive for lambda from 0.085 to 0.1. -/
theorem builtin_f_nonpos {m : Fits ℝ} (hm : BuiltIn m) (lam : ℝ) (h0 : 85/1000 ≤ lam) (h1 : lam ≤ 1/10) : m.fAt lam ≤ 0 := by
  rcases hm with rfl | rfl | rfl | ⟨cs, hcs, rfl⟩
  · exact white_nonpos lam h0 h1
  · exact cb_nonpos lam h0 h1
  · exact drela_nonpos lam h0 h1
  · exact spline_nonpos hcs lam h0 h1

private theorem deltaM_eq {o : Obj ℝ} {m : Fits ℝ} {u du F : ℝ → ℝ} (S : ThwaitesSolution o m u du F) (t : ℝ) :
    o.deltaM t = .ok (Real.sqrt (F t * o.nu)) := by
  have h := S.isThwaites
  rcases hc : o.cls with _ | _ | _ <;> simp_all [Cls.isThwaites, Obj.deltaM, Obj.comp, Obj.state, S.sol, bind, Except.bind, pure, Except.pure]

/-- A solution of either Thwaites method, with built-in fits in case of the nonlinear one, that starts with positive thickness in a flow whose
velocity slope does not increase. -/
structure ConcaveFlow (o : Obj ℝ) (m : Fits ℝ) (u du F : ℝ → ℝ) (a b : ℝ) : Prop where
  sol : ThwaitesSolution o m u du F
  fit : o.cls = .thwaitesLinear ∨ BuiltIn m
  nu : 0 < o.nu
  velocity : ∀ x ∈ Set.Icc a b, -(1/1000) < u x
  slope : AntitoneOn du (Set.Icc a b)
  cont : ContinuousOn du (Set.Icc a b)
  ode : ∀ x ∈ Set.Icc a b, SatisfiesOde o F x
  start : ∃ d, o.deltaM a = .ok d ∧ 0 < d

/-- `delta_m^2 du_e <= L nu` at `x`. -/
def BelowAt (o : Obj ℝ) (du : ℝ → ℝ) (L x : ℝ) : Prop := ∃ d, o.deltaM x = .ok d ∧ 0 < d ∧ d ^ 2 * du x ≤ L * o.nu

private theorem ConcaveFlow.start' {o : Obj ℝ} {m : Fits ℝ} {u du F : ℝ → ℝ} {a b : ℝ} (C : ConcaveFlow o m u du F a b) : 0 < F a := by
  obtain ⟨d, hd, h0⟩ := C.start
  rw [deltaM_eq C.sol] at hd
  rw [← Except.ok.inj hd] at h0
  exact pos_of_mul_pos_left (Real.sqrt_pos.1 h0) C.nu.le

private theorem ConcaveFlow.pos {o : Obj ℝ} {m : Fits ℝ} {u du F : ℝ → ℝ} {a b : ℝ} (C : ConcaveFlow o m u du F a b) :
    ∀ x ∈ Set.Icc a b, 0 < F x := fun x hx => by
  have ha : a ∈ Set.Icc a b := ⟨le_refl _, hx.1.trans hx.2⟩
  obtain ⟨_, d, -, hd, hd0, -⟩ := thwaites_bounded_below o m u du F a b (|du a| + 1) C.sol C.fit C.nu (by positivity) C.velocity
    (fun t ht => (C.slope ha ht ht.1).trans ((le_abs_self _).trans (by linarith))) C.ode C.start' x hx
  rw [deltaM_eq C.sol] at hd
  rw [← Except.ok.inj hd] at hd0
  exact pos_of_mul_pos_left (Real.sqrt_pos.1 hd0) C.nu.le

private theorem ConcaveFlow.core {o : Obj ℝ} {m : Fits ℝ} {u du F : ℝ → ℝ} {a b L hi : ℝ} (C : ConcaveFlow o m u du F a b) (hL0 : 75/1000 ≤ L)
    (hhi : L < hi) (hL : o.cls = .thwaitesLinear ∨ ∀ lam, L < lam → lam < hi → m.fAt lam ≤ 0) (h0 : F a * du a ≤ L) :
    ∀ x ∈ Set.Icc a b, F x * du x ≤ L := by
  have hcls := C.sol.isThwaites
  have hex : ∀ x ∈ Set.Icc a b, HasDerivAt F (deriv F x) x ∧ (L < F x * du x → F x * du x < hi → deriv F x ≤ 0) := fun x hx => by
    obtain ⟨r, hr, hd⟩ := C.ode x hx
    rw [hd.deriv]
    refine ⟨hd, fun h1 h2 => ?_⟩
    have hu1 : 0 < 1/1000 + u x := by have := C.velocity x hx; linarith
    rcases hc : o.cls with _ | _ | _
    · have : o.rhs x [F x] = .ok [(45/100 - 6 * (F x * du x)) / (1/1000 + u x)] := by
        simp [Obj.rhs, hc, Obj.thwaitesRhs, Obj.calcF, Obj.calcLambda, C.sol.uE, C.sol.duE, bind, Except.bind, pure, Except.pure]
      rw [this] at hr
      simp only [Except.ok.injEq, List.cons.injEq, and_true] at hr
      rw [← hr]
      exact div_nonpos_of_nonpos_of_nonneg (by linarith) hu1.le
    · have : o.rhs x [F x] = .ok [m.fAt (F x * du x) / (1/1000 + u x)] := by
        simp [Obj.rhs, hc, Obj.thwaitesRhs, Obj.calcF, Obj.calcLambda, C.sol.uE, C.sol.duE, C.sol.fits, bind, Except.bind, pure, Except.pure]
      rw [this] at hr
      simp only [Except.ok.injEq, List.cons.injEq, and_true] at hr
      rw [← hr]
      refine div_nonpos_of_nonpos_of_nonneg ?_ hu1.le
      rcases hL with h | h
      · rw [hc] at h; cases h
      · exact h _ h1 h2
    · rw [hc] at hcls; cases hcls
  exact barrier_product (by linarith) hhi (fun x hx => (hex x hx).1) C.pos C.slope C.cont h0 fun x hx => (hex x hx).2

private theorem ConcaveFlow.below {o : Obj ℝ} {m : Fits ℝ} {u du F : ℝ → ℝ} {a b L hi : ℝ} (C : ConcaveFlow o m u du F a b) (hL0 : 75/1000 ≤ L)
    (hhi : L < hi) (hL : o.cls = .thwaitesLinear ∨ ∀ lam, L < lam → lam < hi → m.fAt lam ≤ 0) (h0 : BelowAt o du L a) :
    ∀ x ∈ Set.Icc a b, BelowAt o du L x := by
  have hconv : ∀ x, 0 < F x → (d : ℝ) → o.deltaM x = .ok d → d ^ 2 * du x = F x * du x * o.nu := fun x hx d hd => by
    rw [deltaM_eq C.sol] at hd
    rw [← Except.ok.inj hd, Real.sq_sqrt (mul_pos hx C.nu).le]
    ring
  obtain ⟨d, hd, -, hle⟩ := h0
  rw [hconv a C.start' d hd] at hle
  intro x hx
  have h1 := C.core hL0 hhi hL (le_of_mul_le_mul_right hle C.nu) x hx
  have hp := C.pos x hx
  refine ⟨_, deltaM_eq C.sol x, Real.sqrt_pos.2 (mul_pos hp C.nu), ?_⟩
  rw [hconv x hp _ (deltaM_eq C.sol x)]
  exact mul_le_mul_of_nonneg_right h1 C.nu.le

/-- **C106** for the linear method, with any fits: no level from 0.075 on is crossed upwards. -/
theorem linear_below (o : Obj ℝ) (m : Fits ℝ) (u du F : ℝ → ℝ) (a b L : ℝ) (C : ConcaveFlow o m u du F a b) (hc : o.cls = .thwaitesLinear)
    (hL : 75/1000 ≤ L) (h0 : BelowAt o du L a) : ∀ x ∈ Set.Icc a b, BelowAt o du L x :=
  C.below hL (lt_add_one L) (.inl hc) h0

/-- **C106** for the nonlinear method with any built-in fits: no level from 0.085 to 0.1 is crossed upwards. -/
theorem nonlinear_below (o : Obj ℝ) (m : Fits ℝ) (u du F : ℝ → ℝ) (a b L : ℝ) (C : ConcaveFlow o m u du F a b) (hm : BuiltIn m)
    (hL : 85/1000 ≤ L) (hL1 : L < 1/10) (h0 : BelowAt o du L a) : ∀ x ∈ Set.Icc a b, BelowAt o du L x :=
  C.below (by linarith) hL1 (.inr fun lam h1 h2 => builtin_f_nonpos hm lam (by linarith) h2.le) h0

/-- **C106**: the layer that starts from the library's stagnation condition for the velocity slope and the viscosity at the start. Everywhere
`delta_m^2 du_e <= 0.08547 nu`, and the argument at which the fits are evaluated lies below the upper end of their range. -/
theorem stagnation_start_bounded (o : Obj ℝ) (m : Fits ℝ) (u du F : ℝ → ℝ) (a b dm : ℝ) (C : ConcaveFlow o m u du F a b) (hm : BuiltIn m)
    (hdu : 0 < du a) (h0 : (IC.stag (du a) o.nu).deltaM = .ok dm) (hstart : o.deltaM a = .ok dm) :
    ∀ x ∈ Set.Icc a b, (∃ d, o.deltaM x = .ok d ∧ 0 < d ∧ d ^ 2 * du x ≤ 8547/100000 * o.nu) ∧
      ∃ F' lam, o.comp 0 x = .ok F' ∧ o.calcLambda x F' = .ok lam ∧ lam ≤ 8547/100000 ∧ ∀ hi, m.hi = some hi → lam < hi := by
  have hb : BelowAt o du (8547/100000) a := by
    obtain ⟨dm', _, _, h1, -, -, -, -, hp, -, -, h2⟩ := stagnation_condition (du a) o.nu hdu C.nu
    rw [h1] at h0
    obtain rfl := Except.ok.inj h0
    refine ⟨dm', hstart, hp, ?_⟩
    have hnu := C.nu
    have e : dm' ^ 2 / o.nu * du a = dm' ^ 2 * du a / o.nu := by ring
    rw [e, div_mul_eq_mul_div, div_eq_iff hnu.ne'] at h2
    nlinarith
  intro x hx
  have hB := nonlinear_below o m u du F a b (8547/100000) C hm (by norm_num) (by norm_num) hb x hx
  refine ⟨hB, F x, F x * du x, ?_, ?_, ?_⟩
  · simp [Obj.comp, Obj.state, C.sol.sol, bind, Except.bind, pure, Except.pure]
  · simp [Obj.calcLambda, C.sol.duE, bind, Except.bind, pure, Except.pure]
  · obtain ⟨d, hd, -, hle⟩ := hB
    rw [deltaM_eq C.sol] at hd
    rw [← Except.ok.inj hd, Real.sq_sqrt (mul_pos (C.pos x hx) C.nu).le] at hle
    have h1 : F x * du x ≤ 8547/100000 := by
      refine le_of_mul_le_mul_right ?_ C.nu
      linarith
    refine ⟨h1, fun hi hhi => lt_of_le_of_lt h1 ?_⟩
    rcases hm with rfl | rfl | rfl | ⟨cs, hcs, rfl⟩
    · simp [Fits.white] at hhi
    · simp only [cebeciBradshaw, Option.some.injEq, real_lit] at hhi
      rw [← hhi]; norm_num
    · simp [drela] at hhi
    · simp only [spline, Option.some.injEq, real_lit] at hhi
      rw [← hhi]; norm_num

/-! A case that meets the hypotheses: the linear method with White's fits in `u_e = x`, from `x = 0.999` in the stagnation condition. -/

private noncomputable def stagC : ℝ := (29235/100000) * (123259/100000) / (22162/10000 + 2)
private noncomputable def stagF : ℝ → ℝ := fun x => 75/1000 + (stagC - 75/1000) / (1/1000 + x) ^ 6
private noncomputable def stagObj : Obj ℝ where
  cls := .thwaitesLinear
  nu := 1
  vel := ⟨some (.fn fun x => .ok x), some (.fn fun _ => .ok 1), none⟩
  ic := .stag 1 1
  events := [.sepThwaites Fits.white]
  sol := some fun x => [stagF x]
  fits := some Fits.white

private theorem stag_sol : ThwaitesSolution stagObj Fits.white (fun x => x) (fun _ => 1) stagF :=
  ⟨rfl, rfl, rfl, fun t => by simp [stagObj, VelState.uE, VelState.rawU, callOpt, Vel.call],
    fun t => by simp [stagObj, VelState.duE, VelState.rawDu, callOpt, Vel.call]⟩

private theorem stag_start : stagF (999/1000) = stagC := by
  norm_num [stagF]

example : ConcaveFlow stagObj Fits.white (fun x => x) (fun _ => 1) stagF (999/1000) 2 ∧ BuiltIn Fits.white ∧
    (IC.stag 1 stagObj.nu).deltaM = .ok (Real.sqrt stagC) ∧ stagObj.deltaM (999/1000) = .ok (Real.sqrt stagC) := by
  have hs : stagObj.deltaM (999/1000) = .ok (Real.sqrt stagC) := by
    rw [deltaM_eq stag_sol, stag_start]; simp [stagObj]
  refine ⟨⟨stag_sol, .inl rfl, one_pos, fun x hx => by linarith [hx.1], fun _ _ _ _ _ => le_rfl, continuousOn_const, fun x hx => ?_, _, hs,
    Real.sqrt_pos.2 (by norm_num [stagC])⟩, .inl rfl, ?_, hs⟩
  · have hw : (1/1000 + x) ≠ 0 := by linarith [hx.1]
    refine ⟨-6 * (stagC - 75/1000) / (1/1000 + x) ^ 7, ?_, ?_⟩
    · have e : stagObj.rhs x [stagF x] = .ok [(45/100 - 6 * (stagF x * 1)) / (1/1000 + x)] := by
        simp [Obj.rhs, show stagObj.cls = .thwaitesLinear from rfl, Obj.thwaitesRhs, Obj.calcF, Obj.calcLambda, stag_sol.uE, stag_sol.duE, bind,
          Except.bind, pure, Except.pure]
      rw [e, stagF]
      generalize 1/1000 + x = w at hw
      simp only [mul_one, Except.ok.injEq, List.cons.injEq, and_true]
      field_simp
      ring
    · have h1 : HasDerivAt (fun t : ℝ => 1/1000 + t) 1 x := (hasDerivAt_id x).const_add (1/1000)
      have h2 := ((hasDerivAt_const x (stagC - 75/1000)).div (h1.pow 6) (pow_ne_zero 6 hw)).const_add (75/1000)
      refine h2.congr_deriv ?_
      simp only [Pi.pow_apply]
      generalize 1/1000 + x = w at hw
      field_simp
      norm_num
      ring
  · simp only [IC.deltaM, pyDiv, IC.stagEtaM, IC.stagFpp0, IC.stagShapeD, real_lit, real_eq, stagObj, stagC, bind, Except.bind]
    norm_num [pure, Except.pure]

end IBL
