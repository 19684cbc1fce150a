import Verif.Props.Acceleration
import Verif.Props.ThwaitesUnique

/-! C103: a thicker laminar layer stays thicker, and does not separate later. -/

namespace IBL
open SolveIvp Fits

/-- If solutions that meet stay together, they keep their order. -/
private theorem order_kept {F G : ℝ → ℝ} {a b : ℝ} (hF : ContinuousOn F (Set.Icc a b)) (hG : ContinuousOn G (Set.Icc a b))
    (huniq : ∀ d c, a ≤ d → d ≤ c → c ≤ b → F d = G d → F c = G c) (h0 : F a ≤ G a) : ∀ x ∈ Set.Icc a b, F x ≤ G x := by
  intro c hc
  by_contra hlt
  rw [not_le] at hlt
  have hsub : Set.Icc a c ⊆ Set.Icc a b := Set.Icc_subset_Icc_right hc.2
  have hcont : ContinuousOn (fun x => F x - G x) (Set.Icc a c) := (hF.sub hG).mono hsub
  have hI := intermediate_value_Icc hc.1 hcont
  obtain ⟨d, hd, e⟩ := hI ⟨sub_nonpos.2 h0, (sub_pos.2 hlt).le⟩
  have := huniq d c hd.1 hd.2 hc.2 (sub_eq_zero.1 e)
  linarith

private theorem rhs_same {o1 o2 : Obj ℝ} {m : Fits ℝ} {u du F G : ℝ → ℝ} (S1 : ThwaitesSolution o1 m u du F) (S2 : ThwaitesSolution o2 m u du G)
    (hcls : o1.cls = o2.cls) (x y : ℝ) : o2.rhs x [y] = o1.rhs x [y] := by
  have h := S1.isThwaites
  have e1 := S1.uE; have e2 := S2.uE; have f1 := S1.duE; have f2 := S2.duE
  have g1 := S1.fits; have g2 := S2.fits
  rcases hc : o1.cls with _ | _ | _
  · simp [Obj.rhs, ← hcls, hc, Obj.thwaitesRhs, Obj.calcF, Obj.calcLambda, e1, e2, f1, f2, g1, g2]
  · simp [Obj.rhs, ← hcls, hc, Obj.thwaitesRhs, Obj.calcF, Obj.calcLambda, e1, e2, f1, f2, g1, g2]
  · rw [hc] at h; cases h

/-- Two objects of the same class, with the same fits and the same viscosity, that hold solutions of their equation over an interval, in the
same flow. -/
structure TwoLayers (o1 o2 : Obj ℝ) (m : Fits ℝ) (u du F G : ℝ → ℝ) (a b : ℝ) : Prop where
  first : ThwaitesSolution o1 m u du F
  second : ThwaitesSolution o2 m u du G
  cls : o1.cls = o2.cls
  fit : o1.cls = .thwaitesLinear ∨ BuiltIn m
  nu : o1.nu = o2.nu ∧ 0 < o1.nu
  slope : ∀ x ∈ Set.Icc a b, HasDerivAt u (du x) x
  velocity : ∀ x ∈ Set.Icc a b, -(1/1000) < u x
  bounded : ∃ D, ∀ x ∈ Set.Icc a b, |du x| ≤ D
  ode1 : ∀ x ∈ Set.Icc a b, SatisfiesOde o1 F x
  ode2 : ∀ x ∈ Set.Icc a b, SatisfiesOde o2 G x

private theorem deltaM_eq {o : Obj ℝ} {m : Fits ℝ} {u du F : ℝ → ℝ} (S : ThwaitesSolution o m u du F) (t : ℝ) :
    o.deltaM t = .ok (Real.sqrt (F t * o.nu)) := by
  have h := S.isThwaites
  rcases hc : o.cls with _ | _ | _ <;> simp_all [Cls.isThwaites, Obj.deltaM, Obj.comp, Obj.state, S.sol, bind, Except.bind, pure, Except.pure]

private theorem TwoLayers.core {o1 o2 : Obj ℝ} {m : Fits ℝ} {u du F G : ℝ → ℝ} {a b : ℝ} (T : TwoLayers o1 o2 m u du F G a b) (h0 : 0 < F a)
    (hle : F a ≤ G a) : ∀ x ∈ Set.Icc a b, 0 < F x ∧ F x ≤ G x := by
  obtain ⟨D, hD⟩ := T.bounded
  have hcont : ∀ {o : Obj ℝ} {H : ℝ → ℝ}, (∀ x ∈ Set.Icc a b, SatisfiesOde o H x) → ContinuousOn H (Set.Icc a b) := fun hH t ht => by
    obtain ⟨r, -, hd⟩ := hH t ht
    exact hd.continuousAt.continuousWithinAt
  have hG : ∀ x ∈ Set.Icc a b, SatisfiesOde o1 G x := fun x hx => by
    obtain ⟨r, hr, hd⟩ := T.ode2 x hx
    exact ⟨r, by rw [← hr, rhs_same T.first T.second T.cls], hd⟩
  have hpos : ∀ x ∈ Set.Icc a b, 0 < F x := fun x hx => by
    obtain ⟨_, d, -, hd, hd0, -⟩ := thwaites_bounded_below o1 m u du F a b (|D| + 1) T.first T.fit T.nu.2 (by positivity) T.velocity
      (fun t ht => (le_abs_self _).trans ((hD t ht).trans ((le_abs_self D).trans (by linarith)))) T.ode1 h0 x hx
    rw [deltaM_eq T.first] at hd
    rw [← Except.ok.inj hd] at hd0
    exact pos_of_mul_pos_left (Real.sqrt_pos.1 hd0) T.nu.2.le
  have huc : ContinuousOn u (Set.Icc a b) := fun t ht => (T.slope t ht).continuousAt.continuousWithinAt
  refine fun x hx => ⟨hpos x hx, order_kept (hcont T.ode1) (hcont T.ode2) (fun d c had hdc hcb e => ?_) hle x hx⟩
  have hsub : Set.Icc d c ⊆ Set.Icc a b := Set.Icc_subset_Icc had hcb
  have hc : o1.cls = .thwaitesLinear ∨ o1.cls = .thwaitesNonlinear ∧ BuiltIn m := by
    have h := T.first.isThwaites
    rcases T.fit with h' | h'
    · exact .inl h'
    · rcases hc : o1.cls with _ | _ | _ <;> simp_all [Cls.isThwaites]
  rcases hc with hc | ⟨hc, hm⟩
  · obtain ⟨x0, hx0, hmin⟩ := isCompact_Icc.exists_isMinOn ⟨d, le_refl d, hdc⟩ (huc.mono hsub)
    have := thwaites_linear_error o1 u du F G d c 0 D (u x0 + 1/1000) hc T.first.uE T.first.duE le_rfl
      (by have := T.velocity x0 (hsub hx0); linarith) (fun t ht => ⟨by have := hmin ht; simp at this; linarith, hD t (hsub ht)⟩)
      (fun t ht => T.ode1 t (hsub ht)) (fun t ht => by
        obtain ⟨r, hr, hd⟩ := hG t (hsub ht)
        exact ⟨r, r, hr, hd, by simp⟩) c ⟨hdc, le_rfl⟩
    rw [e, sub_self, abs_zero, zero_mul, add_zero, zero_mul] at this
    exact sub_eq_zero.1 (abs_nonpos_iff.1 this)
  · exact thwaites_nonlinear_unique o1 m u du F G d c D hm hc T.first.fits T.first.uE T.first.duE T.nu.2 (huc.mono hsub)
      (fun t ht => T.velocity t (hsub ht)) (fun t ht => hD t (hsub ht)) (fun t ht => T.ode1 t (hsub ht)) (fun t ht => hG t (hsub ht)) e
      (hpos d ⟨had, hdc.trans hcb⟩) c ⟨hdc, le_rfl⟩

/-- **C103**: the layer that starts thicker is nowhere thinner. Linear method with any fits, nonlinear method with any built-in fits. -/
theorem thicker_stays_thicker (o1 o2 : Obj ℝ) (m : Fits ℝ) (u du F G : ℝ → ℝ) (a b : ℝ) (T : TwoLayers o1 o2 m u du F G a b) (d1 d2 : ℝ)
    (h1 : o1.deltaM a = .ok d1) (h2 : o2.deltaM a = .ok d2) (h0 : 0 < d1) (hle : d1 ≤ d2) :
    ∀ x ∈ Set.Icc a b, ∃ e1 e2, o1.deltaM x = .ok e1 ∧ o2.deltaM x = .ok e2 ∧ 0 < e1 ∧ e1 ≤ e2 := by
  rw [deltaM_eq T.first] at h1
  rw [deltaM_eq T.second, ← T.nu.1] at h2
  obtain rfl := Except.ok.inj h1
  obtain rfl := Except.ok.inj h2
  have hp := Real.sqrt_pos.1 h0
  have hF : 0 < F a := pos_of_mul_pos_left hp T.nu.2.le
  have hle' : F a * o1.nu ≤ G a * o1.nu := (Real.sqrt_le_sqrt_iff' hp).1 hle
  intro x hx
  obtain ⟨k1, k2⟩ := T.core hF (le_of_mul_le_mul_right hle' T.nu.2) x hx
  refine ⟨_, _, deltaM_eq T.first x, deltaM_eq T.second x, Real.sqrt_pos.2 (mul_pos k1 T.nu.2), ?_⟩
  rw [← T.nu.1]
  exact Real.sqrt_le_sqrt (mul_le_mul_of_nonneg_right k2 T.nu.2.le)

/-- **C103**: the criterion of the separation monitor. In a flow that is decelerated at a location, and with fits that signal separation (C15:
Spline, White, Cebeci-Bradshaw), the criterion is met there in the thicker layer if it is met in the thinner one. -/
theorem thicker_separates_first (o1 o2 : Obj ℝ) (m : Fits ℝ) (u du F G : ℝ → ℝ) (a b : ℝ) (T : TwoLayers o1 o2 m u du F G a b)
    (hs : SignalsSeparation m) (d1 d2 : ℝ) (h1 : o1.deltaM a = .ok d1) (h2 : o2.deltaM a = .ok d2) (h0 : 0 < d1) (hle : d1 ≤ d2)
    (x : ℝ) (hx : x ∈ Set.Icc a b) (hdec : du x ≤ 0) :
    ∃ v1 v2, o1.eventValue (.sepThwaites m) x [F x] = .ok v1 ∧ o2.eventValue (.sepThwaites m) x [G x] = .ok v2 ∧ (v1 ≤ 0 → v2 ≤ 0) := by
  obtain ⟨e1, e2, he1, he2, hp, hle'⟩ := thicker_stays_thicker o1 o2 m u du F G a b T d1 d2 h1 h2 h0 hle x hx
  rw [deltaM_eq T.first] at he1
  rw [deltaM_eq T.second, ← T.nu.1] at he2
  obtain rfl := Except.ok.inj he1
  obtain rfl := Except.ok.inj he2
  have hp' := Real.sqrt_pos.1 hp
  have hF : 0 < F x := pos_of_mul_pos_left hp' T.nu.2.le
  have hFG : F x ≤ G x := le_of_mul_le_mul_right ((Real.sqrt_le_sqrt_iff' hp').1 hle') T.nu.2
  refine ⟨_, _, (separation_event_value o1 m x (F x) (du x) (T.first.duE x)).1, (separation_event_value o2 m x (G x) (du x) (T.second.duE x)).1, ?_⟩
  obtain ⟨ls, -, -, k1, k2⟩ := hs
  intro h
  have h3 : F x * du x ≤ ls := by
    by_contra hc
    exact absurd h (not_le.2 (k1 _ (not_le.1 hc) (mul_nonpos_of_nonneg_of_nonpos hF.le hdec)))
  exact k2 _ ((mul_le_mul_of_nonpos_right hFG hdec).trans h3)

/-- **C103**: in a flow that is nowhere accelerated, a `solve` that follows the thinner layer does not report separation if the thicker layer is
attached all the way. -/
theorem thinner_stays_attached (o1 o2 : Obj ℝ) (m : Fits ℝ) (u du F G : ℝ → ℝ) (x0 x1 : ℝ) (T : TwoLayers o1 o2 m u du F G x0 x1)
    (hs : SignalsSeparation m) (d1 d2 : ℝ) (h1 : o1.deltaM x0 = .ok d1) (h2 : o2.deltaM x0 = .ok d2) (h0 : 0 < d1) (hle : d1 ≤ d2)
    (hdec : ∀ x ∈ Set.Icc x0 x1, du x ≤ 0) (hatt : ∀ x ∈ Set.Icc x0 x1, ∃ v, o2.eventValue (.sepThwaites m) x [G x] = .ok v ∧ 0 < v)
    (hx : x0 ≤ x1) (stepper : Stepper ℝ) (root : RootFinder ℝ) (p : IvpProblem ℝ) (r : IntegrationResult ℝ)
    (H : SepRun o1 (.sepThwaites m) x0 x1 stepper root p r) (hy : p.y0 = [F x0])
    (hsteps : ∀ s ∈ (stepper p).steps, s.t ∈ Set.Icc x0 x1 ∧ s.y = [F s.t]) : r.status ≠ .separated := by
  have hval : ∀ x ∈ Set.Icc x0 x1, ∃ v, o1.eventValue (.sepThwaites m) x [F x] = .ok v ∧ 0 < v := fun x hx' => by
    obtain ⟨v1, v2, k1, k2, k3⟩ := thicker_separates_first o1 o2 m u du F G x0 x1 T hs d1 d2 h1 h2 h0 hle x hx' (hdec x hx')
    obtain ⟨v, hv, hp⟩ := hatt x hx'
    rw [k2] at hv
    obtain rfl := Except.ok.inj hv
    refine ⟨v1, k1, ?_⟩
    by_contra hc
    exact absurd (k3 (not_lt.1 hc)) (not_le.2 hp)
  obtain ⟨v0, hv0, hp0⟩ := hval x0 ⟨le_refl _, hx⟩
  rw [Ne, separation_reported_iff H v0 (by rw [hy]; exact hv0) hp0]
  rintro ⟨s, hs', v, hv, hle'⟩
  obtain ⟨ht, hys⟩ := hsteps s hs'
  obtain ⟨v', hv', hp'⟩ := hval s.t ht
  rw [hys, hv'] at hv
  rw [← Except.ok.inj hv] at hle'
  linarith

/-- The other reading: if the thinner layer is reported as separated, the criterion is met somewhere in the thicker one. -/
theorem thicker_separated_too (o1 o2 : Obj ℝ) (m : Fits ℝ) (u du F G : ℝ → ℝ) (x0 x1 : ℝ) (T : TwoLayers o1 o2 m u du F G x0 x1)
    (hs : SignalsSeparation m) (d1 d2 : ℝ) (h1 : o1.deltaM x0 = .ok d1) (h2 : o2.deltaM x0 = .ok d2) (h0 : 0 < d1) (hle : d1 ≤ d2)
    (hdec : ∀ x ∈ Set.Icc x0 x1, du x ≤ 0) (stepper : Stepper ℝ) (root : RootFinder ℝ) (p : IvpProblem ℝ) (r : IntegrationResult ℝ)
    (H : SepRun o1 (.sepThwaites m) x0 x1 stepper root p r) (hy : p.y0 = [F x0])
    (hsteps : ∀ s ∈ (stepper p).steps, s.t ∈ Set.Icc x0 x1 ∧ s.y = [F s.t]) (hx : x0 ≤ x1) (hsep : r.status = .separated) :
    ∃ x ∈ Set.Icc x0 x1, ∃ v, o2.eventValue (.sepThwaites m) x [G x] = .ok v ∧ v ≤ 0 := by
  by_contra hno
  push Not at hno
  refine thinner_stays_attached o1 o2 m u du F G x0 x1 T hs d1 d2 h1 h2 h0 hle hdec (fun x hx' => ?_) hx stepper root p r H hy hsteps hsep
  have := (separation_event_value o2 m x (G x) (du x) (T.second.duE x)).1
  exact ⟨_, this, hno x hx' _ this⟩

/-! A case that meets the hypotheses: the linear method with White's fits in `u_e = 0.999 - x`, from 0.01 and 0.02. -/

private noncomputable def falling (c : ℝ) : ℝ → ℝ := fun x => c / (1 - x) ^ 6 - 75/1000
private noncomputable def fallingObj (c : ℝ) : Obj ℝ where
  cls := .thwaitesLinear
  nu := 1
  vel := ⟨some (.fn fun x => .ok (999/1000 - x)), some (.fn fun _ => .ok (-1)), none⟩
  ic := .manual 0 1 0 1 0
  events := [.sepThwaites Fits.white]
  sol := some fun x => [falling c x]
  fits := some Fits.white

private theorem falling_sol (c : ℝ) : ThwaitesSolution (fallingObj c) Fits.white (fun x => 999/1000 - x) (fun _ => -1) (falling c) :=
  ⟨rfl, rfl, rfl, fun t => by simp [fallingObj, VelState.uE, VelState.rawU, callOpt, Vel.call],
    fun t => by simp [fallingObj, VelState.duE, VelState.rawDu, callOpt, Vel.call]⟩

private theorem falling_ode (c x : ℝ) (hx : x < 1) : SatisfiesOde (fallingObj c) (falling c) x := by
  have hw : (1 - x) ≠ 0 := by linarith
  refine ⟨6 * c / (1 - x) ^ 7, ?_, ?_⟩
  · simp [Obj.rhs, fallingObj, Obj.thwaitesRhs, Obj.calcF, Obj.calcLambda, VelState.uE, VelState.duE, VelState.rawU, VelState.rawDu, callOpt,
      Vel.call, bind, Except.bind, pure, Except.pure]
    rw [show (1000:ℝ)⁻¹ + (999/1000 - x) = 1 - x by ring, falling]
    field_simp
    ring
  · have h1 : HasDerivAt (fun t : ℝ => 1 - t) (-1) x := by simpa using (hasDerivAt_id x).const_sub 1
    have h2 := ((hasDerivAt_const x c).div (h1.pow 6) (pow_ne_zero 6 hw)).sub_const (75/1000)
    refine h2.congr_deriv ?_
    field_simp
    simp
    ring

example : TwoLayers (fallingObj (85/1000)) (fallingObj (95/1000)) Fits.white (fun x => 999/1000 - x) (fun _ => -1) (falling (85/1000))
    (falling (95/1000)) 0 (1/100) ∧ SignalsSeparation Fits.white ∧
    (fallingObj (85/1000)).deltaM 0 = .ok (Real.sqrt (1/100)) ∧ (fallingObj (95/1000)).deltaM 0 = .ok (Real.sqrt (2/100)) ∧
    ∀ x ∈ Set.Icc (0:ℝ) (1/100), ∃ v, (fallingObj (95/1000)).eventValue (.sepThwaites Fits.white) x [falling (95/1000) x] = .ok v ∧ 0 < v := by
  refine ⟨⟨falling_sol _, falling_sol _, rfl, .inl rfl, ⟨rfl, one_pos⟩, fun x _ => by simpa using (hasDerivAt_id x).const_sub (999/1000),
    fun x hx => by linarith [hx.2], ⟨1, fun _ _ => by simp⟩, fun x hx => falling_ode _ x (by linarith [hx.2]),
    fun x hx => falling_ode _ x (by linarith [hx.2])⟩, white_signals, ?_, ?_, fun x hx => ?_⟩
  · rw [deltaM_eq (falling_sol _)]; norm_num [falling, fallingObj]
  · rw [deltaM_eq (falling_sol _)]; norm_num [falling, fallingObj]
  · obtain ⟨v, hv, hi⟩ := white_event_iff (fallingObj (95/1000)) x (falling (95/1000) x) (-1) ((falling_sol _).duE x)
    refine ⟨v, hv, ?_⟩
    by_contra hc
    have h1 := hi.1 (not_lt.1 hc)
    have h2 : (94/100 : ℝ) ≤ (1 - x) ^ 6 := by
      have : (99/100 : ℝ) ≤ 1 - x := by linarith [hx.2]
      calc (94/100 : ℝ) ≤ (99/100) ^ 6 := by norm_num
        _ ≤ _ := pow_le_pow_left₀ (by norm_num) this 6
    have h3 : (95/1000 : ℝ) / (1 - x) ^ 6 ≤ (95/1000) / (94/100) := div_le_div_of_nonneg_left (by norm_num) (by norm_num) h2
    simp only [falling] at h1
    norm_num at h3
    linarith

end IBL
