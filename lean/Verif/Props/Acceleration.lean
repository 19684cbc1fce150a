import Verif.Props.HeadExamples
import Verif.Props.Positivity
import Verif.Props.SeparationExamples
import Verif.Props.ThwaitesQuadrature

/-!
C74: no separation is reported in a flow that is nowhere decelerated, when the integrator follows a solution.
-/

namespace IBL
open SolveIvp Fits

/-- A `solve` of a Thwaites object with the fits `m` in the flow `u`, whose accepted points lie on a solution `F` of its equation that
starts positive. -/
structure ThwaitesExact (o : Obj ℝ) (m : Fits ℝ) (u du F : ℝ → ℝ) (x0 x1 : ℝ) (stepper : Stepper ℝ) (root : RootFinder ℝ)
    (p : IvpProblem ℝ) (r : IntegrationResult ℝ) : Prop where
  run : SepRun o (.sepThwaites m) x0 x1 stepper root p r
  isThwaites : o.cls.isThwaites = true
  fits : o.fits = some m
  nu : 0 < o.nu
  uE : ∀ t, o.vel.uE t = .ok (u t)
  duE : ∀ t, o.vel.duE t = .ok (du t)
  slope : ∀ t, HasDerivAt u (du t) t
  velocity : ∀ x ∈ Set.Icc x0 x1, -(1/1000) < u x
  bounded : ∃ D, ∀ x ∈ Set.Icc x0 x1, du x ≤ D
  ode : ∀ x ∈ Set.Icc x0 x1, SatisfiesOde o F x
  start : p.y0 = [F x0] ∧ 0 < F x0
  steps : ∀ s ∈ (stepper p).steps, s.t ∈ Set.Icc x0 x1 ∧ s.y = [F s.t]

/-- **C74** for one choice of fits. -/
def AttachedWhenAccelerated (m : Fits ℝ) : Prop :=
  ∀ (o : Obj ℝ) (u du F : ℝ → ℝ) (x0 x1 : ℝ) (stepper : Stepper ℝ) (root : RootFinder ℝ) (p : IvpProblem ℝ) (r : IntegrationResult ℝ),
    ThwaitesExact o m u du F x0 x1 stepper root p r → x0 ≤ x1 → (∀ x ∈ Set.Icc x0 x1, 0 ≤ du x) → r.status ≠ .separated

private theorem attached_of_shear (m : Fits ℝ) (hb : BuiltIn m) (hm : ∀ lam, 0 ≤ lam → 0 < m.shearAt lam) : AttachedWhenAccelerated m := by
  intro o u du F x0 x1 stepper root p r H hx hacc
  obtain ⟨D, hD⟩ := H.bounded
  let o' : Obj ℝ := { o with sol := some fun t => [F t] }
  have S : ThwaitesSolution o' m u du F := ⟨H.isThwaites, H.fits, rfl, H.uE, H.duE⟩
  have hpos : ∀ x ∈ Set.Icc x0 x1, 0 < F x := fun x hx' => by
    have hd := thwaites_bounded_below o' m u du F x0 x1 (|D| + 1) S (.inr hb) H.nu (by positivity) H.velocity
      (fun t ht => (hD t ht).trans ((le_abs_self D).trans (by linarith))) H.ode H.start.2 x hx'
    obtain ⟨da, d, -, h1, h2, -⟩ := hd
    have hc : o'.comp 0 x = .ok (F x) := by simp [o', Obj.comp, Obj.state, bind, Except.bind, pure, Except.pure]
    have hdm : o'.deltaM x = .ok (Real.sqrt (F x * o'.nu)) := by
      have := S.isThwaites
      have h' : o'.cls = .thwaitesLinear ∨ o'.cls = .thwaitesNonlinear := by
        rcases hc : o'.cls with _ | _ | _ <;> simp_all [Cls.isThwaites]
      rcases h' with h | h <;> simp [Obj.deltaM, h, hc, bind, Except.bind, pure, Except.pure]
    rw [hdm] at h1
    rw [← Except.ok.inj h1] at h2
    exact pos_of_mul_pos_left (Real.sqrt_pos.1 h2) H.nu.le
  have hval : ∀ x ∈ Set.Icc x0 x1, ∃ v, o.eventValue (.sepThwaites m) x [F x] = .ok v ∧ 0 < v := fun x hx' =>
    ⟨_, (separation_event_value o m x (F x) (du x) (H.duE x)).1, hm _ (mul_nonneg (hpos x hx').le (hacc x hx'))⟩
  obtain ⟨v0, hv0, hp0⟩ := hval x0 ⟨le_refl _, hx⟩
  rw [Ne, separation_reported_iff H.run v0 (by rw [H.start.1]; exact hv0) hp0]
  rintro ⟨s, hs, v, hv, hle⟩
  obtain ⟨ht, hy⟩ := H.steps s hs
  obtain ⟨v', hv', hp'⟩ := hval s.t ht
  rw [hy, hv'] at hv
  rw [← Except.ok.inj hv] at hle
  linarith

/-- **C74**, what holds for Thwaites' methods: Spline, White and Cebeci-Bradshaw fits. Missing: Drela's, for which it is false. -/
theorem attached_when_accelerated_partial {cs : CubicSpline ℝ} (hcs : TableSplines cs) : AttachedWhenAccelerated (spline cs) ∧
    AttachedWhenAccelerated Fits.white ∧ AttachedWhenAccelerated cebeciBradshaw := by
  refine ⟨attached_of_shear _ (.inr (.inr (.inr ⟨cs, hcs, rfl⟩))) fun lam h => (spline_shear_pos_iff hcs lam).2 (by linarith),
    attached_of_shear _ (.inl rfl) fun lam h => ?_, attached_of_shear _ (.inr (.inl rfl)) fun lam h => ?_⟩
  · rw [shearAt, white_clip, max_eq_left (by linarith)]
    simp only [Fits.white, real_pow, real_lit]
    exact Real.rpow_pos_of_pos (by push_cast; linarith) _
  · rw [shearAt, cb_clip, max_eq_left (by linarith)]
    have h1 : 0 ≤ min lam (1/10) := le_min h (by norm_num)
    have h2 : min lam (1/10) ≤ 1/10 := min_le_right _ _
    generalize min lam (1/10) = t at h1 h2
    have ht : ¬ t < ((0:ℚ) : ℝ) := by push_cast; linarith
    have ht' : t ≥ ((0:ℚ) : ℝ) := by push_cast; linarith
    simp only [cebeciBradshaw, piecewise0, real_lt, real_ge, real_lit, if_neg ht, if_pos ht']
    push_cast
    nlinarith

/-- The linear method with the momentum thickness 10, in the flow `u_e = 0.999 + x^2/4`. -/
private noncomputable def acc (m : Fits ℝ) : Obj ℝ where
  cls := .thwaitesLinear
  nu := 1
  vel := ⟨some (.fn fun x => .ok (999/1000 + x ^ 2 / 4)), some (.fn fun x => .ok (x / 2)), none⟩
  ic := .manual 0 1 0 10 0
  events := [.sepThwaites m]
  sol := none
  fits := some m

private theorem acc_prepare (m : Fits ℝ) : ∃ o' p, (acc m).prepare 0 1 .none = (o', .ok p) ∧ p.y0 = [100] ∧ p.x0 = 0 ∧
    p.events = [.sepThwaites m] := by
  simp [acc, Obj.prepare, IC.setNu, VelState.duE, VelState.rawDu, callOpt, Vel.call, IC.setDu, Obj.startVector, IC.deltaM, pyDiv, bind,
    Except.bind, pure, Except.pure, TermArg.toList]
  norm_num
  exact ⟨_, _, ⟨rfl, rfl⟩, rfl, rfl, rfl⟩

private theorem acc_du (m : Fits ℝ) (x : ℝ) : (acc m).vel.duE x = .ok (x / 2) := by
  simp [acc, VelState.duE, VelState.rawDu, callOpt, Vel.call]
private theorem acc_u (m : Fits ℝ) (x : ℝ) : (acc m).vel.uE x = .ok (999/1000 + x ^ 2 / 4) := by
  simp [acc, VelState.uE, VelState.rawU, callOpt, Vel.call]

/-- A run of it along a solution, in one step. The hypotheses of C74 are met. -/
private theorem acc_run (m : Fits ℝ) : ∃ (F : ℝ → ℝ) (root : RootFinder ℝ) (p : IvpProblem ℝ) (r : IntegrationResult ℝ),
    ThwaitesExact (acc m) m (fun x => 999/1000 + x ^ 2 / 4) (fun x => x / 2) F 0 1 (SepWit.one fun t => [F t]) root p r ∧ F 0 = 100 ∧
    2 ≤ F 1 * (1/2) := by
  have hslope : ∀ x : ℝ, HasDerivAt (fun x => 999/1000 + x ^ 2 / 4) (x / 2) x := fun x => by
    have := ((((hasDerivAt_id x).fun_pow 2).div_const 4).const_add (999/1000))
    refine this.congr_deriv ?_
    simp
    ring
  have hvel : ∀ x ∈ Set.Icc (0:ℝ) 1, -(1/1000 : ℝ) < 999/1000 + x ^ 2 / 4 := fun x _ => by nlinarith [sq_nonneg x]
  obtain ⟨F, hF0, hode, hq⟩ := thwaites_linear_exists (acc m) (fun x => 999/1000 + x ^ 2 / 4) (fun x => x / 2) 0 1 100 rfl (acc_u m) (acc_du m)
    hslope hvel zero_le_one
  have hval : ∀ x y, (acc m).eventValue (.sepThwaites m) x [y] = .ok (m.shearAt (y * (x / 2))) := fun x y =>
    (separation_event_value (acc m) m x y (x / 2) (acc_du m x)).1
  obtain ⟨root, -, htot⟩ := bracketRoot_exists
  obtain ⟨o', p, hp, hy, hx, he⟩ := acc_prepare m
  obtain ⟨r, hr⟩ := solve_total (acc m).eventValue (SepWit.one fun t => [F t]) root hp htot
    (by rw [he, hy, hx]; intro e h; simp only [List.mem_singleton] at h; subst h; exact ⟨_, hval 0 _⟩)
    (by
      rw [he]; intro s hs e h
      simp only [SepWit.one, List.mem_singleton] at h hs
      subst h; subst hs; exact ⟨_, hval 1 _⟩)
    (by intro x h; cases h)
  have hrun : SepRun (acc m) (.sepThwaites m) 0 1 (SepWit.one fun t => [F t]) root p r := by
    refine ⟨rfl, rfl, by rw [hp], hr, ?_⟩
    intro s hs
    simp only [SepWit.one, List.mem_singleton] at hs
    subst hs; exact ⟨_, hval 1 _⟩
  refine ⟨F, root, p, r, ⟨hrun, rfl, rfl, one_pos, acc_u m, acc_du m, hslope, hvel, ⟨1, fun x hx => by linarith [hx.2]⟩, hode,
    ⟨by rw [hy, hF0], by rw [hF0]; norm_num⟩, fun s hs => ?_⟩, hF0, ?_⟩
  · simp only [SepWit.one, List.mem_singleton] at hs
    subst hs
    exact ⟨⟨zero_le_one, le_refl _⟩, rfl⟩
  · have h1 := hq 1 ⟨zero_le_one, le_refl _⟩
    have hI : 0 ≤ ∫ t in (0:ℝ)..1, (999/1000 + t ^ 2 / 4 + 1/1000 : ℝ) ^ 5 :=
      intervalIntegral.integral_nonneg zero_le_one fun t _ => by positivity
    have : (100:ℝ) * (999/1000 + 0 ^ 2 / 4 + 1/1000) ^ 6 ≤ F 1 * (999/1000 + 1 ^ 2 / 4 + 1/1000) ^ 6 := by rw [h1]; linarith
    norm_num at this
    linarith

/-- **C74** is false for Drela's fits, which have no upper end: where the velocity slope rises quickly lambda is large and their shear
negative. The run follows a solution exactly. -/
theorem attached_when_accelerated_fails : ¬ AttachedWhenAccelerated drela := by
  intro H
  obtain ⟨F, root, p, r, hE, hF0, hF⟩ := acc_run drela
  have hval : ∀ x y, (acc drela).eventValue (.sepThwaites drela) x [y] = .ok ((drela : Fits ℝ).shearAt (y * (x / 2))) := fun x y =>
    (separation_event_value (acc drela) drela x y (x / 2) (acc_du drela x)).1
  refine H _ _ _ F 0 1 _ root p r hE zero_le_one (fun x hx => by linarith [hx.1]) ?_
  rw [separation_reported_iff hE.run ((drela : Fits ℝ).shearAt 0) (by rw [hE.start.1, hval]; norm_num) ?_]
  · refine ⟨⟨1, [F 1], fun t => [F t]⟩, by simp [SepWit.one], _, hval 1 _, ?_⟩
    generalize F 1 * (1/2) = lam at hF
    rw [shearAt, drela_clip, max_eq_left (by linarith)]
    simp only [drela, real_lit]
    push_cast
    have h2 : 0 ≤ 72/1000 * (lam * lam) / ((lam + 18/100) * (lam + 18/100)) := by positivity
    nlinarith [mul_nonneg (mul_nonneg (by linarith : 0 ≤ lam) (by linarith : 0 ≤ lam)) (by linarith : 0 ≤ lam - 2),
      mul_nonneg (by linarith : 0 ≤ lam) (by linarith : 0 ≤ lam - 2)]
  · rw [shearAt, drela_clip, max_eq_left (by norm_num)]
    simp only [drela, real_lit]
    norm_num

/-- Non-vacuity of C74 for the fits for which it holds. -/
example : ∃ (o : Obj ℝ) (u du F : ℝ → ℝ) (stepper : Stepper ℝ) (root : RootFinder ℝ) (p : IvpProblem ℝ) (r : IntegrationResult ℝ),
    ThwaitesExact o Fits.white u du F 0 1 stepper root p r ∧ (∀ x ∈ Set.Icc (0:ℝ) 1, 0 ≤ du x) ∧ (stepper p).steps ≠ [] := by
  obtain ⟨F, root, p, r, hE, -⟩ := acc_run Fits.white
  exact ⟨_, _, _, F, _, root, p, r, hE, fun x hx => by linarith [hx.1], by simp [SepWit.one]⟩

/-- **C74**, Head: a `solve` of a Head object with a critical shape factor above 2 and above the start value, whose accepted points lie on
a solution, does not report separation in a flow that is nowhere decelerated, for Reynolds numbers of at least 1. -/
theorem head_attached_when_accelerated (o : Obj ℝ) (crit x0 x1 D : ℝ) (u du dm h : ℝ → ℝ) (stepper : Stepper ℝ) (root : RootFinder ℝ)
    (p : IvpProblem ℝ) (r : IntegrationResult ℝ) (run : SepRun o (.sepHead crit) x0 x1 stepper root p r) (hx : x0 ≤ x1)
    (S : HeadSolutionOn { o with sol := some fun t => [dm t, h t] } u du dm h x0 x1) (hnu : 0 < o.nu) (h0 : 0 < dm x0)
    (hu : ∀ x ∈ Set.Icc x0 x1, 1/1000 ≤ u x) (hacc : ∀ x ∈ Set.Icc x0 x1, 0 ≤ du x) (hD : ∀ x ∈ Set.Icc x0 x1, du x ≤ D)
    (hre : ∀ x ∈ Set.Icc x0 x1, 1 ≤ u x * dm x / o.nu) (hy : p.y0 = [dm x0, h x0])
    (hs : ∀ s ∈ (stepper p).steps, s.t ∈ Set.Icc x0 x1 ∧ s.y = [dm s.t, h s.t]) (hc : max (h x0) 2 < crit) : r.status ≠ .separated := by
  have hb : ∀ x ∈ Set.Icc x0 x1, h x ≤ max (h x0) 2 := fun x hx' => by
    obtain ⟨s, h1, h2⟩ := head_shape_bounded _ u du dm h x0 x1 D S hnu h0 hu hacc hD hre x hx'
    have : Obj.shapeD { o with sol := some fun t => [dm t, h t] } x = .ok (h x) := by
      have hh : o.cls = .head := S.isHead
      simp [Obj.shapeD, hh, Obj.comp, Obj.state, bind, Except.bind, pure, Except.pure]
    rw [this] at h1
    cases h1
    exact h2
  have hv : ∀ x d s, o.eventValue (.sepHead crit) x [d, s] = .ok (crit - s) := fun _ _ _ => rfl
  have hv0 : o.eventValue (.sepHead crit) x0 p.y0 = .ok (crit - h x0) := by rw [hy, hv]
  rw [Ne, separation_reported_iff run _ hv0 (by linarith [le_max_left (h x0) 2])]
  rintro ⟨s, hs', v, hv', hle⟩
  obtain ⟨ht, hy'⟩ := hs s hs'
  rw [hy', hv] at hv'
  rw [← Except.ok.inj hv'] at hle
  linarith [hb s.t ht]

/-- Non-vacuity: a uniform stream, one step along the solution of `head_solution_exists`. -/
example : ∃ (o : Obj ℝ) (x1 : ℝ) (u du dm h : ℝ → ℝ) (stepper : Stepper ℝ) (root : RootFinder ℝ) (p : IvpProblem ℝ)
    (r : IntegrationResult ℝ), 0 < x1 ∧ SepRun o (.sepHead (24/10)) 0 x1 stepper root p r ∧ (stepper p).steps ≠ [] ∧
    HeadSolutionOn { o with sol := some fun t => [dm t, h t] } u du dm h 0 x1 ∧ 0 < o.nu ∧ 0 < dm 0 ∧ p.y0 = [dm 0, h 0] ∧
    max (h 0) 2 < 24/10 ∧ (∀ s ∈ (stepper p).steps, s.t ∈ Set.Icc 0 x1 ∧ s.y = [dm s.t, h s.t]) ∧
    ∀ x ∈ Set.Icc 0 x1, 1/1000 ≤ u x ∧ du x = 0 ∧ 1 ≤ u x * dm x / o.nu := by
  obtain ⟨dm, h, b, hb, S, hd, hh, hx⟩ := head_solution_exists (1/1000) 1 2 (1/2) (.manual 0 (1/1000) 2 1 0) [.sepHead (24/10)] (by norm_num) one_pos
    (by norm_num) (by norm_num)
  let o : Obj ℝ := ⟨.head, 1/1000, ⟨some (.fn fun _ => .ok 1), some (.fn fun _ => .ok 0), none⟩, .manual 0 (1/1000) 2 1 0, [.sepHead (24/10)],
    none, none⟩
  have hprep : ∃ o' p, o.prepare 0 b .none = (o', .ok p) ∧ p.y0 = [1, 2] ∧ p.x0 = 0 ∧ p.events = [.sepHead (24/10)] := by
    simp [o, Obj.prepare, IC.setNu, VelState.duE, VelState.rawDu, callOpt, Vel.call, IC.setDu, Obj.startVector, IC.deltaM, IC.shapeD, pyDiv,
      bind, Except.bind, pure, Except.pure, TermArg.toList]
    norm_num
    exact ⟨_, _, ⟨rfl, rfl⟩, rfl, rfl, rfl⟩
  obtain ⟨o', p, hp, hy, hx0, he⟩ := hprep
  obtain ⟨root, -, htot⟩ := bracketRoot_exists
  let stepper : Stepper ℝ := fun _ => ⟨[⟨b, [dm b, h b], fun t => [dm t, h t]⟩], .reached⟩
  have hv : ∀ x d s, o.eventValue (.sepHead (24/10)) x [d, s] = .ok (24/10 - s) := fun _ _ _ => rfl
  obtain ⟨r, hr⟩ := solve_total o.eventValue stepper root hp htot
    (by rw [he, hy, hx0]; intro e h; simp only [List.mem_singleton] at h; subst h; exact ⟨_, hv 0 _ _⟩)
    (by
      rw [he]; intro s hs e h
      simp only [stepper, List.mem_singleton] at h hs
      subst h; subst hs; exact ⟨_, hv b _ _⟩)
    (by intro x h; cases h)
  refine ⟨o, b, _, _, dm, h, stepper, root, p, r, hb, ⟨rfl, rfl, by rw [hp], hr, ?_⟩, by simp [stepper], S, by norm_num [o], by rw [hd]; norm_num,
    by rw [hy, hd, hh], by rw [hh]; norm_num, ?_, fun x hx' => ⟨by norm_num, rfl, ?_⟩⟩
  · intro s hs
    simp only [stepper, List.mem_singleton] at hs
    subst hs; exact ⟨_, hv b _ _⟩
  · intro s hs
    simp only [stepper, List.mem_singleton] at hs
    subst hs; exact ⟨⟨hb.le, le_refl _⟩, rfl⟩
  · have h1 := abs_lt.1 (hx x hx').1
    simp only [o]
    rw [le_div_iff₀ (by norm_num)]; linarith

end IBL
