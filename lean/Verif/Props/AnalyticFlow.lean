import Verif.Props.AnalyticSearch

/-! C36-C39: the flow quantities reported by the similarity classes, in exact arithmetic. -/

set_option linter.unusedSectionVars false

namespace IBL.Analytic

/-! ### Objects whose profile belongs to their parameters -/

section current
variable {α : Type} [Add α] [Sub α] [Mul α] [Div α] [Neg α] [PyLit α] [PyCmp α] [PySpecial α]

/-- The public calls that ask for a new solution. -/
def Op.solves : Op α → Prop
  | .setURef _ => False
  | .setNuRef _ => False
  | _ => True

/-- The objects whose last call that asks for a new solution (constructor included) returned normally. -/
inductive Current : Sim α → Prop
  | falknerSkan (t : Tools α) (beta u nu : α) (fw e : Option α) (s : Sim α) : mkFalknerSkan t beta u nu fw e = .ok s → Current s
  | blasius (t : Tools α) (u nu : α) (fw e : Option α) (s : Sim α) : mkBlasius t u nu fw e = .ok s → Current s
  | solved (s : Sim α) (op : Op α) : Reached s → op.solves → (s.step op).2 = .ok () → Current (s.step op).1
  | uRef (s : Sim α) (u : α) : Current s → Current (s.step (.setURef u)).1
  | nuRef (s : Sim α) (nu : α) : Current s → Current (s.step (.setNuRef nu)).1

theorem Current.reached {s : Sim α} (h : Current s) : Reached s := by
  induction h with
  | falknerSkan t b u nu fw e s h => exact .falknerSkan t b u nu fw e s h
  | blasius t u nu fw e s h => exact .blasius t u nu fw e s h
  | solved s op h _ _ => exact .call s op h
  | uRef s u _ ih => exact .call s _ ih
  | nuRef s u _ ih => exact .call s _ ih

/-- The thicknesses belong to the profile. -/
def Consistent (s : Sim α) : Prop :=
  ∃ sol, s.f = some sol ∧ s.etaD = s.etaInf - (sol s.etaInf).1 ∧ pyDiv (s.fwPp - s.beta * s.etaD) (s.alpha + s.beta) = .ok s.etaM

private theorem set_consistent (s : Sim α) (t : Tools α) (e fw : Option α) (h : (s.setSolutionParameters t e fw).2 = .ok ()) :
    Consistent (s.setSolutionParameters t e fw).1 := by
  obtain ⟨eta, w, c1, c2, r, -, -, -, -, -, -, -, ht⟩ := set_ok s t e fw h
  rw [← ht] at h ⊢
  refine ⟨r.sol, ?_⟩
  simp only [Sim.thicknesses] at h ⊢
  split at h
  · cases h
  · next m hm =>
    split at h
    · cases h
    · next k hk =>
      split at h
      · cases h
      · next c q hq =>
        split at h
        · next hc => rw [if_pos hc]; exact ⟨rfl, rfl, hm⟩
        · cases h

private theorem base_consistent {t : Tools α} {c : Cls} {u nu a b g : α} {fw e : Option α} {s : Sim α}
    (h : mkBase t c u nu a b g fw e = .ok s) : Consistent s := by
  simp only [mkBase] at h
  split at h
  · cases h
  · split at h
    · cases h
    · split at h
      · cases h
      · next s' hs =>
        cases h
        have := set_consistent (⟨c, u, nu, a, b, g, none, lit (-1), lit (-1), lit (-1), lit (-1), lit (-1)⟩ : Sim α) t e fw (by rw [hs])
        rw [hs] at this
        exact this

theorem Current.consistent {s : Sim α} (h : Current s) : Consistent s := by
  induction h with
  | falknerSkan t b u nu fw e s h =>
    simp only [mkFalknerSkan] at h
    split at h
    · cases h
    · exact base_consistent h
  | blasius t u nu fw e s h =>
    simp only [mkBlasius] at h
    split at h <;> exact base_consistent h
  | solved s op _ ho h =>
    cases op with
    | setURef u => exact absurd ho (by simp [Op.solves])
    | setNuRef u => exact absurd ho (by simp [Op.solves])
    | setSolutionParameters t e fw => exact set_consistent s t e fw h
    | resetBeta t b e fw =>
      simp only [Sim.step, Sim.resetBeta] at h ⊢
      split at h
      · next hc =>
        rw [if_pos hc]
        split at h
        · cases h
        · next hb => rw [if_neg hb]; exact set_consistent _ t e fw h
      · cases h
    | resetM t m e fw =>
      simp only [Sim.step, Sim.resetM, Sim.resetBeta] at h ⊢
      split at h
      · next hc =>
        rw [if_pos hc]
        split at h
        · next hm =>
          rw [if_pos hm]
          split at h
          · cases h
          · next hb => rw [if_neg hb]; exact set_consistent _ t e fw h
        · next hm =>
          rw [if_neg hm]
          split at h
          · cases h
          · next b hb2 =>
            split at h
            · cases h
            · next hb => rw [if_neg hb]; exact set_consistent _ t e fw h
      · cases h
  | uRef s u _ ih =>
    obtain ⟨sol, h1, h2, h3⟩ := ih
    simp only [Sim.step, Sim.setURef]
    split
    · exact ⟨sol, h1, h2, h3⟩
    · exact ⟨sol, h1, h2, h3⟩
  | nuRef s u _ ih =>
    obtain ⟨sol, h1, h2, h3⟩ := ih
    simp only [Sim.step, Sim.setNuRef]
    split
    · exact ⟨sol, h1, h2, h3⟩
    · exact ⟨sol, h1, h2, h3⟩

end current

section flow
variable [PySpecial ℝ] {s : Sim ℝ}

/-- The profile is smooth at `eta`: the three reported columns are successive derivatives. -/
def SmoothAt (sol : ℝ → V3 ℝ) (eta : ℝ) : Prop :=
  HasDerivAt (fun e => (sol e).1) (sol eta).2.1 eta ∧ HasDerivAt (fun e => (sol e).2.1) (sol eta).2.2 eta

/-! ### C36 -/

/-- **C36**: the reported velocity components satisfy the continuity equation at every point with `x > 0` where the profile is smooth.
No differential equation is assumed of the profile. -/
theorem continuity (hr : Reached s) (hb : s.beta < 2) (sol : ℝ → V3 ℝ) (hf : s.f = some sol) :
    ∃ U V : ℝ → ℝ → ℝ, (∀ x > 0, ∀ y, s.u x y = .ok (U x y) ∧ s.v x y = .ok (V x y)) ∧
      ∀ x > 0, ∀ y, (∀ e, s.eta x y = .ok e → SmoothAt sol e) →
        ∃ a b, HasDerivAt (fun x => U x y) a x ∧ HasDerivAt (fun y => V x y) b y ∧ a + b = 0 := by
  have hs := reached_inRange _ hr
  refine ⟨fun x y => ue s x * (sol (y * gg s x)).2.1, fun x y => -(s.nuRef * gg s x * ((sol (y * gg s x)).1 +
    (s.beta - 1) * (y * gg s x) * (sol (y * gg s x)).2.1)), fun x hx y => ⟨?_, ?_⟩, fun x hx y hp => ?_⟩
  · simp only [Sim.u, uE_ok hs hb hx, eta_ok hs hb, Sim.fpAt, hf]; rfl
  · simp only [Sim.v, eta_ok hs hb, g_ok hs hb hx, Sim.fAt, Sim.fpAt, hf, hs.alpha, pyDiv, real_eq, real_lit]
    rw [if_neg (by push_cast; exact one_ne_zero)]
    show Except.ok _ = _
    push_cast
    rw [one_mul, div_one]
  · obtain ⟨h1, h2⟩ := hp _ (eta_ok hs hb x y)
    have hu := ue_deriv hs hb hx
    have hg := gg_deriv hs hb hx
    have hgp := gg_pos hs hb hx
    have hsq := gg_sq hs hb hx
    have hn := hs.nu_pos
    have h2b : (2 - s.beta) ≠ 0 := by linarith
    have e1 : HasDerivAt (fun x => y * gg s x) (y * (gg s x * (s.beta / (2 - s.beta) - 1) / (2 * x))) x := hg.const_mul y
    have e2 : HasDerivAt (fun y => y * gg s x) (gg s x) y := by simpa using (hasDerivAt_id y).mul_const (gg s x)
    have hU := hu.mul (HasDerivAt.comp x h2 e1)
    have hf0 := HasDerivAt.comp y h1 e2
    have hf1 := HasDerivAt.comp y h2 e2
    have hV := ((hf0.add ((e2.const_mul (s.beta - 1)).mul hf1)).const_mul (s.nuRef * gg s x)).neg
    refine ⟨_, _, hU, hV, ?_⟩
    simp only [Function.comp]
    rw [← hsq]
    field_simp
    ring

/-- **C36**: the reported `v_e` is the derivative of `u_e*delta_d`. -/
theorem transpiration (hr : Reached s) (hb : s.beta < 2) :
    ∃ M W : ℝ → ℝ, (∀ x > 0, ∃ u d, s.uE x = .ok u ∧ s.deltaD x = .ok d ∧ M x = u * d ∧ s.vE x = .ok (W x)) ∧
      ∀ x > 0, HasDerivAt M (W x) x := by
  have hs := reached_inRange _ hr
  refine ⟨fun x => ue s x * (s.etaD / gg s x), fun x => s.nuRef * gg s x * s.etaD, fun x hx => ⟨_, _, uE_ok hs hb hx, ?_, rfl, ?_⟩, fun x hx => ?_⟩
  · simp only [Sim.deltaD, g_ok hs hb hx]; rfl
  · simp only [Sim.vE, g_ok hs hb hx]; rfl
  · have hu := ue_deriv hs hb hx
    have hg := gg_deriv hs hb hx
    have hgp := gg_pos hs hb hx
    have hsq := gg_sq hs hb hx
    have hn := hs.nu_pos
    have h2b : (2 - s.beta) ≠ 0 := by linarith
    refine (hu.mul ((hasDerivAt_const x s.etaD).div hg hgp.ne')).congr_deriv ?_
    simp only [Pi.div_apply]
    rw [← hsq]
    field_simp
    ring

/-- Tools whose integrator answers with the profile `f = eta^2/2`. -/
noncomputable def quadratic : Tools ℝ where
  ivp _ := .ok ⟨true, (1/2, 1, 1), fun e => (e ^ 2 / 2, e, 1)⟩
  quad _ _ _ := .ok 1
  root _ _ _ := .ok (true, 1)

/-- Non-vacuity: an object with a profile that is smooth everywhere. -/
example : ∃ (s : Sim ℝ) (sol : ℝ → V3 ℝ), Reached s ∧ s.beta < 2 ∧ s.f = some sol ∧ ∀ e, SmoothAt sol e := by
  have h : ∃ s, mkFalknerSkan quadratic 0 1 1 (some 1) (some 1) = .ok s ∧ s.beta = 0 ∧ s.f = some fun e => (e ^ 2 / 2, e, 1) := by
    have h1 : badBeta (0:ℝ) = false := by
      simp only [badBeta, Bool.or_eq_false_iff]
      constructor
      · rw [Bool.eq_false_iff]; simp only [ne_eq, real_lt, real_lit]; push_cast; norm_num
      · rw [Bool.eq_false_iff]; simp only [ne_eq, real_gt, real_lit]; push_cast; norm_num
    simp [mkFalknerSkan, h1, mkBase, Sim.setSolutionParameters, badParam, Sim.calculateSolution, search, quadratic, Sim.thicknesses, Sim.fwPp, pyDiv]
    norm_num
  obtain ⟨s, h1, h2, h3⟩ := h
  refine ⟨s, _, .falknerSkan _ _ _ _ _ _ _ h1, by rw [h2]; norm_num, h3, fun e => ⟨?_, hasDerivAt_id e⟩⟩
  have := (hasDerivAt_pow 2 e).div_const 2
  simpa using this

/-! ### C37 -/

/-- **C37**, momentum: for every object whose last request for a solution succeeded, the reported values satisfy the momentum integral equation
`rho d(u_e^2 delta_m)/dx + rho delta_d u_e du_e/dx = tau_w`. -/
theorem momentum_integral (hc : Current s) (hb : s.beta < 2) (rho : ℝ) :
    ∃ U M : ℝ → ℝ, (∀ x > 0, ∃ m, s.uE x = .ok (U x) ∧ s.deltaM x = .ok m ∧ M x = U x ^ 2 * m) ∧
      ∀ x > 0, ∃ a b d, HasDerivAt M a x ∧ HasDerivAt U b x ∧ s.deltaD x = .ok d ∧ s.tauW x rho = .ok (rho * a + rho * d * U x * b) := by
  have hs := reached_inRange _ hc.reached
  obtain ⟨sol, -, -, hm⟩ := hc.consistent
  have h1b : s.alpha + s.beta ≠ 0 := by have := hs.alpha; have := hs.beta_lo; linarith
  have hm2 : s.etaM * (1 + s.beta) = s.fwPp - s.beta * s.etaD := by
    simp only [pyDiv] at hm
    rw [if_neg (by rw [real_eq, real_lit]; push_cast; exact h1b)] at hm
    rw [← Except.ok.inj hm, ← hs.alpha, div_mul_cancel₀ _ h1b]
  refine ⟨ue s, fun x => ue s x ^ 2 * (s.etaM / gg s x), fun x hx => ⟨_, uE_ok hs hb hx, ?_, rfl⟩, fun x hx => ?_⟩
  · simp only [Sim.deltaM, g_ok hs hb hx]; rfl
  · have hu := ue_deriv hs hb hx
    have hg := gg_deriv hs hb hx
    have hgp := gg_pos hs hb hx
    have hsq := gg_sq hs hb hx
    have hn := hs.nu_pos
    have h2b : (2 - s.beta) ≠ 0 := by linarith
    refine ⟨_, _, s.etaD / gg s x, (hu.pow 2).mul ((hasDerivAt_const x s.etaM).div hg hgp.ne'), hu, ?_, ?_⟩
    · simp only [Sim.deltaD, g_ok hs hb hx]; rfl
    · simp only [Sim.tauW, uE_ok hs hb hx, g_ok hs hb hx]
      show Except.ok _ = _
      congr 1
      have hw : s.fwPp = s.etaM * (1 + s.beta) + s.beta * s.etaD := by linarith
      simp only [Pi.pow_apply, Nat.cast_ofNat]
      rw [hw, ← hsq]
      field_simp
      ring

/-- **C37**, energy: the reported values satisfy `d(rho u_e^3 delta_k / 2)/dx = dissipation`, for every object. -/
theorem energy_integral (hr : Reached s) (hb : s.beta < 2) (rho : ℝ) :
    ∃ K D : ℝ → ℝ, (∀ x > 0, ∃ u k, s.uE x = .ok u ∧ s.deltaK x = .ok k ∧ K x = 1 / 2 * rho * u ^ 3 * k ∧ s.dissipation x rho = .ok (D x)) ∧
      ∀ x > 0, HasDerivAt K (D x) x := by
  have hs := reached_inRange _ hr
  refine ⟨fun x => 1 / 2 * rho * ue s x ^ 3 * (s.etaK / gg s x),
    fun x => rho * s.nuRef * gg s x * (ue s x * ue s x) * (1 / 2 * (1 + 2 * s.beta) * s.etaK), fun x hx => ⟨_, _, uE_ok hs hb hx, ?_, rfl, ?_⟩,
    fun x hx => ?_⟩
  · simp only [Sim.deltaK, g_ok hs hb hx]; rfl
  · simp only [Sim.dissipation, uE_ok hs hb hx, g_ok hs hb hx, hs.alpha, real_lit]
    show Except.ok _ = _
    push_cast
    rfl
  · have hu := ue_deriv hs hb hx
    have hg := gg_deriv hs hb hx
    have hgp := gg_pos hs hb hx
    have hsq := gg_sq hs hb hx
    have hn := hs.nu_pos
    have h2b : (2 - s.beta) ≠ 0 := by linarith
    refine (((hu.pow 3).const_mul (1 / 2 * rho)).mul ((hasDerivAt_const x s.etaK).div hg hgp.ne')).congr_deriv ?_
    simp only [Pi.pow_apply, Pi.div_apply, Nat.cast_ofNat]
    rw [← hsq]
    field_simp
    ring

/-- Non-vacuity: a Falkner-Skan object whose constructor succeeded. -/
example : ∃ s : Sim ℝ, Current s ∧ s.beta < 2 ∧ s.f.isSome := ⟨sample, .falknerSkan _ _ _ _ _ _ _ sample_made, by
  simp [sample], rfl⟩

/-! ### C38 -/

/-- **C38**: at every `x > 0` the shape factors are the ratios of the reported thicknesses. -/
theorem shape_factors (hr : Reached s) (hb : s.beta < 2) (hm : s.etaM ≠ 0) {x : ℝ} (hx : 0 < x) :
    ∃ d m k, s.deltaD x = .ok d ∧ s.deltaM x = .ok m ∧ s.deltaK x = .ok k ∧ m ≠ 0 ∧ s.shapeD x = .ok (d / m) ∧ s.shapeK x = .ok (k / m) := by
  have hs := reached_inRange _ hr
  have hg := (gg_pos hs hb hx).ne'
  refine ⟨s.etaD / gg s x, s.etaM / gg s x, s.etaK / gg s x, ?_, ?_, ?_, div_ne_zero hm hg, ?_, ?_⟩
  · simp only [Sim.deltaD, g_ok hs hb hx]; rfl
  · simp only [Sim.deltaM, g_ok hs hb hx]; rfl
  · simp only [Sim.deltaK, g_ok hs hb hx]; rfl
  all_goals
    simp only [Sim.shapeD, Sim.shapeK, pyDiv, real_eq, real_lit]
    rw [if_neg (by push_cast; exact hm)]
    show Except.ok _ = _
    push_cast
    rw [mul_one]
    congr 1
    field_simp

/-- **C38**: the shape factors are the same at all positions, before and after the reference values are changed. -/
theorem shape_factors_constant (s : Sim ℝ) (u nu x y : ℝ) :
    let s' := ((s.step (.setURef u)).1.step (.setNuRef nu)).1
    s'.shapeD y = s.shapeD x ∧ s'.shapeK y = s.shapeK x := by
  simp only [Sim.step, Sim.setURef, Sim.setNuRef]
  split <;> split <;> exact ⟨rfl, rfl⟩

private theorem delta_scale {s' : Sim ℝ} (hs : InRange s) (hb : s.beta < 2) (hs' : InRange s') (h1 : s'.beta = s.beta) (c : ℝ) {x : ℝ} (hx : 0 < x) :
    c / gg s' x * Real.sqrt (s.nuRef / s.uRef) = c / gg s x * Real.sqrt (s'.nuRef / s'.uRef) := by
  have hb' : s'.beta < 2 := by rw [h1]; exact hb
  have q1 := hs.u_pos
  have q2 := hs.nu_pos
  have q3 := hs'.u_pos
  have q4 := hs'.nu_pos
  have h2 : 0 < 2 - s.beta := by linarith
  have hp : 0 < x ^ (s.beta / (2 - s.beta)) := Real.rpow_pos_of_pos hx _
  have key : gg s x * Real.sqrt (s.nuRef / s.uRef) = gg s' x * Real.sqrt (s'.nuRef / s'.uRef) := by
    rw [gg, gg, ue, ue, h1, ← Real.sqrt_mul (by positivity), ← Real.sqrt_mul (by positivity)]
    congr 1
    field_simp
  have g1 := (gg_pos hs hb hx).ne'
  have g2 := (gg_pos hs' hb' hx).ne'
  field_simp
  linear_combination c * key

/-- **C38**: all four thicknesses scale with `sqrt(nu_ref/u_ref)` when the reference values of an object are changed. -/
theorem thickness_scaling (hr : Reached s) (hb : s.beta < 2) {u nu : ℝ} (hu : 0 < u) (hn : 0 < nu) {x : ℝ} (hx : 0 < x) :
    let s' := ((s.step (.setURef u)).1.step (.setNuRef nu)).1
    ∀ q ∈ [Sim.deltaD, Sim.deltaM, Sim.deltaK, Sim.deltaS], ∃ d d', q s x = .ok d ∧ q s' x = .ok d' ∧
      d' * Real.sqrt (s.nuRef / s.uRef) = d * Real.sqrt (nu / u) := by
  intro s' q hq
  have hs := reached_inRange _ hr
  have hs' : InRange s' := reached_inRange _ (.call _ _ (.call _ _ hr))
  have e : s' = { s with uRef := u, nuRef := nu } := by
    simp only [s', Sim.step, Sim.setURef, Sim.setNuRef, real_le, real_lit]
    push_cast
    rw [if_neg (not_le.2 hu), if_neg (not_le.2 hn)]
  have eb : s'.beta = s.beta := by rw [e]
  have hb' : s'.beta < 2 := by rw [eb]; exact hb
  have eu : s'.uRef = u := by rw [e]
  have en : s'.nuRef = nu := by rw [e]
  have key := fun c => delta_scale hs hb hs' eb c hx
  rw [eu, en] at key
  simp only [List.mem_cons, List.not_mem_nil, or_false] at hq
  rcases hq with rfl | rfl | rfl | rfl
  · refine ⟨s.etaD / gg s x, s.etaD / gg s' x, ?_, ?_, key _⟩
    · simp only [Sim.deltaD, g_ok hs hb hx]; rfl
    · simp only [Sim.deltaD, g_ok hs' hb' hx]; rw [show s'.etaD = s.etaD by rw [e]]; rfl
  · refine ⟨s.etaM / gg s x, s.etaM / gg s' x, ?_, ?_, key _⟩
    · simp only [Sim.deltaM, g_ok hs hb hx]; rfl
    · simp only [Sim.deltaM, g_ok hs' hb' hx]; rw [show s'.etaM = s.etaM by rw [e]]; rfl
  · refine ⟨s.etaK / gg s x, s.etaK / gg s' x, ?_, ?_, key _⟩
    · simp only [Sim.deltaK, g_ok hs hb hx]; rfl
    · simp only [Sim.deltaK, g_ok hs' hb' hx]; rw [show s'.etaK = s.etaK by rw [e]]; rfl
  · refine ⟨s.etaS / gg s x, s.etaS / gg s' x, ?_, ?_, key _⟩
    · simp only [Sim.deltaS, g_ok hs hb hx]; rfl
    · simp only [Sim.deltaS, g_ok hs' hb' hx]; rw [show s'.etaS = s.etaS by rw [e]]; rfl

/-- Non-vacuity: the momentum thickness of the object above is not zero. -/
example : Reached sample ∧ sample.beta < 2 ∧ sample.etaM ≠ 0 := ⟨.falknerSkan _ _ _ _ _ _ _ sample_made, by
  simp [sample], by simp [sample]⟩

/-! ### C56: the end of the range -/

/-- **C56**, as stated: every query of an object whose last request for a solution succeeded returns at every `x > 0`. -/
def QueriesAnswer (ok : Sim ℝ → Prop) : Prop :=
  ∀ s : Sim ℝ, Current s → ok s → ∀ x > 0, ∀ y rho, ∀ q ∈ [s.uE x, s.vE x, s.eta x y, s.u x y, s.v x y, s.deltaD x, s.deltaM x, s.deltaK x,
    s.deltaS x, s.tauW x rho, s.dissipation x rho], ∃ r, q = .ok r

/-- **C56**, what holds: it is true of all objects with `beta` below 2. -/
theorem queries_answer_partial : QueriesAnswer fun s => s.beta < 2 := by
  intro s hc hb x hx y rho q hq
  have hs := reached_inRange _ hc.reached
  obtain ⟨sol, hf, -, -⟩ := hc.consistent
  have h1 := uE_ok hs hb hx
  have h2 := g_ok hs hb hx
  have h3 := eta_ok hs hb x y
  simp only [List.mem_cons, List.not_mem_nil, or_false] at hq
  rcases hq with h | h | h | h | h | h | h | h | h | h | h <;> rw [h]
  · exact ⟨_, h1⟩
  · simp only [Sim.vE, h2]; exact ⟨_, rfl⟩
  · exact ⟨_, h3⟩
  · simp only [Sim.u, h1, h3, Sim.fpAt, hf]; exact ⟨_, rfl⟩
  · simp only [Sim.v, h2, h3, Sim.fpAt, Sim.fAt, hf, hs.alpha, pyDiv, real_eq, real_lit]
    rw [if_neg (by push_cast; exact one_ne_zero)]
    exact ⟨_, rfl⟩
  · simp only [Sim.deltaD, h2]; exact ⟨_, rfl⟩
  · simp only [Sim.deltaM, h2]; exact ⟨_, rfl⟩
  · simp only [Sim.deltaK, h2]; exact ⟨_, rfl⟩
  · simp only [Sim.deltaS, h2]; exact ⟨_, rfl⟩
  · simp only [Sim.tauW, h1, h2]; exact ⟨_, rfl⟩
  · simp only [Sim.dissipation, h1, h2]; exact ⟨_, rfl⟩

/-- **C56** is false: `beta = 2` (`m = inf`) is accepted, but then every query that needs the edge velocity raises ZeroDivisionError, for every `x`. -/
theorem beta_two_unusable (hr : Reached s) (hb : s.beta = 2) (x y rho : ℝ) :
    s.uE x = .error .zeroDivision ∧ s.vE x = .error .zeroDivision ∧ s.eta x y = .error .zeroDivision ∧ s.u x y = .error .zeroDivision ∧
      s.v x y = .error .zeroDivision ∧ s.deltaD x = .error .zeroDivision ∧ s.deltaM x = .error .zeroDivision ∧
      s.deltaK x = .error .zeroDivision ∧ s.deltaS x = .error .zeroDivision ∧ s.tauW x rho = .error .zeroDivision ∧
      s.dissipation x rho = .error .zeroDivision := by
  have hs := reached_inRange _ hr
  have h0 : s.uE x = .error .zeroDivision := by
    simp only [Sim.uE, pyDiv, hs.alpha, real_eq, real_lit, hb]
    rw [if_pos (by push_cast; norm_num)]
    rfl
  have h1 : s.g x = .error .zeroDivision := by simp only [Sim.g, h0]; rfl
  have h2 : s.eta x y = .error .zeroDivision := by
    simp only [Sim.eta, Sim.gArray, Sim.uENp, pyDiv, hs.alpha, real_eq, real_lit, hb]
    rw [if_pos (by push_cast; norm_num)]
    rfl
  refine ⟨h0, ?_, h2, ?_, ?_, ?_, ?_, ?_, ?_, ?_, ?_⟩
  · simp only [Sim.vE, h1]; rfl
  · simp only [Sim.u, h0]; rfl
  · simp only [Sim.v, h2]; rfl
  · simp only [Sim.deltaD, h1]; rfl
  · simp only [Sim.deltaM, h1]; rfl
  · simp only [Sim.deltaK, h1]; rfl
  · simp only [Sim.deltaS, h1]; rfl
  · simp only [Sim.tauW, h0]; rfl
  · simp only [Sim.dissipation, h1]; rfl

/-- **C56** is false: the constructor accepts `beta = 2`. -/
theorem queries_answer_fails : ¬ QueriesAnswer fun _ => True := fun H => by
  have h : ∃ s, mkFalknerSkan (goodTools (0, 1, 1)) 2 1 1 (some 1) (some 1) = .ok s ∧ s.beta = 2 := by
    have h1 : badBeta (2:ℝ) = false := by
      simp only [badBeta, Bool.or_eq_false_iff]
      constructor
      · rw [Bool.eq_false_iff]; simp only [ne_eq, real_lt, real_lit]; push_cast; norm_num
      · rw [Bool.eq_false_iff]; simp only [ne_eq, real_gt, real_lit]; push_cast; norm_num
    simp [mkFalknerSkan, h1, mkBase, Sim.setSolutionParameters, badParam, Sim.calculateSolution, search, goodTools, Sim.thicknesses, Sim.fwPp, pyDiv]
    norm_num
  obtain ⟨s, h1, h2⟩ := h
  have hc : Current s := .falknerSkan _ _ _ _ _ _ _ h1
  obtain ⟨r, hr⟩ := H s hc trivial 1 one_pos 1 1 (s.uE 1) (by simp)
  rw [(beta_two_unusable hc.reached h2 1 1 1).1] at hr
  cases hr

end flow

/-! ### C39: any arithmetic -/

section blasius
variable {α : Type} [Add α] [Sub α] [Mul α] [Div α] [Neg α] [PyLit α] [PyCmp α] [PySpecial α] [PySqrt α] [PyPow α]

/-- All queries of the similarity classes at a point. -/
def Sim.report (s : Sim α) (x y rho : α) : List (Except Exc α) :=
  [s.uE x, s.vE x, s.eta x y, s.u x y, s.v x y, s.deltaD x, s.deltaM x, s.deltaK x, s.deltaS x, s.shapeD x, s.shapeK x, s.tauW x rho,
    s.dissipation x rho, s.fAt x, s.fpAt x, s.fppAt x, .ok s.etaInf, .ok s.etaD, .ok s.etaM, .ok s.etaK, .ok s.etaS]

/-- **C39**, for objects: a Blasius object and a Falkner-Skan object with `beta = 0` that have the same reference values, profile and thickness
integrals answer every query identically. Any arithmetic in which `2 - 0 = 2`. -/
theorem blasius_agrees (h2 : (lit 2 - lit 0 : α) = lit 2) {b s : Sim α} (hb : Reached b) (hs : Reached s) (cb : b.cls = .blasius)
    (cs : s.cls = .falknerSkan) (h0 : s.beta = lit 0) (hu : s.uRef = b.uRef) (hn : s.nuRef = b.nuRef) (hf : s.f = b.f)
    (he : s.etaInf = b.etaInf ∧ s.etaD = b.etaD ∧ s.etaM = b.etaM ∧ s.etaK = b.etaK ∧ s.etaS = b.etaS) (x y rho : α) :
    s.report x y rho = b.report x y rho := by
  obtain ⟨e1, e2, e3, e4, e5⟩ := he
  have gb := reached_good _ hb
  have gs := reached_good _ hs
  have a1 : s.alpha = b.alpha := gs.1.trans gb.1.symm
  have a2 : s.gamma = b.gamma := gs.2.1.trans gb.2.1.symm
  have b0 : b.beta = lit 0 := gb.2.2.2.2.1 cb
  have a3 : s.beta = b.beta := h0.trans b0.symm
  have hg : s.gFactor = b.gFactor := by simp only [Sim.gFactor, cb, cs, h0, h2]
  have ew : s.fwPp = b.fwPp := by simp only [Sim.fwPp, hf]
  have q1 : s.uE x = b.uE x := by simp only [Sim.uE, a1, a3, hu]
  have q2 : s.g x = b.g x := by simp only [Sim.g, q1, hg, hn]
  have q3 : s.eta x y = b.eta x y := by simp only [Sim.eta, Sim.gArray, Sim.uENp, a1, a3, hu, hg, hn]
  have r1 : ∀ e, s.fAt e = b.fAt e := fun e => by simp only [Sim.fAt, hf]
  have r2 : ∀ e, s.fpAt e = b.fpAt e := fun e => by simp only [Sim.fpAt, hf]
  have r3 : ∀ e, s.fppAt e = b.fppAt e := fun e => by simp only [Sim.fppAt, hf]
  simp only [Sim.report, Sim.vE, Sim.u, Sim.v, Sim.deltaD, Sim.deltaM, Sim.deltaK, Sim.deltaS, Sim.shapeD, Sim.shapeK, Sim.tauW, Sim.dissipation,
    q1, q2, q3, r1, r2, r3, a1, a3, hn, e1, e2, e3, e4, e5, ew]

private theorem set_cls (s : Sim α) (c : Cls) (t : Tools α) (e fw : Option α) :
    ({ s with cls := c } : Sim α).setSolutionParameters t e fw =
      (({ (s.setSolutionParameters t e fw).1 with cls := c } : Sim α), (s.setSolutionParameters t e fw).2) := by
  have h1 : ({ s with cls := c } : Sim α).endValues t = s.endValues t := rfl
  have h2 : ∀ e, ({ s with cls := c, etaInf := e } : Sim α).plainRhs = ({ s with etaInf := e } : Sim α).plainRhs := fun _ => rfl
  simp only [Sim.setSolutionParameters, Sim.calculateSolution, h1, h2]
  split
  · rfl
  · split
    · rfl
    · cases search (s.endValues t) e fw with
      | error x => rfl
      | ok v =>
        dsimp only
        cases t.ivp ⟨({ s with etaInf := v.1 } : Sim α).plainRhs, v.1, (lit 0, lit 0, v.2.1)⟩ with
        | error x => rfl
        | ok r =>
          dsimp only
          cases r.success with
          | false => rfl
          | true =>
            simp only [if_true, Sim.thicknesses, Sim.fwPp]
            split
            · rfl
            · split
              · rfl
              · split
                · rfl
                · split <;> rfl

/-- **C39**, for constructor calls: with the same tools, reference values and at least one explicit solution parameter, the Blasius constructor
succeeds exactly when the Falkner-Skan constructor with `beta = 0` does, and then the two objects answer every query identically.
(With no solution parameters the Blasius class uses tabulated ones, and the profiles differ: `blasius_default`.) -/
theorem blasius_constructor_agrees (h2 : (lit 2 - lit 0 : α) = lit 2) (h0 : badBeta (lit 0 : α) = false) (t : Tools α) (u nu : α)
    (fw e : Option α) (hp : fw.isSome ∨ e.isSome) :
    (∀ x, mkBlasius t u nu fw e = .error x ↔ mkFalknerSkan t (lit 0) u nu fw e = .error x) ∧
    ∀ b s, mkBlasius t u nu fw e = .ok b → mkFalknerSkan t (lit 0) u nu fw e = .ok s → ∀ x y rho, s.report x y rho = b.report x y rho := by
  have hB : mkBlasius t u nu fw e = mkBase t .blasius u nu (lit 1) (lit 0) (lit 1) fw e := by
    cases fw <;> cases e <;> first | rfl | simp at hp
  have hF : mkFalknerSkan t (lit 0) u nu fw e = mkBase t .falknerSkan u nu (lit 1) (lit 0) (lit 1) fw e := by
    simp only [mkFalknerSkan, h0]; rfl
  have hc := set_cls (⟨.blasius, u, nu, lit 1, lit 0, lit 1, none, lit (-1), lit (-1), lit (-1), lit (-1), lit (-1)⟩ : Sim α) .falknerSkan t e fw
  have key : mkBase t .falknerSkan u nu (lit 1) (lit 0) (lit 1) fw e =
      (mkBase t .blasius u nu (lit 1) (lit 0) (lit 1) fw e).map fun b => { b with cls := .falknerSkan } := by
    simp only [mkBase]
    split
    · rfl
    · split
      · rfl
      · simp only at hc
        rw [hc]
        rcases ((⟨.blasius, u, nu, lit 1, lit 0, lit 1, none, lit (-1), lit (-1), lit (-1), lit (-1), lit (-1)⟩ : Sim α).setSolutionParameters t e fw) with ⟨s', _ | _⟩ <;> rfl
  constructor
  · intro x
    rw [hB, hF, key]
    cases mkBase t .blasius u nu (lit 1) (lit 0) (lit 1) fw e <;> simp [Except.map]
  · intro b s hb hs
    have rb : Reached b := .blasius t u nu fw e b hb
    have rs : Reached s := .falknerSkan t _ u nu fw e s hs
    have cb : b.cls = .blasius := by
      rw [hB] at hb
      simp only [mkBase] at hb
      split at hb
      · cases hb
      · split at hb
        · cases hb
        · split at hb
          · cases hb
          · next s' hs' =>
            cases hb
            have := (set_same (⟨.blasius, u, nu, lit 1, lit 0, lit 1, none, lit (-1), lit (-1), lit (-1), lit (-1), lit (-1)⟩ : Sim α) t e fw).1
            rw [hs'] at this
            exact this
    rw [hF, key, ← hB, hb] at hs
    cases hs
    have b0 := (reached_good _ rb).2.2.2.2.1 cb
    exact blasius_agrees h2 rb rs cb rfl b0 rfl rfl rfl ⟨rfl, rfl, rfl, rfl, rfl⟩

/-- Without solution parameters the Blasius constructor is the constructor with its two tabulated values. -/
theorem blasius_default (t : Tools α) (u nu : α) :
    mkBlasius t u nu none none =
      mkBlasius t u nu (some (lit (4695999888844369/10000000000000000))) (some (lit (714513231841832/100000000000000))) := rfl

end blasius

/-- Non-vacuity of the hypotheses of C39 in the two exact arithmetics. -/
example [PySpecial ℝ] : (lit 2 - lit 0 : ℝ) = lit 2 ∧ badBeta (lit 0 : ℝ) = false := by
  constructor
  · simp
  · simp only [badBeta, Bool.or_eq_false_iff]
    constructor
    · rw [Bool.eq_false_iff]; simp
    · rw [Bool.eq_false_iff]; simp
example : (lit 2 - lit 0 : Flt ℝ) = lit 2 ∧ badBeta (lit 0 : Flt ℝ) = false := by
  constructor
  · simp
  · simp only [badBeta, Bool.or_eq_false_iff]
    constructor
    · rw [Bool.eq_false_iff]; simp
    · simp [PyCmp.gt]
example [PySpecial ℝ] : ∃ s, mkFalknerSkan (goodTools (0, 1, 1)) 0 1 1 (some 1) (some 1) = .ok s := ⟨sample, sample_made⟩

end IBL.Analytic
