import Verif.Props.AnalyticUnits

/-! C143: similarity solutions in fluids of different viscosity. -/

set_option linter.unusedSectionVars false

namespace IBL.Analytic

variable [PySpecial ℝ]

/-- The answers of `s'` are those of `s` in a fluid of `k` times the viscosity: the same flow outside; inside everything happens `sqrt k` times as far from the
wall, and the wall shear, the dissipation and the velocity away from the wall are `sqrt k` times as large. -/
structure InFluid (k : ℝ) (s s' : Sim ℝ) : Prop where
  edge : ∀ x > 0, ∃ a b, s.uE x = .ok a ∧ s'.uE x = .ok a ∧ s.vE x = .ok b ∧ s'.vE x = .ok (Real.sqrt k * b)
  inside : ∀ x > 0, ∀ y, ∃ n a b, s.eta x y = .ok n ∧ s'.eta x (Real.sqrt k * y) = .ok n ∧ s.u x y = .ok a ∧ s'.u x (Real.sqrt k * y) = .ok a ∧
    s.v x y = .ok b ∧ s'.v x (Real.sqrt k * y) = .ok (Real.sqrt k * b)
  thickness : ∀ x > 0, ∀ q ∈ [Sim.deltaD, Sim.deltaM, Sim.deltaK, Sim.deltaS], ∃ d, q s x = .ok d ∧ q s' x = .ok (Real.sqrt k * d)
  shape : ∀ x, s'.shapeD x = s.shapeD x ∧ s'.shapeK x = s.shapeK x
  stress : ∀ x > 0, ∀ rho, ∃ tau, s.tauW x rho = .ok tau ∧ s'.tauW x rho = .ok (Real.sqrt k * tau)
  loss : ∀ x > 0, ∀ rho, ∃ d, s.dissipation x rho = .ok d ∧ s'.dissipation x rho = .ok (Real.sqrt k * d)

private theorem refs_fluid {s : Sim ℝ} (hs : InRange s) (hb : s.beta < 2) {sol : ℝ → V3 ℝ} (hf : s.f = some sol) {k : ℝ} (hk : 0 < k) :
    InFluid k s (refs s.uRef (k * s.nuRef) s) := by
  obtain ⟨s', hs'⟩ : ∃ s', s' = refs s.uRef (k * s.nuRef) s := ⟨_, rfl⟩
  obtain ⟨c, hc⟩ : ∃ c, c = Real.sqrt k := ⟨_, rfl⟩
  have c0 : 0 < c := by rw [hc]; exact Real.sqrt_pos.2 hk
  have cc : c ^ 2 = k := by rw [hc, Real.sq_sqrt hk.le]
  have R' : InRange s' := by rw [hs']; exact ⟨hs.alpha, hs.gamma, hs.beta_lo, hs.beta_hi, hs.blasius, hs.u_pos, mul_pos hk hs.nu_pos⟩
  have hb' : s'.beta < 2 := by rw [hs']; exact hb
  have hf' : s'.f = some sol := by rw [hs']; exact hf
  have hu : ∀ x, ue s' x = ue s x := fun x => by rw [hs']; rfl
  have hg : ∀ x, gg s' x = gg s x / c := fun x => by
    have : gg s' x = Real.sqrt (ue s x / ((2 - s.beta) * (k * s.nuRef) * x)) := by rw [hs']; rfl
    rw [this, gg, show ue s x / ((2 - s.beta) * (k * s.nuRef) * x) = ue s x / ((2 - s.beta) * s.nuRef * x) / c ^ 2 by
      rw [cc, div_div]; congr 1; ring, Real.sqrt_div' _ (by positivity), Real.sqrt_sq c0.le]
  have hn : s'.nuRef = c ^ 2 * s.nuRef := by rw [hs', cc]; rfl
  have hd : s'.etaD = s.etaD := by rw [hs']; rfl
  have hm : s'.etaM = s.etaM := by rw [hs']; rfl
  have hK : s'.etaK = s.etaK := by rw [hs']; rfl
  have hS : s'.etaS = s.etaS := by rw [hs']; rfl
  have hB : s'.beta = s.beta := by rw [hs']; rfl
  have hA : s'.alpha = s.alpha := by rw [hs']; rfl
  have hfw : s'.fwPp = s.fwPp := by rw [hs']; rfl
  have hsh : ∀ x, s'.shapeD x = s.shapeD x ∧ s'.shapeK x = s.shapeK x := fun x => by rw [hs']; exact ⟨rfl, rfl⟩
  have hy : ∀ x y, c * y * gg s' x = y * gg s x := fun x y => by rw [hg]; field_simp
  rw [← hs']
  constructor
  · intro x hx
    refine ⟨_, _, uE_ok hs hb hx, by rw [uE_ok R' hb' hx, hu], vE_form hs hb hx, ?_⟩
    rw [vE_form R' hb' hx, hg, hn, hd, ← hc]
    congr 1
    field_simp
  · intro x hx y
    rw [← hc]
    refine ⟨_, _, _, eta_ok hs hb x y, by rw [eta_ok R' hb', hy], u_form hs hb hf hx y, by rw [u_form R' hb' hf' hx, hu, hy], v_form hs hb hf hx y, ?_⟩
    rw [v_form R' hb' hf' hx, hy, hg, hn, hB]
    congr 1
    generalize (sol (y * gg s x)).1 + (s.beta - 1) * (y * gg s x) * (sol (y * gg s x)).2.1 = w
    field_simp
  · intro x hx q hq
    have hne := (gg_pos hs hb hx).ne'
    obtain ⟨a1, a2, a3, a4⟩ := delta_form hs hb hx
    obtain ⟨b1, b2, b3, b4⟩ := delta_form R' hb' hx
    rw [hg, hd] at b1
    rw [hg, hm] at b2
    rw [hg, hK] at b3
    rw [hg, hS] at b4
    have key : ∀ e : ℝ, e / (gg s x / c) = c * (e / gg s x) := fun e => by field_simp
    rw [key] at b1 b2 b3 b4
    rw [← hc]
    simp only [List.mem_cons, List.not_mem_nil, or_false] at hq
    rcases hq with rfl | rfl | rfl | rfl
    exacts [⟨_, a1, b1⟩, ⟨_, a2, b2⟩, ⟨_, a3, b3⟩, ⟨_, a4, b4⟩]
  · exact hsh
  · intro x hx rho
    refine ⟨_, tau_form hs hb hx rho, ?_⟩
    rw [tau_form R' hb' hx, hu, hg, hn, hfw, ← hc]
    congr 1
    field_simp
  · intro x hx rho
    refine ⟨_, loss_form hs hb hx rho, ?_⟩
    rw [loss_form R' hb' hx, hu, hg, hn, hA, hB, hK, ← hc]
    congr 1
    generalize lit (1/2) * (s.alpha + lit 2 * s.beta) * s.etaK = w
    field_simp

/-- **C143**, for objects: setting `nu_ref` of an object that has a solution to `k` times its value scales all its answers. -/
theorem similarity_viscosity_set {s : Sim ℝ} (hr : Reached s) (hb : s.beta < 2) {sol : ℝ → V3 ℝ} (hf : s.f = some sol) {k : ℝ} (hk : 0 < k) :
    (s.step (.setNuRef (k * s.nuRef))).2 = .ok () ∧ InFluid k s (s.step (.setNuRef (k * s.nuRef))).1 := by
  have hs := reached_inRange _ hr
  have h2 : ¬ PyCmp.le (k * s.nuRef) (lit 0) = true := by simpa using mul_pos hk hs.nu_pos
  have e : s.step (.setNuRef (k * s.nuRef)) = (refs s.uRef (k * s.nuRef) s, .ok ()) := by
    simp only [Sim.step, Sim.setNuRef, if_neg h2, refs]
  rw [e]
  exact ⟨rfl, refs_fluid hs hb hf hk⟩

private theorem fluid_of_map {mk mk' : Except Exc (Sim ℝ)} {u nu k beta : ℝ} (hk : 0 < k) (hb : beta < 2) (hm : mk' = mk.map (refs u (k * nu)))
    (h : ∀ s, mk = .ok s → Current s ∧ s.beta = beta ∧ s.uRef = u ∧ s.nuRef = nu) :
    (∀ x, mk = .error x ↔ mk' = .error x) ∧ ∀ s s', mk = .ok s → mk' = .ok s' → InFluid k s s' := by
  subst hm
  refine ⟨fun x => ?_, fun s s' h1 h2 => ?_⟩
  · cases mk <;> simp [Except.map]
  · obtain ⟨hc, rfl, rfl, rfl⟩ := h s h1
    rw [h1] at h2
    cases h2
    obtain ⟨sol, hf, -⟩ := hc.consistent
    exact refs_fluid (reached_inRange _ hc.reached) hb hf hk

/-- **C143**: a Falkner-Skan object for a fluid of `k` times the viscosity exists exactly if the original one does, and its answers are the scaled ones. -/
theorem falknerSkan_viscosity (t : Tools ℝ) (beta u nu : ℝ) (fw e : Option ℝ) (hb : beta < 2) {k : ℝ} (hk : 0 < k) :
    (∀ x, mkFalknerSkan t beta u nu fw e = .error x ↔ mkFalknerSkan t beta u (k * nu) fw e = .error x) ∧
      ∀ s s', mkFalknerSkan t beta u nu fw e = .ok s → mkFalknerSkan t beta u (k * nu) fw e = .ok s' → InFluid k s s' := by
  refine fluid_of_map (u := u) (nu := nu) hk hb ?_ fun s h => ⟨.falknerSkan _ _ _ _ _ _ _ h, ?_⟩
  · simp only [mkFalknerSkan]
    split
    · rfl
    · exact refs_base _ _ _ _ _ _ _ _ _ _ _ rfl (le_scaled hk nu)
  · simp only [mkFalknerSkan] at h
    split at h
    · cases h
    · exact base_same h

/-- **C143** for Blasius objects. -/
theorem blasius_viscosity (t : Tools ℝ) (u nu : ℝ) (fw e : Option ℝ) {k : ℝ} (hk : 0 < k) :
    (∀ x, mkBlasius t u nu fw e = .error x ↔ mkBlasius t u (k * nu) fw e = .error x) ∧
      ∀ s s', mkBlasius t u nu fw e = .ok s → mkBlasius t u (k * nu) fw e = .ok s' → InFluid k s s' := by
  refine fluid_of_map (u := u) (nu := nu) (beta := 0) hk two_pos ?_ fun s h => ⟨.blasius _ _ _ _ _ _ h, ?_⟩
  · simp only [mkBlasius]
    split <;> exact refs_base _ _ _ _ _ _ _ _ _ _ _ rfl (le_scaled hk nu)
  · rw [← show (lit 0 : ℝ) = 0 by simp]
    simp only [mkBlasius] at h
    split at h <;> exact base_same h

/-- Non-vacuity: an object with a solution, and one made for another fluid. -/
example : ∃ (s : Sim ℝ) (sol : ℝ → V3 ℝ), Reached s ∧ s.beta < 2 ∧ s.f = some sol :=
  ⟨sample, fun _ => (0, 1, 1), .falknerSkan _ _ _ _ _ _ _ sample_made, by simp [sample], rfl⟩

example (s : Sim ℝ) (h : mkFalknerSkan quadratic (1/2) 3 2 (some 1) (some 1) = .ok s) : ∃ s', mkFalknerSkan quadratic (1/2) 3 (5 * 2) (some 1) (some 1) = .ok s' := by
  obtain ⟨h1, -⟩ := falknerSkan_viscosity quadratic (1/2) 3 2 (some 1) (some 1) (by norm_num) (k := 5) (by norm_num)
  cases hc : mkFalknerSkan quadratic (1/2) 3 (5 * 2) (some 1) (some 1) with
  | ok s' => exact ⟨s', rfl⟩
  | error x => rw [(h1 x).2 hc] at h; cases h

end IBL.Analytic
