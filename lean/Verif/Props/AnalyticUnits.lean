import Verif.Props.AnalyticFlow

/-! C124: similarity solutions in other units. -/

set_option linter.unusedSectionVars false

namespace IBL.Analytic

section generic
variable {α : Type} [Add α] [Sub α] [Mul α] [Div α] [Neg α] [PyLit α] [PyCmp α] [PySpecial α]

/-- The object with other reference values. -/
def refs (u nu : α) (s : Sim α) : Sim α := { s with uRef := u, nuRef := nu }

private theorem refs_set (s : Sim α) (t : Tools α) (e fw : Option α) (u nu : α) :
    (refs u nu s).setSolutionParameters t e fw = ((refs u nu (s.setSolutionParameters t e fw).1), (s.setSolutionParameters t e fw).2) := by
  simp only [Sim.setSolutionParameters]
  split
  · rfl
  · split
    · rfl
    · have hc : (refs u nu s).calculateSolution t fw e = (refs u nu (s.calculateSolution t fw e).1, (s.calculateSolution t fw e).2) := by
        simp only [Sim.calculateSolution]
        rw [show (refs u nu s).endValues t = s.endValues t from rfl]
        cases search (s.endValues t) e fw with
        | error x => rfl
        | ok r =>
          obtain ⟨eta, w, c1, c2⟩ := r
          dsimp only
          rw [show ({ refs u nu s with etaInf := eta } : Sim α).plainRhs = ({ s with etaInf := eta } : Sim α).plainRhs from rfl]
          cases t.ivp ⟨({ s with etaInf := eta } : Sim α).plainRhs, eta, (lit 0, lit 0, w)⟩ with
          | error x => rfl
          | ok r => dsimp only; split <;> rfl
      rw [hc]
      rcases s.calculateSolution t fw e with ⟨s', x | ⟨⟨⟩⟩⟩
      · rfl
      · dsimp only
        rw [show (refs u nu s').f = s'.f from rfl]
        cases hf : s'.f with
        | none => rfl
        | some sol =>
          dsimp only
          simp only [Sim.thicknesses]
          have h1 : pyDiv (({ refs u nu s' with etaD := (refs u nu s').etaInf - (sol (refs u nu s').etaInf).1 } : Sim α).fwPp - (refs u nu s').beta *
              ((refs u nu s').etaInf - (sol (refs u nu s').etaInf).1)) ((refs u nu s').alpha + (refs u nu s').beta) =
            pyDiv (({ s' with etaD := s'.etaInf - (sol s'.etaInf).1 } : Sim α).fwPp - s'.beta * (s'.etaInf - (sol s'.etaInf).1)) (s'.alpha + s'.beta) := rfl
          rw [h1]
          generalize pyDiv (({ s' with etaD := s'.etaInf - (sol s'.etaInf).1 } : Sim α).fwPp - s'.beta * (s'.etaInf - (sol s'.etaInf).1)) (s'.alpha + s'.beta) = r
          rcases r with x | mm
          · rfl
          · dsimp only
            rw [show (refs u nu s').etaInf = s'.etaInf from rfl]
            cases t.quad (fun eta => lit 2 * (sol eta).1 * (sol eta).2.1 * (sol eta).2.2) (lit 0) s'.etaInf with
            | error x => rfl
            | ok k =>
              dsimp only
              cases t.root (fun eta => lit (99/100) - (sol eta).2.1) (lit 0) s'.etaInf with
              | error x => rfl
              | ok q => dsimp only; split <;> rfl

theorem refs_base (t : Tools α) (c : Cls) (u nu u' nu' a b g : α) (fw e : Option α) (hu : PyCmp.le u' (lit 0) = PyCmp.le u (lit 0))
    (hn : PyCmp.le nu' (lit 0) = PyCmp.le nu (lit 0)) :
    mkBase t c u' nu' a b g fw e = (mkBase t c u nu a b g fw e).map (refs u' nu') := by
  simp only [mkBase, hu, hn]
  split
  · rfl
  · split
    · rfl
    · rw [show (⟨c, u', nu', a, b, g, none, lit (-1), lit (-1), lit (-1), lit (-1), lit (-1)⟩ : Sim α) =
        refs u' nu' ⟨c, u, nu, a, b, g, none, lit (-1), lit (-1), lit (-1), lit (-1), lit (-1)⟩ from rfl, refs_set]
      rcases (⟨c, u, nu, a, b, g, none, lit (-1), lit (-1), lit (-1), lit (-1), lit (-1)⟩ : Sim α).setSolutionParameters t e fw with ⟨s, x | ⟨⟨⟩⟩⟩ <;> rfl

theorem base_same {t : Tools α} {c : Cls} {u nu a b g : α} {fw e : Option α} {s : Sim α} (h : mkBase t c u nu a b g fw e = .ok s) :
    s.beta = b ∧ s.uRef = u ∧ s.nuRef = nu := by
  simp only [mkBase] at h
  split at h
  · cases h
  · split at h
    · cases h
    · have hs := set_same (⟨c, u, nu, a, b, g, none, lit (-1), lit (-1), lit (-1), lit (-1), lit (-1)⟩ : Sim α) t e fw
      split at h
      · cases h
      · next s' e' =>
        cases h
        rw [e'] at hs
        exact ⟨hs.2.2.2.2.1, hs.2.1, hs.2.2.1⟩

end generic

section real
variable [PySpecial ℝ]

/-- The answers of `s'` are those of `s` in other units: a length is `L` times, a velocity `V` times, and a density `R` times the number it was. -/
structure InUnits (L V R : ℝ) (s s' : Sim ℝ) : Prop where
  edge : ∀ x > 0, ∃ a b, s.uE x = .ok a ∧ s'.uE (L * x) = .ok (V * a) ∧ s.vE x = .ok b ∧ s'.vE (L * x) = .ok (V * b)
  inside : ∀ x > 0, ∀ y, ∃ n a b, s.eta x y = .ok n ∧ s'.eta (L * x) (L * y) = .ok n ∧ s.u x y = .ok a ∧ s'.u (L * x) (L * y) = .ok (V * a) ∧
    s.v x y = .ok b ∧ s'.v (L * x) (L * y) = .ok (V * b)
  thickness : ∀ x > 0, ∀ q ∈ [Sim.deltaD, Sim.deltaM, Sim.deltaK, Sim.deltaS], ∃ d, q s x = .ok d ∧ q s' (L * x) = .ok (L * d)
  shape : ∀ x, s'.shapeD (L * x) = s.shapeD x ∧ s'.shapeK (L * x) = s.shapeK x
  stress : ∀ x > 0, ∀ rho, ∃ tau, s.tauW x rho = .ok tau ∧ s'.tauW (L * x) (R * rho) = .ok (R * V ^ 2 * tau)
  loss : ∀ x > 0, ∀ rho, ∃ d, s.dissipation x rho = .ok d ∧ s'.dissipation (L * x) (R * rho) = .ok (R * V ^ 3 * d)

theorem vE_form {s : Sim ℝ} (hs : InRange s) (hb : s.beta < 2) {x : ℝ} (hx : 0 < x) : s.vE x = .ok (s.nuRef * gg s x * s.etaD) := by
  simp only [Sim.vE, g_ok hs hb hx]; rfl
theorem u_form {s : Sim ℝ} (hs : InRange s) (hb : s.beta < 2) {sol : ℝ → V3 ℝ} (hf : s.f = some sol) {x : ℝ} (hx : 0 < x) (y : ℝ) :
    s.u x y = .ok (ue s x * (sol (y * gg s x)).2.1) := by
  simp only [Sim.u, uE_ok hs hb hx, eta_ok hs hb, Sim.fpAt, hf]; rfl
theorem v_form {s : Sim ℝ} (hs : InRange s) (hb : s.beta < 2) {sol : ℝ → V3 ℝ} (hf : s.f = some sol) {x : ℝ} (hx : 0 < x) (y : ℝ) :
    s.v x y = .ok (-(s.nuRef * gg s x * ((sol (y * gg s x)).1 + (s.beta - 1) * (y * gg s x) * (sol (y * gg s x)).2.1))) := by
  simp only [Sim.v, eta_ok hs hb, g_ok hs hb hx, Sim.fAt, Sim.fpAt, hf, hs.alpha, pyDiv, real_eq, real_lit]
  rw [if_neg (by push_cast; exact one_ne_zero)]
  show Except.ok _ = _
  push_cast
  rw [one_mul, div_one]
theorem delta_form {s : Sim ℝ} (hs : InRange s) (hb : s.beta < 2) {x : ℝ} (hx : 0 < x) : s.deltaD x = .ok (s.etaD / gg s x) ∧
    s.deltaM x = .ok (s.etaM / gg s x) ∧ s.deltaK x = .ok (s.etaK / gg s x) ∧ s.deltaS x = .ok (s.etaS / gg s x) := by
  simp only [Sim.deltaD, Sim.deltaM, Sim.deltaK, Sim.deltaS, g_ok hs hb hx]
  exact ⟨rfl, rfl, rfl, rfl⟩
theorem tau_form {s : Sim ℝ} (hs : InRange s) (hb : s.beta < 2) {x : ℝ} (hx : 0 < x) (rho : ℝ) :
    s.tauW x rho = .ok (rho * s.nuRef * ue s x * gg s x * s.fwPp) := by
  simp only [Sim.tauW, g_ok hs hb hx, uE_ok hs hb hx]; rfl
theorem loss_form {s : Sim ℝ} (hs : InRange s) (hb : s.beta < 2) {x : ℝ} (hx : 0 < x) (rho : ℝ) :
    s.dissipation x rho = .ok (rho * s.nuRef * gg s x * (ue s x * ue s x) * (lit (1/2) * (s.alpha + lit 2 * s.beta) * s.etaK)) := by
  simp only [Sim.dissipation, g_ok hs hb hx, uE_ok hs hb hx]; rfl

private theorem refs_units {s : Sim ℝ} (hs : InRange s) (hb : s.beta < 2) {sol : ℝ → V3 ℝ} (hf : s.f = some sol) {L V : ℝ} (R : ℝ) (hL : 0 < L) (hV : 0 < V) :
    InUnits L V R s (refs (V * s.uRef / L ^ (s.beta / (2 - s.beta))) (L * V * s.nuRef) s) := by
  set s' := refs (V * s.uRef / L ^ (s.beta / (2 - s.beta))) (L * V * s.nuRef) s with hs'
  have hLp : 0 < L ^ (s.beta / (2 - s.beta)) := Real.rpow_pos_of_pos hL _
  have R' : InRange s' := ⟨hs.alpha, hs.gamma, hs.beta_lo, hs.beta_hi, hs.blasius, div_pos (mul_pos hV hs.u_pos) hLp, mul_pos (mul_pos hL hV) hs.nu_pos⟩
  have hb' : s'.beta < 2 := hb
  have hf' : s'.f = some sol := hf
  have hu : ∀ x > 0, ue s' (L * x) = V * ue s x := fun x hx => by
    show V * s.uRef / L ^ (s.beta / (2 - s.beta)) * (L * x) ^ (s.beta / (2 - s.beta)) = V * (s.uRef * x ^ (s.beta / (2 - s.beta)))
    rw [Real.mul_rpow hL.le (le_of_lt hx)]
    field_simp
  have hg : ∀ x > 0, gg s' (L * x) = gg s x / L := fun x hx => by
    show Real.sqrt (ue s' (L * x) / ((2 - s.beta) * (L * V * s.nuRef) * (L * x))) = _
    rw [hu x hx, gg, show V * ue s x / ((2 - s.beta) * (L * V * s.nuRef) * (L * x)) = ue s x / ((2 - s.beta) * s.nuRef * x) / L ^ 2 by
      have := hs.nu_pos
      have : (2 - s.beta) ≠ 0 := by linarith
      have : x ≠ 0 := ne_of_gt hx
      field_simp, Real.sqrt_div' _ (by positivity), Real.sqrt_sq hL.le]
  have hLx : ∀ x > 0, 0 < L * x := fun x hx => mul_pos hL hx
  have hfw : s'.fwPp = s.fwPp := rfl
  have hn' : s'.nuRef = L * V * s.nuRef := rfl
  have hgp := fun x (hx : 0 < x) => gg_pos hs hb hx
  have heta : ∀ x > 0, ∀ y, s'.eta (L * x) (L * y) = .ok (y * gg s x) := fun x hx y => by
    rw [eta_ok R' hb', hg x hx]
    congr 1
    field_simp
  refine ⟨fun x hx => ⟨_, _, uE_ok hs hb hx, ?_, vE_form hs hb hx, ?_⟩,
    fun x hx y => ⟨_, _, _, eta_ok hs hb x y, heta x hx y, u_form hs hb hf hx y, ?_, v_form hs hb hf hx y, ?_⟩,
    fun x hx q hq => ?_, fun x => ⟨rfl, rfl⟩, fun x hx rho => ⟨_, tau_form hs hb hx rho, ?_⟩, fun x hx rho => ⟨_, loss_form hs hb hx rho, ?_⟩⟩
  · rw [uE_ok R' hb' (hLx x hx), hu x hx]
  · rw [vE_form R' hb' (hLx x hx), hg x hx, hn', show s'.etaD = s.etaD from rfl]
    congr 1
    field_simp
  · rw [u_form R' hb' hf' (hLx x hx), hu x hx, hg x hx, show L * y * (gg s x / L) = y * gg s x by field_simp, mul_assoc]
  · rw [v_form R' hb' hf' (hLx x hx), hg x hx, show L * y * (gg s x / L) = y * gg s x by field_simp, hn', show s'.beta = s.beta from rfl]
    congr 1
    generalize (sol (y * gg s x)).1 + (s.beta - 1) * (y * gg s x) * (sol (y * gg s x)).2.1 = w
    field_simp
  · have hne := (hgp x hx).ne'
    obtain ⟨a1, a2, a3, a4⟩ := delta_form hs hb hx
    obtain ⟨b1, b2, b3, b4⟩ := delta_form R' hb' (hLx x hx)
    rw [hg x hx] at b1 b2 b3 b4
    have key : ∀ e : ℝ, e / (gg s x / L) = L * (e / gg s x) := fun e => by field_simp
    rw [key] at b1 b2 b3 b4
    simp only [List.mem_cons, List.not_mem_nil, or_false] at hq
    rcases hq with rfl | rfl | rfl | rfl
    exacts [⟨_, a1, b1⟩, ⟨_, a2, b2⟩, ⟨_, a3, b3⟩, ⟨_, a4, b4⟩]
  · rw [tau_form R' hb' (hLx x hx), hu x hx, hg x hx, hn', hfw]
    congr 1
    field_simp
  · rw [loss_form R' hb' (hLx x hx), hu x hx, hg x hx, hn', show s'.alpha = s.alpha from rfl, show s'.beta = s.beta from rfl, show s'.etaK = s.etaK from rfl]
    congr 1
    generalize lit (1/2) * (s.alpha + lit 2 * s.beta) * s.etaK = w
    field_simp

theorem set_refs (s : Sim ℝ) {u nu : ℝ} (hu : 0 < u) (hn : 0 < nu) : ((s.step (.setURef u)).1.step (.setNuRef nu)).1 = refs u nu s := by
  have h1 : ¬ PyCmp.le u (lit 0) = true := by simpa using hu
  have h2 : ¬ PyCmp.le nu (lit 0) = true := by simpa using hn
  simp only [Sim.step, Sim.setURef, Sim.setNuRef, if_neg h1, if_neg h2, refs]

/-- **C124**, for objects: setting the reference values of an object that has a solution to those in other units puts all its answers into these units.
The edge velocity is `u_ref x^m` with `m = beta/(2 - beta)`, so that `u_ref` has the unit of velocity over length to the power `m`. -/
theorem similarity_units_set {s : Sim ℝ} (hr : Reached s) (hb : s.beta < 2) {sol : ℝ → V3 ℝ} (hf : s.f = some sol) {L V : ℝ} (R : ℝ) (hL : 0 < L) (hV : 0 < V) :
    InUnits L V R s ((s.step (.setURef (V * s.uRef / L ^ (s.beta / (2 - s.beta))))).1.step (.setNuRef (L * V * s.nuRef))).1 := by
  have hs := reached_inRange _ hr
  rw [set_refs s (div_pos (mul_pos hV hs.u_pos) (Real.rpow_pos_of_pos hL _)) (mul_pos (mul_pos hL hV) hs.nu_pos)]
  exact refs_units hs hb hf R hL hV

private theorem units_of_map {mk mk' : Except Exc (Sim ℝ)} {u nu : ℝ} {L V beta : ℝ} (R : ℝ) (hL : 0 < L) (hV : 0 < V) (hb : beta < 2)
    (hm : mk' = mk.map (refs (V * u / L ^ (beta / (2 - beta))) (L * V * nu)))
    (h : ∀ s, mk = .ok s → Current s ∧ s.beta = beta ∧ s.uRef = u ∧ s.nuRef = nu) :
    (∀ x, mk = .error x ↔ mk' = .error x) ∧ ∀ s s', mk = .ok s → mk' = .ok s' → InUnits L V R s s' := by
  subst hm
  refine ⟨fun x => ?_, fun s s' h1 h2 => ?_⟩
  · cases mk <;> simp [Except.map]
  · obtain ⟨hc, rfl, rfl, rfl⟩ := h s h1
    rw [h1] at h2
    cases h2
    obtain ⟨sol, hf, -⟩ := hc.consistent
    exact refs_units (reached_inRange _ hc.reached) hb hf R hL hV

theorem le_scaled {k : ℝ} (hk : 0 < k) (v : ℝ) : PyCmp.le (k * v) (lit 0) = PyCmp.le v (lit 0) := by
  rw [Bool.eq_iff_iff]
  simp only [real_le, real_lit, Rat.cast_zero]
  exact ⟨fun h => by by_contra hc; push Not at hc; exact absurd (mul_pos hk hc) (not_lt.2 h), fun h => mul_nonpos_of_nonneg_of_nonpos hk.le h⟩

/-- **C124**: a Falkner-Skan object made with the same wedge parameter and solution parameters from reference values in other units exists exactly if the
object in the original units does, and gives the same answers in these units. -/
theorem falknerSkan_units (t : Tools ℝ) (beta u nu : ℝ) (fw e : Option ℝ) (hb : beta < 2) (L V R : ℝ) (hL : 0 < L) (hV : 0 < V) :
    (∀ x, mkFalknerSkan t beta u nu fw e = .error x ↔ mkFalknerSkan t beta (V * u / L ^ (beta / (2 - beta))) (L * V * nu) fw e = .error x) ∧
      ∀ s s', mkFalknerSkan t beta u nu fw e = .ok s → mkFalknerSkan t beta (V * u / L ^ (beta / (2 - beta))) (L * V * nu) fw e = .ok s' → InUnits L V R s s' := by
  have hLp : 0 < L ^ (beta / (2 - beta)) := Real.rpow_pos_of_pos hL _
  refine units_of_map (u := u) (nu := nu) R hL hV hb ?_ fun s h => ⟨.falknerSkan _ _ _ _ _ _ _ h, ?_⟩
  · simp only [mkFalknerSkan]
    split
    · rfl
    · refine refs_base _ _ _ _ _ _ _ _ _ _ _ ?_ (le_scaled (mul_pos hL hV) nu)
      rw [mul_div_right_comm]
      exact le_scaled (div_pos hV hLp) u
  · simp only [mkFalknerSkan] at h
    split at h
    · cases h
    · exact base_same h

/-- **C124** for Blasius objects, where `u_ref` is the edge velocity. -/
theorem blasius_units (t : Tools ℝ) (u nu : ℝ) (fw e : Option ℝ) (L V R : ℝ) (hL : 0 < L) (hV : 0 < V) :
    (∀ x, mkBlasius t u nu fw e = .error x ↔ mkBlasius t (V * u) (L * V * nu) fw e = .error x) ∧
      ∀ s s', mkBlasius t u nu fw e = .ok s → mkBlasius t (V * u) (L * V * nu) fw e = .ok s' → InUnits L V R s s' := by
  refine units_of_map (u := u) (nu := nu) (beta := 0) R hL hV two_pos ?_ fun s h => ⟨.blasius _ _ _ _ _ _ h, ?_⟩
  · rw [zero_div, Real.rpow_zero, div_one]
    simp only [mkBlasius]
    split <;> exact refs_base _ _ _ _ _ _ _ _ _ _ _ (le_scaled hV u) (le_scaled (mul_pos hL hV) nu)
  · rw [← show (lit 0 : ℝ) = 0 by simp]
    simp only [mkBlasius] at h
    split at h <;> exact base_same h

/-- Non-vacuity: an object in other units, a wedge flow. -/
example (s : Sim ℝ) (h : mkFalknerSkan quadratic (1/2) 3 2 (some 1) (some 1) = .ok s) : ∃ s', mkFalknerSkan quadratic (1/2) (7 * 3 / 5 ^ ((1/2 : ℝ) / (2 - 1/2)))
    (5 * 7 * 2) (some 1) (some 1) = .ok s' := by
  obtain ⟨h1, -⟩ := falknerSkan_units quadratic (1/2) 3 2 (some 1) (some 1) (by norm_num) 5 7 1 (by norm_num) (by norm_num)
  cases hc : mkFalknerSkan quadratic (1/2) (7 * 3 / 5 ^ ((1/2 : ℝ) / (2 - 1/2))) (5 * 7 * 2) (some 1) (some 1) with
  | ok s' => exact ⟨s', rfl⟩
  | error x => rw [(h1 x).2 hc] at h; cases h

example : ∃ (s : Sim ℝ) (sol : ℝ → V3 ℝ), Reached s ∧ s.beta < 2 ∧ s.f = some sol :=
  ⟨sample, fun _ => (0, 1, 1), .falknerSkan _ _ _ _ _ _ _ sample_made, by simp [sample], rfl⟩

end real
end IBL.Analytic
