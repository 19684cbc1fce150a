import Mathlib.Topology.Algebra.MetricSpace.Lipschitz
import Verif.Props.AnalyticProfile

/-! C90, C91: the similarity solutions solve the boundary layer equations. Exact arithmetic, exact integrator. -/

set_option linter.unusedSectionVars false

namespace IBL.Analytic
open Set

variable [PySpecial ℝ]

/-! ### The equation that is handed to the integrator -/

/-- `y` solves `y' = F(y)` on `[0, L]`. -/
def SolvesOn (F : V3 ℝ → V3 ℝ) (y : ℝ → V3 ℝ) (L : ℝ) : Prop := ∀ e ∈ Icc 0 L, HasDerivWithinAt y (F (y e)) (Icc 0 L) e

/-- An exact integrator: whenever it reports success on an interval `[0, L]`, the dense solution starts with the start vector, solves the equation
that was passed in, and the last column is its value at the end. (It is free to fail.) -/
def ExactIvp (t : Tools ℝ) : Prop :=
  ∀ p r, t.ivp p = .ok r → r.success = true → 0 < p.tEnd → r.sol 0 = p.y0 ∧ r.yEnd = r.sol p.tEnd ∧ SolvesOn p.rhs r.sol p.tEnd

theorem SolvesOn.parts {F : V3 ℝ → V3 ℝ} {y : ℝ → V3 ℝ} {L : ℝ} (h : SolvesOn F y L) :
    (∀ e ∈ Icc 0 L, HasDerivWithinAt (fun e => (y e).1) (F (y e)).1 (Icc 0 L) e) ∧
    (∀ e ∈ Icc 0 L, HasDerivWithinAt (fun e => (y e).2.1) (F (y e)).2.1 (Icc 0 L) e) ∧
    (∀ e ∈ Icc 0 L, HasDerivWithinAt (fun e => (y e).2.2) (F (y e)).2.2 (Icc 0 L) e) := by
  have k : ∀ e ∈ Icc 0 L, HasDerivWithinAt (fun e => (y e).2) (F (y e)).2 (Icc 0 L) e := fun e he =>
    (hasFDerivAt_snd (𝕜 := ℝ) (p := y e)).comp_hasDerivWithinAt e (h e he)
  refine ⟨fun e he => (hasFDerivAt_fst (𝕜 := ℝ) (p := y e)).comp_hasDerivWithinAt e (h e he), fun e he => ?_, fun e he => ?_⟩
  · have := (hasFDerivAt_fst (𝕜 := ℝ) (p := (y e).2)).comp_hasDerivWithinAt e (k e he)
    exact this
  · have := (hasFDerivAt_snd (𝕜 := ℝ) (p := (y e).2)).comp_hasDerivWithinAt e (k e he)
    exact this

/-- The final integration solves the Falkner-Skan equation. -/
theorem plain_exact {s : Sim ℝ} (hg : s.gamma = 1) {y : ℝ → V3 ℝ} {L w : ℝ} (h0 : y 0 = (0, 0, w)) (h : SolvesOn s.plainRhs y L) :
    ExactOn s.alpha s.beta y L := by
  obtain ⟨k0, k1, k2⟩ := h.parts
  have nb : ∀ e ∈ Ioo 0 L, Icc 0 L ∈ nhds e := fun e he => Icc_mem_nhds he.1 he.2
  refine ⟨by rw [h0], by rw [h0], fun e he => (k0 e he).continuousWithinAt, fun e he => (k1 e he).continuousWithinAt,
    fun e he => (k2 e he).continuousWithinAt, fun e he => (k0 e (Ioo_subset_Icc_self he)).hasDerivAt (nb e he),
    fun e he => (k1 e (Ioo_subset_Icc_self he)).hasDerivAt (nb e he),
    fun e he => ((k2 e (Ioo_subset_Icc_self he)).hasDerivAt (nb e he)).congr_deriv ?_⟩
  simp only [Sim.plainRhs, hg]
  ring

/-- Solutions of the Falkner-Skan equation are solutions for the model's right hand side, up to the end points. -/
theorem exact_plain {s : Sim ℝ} (hg : s.gamma = 1) {y : ℝ → V3 ℝ} {L : ℝ} (hL : 0 < L)
    (h : ∀ e ∈ Icc 0 L, HasDerivAt (fun e => (y e).1) (y e).2.1 e ∧ HasDerivAt (fun e => (y e).2.1) (y e).2.2 e ∧
      HasDerivAt (fun e => (y e).2.2) (-(s.alpha * (y e).1 * (y e).2.2) - s.beta * (1 - (y e).2.1 ^ 2)) e) :
    SolvesOn s.plainRhs y L := by
  intro e he
  obtain ⟨k0, k1, k2⟩ := h e he
  have := (k0.prodMk (k1.prodMk k2)).hasDerivWithinAt (s := Icc 0 L)
  refine this.congr_deriv ?_
  simp only [Sim.plainRhs, hg]
  refine Prod.ext rfl (Prod.ext rfl ?_)
  simp only
  ring

/-- The search integrates the same equation, with the coordinate divided by `eta_inf`. -/
theorem scaled_exact {s : Sim ℝ} {y : ℝ → V3 ℝ} {eta : ℝ} (hp : 0 < eta) (h : SolvesOn (s.scaledRhs eta) y 1) :
    SolvesOn s.plainRhs (fun e => y (e / eta)) eta := by
  intro e he
  have hm : MapsTo (fun e : ℝ => e / eta) (Icc 0 eta) (Icc 0 1) := fun v hv =>
    ⟨div_nonneg hv.1 hp.le, (div_le_one hp).2 hv.2⟩
  have h1 := (h (e / eta) (hm he)).scomp e ((hasDerivAt_id e).div_const eta).hasDerivWithinAt hm
  refine h1.congr_deriv ?_
  simp only [Sim.scaledRhs, Sim.plainRhs, Prod.smul_mk, smul_eq_mul]
  refine Prod.ext ?_ (Prod.ext ?_ ?_) <;> · simp only; field_simp

/-- Solutions are unique. -/
theorem solves_unique {s : Sim ℝ} {y z : ℝ → V3 ℝ} {L : ℝ} (hy : SolvesOn s.plainRhs y L) (hz : SolvesOn s.plainRhs z L) (h0 : y 0 = z 0) :
    EqOn y z (Icc 0 L) := by
  have cy : ContinuousOn y (Icc 0 L) := fun e he => (hy e he).continuousWithinAt
  have cz : ContinuousOn z (Icc 0 L) := fun e he => (hz e he).continuousWithinAt
  have hF : ContDiff ℝ 1 (s.plainRhs) := by
    refine (contDiff_fst.comp contDiff_snd).prodMk ((contDiff_snd.comp contDiff_snd).prodMk (ContDiff.neg (ContDiff.add ?_ ?_)))
    · exact (contDiff_const.mul contDiff_fst).mul (contDiff_snd.comp contDiff_snd)
    · exact contDiff_const.mul (contDiff_const.sub ((contDiff_fst.comp contDiff_snd).mul (contDiff_fst.comp contDiff_snd)))
  have hK : IsCompact (y '' Icc 0 L ∪ z '' Icc 0 L) := (isCompact_Icc.image_of_continuousOn cy).union (isCompact_Icc.image_of_continuousOn cz)
  obtain ⟨K, hlip⟩ := (hF.locallyLipschitz.locallyLipschitzOn (s := y '' Icc 0 L ∪ z '' Icc 0 L)).exists_lipschitzOnWith_of_compact hK
  have right : ∀ {w : ℝ → V3 ℝ}, SolvesOn s.plainRhs w L → ∀ e ∈ Ico 0 L, HasDerivWithinAt w (s.plainRhs (w e)) (Ici e) e := fun hw e he =>
    (hw e (Ico_subset_Icc_self he)).mono_of_mem_nhdsWithin (Icc_mem_nhdsGE_of_mem he)
  exact ODE_solution_unique_of_mem_Icc_right (v := fun _ => s.plainRhs) (s := fun _ => y '' Icc 0 L ∪ z '' Icc 0 L) (fun _ _ => hlip) cy (right hy)
    (fun e he => .inl ⟨e, Ico_subset_Icc_self he, rfl⟩) cz (right hz) (fun e he => .inr ⟨e, Ico_subset_Icc_self he, rfl⟩) h0

/-! ### Objects whose last solution was computed by an exact integrator -/

/-- The objects whose last call that asks for a new solution (constructor included) returned normally, where that call was answered by tools with the
property `Q`. -/
inductive CurrentWith (Q : Tools ℝ → Prop) : Sim ℝ → Prop
  | falknerSkan (t : Tools ℝ) (beta u nu : ℝ) (fw e : Option ℝ) (s : Sim ℝ) : Q t → mkFalknerSkan t beta u nu fw e = .ok s → CurrentWith Q s
  | blasius (t : Tools ℝ) (u nu : ℝ) (fw e : Option ℝ) (s : Sim ℝ) : Q t → mkBlasius t u nu fw e = .ok s → CurrentWith Q s
  | set (s : Sim ℝ) (t : Tools ℝ) (e fw : Option ℝ) : Q t → Reached s → (s.setSolutionParameters t e fw).2 = .ok () →
      CurrentWith Q (s.setSolutionParameters t e fw).1
  | resetBeta (s : Sim ℝ) (t : Tools ℝ) (b : ℝ) (e fw : Option ℝ) : Q t → Reached s → (s.step (.resetBeta t b e fw)).2 = .ok () →
      CurrentWith Q (s.step (.resetBeta t b e fw)).1
  | resetM (s : Sim ℝ) (t : Tools ℝ) (m : ℝ) (e fw : Option ℝ) : Q t → Reached s → (s.step (.resetM t m e fw)).2 = .ok () →
      CurrentWith Q (s.step (.resetM t m e fw)).1
  | uRef (s : Sim ℝ) (u : ℝ) : CurrentWith Q s → CurrentWith Q (s.step (.setURef u)).1
  | nuRef (s : Sim ℝ) (nu : ℝ) : CurrentWith Q s → CurrentWith Q (s.step (.setNuRef nu)).1

namespace CurrentWith
variable {Q : Tools ℝ → Prop} {s : Sim ℝ}

theorem current (h : CurrentWith Q s) : Current s := by
  induction h with
  | falknerSkan t b u nu fw e s _ h => exact .falknerSkan t b u nu fw e s h
  | blasius t u nu fw e s _ h => exact .blasius t u nu fw e s h
  | set s t e fw _ hr h => exact .solved s (.setSolutionParameters t e fw) hr trivial h
  | resetBeta s t b e fw _ hr h => exact .solved s _ hr trivial h
  | resetM s t m e fw _ hr h => exact .solved s _ hr trivial h
  | uRef s u _ ih => exact .uRef s u ih
  | nuRef s u _ ih => exact .nuRef s u ih

/-- A property that every successful request for a solution establishes, and that does not depend on the reference values, holds of these objects. -/
theorem induct {P : Sim ℝ → Prop} (hP : ∀ (s : Sim ℝ) t e fw, Q t → s.alpha = 1 → s.gamma = 1 → (s.setSolutionParameters t e fw).2 = .ok () →
    P (s.setSolutionParameters t e fw).1) (hu : ∀ s : Sim ℝ, ∀ u, P s → P { s with uRef := u }) (hn : ∀ s : Sim ℝ, ∀ u, P s → P { s with nuRef := u })
    (h : CurrentWith Q s) : P s := by
  have base : ∀ {t : Tools ℝ} {c : Cls} {u nu b : ℝ} {fw e : Option ℝ} {s : Sim ℝ}, Q t →
      mkBase t c u nu (lit 1) b (lit 1) fw e = .ok s → P s := by
    intro t c u nu b fw e s hQ h
    simp only [mkBase] at h
    split at h
    · cases h
    · split at h
      · cases h
      · split at h
        · cases h
        · next s' hs =>
          cases h
          have := hP (⟨c, u, nu, lit 1, b, lit 1, none, lit (-1), lit (-1), lit (-1), lit (-1), lit (-1)⟩ : Sim ℝ) t e fw hQ (by simp) (by simp) (by rw [hs])
          rw [hs] at this
          exact this
  have reset : ∀ (s : Sim ℝ) (t : Tools ℝ) (b : ℝ) (e fw : Option ℝ), Q t → Reached s → (s.resetBeta t b e fw).2 = .ok () →
      P (s.resetBeta t b e fw).1 := by
    intro s t b e fw hQ hr h
    have hs := reached_inRange _ hr
    simp only [Sim.resetBeta] at h ⊢
    split at h
    · cases h
    · next hb => rw [if_neg hb]; exact hP _ t e fw hQ hs.alpha hs.gamma h
  induction h with
  | falknerSkan t b u nu fw e s hQ h =>
    simp only [mkFalknerSkan] at h
    split at h
    · cases h
    · exact base hQ h
  | blasius t u nu fw e s hQ h =>
    simp only [mkBlasius] at h
    split at h
    · exact base hQ h
    · exact base hQ h
  | set s t e fw hQ hr h =>
    have hs := reached_inRange _ hr
    exact hP s t e fw hQ hs.alpha hs.gamma h
  | resetBeta s t b e fw hQ hr h =>
    simp only [Sim.step] at h ⊢
    split at h
    · next hc => rw [if_pos hc]; exact reset s t b e fw hQ hr h
    · cases h
  | resetM s t m e fw hQ hr h =>
    simp only [Sim.step, Sim.resetM] at h ⊢
    split at h
    · next hc =>
      rw [if_pos hc]
      split at h
      · next hm => rw [if_pos hm]; exact reset s t _ e fw hQ hr h
      · next hm =>
        rw [if_neg hm]
        split at h
        · cases h
        · exact reset s t _ e fw hQ hr h
    · cases h
  | uRef s u _ ih =>
    simp only [Sim.step, Sim.setURef]
    split
    · exact ih
    · exact hu _ _ ih
  | nuRef s u _ ih =>
    simp only [Sim.step, Sim.setNuRef]
    split
    · exact ih
    · exact hn _ _ ih

/-- The stored profile solves the Falkner-Skan equation for the object's `beta`. -/
theorem equation (h : CurrentWith ExactIvp s) (hp : 0 < s.etaInf) :
    ∃ sol, s.f = some sol ∧ ExactOn 1 s.beta sol s.etaInf ∧ SolvesOn s.plainRhs sol s.etaInf := by
  have hs := reached_inRange _ h.current.reached
  have := induct (P := fun s => ∃ sol, s.f = some sol ∧ (0 < s.etaInf → ∃ w, sol 0 = (0, 0, w) ∧ SolvesOn s.plainRhs sol s.etaInf))
    (fun s t e fw hQ _ _ hok => ?_) (fun s u h => h) (fun s u h => h) h
  · obtain ⟨sol, h1, h2⟩ := this
    obtain ⟨w, h3, h4⟩ := h2 hp
    refine ⟨sol, h1, ?_, h4⟩
    have := plain_exact hs.gamma h3 h4
    rwa [hs.alpha] at this
  · obtain ⟨eta, w, c1, c2, r, -, g2, g3, -, -, g4, g5, -⟩ := set_ok s t e fw hok
    refine ⟨r.sol, g5, fun hp => ?_⟩
    rw [g4] at hp ⊢
    obtain ⟨h1, -, h3⟩ := hQ _ r g2 g3 hp
    have hsame := set_same s t e fw
    refine ⟨w, by simpa using h1, ?_⟩
    have : (s.setSolutionParameters t e fw).1.plainRhs = s.plainRhs := by
      funext f
      simp only [Sim.plainRhs, hsame.2.2.2.1, hsame.2.2.2.2.1, hsame.2.2.2.2.2]
    rw [this]
    exact h3

end CurrentWith

/-- An exact solution in the sense of `ExactOn` solves the equation up to the end points. -/
private theorem closed_deriv {g g' : ℝ → ℝ} {L : ℝ} (hL : 0 < L) (hc : ContinuousOn g (Icc 0 L)) (hc' : ContinuousOn g' (Icc 0 L))
    (hd : ∀ e ∈ Ioo 0 L, HasDerivAt g (g' e) e) : ∀ e ∈ Icc 0 L, HasDerivWithinAt g (g' e) (Icc 0 L) e := by
  intro e he
  have hdiff : DifferentiableOn ℝ g (Ioo 0 L) := fun v hv => (hd v hv).differentiableAt.differentiableWithinAt
  rcases eq_or_lt_of_le he.1 with h0 | h0
  · rw [← h0]
    have hm : Ioo 0 L ∈ nhdsWithin (0:ℝ) (Ioi 0) := Ioo_mem_nhdsGT hL
    refine (hasDerivWithinAt_Ici_of_tendsto_deriv hdiff ((hc 0 (left_mem_Icc.2 hL.le)).mono Ioo_subset_Icc_self) hm ?_).mono Icc_subset_Ici_self
    have h1 : Filter.Tendsto g' (nhdsWithin 0 (Ioi 0)) (nhds (g' 0)) :=
      (hc' 0 (left_mem_Icc.2 hL.le)).mono_left (nhdsWithin_le_of_mem (Filter.mem_of_superset hm Ioo_subset_Icc_self))
    refine h1.congr' (Filter.mem_of_superset hm fun v hv => (hd v hv).deriv.symm)
  · rcases eq_or_lt_of_le he.2 with h1 | h1
    · rw [h1]
      have hm : Ioo 0 L ∈ nhdsWithin L (Iio L) := Ioo_mem_nhdsLT hL
      refine (hasDerivWithinAt_Iic_of_tendsto_deriv hdiff ((hc L (right_mem_Icc.2 hL.le)).mono Ioo_subset_Icc_self) hm ?_).mono Icc_subset_Iic_self
      have h1 : Filter.Tendsto g' (nhdsWithin L (Iio L)) (nhds (g' L)) :=
        (hc' L (right_mem_Icc.2 hL.le)).mono_left (nhdsWithin_le_of_mem (Filter.mem_of_superset hm Ioo_subset_Icc_self))
      refine h1.congr' (Filter.mem_of_superset hm fun v hv => (hd v hv).deriv.symm)
    · exact (hd e ⟨h0, h1⟩).hasDerivWithinAt

theorem ExactOn.solves {s : Sim ℝ} (hg : s.gamma = 1) {y : ℝ → V3 ℝ} {L : ℝ} (hL : 0 < L) (h : ExactOn s.alpha s.beta y L) :
    SolvesOn s.plainRhs y L := by
  intro e he
  have k0 := closed_deriv hL h.c0 h.c1 h.d0 e he
  have k1 := closed_deriv hL h.c1 h.c2 h.d1 e he
  have k2 := closed_deriv hL h.c2 (((continuousOn_const.mul h.c0).mul h.c2).neg.sub (continuousOn_const.mul (continuousOn_const.sub (h.c1.pow 2)))) h.d2 e he
  refine (k0.prodMk (k1.prodMk k2)).congr_deriv ?_
  simp only [Sim.plainRhs, hg]
  refine Prod.ext rfl (Prod.ext rfl ?_)
  simp only [Pi.sub_apply, Pi.neg_apply, Pi.mul_apply, Pi.pow_apply]
  ring

open Classical in
/-- The exact integrator that fails only if there is no solution; exact quadrature. -/
noncomputable def idealTools : Tools ℝ where
  ivp p := if h : ∃ y : ℝ → V3 ℝ, y 0 = p.y0 ∧ SolvesOn p.rhs y p.tEnd then .ok ⟨true, h.choose p.tEnd, h.choose⟩ else .ok ⟨false, p.y0, fun _ => p.y0⟩
  quad f a b := .ok (∫ x in a..b, f x)
  root _ _ _ := .ok (true, 1)

theorem ideal_exact : ExactIvp idealTools := by
  intro p r hr hs _
  simp only [idealTools] at hr
  split at hr
  · next h =>
    cases hr
    exact ⟨h.choose_spec.1, rfl, h.choose_spec.2⟩
  · cases hr
    cases hs

/-- Non-vacuity: for every admissible wedge parameter there is an object answered by an exact integrator and an exact quadrature. -/
theorem exact_object {beta : ℝ} (hb0 : -19884/100000 ≤ beta) (hb2 : beta ≤ 2) :
    ∃ s : Sim ℝ, CurrentWith (fun t => ExactIvp t ∧ ExactQuad t) s ∧ s.beta = beta ∧ 0 < s.etaInf := by
  obtain ⟨L, sol, h1, h2, h3, -⟩ := exact_exists 1 beta
  have hbb : badBeta beta = false := by
    rw [Bool.eq_false_iff, badBeta]
    simp only [ne_eq, Bool.or_eq_true, real_lt, real_gt, real_lit, not_or, not_lt]
    push_cast
    exact ⟨hb0, hb2⟩
  have hp : ∀ v : ℝ, 0 < v → badParam (some v) = false := fun v hv => by
    simp only [badParam]
    rw [Bool.eq_false_iff, ne_eq, real_le, real_lit]
    push_cast
    exact not_le.2 hv
  obtain ⟨s0, hs0⟩ : ∃ s0 : Sim ℝ, s0 = { sample with beta := beta } := ⟨_, rfl⟩
  have ha : s0.alpha = 1 := by rw [hs0]; rfl
  have hg : s0.gamma = 1 := by rw [hs0]; rfl
  have hbe : s0.beta = beta := by rw [hs0]
  have hsol : ∃ y : ℝ → V3 ℝ, y 0 = (lit 0, lit 0, 1) ∧ SolvesOn s0.plainRhs y L :=
    ⟨sol, Prod.ext (by simpa using h2.f0) (Prod.ext (by simpa using h2.f1) h3), ExactOn.solves hg h1 (by rw [ha, hbe]; exact h2)⟩
  have hivp : idealTools.ivp ⟨s0.plainRhs, L, (lit 0, lit 0, 1)⟩ = .ok ⟨true, hsol.choose L, hsol.choose⟩ := dif_pos hsol
  have hok : (s0.setSolutionParameters idealTools (some L) (some 1)).2 = .ok () := by
    have e : ({ s0 with etaInf := L } : Sim ℝ).plainRhs = s0.plainRhs := rfl
    have hd : s0.alpha + s0.beta ≠ 0 := by rw [ha, hbe]; linarith
    simp only [Sim.setSolutionParameters, hp L h1, hp 1 one_pos, Sim.calculateSolution, search, e, hivp, Sim.thicknesses, pyDiv]
    simp [idealTools, hd]
  have hstep : sample.step (.resetBeta idealTools beta (some L) (some 1)) = s0.setSolutionParameters idealTools (some L) (some 1) := by
    rw [hs0]
    simp only [Sim.step, Sim.resetBeta, hbb]
    rfl
  refine ⟨(sample.step (.resetBeta idealTools beta (some L) (some 1))).1, .resetBeta _ _ _ _ _ ⟨ideal_exact, fun f a b => rfl⟩
    (.falknerSkan _ _ _ _ _ _ _ sample_made) (by rw [hstep]; exact hok), ?_, ?_⟩
  · rw [hstep]
    exact (set_same s0 _ _ _).2.2.2.2.1.trans hbe
  · rw [hstep]
    obtain ⟨eta, w, c1, c2, r, g1, -, -, -, -, g3, -⟩ := set_ok _ _ _ _ hok
    simp only [search, Except.ok.injEq, Prod.mk.injEq] at g1
    rw [g3, ← g1.1]
    exact h1

theorem CurrentWith.mono {Q Q' : Tools ℝ → Prop} (hQ : ∀ t, Q t → Q' t) {s : Sim ℝ} (h : CurrentWith Q s) : CurrentWith Q' s := by
  induction h with
  | falknerSkan t b u nu fw e s q h => exact .falknerSkan t b u nu fw e s (hQ _ q) h
  | blasius t u nu fw e s q h => exact .blasius t u nu fw e s (hQ _ q) h
  | set s t e fw q hr h => exact .set s t e fw (hQ _ q) hr h
  | resetBeta s t b e fw q hr h => exact .resetBeta s t b e fw (hQ _ q) hr h
  | resetM s t m e fw q hr h => exact .resetM s t m e fw (hQ _ q) hr h
  | uRef s u _ ih => exact .uRef s u ih
  | nuRef s u _ ih => exact .nuRef s u ih

/-! ### C90 -/

/-- **C90**: for every object whose last solution was computed by an exact integrator, the reported velocities satisfy the boundary layer equations
`u u_x + v u_y = u_e du_e/dx + nu u_yy` and `u_x + v_y = 0` at every point inside the layer, and vanish at the wall. -/
theorem boundary_layer_equations {s : Sim ℝ} (h : CurrentWith ExactIvp s) (hp : 0 < s.etaInf) (hb : s.beta < 2) :
    ∃ (E : ℝ → ℝ) (U V Uy : ℝ → ℝ → ℝ), (∀ x > 0, s.uE x = .ok (E x) ∧ ∀ y, s.u x y = .ok (U x y) ∧ s.v x y = .ok (V x y)) ∧
      (∀ x > 0, U x 0 = 0 ∧ V x 0 = 0) ∧
      ∀ x > 0, ∀ y > 0, (∀ e, s.eta x y = .ok e → e < s.etaInf) →
        ∃ Ux Vy Uyy Ex, HasDerivAt (fun x => U x y) Ux x ∧ HasDerivAt (fun y => U x y) (Uy x y) y ∧ HasDerivAt (fun y => V x y) Vy y ∧
          HasDerivAt (fun y => Uy x y) Uyy y ∧ HasDerivAt E Ex x ∧
          Ux + Vy = 0 ∧ U x y * Ux + V x y * Uy x y = E x * Ex + s.nuRef * Uyy := by
  have hs := reached_inRange _ h.current.reached
  obtain ⟨sol, hf, hx, -⟩ := h.equation hp
  refine ⟨ue s, fun x y => ue s x * (sol (y * gg s x)).2.1, fun x y => -(s.nuRef * gg s x * ((sol (y * gg s x)).1 +
    (s.beta - 1) * (y * gg s x) * (sol (y * gg s x)).2.1)), fun x y => ue s x * ((sol (y * gg s x)).2.2 * gg s x),
    fun x hx => ⟨uE_ok hs hb hx, fun y => ⟨?_, ?_⟩⟩, fun x _ => ?_, fun x hx0 y hy hin => ?_⟩
  · simp only [Sim.u, uE_ok hs hb hx, eta_ok hs hb, Sim.fpAt, hf]; rfl
  · simp only [Sim.v, eta_ok hs hb, g_ok hs hb hx, Sim.fAt, Sim.fpAt, hf, hs.alpha, pyDiv, real_eq, real_lit]
    rw [if_neg (by push_cast; exact one_ne_zero)]
    show Except.ok _ = _
    push_cast
    rw [one_mul, div_one]
  · simp [hx.f0, hx.f1]
  · have hu := ue_deriv hs hb hx0
    have hg := gg_deriv hs hb hx0
    have hgp := gg_pos hs hb hx0
    have hsq := gg_sq hs hb hx0
    have hn := hs.nu_pos
    have h2b : (2 - s.beta) ≠ 0 := by linarith
    have hmem : y * gg s x ∈ Ioo 0 s.etaInf := ⟨mul_pos hy hgp, hin _ (eta_ok hs hb x y)⟩
    have h1 := hx.d0 _ hmem
    have h2 := hx.d1 _ hmem
    have h3 := hx.d2 _ hmem
    have e1 : HasDerivAt (fun x => y * gg s x) (y * (gg s x * (s.beta / (2 - s.beta) - 1) / (2 * x))) x := hg.const_mul y
    have e2 : HasDerivAt (fun y => y * gg s x) (gg s x) y := by simpa using (hasDerivAt_id y).mul_const (gg s x)
    have hU := hu.mul (HasDerivAt.comp x h2 e1)
    have hf0 := HasDerivAt.comp y h1 e2
    have hf1 := HasDerivAt.comp y h2 e2
    have hf2 := HasDerivAt.comp y h3 e2
    have hV := ((hf0.add ((e2.const_mul (s.beta - 1)).mul hf1)).const_mul (s.nuRef * gg s x)).neg
    have hUy := hf1.const_mul (ue s x)
    have hUyy := (hf2.mul_const (gg s x)).const_mul (ue s x)
    refine ⟨_, _, _, _, hU, hUy, hV, hUyy, hu, ?_, ?_⟩
    · simp only [Function.comp]
      rw [← hsq]
      field_simp
      ring
    · simp only [Function.comp]
      rw [← hsq]
      generalize (sol (y * gg s x)).1 = a
      generalize (sol (y * gg s x)).2.1 = b
      generalize (sol (y * gg s x)).2.2 = c
      generalize gg s x = g
      field_simp
      ring

/-! ### C91 -/

section stress
variable {s : Sim ℝ}

/-- **C91**, wall shear: the reported `tau_w` is the viscosity times the slope of the reported velocity at the wall. -/
theorem wall_shear (h : CurrentWith ExactIvp s) (hp : 0 < s.etaInf) (hb : s.beta < 2) (rho : ℝ) :
    ∃ U : ℝ → ℝ → ℝ, (∀ x > 0, ∀ y, s.u x y = .ok (U x y)) ∧
      ∀ x > 0, ∃ d, HasDerivWithinAt (fun y => U x y) d (Ici 0) 0 ∧ s.tauW x rho = .ok (rho * s.nuRef * d) := by
  have hs := reached_inRange _ h.current.reached
  obtain ⟨sol, hf, hx, hsol⟩ := h.equation hp
  refine ⟨fun x y => ue s x * (sol (y * gg s x)).2.1, fun x hx0 y => ?_, fun x hx0 => ⟨ue s x * ((sol 0).2.2 * gg s x), ?_, ?_⟩⟩
  · simp only [Sim.u, uE_ok hs hb hx0, eta_ok hs hb, Sim.fpAt, hf]; rfl
  · have hgp := gg_pos hs hb hx0
    have h1 : HasDerivWithinAt (fun e => (sol e).2.1) (sol 0).2.2 (Ici 0) (0 * gg s x) := by
      rw [zero_mul]
      exact (hsol.parts.2.1 0 (left_mem_Icc.2 hp.le)).mono_of_mem_nhdsWithin (Icc_mem_nhdsGE_of_mem ⟨le_rfl, hp⟩)
    have e2 : HasDerivWithinAt (fun y => y * gg s x) (gg s x) (Ici 0) 0 := by
      simpa using ((hasDerivAt_id (0:ℝ)).mul_const (gg s x)).hasDerivWithinAt
    exact (HasDerivWithinAt.comp 0 h1 e2 fun y hy => mul_nonneg hy hgp.le).const_mul (ue s x)
  · simp only [Sim.tauW, uE_ok hs hb hx0, g_ok hs hb hx0, Sim.fwPp, hf, real_lit]
    show Except.ok _ = _
    push_cast
    congr 1
    ring

/-- Multiplying the equation by `f'` and integrating. -/
theorem dissipation_identity {beta L : ℝ} {sol : ℝ → V3 ℝ} (hL : 0 ≤ L) (h : ExactOn 1 beta sol L) :
    ∫ e in (0:ℝ)..L, (sol e).2.2 ^ 2 = 1/2 * (1 + 2 * beta) * (∫ e in (0:ℝ)..L, 2 * (sol e).1 * (sol e).2.1 * (sol e).2.2) +
      (sol L).2.1 * (sol L).2.2 + beta * (sol L).1 * (1 - (sol L).2.1 ^ 2) := by
  have c0 := h.c0
  have c1 := h.c1
  have c2 := h.c2
  have h1 : ∫ e in (0:ℝ)..L, ((sol e).2.2 ^ 2 - 1/2 * (1 + 2 * beta) * (2 * (sol e).1 * (sol e).2.1 * (sol e).2.2)) =
      ((sol L).2.1 * (sol L).2.2 + beta * (sol L).1 * (1 - (sol L).2.1 ^ 2)) - ((sol 0).2.1 * (sol 0).2.2 + beta * (sol 0).1 * (1 - (sol 0).2.1 ^ 2)) := by
    refine ftc (g := fun e => (sol e).2.1 * (sol e).2.2 + beta * (sol e).1 * (1 - (sol e).2.1 ^ 2)) hL ?_ (fun e he => ?_) ?_
    · exact (c1.mul c2).add ((continuousOn_const.mul c0).mul (continuousOn_const.sub (c1.pow 2)))
    · refine (((h.d1 e he).mul (h.d2 e he)).add (((h.d0 e he).const_mul beta).mul (((h.d1 e he).pow 2).const_sub 1))).congr_deriv ?_
      simp only [Pi.pow_apply, Pi.mul_apply]
      push_cast
      ring
    · exact (c2.pow 2).sub (continuousOn_const.mul (((continuousOn_const.mul c0).mul c1).mul c2))
  rw [h.f0, h.f1, intervalIntegral.integral_sub, intervalIntegral.integral_const_mul] at h1
  · linarith
  · exact ContinuousOn.intervalIntegrable (by rw [uIcc_of_le hL]; exact c2.pow 2)
  · exact ContinuousOn.intervalIntegrable (by rw [uIcc_of_le hL]; exact continuousOn_const.mul (((continuousOn_const.mul c0).mul c1).mul c2))

/-- What an object answered by an exact integrator and an exact quadrature stores. -/
theorem CurrentWith.stored (h : CurrentWith (fun t => ExactIvp t ∧ ExactQuad t) s) (hp : 0 < s.etaInf) :
    ∃ sol, s.f = some sol ∧ ExactOn 1 s.beta sol s.etaInf ∧ s.etaD = intD sol s.etaInf ∧
      s.etaM * (1 + s.beta) = intM sol s.etaInf * (1 + s.beta) + ((sol s.etaInf).2.2 - (sol s.etaInf).1 * (1 - (sol s.etaInf).2.1)) ∧
      s.etaK = ∫ e in (0:ℝ)..s.etaInf, 2 * (sol e).1 * (sol e).2.1 * (sol e).2.2 := by
  have hs := reached_inRange _ h.current.reached
  obtain ⟨sol, hf, hx, -⟩ := (h.mono fun _ q => q.1).equation hp
  have hk := induct (P := fun s => ∃ sol, s.f = some sol ∧ s.etaK = ∫ e in (0:ℝ)..s.etaInf, 2 * (sol e).1 * (sol e).2.1 * (sol e).2.2)
    (fun s t e fw hQ _ _ hok => by
      obtain ⟨sol, h1, -, -, -, h5⟩ := set_stored s t e fw hok hQ.2
      exact ⟨sol, h1, h5⟩) (fun s u h => h) (fun s u h => h) h
  obtain ⟨sol', hf', hk⟩ := hk
  rw [hf] at hf'
  cases hf'
  obtain ⟨sol', hf', hd, hm⟩ := h.current.consistent
  rw [hf] at hf'
  cases hf'
  have hD : s.etaD = intD sol s.etaInf := hd.trans (intD_eq hp.le hx).symm
  refine ⟨sol, hf, hx, hD, ?_, hk⟩
  have h1b : s.alpha + s.beta ≠ 0 := by have := hs.alpha; have := hs.beta_lo; linarith
  simp only [pyDiv] at hm
  rw [if_neg (by rw [real_eq, real_lit]; push_cast; exact h1b)] at hm
  have hM := intM_eq hp.le hx
  have e : s.etaM * (1 + s.beta) = (sol 0).2.2 - s.beta * s.etaD := by
    rw [← Except.ok.inj hm, ← hs.alpha, div_mul_cancel₀ _ h1b, Sim.fwPp, hf]
    simp
  rw [e, hD]
  linarith

/-- **C91**: for an object answered by an exact integrator and quadrature whose end conditions hold to within `tol`, the reported thicknesses and
the dissipation are the integrals of the reported velocity over the layer `[0, Y]`, the displacement thickness exactly and the others up to a small
multiple of `tol`. `c` is the value of `f` at `eta_inf`. -/
theorem layer_integrals (h : CurrentWith (fun t => ExactIvp t ∧ ExactQuad t) s) (hp : 0 < s.etaInf) (hb : s.beta < 2) (rho tol c p q : ℝ)
    (hc : s.fAt s.etaInf = .ok c) (hp1 : s.fpAt s.etaInf = .ok p) (hq1 : s.fppAt s.etaInf = .ok q) (ht1 : |1 - p| ≤ tol) (ht2 : |q| ≤ tol) :
    ∃ (E g : ℝ → ℝ) (U Uy : ℝ → ℝ → ℝ), (∀ x > 0, 0 < g x ∧ s.g x = .ok (g x) ∧ s.uE x = .ok (E x) ∧ ∀ y, s.u x y = .ok (U x y)) ∧
      (∀ x > 0, ∀ y ∈ Ioo 0 (s.etaInf / g x), HasDerivAt (fun y => U x y) (Uy x y) y) ∧
      ∀ x > 0, ∃ d m k D, s.deltaD x = .ok d ∧ s.deltaM x = .ok m ∧ s.deltaK x = .ok k ∧ s.dissipation x rho = .ok D ∧
        d = (∫ y in (0:ℝ)..s.etaInf / g x, (1 - U x y / E x)) ∧
        |m - ∫ y in (0:ℝ)..s.etaInf / g x, U x y / E x * (1 - U x y / E x)| ≤ (1 + |c|) * tol / (1 + s.beta) / g x ∧
        |k - ∫ y in (0:ℝ)..s.etaInf / g x, U x y / E x * (1 - (U x y / E x) ^ 2)| ≤ |c| * ((2 + tol) * tol) / g x ∧
        |D - ∫ y in (0:ℝ)..s.etaInf / g x, rho * s.nuRef * Uy x y ^ 2| ≤
          |rho| * s.nuRef * g x * E x ^ 2 * ((1 + tol) * tol + |s.beta| * |c| * ((2 + tol) * tol)) := by
  have hs := reached_inRange _ h.current.reached
  have hn := hs.nu_pos
  have h1b : 0 < 1 + s.beta := by have := hs.beta_lo; linarith
  obtain ⟨sol, hf, hx, hD, hM, hK⟩ := h.stored hp
  simp only [Sim.fAt, Sim.fpAt, Sim.fppAt, hf, Except.ok.injEq] at hc hp1 hq1
  have htol : 0 ≤ tol := (abs_nonneg _).trans ht1
  have hp2 : |p| ≤ 1 + tol := by
    have := abs_sub_abs_le_abs_sub p 1
    rw [abs_one, abs_sub_comm] at this
    linarith
  have hpp : |1 - p ^ 2| ≤ (2 + tol) * tol := by
    rw [show 1 - p ^ 2 = (1 + p) * (1 - p) by ring, abs_mul]
    have : |1 + p| ≤ 2 + tol := by
      have := abs_add_le 1 p
      rw [abs_one] at this
      linarith
    gcongr
  refine ⟨ue s, gg s, fun x y => ue s x * (sol (y * gg s x)).2.1, fun x y => ue s x * ((sol (y * gg s x)).2.2 * gg s x),
    fun x hx0 => ⟨gg_pos hs hb hx0, g_ok hs hb hx0, uE_ok hs hb hx0, fun y => ?_⟩, fun x hx0 y hy => ?_, fun x hx0 => ?_⟩
  · simp only [Sim.u, uE_ok hs hb hx0, eta_ok hs hb, Sim.fpAt, hf]; rfl
  · have hgp := gg_pos hs hb hx0
    have hmem : y * gg s x ∈ Ioo 0 s.etaInf := ⟨mul_pos hy.1 hgp, (lt_div_iff₀ hgp).1 hy.2⟩
    have e2 : HasDerivAt (fun y => y * gg s x) (gg s x) y := by simpa using (hasDerivAt_id y).mul_const (gg s x)
    exact (HasDerivAt.comp y (hx.d1 _ hmem) e2).const_mul (ue s x)
  · have hgp := gg_pos hs hb hx0
    have hup := ue_pos hs hb hx0
    have hr : ∀ y, ue s x * (sol (y * gg s x)).2.1 / ue s x = (sol (y * gg s x)).2.1 := fun y => by field_simp
    have sub : ∀ F : ℝ → ℝ, ∫ y in (0:ℝ)..s.etaInf / gg s x, F (y * gg s x) = (∫ e in (0:ℝ)..s.etaInf, F e) / gg s x := fun F => by
      rw [intervalIntegral.integral_comp_mul_right F hgp.ne', zero_mul, div_mul_cancel₀ _ hgp.ne', smul_eq_mul, inv_mul_eq_div]
    refine ⟨s.etaD / gg s x, s.etaM / gg s x, s.etaK / gg s x, rho * s.nuRef * gg s x * (ue s x * ue s x) * (1/2 * (1 + 2 * s.beta) * s.etaK),
      ?_, ?_, ?_, ?_, ?_, ?_, ?_, ?_⟩
    · simp only [Sim.deltaD, g_ok hs hb hx0]; rfl
    · simp only [Sim.deltaM, g_ok hs hb hx0]; rfl
    · simp only [Sim.deltaK, g_ok hs hb hx0]; rfl
    · simp only [Sim.dissipation, g_ok hs hb hx0, uE_ok hs hb hx0, hs.alpha, real_lit]
      show Except.ok _ = _
      push_cast
      rfl
    · simp only [hr]
      rw [sub fun e => 1 - (sol e).2.1, hD, intD]
    · simp only [hr]
      rw [sub fun e => (sol e).2.1 * (1 - (sol e).2.1), ← sub_div, abs_div, abs_of_pos hgp]
      refine div_le_div_of_nonneg_right ?_ hgp.le
      rw [← intM, le_div_iff₀ h1b, ← abs_of_pos h1b, ← abs_mul, sub_mul, hM, add_sub_cancel_left, hc, hp1, hq1]
      calc |q - c * (1 - p)| ≤ |q| + |c * (1 - p)| := abs_sub _ _
        _ = |q| + |c| * |1 - p| := by rw [abs_mul]
        _ ≤ tol + |c| * tol := by gcongr
        _ = _ := by ring
    · simp only [hr]
      rw [sub fun e => (sol e).2.1 * (1 - (sol e).2.1 ^ 2), ← sub_div, abs_div, abs_of_pos hgp]
      refine div_le_div_of_nonneg_right ?_ hgp.le
      have := intK_eq hp.le hx
      rw [← intK, hK, this, sub_sub_cancel_left, abs_neg, hc, hp1, abs_mul]
      gcongr
    · have e : ∀ y, rho * s.nuRef * (ue s x * ((sol (y * gg s x)).2.2 * gg s x)) ^ 2 =
          rho * s.nuRef * ue s x ^ 2 * gg s x ^ 2 * (sol (y * gg s x)).2.2 ^ 2 := fun y => by ring
      simp only [e]
      rw [intervalIntegral.integral_const_mul, sub fun e => (sol e).2.2 ^ 2, dissipation_identity hp.le hx, ← hK, hc, hp1, hq1]
      have e1 : rho * s.nuRef * gg s x * (ue s x * ue s x) * (1/2 * (1 + 2 * s.beta) * s.etaK) -
          rho * s.nuRef * ue s x ^ 2 * gg s x ^ 2 * ((1/2 * (1 + 2 * s.beta) * s.etaK + p * q + s.beta * c * (1 - p ^ 2)) / gg s x) =
          -(rho * s.nuRef * gg s x * ue s x ^ 2 * (p * q + s.beta * c * (1 - p ^ 2))) := by
        field_simp
        ring
      rw [e1, abs_neg, abs_mul, abs_mul, abs_mul, abs_mul, abs_of_pos hn, abs_of_pos hgp, abs_of_nonneg (sq_nonneg (ue s x))]
      have e2 : |p * q + s.beta * c * (1 - p ^ 2)| ≤ (1 + tol) * tol + |s.beta| * |c| * ((2 + tol) * tol) := by
        refine (abs_add_le _ _).trans ?_
        rw [abs_mul, abs_mul, abs_mul]
        gcongr
      gcongr

/-- Non-vacuity of C90 and C91: objects for every admissible `beta`. -/
example : ∃ s : Sim ℝ, CurrentWith (fun t => ExactIvp t ∧ ExactQuad t) s ∧ s.beta = 1/2 ∧ 0 < s.etaInf := exact_object (by norm_num) (by norm_num)

end stress

end IBL.Analytic
