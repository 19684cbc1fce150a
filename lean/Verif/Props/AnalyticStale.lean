import Verif.Props.Analytic
/-!
C108: what a similarity object answers after its last computation failed, in any arithmetic.

`_calculate_solution` (_analytic_2d_base.py 660-672) drops the profile when the final integration fails. The profile queries then refuse;
the thicknesses and the wall shear stress do not.
-/
set_option linter.unusedSectionVars false
namespace IBL.Analytic
variable {α : Type} [Add α] [Sub α] [Mul α] [Div α] [Neg α] [PyLit α] [PyCmp α] [PySpecial α] [PySqrt α] [PyPow α]

/-- The queries about the solution at one point. -/
inductive Query (α : Type)
  | f (eta : α)
  | fp (eta : α)
  | fpp (eta : α)
  | u (x y : α)
  | v (x y : α)
  | vE (x : α)
  | deltaD (x : α)
  | deltaM (x : α)
  | deltaK (x : α)
  | deltaS (x : α)
  | shapeD (x : α)
  | shapeK (x : α)
  | tauW (x rho : α)
  | dissipation (x rho : α)

/-- What a query gives. -/
def Query.ask (s : Sim α) : Query α → Except Exc α
  | .f e => s.fAt e
  | .fp e => s.fpAt e
  | .fpp e => s.fppAt e
  | .u x y => s.u x y
  | .v x y => s.v x y
  | .vE x => s.vE x
  | .deltaD x => s.deltaD x
  | .deltaM x => s.deltaM x
  | .deltaK x => s.deltaK x
  | .deltaS x => s.deltaS x
  | .shapeD x => s.shapeD x
  | .shapeK x => s.shapeK x
  | .tauW x r => s.tauW x r
  | .dissipation x r => s.dissipation x r

/-- The full property: an object without a profile answers no query about the solution. -/
def NoProfileRefuses (α : Type) [Add α] [Sub α] [Mul α] [Div α] [Neg α] [PyLit α] [PyCmp α] [PySpecial α] [PySqrt α] [PyPow α] : Prop :=
  ∀ (s : Sim α) (q : Query α), Reached s → s.f = none → ∃ e, q.ask s = .error e

/-- **C108** (what holds): without a profile `f`, `f_p` and `f_pp` raise `ValueError`, and the velocity components raise. -/
theorem no_profile_refuses_partial (s : Sim α) (h : s.f = none) :
    (∀ eta, s.fAt eta = .error .valueError ∧ s.fpAt eta = .error .valueError ∧ s.fppAt eta = .error .valueError) ∧
      ∀ x y, (∃ e, s.u x y = .error e) ∧ ∃ e, s.v x y = .error e := by
  refine ⟨fun eta => ?_, fun x y => ⟨?_, ?_⟩⟩
  · simp [Sim.fAt, Sim.fpAt, Sim.fppAt, h]
  · simp only [Sim.u, Sim.fpAt, h, bind, Except.bind]
    cases s.uE x with
    | error e => exact ⟨e, rfl⟩
    | ok a =>
      cases s.eta x y with
      | error e => exact ⟨e, rfl⟩
      | ok b => exact ⟨_, rfl⟩
  · simp only [Sim.v, Sim.fAt, h, bind, Except.bind]
    cases s.eta x y with
    | error e => exact ⟨e, rfl⟩
    | ok a =>
      cases s.g x with
      | error e => exact ⟨e, rfl⟩
      | ok b => exact ⟨_, rfl⟩

/-- **C108** (when it can happen): a computation that returns normally has left a profile, whatever was there before. -/
theorem success_has_profile (s : Sim α) (t : Tools α) (e fw : Option α) (h : (s.setSolutionParameters t e fw).2 = .ok ()) :
    ∃ sol, (s.setSolutionParameters t e fw).1.f = some sol := by
  have key : ∀ (s' : Sim α) (sol : α → V3 α), s'.f = some sol → (s'.thicknesses t sol).1.f = some sol := by
    intro s' sol hs
    unfold Sim.thicknesses
    dsimp only
    repeat' (first | exact hs | split)
  unfold Sim.setSolutionParameters at h ⊢
  split at h
  · cases h
  · rename_i h1
    rw [if_neg h1]
    split at h
    · cases h
    · rename_i h2
      rw [if_neg h2]
      split at h
      · cases h
      · rename_i s' hc
        split at h
        · cases h
        · rename_i sol hs
          exact ⟨sol, by simpa only [hc, hs] using key s' sol hs⟩

/-- The computation can succeed. -/
example : ∃ s : Sim ℝ, ∃ sol, s.f = some sol := ⟨sample, _, rfl⟩

/-- **C108** (the rest is stale): when `set_solution_parameters` has left the object without a profile, every query that does not read the
profile gives exactly what it gave before the call. -/
theorem no_profile_is_stale (s : Sim α) (t : Tools α) (e fw : Option α) (h : (s.setSolutionParameters t e fw).1.f = none) :
    let s' := (s.setSolutionParameters t e fw).1
    ∀ x, s'.deltaD x = s.deltaD x ∧ s'.deltaM x = s.deltaM x ∧ s'.deltaK x = s.deltaK x ∧ s'.deltaS x = s.deltaS x ∧
      s'.shapeD x = s.shapeD x ∧ s'.shapeK x = s.shapeK x ∧ s'.vE x = s.vE x ∧ ∀ rho, s'.dissipation x rho = s.dissipation x rho := by
  have key : ∀ (s' : Sim α) (sol : α → V3 α), s'.f = some sol → (s'.thicknesses t sol).1.f = some sol := by
    intro s' sol hs
    unfold Sim.thicknesses
    dsimp only
    repeat' (first | exact hs | split)
  have calc_eq : ∃ f' e', (s.calculateSolution t fw e).1 = { s with f := f', etaInf := e' } := by
    unfold Sim.calculateSolution
    dsimp only
    repeat' (first | exact ⟨s.f, s.etaInf, rfl⟩ | exact ⟨_, _, rfl⟩ | split | dsimp only)
  have hst : ∃ f' e', (s.setSolutionParameters t e fw).1 = { s with f := f', etaInf := e' } := by
    obtain ⟨f', e', hc⟩ := calc_eq
    unfold Sim.setSolutionParameters at h ⊢
    split
    · exact ⟨s.f, s.etaInf, rfl⟩
    · rename_i h1
      rw [if_neg h1] at h
      split
      · exact ⟨s.f, s.etaInf, rfl⟩
      · rename_i h2
        rw [if_neg h2] at h
        split
        · rename_i hq
          exact ⟨f', e', by rw [hq] at hc; exact hc⟩
        · rename_i s' hq
          rw [hq] at h hc
          dsimp only at h
          split
          · exact ⟨f', e', hc⟩
          · rename_i sol hs
            rw [hs] at h
            dsimp only at h
            rw [key s' sol hs] at h
            cases h
  obtain ⟨f', e', hs⟩ := hst
  intro s' x
  simp only [s', hs]
  exact ⟨rfl, rfl, rfl, rfl, rfl, rfl, rfl, fun _ => rfl⟩

/-- **C108** is false: after a failed `set_solution_parameters` the object has no profile but still gives the displacement thickness of the
solution that was dropped, and its shape factor. -/
theorem stale_thickness [PySpecial ℝ] :
    let s := (sample.step (.setSolutionParameters failingTools (some 2) (some 1))).1
    (sample.step (.setSolutionParameters failingTools (some 2) (some 1))).2 = .error .valueError ∧ s.f = none ∧
      (∀ x, 0 < x → s.deltaD x = sample.deltaD x ∧ ∃ d, s.deltaD x = .ok d ∧ 0 < d) ∧ ∀ x, s.shapeD x = .ok 1 := by
  refine ⟨failed_set_drops_solution.1, by rw [failed_set_drops_solution.2], fun x hx => ⟨?_, ?_⟩, fun x => ?_⟩
  · rw [failed_set_drops_solution.2]; rfl
  · rw [failed_set_drops_solution.2]
    have hr : InRange ({ sample with etaInf := 2, f := none } : Sim ℝ) := by
      rw [← failed_set_drops_solution.2]
      exact reached_inRange _ (.call _ _ (.falknerSkan _ _ _ _ _ _ _ sample_made))
    have hb : ({ sample with etaInf := 2, f := none } : Sim ℝ).beta < 2 := by simp [sample]
    refine ⟨_, by rw [Sim.deltaD, g_ok hr hb hx]; rfl, div_pos ?_ (gg_pos hr hb hx)⟩
    simp [sample]
  · rw [failed_set_drops_solution.2]
    simp [Sim.shapeD, sample, pyDiv, bind, Except.bind, pure, Except.pure]

theorem no_profile_refuses_fails [PySpecial ℝ] : ¬ NoProfileRefuses ℝ := fun H => by
  have h := stale_thickness
  obtain ⟨e, he⟩ := H _ (.deltaD 1) (.call _ (.setSolutionParameters failingTools (some 2) (some 1)) (.falknerSkan _ _ _ _ _ _ _ sample_made)) h.2.1
  obtain ⟨d, hd, _⟩ := (h.2.2.1 1 one_pos).2
  rw [Query.ask, hd] at he
  cases he

end IBL.Analytic
