import Verif.Props.SeparationExamples
import Mathlib.Order.Interval.Set.UnorderedInterval

/-!
C80 and C81: what the queries after a successful `solve` evaluate. The integrator's event handling and dense output are modelled
(`Model/SolveIvp.lean`), its stepping and its root finder are arbitrary. Forward and backward integration.
-/

namespace IBL
open SolveIvp Fits
set_option linter.unusedSectionVars false

/-! ### Which steps the stored solution consists of -/

section stored
variable {α : Type} [Add α] [Sub α] [Mul α] [Div α] [Neg α] [PyLit α] [PyCmp α] [PySqrt α] [PyPow α]

private theorem last_d (a : α × List α) (l : List (Step α)) : (l.map Step.t).getLastD a.1 = (lastPt a l).1 := by
  induction l generalizing a with
  | nil => rfl
  | cons s l ih => rw [List.map_cons, List.getLastD_cons]; exact ih s.pt

private theorem last_map (a : α × List α) (l : List (Step α)) : (a.1 :: l.map Step.t).getLast? = some (lastPt a l).1 := by
  induction l generalizing a with
  | nil => rfl
  | cons s l ih =>
    rw [List.map_cons, List.getLast?_cons_cons]
    exact ih s.pt

/-- After a successful `solve` the object holds the dense output of the steps up to the one in which the integration ended, and the rest of it
is as it was prepared. The end point is the last accepted point, or the root an event had in the last step. Any arithmetic. -/
theorem solve_stores {o o' o'' : Obj α} {x0 x1 : α} {te : TermArg α} {p : IvpProblem α} (ev : Event α → EvFn α) (stepper : Stepper α)
    (root : RootFinder α) {r : IntegrationResult α} (hp : o.prepare x0 x1 te = (o', .ok p))
    (h : o.solve x0 x1 te (ivp ev stepper root) = (o'', .ok r)) (hok : r.success = true) :
    ∃ used rest, (stepper p).steps = used ++ rest ∧ o'' = { o' with sol := some (denseAt (ascending x0 [r.xEnd]) used) } ∧
      r.fEnd = denseAt (ascending x0 [r.xEnd]) used r.xEnd ∧
      (rest = [] ∧ r.xEnd = (lastPt (x0, p.y0) used).1 ∨
        ∃ pre s e, used = pre ++ [s] ∧ root (fun t => ev e t (s.dense t)) (lastPt (x0, p.y0) pre).1 s.t = .ok r.xEnd) := by
  obtain ⟨rfl, -, hev, -⟩ := prepare_fields hp
  unfold Obj.solve at h
  rw [hp] at h
  simp only [ivp] at h
  rcases hg : evalAll (p.events.map ev) p.x0 p.y0 with e | g
  · rw [hg] at h; cases h
  rw [hg] at h
  simp only at h
  rcases hl : loop root (p.events.map ev) p.x0 g (stepper p).steps with e | ⟨pre, hit⟩
  · rw [hl] at h; cases h
  rw [hl] at h
  obtain ⟨-, q2, q3⟩ := loop_spec root _ (p.x0, p.y0) g _ pre hit (evalAll_ok hg) hl
  cases hit with
  | none =>
    rw [q2 rfl] at h
    dsimp only at h
    rcases he : (stepper p).ending with _ | m | x
    · rw [he] at h
      simp only [evalResult, if_true, last_map (p.x0, p.y0)] at h
      cases h
      have e1 : ascending p.x0 ((stepper p).steps.map Step.t) = ascending p.x0 [(lastPt (p.x0, p.y0) (stepper p).steps).1] := by
        simp only [ascending, last_d (p.x0, p.y0), List.getLastD_cons, List.getLastD_nil]
      refine ⟨(stepper p).steps, [], by simp, ?_, ?_, .inl ⟨rfl, rfl⟩⟩
      · rw [e1]
      · rw [e1]
    · rw [he] at h
      simp [evalResult] at h
      obtain ⟨-, h⟩ := h
      subst h
      cases hok
    · rw [he] at h; cases h
  | some hit =>
    obtain ⟨s, i, t⟩ := hit
    obtain ⟨⟨rest, h1⟩, ⟨e, h2, h3⟩, -⟩ := q3 s i t rfl
    obtain ⟨e0, he0, rfl⟩ : ∃ e0, p.events[i]? = some e0 ∧ ev e0 = e := by
      rw [List.getElem?_map] at h2
      simpa using h2
    have hi : i < p.events.length := (List.getElem?_eq_some_iff.1 he0).1
    simp only [evalResult, if_true, tEvents_fired p.events.length (i, t) hi] at h
    rw [if_neg (by decide), hev, he0] at h
    cases h
    exact ⟨pre ++ [s], rest, by rw [h1]; simp, by rw [← hev], rfl, .inr ⟨pre, s, e0, rfl, h3.2⟩⟩

end stored

/-! ### C80 -/

/-- Consecutive steps lead in one direction and each interpolant takes the accepted states at both ends of its step, as RK45's does. -/
def Marches (forward : Bool) : ℝ × List ℝ → List (Step ℝ) → Prop
  | _, [] => True
  | a, s :: l => (if forward then a.1 < s.t else s.t < a.1) ∧ s.dense a.1 = a.2 ∧ s.dense s.t = s.y ∧ Marches forward s.pt l

/-- `x` is in the step that leads from `a` to `b`, in either direction. -/
def Between (forward : Bool) (a x b : ℝ) : Prop := if forward then a ≤ x ∧ x ≤ b else b ≤ x ∧ x ≤ a

private theorem marches_split {f : Bool} {a : ℝ × List ℝ} {l l' : List (Step ℝ)} (h : Marches f a (l ++ l')) : Marches f a l := by
  induction l generalizing a with
  | nil => trivial
  | cons s l ih => exact ⟨h.1, h.2.1, h.2.2.1, ih h.2.2.2⟩

private theorem dense_first {f : Bool} {a : ℝ × List ℝ} {s : Step ℝ} {l : List (Step ℝ)} {x : ℝ} (hx : Between f a.1 x s.t) :
    denseAt f (s :: l) x = s.dense x := by
  cases l with
  | nil => rfl
  | cons s' l =>
    rw [denseAt, if_pos]
    cases f
    · simp only [Between, if_neg (show ¬ (false = true) by decide)] at hx
      simpa [PyCmp.ge, real_le] using hx.1
    · simp only [Between, if_true] at hx
      simpa [real_le] using hx.2

/-- The end of the steps is not before their start. -/
private theorem last_beyond {f : Bool} {a : ℝ × List ℝ} {l : List (Step ℝ)} (h : Marches f a l) :
    if f then a.1 ≤ (lastPt a l).1 ∧ (l ≠ [] → a.1 < (lastPt a l).1) else (lastPt a l).1 ≤ a.1 ∧ (l ≠ [] → (lastPt a l).1 < a.1) := by
  induction l generalizing a with
  | nil => cases f <;> simp [lastPt]
  | cons s l ih =>
    have h1 := h.1
    have h2 := ih h.2.2.2
    cases f
    · simp only [Step.pt, if_neg (show ¬ (false = true) by decide)] at h1 h2 ⊢
      have := h2.1
      exact ⟨by rw [lastPt]; exact le_trans this h1.le, fun _ => by rw [lastPt]; exact lt_of_le_of_lt this h1⟩
    · simp only [Step.pt, if_true] at h1 h2 ⊢
      have := h2.1
      exact ⟨by rw [lastPt]; exact le_trans h1.le this, fun _ => by rw [lastPt]; exact lt_of_lt_of_le h1 this⟩

/-- In the range of a step the dense output is that step's interpolant. -/
private theorem dense_in_step {f : Bool} {a : ℝ × List ℝ} {pre post : List (Step ℝ)} {s : Step ℝ} (h : Marches f a (pre ++ s :: post)) {x : ℝ}
    (hx : Between f (lastPt a pre).1 x s.t) : denseAt f (pre ++ s :: post) x = s.dense x := by
  induction pre generalizing a with
  | nil => exact dense_first hx
  | cons q pre ih =>
    have hih := ih h.2.2.2 hx
    have hb := last_beyond (marches_split (l := pre) (l' := s :: post) h.2.2.2)
    have e : ∃ q' l', pre ++ s :: post = q' :: l' := by cases pre <;> simp
    obtain ⟨q', l', e⟩ := e
    rw [List.cons_append, e, denseAt, ← e]
    by_cases hc : (if f = true then PyCmp.le x q.t else PyCmp.ge x q.t) = true
    · rw [if_pos hc]
      -- `x` is the common point of the two steps
      have hxe : x = q.t ∧ pre = [] := by
        cases f
        · simp only [PyCmp.ge, real_le, if_neg (show ¬ (false = true) by decide), Between, Step.pt, lastPt] at hc hx hb
          refine ⟨le_antisymm (hx.2.trans hb.1) hc, ?_⟩
          by_contra hne
          have := hb.2 hne
          linarith [hx.2]
        · simp only [real_le, if_true, Between, Step.pt, lastPt] at hc hx hb
          refine ⟨le_antisymm hc (hb.1.trans hx.1), ?_⟩
          by_contra hne
          have := hb.2 hne
          linarith [hx.1]
      obtain ⟨rfl, rfl⟩ := hxe
      rw [h.2.2.1]
      exact h.2.2.2.2.1.symm
    · rw [if_neg hc]; exact hih

/-- **C80**: after a successful `solve` the stored solution takes the start vector at the start, the accepted state at every accepted point up to
the end, and inside every step the values of that step's interpolant; the reported final state is its value at the reported end, which lies
in the last step. Forward and backward. -/
theorem stored_solution {o o' o'' : Obj ℝ} {x0 x1 : ℝ} {te : TermArg ℝ} {p : IvpProblem ℝ} (ev : Event ℝ → EvFn ℝ) (stepper : Stepper ℝ)
    (root : RootFinder ℝ) {r : IntegrationResult ℝ} (hp : o.prepare x0 x1 te = (o', .ok p))
    (h : o.solve x0 x1 te (ivp ev stepper root) = (o'', .ok r)) (hok : r.success = true) (f : Bool)
    (hm : Marches f (x0, p.y0) (stepper p).steps) (hne : (stepper p).steps ≠ []) (hroot : ∀ g a b x, root g a b = .ok x → x ∈ Set.uIcc a b) :
    ∃ used rest, (stepper p).steps = used ++ rest ∧ used ≠ [] ∧
      o''.state x0 = .ok p.y0 ∧ (∀ s ∈ used, o''.state s.t = .ok s.y) ∧
      (∀ pre s post, used = pre ++ s :: post → ∀ x, Between f (lastPt (x0, p.y0) pre).1 x s.t → o''.state x = .ok (s.dense x)) ∧
      o''.state r.xEnd = .ok r.fEnd ∧
      (∃ pre s, used = pre ++ [s] ∧ Between f (lastPt (x0, p.y0) pre).1 r.xEnd s.t) := by
  obtain ⟨used, rest, h1, h2, h3, h4⟩ := solve_stores ev stepper root hp h hok
  have hmu : Marches f (x0, p.y0) used := marches_split (by rw [← h1]; exact hm)
  have hun : used ≠ [] := by
    rcases h4 with ⟨hr, -⟩ | ⟨pre, s, e, rfl, -⟩
    · rw [hr, List.append_nil] at h1; rw [← h1]; exact hne
    · simp
  have hend : ∃ pre s, used = pre ++ [s] ∧ Between f (lastPt (x0, p.y0) pre).1 r.xEnd s.t := by
    have hlast : ∀ pre s, lastPt (x0, p.y0) (pre ++ [s]) = s.pt := fun pre s => by
      generalize (x0, p.y0) = a
      induction pre generalizing a with
      | nil => rfl
      | cons q pre ih => exact ih _
    have hstep : ∀ pre s, used = pre ++ [s] → if f then (lastPt (x0, p.y0) pre).1 < s.t else s.t < (lastPt (x0, p.y0) pre).1 := by
      intro pre s e
      rw [e] at hmu
      generalize (x0, p.y0) = a at hmu
      clear e
      induction pre generalizing a with
      | nil => exact hmu.1
      | cons q pre ih => exact ih _ hmu.2.2.2
    rcases h4 with ⟨-, hx⟩ | ⟨pre, s, e, hu, hx⟩
    · obtain ⟨s, hs⟩ : ∃ s, used = used.dropLast ++ [s] := ⟨used.getLast hun, (List.dropLast_append_getLast hun).symm⟩
      refine ⟨used.dropLast, s, hs, ?_⟩
      have h5 := hstep _ _ hs
      rw [hs, hlast] at hx
      rw [hx]
      cases f
      · simp only [Between, if_neg (show ¬ (false = true) by decide)] at h5 ⊢; exact ⟨le_refl _, h5.le⟩
      · simp only [Between, if_true] at h5 ⊢; exact ⟨h5.le, le_refl _⟩
    · refine ⟨pre, s, hu, ?_⟩
      have h5 := hstep _ _ hu
      have h6 := hroot _ _ _ _ hx
      cases f
      · simp only [Between, if_neg (show ¬ (false = true) by decide)] at h5 ⊢
        rw [Set.uIcc_of_ge h5.le] at h6; exact h6
      · simp only [Between, if_true] at h5 ⊢
        rw [Set.uIcc_of_le h5.le] at h6; exact h6
  -- the direction scipy infers is the direction of the steps, or there is only one step
  have hdir : ∀ x, denseAt (ascending x0 [r.xEnd]) used x = denseAt f used x := by
    obtain ⟨pre, s, hu, hb⟩ := hend
    rcases pre.eq_nil_or_concat with rfl | ⟨pre', q, rfl⟩
    · intro x; rw [hu]; rfl
    · have hmp : Marches f (x0, p.y0) (pre'.concat q) := marches_split (by rw [← hu]; exact hmu)
      have h5 := last_beyond hmp
      have : ascending x0 [r.xEnd] = f := by
        cases f
        · simp only [Between, if_neg (show ¬ (false = true) by decide)] at hb h5
          have := h5.2 (by simp)
          rw [Bool.eq_false_iff]
          show ¬ (PyCmp.le x0 r.xEnd = true)
          rw [real_le, not_le]
          linarith [hb.2]
        · simp only [Between, if_true] at hb h5
          have := h5.2 (by simp)
          show PyCmp.le x0 r.xEnd = true
          rw [real_le]
          linarith [hb.1]
      intro x; rw [this]
  have hstate : ∀ x, o''.state x = .ok (denseAt f used x) := fun x => by
    rw [h2]; simp only [Obj.state, hdir]
  have hin : ∀ pre s post, used = pre ++ s :: post → ∀ x, Between f (lastPt (x0, p.y0) pre).1 x s.t → o''.state x = .ok (s.dense x) := by
    intro pre s post e x hx
    rw [hstate, e, dense_in_step (by rw [← e]; exact hmu) hx]
  refine ⟨used, rest, h1, hun, ?_, ?_, hin, ?_, hend⟩
  · obtain ⟨s, l, rfl⟩ := List.exists_cons_of_ne_nil hun
    have hd := hmu.1
    rw [hin [] s l rfl x0 (by cases f <;> simp only [Between, lastPt, if_true, if_neg (show ¬ (false = true) by decide)] at hd ⊢
                              · exact ⟨hd.le, le_refl _⟩
                              · exact ⟨le_refl _, hd.le⟩), hmu.2.1]
  · intro s hs
    obtain ⟨pre, post, e⟩ := List.append_of_mem hs
    have hmm : Marches f (x0, p.y0) (pre ++ s :: post) := by rw [← e]; exact hmu
    have key : ∀ a, Marches f a (pre ++ s :: post) → (if f then (lastPt a pre).1 < s.t else s.t < (lastPt a pre).1) ∧ s.dense s.t = s.y := by
      clear hmm e
      induction pre with
      | nil => exact fun a h => ⟨h.1, h.2.2.1⟩
      | cons q pre ih => exact fun a h => ih _ h.2.2.2
    obtain ⟨k1, k2⟩ := key _ hmm
    rw [hin pre s post e s.t (by cases f <;> simp only [Between, if_true, if_neg (show ¬ (false = true) by decide)] at k1 ⊢
                                 · exact ⟨le_refl _, k1.le⟩
                                 · exact ⟨k1.le, le_refl _⟩), k2]
  · rw [h3, hdir, hstate]

private theorem prepare_start {o o' : Obj ℝ} {x0 x1 : ℝ} {te : TermArg ℝ} {p : IvpProblem ℝ} (h : o.prepare x0 x1 te = (o', .ok p)) :
    o'.startVector = .ok p.y0 ∧ o'.cls = o.cls ∧ o'.nu = o.nu := by
  unfold Obj.prepare at h
  split at h
  · cases h
  · dsimp only at h
    split at h
    · cases h
    · split at h
      · cases h
      · rename_i hs
        cases h
        exact ⟨hs, rfl, rfl⟩

/-- **C80**, the start: the first values that can be queried are those of the initial condition `solve` used. -/
theorem start_queried {o o' o'' : Obj ℝ} {x0 x1 : ℝ} {te : TermArg ℝ} {p : IvpProblem ℝ} (ev : Event ℝ → EvFn ℝ) (stepper : Stepper ℝ)
    (root : RootFinder ℝ) {r : IntegrationResult ℝ} (hp : o.prepare x0 x1 te = (o', .ok p))
    (h : o.solve x0 x1 te (ivp ev stepper root) = (o'', .ok r)) (hok : r.success = true) (f : Bool)
    (hm : Marches f (x0, p.y0) (stepper p).steps) (hne : (stepper p).steps ≠ []) (hroot : ∀ g a b x, root g a b = .ok x → x ∈ Set.uIcc a b)
    (hnu : 0 < o.nu) (d : ℝ) (hd : o'.ic.deltaM = .ok d) (hd0 : 0 ≤ d) :
    o''.deltaM x0 = .ok d ∧ (o.cls = .head → ∀ H, o'.ic.shapeD = .ok H → o''.shapeD x0 = .ok H) := by
  obtain ⟨used, rest, -, -, hs, -⟩ := stored_solution ev stepper root hp h hok f hm hne hroot
  obtain ⟨_, _, _, h2, _⟩ := solve_stores ev stepper root hp h hok
  obtain ⟨hv, hc, hn⟩ := prepare_start hp
  have hc'' : o''.cls = o.cls := by rw [h2, ← hc]
  have hn'' : o''.nu = o.nu := by rw [h2, ← hn]
  rcases hcl : o.cls with _ | _ | _
  all_goals rw [hcl] at hc hc''
  all_goals simp only [Obj.startVector, hc, hd, pyDiv, bind, Except.bind, pure, Except.pure] at hv
  · rw [hn, if_neg (by simp; exact hnu.ne')] at hv
    simp only at hv
    refine ⟨?_, fun h => nomatch h⟩
    rw [← Except.ok.inj hv] at hs
    simp only [Obj.deltaM, hc'', Obj.comp, hs, bind, Except.bind, pure, Except.pure, List.getElem?_cons_zero, hn'', real_sqrt]
    rw [div_mul_cancel₀ _ hnu.ne', Real.sqrt_mul_self hd0]
  · rw [hn, if_neg (by simp; exact hnu.ne')] at hv
    simp only at hv
    refine ⟨?_, fun h => nomatch h⟩
    rw [← Except.ok.inj hv] at hs
    simp only [Obj.deltaM, hc'', Obj.comp, hs, bind, Except.bind, pure, Except.pure, List.getElem?_cons_zero, hn'', real_sqrt]
    rw [div_mul_cancel₀ _ hnu.ne', Real.sqrt_mul_self hd0]
  · rcases hH : o'.ic.shapeD with e | H
    · rw [hH] at hv; cases hv
    rw [hH] at hv
    simp only at hv
    rw [← Except.ok.inj hv] at hs
    refine ⟨by simp [Obj.deltaM, hc'', Obj.comp, hs, bind, Except.bind, pure, Except.pure], fun _ H' h' => ?_⟩
    rw [← Except.ok.inj h']
    simp [Obj.shapeD, hc'', Obj.comp, hs, bind, Except.bind, pure, Except.pure]

/-! ### C81 -/

/-- The queries of `o''` at `x` are refused. -/
def Refuses (o'' : Obj ℝ) (x : ℝ) : Prop := ∃ e, o''.deltaM x = .error e

/-- **C81**, full statement: outside the range from the start to the reported end, queries raise. -/
def OutOfRangeRefused : Prop :=
  ∀ (o o' o'' : Obj ℝ) (x0 x1 : ℝ) (p : IvpProblem ℝ) (stepper : Stepper ℝ) (root : RootFinder ℝ) (r : IntegrationResult ℝ),
    o.prepare x0 x1 .none = (o', .ok p) → o.solve x0 x1 .none (ivp o.eventValue stepper root) = (o'', .ok r) → r.success = true →
    Marches true (x0, p.y0) (stepper p).steps → (stepper p).steps ≠ [] → BracketRoot root → ∀ x, x < x0 ∨ r.xEnd < x → Refuses o'' x

private theorem dense_after {f : Bool} {a : ℝ × List ℝ} {pre : List (Step ℝ)} {s : Step ℝ} (h : Marches f a (pre ++ [s])) {x : ℝ}
    (hx : if f then (lastPt a pre).1 < x else x < (lastPt a pre).1) : denseAt f (pre ++ [s]) x = s.dense x := by
  induction pre generalizing a with
  | nil => rfl
  | cons q pre ih =>
    have hb := last_beyond (marches_split (l := pre) (l' := [s]) h.2.2.2)
    have e : ∃ q' l', pre ++ [s] = q' :: l' := by cases pre <;> simp
    obtain ⟨q', l', e⟩ := e
    have hih := ih h.2.2.2 hx
    rw [List.cons_append, e, denseAt, ← e, if_neg, hih]
    cases f
    · simp only [PyCmp.ge, real_le, if_neg (show ¬ (false = true) by decide), Step.pt, lastPt] at hx hb ⊢
      linarith [hb.1]
    · simp only [real_le, if_true, Step.pt, lastPt] at hx hb ⊢
      linarith [hb.1]

/-- **C81**, what happens instead: after a successful forward `solve` every query is answered; left of the start from the first step's
interpolant, right of the last but one accepted point (in particular beyond the reported end) from the last step's. -/
theorem out_of_range_partial {o o' o'' : Obj ℝ} {x0 x1 : ℝ} {te : TermArg ℝ} {p : IvpProblem ℝ} (ev : Event ℝ → EvFn ℝ) (stepper : Stepper ℝ)
    (root : RootFinder ℝ) {r : IntegrationResult ℝ} (hp : o.prepare x0 x1 te = (o', .ok p))
    (h : o.solve x0 x1 te (ivp ev stepper root) = (o'', .ok r)) (hok : r.success = true)
    (hm : Marches true (x0, p.y0) (stepper p).steps) (hne : (stepper p).steps ≠ []) (hroot : ∀ g a b x, root g a b = .ok x → x ∈ Set.uIcc a b) :
    ∃ used rest pre s s0 post, (stepper p).steps = used ++ rest ∧ used = pre ++ [s] ∧ used = s0 :: post ∧
      (lastPt (x0, p.y0) pre).1 ≤ r.xEnd ∧ r.xEnd ≤ s.t ∧
      (∀ x, x < x0 → o''.state x = .ok (s0.dense x)) ∧ ∀ x, (lastPt (x0, p.y0) pre).1 < x → o''.state x = .ok (s.dense x) := by
  obtain ⟨used', rest', h1', h2, -, h4⟩ := solve_stores ev stepper root hp h hok
  have hmu : Marches true (x0, p.y0) used' := marches_split (by rw [← h1']; exact hm)
  have key : ∃ pre s s0 post, used' = pre ++ [s] ∧ used' = s0 :: post ∧ Between true (lastPt (x0, p.y0) pre).1 r.xEnd s.t := by
    have hlast : ∀ pre s, lastPt (x0, p.y0) (pre ++ [s]) = s.pt := fun pre s => by
      generalize (x0, p.y0) = a
      induction pre generalizing a with
      | nil => rfl
      | cons q pre ih => exact ih _
    have hstep : ∀ pre s, used' = pre ++ [s] → (lastPt (x0, p.y0) pre).1 < s.t := by
      intro pre s e
      rw [e] at hmu
      generalize (x0, p.y0) = a at hmu
      clear e
      induction pre generalizing a with
      | nil => exact hmu.1
      | cons q pre ih => exact ih _ hmu.2.2.2
    have hne' : used' ≠ [] := by
      rcases h4 with ⟨hr, -⟩ | ⟨pre, s, e, rfl, -⟩
      · rw [hr, List.append_nil] at h1'; rw [← h1']; exact hne
      · simp
    obtain ⟨s0, post, h0⟩ := List.exists_cons_of_ne_nil hne'
    rcases h4 with ⟨-, hx⟩ | ⟨pre, s, e, hu, hx⟩
    · obtain ⟨s, hs⟩ : ∃ s, used' = used'.dropLast ++ [s] := ⟨used'.getLast hne', (List.dropLast_append_getLast hne').symm⟩
      refine ⟨used'.dropLast, s, s0, post, hs, h0, ?_⟩
      have h5 := hstep _ _ hs
      rw [hs, hlast] at hx
      rw [hx]
      simp only [Between, if_true]; exact ⟨h5.le, le_refl _⟩
    · refine ⟨pre, s, s0, post, hu, h0, ?_⟩
      have h6 := hroot _ _ _ _ hx
      rw [Set.uIcc_of_le (hstep _ _ hu).le] at h6
      simp only [Between, if_true]; exact h6
  obtain ⟨pre, s, s0, post, hu, h0, hb⟩ := key
  simp only [Between, if_true] at hb
  have hx0 : x0 ≤ r.xEnd := by
    have := last_beyond (marches_split (l := pre) (l' := [s]) (by rw [← hu]; exact hmu))
    simp only [if_true] at this
    linarith [this.1, hb.1]
  have hasc : ascending x0 [r.xEnd] = true := by
    show PyCmp.le x0 r.xEnd = true
    rw [real_le]; exact hx0
  have hstate : ∀ x, o''.state x = .ok (denseAt true used' x) := fun x => by rw [h2, hasc]; rfl
  refine ⟨used', rest', pre, s, s0, post, h1', hu, h0, hb.1, hb.2, fun x hx => ?_, fun x hx => ?_⟩
  · rw [hstate, h0]
    have h5 : x0 < s0.t := by rw [h0] at hmu; exact hmu.1
    cases post with
    | nil => rfl
    | cons s' l =>
      rw [denseAt, if_pos]
      simp only [if_true, real_le]
      linarith
  · rw [hstate, hu, dense_after (f := true) (by rw [← hu]; exact hmu) (by simpa using hx)]

/-- **C81** is false: in a flow that separates, queries beyond the reported separation point are answered. -/
theorem out_of_range_fails : ¬ OutOfRangeRefused := by
  intro H
  obtain ⟨root, p, r, hb, hy, hrun⟩ := SepWit.thw_run fun t => 1/25 + 3/25 * t
  rcases hp : SepWit.thw.prepare 0 1 .none with ⟨o', q⟩
  have hq := hrun.prep
  rw [hp] at hq
  simp only at hq
  subst hq
  rcases hs : SepWit.thw.solve 0 1 .none (ivp SepWit.thw.eventValue (SepWit.one fun t => [1/25 + 3/25 * t]) root) with ⟨o'', q⟩
  have hr := hrun.result
  rw [hs] at hr
  simp only at hr
  subst hr
  have hok : r.success = true := by
    cases solve_outcome _ _ _ hp hs with
    | reached _ _ _ _ hok => exact hok
    | failed m _ he => cases he
    | stopped _ _ _ _ _ _ _ _ _ _ _ hok => exact hok
  have hm : Marches true (0, p.y0) ((SepWit.one fun t => [1/25 + 3/25 * t]) p).steps := ⟨by simp, by rw [hy]; norm_num, rfl, trivial⟩
  obtain ⟨e, he⟩ := H _ o' o'' 0 1 p _ root r hp hs hok hm (by simp [SepWit.one]) hb (-1) (.inl (by norm_num))
  obtain ⟨used, rest, h1, h2, -, h4⟩ := solve_stores _ _ _ hp hs hok
  have hc : o''.cls = .thwaitesLinear := by
    rw [h2]
    exact (prepare_start hp).2.1
  simp only [SepWit.one] at h1
  have hu : used = [⟨1, [1/25 + 3/25 * 1], fun t => [1/25 + 3/25 * t]⟩] ∨ used = [] := by
    rcases used with _ | ⟨a, _ | ⟨b, l⟩⟩
    · exact .inr rfl
    · simp only [List.cons_append, List.nil_append, List.cons.injEq] at h1; exact .inl (by rw [h1.1])
    · simp at h1
  rcases hu with hu | hu
  · have hst : o''.state (-1) = .ok [1/25 + 3/25 * (-1)] := by rw [h2, hu]; rfl
    simp [Obj.deltaM, hc, Obj.comp, hst, bind, Except.bind, pure, Except.pure] at he
  · subst hu
    rcases h4 with ⟨hr, -⟩ | ⟨pre, s, e, h5, -⟩
    · rw [hr] at h1; simp at h1
    · simp at h5

/-- Non-vacuity of C80 and `out_of_range_partial`: a backward run in two steps, from 1 over 1/2 to 0, that succeeds. -/
example : ∃ (o o' o'' : Obj ℝ) (p : IvpProblem ℝ) (stepper : Stepper ℝ) (root : RootFinder ℝ) (r : IntegrationResult ℝ),
    o.prepare 1 0 .none = (o', .ok p) ∧ o.solve 1 0 .none (ivp o.eventValue stepper root) = (o'', .ok r) ∧ r.success = true ∧
    Marches false (1, p.y0) (stepper p).steps ∧ (stepper p).steps.length = 2 ∧ (∀ g a b x, root g a b = .ok x → x ∈ Set.uIcc a b) ∧
    0 < o.nu ∧ o'.ic.deltaM = .ok (1/5) := by
  let st : Stepper ℝ := fun _ => ⟨[⟨1/2, [1/25], fun _ => [1/25]⟩, ⟨0, [1/25], fun _ => [1/25]⟩], .reached⟩
  let root : RootFinder ℝ := fun _ a _ => .ok a
  obtain ⟨o', p, hp, hy, hx, he, hic⟩ : ∃ o' p, SepWit.thw.prepare 1 0 .none = (o', .ok p) ∧ p.y0 = [1/25] ∧ p.x0 = 1 ∧
      p.events = [.sepThwaites Fits.white] ∧ o'.ic.deltaM = .ok (1/5) := by
    simp [SepWit.thw, Obj.prepare, IC.setNu, VelState.duE, VelState.rawDu, callOpt, Vel.call, IC.setDu, Obj.startVector, IC.deltaM, pyDiv,
      bind, Except.bind, pure, Except.pure, TermArg.toList]
    norm_num
    exact ⟨_, _, ⟨rfl, rfl⟩, rfl, rfl, rfl, rfl⟩
  obtain ⟨r, hr⟩ := solve_total SepWit.thw.eventValue st root hp (fun _ a _ => ⟨a, rfl⟩)
    (by rw [he, hy, hx]; intro e h; simp only [List.mem_singleton] at h; subst h; exact ⟨_, SepWit.thw_value 1 _⟩)
    (by
      rw [he]; intro s hs e h
      simp only [st, List.mem_cons, List.not_mem_nil, or_false] at h hs
      subst h
      rcases hs with rfl | rfl <;> exact ⟨_, SepWit.thw_value _ _⟩)
    (by intro x h; cases h)
  rcases hs : SepWit.thw.solve 1 0 .none (ivp SepWit.thw.eventValue st root) with ⟨o'', q⟩
  rw [hs] at hr
  simp only at hr
  subst hr
  refine ⟨SepWit.thw, o', o'', p, st, root, r, hp, hs, ?_, ?_, rfl, ?_, one_pos, hic⟩
  · cases solve_outcome _ _ _ hp hs with
    | reached _ _ _ _ hok => exact hok
    | failed m _ he => cases he
    | stopped _ _ _ _ _ _ _ _ _ _ _ hok => exact hok
  · rw [hy]; exact ⟨by norm_num, rfl, rfl, by norm_num [Step.pt], rfl, rfl, trivial⟩
  · intro g a b x h
    cases h
    exact Set.left_mem_uIcc

end IBL
