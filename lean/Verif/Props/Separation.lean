import Verif.Lemmas.SolveIvp
import Verif.Props.FitsSpline
import Mathlib.Topology.Order.IntermediateValue

/-!
C64-C68: what `solve` reports about separation, with the integrator's event handling modelled (`Model/SolveIvp.lean`). For every way of
stepping; exact arithmetic where signs matter.
-/

namespace IBL
open SolveIvp Fits
set_option linter.unusedSectionVars false

/-! ### What one `solve` can do -/

section outcome
variable {α : Type} [Add α] [Sub α] [Mul α] [Div α] [Neg α] [PyLit α] [PyCmp α] [PySqrt α] [PyPow α]

/-- The three ways a `solve` that returns can have gone: no event changed sign between accepted points and the end was reached or the
integrator failed, or the integration was stopped in the first step in which an event changed sign. -/
inductive Outcome (root : RootFinder α) (ev : Event α → EvFn α) (p : IvpProblem α) (run : Run α) (r : IntegrationResult α) : Prop
  | reached (hq : AllQuiet (p.events.map ev) (p.x0, p.y0) run.steps) (he : run.ending = .reached) (hs : r.status = .reachedEnd)
      (hx : r.xEnd = (lastPt (p.x0, p.y0) run.steps).1) (hok : r.success = true)
  | failed (m : String) (hq : AllQuiet (p.events.map ev) (p.x0, p.y0) run.steps) (he : run.ending = .failed m) (hs : r.status = .unknown)
      (hx : r.xEnd = p.x0) (hok : r.success = false)
  | stopped (pre rest : List (Step α)) (s : Step α) (i : ℕ) (e : Event α) (hsteps : run.steps = pre ++ s :: rest)
      (hq : AllQuiet (p.events.map ev) (p.x0, p.y0) pre) (hi : p.events[i]? = some e)
      (hf : FiresAt root (ev e) (lastPt (p.x0, p.y0) pre) s r.xEnd) (hs : r.status = e.info.1)
      (hfe : r.fEnd = denseAt (ascending p.x0 [r.xEnd]) (pre ++ [s]) r.xEnd) (hok : r.success = true)
      (hmin : ∃ act, earliest (PyCmp.gt s.t (lastPt (p.x0, p.y0) pre).1) act = some (i, r.xEnd) ∧
        ∀ (k : ℕ) (e' : Event α) (va vb : α), p.events[k]? = some e' →
          ev e' (lastPt (p.x0, p.y0) pre).1 (lastPt (p.x0, p.y0) pre).2 = .ok va → ev e' s.t s.y = .ok vb → changes va vb = true →
          ∃ te', (k, te') ∈ act ∧ FiresAt root (ev e') (lastPt (p.x0, p.y0) pre) s te')
      (hmsg : r.message = if e.info.2 = "" then e.info.1.text else e.info.1.text ++ ": " ++ e.info.2)

theorem prepare_fields {o o' : Obj α} {x0 x1 : α} {te : TermArg α} {p : IvpProblem α} (h : o.prepare x0 x1 te = (o', .ok p)) :
    p.x0 = x0 ∧ p.events = o.events ++ te.toList ∧ o'.events = p.events ∧ o'.vel = o.vel := by
  unfold Obj.prepare at h
  split at h
  · cases h
  · dsimp only at h
    split at h
    · cases h
    · split at h
      · cases h
      · cases h; exact ⟨rfl, rfl, rfl, rfl⟩

private theorem last_map (a : α × List α) (l : List (Step α)) : (a.1 :: l.map Step.t).getLast? = some (lastPt a l).1 := by
  induction l generalizing a with
  | nil => rfl
  | cons s l ih =>
    rw [List.map_cons, List.getLast?_cons_cons]
    exact ih s.pt

/-- Every `solve` that returns is one of the three outcomes; any arithmetic, any stepping, any root finder. -/
theorem solve_outcome {o o' o'' : Obj α} {x0 x1 : α} {te : TermArg α} {p : IvpProblem α} (ev : Event α → EvFn α) (stepper : Stepper α)
    (root : RootFinder α) {r : IntegrationResult α} (hp : o.prepare x0 x1 te = (o', .ok p))
    (h : o.solve x0 x1 te (ivp ev stepper root) = (o'', .ok r)) : Outcome root ev p (stepper p) r := by
  obtain ⟨hx0, -, hev, -⟩ := prepare_fields hp
  unfold Obj.solve at h
  rw [hp] at h
  simp only [ivp] at h
  rcases hg : evalAll (p.events.map ev) p.x0 p.y0 with e | g
  · rw [hg] at h; cases h
  rw [hg] at h
  simp only at h
  rcases hl : loop root (p.events.map ev) p.x0 g (stepper p).steps with e | ⟨pre, hit⟩
  · rw [hl] at h; cases h
  rw [hl] at h
  obtain ⟨q1, q2, q3⟩ := loop_spec root _ (p.x0, p.y0) g _ pre hit (evalAll_ok hg) hl
  cases hit with
  | none =>
    rw [q2 rfl] at h q1
    dsimp only at h
    rcases he : (stepper p).ending with _ | m | x
    · rw [he] at h
      simp only [evalResult, if_true, last_map (p.x0, p.y0)] at h
      cases h
      exact .reached q1 he rfl rfl rfl
    · rw [he] at h
      simp [evalResult] at h
      obtain ⟨-, h⟩ := h
      subst h
      exact .failed m q1 he rfl hx0.symm rfl
    · rw [he] at h; cases h
  | some hit =>
    obtain ⟨s, i, t⟩ := hit
    obtain ⟨⟨rest, h1⟩, ⟨e, h2, h3⟩, act, h4, h5⟩ := q3 s i t rfl
    obtain ⟨e0, he0, rfl⟩ : ∃ e0, p.events[i]? = some e0 ∧ ev e0 = e := by
      rw [List.getElem?_map] at h2
      simpa using h2
    have hi : i < p.events.length := (List.getElem?_eq_some_iff.1 he0).1
    simp only [evalResult, if_true, tEvents_fired p.events.length (i, t) hi] at h
    rw [if_neg (by decide), hev, he0] at h
    cases h
    refine .stopped pre rest s i e0 h1 q1 he0 h3 rfl rfl rfl ⟨act, h4, fun k e' va vb hk ha hb hc => ?_⟩ (by
      show composeMessage e0.info.1 e0.info.2 = _
      simp only [composeMessage, gt_iff_lt, Nat.pos_iff_ne_zero, ne_eq, String.length_eq_zero_iff, ite_not])
    exact h5 k (ev e') va vb (by rw [List.getElem?_map, hk]; rfl) ha hb hc

/-- A `solve` returns if nothing it calls raises. -/
theorem solve_total {o o' : Obj α} {x0 x1 : α} {te : TermArg α} {p : IvpProblem α} (ev : Event α → EvFn α) (stepper : Stepper α)
    (root : RootFinder α) (hp : o.prepare x0 x1 te = (o', .ok p)) (hr : ∀ f a b, ∃ x, root f a b = .ok x)
    (hstart : ∀ e ∈ p.events, ∃ v, ev e p.x0 p.y0 = .ok v) (hd : ∀ s ∈ (stepper p).steps, ∀ e ∈ p.events, ∃ v, ev e s.t s.y = .ok v)
    (he : ∀ x, (stepper p).ending ≠ .raised x) : ∃ r, (o.solve x0 x1 te (ivp ev stepper root)).2 = .ok r := by
  obtain ⟨-, -, hev, -⟩ := prepare_fields hp
  obtain ⟨g, hg⟩ := evalAll_total (evs := p.events.map ev) (t := p.x0) (y := p.y0) (by
    intro e he
    obtain ⟨e0, h0, rfl⟩ := List.mem_map.1 he
    exact hstart e0 h0)
  obtain ⟨⟨pre, hit⟩, hl⟩ := loop_total root hr (p.events.map ev) p.x0 g (stepper p).steps (by
    intro s hs e he
    obtain ⟨e0, h0, rfl⟩ := List.mem_map.1 he
    exact hd s hs e0 h0)
  obtain ⟨q1, q2, q3⟩ := loop_spec root _ (p.x0, p.y0) g _ pre hit (evalAll_ok hg) hl
  unfold Obj.solve
  rw [hp]
  simp only [ivp, hg, hl]
  cases hit with
  | none =>
    rcases hend : (stepper p).ending with _ | m | x
    · simp only [evalResult, if_true, last_map (p.x0, p.y0)]
      exact ⟨_, rfl⟩
    · simp [evalResult]
    · exact absurd hend (he x)
  | some hit =>
    obtain ⟨s, i, t⟩ := hit
    obtain ⟨-, ⟨e, h2, -⟩, -⟩ := q3 s i t rfl
    obtain ⟨e0, he0, rfl⟩ : ∃ e0, p.events[i]? = some e0 ∧ ev e0 = e := by
      rw [List.getElem?_map] at h2
      simpa using h2
    have hi : i < p.events.length := (List.getElem?_eq_some_iff.1 he0).1
    simp only [evalResult, if_true, tEvents_fired p.events.length (i, t) hi]
    rw [if_neg (by decide), hev, he0]
    exact ⟨_, rfl⟩

end outcome

/-! ### Specification of the root finder, exact arithmetic -/

/-- `brentq` on a bracket: an end at which the function vanishes is returned (the left one first), the result is in the bracket, and for a
continuous function with a sign change it is a zero. -/
structure BracketRoot (root : RootFinder ℝ) : Prop where
  inside : ∀ f a b x, a ≤ b → root f a b = .ok x → a ≤ x ∧ x ≤ b
  left : ∀ f a b, f a = .ok 0 → root f a b = .ok a
  right : ∀ f a b v, f a = .ok v → v ≠ 0 → f b = .ok 0 → root f a b = .ok b
  zero : ∀ f a b x (g : ℝ → ℝ), a ≤ b → (∀ t, a ≤ t → t ≤ b → f t = .ok (g t)) → ContinuousOn g (Set.Icc a b) → g a * g b ≤ 0 →
    root f a b = .ok x → g x = 0

open Classical in
/-- There is such a root finder. -/
theorem bracketRoot_exists : ∃ root, BracketRoot root ∧ ∀ f a b, ∃ x, root f a b = .ok x := by
  refine ⟨fun f a b => if f a = .ok 0 then .ok a else if f b = .ok 0 then .ok b else
    if h : ∃ x, a ≤ x ∧ x ≤ b ∧ f x = .ok 0 then .ok h.choose else .ok a, ⟨?_, ?_, ?_, ?_⟩, ?_⟩
  · intro f a b x hab h
    split_ifs at h with h1 h2 h3
    · cases h; exact ⟨le_refl _, hab⟩
    · cases h; exact ⟨hab, le_refl _⟩
    · cases h; exact ⟨h3.choose_spec.1, h3.choose_spec.2.1⟩
    · cases h; exact ⟨le_refl _, hab⟩
  · intro f a b h; simp only [if_pos h]
  · intro f a b v h hv hb
    rw [if_neg (by rw [h]; intro h'; cases h'; exact hv rfl), if_pos hb]
  · intro f a b x g hab hfg hc hs h
    have hz : ∃ x, a ≤ x ∧ x ≤ b ∧ g x = 0 := by
      rcases le_total (g a) 0 with ha | ha
      · rcases le_total 0 (g b) with hb | hb
        · obtain ⟨z, hz, h0⟩ := intermediate_value_Icc hab hc ⟨ha, hb⟩
          exact ⟨z, hz.1, hz.2, h0⟩
        · rcases mul_eq_zero.1 (le_antisymm hs (mul_nonneg_of_nonpos_of_nonpos ha hb)) with h0 | h0
          · exact ⟨a, le_refl _, hab, h0⟩
          · exact ⟨b, hab, le_refl _, h0⟩
      · rcases le_total (g b) 0 with hb | hb
        · obtain ⟨z, hz, h0⟩ := intermediate_value_Icc' hab hc ⟨hb, ha⟩
          exact ⟨z, hz.1, hz.2, h0⟩
        · rcases mul_eq_zero.1 (le_antisymm hs (mul_nonneg ha hb)) with h0 | h0
          · exact ⟨a, le_refl _, hab, h0⟩
          · exact ⟨b, hab, le_refl _, h0⟩
    split_ifs at h with h1 h2 h3
    · cases h; rw [hfg a (le_refl _) hab] at h1; exact Except.ok.inj h1
    · cases h; rw [hfg b hab (le_refl _)] at h2; exact Except.ok.inj h2
    · cases h
      obtain ⟨k1, k2, k3⟩ := h3.choose_spec
      rw [hfg _ k1 k2] at k3
      exact Except.ok.inj k3
    · obtain ⟨z, z1, z2, z3⟩ := hz
      exact absurd ⟨z, z1, z2, by rw [hfg z z1 z2, z3]⟩ h3
  · intro f a b
    by_cases h1 : f a = .ok 0
    · exact ⟨a, by simp only [if_pos h1]⟩
    · by_cases h2 : f b = .ok 0
      · exact ⟨b, by simp only [if_neg h1, if_pos h2]⟩
      · by_cases h3 : ∃ x, a ≤ x ∧ x ≤ b ∧ f x = .ok 0
        · exact ⟨h3.choose, by simp only [if_neg h1, if_neg h2, dif_pos h3]⟩
        · exact ⟨a, by simp only [if_neg h1, if_neg h2, dif_neg h3]⟩

/-- The steps go forward and each interpolant matches the accepted points at both ends of its step, as RK45's does. -/
def Consistent : ℝ × List ℝ → List (Step ℝ) → Prop
  | _, [] => True
  | a, s :: l => a.1 < s.t ∧ s.dense a.1 = a.2 ∧ s.dense s.t = s.y ∧ Consistent s.pt l

theorem changes_real (g h : ℝ) : changes g h = true ↔ (g ≤ 0 ∧ 0 ≤ h) ∨ (0 ≤ g ∧ h ≤ 0) := by
  simp [changes, PyCmp.ge, real_le, real_lit]

/-! ### Runs with only the separation event -/

/-- A `solve` in which separation is the only event: `o.events` is what C06 says it is, no user events, and the integrator handles events the way
scipy does. `p` is what is passed to the integrator. -/
structure SepRun (o : Obj ℝ) (e : Event ℝ) (x0 x1 : ℝ) (stepper : Stepper ℝ) (root : RootFinder ℝ) (p : IvpProblem ℝ)
    (r : IntegrationResult ℝ) : Prop where
  events : o.events = [e]
  sep : e.info.1 = .separated
  prep : (o.prepare x0 x1 .none).2 = .ok p
  result : (o.solve x0 x1 .none (ivp o.eventValue stepper root)).2 = .ok r
  /-- the criterion can be evaluated wherever the integrator gets -/
  defined : ∀ s ∈ (stepper p).steps, ∃ v, o.eventValue e s.t s.y = .ok v

section sep
variable {o : Obj ℝ} {e : Event ℝ} {x0 x1 : ℝ} {stepper : Stepper ℝ} {root : RootFinder ℝ} {p : IvpProblem ℝ} {r : IntegrationResult ℝ}

private theorem sepRun_outcome (h : SepRun o e x0 x1 stepper root p r) :
    p.events = [e] ∧ p.x0 = x0 ∧ Outcome root o.eventValue p (stepper p) r := by
  rcases hp : o.prepare x0 x1 .none with ⟨o', q⟩
  have hq := h.prep
  rw [hp] at hq
  simp only at hq
  subst hq
  obtain ⟨h1, h2, -, -⟩ := prepare_fields hp
  rcases hs : o.solve x0 x1 .none (ivp o.eventValue stepper root) with ⟨o'', q⟩
  have hr := h.result
  rw [hs] at hr
  simp only at hr
  subst hr
  refine ⟨by rw [h2, h.events]; rfl, h1, solve_outcome o.eventValue stepper root hp hs⟩

/-- Along quiet steps the criterion stays positive. -/
private theorem quiet_pos {ev : EvFn ℝ} {a : ℝ × List ℝ} {va : ℝ} {l : List (Step ℝ)} (hq : AllQuiet [ev] a l) (ha : ev a.1 a.2 = .ok va)
    (hpos : 0 < va) (hd : ∀ s ∈ l, ∃ v, ev s.t s.y = .ok v) :
    (∀ s ∈ l, ∃ v, ev s.t s.y = .ok v ∧ 0 < v) ∧ ∃ v, ev (lastPt a l).1 (lastPt a l).2 = .ok v ∧ 0 < v := by
  induction l generalizing a va with
  | nil => exact ⟨fun s hs => (List.not_mem_nil hs).elim, va, ha, hpos⟩
  | cons s l ih =>
    obtain ⟨v, hv⟩ := hd s (by simp)
    have hc := hq.1 ev (by simp) va v ha hv
    have hvpos : 0 < v := by
      by_contra hn
      have : changes va v = true := (changes_real va v).2 (.inr ⟨hpos.le, not_lt.1 hn⟩)
      rw [hc] at this; cases this
    obtain ⟨i1, i2⟩ := ih hq.2 (a := s.pt) hv hvpos fun t ht => hd t (by simp [ht])
    refine ⟨fun t ht => ?_, i2⟩
    rcases List.mem_cons.1 ht with rfl | ht
    · exact ⟨v, hv, hvpos⟩
    · exact i1 t ht

/-- **C64**: starting attached, `solve` reports SEPARATED exactly if the criterion is met (is not positive) at some accepted integration
point. -/
theorem separation_reported_iff (h : SepRun o e x0 x1 stepper root p r) (v0 : ℝ) (hv0 : o.eventValue e x0 p.y0 = .ok v0) (hpos : 0 < v0) :
    r.status = .separated ↔ ∃ s ∈ (stepper p).steps, ∃ v, o.eventValue e s.t s.y = .ok v ∧ v ≤ 0 := by
  obtain ⟨h1, h2, ho⟩ := sepRun_outcome h
  rw [← h2] at hv0
  cases ho with
  | reached hq _ hs =>
    rw [h1] at hq
    have := (quiet_pos hq hv0 hpos h.defined).1
    rw [hs]
    refine ⟨(fun h => nomatch h), ?_⟩
    rintro ⟨s, hs, v, hv, hle⟩
    obtain ⟨w, hw, hwp⟩ := this s hs
    rw [hv] at hw; cases hw; linarith
  | failed m hq _ hs =>
    rw [h1] at hq
    have := (quiet_pos hq hv0 hpos h.defined).1
    rw [hs]
    refine ⟨(fun h => nomatch h), ?_⟩
    rintro ⟨s, hs, v, hv, hle⟩
    obtain ⟨w, hw, hwp⟩ := this s hs
    rw [hv] at hw; cases hw; linarith
  | stopped pre rest s i e' hsteps hq hi hf hs =>
    rw [h1] at hi hq
    have : e' = e := by
      cases i with
      | zero => simpa using hi.symm
      | succ i => simp at hi
    subst this
    rw [hs, h.sep]
    refine ⟨fun _ => ?_, fun _ => rfl⟩
    obtain ⟨⟨va, vb, ha, hb, hc⟩, -⟩ := hf
    obtain ⟨w, hw, hwp⟩ := (quiet_pos hq hv0 hpos fun t ht => h.defined t (by rw [hsteps]; simp [ht])).2
    rw [ha] at hw; cases hw
    refine ⟨s, by rw [hsteps]; simp, vb, hb, ?_⟩
    rcases (changes_real va vb).1 hc with h | h
    · linarith
    · exact h.2

/-- Where: in the first step at whose end the criterion is met; the criterion is positive at every accepted point before. -/
theorem separation_step (h : SepRun o e x0 x1 stepper root p r) (v0 : ℝ) (hv0 : o.eventValue e x0 p.y0 = .ok v0) (hpos : 0 < v0)
    (hsep : r.status = .separated) : ∃ (pre rest : List (Step ℝ)) (s : Step ℝ) (va vb : ℝ), (stepper p).steps = pre ++ s :: rest ∧
      (∀ t ∈ pre, ∃ v, o.eventValue e t.t t.y = .ok v ∧ 0 < v) ∧
      o.eventValue e (lastPt (x0, p.y0) pre).1 (lastPt (x0, p.y0) pre).2 = .ok va ∧ 0 < va ∧ o.eventValue e s.t s.y = .ok vb ∧ vb ≤ 0 ∧
      root (fun t => o.eventValue e t (s.dense t)) (lastPt (x0, p.y0) pre).1 s.t = .ok r.xEnd ∧ r.fEnd = denseAt (ascending x0 [r.xEnd]) (pre ++ [s]) r.xEnd := by
  obtain ⟨h1, h2, ho⟩ := sepRun_outcome h
  subst h2
  cases ho with
  | reached hq _ hs => rw [hs] at hsep; cases hsep
  | failed m hq _ hs => rw [hs] at hsep; cases hsep
  | stopped pre rest s i e' hsteps hq hi hf hs hfe =>
    rw [h1] at hi hq
    have : e' = e := by
      cases i with
      | zero => simpa using hi.symm
      | succ i => simp at hi
    subst this
    obtain ⟨⟨va, vb, ha, hb, hc⟩, hr⟩ := hf
    obtain ⟨q1, w, hw, hwp⟩ := quiet_pos hq hv0 hpos fun t ht => h.defined t (by rw [hsteps]; simp [ht])
    rw [ha] at hw; cases hw
    refine ⟨pre, rest, s, va, vb, hsteps, q1, ha, hwp, hb, ?_, hr, hfe⟩
    rcases (changes_real va vb).1 hc with h | h
    · linarith
    · exact h.2

/-- Starting attached and staying so at all accepted points, the end is reached, whatever happens between the accepted points. -/
theorem attached_run_reaches_end (h : SepRun o e x0 x1 stepper root p r) (v0 : ℝ) (hv0 : o.eventValue e x0 p.y0 = .ok v0) (hpos : 0 < v0)
    (hall : ∀ s ∈ (stepper p).steps, ∃ v, o.eventValue e s.t s.y = .ok v ∧ 0 < v) (hend : (stepper p).ending = .reached) :
    r.status = .reachedEnd := by
  have hns : r.status ≠ .separated := by
    rw [Ne, separation_reported_iff h v0 hv0 hpos]
    rintro ⟨s, hs, v, hv, hle⟩
    obtain ⟨w, hw, hwp⟩ := hall s hs
    rw [hv] at hw; cases hw; linarith
  obtain ⟨h1, h2, ho⟩ := sepRun_outcome h
  cases ho with
  | reached _ _ hs => exact hs
  | failed m _ he => rw [hend] at he; cases he
  | stopped pre rest s i e' hsteps hq hi hf hs =>
    rw [h1] at hi
    have : e' = e := by
      cases i with
      | zero => simpa using hi.symm
      | succ i => simp at hi
    subst this
    exact absurd (hs.trans h.sep) hns

private theorem consistent_split {a : ℝ × List ℝ} {pre rest : List (Step ℝ)} {s : Step ℝ} (h : Consistent a (pre ++ s :: rest)) :
    (lastPt a pre).1 < s.t ∧ s.dense (lastPt a pre).1 = (lastPt a pre).2 ∧ s.dense s.t = s.y := by
  induction pre generalizing a with
  | nil => exact ⟨h.1, h.2.1, h.2.2.1⟩
  | cons t pre ih => exact ih h.2.2.2

/-! ### C65: the reported place -/

/-- **C65** as stated: at no point of the last step before the reported one is the criterion met already. -/
def FirstPoint (o : Obj ℝ) (e : Event ℝ) (x0 : ℝ) (stepper : Stepper ℝ) (p : IvpProblem ℝ) (r : IntegrationResult ℝ) : Prop :=
  ∀ (pre rest : List (Step ℝ)) (s : Step ℝ), (stepper p).steps = pre ++ s :: rest → (lastPt (x0, p.y0) pre).1 ≤ r.xEnd → r.xEnd ≤ s.t →
    ∀ t, (lastPt (x0, p.y0) pre).1 ≤ t → t < r.xEnd → ∃ v, o.eventValue e t (s.dense t) = .ok v ∧ 0 < v

/-- **C65**, what goes wrong: with fits whose shear never becomes negative (Spline and White: it is 0 for every lambda beyond separation) the
reported separation point is always the end of an integration step, wherever in the step separation occurred. -/
theorem nonneg_fits_step_end (m : Fits ℝ) (hm : ∀ lam, 0 ≤ m.shearAt lam) (h : SepRun o (.sepThwaites m) x0 x1 stepper root p r)
    (hroot : BracketRoot root) (hcon : Consistent (x0, p.y0) (stepper p).steps) (v0 : ℝ)
    (hv0 : o.eventValue (.sepThwaites m) x0 p.y0 = .ok v0) (hpos : 0 < v0) (hsep : r.status = .separated) :
    ∃ s ∈ (stepper p).steps, r.xEnd = s.t ∧ o.eventValue (.sepThwaites m) s.t s.y = .ok 0 := by
  obtain ⟨pre, rest, s, va, vb, hsteps, -, ha, hva, hb, hvb, hr, -⟩ := separation_step h v0 hv0 hpos hsep
  rw [hsteps] at hcon
  obtain ⟨c1, c2, c3⟩ := consistent_split hcon
  have hvb0 : vb = 0 := by
    apply le_antisymm hvb
    unfold Obj.eventValue at hb
    cases hy : s.y with
    | nil => rw [hy] at hb; cases hb
    | cons F l =>
      rw [hy] at hb
      simp only [Obj.calcLambda, bind, Except.bind, pure, Except.pure] at hb
      split at hb
      · cases hb
      · cases hb; exact hm _
  subst hvb0
  refine ⟨s, by rw [hsteps]; simp, ?_, hb⟩
  have := hroot.right (fun t => o.eventValue (.sepThwaites m) t (s.dense t)) (lastPt (x0, p.y0) pre).1 s.t va
    (by simp only [c2]; exact ha) hva.ne' (by simp only [c3]; exact hb)
  rw [hr] at this
  exact Except.ok.inj this

/-- White's shear is never negative. -/
theorem white_shear_nonneg (lam : ℝ) : 0 ≤ (Fits.white : Fits ℝ).shearAt lam := by
  rw [shearAt]
  simp only [Fits.white, checkRange, real_pow, real_lit, real_lt]
  apply Real.rpow_nonneg
  split_ifs with h
  · push_cast; norm_num
  · push_cast at h ⊢; linarith [not_lt.1 h]

/-- **C65** for the default fits (and White, `nonneg_fits_step_end` with `white_shear_nonneg`): if lambda passes -0.09 before the end of a
step, then a later point is reported, at which lambda can be anything below -0.09. -/
theorem spline_point_late {cs : CubicSpline ℝ} (hcs : TableSplines cs) (h : SepRun o (.sepThwaites (spline cs)) x0 x1 stepper root p r)
    (hroot : BracketRoot root) (hcon : Consistent (x0, p.y0) (stepper p).steps) (v0 : ℝ)
    (hv0 : o.eventValue (.sepThwaites (spline cs)) x0 p.y0 = .ok v0) (hpos : 0 < v0)
    (pre rest : List (Step ℝ)) (s : Step ℝ) (hsteps : (stepper p).steps = pre ++ s :: rest) (hin : (lastPt (x0, p.y0) pre).1 ≤ r.xEnd)
    (hin' : r.xEnd ≤ s.t) (hsep : r.status = .separated) (t : ℝ) (ht0 : (lastPt (x0, p.y0) pre).1 ≤ t) (ht : t < r.xEnd) (F d : ℝ)
    (hF : s.dense t = [F]) (hd : o.vel.duE t = .ok d) (hlam : F * d ≤ -9/100) : ¬ FirstPoint o (.sepThwaites (spline cs)) x0 stepper p r := by
  intro hfirst
  obtain ⟨v, hv, hvp⟩ := hfirst pre rest s hsteps hin hin' t ht0 ht
  rw [hF] at hv
  obtain ⟨w, hw, hwi⟩ := spline_event_iff hcs o t F d hd
  rw [hv] at hw; cases hw
  linarith [hwi.2 hlam]

/-- **C65**, what holds: if the criterion is continuous along the last step and strictly decreases, the reported point is where it vanishes, and
before it the criterion is positive (missing: criteria that stay at zero, which are those of the Spline and White fits, and those
that change sign several times in a step). -/
theorem first_point_partial (h : SepRun o e x0 x1 stepper root p r) (hroot : BracketRoot root) (hcon : Consistent (x0, p.y0) (stepper p).steps)
    (v0 : ℝ) (hv0 : o.eventValue e x0 p.y0 = .ok v0) (hpos : 0 < v0) (hsep : r.status = .separated)
    (g : Step ℝ → ℝ → ℝ)
    (hg : ∀ (pre rest : List (Step ℝ)) (s : Step ℝ), (stepper p).steps = pre ++ s :: rest →
      (∀ t, (lastPt (x0, p.y0) pre).1 ≤ t → t ≤ s.t → o.eventValue e t (s.dense t) = .ok (g s t)) ∧
      ContinuousOn (g s) (Set.Icc (lastPt (x0, p.y0) pre).1 s.t) ∧ StrictAntiOn (g s) (Set.Icc (lastPt (x0, p.y0) pre).1 s.t)) :
    ∃ (pre rest : List (Step ℝ)) (s : Step ℝ), (stepper p).steps = pre ++ s :: rest ∧ (lastPt (x0, p.y0) pre).1 < r.xEnd ∧ r.xEnd ≤ s.t ∧
      g s r.xEnd = 0 ∧ (∀ t, (lastPt (x0, p.y0) pre).1 ≤ t → t < r.xEnd → 0 < g s t) ∧ ∀ t, r.xEnd < t → t ≤ s.t → g s t < 0 := by
  obtain ⟨pre, rest, s, va, vb, hsteps, -, ha, hva, hb, hvb, hr, -⟩ := separation_step h v0 hv0 hpos hsep
  have hcon' := hcon
  rw [hsteps] at hcon'
  obtain ⟨c1, c2, c3⟩ := consistent_split hcon'
  obtain ⟨g1, g2, g3⟩ := hg pre rest s hsteps
  have ea : g s (lastPt (x0, p.y0) pre).1 = va := by
    have := g1 _ (le_refl _) c1.le
    rw [c2, ha] at this; cases this; rfl
  have eb : g s s.t = vb := by
    have := g1 _ c1.le (le_refl _)
    rw [c3, hb] at this; cases this; rfl
  have hz := hroot.zero _ _ _ r.xEnd (g s) c1.le g1 g2 (by rw [ea, eb]; exact mul_nonpos_of_nonneg_of_nonpos hva.le hvb) hr
  obtain ⟨i1, i2⟩ := hroot.inside _ _ _ _ c1.le hr
  have hne : (lastPt (x0, p.y0) pre).1 ≠ r.xEnd := by
    intro heq
    rw [heq, hz] at ea
    linarith
  refine ⟨pre, rest, s, hsteps, lt_of_le_of_ne i1 hne, i2, hz, fun t t0 t1 => ?_, fun t t0 t1 => ?_⟩
  · rw [← hz]; exact g3 ⟨t0, t1.le.trans i2⟩ ⟨i1, i2⟩ t1
  · rw [← hz]; exact g3 ⟨i1, i2⟩ ⟨i1.trans t0.le, t1⟩ t0

/-! ### C66: starting separated -/

/-- **C66** as stated: a layer that meets the criterion at the start is reported. -/
def StartReported (o : Obj ℝ) (e : Event ℝ) (x0 : ℝ) (p : IvpProblem ℝ) (r : IntegrationResult ℝ) : Prop :=
  ∀ v0, o.eventValue e x0 p.y0 = .ok v0 → v0 ≤ 0 → r.status ≠ .reachedEnd

private theorem quiet_neg {ev : EvFn ℝ} {a : ℝ × List ℝ} {va : ℝ} {l : List (Step ℝ)} (ha : ev a.1 a.2 = .ok va) (hneg : va < 0)
    (hd : ∀ s ∈ l, ∃ v, ev s.t s.y = .ok v ∧ v < 0) : ∃ v, ev (lastPt a l).1 (lastPt a l).2 = .ok v ∧ v < 0 := by
  induction l generalizing a va with
  | nil => exact ⟨va, ha, hneg⟩
  | cons s l ih =>
    obtain ⟨v, hv, hn⟩ := hd s (by simp)
    exact ih (a := s.pt) hv hn fun t ht => hd t (by simp [ht])

/-- **C66** fails: if the criterion is strictly met at the start and stays so (Head with `H > H_crit`, Cebeci-Bradshaw), nothing is reported
and the integration goes on to the end. -/
theorem start_separated_unreported (h : SepRun o e x0 x1 stepper root p r) (v0 : ℝ) (hv0 : o.eventValue e x0 p.y0 = .ok v0) (hneg : v0 < 0)
    (hall : ∀ s ∈ (stepper p).steps, ∃ v, o.eventValue e s.t s.y = .ok v ∧ v < 0) (hend : (stepper p).ending = .reached) :
    r.status = .reachedEnd ∧ r.success = true ∧ ¬ StartReported o e x0 p r := by
  obtain ⟨h1, h2, ho⟩ := sepRun_outcome h
  subst h2
  suffices hs : r.status = .reachedEnd ∧ r.success = true from ⟨hs.1, hs.2, fun hc => hc v0 hv0 hneg.le hs.1⟩
  cases ho with
  | reached hq _ hs _ hok => exact ⟨hs, hok⟩
  | failed m hq he _ => rw [hend] at he; cases he
  | stopped pre rest s i e' hsteps hq hi hf hs =>
    rw [h1] at hi
    have : e' = e := by
      cases i with
      | zero => simpa using hi.symm
      | succ i => simp at hi
    subst this
    obtain ⟨⟨va, vb, ha, hb, hc⟩, -⟩ := hf
    obtain ⟨w, hw, hwn⟩ := quiet_neg (a := (p.x0, p.y0)) (l := pre) hv0 hneg fun t ht => hall t (by rw [hsteps]; simp [ht])
    obtain ⟨w', hw', hwn'⟩ := hall s (by rw [hsteps]; simp)
    rw [ha] at hw; cases hw
    rw [hb] at hw'; cases hw'
    rcases (changes_real va vb).1 hc with h | h <;> linarith [h.1, h.2]

/-- **C66**, what holds: with a criterion that is exactly zero at the start (Spline and White fits with lambda <= -0.09) SEPARATED is reported at
the start (missing: criteria that are negative there). -/
theorem start_separated_partial (h : SepRun o e x0 x1 stepper root p r) (hroot : BracketRoot root)
    (hcon : Consistent (x0, p.y0) (stepper p).steps) (hv0 : o.eventValue e x0 p.y0 = .ok 0) (hne : (stepper p).steps ≠ []) :
    r.status = .separated ∧ r.xEnd = x0 := by
  obtain ⟨h1, h2, ho⟩ := sepRun_outcome h
  subst h2
  rcases hsl : (stepper p).steps with _ | ⟨s0, l⟩
  · exact absurd hsl hne
  obtain ⟨v1, hv1⟩ := h.defined s0 (by rw [hsl]; simp)
  have hch : changes (0:ℝ) v1 = true := by
    rw [changes_real]
    rcases le_total 0 v1 with h | h
    · exact .inl ⟨le_refl _, h⟩
    · exact .inr ⟨le_refl _, h⟩
  have noquiet : ∀ l', ¬ AllQuiet ((p.events).map o.eventValue) (p.x0, p.y0) (s0 :: l') := by
    intro l' hq
    have := hq.1 (o.eventValue e) (by rw [h1]; simp) 0 v1 hv0 hv1
    rw [hch] at this; cases this
  cases ho with
  | reached hq => rw [hsl] at hq; exact absurd hq (noquiet l)
  | failed m hq => rw [hsl] at hq; exact absurd hq (noquiet l)
  | stopped pre rest s i e' hsteps hq hi hf hs =>
    rw [h1] at hi
    have : e' = e := by
      cases i with
      | zero => simpa using hi.symm
      | succ i => simp at hi
    subst this
    refine ⟨by rw [hs, h.sep], ?_⟩
    cases pre with
    | cons t pre =>
      rw [hsl] at hsteps
      simp only [List.cons_append, List.cons.injEq] at hsteps
      rw [← hsteps.1] at hq
      exact absurd hq (noquiet pre)
    | nil =>
      rw [hsteps] at hcon
      obtain ⟨-, c2, -⟩ := consistent_split hcon
      obtain ⟨-, hr⟩ := hf
      have := hroot.left (fun t => o.eventValue e' t (s.dense t)) p.x0 s.t (by
        simp only [lastPt] at c2; simp only [c2]; exact hv0)
      simp only [lastPt] at hr
      rw [hr] at this
      exact Except.ok.inj this

/-! ### C68: which way -/

/-- **C68** as stated: SEPARATED means that the layer was attached before. -/
def WasAttached (o : Obj ℝ) (e : Event ℝ) (x0 : ℝ) (p : IvpProblem ℝ) (r : IntegrationResult ℝ) : Prop :=
  r.status = .separated → ∃ v0, o.eventValue e x0 p.y0 = .ok v0 ∧ 0 ≤ v0

/-- **C68** where it holds: `WasAttached` unless the criterion is strictly met at the start and is not at some later point accepted by the
integrator (missing: such layers, `reattachment_reported`). -/
theorem was_attached_partial (h : SepRun o e x0 x1 stepper root p r) (v0 : ℝ) (hv0 : o.eventValue e x0 p.y0 = .ok v0)
    (hrec : v0 < 0 → ∀ s ∈ (stepper p).steps, ∃ v, o.eventValue e s.t s.y = .ok v ∧ v < 0) : WasAttached o e x0 p r := by
  intro hsep
  refine ⟨v0, hv0, not_lt.1 fun hneg => ?_⟩
  have hall := hrec hneg
  obtain ⟨h1, h2, ho⟩ := sepRun_outcome h
  subst h2
  cases ho with
  | reached hq _ hs _ hok => rw [hs] at hsep; cases hsep
  | failed m hq he hs => simp_all
  | stopped pre rest s i e' hsteps hq hi hf hs =>
    rw [h1] at hi
    have : e' = e := by
      cases i with
      | zero => simpa using hi.symm
      | succ i => simp at hi
    subst this
    obtain ⟨⟨va, vb, ha, hb, hc⟩, -⟩ := hf
    obtain ⟨w, hw, hwn⟩ := quiet_neg (a := (p.x0, p.y0)) (l := pre) hv0 hneg fun t ht => hall t (by rw [hsteps]; simp [ht])
    obtain ⟨w', hw', hwn'⟩ := hall s (by rw [hsteps]; simp)
    rw [ha] at hw; cases hw
    rw [hb] at hw'; cases hw'
    rcases (changes_real va vb).1 hc with h | h <;> linarith [h.1, h.2]

/-- In particular with fits whose shear is never negative, however the layer starts. -/
theorem was_attached_nonneg (m : Fits ℝ) (hm : ∀ lam, 0 ≤ m.shearAt lam) (h : SepRun o (.sepThwaites m) x0 x1 stepper root p r) (v0 : ℝ)
    (hv0 : o.eventValue (.sepThwaites m) x0 p.y0 = .ok v0) : WasAttached o (.sepThwaites m) x0 p r := by
  refine was_attached_partial h v0 hv0 fun hneg => absurd hneg (not_lt.2 ?_)
  simp only [Obj.eventValue] at hv0
  split at hv0
  · rename_i F l hy
    simp only [bind, Except.bind, pure, Except.pure] at hv0
    split at hv0
    · cases hv0
    · cases hv0; exact hm _
  · cases hv0

/-- The default fits and White's. -/
theorem was_attached_builtin {cs : CubicSpline ℝ} (hcs : TableSplines cs) {m : Fits ℝ} (hm : m = spline cs ∨ m = Fits.white)
    (h : SepRun o (.sepThwaites m) x0 x1 stepper root p r) (v0 : ℝ) (hv0 : o.eventValue (.sepThwaites m) x0 p.y0 = .ok v0) :
    WasAttached o (.sepThwaites m) x0 p r := by
  refine was_attached_nonneg m (fun lam => ?_) h v0 hv0
  rcases hm with rfl | rfl
  · exact (spline_bounds hcs lam).2.2.1
  · exact white_shear_nonneg lam

/-- **C68** fails: a layer that starts with the criterion strictly met and recovers is stopped as SEPARATED where it reattaches. -/
theorem reattachment_reported (h : SepRun o e x0 x1 stepper root p r) (v0 : ℝ) (hv0 : o.eventValue e x0 p.y0 = .ok v0) (hneg : v0 < 0)
    (hrec : ∃ s ∈ (stepper p).steps, ∃ v, o.eventValue e s.t s.y = .ok v ∧ 0 ≤ v) :
    r.status = .separated ∧ ¬ WasAttached o e x0 p r := by
  obtain ⟨h1, h2, ho⟩ := sepRun_outcome h
  subst h2
  suffices hs : r.status = .separated from ⟨hs, fun hc => by
    obtain ⟨w, hw, hwn⟩ := hc hs
    rw [hv0] at hw; cases hw; linarith⟩
  have neg : ∀ (l : List (Step ℝ)) (a : ℝ × List ℝ) (va : ℝ), AllQuiet [o.eventValue e] a l → o.eventValue e a.1 a.2 = .ok va → va < 0 →
      (∀ s ∈ l, ∃ v, o.eventValue e s.t s.y = .ok v) → ∀ s ∈ l, ∀ v, o.eventValue e s.t s.y = .ok v → v < 0 := by
    intro l
    induction l with
    | nil => intro _ _ _ _ _ _ s hs; exact (List.not_mem_nil hs).elim
    | cons s l ih =>
      intro a va hq ha hn hd
      obtain ⟨w, hw⟩ := hd s (by simp)
      have hwn : w < 0 := by
        by_contra hc
        have := hq.1 (o.eventValue e) (by simp) va w ha hw
        rw [(changes_real va w).2 (.inl ⟨hn.le, not_lt.1 hc⟩)] at this
        cases this
      intro t ht v hv
      rcases List.mem_cons.1 ht with rfl | ht
      · rw [hw] at hv; cases hv; exact hwn
      · exact ih s.pt w hq.2 hw hwn (fun u hu => hd u (by simp [hu])) t ht v hv
  obtain ⟨s1, hs1, v1, hv1, hp1⟩ := hrec
  cases ho with
  | reached hq =>
    rw [h1] at hq
    exact absurd (neg _ _ _ hq hv0 hneg h.defined s1 hs1 v1 hv1) (not_lt.2 hp1)
  | failed m hq =>
    rw [h1] at hq
    exact absurd (neg _ _ _ hq hv0 hneg h.defined s1 hs1 v1 hv1) (not_lt.2 hp1)
  | stopped pre rest s i e' hsteps hq hi hf hs =>
    rw [h1] at hi
    have : e' = e := by
      cases i with
      | zero => simpa using hi.symm
      | succ i => simp at hi
    subst this
    rw [hs, h.sep]

end sep

/-! ### C67: several events -/

/-- **C67**: with any events, integrating downstream, the event reported is the one whose location comes first among all events that change
sign in the step; the status and the message are those of the reported event. -/
theorem earliest_event_wins {o o' o'' : Obj ℝ} {x0 x1 : ℝ} {te : TermArg ℝ} {p : IvpProblem ℝ} (ev : Event ℝ → EvFn ℝ)
    (stepper : Stepper ℝ) (root : RootFinder ℝ) {r : IntegrationResult ℝ} (hp : o.prepare x0 x1 te = (o', .ok p))
    (h : o.solve x0 x1 te (ivp ev stepper root) = (o'', .ok r)) (hcon : Consistent (p.x0, p.y0) (stepper p).steps) (hok : r.success = true)
    (hst : r.status ≠ .reachedEnd) :
    ∃ (pre rest : List (Step ℝ)) (s : Step ℝ) (i : ℕ) (e : Event ℝ), (stepper p).steps = pre ++ s :: rest ∧ p.events[i]? = some e ∧
      r.status = e.info.1 ∧ (r.message = if e.info.2 = "" then e.info.1.text else e.info.1.text ++ ": " ++ e.info.2) ∧ FiresAt root (ev e) (lastPt (p.x0, p.y0) pre) s r.xEnd ∧
      ∀ (k : ℕ) (e' : Event ℝ) (va vb : ℝ), p.events[k]? = some e' →
        ev e' (lastPt (p.x0, p.y0) pre).1 (lastPt (p.x0, p.y0) pre).2 = .ok va → ev e' s.t s.y = .ok vb → changes va vb = true →
        ∃ te', FiresAt root (ev e') (lastPt (p.x0, p.y0) pre) s te' ∧ r.xEnd ≤ te' := by
  have ho := solve_outcome ev stepper root hp h
  cases ho with
  | reached _ _ hs => exact absurd hs hst
  | failed _ _ _ _ _ hf => rw [hok] at hf; cases hf
  | stopped pre rest s i e hsteps _ hi hf hs _ _ hmin hmsg =>
    refine ⟨pre, rest, s, i, e, hsteps, hi, hs, hmsg, hf, fun k e' va vb h1 h2 h3 h4 => ?_⟩
    obtain ⟨act, ha, hall⟩ := hmin
    obtain ⟨te', hm, hfe⟩ := hall k e' va vb h1 h2 h3 h4
    rw [hsteps] at hcon
    have hlt := (consistent_split hcon).1
    have hfw : PyCmp.gt s.t (lastPt (p.x0, p.y0) pre).1 = true := by simpa [PyCmp.gt] using hlt
    rw [hfw] at ha
    exact ⟨te', hfe, earliest_le ha _ hm⟩

/-- The first step that is not quiet is determined. -/
private theorem first_loud {evs evs' : List (EvFn ℝ)} (hsub : ∀ e ∈ evs', e ∈ evs) {e : EvFn ℝ} (he : e ∈ evs') {root : RootFinder ℝ} {x : ℝ} :
    ∀ {l pre rest pre' rest' : List (Step ℝ)} {s s' : Step ℝ} {a : ℝ × List ℝ}, l = pre ++ s :: rest → l = pre' ++ s' :: rest' → AllQuiet evs a pre →
      FiresAt root e (lastPt a pre') s' x → pre.length ≤ pre'.length
  | [], pre, _, _, _, _, _, _, h, _, _, _ => by cases pre <;> cases h
  | q :: l, [], _, _, _, _, _, _, _, _, _, _ => Nat.zero_le _
  | q :: l, p :: pre, rest, [], rest', s, s', a, h, h', hq, hf => by
    obtain ⟨⟨va, vb, f1, f2, f3⟩, -⟩ := hf
    obtain ⟨rfl, -⟩ := List.cons.inj h
    obtain ⟨rfl, -⟩ := List.cons.inj h'
    have := hq.1 e (hsub e he) va vb f1 f2
    rw [f3] at this; cases this
  | q :: l, p :: pre, rest, p' :: pre', rest', s, s', a, h, h', hq, hf => by
    obtain ⟨rfl, g⟩ := List.cons.inj h
    obtain ⟨-, g'⟩ := List.cons.inj h'
    obtain ⟨rfl, -⟩ := List.cons.inj h'
    exact Nat.succ_le_succ (first_loud hsub he g g' hq.2 hf)

private theorem quiet_silent {evs evs' : List (EvFn ℝ)} (hsub : ∀ e ∈ evs', e ∈ evs) {e : EvFn ℝ} (he : e ∈ evs') {root : RootFinder ℝ} {x : ℝ} :
    ∀ {l pre' rest' : List (Step ℝ)} {s' : Step ℝ} {a : ℝ × List ℝ}, l = pre' ++ s' :: rest' → AllQuiet evs a l → ¬ FiresAt root e (lastPt a pre') s' x
  | [], pre, _, _, _, h, _, _ => by cases pre <;> cases h
  | q :: l, [], _, s', a, h, hq, hf => by
    obtain ⟨⟨va, vb, f1, f2, f3⟩, -⟩ := hf
    obtain ⟨rfl, -⟩ := List.cons.inj h
    have := hq.1 e (hsub e he) va vb f1 f2
    rw [f3] at this; cases this
  | q :: l, p :: pre, rest, s', a, h, hq, hf => by
    obtain ⟨rfl, g⟩ := List.cons.inj h
    exact quiet_silent hsub he g hq.2 hf

/-- **C67**, the order of the events: two calls with the same events in different order, and otherwise the same (so that the integrator takes the same steps).
If both return, they report the same end and agree on success. The status can differ only if two events are located at that very point. -/
theorem event_order_irrelevant {o1 o1' o1'' o2 o2' o2'' : Obj ℝ} {x0 x1 : ℝ} {te1 te2 : TermArg ℝ} {p1 p2 : IvpProblem ℝ} (ev : Event ℝ → EvFn ℝ)
    (stepper : Stepper ℝ) (root : RootFinder ℝ) {r1 r2 : IntegrationResult ℝ} (hp1 : o1.prepare x0 x1 te1 = (o1', .ok p1)) (hp2 : o2.prepare x0 x1 te2 = (o2', .ok p2))
    (h1 : o1.solve x0 x1 te1 (ivp ev stepper root) = (o1'', .ok r1)) (h2 : o2.solve x0 x1 te2 (ivp ev stepper root) = (o2'', .ok r2))
    (hperm : (o1.events ++ te1.toList).Perm (o2.events ++ te2.toList)) (hy : p1.y0 = p2.y0) (hrun : stepper p1 = stepper p2)
    (hcon : Consistent (x0, p1.y0) (stepper p1).steps) :
    r1.xEnd = r2.xEnd ∧ r1.success = r2.success ∧
      (r1.status = r2.status ∨ ∃ e1 ∈ o1.events ++ te1.toList, ∃ e2 ∈ o1.events ++ te1.toList, e1.info.1 = r1.status ∧ e2.info.1 = r2.status ∧
        ∃ (pre rest : List (Step ℝ)) (s : Step ℝ), (stepper p1).steps = pre ++ s :: rest ∧
          FiresAt root (ev e1) (lastPt (x0, p1.y0) pre) s r1.xEnd ∧ FiresAt root (ev e2) (lastPt (x0, p1.y0) pre) s r1.xEnd) := by
  obtain ⟨a1, b1, -, -⟩ := prepare_fields hp1
  obtain ⟨a2, b2, -, -⟩ := prepare_fields hp2
  rw [← b1, ← b2] at hperm
  have ho1 := solve_outcome ev stepper root hp1 h1
  have ho2 := solve_outcome ev stepper root hp2 h2
  rw [← hrun] at ho2
  have sub1 : ∀ e ∈ p1.events.map ev, e ∈ p2.events.map ev := fun e he => (hperm.map ev).mem_iff.1 he
  have sub2 : ∀ e ∈ p2.events.map ev, e ∈ p1.events.map ev := fun e he => (hperm.map ev).mem_iff.2 he
  cases ho1 with
  | reached q1 e1 s1 x1 k1 =>
    cases ho2 with
    | reached q2 e2 s2 x2 k2 => exact ⟨by rw [x1, x2, a1, a2, hy], by rw [k1, k2], .inl (by rw [s1, s2])⟩
    | failed m q2 e2 => rw [e1] at e2; cases e2
    | stopped pre rest s i e hsteps hq hi hf =>
      rw [a2, ← hy] at hf
      rw [a1] at q1
      exact absurd hf (quiet_silent sub2 (List.mem_map_of_mem (List.mem_of_getElem? hi)) hsteps q1)
  | failed m q1 e1 s1 x1 k1 =>
    cases ho2 with
    | reached q2 e2 => rw [e1] at e2; cases e2
    | failed m q2 e2 s2 x2 k2 => exact ⟨by rw [x1, x2, a1, a2], by rw [k1, k2], .inl (by rw [s1, s2])⟩
    | stopped pre rest s i e hsteps hq hi hf =>
      rw [a2, ← hy] at hf
      rw [a1] at q1
      exact absurd hf (quiet_silent sub2 (List.mem_map_of_mem (List.mem_of_getElem? hi)) hsteps q1)
  | stopped pre rest s i e hsteps hq hi hf hs _ k1 hmin =>
    have m1 := List.mem_of_getElem? hi
    rw [a1] at hf hq hmin
    cases ho2 with
    | reached q2 =>
      rw [a2, ← hy] at q2
      exact absurd hf (quiet_silent sub1 (List.mem_map_of_mem m1) hsteps q2)
    | failed _ q2 =>
      rw [a2, ← hy] at q2
      exact absurd hf (quiet_silent sub1 (List.mem_map_of_mem m1) hsteps q2)
    | stopped pre' rest' s' i' e' hsteps' hq' hi' hf' hs' _ k2 hmin' =>
      have m2 := List.mem_of_getElem? hi'
      rw [a2, ← hy] at hf' hq' hmin'
      have l1 := first_loud sub2 (List.mem_map_of_mem m2) hsteps hsteps' hq hf'
      have l2 := first_loud sub1 (List.mem_map_of_mem m1) hsteps' hsteps hq' hf
      have heq := hsteps.symm.trans hsteps'
      obtain ⟨rfl, heq'⟩ := List.append_inj heq (le_antisymm l1 l2)
      obtain ⟨rfl, rfl⟩ := List.cons.inj heq'
      have hlt := (consistent_split (hsteps ▸ hcon)).1
      have hfw : PyCmp.gt s.t (lastPt (x0, p1.y0) pre).1 = true := by simpa [PyCmp.gt] using hlt
      rw [hfw] at hmin hmin'
      have loc : ∀ {x y : ℝ} {g : EvFn ℝ}, FiresAt root g (lastPt (x0, p1.y0) pre) s x → FiresAt root g (lastPt (x0, p1.y0) pre) s y → x = y := fun h h' => by
        have := h.2.symm.trans h'.2
        simpa using this
      have c1 : r1.xEnd ≤ r2.xEnd := by
        obtain ⟨act, t1, t2⟩ := hmin
        obtain ⟨j, hj⟩ := List.mem_iff_getElem?.1 (hperm.mem_iff.2 m2)
        obtain ⟨va, vb, f1, f2, f3⟩ := hf'.1
        obtain ⟨te', t3, t4⟩ := t2 j e' va vb hj f1 f2 f3
        rw [loc hf' t4]
        exact earliest_le t1 _ t3
      have c2 : r2.xEnd ≤ r1.xEnd := by
        obtain ⟨act, t1, t2⟩ := hmin'
        obtain ⟨j, hj⟩ := List.mem_iff_getElem?.1 (hperm.mem_iff.1 m1)
        obtain ⟨va, vb, f1, f2, f3⟩ := hf.1
        obtain ⟨te', t3, t4⟩ := t2 j e va vb hj f1 f2 f3
        rw [loc hf t4]
        exact earliest_le t1 _ t3
      have hx := le_antisymm c1 c2
      refine ⟨hx, by rw [k1, k2], .inr ⟨e, b1 ▸ m1, e', b1 ▸ hperm.mem_iff.2 m2, hs.symm, hs'.symm, pre, rest, s, hsteps, hf, ?_⟩⟩
      rw [hx]; exact hf'

end IBL
