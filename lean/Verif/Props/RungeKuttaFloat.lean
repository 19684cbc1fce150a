import Verif.Lemmas.RkFloat
import Verif.Props.Separation

/-!
C141: `solve` with RK45 in arithmetic with rounding comes to an end, and reports exactly the end that was asked for. Every method, either
direction, any right hand side.
-/

set_option linter.unusedSectionVars false

namespace IBL
open SolveIvp RungeKutta RkFloat

section
variable {α : Type} [Add α] [Sub α] [Mul α] [Div α] [Neg α] [PyLit α] [PyCmp α] [PySqrt α] [PyPow α]

/-- The velocity and its slope return a number everywhere, and the functions of the nonlinear method are set. -/
structure VelocityEverywhere (o : Obj α) : Prop where
  uE : ∀ t, ∃ u, o.vel.uE t = .ok u
  duE : ∀ t, ∃ d, o.vel.duE t = .ok d
  fits : o.cls = .thwaitesNonlinear → o.fits ≠ none

/-- The number of components of the state: momentum thickness, for Head also the shape factor. -/
def stateSize : Cls → ℕ
  | .head => 2
  | _ => 1

/-- The event returns a number for every state with `n` components. -/
def EventEverywhere (o : Obj α) (n : ℕ) (e : Event α) : Prop := ∀ t y, y.length = n → ∃ v, o.eventValue e t y = .ok v

theorem prepare_all {o o' : Obj α} {x0 x1 : α} {te : TermArg α} {p : IvpProblem α} (h : o.prepare x0 x1 te = (o', .ok p)) :
    p.rhs = o'.rhs ∧ o'.cls = o.cls ∧ o'.vel = o.vel ∧ o'.fits = o.fits ∧ p.y0.length = stateSize o.cls ∧ p.events = o.events ++ te.toList ∧
    p.x0 = x0 ∧ p.x1 = x1 ∧ p.atol = lit (1/100000000000) := by
  unfold Obj.prepare at h
  split at h
  · cases h
  · simp only at h
    split at h
    · cases h
    · split at h
      · cases h
      · next y0 hy =>
        cases h
        refine ⟨rfl, rfl, rfl, rfl, ?_, rfl, rfl, rfl, rfl⟩
        show y0.length = _
        unfold Obj.startVector at hy
        rcases hc : o.cls <;> rw [hc] at hy <;> simp only [bind, Except.bind, pure, Except.pure] at hy <;>
          (repeat' split at hy) <;> first | (cases hy; rfl) | cases hy

theorem rhs_everywhere {o : Obj α} (E : VelocityEverywhere o) (t : α) (y : List α) (hy : y.length = stateSize o.cls) :
    ∃ v, o.rhs t y = .ok v ∧ v.length = stateSize o.cls := by
  obtain ⟨u, hu⟩ := E.uE t
  obtain ⟨d, hd⟩ := E.duE t
  rcases hc : o.cls
  all_goals rw [hc] at hy
  · match y, hy with
    | [F], _ =>
      exact ⟨_, by simp only [Obj.rhs, hc, Obj.thwaitesRhs, Obj.calcF, Obj.calcLambda, hu, hd, bind, Except.bind, pure, Except.pure]; rfl, rfl⟩
  · match y, hy with
    | [F], _ =>
      rcases hf : o.fits with _ | m
      · exact absurd hf (E.fits hc)
      · exact ⟨_, by simp only [Obj.rhs, hc, Obj.thwaitesRhs, Obj.calcF, Obj.calcLambda, hu, hd, hf, bind, Except.bind, pure, Except.pure]; rfl,
          rfl⟩
  · match y, hy with
    | [a, b], _ =>
      exact ⟨_, by simp only [Obj.rhs, hc, Obj.headRhs, hu, hd, bind, Except.bind, pure, Except.pure]; rfl, rfl⟩

end

variable {R : Rounding} [PyPow R.F]

/-- **C141**: with numbers spaced as in floating point arithmetic (by at least the relative rounding error, and by at least a smallest distance
`m`), the rules of RK45 determine one finite run for every problem, whatever the right hand side: neither the loop that shortens a rejected step
nor the sequence of steps goes on for ever, and the steps number at most the length of the interval divided by `8 m`, plus 2. -/
theorem rk45_rounded_ends (hpow : PowAtMostOne R) {gap : R.F → R.F → R.F} {m : ℝ} (hg : FloatGaps gap m) (p : IvpProblem R.F) :
    ∃ r, Runs gap p r ∧ (∀ r', Runs gap p r' → r' = r) ∧ (r.steps.length : ℝ) ≤ |p.x1.val - p.x0.val| / (8 * m) + 2 := by
  obtain ⟨r, h1, h2⟩ := runs_end hpow hg p
  exact ⟨r, h1, fun r' h => RkFloat.runs_unique h h1, h2⟩

/-- **C141**: in either direction the accepted points go strictly forward and never past the end, and the run reports that it has reached the
end exactly if its last point is the end that was asked for, to the last digit. -/
theorem rk45_rounded_steps {gap : R.F → R.F → R.F} {m : ℝ} (hg : FloatGaps gap m) {p : IvpProblem R.F} {r : Run R.F} (hr : Runs gap p r) :
    (p.x0.val < p.x1.val → (p.x0 :: r.steps.map Step.t).Pairwise (fun a b => a.val < b.val) ∧ ∀ s ∈ r.steps, s.t.val ≤ p.x1.val) ∧
    (p.x1.val < p.x0.val → (p.x0 :: r.steps.map Step.t).Pairwise (fun a b => b.val < a.val) ∧ ∀ s ∈ r.steps, p.x1.val ≤ s.t.val) ∧
    (p.x0 ≠ p.x1 → (r.ending = .reached ↔ (p.x0 :: r.steps.map Step.t).getLast? = some p.x1)) := by
  cases hr with
  | @raised e h =>
    refine ⟨fun _ => by simp, fun _ => by simp, fun h => by simpa using h⟩
  | @run s r hs S =>
    obtain ⟨hst, -, -⟩ := RkFloat.start_state hs
    obtain ⟨σ, hd, hc⟩ := RkFloat.direction_spec p
    have hσ : σ = 1 ∨ σ = -1 := by rcases hc with h | h; exacts [.inl h.1, .inr h.1]
    have key := steps_forward hg hd hσ S
    rw [hst] at key
    refine ⟨fun hx => ?_, fun hx => ?_, fun hx => ?_⟩
    · obtain ⟨rfl, -⟩ | ⟨-, h⟩ := hc
      · obtain ⟨k1, k2, -⟩ := key (by linarith)
        simp only [one_mul] at k1 k2
        exact ⟨k1, k2⟩
      · linarith
    · obtain ⟨-, h⟩ | ⟨rfl, -⟩ := hc
      · linarith
      · obtain ⟨k1, k2, -⟩ := key (by linarith)
        simp only [neg_one_mul, neg_lt_neg_iff, neg_le_neg_iff] at k1 k2
        exact ⟨k1, k2⟩
    · have hne : p.x0.val ≠ p.x1.val := fun h => hx (by ext; exact h)
      obtain ⟨k1, k2, k3⟩ := key (by
        obtain ⟨rfl, h⟩ | ⟨rfl, h⟩ := hc
        · have := lt_of_le_of_ne h hne; linarith
        · linarith)
      rw [k3]
      constructor
      · intro hm
        obtain ⟨l, l', e⟩ := List.append_of_mem hm
        rw [e] at k1 ⊢
        cases l' with
        | nil => simp
        | cons t l' =>
          exfalso
          have h1 : σ * p.x1.val < σ * t.val := (List.pairwise_cons.1 (List.pairwise_append.1 k1).2.1).1 t (by simp)
          cases l with
          | nil => simp at e; exact hx e.1
          | cons a l =>
            have : t ∈ r.steps.map Step.t := by rw [(List.cons.inj e).2]; simp
            obtain ⟨st, h2, rfl⟩ := List.mem_map.1 this
            linarith [k2 st h2]
      · intro h; exact List.mem_of_getLast? h

theorem lastPt_mem {α : Type} (a : α × List α) (l : List (Step α)) : (a.1 :: l.map Step.t).getLast? = some (lastPt a l).1 := by
  induction l generalizing a with
  | nil => rfl
  | cons s l ih =>
    rw [List.map_cons, List.getLast?_cons_cons]
    exact ih s.pt

theorem points_between {gap : R.F → R.F → R.F} {m : ℝ} (hg : FloatGaps gap m) {p : IvpProblem R.F} {r : Run R.F} (hr : Runs gap p r) :
    ∀ t ∈ p.x0 :: r.steps.map Step.t, t.val ∈ Set.uIcc p.x0.val p.x1.val := by
  obtain ⟨h1, h2, -⟩ := rk45_rounded_steps hg hr
  intro t ht
  rcases List.mem_cons.1 ht with rfl | ht'
  · exact Set.left_mem_uIcc
  obtain ⟨s, hs, rfl⟩ := List.mem_map.1 ht'
  rcases lt_trichotomy p.x0.val p.x1.val with h | h | h
  · obtain ⟨k1, k2⟩ := h1 h
    rw [Set.uIcc_of_le h.le]
    exact ⟨((List.pairwise_cons.1 k1).1 _ ht').le, k2 s hs⟩
  · -- an empty interval has one step, to the end
    have e : p.x0 = p.x1 := by ext; exact h
    cases hr with
    | raised => simp at hs
    | run hst S =>
      obtain ⟨q, -, -⟩ := RkFloat.start_state hst
      have heq := (Rounding.F_eq p.x0 p.x1).2 h
      rw [← q] at heq
      cases S with
      | trivial =>
        obtain rfl := List.mem_singleton.1 hs
        exact Set.right_mem_uIcc
      | small _ b => rw [heq] at b; cases b
      | raised _ b => rw [heq] at b; cases b
      | last _ b => rw [heq] at b; cases b
      | more _ b => rw [heq] at b; cases b
  · obtain ⟨k1, k2⟩ := h2 h
    rw [Set.uIcc_of_ge h.le]
    exact ⟨k2 s hs, ((List.pairwise_cons.1 k1).1 _ ht').le⟩

theorem reached_last {gap : R.F → R.F → R.F} {m : ℝ} (hg : FloatGaps gap m) {p : IvpProblem R.F} {r : Run R.F} (hr : Runs gap p r)
    (h : r.ending = .reached) : (lastPt (p.x0, p.y0) r.steps).1 = p.x1 := by
  have e := lastPt_mem (p.x0, p.y0) r.steps
  by_cases hx : p.x0 = p.x1
  · have := points_between hg hr _ (List.mem_of_getLast? e)
    rw [hx, Set.uIcc_self, Set.mem_singleton_iff] at this
    ext; rw [← this, hx]
  · rw [(rk45_rounded_steps hg hr).2.2 hx] at h
    exact Option.some.inj (e.symm.trans h)

/-- With a velocity that is defined everywhere RK45 raises nothing, and every accepted state has all components. -/
theorem rk45_rounded_run {o o' : Obj R.F} (E : VelocityEverywhere o) {x0 x1 : R.F} {te : TermArg R.F} {p : IvpProblem R.F}
    (hp : o.prepare x0 x1 te = (o', .ok p)) {gap : R.F → R.F → R.F} {r : Run R.F} (hst : Runs gap p r) :
    (∀ e, r.ending ≠ .raised e) ∧ ∀ s ∈ r.steps, s.y.length = p.y0.length := by
  obtain ⟨h1, h2, h3, h4, h5, h6, h7, h8, h9⟩ := prepare_all hp
  have E' : VelocityEverywhere o' := ⟨by rw [h3]; exact E.uE, by rw [h3]; exact E.duE, by rw [h2, h4]; exact E.fits⟩
  have D : RkFloat.Defined p := fun t y hy => by
    rw [h1, h5, ← h2]; exact rhs_everywhere E' t y (by rw [hy, h5, h2])
  have hfin : p.y0.all Pchip.isFinite = true := by
    rw [List.all_eq_true]
    intro v _
    rw [Pchip.isFinite, Rounding.F_eq, Rounding.val_zero, Rounding.val_sub, sub_self, R.rd_zero]
  have hat : PyCmp.lt p.atol (lit 0) = false := by
    rw [Bool.eq_false_iff]
    intro h
    rw [Rounding.F_lt, h9, Rounding.val_zero, Rounding.val_lit] at h
    exact absurd h (not_lt.2 (Rounding.rd_nonneg (by norm_num)))
  exact RkFloat.no_exception D hfin hat hst

/-- **C141**: `solve` with RK45 in arithmetic with rounding. If the velocity is defined everywhere, the events return numbers and the root
finder returns a point of its bracket, `solve` raises only what the preparation raises; otherwise it returns. Then the reported end lies in the
interval; it is exactly the end that was asked for if no event stopped the integration, and the start if the integration failed. -/
theorem rk45_rounded_returns {o : Obj R.F} (E : VelocityEverywhere o) (x0 x1 : R.F) (te : TermArg R.F)
    (hev : ∀ e ∈ o.events ++ te.toList, EventEverywhere o (stateSize o.cls) e) {root : RootFinder R.F}
    (hroot : ∀ f a b, ∃ x, root f a b = .ok x ∧ x.val ∈ Set.uIcc a.val b.val) {gap : R.F → R.F → R.F} {m : ℝ} (hg : FloatGaps gap m)
    {stepper : Stepper R.F} (hst : ∀ p, Runs gap p (stepper p)) :
    (∃ e, (o.prepare x0 x1 te).2 = .error e ∧ (o.solve x0 x1 te (ivp o.eventValue stepper root)).2 = .error e) ∨
    ∃ p r, (o.prepare x0 x1 te).2 = .ok p ∧ (o.solve x0 x1 te (ivp o.eventValue stepper root)).2 = .ok r ∧
      r.xEnd.val ∈ Set.uIcc x0.val x1.val ∧ (r.success = false → r.xEnd = x0 ∧ r.status = .unknown) ∧
      (r.success = true → (∀ e ∈ o.events ++ te.toList, e.info.1 ≠ r.status) → r.xEnd = x1 ∧ r.status = .reachedEnd) := by
  rcases hp : o.prepare x0 x1 te with ⟨o', e | p⟩
  · left; exact ⟨e, rfl, by unfold Obj.solve; rw [hp]⟩
  · right
    obtain ⟨h1, h2, h3, h4, h5, h6, h7, h8, h9⟩ := prepare_all hp
    obtain ⟨n1, n2⟩ := rk45_rounded_run E hp (hst p)
    obtain ⟨r, hr⟩ := solve_total o.eventValue stepper root hp (fun f a b => let ⟨x, h, _⟩ := hroot f a b; ⟨x, h⟩)
      (fun e he => hev e (by rwa [← h6]) _ _ h5) (fun s hs e he => hev e (by rwa [← h6]) _ _ (by rw [n2 s hs, h5])) n1
    have pts := points_between hg (hst p)
    refine ⟨p, r, rfl, hr, ?_⟩
    rcases hsol : o.solve x0 x1 te (ivp o.eventValue stepper root) with ⟨o'', res⟩
    rw [hsol] at hr
    obtain rfl : res = .ok r := hr
    rw [← h7, ← h8, ← h6]
    rcases solve_outcome o.eventValue stepper root hp hsol with ⟨-, b, c, d, e⟩ | ⟨_, -, b, c, d, e⟩ | ⟨pre, rest, s, i, ev, a1, -, a3, a4, a5, -, a7, -, -⟩
    · rw [reached_last hg (hst p) b] at d
      refine ⟨by rw [d]; exact Set.right_mem_uIcc, fun h => (by rw [e] at h; cases h), fun _ _ => ⟨d, c⟩⟩
    · refine ⟨by rw [d]; exact Set.left_mem_uIcc, fun _ => ⟨d, c⟩, fun h => (by rw [e] at h; cases h)⟩
    · refine ⟨?_, fun h => (by rw [a7] at h; cases h), fun _ h => absurd a5.symm (h ev (List.mem_of_getElem? a3))⟩
      obtain ⟨x, q1, q2⟩ := hroot (fun t => o.eventValue ev t (s.dense t)) (lastPt (p.x0, p.y0) pre).1 s.t
      have : x = r.xEnd := Except.ok.inj (q1.symm.trans a4.2)
      rw [this] at q2
      refine Set.uIcc_subset_uIcc ?_ ?_ q2
      · refine pts _ ?_
        have := List.mem_of_getLast? (lastPt_mem (p.x0, p.y0) pre)
        rw [a1]
        rcases List.mem_cons.1 this with h | h
        · rw [h]; simp
        · exact List.mem_cons_of_mem _ (by rw [List.map_append]; exact List.mem_append_left _ h)
      · exact pts _ (by rw [a1]; simp)

/-- The hypotheses of C141 can be met: binary arithmetic with 53 digits, the powers of the step size control rounded, numbers spaced by about
`2^-52` of their size and at least by `2^-1075`; Head's method along a flat plate, in either direction. -/
theorem rk45_rounded_ends_case : ∃ (R : Rounding) (_ : PyPow R.F) (gap : R.F → R.F → R.F) (m : ℝ) (o : Obj R.F), R.eps = (1/2) ^ 53 ∧
    PowAtMostOne R ∧ FloatGaps gap m ∧ VelocityEverywhere o ∧ o.cls = .head ∧ o.events ≠ [] ∧
    (∀ e ∈ o.events, EventEverywhere o (stateSize o.cls) e) ∧ ∀ x0 x1, ∃ p, (o.prepare x0 x1 .none).2 = .ok p := by
  obtain ⟨R, hR⟩ : ∃ R : Rounding, R.eps = (1/2) ^ 53 := ⟨Rounding.binary 53 (by norm_num), rfl⟩
  let ip : PyPow R.F := ⟨fun a b => R.round (a.val ^ b.val), fun a => R.round (Real.exp a.val), fun a => R.round (Real.logb 10 a.val)⟩
  let o : Obj R.F := ⟨.head, lit 1, ⟨some (.fn fun _ => .ok (lit 1)), some (.fn fun _ => .ok (lit 0)), none⟩,
    .manual (lit 0) (lit 1) (lit 2) (lit 1) (lit 1), [.sepHead (lit 2)], none, none⟩
  obtain ⟨m, hm, -⟩ : ∃ m : ℝ, 0 < m ∧ m = (1/2) ^ 1075 := ⟨_, by positivity, rfl⟩
  refine ⟨R, ip, fun t _ => R.round (2 * R.eps * |t.val| + 2 * m), m, o, hR, fun e he => ?_, ⟨hm, fun t d => ?_⟩,
    ⟨fun t => ⟨_, rfl⟩, fun t => ⟨_, rfl⟩, fun h => by cases h⟩, rfl, by simp [o], fun e he t y hy => ?_, fun x0 x1 => ?_⟩
  · show R.rd (e.val ^ (lit (-(1/5)) : R.F).val) ≤ 1
    conv_rhs => rw [← R.rd_one]
    refine R.mono (Real.rpow_le_one_of_one_le_of_nonpos he ?_)
    rw [Rounding.val_lit, ← R.rd_zero]
    exact R.mono (by norm_num)
  · have h0 : 0 ≤ R.eps * |t.val| := mul_nonneg R.eps_nonneg (abs_nonneg _)
    have h1 := (Rounding.rd_bounds (R := R) (show 0 ≤ 2 * R.eps * |t.val| + 2 * m by linarith)).1
    have h2 : (1/2) * (2 * R.eps * |t.val| + 2 * m) ≤ (1 - R.eps) * (2 * R.eps * |t.val| + 2 * m) :=
      mul_le_mul_of_nonneg_right (by linarith [R.small]) (by linarith)
    show _ ≤ R.rd _ ∧ _ ≤ R.rd _
    exact ⟨by linarith, by linarith⟩
  · obtain rfl : e = .sepHead (lit 2) := by simpa [o] using he
    match y, hy with
    | [a, b], _ => exact ⟨_, rfl⟩
  · have e1 : PyCmp.le (lit 1 : R.F) (lit 0) = false := by
      rw [Bool.eq_false_iff]; intro h; rw [Rounding.F_le, Rounding.val_one, Rounding.val_zero] at h; linarith
    have e3 : o.vel.duE x0 = .ok (lit 0) := rfl
    have e4 : o.ic.setNu o.nu = .ok o.ic := by simp [IC.setNu, o, e1]
    obtain ⟨v, e5⟩ : ∃ v, o.startVector = .ok v := by
      have e2 : PyCmp.eq (lit 1 : R.F) (lit 0) = false := by
        rw [Bool.eq_false_iff]; intro h; rw [Rounding.F_eq, Rounding.val_one, Rounding.val_zero] at h; linarith
      simp [Obj.startVector, o, IC.deltaM, IC.shapeD, pyDiv, e2, bind, Except.bind, pure, Except.pure]
    unfold Obj.prepare
    rw [e4]
    simp only [e3]
    rw [show ({ o with ic := o.ic.setDu (lit 0) } : Obj R.F) = o from rfl, e5]
    exact ⟨_, rfl⟩

end IBL
