import Verif.Props.Method

/-!
Properties C04-C06, C53 of the method objects: which solution and which events are in force after an arbitrary history.
-/

set_option linter.unusedSectionVars false

namespace IBL
variable {α : Type}
variable [Add α] [Sub α] [Mul α] [Div α] [Neg α] [PyLit α] [PyCmp α] [PySqrt α] [PyPow α]

/-- A call other than `solve`. -/
def Op.isConfig : Op α → Prop
  | .solve _ _ _ _ => False
  | _ => True

/-- Every query of a boundary layer quantity raises ValueError. -/
def QueriesRaise (o : Obj α) : Prop :=
  ∀ x rho : α, o.deltaM x = .error .valueError ∧ o.shapeD x = .error .valueError ∧
    o.deltaD x = .error .valueError ∧ o.vE x = .error .valueError ∧ o.tauWThwaites x rho = .error .valueError

private theorem queries_raise {o : Obj α} (h : o.sol = none) : QueriesRaise o := by
  have hc : ∀ i x, o.comp i x = .error .valueError := by
    intro i x; simp [Obj.comp, Obj.state, h, bind, Except.bind]
  have hm : ∀ x, o.deltaM x = .error .valueError := by
    intro x; unfold Obj.deltaM; split <;> simp [hc, bind, Except.bind]
  have hs : ∀ x, o.shapeD x = .error .valueError := by
    intro x; unfold Obj.shapeD; split <;> simp [hc, bind, Except.bind]
  intro x rho
  refine ⟨hm x, hs x, ?_, ?_, ?_⟩
  · simp [Obj.deltaD, hm, bind, Except.bind]
  · unfold Obj.vE
    split
    · simp [Obj.vEHead, hc, bind, Except.bind]
    · simp [Obj.vEThwaites, hc, bind, Except.bind]
  · simp [Obj.tauWThwaites, hc, bind, Except.bind]

private theorem config_ne {op : Op α} (h : op.isConfig) (x0 x1 : α) (te : TermArg α) (ivp : Ivp α) :
    op ≠ .solve x0 x1 te ivp := by
  rintro rfl; exact h

/-! ### C04 -/

/-- **C04**, failure: once a `solve` has returned `success = False`, every quantity raises until the next `solve`,
whatever is reconfigured in between. -/
theorem failed_solve_leaves_nothing (ext : Ext α) {o o' : Obj α} {x0 x1 : α} {te : TermArg α} {ivp : Ivp α}
    {res : IntegrationResult α} (h : o.solve x0 x1 te ivp = (o', .ok res)) (hf : res.success = false)
    (ops : List (Op α)) (hops : ∀ op ∈ ops, op.isConfig) : QueriesRaise (o'.run ext ops) := by
  apply queries_raise
  rw [run_sol _ _ _ fun op ho => config_ne (hops op ho)]
  obtain ⟨p, r, hr, hx, -, he, -, hrep⟩ := solve_faithful h
  obtain ⟨o1, p', r', hp', hr', ho, he'⟩ := solve_ok h
  have : r'.success = false := by
    unfold evalResult at he'
    by_contra hc
    simp only [Bool.not_eq_false] at hc
    rw [if_pos hc] at he'
    split at he'
    · split at he'
      · simp at he'
      · simp only [Except.ok.injEq] at he'; subst he'; simp_all
    · split at he'
      · split at he'
        · simp only [Except.ok.injEq] at he'; subst he'; simp_all
        · split at he'
          · simp at he'
          · simp only [Except.ok.injEq] at he'; subst he'; simp_all
      · simp only [Except.ok.injEq] at he'; subst he'; simp_all
  rw [ho, this]; rfl

/-- **C04**, before the first solve: a newly built object, reconfigured at will, has nothing to query. -/
theorem fresh_object_raises [PySpecial α] {ext : Ext α} {o : Obj α} (hb : Built ext o) (ops : List (Op α))
    (hops : ∀ op ∈ ops, op.isConfig) : QueriesRaise (o.run ext ops) := by
  apply queries_raise
  rw [run_sol _ _ _ fun op ho => config_ne (hops op ho)]
  have base : ∀ {cls nu u du d2u ic o}, Obj.mkBase ext cls nu u du d2u ic = .ok o → o.sol = none := by
    intro cls nu u du d2u ic o h
    unfold Obj.mkBase at h
    split at h
    · simp at h
    · dsimp only at h
      split at h
      · split at h
        · split at h
          · simp only [Obj.setInitialCondition, Except.ok.injEq] at h; subst h; rfl
          · simp at h
        · simp at h
      · split at h
        · simp at h
        · rename_i hv
          simp only [Obj.setVelocity, Prod.mk.injEq] at hv
          simp only [Obj.setInitialCondition, Except.ok.injEq] at h
          subst h; rw [← hv.1]
  cases hb with
  | thwaites h =>
    unfold Obj.mkThwaites at h
    split at h
    · simp at h
    · rename_i o1 h1
      have := base h1
      simp only [Obj.setDataFits] at h
      split at h
      · simp at h
      · rename_i h2
        split at h2
        · simp at h2
        · simp only [Prod.mk.injEq] at h2
          simp only [Except.ok.injEq] at h
          rw [← h, ← h2.1]; exact this
  | head h =>
    unfold Obj.mkHead at h
    split at h
    · simp at h
    · rename_i o1 h1
      simp only [Obj.setShapeDCritical, Except.ok.injEq] at h
      rw [← h]; show o1.sol = none; exact base h1

/-- **C04**, success: after a `solve` that returned `success = True`, and any reconfiguration, the state that all
quantities are computed from is the dense solution returned by the integrator in that very solve. -/
theorem successful_solve_is_visible (ext : Ext α) {o o' : Obj α} {x0 x1 : α} {te : TermArg α} {ivp : Ivp α}
    {res : IntegrationResult α} (h : o.solve x0 x1 te ivp = (o', .ok res)) (hs : res.success = true)
    (ops : List (Op α)) (hops : ∀ op ∈ ops, op.isConfig) :
    ∃ p r, (o.prepare x0 x1 te).2 = .ok p ∧ ivp p = .ok r ∧ ∀ x, (o'.run ext ops).state x = .ok (r.sol x) := by
  obtain ⟨o1, p, r, hp, hr, ho, he⟩ := solve_ok h
  refine ⟨p, r, by rw [hp], hr, ?_⟩
  have hsr : r.success = true := by
    by_contra hc
    unfold evalResult at he
    rw [if_neg hc] at he
    simp only [Except.ok.injEq] at he; subst he; exact hc hs
  intro x
  unfold Obj.state
  rw [run_sol _ _ _ fun op ho => config_ne (hops op ho), ho, hsr]
  rfl

example : ∃ o' res, Wit.thw1.solve (.fin 0) (.fin 1) .none Wit.ivpEnd = (o', .ok res) ∧ res.success = true := by
  obtain ⟨p, hp, -⟩ := Wit.thw1_prepare (.fin 0) (.fin 1) .none
  simp [Obj.solve, hp, Wit.ivpEnd, evalResult]
example : ∃ o' res, Wit.thw1.solve (.fin 0) (.fin 1) .none Wit.ivpFail = (o', .ok res) ∧ res.success = false := by
  obtain ⟨p, hp, -⟩ := Wit.thw1_prepare (.fin 0) (.fin 1) .none
  simp [Obj.solve, hp, Wit.ivpFail, evalResult]

/-- What the code does when `solve` raises before the integrator has returned: the solution of the previous solve stays. -/
theorem raising_solve_keeps_solution (o : Obj α) (x0 x1 : α) (te : TermArg α) (ivp : Ivp α) (e : Exc)
    (h : (o.prepare x0 x1 te).2 = .error e ∨ ∃ p, (o.prepare x0 x1 te).2 = .ok p ∧ ivp p = .error e) :
    (o.solve x0 x1 te ivp).2 = .error e ∧ (o.solve x0 x1 te ivp).1.sol = o.sol := by
  have hf := (prepare_frame o x0 x1 te).2.2.2.1
  unfold Obj.solve
  rcases hp : o.prepare x0 x1 te with ⟨o1, e1 | p⟩
  · rw [hp] at hf h
    simp only [Except.error.injEq, reduceCtorEq, false_and, exists_false, or_false] at h
    exact ⟨by simp only [h], hf⟩
  · rw [hp] at hf h
    simp only [reduceCtorEq, Except.ok.injEq, exists_eq_left', false_or] at h
    exact ⟨by simp only [h], by simp only [h]; exact hf⟩

/-- A solve that raised can leave an older solution visible (the integrator raises on the second solve). -/
theorem stale_solution_after_exception : ∃ (o : Obj (Flt ℝ)) (ivp : Ivp (Flt ℝ)),
    (o.solve (.fin 0) (.fin 1) .none ivp).2 = .error .other ∧
    ¬ QueriesRaise (o.solve (.fin 0) (.fin 1) .none ivp).1 := by
  let o1 := (Wit.thw1.solve (.fin 0) (.fin 1) .none Wit.ivpEnd).1
  obtain ⟨p, hp, hy⟩ := Wit.thw1_prepare (.fin 0) (.fin 1) .none
  have ho1 : o1.sol = some fun _ => p.y0 := by simp [o1, Obj.solve, hp, Wit.ivpEnd]
  have hcls : o1.cls = .thwaitesLinear := by
    rw [(solve_frame _ _ _ _ _).1, Wit.thw1_eq]; rfl
  have hnu : o1.nu = .fin 1 := by
    rw [(solve_frame _ _ _ _ _).2.1, Wit.thw1_eq]; rfl
  refine ⟨o1, fun _ => .error .other, ?_⟩
  have hr : ∃ q, (o1.prepare (.fin 0) (.fin 1) .none).2 = .ok q := by
    have h : ¬ ((1:ℝ) ≤ 0) := by norm_num
    have ho : o1 = { Wit.thw1 with
        ic := .manual (.fin 0) (.fin 1) (lit 0) (.fin 1) (lit 0),
        events := Wit.thw1.events ++ (TermArg.none : TermArg (Flt ℝ)).toList, sol := some (fun _ => p.y0) } := by
      simp [o1, Obj.solve, hp, Wit.ivpEnd]
    rw [ho, Wit.thw1_eq]
    simp [Obj.prepare, IC.setNu, Wit.thw, h, VelState.duE, VelState.rawDu, callOpt, Vel.call, Wit.zero, IC.setDu,
      Obj.startVector, IC.deltaM, pyDiv, bind, Except.bind, pure, Except.pure]
  obtain ⟨q, hq⟩ := hr
  have := raising_solve_keeps_solution o1 (.fin 0) (.fin 1) .none (fun _ => .error .other) .other (.inr ⟨q, hq, rfl⟩)
  refine ⟨this.1, ?_⟩
  intro hQ
  have h1 := (hQ (.fin 0) (.fin 1)).1
  unfold Obj.deltaM at h1
  rw [(solve_frame _ _ _ _ _).1, hcls] at h1
  simp [Obj.comp, Obj.state, this.2, ho1, hy, bind, Except.bind, pure, Except.pure] at h1

/-! ### C05 -/

/-- **C05** as a property of one call: the integrator gets the method's own events (those of the object before any solve)
and this call's events. -/
def EventsScoped [PySpecial α] (ext : Ext α) : Prop :=
  ∀ o : Obj α, Built ext o → ∀ ops : List (Op α), (∀ op ∈ ops, ∃ x0 x1 te ivp, op = .solve x0 x1 te ivp) →
    ∀ x0 x1 te p, ((o.run ext ops).prepare x0 x1 te).2 = .ok p → p.events = o.events ++ te.toList

/-- **C05** is false of the code, and not only in a corner: events given to any solve that reached the integrator are
passed again to the next solve, on every object. -/
theorem user_events_leak (o : Obj α) (x0 x1 : α) (te : TermArg α) (ivp : Ivp α) (p : IvpProblem α)
    (h : (o.prepare x0 x1 te).2 = .ok p) (x0' x1' : α) (te' : TermArg α) (p' : IvpProblem α)
    (h' : ((o.solve x0 x1 te ivp).1.prepare x0' x1' te').2 = .ok p') :
    p'.events = o.events ++ te.toList ++ te'.toList := by
  have hp : o.prepare x0 x1 te = ((o.prepare x0 x1 te).1, .ok p) := Prod.ext rfl h
  have hp' : (o.solve x0 x1 te ivp).1.prepare x0' x1' te' = (((o.solve x0 x1 te ivp).1.prepare x0' x1' te').1, .ok p') :=
    Prod.ext rfl h'
  rw [(prepare_ok hp').2.1]
  congr 1
  unfold Obj.solve
  rw [hp]
  dsimp only
  split <;> exact (prepare_ok hp).1

/-- **C05** fails: a built object, one solve with a user event, then a solve without. -/
theorem events_not_scoped : ¬ EventsScoped Wit.ext := by
  intro H
  let e : Event (Flt ℝ) := .user (fun _ _ => .ok (.fin 1)) .transitioned "mine"
  have h : ¬ ((1:ℝ) ≤ 0) := by norm_num
  -- the solves start from the default (infinite) momentum thickness; that is irrelevant here
  have hprep : ∀ (o : Obj (Flt ℝ)) te, o.cls = Wit.thw.cls → o.nu = Wit.thw.nu → o.vel = Wit.thw.vel →
      (∃ a b, o.ic = .manual a b (lit 0) .pinf (lit 0)) → ∃ o1 p, o.prepare (.fin 0) (.fin 1) te = (o1, .ok p) ∧
        ∃ a b, o1.ic = .manual a b (lit 0) .pinf (lit 0) := by
    intro o te h1 h2 h3 ⟨a, b, h4⟩
    simp [Obj.prepare, IC.setNu, h1, h2, h3, h4, Wit.thw, h, VelState.duE, VelState.rawDu, callOpt, Vel.call, Wit.zero, IC.setDu,
      Obj.startVector, IC.deltaM, pyDiv, bind, Except.bind, pure, Except.pure]
  obtain ⟨o1, p, hp, hic⟩ := hprep Wit.thw (.one e) rfl rfl rfl ⟨_, _, rfl⟩
  let o2 := (Wit.thw.solve (.fin 0) (.fin 1) (.one e) Wit.ivpEnd).1
  have ho2 : o2 = { o1 with sol := some (fun _ => p.y0) } := by simp [o2, Obj.solve, hp, Wit.ivpEnd]
  have hfr := solve_frame Wit.thw (.fin 0) (.fin 1) (.one e) Wit.ivpEnd
  obtain ⟨o3, p', hp', -⟩ := hprep o2 .none hfr.1 hfr.2.1 hfr.2.2.1 (by rw [ho2]; exact hic)
  have hleak := user_events_leak Wit.thw (.fin 0) (.fin 1) (.one e) Wit.ivpEnd p (by rw [hp]) (.fin 0) (.fin 1) .none p'
    (by show (o2.prepare _ _ _).2 = _; rw [hp'])
  have := H Wit.thw Wit.thw_built [.solve (.fin 0) (.fin 1) (.one e) Wit.ivpEnd] (by simp) (.fin 0) (.fin 1) .none p'
    (by show (o2.prepare _ _ _).2 = _; rw [hp'])
  rw [this] at hleak
  have := congrArg List.length hleak
  simp [TermArg.toList] at this

private theorem run_events_no_user (ext : Ext α) (o : Obj α) (ops : List (Op α))
    (h : ∀ op ∈ ops, ∃ x0 x1 ivp, op = .solve x0 x1 .none ivp) : (o.run ext ops).events = o.events := by
  induction ops generalizing o with
  | nil => rfl
  | cons op ops ih =>
    rw [run_cons, ih _ fun op' h' => h op' (List.mem_cons_of_mem _ h')]
    obtain ⟨x0, x1, ivp, rfl⟩ := h op List.mem_cons_self
    simp only [Obj.step]
    rcases solve_events o x0 x1 .none ivp with h | h
    · exact h
    · rw [h]; simp [TermArg.toList]

/-- **C05**, what holds: if no earlier solve was given user events, a solve gets exactly the method's events and its own
(missing: earlier solves with events). -/
theorem events_scoped_partial (ext : Ext α) (o : Obj α) (ops : List (Op α))
    (h : ∀ op ∈ ops, ∃ x0 x1 ivp, op = .solve x0 x1 .none ivp) (x0 x1 : α) (te : TermArg α) (p : IvpProblem α)
    (hp : ((o.run ext ops).prepare x0 x1 te).2 = .ok p) : p.events = o.events ++ te.toList := by
  have hp : (o.run ext ops).prepare x0 x1 te = (((o.run ext ops).prepare x0 x1 te).1, .ok p) := Prod.ext rfl hp
  rw [(prepare_ok hp).2.1, run_events_no_user ext o ops h]

example : ∃ p, ((Wit.thw1.run Wit.ext []).prepare (.fin 0) (.fin 1) .none).2 = .ok p := by
  obtain ⟨p, hp, -⟩ := Wit.thw1_prepare (.fin 0) (.fin 1) .none
  exact ⟨p, by rw [run_nil, hp]⟩

/-! ### C06 -/

private theorem events_head_append {l m : List (Event α)} {e : Event α} (h : l.head? = some e) : (l ++ m).head? = some e := by
  cases l with
  | nil => simp at h
  | cons a l => simpa using h

private theorem solve_head {o : Obj α} {x0 x1 : α} {te : TermArg α} {ivp : Ivp α} {e : Event α}
    (h : o.events.head? = some e) : (o.solve x0 x1 te ivp).1.events.head? = some e := by
  rcases solve_events o x0 x1 te ivp with h' | h' <;> rw [h']
  · exact h
  · exact events_head_append h

private theorem thw_inv (ext : Ext α) (o : Obj α) (m : Fits α) (hc : o.cls.isThwaites = true)
    (hf : o.fits = some m) (he : o.events.head? = some (.sepThwaites m)) (ops : List (Op α)) :
    (o.run ext ops).fits = some (lastFits ext m ops) ∧
    (o.run ext ops).events.head? = some (.sepThwaites (lastFits ext m ops)) := by
  induction ops generalizing o m with
  | nil => exact ⟨hf, he⟩
  | cons op ops ih =>
    rw [run_cons]
    have hc' : (o.step ext op).1.cls.isThwaites = true := by rw [step_cls]; exact hc
    cases op with
    | setNu nu =>
      refine ih _ m hc' ?_ ?_ <;> (simp only [Obj.step, Obj.setNu]; split <;> assumption)
    | setVelocity u du d2u => exact ih _ m hc' hf he
    | setInitialCondition ic => exact ih _ m hc' hf he
    | setInitialDeltaM v =>
      refine ih _ m hc' ?_ ?_ <;> (simp only [Obj.step, Obj.setInitialDeltaM]; split <;> assumption)
    | setInitialShapeD v =>
      have hh : o.cls ≠ .head := by intro h; rw [h] at hc; simp [Cls.isThwaites] at hc
      refine ih _ m hc' ?_ ?_ <;> (simp only [Obj.step, hh, if_false]; assumption)
    | setDataFits a =>
      rcases hx : chooseFits ext a with e | m'
      · simp only [Obj.step, hc, if_true, Obj.setDataFits, lastFits, hx]
        exact ih _ m hc hf he
      · simp only [Obj.step, hc, if_true, Obj.setDataFits, lastFits, hx]
        exact ih { o with fits := some m', events := [.sepThwaites m'] } m' hc rfl rfl
    | setShapeDCritical c =>
      have hh : o.cls ≠ .head := by intro h; rw [h] at hc; simp [Cls.isThwaites] at hc
      refine ih _ m hc' ?_ ?_ <;> (simp only [Obj.step, hh, if_false]; assumption)
    | solve x0 x1 te ivp =>
      exact ih _ m hc' (by rw [show (o.step ext (.solve x0 x1 te ivp)).1 = (o.solve x0 x1 te ivp).1 from rfl,
        (solve_frame o x0 x1 te ivp).2.2.2]; exact hf) (solve_head he)

private theorem head_inv (ext : Ext α) (o : Obj α) (c : α) (hc : o.cls = .head)
    (he : o.events.head? = some (.sepHead c)) (ops : List (Op α)) :
    (o.run ext ops).events.head? = some (.sepHead (lastCrit c ops)) := by
  induction ops generalizing o c with
  | nil => exact he
  | cons op ops ih =>
    rw [run_cons]
    have hc' : (o.step ext op).1.cls = .head := by rw [step_cls]; exact hc
    cases op with
    | setNu nu => refine ih _ c hc' ?_; simp only [Obj.step, Obj.setNu]; split <;> assumption
    | setVelocity u du d2u => exact ih _ c hc' he
    | setInitialCondition ic => exact ih _ c hc' he
    | setInitialDeltaM v => refine ih _ c hc' ?_; simp only [Obj.step, Obj.setInitialDeltaM]; split <;> assumption
    | setInitialShapeD v =>
      refine ih _ c hc' ?_
      simp only [Obj.step, hc, if_true, Obj.setInitialShapeD]
      split
      · assumption
      · split <;> assumption
    | setDataFits a =>
      refine ih _ c hc' ?_
      simp only [Obj.step, hc, Cls.isThwaites]
      exact he
    | setShapeDCritical c' =>
      refine ih _ c' hc' ?_
      simp only [Obj.step, hc, if_true, Obj.setShapeDCritical]
      rfl
    | solve x0 x1 te ivp => exact ih _ c hc' (solve_head he)

theorem mkBase_cls {ext : Ext α} {cls : Cls} {nu : α} {u du d2u : Arg α} {ic : IC α} {o : Obj α}
    (h : Obj.mkBase ext cls nu u du d2u ic = .ok o) : o.cls = cls := by
  unfold Obj.mkBase at h
  split at h
  · simp at h
  · dsimp only at h
    split at h
    · split at h
      · split at h
        · simp only [Obj.setInitialCondition, Except.ok.injEq] at h; subst h; rfl
        · simp at h
      · simp at h
    · split at h
      · simp at h
      · rename_i hv
        simp only [Obj.setVelocity, Prod.mk.injEq] at hv
        simp only [Obj.setInitialCondition, Except.ok.injEq] at h
        subst h; rw [← hv.1]

/-- **C06** for Thwaites: after construction with fits argument `a` and any history, the fits used by all queries are those
of the last accepted selection, and the first event handed to the integrator is the separation event for exactly those fits. -/
theorem thwaites_separation_monitored [PySpecial α] {ext : Ext α} {linear : Bool} {nu : α} {u du d2u : Arg α}
    {a : FitsArg α} {o : Obj α} (h : Obj.mkThwaites ext linear nu u du d2u a = .ok o) (ops : List (Op α)) :
    ∃ m0, chooseFits ext a = .ok m0 ∧ (o.run ext ops).fits = some (lastFits ext m0 ops) ∧
      ∀ x0 x1 te p, ((o.run ext ops).prepare x0 x1 te).2 = .ok p →
        p.events.head? = some (.sepThwaites (lastFits ext m0 ops)) := by
  unfold Obj.mkThwaites at h
  split at h
  · simp at h
  · rename_i o1 h1
    simp only [Obj.setDataFits] at h
    split at h
    · simp at h
    · rename_i h2
      split at h2
      · simp at h2
      · rename_i m hm
        simp only [Prod.mk.injEq, and_true] at h2
        simp only [Except.ok.injEq] at h
        have hcls : o.cls.isThwaites = true := by
          rw [← h, ← h2]; show o1.cls.isThwaites = true
          rw [mkBase_cls h1]; cases linear <;> rfl
        have inv := thw_inv ext o m hcls (by rw [← h, ← h2]) (by rw [← h, ← h2]; rfl) ops
        refine ⟨m, hm, inv.1, ?_⟩
        intro x0 x1 te p hp
        have hp : (o.run ext ops).prepare x0 x1 te = (((o.run ext ops).prepare x0 x1 te).1, .ok p) := Prod.ext rfl hp
        rw [(prepare_ok hp).2.1]
        exact events_head_append inv.2

/-- **C06** for Head: the first event handed to the integrator is the separation event with the critical shape
factor set last. -/
theorem head_separation_monitored [PySpecial α] {ext : Ext α} {nu : α} {u du d2u : Arg α} {c : α} {o : Obj α}
    (h : Obj.mkHead ext nu u du d2u c = .ok o) (ops : List (Op α)) (x0 x1 : α) (te : TermArg α) (p : IvpProblem α)
    (hp : ((o.run ext ops).prepare x0 x1 te).2 = .ok p) : p.events.head? = some (.sepHead (lastCrit c ops)) := by
  unfold Obj.mkHead at h
  split at h
  · simp at h
  · rename_i o1 h1
    simp only [Obj.setShapeDCritical, Except.ok.injEq] at h
    have inv := head_inv ext o c (by rw [← h]; show o1.cls = .head; exact mkBase_cls h1) (by rw [← h]; rfl) ops
    have hp : (o.run ext ops).prepare x0 x1 te = (((o.run ext ops).prepare x0 x1 te).1, .ok p) := Prod.ext rfl hp
    rw [(prepare_ok hp).2.1]
    exact events_head_append inv

example (ops : List (Op (Flt ℝ))) := thwaites_separation_monitored Wit.thw_mk ops
example (ops : List (Op (Flt ℝ))) := head_separation_monitored Wit.hd_mk ops
/-- The hypothesis of `head_separation_monitored` is met after setting a thickness and a shape factor. -/
example : ∃ p, ((Wit.hd.run Wit.ext [.setInitialDeltaM (.fin 1), .setInitialShapeD (.fin 2),
    .setShapeDCritical (.fin 3)]).prepare (.fin 0) (.fin 1) .none).2 = .ok p := by
  have h : ¬ ((1:ℝ) ≤ 0) := by norm_num
  have h2 : ¬ ((2:ℝ) ≤ 0) := by norm_num
  simp [Obj.run, Obj.step, Obj.setInitialDeltaM, Obj.setInitialShapeD, Obj.setShapeDCritical, Wit.hd, IC.mkManual, IC.assignDelM,
    IC.assignDelD, IC.deltaM, Obj.prepare, IC.setNu, h, h2, VelState.duE, VelState.rawDu, callOpt, Vel.call, Wit.zero, IC.setDu,
    Obj.startVector, IC.shapeD, pyDiv, bind, Except.bind, pure, Except.pure]

/-! ### C53 -/

/-- **C53**: reported quantities do not change when the object is reconfigured without solving again. -/
def ResultsStable (ext : Ext α) : Prop :=
  ∀ o : Obj α, ∀ op : Op α, op.isConfig → ∀ x, (o.step ext op).1.deltaM x = o.deltaM x

/-- **C53** is false: assigning `nu` after a Thwaites solve changes the momentum thickness reported. -/
theorem results_not_stable : ¬ ResultsStable Wit.ext := by
  intro H
  have h4 : ¬ ((4:ℝ) ≤ 0) := by norm_num
  let o : Obj (Flt ℝ) := { Wit.thw with sol := some fun _ => [.fin 1] }
  have := H o (.setNu (.fin 4)) trivial (.fin 0)
  have hs : Real.sqrt 4 = 2 := by
    rw [show (4:ℝ) = 2 ^ 2 by norm_num]; exact Real.sqrt_sq (by norm_num)
  have h1 : ¬ ((1:ℝ) < 0) := by norm_num
  have h5 : ¬ ((4:ℝ) < 0) := by norm_num
  simp [o, Obj.step, Obj.setNu, h4, Wit.thw, Obj.deltaM, Obj.comp, Obj.state, bind, Except.bind, pure, Except.pure,
    PySqrt.sqrt, hs, h1, h5] at this

/-- **C53**, what holds (missing: Thwaites quantities, which read the current `nu`, velocities and fits):
the solution itself never changes by reconfiguration, and for Head so do not the thicknesses and the shape factor. -/
theorem results_stable_partial (ext : Ext α) (o : Obj α) (ops : List (Op α)) (h : ∀ op ∈ ops, op.isConfig) (x : α) :
    (o.run ext ops).state x = o.state x ∧
    (o.cls = .head → (o.run ext ops).deltaM x = o.deltaM x ∧ (o.run ext ops).shapeD x = o.shapeD x ∧
      (o.run ext ops).deltaD x = o.deltaD x) := by
  have hs : (o.run ext ops).sol = o.sol := run_sol _ _ _ fun op ho => config_ne (h op ho)
  have hst : (o.run ext ops).state x = o.state x := by simp [Obj.state, hs]
  refine ⟨hst, fun hc => ?_⟩
  have hc' : (o.run ext ops).cls = .head := by rw [run_cls]; exact hc
  have hcomp : ∀ i, (o.run ext ops).comp i x = o.comp i x := by intro i; simp [Obj.comp, hst]
  have hm : (o.run ext ops).deltaM x = o.deltaM x := by simp [Obj.deltaM, hc, hc', hcomp]
  have hd : (o.run ext ops).shapeD x = o.shapeD x := by simp [Obj.shapeD, hc, hc', hcomp]
  exact ⟨hm, hd, by simp [Obj.deltaD, hm, hd]⟩

example : (Wit.hd.run Wit.ext [.setNu (.fin 2)]).cls = .head := by rw [run_cls]; rfl

end IBL
