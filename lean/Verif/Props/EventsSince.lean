import Verif.Props.MethodHistory

/-! C05 over arbitrary histories: which events a solve hands to the integrator. -/

namespace IBL
set_option linter.unusedSectionVars false
variable {α : Type} [Add α] [Sub α] [Mul α] [Div α] [Neg α] [PyLit α] [PyCmp α] [PySqrt α] [PyPow α]

/-- The events given to solves of a history on an object of class `cls` since the closure was last selected (accepted `set_data_fits` for Thwaites,
`set_shape_d_critical` for Head), one after the other, following `l`. -/
def givenSince (ext : Ext α) (cls : Cls) (l : List (Event α)) : List (Op α) → List (Event α)
  | [] => l
  | .solve _ _ te _ :: ops => givenSince ext cls (l ++ te.toList) ops
  | .setDataFits a :: ops =>
    if cls.isThwaites = true ∧ (chooseFits ext a).toOption.isSome = true then givenSince ext cls [] ops else givenSince ext cls l ops
  | .setShapeDCritical _ :: ops => if cls = .head then givenSince ext cls [] ops else givenSince ext cls l ops
  | _ :: ops => givenSince ext cls l ops

private theorem solve_sublist {o : Obj α} {x0 x1 : α} {te : TermArg α} {ivp : Ivp α} {e : Event α} {l : List (Event α)}
    (h : ∃ k, o.events = e :: k ∧ List.Sublist k l) : ∃ k, (o.solve x0 x1 te ivp).1.events = e :: k ∧ List.Sublist k (l ++ te.toList) := by
  obtain ⟨k, hk, hs⟩ := h
  rcases solve_events o x0 x1 te ivp with h' | h' <;> rw [h', hk]
  · exact ⟨k, rfl, hs.trans (List.sublist_append_left _ _)⟩
  · exact ⟨k ++ te.toList, rfl, hs.append_right _⟩

private theorem thw_since (ext : Ext α) (ops : List (Op α)) : ∀ (o : Obj α) (m : Fits α) (l : List (Event α)), o.cls.isThwaites = true →
    (∃ k, o.events = .sepThwaites m :: k ∧ List.Sublist k l) →
    ∃ k, (o.run ext ops).events = .sepThwaites (lastFits ext m ops) :: k ∧ List.Sublist k (givenSince ext o.cls l ops) := by
  induction ops with
  | nil => intro o m l _ h; exact h
  | cons op ops ih =>
    intro o m l hc h
    rw [run_cons]
    have hcls : (o.step ext op).1.cls = o.cls := step_cls ..
    have hc' : (o.step ext op).1.cls.isThwaites = true := by rw [hcls]; exact hc
    have hh : o.cls ≠ .head := by intro h; rw [h] at hc; simp [Cls.isThwaites] at hc
    have ih' := fun m l => ih (o.step ext op).1 m l hc'
    rw [hcls] at ih'
    cases op with
    | setNu nu => refine ih' m l ?_; simp only [Obj.step, Obj.setNu]; split <;> exact h
    | setVelocity u du d2u => exact ih' m l h
    | setInitialCondition ic => exact ih' m l h
    | setInitialDeltaM v => refine ih' m l ?_; simp only [Obj.step, Obj.setInitialDeltaM]; split <;> exact h
    | setInitialShapeD v => refine ih' m l ?_; simp only [Obj.step, hh, if_false]; exact h
    | setDataFits a =>
      rcases hx : chooseFits ext a with e | m'
      · simp only [lastFits, hx, givenSince, Except.toOption, Option.isSome_none, Bool.false_eq_true, and_false, if_false]
        refine ih' m l ?_
        simp only [Obj.step, hc, if_true, Obj.setDataFits, hx]
        exact h
      · simp only [lastFits, hx, givenSince, Except.toOption, Option.isSome_some, and_true, hc, if_true]
        refine ih' m' [] ?_
        simp only [Obj.step, hc, if_true, Obj.setDataFits, hx]
        exact ⟨[], rfl, List.Sublist.refl _⟩
    | setShapeDCritical c =>
      simp only [givenSince, hh, if_false]
      refine ih' m l ?_
      simp only [Obj.step, hh, if_false]; exact h
    | solve x0 x1 te ivp => exact ih' m (l ++ te.toList) (solve_sublist h)

private theorem head_since (ext : Ext α) (ops : List (Op α)) : ∀ (o : Obj α) (c : α) (l : List (Event α)), o.cls = .head →
    (∃ k, o.events = .sepHead c :: k ∧ List.Sublist k l) →
    ∃ k, (o.run ext ops).events = .sepHead (lastCrit c ops) :: k ∧ List.Sublist k (givenSince ext o.cls l ops) := by
  induction ops with
  | nil => intro o m l _ h; exact h
  | cons op ops ih =>
    intro o c l hc h
    rw [run_cons]
    have hcls : (o.step ext op).1.cls = o.cls := step_cls ..
    have hc' : (o.step ext op).1.cls = .head := by rw [hcls]; exact hc
    have ih' := fun m l => ih (o.step ext op).1 m l hc'
    rw [hcls] at ih'
    cases op with
    | setNu nu => refine ih' c l ?_; simp only [Obj.step, Obj.setNu]; split <;> exact h
    | setVelocity u du d2u => exact ih' c l h
    | setInitialCondition ic => exact ih' c l h
    | setInitialDeltaM v => refine ih' c l ?_; simp only [Obj.step, Obj.setInitialDeltaM]; split <;> exact h
    | setInitialShapeD v =>
      refine ih' c l ?_
      simp only [Obj.step, hc, if_true, Obj.setInitialShapeD]
      split
      · exact h
      · split <;> exact h
    | setDataFits a =>
      have : ¬ (o.cls.isThwaites = true ∧ (chooseFits ext a).toOption.isSome = true) := by rw [hc]; simp [Cls.isThwaites]
      simp only [givenSince, if_neg this]
      refine ih' c l ?_
      simp only [Obj.step, hc, Cls.isThwaites]
      exact h
    | setShapeDCritical c' =>
      simp only [givenSince, hc, if_true]
      rw [hc] at ih'
      refine ih' c' [] ?_
      simp only [Obj.step, hc, if_true, Obj.setShapeDCritical]
      exact ⟨[], rfl, List.Sublist.refl _⟩
    | solve x0 x1 te ivp => exact ih' c (l ++ te.toList) (solve_sublist h)

/-- **C05** for Thwaites, over any history: a solve hands to the integrator the separation event of the fits in force, then events that earlier
solves were given since the fits were last selected, then its own. -/
theorem thwaites_events_since [PySpecial α] {ext : Ext α} {linear : Bool} {nu : α} {u du d2u : Arg α} {a : FitsArg α} {o : Obj α}
    (h : Obj.mkThwaites ext linear nu u du d2u a = .ok o) (ops : List (Op α)) :
    ∃ m0, chooseFits ext a = .ok m0 ∧ ∀ x0 x1 te p, ((o.run ext ops).prepare x0 x1 te).2 = .ok p →
      ∃ k, p.events = .sepThwaites (lastFits ext m0 ops) :: (k ++ te.toList) ∧ List.Sublist k (givenSince ext o.cls [] ops) := by
  unfold Obj.mkThwaites at h
  split at h
  · simp at h
  · rename_i o1 h1
    simp only [Obj.setDataFits] at h
    split at h
    · simp at h
    · rename_i h2
      split at h2
      · simp at h2
      · rename_i m hm
        simp only [Prod.mk.injEq, and_true] at h2
        simp only [Except.ok.injEq] at h
        have hcls : o.cls.isThwaites = true := by
          rw [← h, ← h2]; show o1.cls.isThwaites = true
          rw [mkBase_cls h1]; cases linear <;> rfl
        obtain ⟨k, hk, hs⟩ := thw_since ext ops o m [] hcls ⟨[], by rw [← h, ← h2], List.Sublist.refl _⟩
        refine ⟨m, hm, fun x0 x1 te p hp => ⟨k, ?_, hs⟩⟩
        have hp : (o.run ext ops).prepare x0 x1 te = (((o.run ext ops).prepare x0 x1 te).1, .ok p) := Prod.ext rfl hp
        rw [(prepare_ok hp).2.1, hk]
        rfl

/-- **C05** for Head, over any history: likewise with the critical shape factor set last. -/
theorem head_events_since [PySpecial α] {ext : Ext α} {nu : α} {u du d2u : Arg α} {c : α} {o : Obj α} (h : Obj.mkHead ext nu u du d2u c = .ok o)
    (ops : List (Op α)) (x0 x1 : α) (te : TermArg α) (p : IvpProblem α) (hp : ((o.run ext ops).prepare x0 x1 te).2 = .ok p) :
    ∃ k, p.events = .sepHead (lastCrit c ops) :: (k ++ te.toList) ∧ List.Sublist k (givenSince ext .head [] ops) := by
  unfold Obj.mkHead at h
  split at h
  · simp at h
  · rename_i o1 h1
    simp only [Obj.setShapeDCritical, Except.ok.injEq] at h
    have hc : o.cls = .head := by rw [← h]; show o1.cls = .head; exact mkBase_cls h1
    obtain ⟨k, hk, hs⟩ := head_since ext ops o c [] hc ⟨[], by rw [← h], List.Sublist.refl _⟩
    rw [hc] at hs
    refine ⟨k, ?_, hs⟩
    have hp : (o.run ext ops).prepare x0 x1 te = (((o.run ext ops).prepare x0 x1 te).1, .ok p) := Prod.ext rfl hp
    rw [(prepare_ok hp).2.1, hk]
    rfl

/-- Not a solve with events of the user. -/
def Op.eventFree : Op α → Prop
  | .solve _ _ te _ => te.toList = []
  | _ => True

theorem given_none (ext : Ext α) (cls : Cls) : ∀ (ops : List (Op α)), (∀ op ∈ ops, op.eventFree) → givenSince ext cls [] ops = []
  | [], _ => rfl
  | op :: ops, h => by
    have ih := given_none ext cls ops fun op' h' => h op' (by simp [h'])
    have h1 := h op (by simp)
    cases op with
    | solve x0 x1 te ivp => rw [givenSince, show te.toList = [] from h1]; exact ih
    | setDataFits a => rw [givenSince]; split <;> exact ih
    | setShapeDCritical c => rw [givenSince]; split <;> exact ih
    | _ => exact ih

theorem given_append (ext : Ext α) (cls : Cls) : ∀ (ops ops' : List (Op α)) (l : List (Event α)),
    givenSince ext cls l (ops ++ ops') = givenSince ext cls (givenSince ext cls l ops) ops'
  | [], _, _ => rfl
  | op :: ops, ops', l => by
    cases op with
    | setDataFits a => simp only [List.cons_append, givenSince]; split <;> exact given_append ext cls ops ops' _
    | setShapeDCritical c => simp only [List.cons_append, givenSince]; split <;> exact given_append ext cls ops ops' _
    | _ => exact given_append ext cls ops ops' _

/-- The call selects the closure of an object of class `cls`: accepted fits for Thwaites, any critical shape factor for Head. -/
def Op.selectsClosure (ext : Ext α) (cls : Cls) : Op α → Prop
  | .setDataFits a => cls.isThwaites = true ∧ ∃ m, chooseFits ext a = .ok m
  | .setShapeDCritical _ => cls = .head
  | _ => False

theorem given_selected (ext : Ext α) (cls : Cls) (ops : List (Op α)) {op : Op α} (hop : op.selectsClosure ext cls) (ops' : List (Op α))
    (h : ∀ op ∈ ops', op.eventFree) : givenSince ext cls [] (ops ++ op :: ops') = [] := by
  rw [given_append]
  cases op with
  | setDataFits a =>
    obtain ⟨h1, m, h2⟩ := hop
    rw [givenSince, if_pos ⟨h1, by rw [h2]; rfl⟩]
    exact given_none ext cls ops' h
  | setShapeDCritical c => rw [givenSince, if_pos (show cls = .head from hop)]; exact given_none ext cls ops' h
  | _ => exact hop.elim

/-- **C05** for Thwaites where it holds: if no solve was given events since the fits were last selected (at construction or by an accepted
`set_data_fits`), a solve gets the separation event of the fits in force and its own events, nothing else; whatever else happened before. -/
theorem thwaites_events_scoped_partial [PySpecial α] {ext : Ext α} {linear : Bool} {nu : α} {u du d2u : Arg α} {a : FitsArg α} {o : Obj α}
    (h : Obj.mkThwaites ext linear nu u du d2u a = .ok o) (ops : List (Op α))
    (hops : (∀ op ∈ ops, op.eventFree) ∨ ∃ l op l', ops = l ++ op :: l' ∧ op.selectsClosure ext o.cls ∧ ∀ op ∈ l', op.eventFree) :
    ∃ m0, chooseFits ext a = .ok m0 ∧ ∀ x0 x1 te p, ((o.run ext ops).prepare x0 x1 te).2 = .ok p →
      p.events = .sepThwaites (lastFits ext m0 ops) :: te.toList := by
  obtain ⟨m0, hm, hk⟩ := thwaites_events_since h ops
  refine ⟨m0, hm, fun x0 x1 te p hp => ?_⟩
  obtain ⟨k, he, hs⟩ := hk x0 x1 te p hp
  have : givenSince ext o.cls [] ops = [] := by
    rcases hops with h | ⟨l, op, l', rfl, h1, h2⟩
    · exact given_none ext _ ops h
    · exact given_selected ext _ l h1 l' h2
  rw [this, List.sublist_nil] at hs
  rw [he, hs]
  rfl

/-- **C05** for Head where it holds. -/
theorem head_events_scoped_partial [PySpecial α] {ext : Ext α} {nu : α} {u du d2u : Arg α} {c : α} {o : Obj α}
    (h : Obj.mkHead ext nu u du d2u c = .ok o) (ops : List (Op α))
    (hops : (∀ op ∈ ops, op.eventFree) ∨ ∃ l op l', ops = l ++ op :: l' ∧ op.selectsClosure ext .head ∧ ∀ op ∈ l', op.eventFree)
    (x0 x1 : α) (te : TermArg α) (p : IvpProblem α) (hp : ((o.run ext ops).prepare x0 x1 te).2 = .ok p) :
    p.events = .sepHead (lastCrit c ops) :: te.toList := by
  obtain ⟨k, he, hs⟩ := head_events_since h ops x0 x1 te p hp
  have : givenSince ext .head [] ops = [] := by
    rcases hops with h | ⟨l, op, l', rfl, h1, h2⟩
    · exact given_none ext _ ops h
    · exact given_selected ext _ l h1 l' h2
  rw [this, List.sublist_nil] at hs
  rw [he, hs]
  rfl

/-- A history with events that are forgotten again. -/
example (e : Event (Flt ℝ)) := thwaites_events_scoped_partial Wit.thw_mk
  [.solve (.fin 0) (.fin 1) (.one e) Wit.ivpEnd, .setDataFits (.name "White"), .setNu (.fin 2), .solve (.fin 0) (.fin 1) .none Wit.ivpEnd]
  (.inr ⟨[_], _, _, rfl, ⟨rfl, _, rfl⟩, by simp [Op.eventFree, TermArg.toList]⟩)

end IBL
