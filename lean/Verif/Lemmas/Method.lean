import Verif.Model.Method

/-! Helper lemmas about the method state machine: which attributes each call can change. -/

namespace IBL
variable {α : Type}

section
variable [Add α] [Sub α] [Mul α] [Div α] [Neg α] [PyLit α] [PyCmp α] [PySqrt α] [PyPow α]

theorem prepare_frame (o : Obj α) (x0 x1 : α) (te : TermArg α) :
    (o.prepare x0 x1 te).1.cls = o.cls ∧ (o.prepare x0 x1 te).1.nu = o.nu ∧
    (o.prepare x0 x1 te).1.vel = o.vel ∧ (o.prepare x0 x1 te).1.sol = o.sol ∧
    (o.prepare x0 x1 te).1.fits = o.fits := by
  unfold Obj.prepare
  split
  · simp
  · dsimp only
    split
    · simp
    · split <;> simp

theorem prepare_ok {o o' : Obj α} {x0 x1 : α} {te : TermArg α} {p : IvpProblem α}
    (h : o.prepare x0 x1 te = (o', .ok p)) :
    o'.events = o.events ++ te.toList ∧ p.events = o.events ++ te.toList ∧ p.x0 = x0 ∧ p.x1 = x1 ∧
    o'.startVector = .ok p.y0 ∧ p.rhs = o'.rhs := by
  unfold Obj.prepare at h
  split at h
  · simp at h
  · dsimp only at h
    split at h
    · simp at h
    · split at h
      · simp at h
      · rename_i ic _ d _ y0 hy
        simp only [Prod.mk.injEq, Except.ok.injEq] at h
        obtain ⟨h1, h2⟩ := h
        subst h1; subst h2
        refine ⟨rfl, rfl, rfl, rfl, ?_, rfl⟩
        simpa [Obj.startVector] using hy

theorem prepare_error {o o' : Obj α} {x0 x1 : α} {te : TermArg α} {e : Exc}
    (h : o.prepare x0 x1 te = (o', .error e)) : o'.events = o.events := by
  unfold Obj.prepare at h
  split at h
  · simp only [Prod.mk.injEq] at h; rw [← h.1]
  · dsimp only at h
    split at h
    · simp only [Prod.mk.injEq] at h; rw [← h.1]
    · split at h
      · simp only [Prod.mk.injEq] at h; rw [← h.1]
      · simp at h

theorem solve_frame (o : Obj α) (x0 x1 : α) (te : TermArg α) (ivp : Ivp α) :
    (o.solve x0 x1 te ivp).1.cls = o.cls ∧ (o.solve x0 x1 te ivp).1.nu = o.nu ∧
    (o.solve x0 x1 te ivp).1.vel = o.vel ∧ (o.solve x0 x1 te ivp).1.fits = o.fits := by
  have hf := prepare_frame o x0 x1 te
  unfold Obj.solve
  split
  · rename_i h; rw [h] at hf; exact ⟨hf.1, hf.2.1, hf.2.2.1, hf.2.2.2.2⟩
  · rename_i h; rw [h] at hf
    split <;> exact ⟨hf.1, hf.2.1, hf.2.2.1, hf.2.2.2.2⟩

theorem solve_events (o : Obj α) (x0 x1 : α) (te : TermArg α) (ivp : Ivp α) :
    (o.solve x0 x1 te ivp).1.events = o.events ∨
    (o.solve x0 x1 te ivp).1.events = o.events ++ te.toList := by
  unfold Obj.solve
  split
  · rename_i h; exact .inl (prepare_error h)
  · rename_i h
    split <;> exact .inr (prepare_ok h).1

theorem solve_ok {o o' : Obj α} {x0 x1 : α} {te : TermArg α} {ivp : Ivp α} {res : IntegrationResult α}
    (h : o.solve x0 x1 te ivp = (o', .ok res)) :
    ∃ o1 p r, o.prepare x0 x1 te = (o1, .ok p) ∧ ivp p = .ok r ∧
      o' = { o1 with sol := if r.success then some r.sol else none } ∧
      evalResult x0 p.y0 p.events r = .ok res := by
  unfold Obj.solve at h
  split at h
  · simp at h
  · rename_i o1 p hp
    split at h
    · simp at h
    · rename_i r hr
      simp only [Prod.mk.injEq] at h
      have := prepare_ok hp
      refine ⟨o1, p, r, hp, hr, h.1.symm, ?_⟩
      rw [this.2.1, ← this.1]; exact h.2

theorem run_nil (ext : Ext α) (o : Obj α) : o.run ext [] = o := rfl
theorem run_cons (ext : Ext α) (o : Obj α) (op : Op α) (ops : List (Op α)) :
    o.run ext (op :: ops) = ((o.step ext op).1).run ext ops := rfl
theorem run_append (ext : Ext α) (o : Obj α) (a b : List (Op α)) :
    o.run ext (a ++ b) = (o.run ext a).run ext b := by simp [Obj.run]

theorem step_cls (ext : Ext α) (o : Obj α) (op : Op α) : (o.step ext op).1.cls = o.cls := by
  cases op with
  | setNu nu => simp only [Obj.step, Obj.setNu]; split <;> rfl
  | setVelocity u du d2u => rfl
  | setInitialCondition ic => rfl
  | setInitialDeltaM v => simp only [Obj.step, Obj.setInitialDeltaM]; split <;> rfl
  | setInitialShapeD v =>
    simp only [Obj.step, Obj.setInitialShapeD]
    split
    · split
      · rfl
      · split <;> rfl
    · rfl
  | setDataFits a =>
    simp only [Obj.step, Obj.setDataFits]
    split
    · split <;> rfl
    · rfl
  | setShapeDCritical c => simp only [Obj.step]; split <;> rfl
  | solve x0 x1 te ivp => exact (solve_frame o x0 x1 te ivp).1

theorem run_cls (ext : Ext α) (o : Obj α) (ops : List (Op α)) : (o.run ext ops).cls = o.cls := by
  induction ops generalizing o with
  | nil => rfl
  | cons op ops ih => rw [run_cons, ih, step_cls]

/-- Only `solve` writes the solution slot. -/
theorem step_sol (ext : Ext α) (o : Obj α) (op : Op α) (h : ∀ x0 x1 te ivp, op ≠ .solve x0 x1 te ivp) :
    (o.step ext op).1.sol = o.sol := by
  cases op with
  | setNu nu => simp only [Obj.step, Obj.setNu]; split <;> rfl
  | setVelocity u du d2u => rfl
  | setInitialCondition ic => rfl
  | setInitialDeltaM v => simp only [Obj.step, Obj.setInitialDeltaM]; split <;> rfl
  | setInitialShapeD v =>
    simp only [Obj.step, Obj.setInitialShapeD]
    split
    · split
      · rfl
      · split <;> rfl
    · rfl
  | setDataFits a =>
    simp only [Obj.step, Obj.setDataFits]
    split
    · split <;> rfl
    · rfl
  | setShapeDCritical c => simp only [Obj.step]; split <;> rfl
  | solve x0 x1 te ivp => exact absurd rfl (h x0 x1 te ivp)

theorem run_sol (ext : Ext α) (o : Obj α) (ops : List (Op α))
    (h : ∀ op ∈ ops, ∀ x0 x1 te ivp, op ≠ .solve x0 x1 te ivp) : (o.run ext ops).sol = o.sol := by
  induction ops generalizing o with
  | nil => rfl
  | cons op ops ih =>
    rw [run_cons, ih _ (fun op' h' => h op' (List.mem_cons_of_mem _ h')),
      step_sol _ _ _ (h op List.mem_cons_self)]

end
end IBL
