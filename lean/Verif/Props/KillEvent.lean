import Verif.Model.KillEvent

/-!
C138: events that a derived class adds with `_add_kill_event` act as if they were passed to `solve`, until the separation criterion is chosen anew; and the label of
the data fits tells which fits are in use.
-/

namespace IBL
set_option linter.unusedSectionVars false
variable {α : Type} [Add α] [Sub α] [Mul α] [Div α] [Neg α] [PyLit α] [PyCmp α] [PySpecial α] [PySqrt α] [PyPow α]

/-! ### Specification -/

/-- What a user can find out about an object without `solve`: everything but its events. -/
def Obj.SameButEvents (o o' : Obj α) : Prop :=
  o.cls = o'.cls ∧ o.nu = o'.nu ∧ o.vel = o'.vel ∧ o.ic = o'.ic ∧ o.sol = o'.sol ∧ o.fits = o'.fits

/-! ### Properties -/

private theorem prepare_add (o : Obj α) (x0 x1 : α) (ke te : TermArg α) (hk : TermArg α) (hl : hk.toList = ke.toList ++ te.toList) :
    (((o.addKillEvent ke).prepare x0 x1 te).2 = (o.prepare x0 x1 hk).2) ∧ ((o.addKillEvent ke).prepare x0 x1 te).1.SameButEvents (o.prepare x0 x1 hk).1 ∧
      (∀ p, (o.prepare x0 x1 hk).2 = .ok p → (o.addKillEvent ke).prepare x0 x1 te = o.prepare x0 x1 hk) := by
  unfold Obj.prepare Obj.addKillEvent Obj.SameButEvents
  dsimp only
  split
  · exact ⟨rfl, ⟨rfl, rfl, rfl, rfl, rfl, rfl⟩, fun p h => by cases h⟩
  · split
    · exact ⟨rfl, ⟨rfl, rfl, rfl, rfl, rfl, rfl⟩, fun p h => by cases h⟩
    · dsimp only [Obj.startVector]
      split
      · exact ⟨rfl, ⟨rfl, rfl, rfl, rfl, rfl, rfl⟩, fun p h => by cases h⟩
      · rw [hl, List.append_assoc]
        exact ⟨rfl, ⟨rfl, rfl, rfl, rfl, rfl, rfl⟩, fun _ _ => rfl⟩

/-- **C138**: `solve` with events `te` of an object to which `ke` were added does what `solve` of the object without them does with both `ke` and `te`, in this order: the
same result or exception, and the same object afterwards; the latter except that, if the preparation raises, the object to which `ke` were added still has them. -/
theorem added_events_as_passed (o : Obj α) (x0 x1 : α) (ke te all : TermArg α) (hl : all.toList = ke.toList ++ te.toList) (ivp : Ivp α) :
    ((o.addKillEvent ke).solve x0 x1 te ivp).2 = (o.solve x0 x1 all ivp).2 ∧
      ((o.addKillEvent ke).solve x0 x1 te ivp).1.SameButEvents (o.solve x0 x1 all ivp).1 ∧
      ((o.solve x0 x1 all ivp).1.events = o.events ++ all.toList → (o.addKillEvent ke).solve x0 x1 te ivp = o.solve x0 x1 all ivp) := by
  obtain ⟨h1, h2, h3⟩ := prepare_add o x0 x1 ke te all hl
  rcases hp : o.prepare x0 x1 all with ⟨o', e | p⟩
  · rcases hq : (o.addKillEvent ke).prepare x0 x1 te with ⟨o2, e2 | p2⟩
    · rw [hp, hq] at h1 h2
      cases h1
      have ev : ∀ (o o' : Obj α) (t : TermArg α) e, o.prepare x0 x1 t = (o', .error e) → o'.events = o.events := fun o o' t e h => by
        unfold Obj.prepare at h
        split at h
        · cases h; rfl
        · dsimp only at h
          split at h
          · cases h; rfl
          · split at h
            · cases h; rfl
            · cases h
      simp only [Obj.solve, hp, hq]
      refine ⟨trivial, h2, fun h => ?_⟩
      rw [ev _ _ _ _ hp] at h
      replace h := List.append_eq_nil_iff.1 (hl ▸ List.self_eq_append_right.1 h)
      have e2 : o2.events = o'.events := by
        rw [ev _ _ _ _ hp, ev _ _ _ _ hq]
        simp [Obj.addKillEvent, h.1]
      obtain ⟨a1, a2, a3, a4, a5, a6⟩ := h2
      rcases o2 with ⟨_⟩
      rcases o' with ⟨_⟩
      simp only at a1 a2 a3 a4 a5 a6 e2
      subst a1 a2 a3 a4 a5 a6 e2
      rfl
    · rw [hp, hq] at h1
      cases h1
  · have := h3 p (by rw [hp])
    have e : (o.addKillEvent ke).solve x0 x1 te ivp = o.solve x0 x1 all ivp := by simp only [Obj.solve, this]
    rw [e]
    exact ⟨rfl, ⟨rfl, rfl, rfl, rfl, rfl, rfl⟩, fun _ => rfl⟩

/-- The condition on `all` can always be met. -/
example (ke te : TermArg α) : (TermArg.list (ke.toList ++ te.toList)).toList = ke.toList ++ te.toList := rfl

/-- **C138**, order and number: adding twice is adding both, one after the other; events added come behind those that are there; nothing else changes. -/
theorem added_events_accumulate (o : Obj α) (ke ke' : TermArg α) :
    (o.addKillEvent ke).events = o.events ++ ke.toList ∧ (o.addKillEvent ke).SameButEvents o ∧
      ((o.addKillEvent ke).addKillEvent ke').events = o.events ++ ke.toList ++ ke'.toList :=
  ⟨rfl, ⟨rfl, rfl, rfl, rfl, rfl, rfl⟩, rfl⟩

/-- **C138**, limits: choosing the separation criterion anew drops them (`set_data_fits` if it accepts the choice, `set_shape_d_critical` always). -/
theorem added_events_dropped (ext : Ext α) (o : Obj α) (ke : TermArg α) :
    (∀ a, (o.setDataFits ext a).2 = .ok () → (o.addKillEvent ke).setDataFits ext a = o.setDataFits ext a) ∧
      ∀ crit, (o.addKillEvent ke).setShapeDCritical crit = o.setShapeDCritical crit := by
  refine ⟨fun a h => ?_, fun _ => rfl⟩
  unfold Obj.setDataFits at h ⊢
  split at h
  · cases h
  · rfl

/-- **C138**, labels: after a successful choice of built-in fits by name, the label is that of the name; a tuple of functions gets the label Custom; different names get
different labels; and a rejected choice leaves the label as it was. -/
theorem fits_label (ext : Ext α) (o : Obj α) :
    (∀ s, ((o.setDataFits ext (.name s)).2 = .ok () → (s, (o.setDataFits ext (.name s)).1.fitsName) ∈
        [("Spline", some "Thwaites Splines"), ("White", some "White"), ("Cebeci-Bradshaw", some "Cebeci and Bradshaw"), ("Drela", some "Drela")])) ∧
      (∀ l, (o.setDataFits ext (.tuple l)).2 = .ok () → (o.setDataFits ext (.tuple l)).1.fitsName = some "Custom") ∧
      ∀ a e, (o.setDataFits ext a).2 = .error e → (o.setDataFits ext a).1.fitsName = o.fitsName := by
  refine ⟨fun s h => ?_, fun l h => ?_, fun a e h => ?_⟩
  · unfold Obj.setDataFits chooseFits at h ⊢
    dsimp only at h ⊢
    split_ifs at h ⊢ with h1 h2 h3 h4
    · subst h1; simp [Obj.fitsName, Fits.spline]
    · subst h2; simp [Obj.fitsName, Fits.white]
    · subst h3; simp [Obj.fitsName, Fits.cebeciBradshaw]
    · subst h4; simp [Obj.fitsName, Fits.drela]
  · unfold Obj.setDataFits at h ⊢
    simp only [chooseFits] at h ⊢
    split at h
    · cases h
    · rename_i m hm
      split at hm <;> cases hm <;> rfl
  · unfold Obj.setDataFits at h ⊢
    split at h
    · rfl
    · cases h

end IBL
