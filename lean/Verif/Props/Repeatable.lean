import Verif.Props.Shared

/-! C107: a solve depends on the settings in force only, not on earlier solves and not on the order in which different settings were made. -/

namespace IBL
set_option linter.unusedSectionVars false
variable {α : Type}

/-- The four independent settings of a method object. -/
inductive Setting
  | viscosity
  | velocity
  | condition
  | closure
  deriving DecidableEq

/-- The setting that a call makes; a solve makes none. -/
def Op.setting : Op α → Option Setting
  | .setNu _ => some .viscosity
  | .setVelocity _ _ _ => some .velocity
  | .setInitialCondition _ | .setInitialDeltaM _ | .setInitialShapeD _ => some .condition
  | .setDataFits _ | .setShapeDCritical _ => some .closure
  | .solve _ _ _ _ => none

/-- The calls of a history that concern one setting, in their order. -/
def callsFor (k : Setting) (l : List (Op α)) : List (Op α) := l.filter fun op => op.setting = some k

/-- Not a solve with events of the user. -/
def Op.withoutEvents : Op α → Prop
  | .solve _ _ te _ => te.toList = []
  | _ => True

section
variable [Add α] [Sub α] [Mul α] [Div α] [Neg α] [PyLit α] [PyCmp α] [PySqrt α] [PyPow α]

private theorem part_rel (ext : Ext α) (R : Obj α → Obj α → Prop) (k : Setting)
    (hother : ∀ o o' op, Op.setting op ≠ some k → Op.withoutEvents op → R o o' → R (o.step ext op).1 o')
    (hsame : ∀ o o' op, Op.setting op = some k → R o o' → R (o.step ext op).1 (o'.step ext op).1) (l : List (Op α))
    (hl : ∀ op ∈ l, Op.withoutEvents op) : ∀ o o', R o o' → R (o.run ext l) (o'.run ext (callsFor k l)) := by
  induction l with
  | nil => intro o o' h; exact h
  | cons op l ih =>
    intro o o' h
    have hl' : ∀ op ∈ l, Op.withoutEvents op := fun a ha => hl a (by simp [ha])
    by_cases hk : op.setting = some k
    · have : callsFor k (op :: l) = op :: callsFor k l := by simp [callsFor, hk]
      rw [this]
      exact ih hl' _ _ (hsame o o' op hk h)
    · have : callsFor k (op :: l) = callsFor k l := by simp [callsFor, hk]
      rw [this]
      exact ih hl' _ _ (hother o o' op hk (hl op (by simp)) h)

private theorem prepare_keeps (o : Obj α) (x0 x1 : α) (te : TermArg α) (hte : te.toList = []) :
    (o.prepare x0 x1 te).1.cls = o.cls ∧ (o.prepare x0 x1 te).1.nu = o.nu ∧ (o.prepare x0 x1 te).1.vel = o.vel ∧
    (o.prepare x0 x1 te).1.events = o.events ∧ (o.prepare x0 x1 te).1.fits = o.fits := by
  unfold Obj.prepare
  split
  · exact ⟨rfl, rfl, rfl, rfl, rfl⟩
  · simp only
    split
    · exact ⟨rfl, rfl, rfl, rfl, rfl⟩
    · split
      · exact ⟨rfl, rfl, rfl, rfl, rfl⟩
      · exact ⟨rfl, rfl, rfl, by simp [hte], rfl⟩

private theorem solve_keeps (o : Obj α) (x0 x1 : α) (te : TermArg α) (ivp : Ivp α) (hte : te.toList = []) :
    (o.solve x0 x1 te ivp).1.cls = o.cls ∧ (o.solve x0 x1 te ivp).1.nu = o.nu ∧ (o.solve x0 x1 te ivp).1.vel = o.vel ∧
    (o.solve x0 x1 te ivp).1.events = o.events ∧ (o.solve x0 x1 te ivp).1.fits = o.fits := by
  have h := prepare_keeps o x0 x1 te hte
  unfold Obj.solve
  rcases hp : o.prepare x0 x1 te with ⟨p1, p2⟩
  rw [hp] at h
  rcases p2 with e | p
  · exact h
  · simp only
    rcases ivp p with e | r <;> exact h

private theorem solve_thickness (ext : Ext α) (o : Obj α) (x0 x1 : α) (te : TermArg α) (ivp : Ivp α) :
    SameThickness o.ic (o.solve x0 x1 te ivp).1.ic :=
  (step_alike ext (o := o) (o' := o) ⟨SameThickness.refl _, rfl⟩ (.solve x0 x1 te ivp) rfl).2.2

private theorem step_nu (ext : Ext α) (o : Obj α) (op : Op α) (h : op.setting ≠ some .viscosity) (hw : op.withoutEvents) :
    (o.step ext op).1.nu = o.nu := by
  cases op with
  | setNu nu => exact absurd rfl h
  | setVelocity u du d2u => rfl
  | setInitialCondition ic => rfl
  | setInitialDeltaM v => simp only [Obj.step, Obj.setInitialDeltaM]; split <;> rfl
  | setInitialShapeD v =>
    simp only [Obj.step, Obj.setInitialShapeD]
    split
    · split
      · rfl
      · split <;> rfl
    · rfl
  | setDataFits a =>
    simp only [Obj.step, Obj.setDataFits]
    split
    · split <;> rfl
    · rfl
  | setShapeDCritical c => simp only [Obj.step, Obj.setShapeDCritical]; split <;> rfl
  | solve x0 x1 te ivp => exact (solve_keeps o x0 x1 te ivp hw).2.1

private theorem step_cls (ext : Ext α) (o : Obj α) (op : Op α) (hw : op.withoutEvents) : (o.step ext op).1.cls = o.cls := by
  cases op with
  | setNu nu => simp only [Obj.step, Obj.setNu]; split <;> rfl
  | setVelocity u du d2u => rfl
  | setInitialCondition ic => rfl
  | setInitialDeltaM v => simp only [Obj.step, Obj.setInitialDeltaM]; split <;> rfl
  | setInitialShapeD v =>
    simp only [Obj.step, Obj.setInitialShapeD]
    split
    · split
      · rfl
      · split <;> rfl
    · rfl
  | setDataFits a =>
    simp only [Obj.step, Obj.setDataFits]
    split
    · split <;> rfl
    · rfl
  | setShapeDCritical c => simp only [Obj.step, Obj.setShapeDCritical]; split <;> rfl
  | solve x0 x1 te ivp => exact (solve_keeps o x0 x1 te ivp hw).1

private theorem step_vel (ext : Ext α) (o : Obj α) (op : Op α) (h : op.setting ≠ some .velocity) (hw : op.withoutEvents) :
    (o.step ext op).1.vel = o.vel := by
  cases op with
  | setNu nu => simp only [Obj.step, Obj.setNu]; split <;> rfl
  | setVelocity u du d2u => exact absurd rfl h
  | setInitialCondition ic => rfl
  | setInitialDeltaM v => simp only [Obj.step, Obj.setInitialDeltaM]; split <;> rfl
  | setInitialShapeD v =>
    simp only [Obj.step, Obj.setInitialShapeD]
    split
    · split
      · rfl
      · split <;> rfl
    · rfl
  | setDataFits a =>
    simp only [Obj.step, Obj.setDataFits]
    split
    · split <;> rfl
    · rfl
  | setShapeDCritical c => simp only [Obj.step, Obj.setShapeDCritical]; split <;> rfl
  | solve x0 x1 te ivp => exact (solve_keeps o x0 x1 te ivp hw).2.2.1

private theorem step_closure (ext : Ext α) (o : Obj α) (op : Op α) (h : op.setting ≠ some .closure) (hw : op.withoutEvents) :
    (o.step ext op).1.events = o.events ∧ (o.step ext op).1.fits = o.fits := by
  cases op with
  | setNu nu => simp only [Obj.step, Obj.setNu]; split <;> exact ⟨rfl, rfl⟩
  | setVelocity u du d2u => exact ⟨rfl, rfl⟩
  | setInitialCondition ic => exact ⟨rfl, rfl⟩
  | setInitialDeltaM v => simp only [Obj.step, Obj.setInitialDeltaM]; split <;> exact ⟨rfl, rfl⟩
  | setInitialShapeD v =>
    simp only [Obj.step, Obj.setInitialShapeD]
    split
    · split
      · exact ⟨rfl, rfl⟩
      · split <;> exact ⟨rfl, rfl⟩
    · exact ⟨rfl, rfl⟩
  | setDataFits a => exact absurd rfl h
  | setShapeDCritical c => exact absurd rfl h
  | solve x0 x1 te ivp => exact (solve_keeps o x0 x1 te ivp hw).2.2.2

private theorem step_condition (ext : Ext α) (o : Obj α) (op : Op α) (h : op.setting ≠ some .condition) :
    SameThickness o.ic (o.step ext op).1.ic := by
  have hk : op.keepsThickness = true := by cases op <;> simp_all [Op.setting, Op.keepsThickness]
  exact (step_alike ext (o := o) (o' := o) ⟨SameThickness.refl _, rfl⟩ op hk).2.2

private theorem same_nu (ext : Ext α) (o o' : Obj α) (op : Op α) (h : op.setting = some .viscosity) (hR : o.nu = o'.nu) :
    (o.step ext op).1.nu = (o'.step ext op).1.nu := by
  cases op <;> simp [Op.setting] at h
  simp only [Obj.step, Obj.setNu]
  split
  · exact hR
  · rfl

private theorem same_vel (ext : Ext α) (o o' : Obj α) (op : Op α) (h : op.setting = some .velocity) (hR : o.vel = o'.vel) :
    (o.step ext op).1.vel = (o'.step ext op).1.vel := by
  cases op <;> simp [Op.setting] at h
  simp only [Obj.step, Obj.setVelocity, hR]

private theorem same_closure (ext : Ext α) (o o' : Obj α) (op : Op α) (h : op.setting = some .closure)
    (hR : o.cls = o'.cls ∧ o.events = o'.events ∧ o.fits = o'.fits) :
    (o.step ext op).1.cls = (o'.step ext op).1.cls ∧ (o.step ext op).1.events = (o'.step ext op).1.events ∧
      (o.step ext op).1.fits = (o'.step ext op).1.fits := by
  obtain ⟨h1, h2, h3⟩ := hR
  cases op with
  | setDataFits a =>
    simp only [Obj.step, Obj.setDataFits, h1]
    split
    · split
      · exact ⟨h1, h2, h3⟩
      · exact ⟨rfl, rfl, rfl⟩
    · exact ⟨h1, h2, h3⟩
  | setShapeDCritical c =>
    simp only [Obj.step, Obj.setShapeDCritical, h1]
    split
    · exact ⟨rfl, rfl, h3⟩
    · exact ⟨h1, h2, h3⟩
  | _ => simp [Op.setting] at h

private theorem same_condition (ext : Ext α) (o o' : Obj α) (op : Op α) (h : op.setting = some .condition)
    (hR : o.cls = o'.cls ∧ SameThickness o.ic o'.ic) :
    (o.step ext op).1.cls = (o'.step ext op).1.cls ∧ SameThickness (o.step ext op).1.ic (o'.step ext op).1.ic := by
  obtain ⟨hc, hR⟩ := hR
  refine ⟨?_, ?_⟩
  · rw [step_cls, step_cls, hc]
    all_goals cases op <;> simp_all [Op.setting, Op.withoutEvents]
  cases op with
  | setInitialCondition ic => exact SameThickness.refl _
  | setInitialDeltaM v =>
    simp only [Obj.step, Obj.setInitialDeltaM]
    split
    · exact hR
    · cases h1 : o.ic <;> cases h2 : o'.ic <;> rw [h1, h2] at hR <;> simp_all [SameThickness, IC.assignDelM]
  | setInitialShapeD v =>
    simp only [Obj.step, Obj.setInitialShapeD, hc]
    split
    · split
      · exact hR
      · cases h1 : o.ic with
        | stag a b =>
          cases h2 : o'.ic with
          | stag a' b' =>
            simp only
            split <;> split <;> simp_all [SameThickness, IC.assignDelD]
          | manual => rw [h1, h2] at hR; cases hR
        | manual a b c d e =>
          cases h2 : o'.ic with
          | stag => rw [h1, h2] at hR; cases hR
          | manual a' b' c' d' e' =>
            rw [h1, h2] at hR
            obtain ⟨rfl, rfl, rfl⟩ := hR
            simp [IC.deltaM, IC.assignDelD, SameThickness]
    · exact hR
  | _ => simp [Op.setting] at h

/-- The same settings: equal but for the stored solution and for the two attributes of the condition that every solve overwrites. -/
def SameSettings (o o' : Obj α) : Prop :=
  o.cls = o'.cls ∧ o.nu = o'.nu ∧ o.vel = o'.vel ∧ SameThickness o.ic o'.ic ∧ o.events = o'.events ∧ o.fits = o'.fits

private theorem histories_same (ext : Ext α) (o : Obj α) (l1 l2 : List (Op α)) (h1 : ∀ op ∈ l1, op.withoutEvents) (h2 : ∀ op ∈ l2, op.withoutEvents)
    (h : ∀ k, callsFor k l1 = callsFor k l2) : SameSettings (o.run ext l1) (o.run ext l2) := by
  have a1 := fun l hl => part_rel ext (fun o o' => o.nu = o'.nu) .viscosity (fun o o' op hk hw hr => (step_nu ext o op hk hw).trans hr)
    (fun o o' op hk hr => same_nu ext o o' op hk hr) l hl o o rfl
  have a2 := fun l hl => part_rel ext (fun o o' => o.vel = o'.vel) .velocity (fun o o' op hk hw hr => (step_vel ext o op hk hw).trans hr)
    (fun o o' op hk hr => same_vel ext o o' op hk hr) l hl o o rfl
  have a3 := fun l hl => part_rel ext (fun o o' => o.cls = o'.cls ∧ o.events = o'.events ∧ o.fits = o'.fits) .closure
    (fun o o' op hk hw hr => ⟨(step_cls ext o op hw).trans hr.1, (step_closure ext o op hk hw).1.trans hr.2.1,
      (step_closure ext o op hk hw).2.trans hr.2.2⟩)
    (fun o o' op hk hr => same_closure ext o o' op hk hr) l hl o o ⟨rfl, rfl, rfl⟩
  have a4 := fun l hl => part_rel ext (fun o o' => o.cls = o'.cls ∧ SameThickness o.ic o'.ic) .condition
    (fun o o' op hk hw hr => ⟨(step_cls ext o op hw).trans hr.1, (step_condition ext o op hk).symm.trans hr.2⟩)
    (fun o o' op hk hr => same_condition ext o o' op hk hr) l hl o o ⟨rfl, SameThickness.refl _⟩
  have b1 := a1 l1 h1; have b2 := a2 l1 h1; have b3 := a3 l1 h1; have b4 := a4 l1 h1
  rw [h] at b1 b2 b3 b4
  exact ⟨b3.1.trans (a3 l2 h2).1.symm, b1.trans (a1 l2 h2).symm, b2.trans (a2 l2 h2).symm, b4.2.trans (a4 l2 h2).2.symm,
    b3.2.1.trans (a3 l2 h2).2.1.symm, b3.2.2.trans (a3 l2 h2).2.2.symm⟩

private theorem solve_sol (o : Obj α) (s : Option (α → List α)) (x0 x1 : α) (te : TermArg α) :
    ({ o with sol := s }).prepare x0 x1 te = ({ (o.prepare x0 x1 te).1 with sol := s }, (o.prepare x0 x1 te).2) := by
  unfold Obj.prepare
  rcases hs : o.ic.setNu o.nu with e | ic
  · simp only
  · simp only
    rcases o.vel.duE x0 with e | d
    · rfl
    · simp only
      have e1 : ∀ c : IC α, ({ o with ic := c, sol := s } : Obj α).startVector = ({ o with ic := c } : Obj α).startVector := fun c => rfl
      rw [e1]
      rcases ({ o with ic := ic.setDu d } : Obj α).startVector with e | y
      · rfl
      · rfl

private theorem prepare_settings {o o' : Obj α} (h : SameSettings o o') (x0 x1 : α) (te : TermArg α) :
    (o.prepare x0 x1 te).2 = (o'.prepare x0 x1 te).2 ∧ AlikeObj (o.prepare x0 x1 te).1 { (o'.prepare x0 x1 te).1 with sol := o.sol } := by
  obtain ⟨h1, h2, h3, h4, h5, h6⟩ := h
  have ha : AlikeObj o { o' with sol := o.sol } := by
    refine ⟨h4, ?_⟩
    obtain ⟨cls, nu, vel, ic, ev, sol, fits⟩ := o
    simp_all
  have := prepare_alike ha x0 x1 te
  rwa [solve_sol o'] at this

private theorem prepare_ic {o o' : Obj α} (hn : o.nu = o'.nu) (hv : o.vel = o'.vel) (ht : SameThickness o.ic o'.ic) (x0 x1 : α) (te : TermArg α)
    (p : IvpProblem α) (h : (o.prepare x0 x1 te).2 = .ok p) (h' : (o'.prepare x0 x1 te).2 = .ok p) :
    (o.prepare x0 x1 te).1.ic = (o'.prepare x0 x1 te).1.ic := by
  unfold Obj.prepare at h h' ⊢
  rw [hn, hv] at h ⊢
  have hd : ∀ d d', o.ic.setNu o'.nu = .ok d → o'.ic.setNu o'.nu = .ok d' → ∀ x, d.setDu x = d'.setDu x := by
    intro d d' e e' x
    unfold IC.setNu at e e'
    split at e
    · cases e
    · rw [if_neg (by assumption)] at e'
      cases h1 : o.ic <;> cases h2 : o'.ic <;> rw [h1, h2] at ht <;> simp_all [SameThickness] <;> subst e <;> subst e' <;> simp [IC.setDu]
  rcases e : o.ic.setNu o'.nu with _ | d
  · simp [e] at h
  rcases e' : o'.ic.setNu o'.nu with _ | d'
  · simp [e'] at h'
  simp only [e, e'] at h h' ⊢
  rcases ev : o'.vel.duE x0 with _ | v
  · simp [ev] at h
  simp only [ev] at h h' ⊢
  rcases es : ({ o with ic := d.setDu v, nu := o'.nu, vel := o'.vel } : Obj α).startVector with _ | y
  · simp [es] at h
  rcases es' : ({ o' with ic := d'.setDu v } : Obj α).startVector with _ | y'
  · simp [es'] at h'
  simp only [hd d d' e e' v]

/-- **C107**: two histories of calls on an object, in which no events of the user were given to solves, and which for each of the four settings
contain the same calls in the same order. Then the next solve returns the same, or raises the same exception; if it returns, everything about
the two objects is the same afterwards. Earlier solves, successful or not, and the order of calls for different settings leave no trace. -/
theorem solve_depends_on_settings (ext : Ext α) (o : Obj α) (l1 l2 : List (Op α)) (h1 : ∀ op ∈ l1, op.withoutEvents)
    (h2 : ∀ op ∈ l2, op.withoutEvents) (h : ∀ k, callsFor k l1 = callsFor k l2) (x0 x1 : α) (te : TermArg α) (ivp : Ivp α) :
    ((o.run ext l1).solve x0 x1 te ivp).2 = ((o.run ext l2).solve x0 x1 te ivp).2 ∧
    ∀ r, ((o.run ext l1).solve x0 x1 te ivp).2 = .ok r → ((o.run ext l1).solve x0 x1 te ivp).1 = ((o.run ext l2).solve x0 x1 te ivp).1 := by
  have hs := histories_same ext o l1 l2 h1 h2 h
  generalize o.run ext l1 = a at hs
  generalize o.run ext l2 = b at hs
  obtain ⟨p1, p2⟩ := prepare_settings hs x0 x1 te
  have p3 := prepare_ic hs.2.1 hs.2.2.1 hs.2.2.2.1 x0 x1 te
  unfold Obj.solve
  rcases hp : a.prepare x0 x1 te with ⟨a1, ra⟩
  rcases hq : b.prepare x0 x1 te with ⟨b1, rb⟩
  rw [hp, hq] at p1 p2 p3
  simp only at p1 p2 p3
  subst p1
  rcases ra with e | p
  · exact ⟨rfl, fun r hr => by cases hr⟩
  · simp only
    have hic := p3 p rfl rfl
    have he : a1.events = b1.events := by rw [p2.2]
    rcases ivp p with e | r
    · exact ⟨rfl, fun r hr => by cases hr⟩
    · refine ⟨by simp only [he], fun _ _ => ?_⟩
      have := p2.2
      rw [this]
      simp only [hic]

/-- In particular a solve can be repeated: with a deterministic integrator it returns the same again, and again leaves the same object. -/
theorem solve_again (ext : Ext α) (o : Obj α) (x0 x1 : α) (ivp : Ivp α) (r : IntegrationResult α) (h : (o.solve x0 x1 .none ivp).2 = .ok r) :
    ((o.solve x0 x1 .none ivp).1.solve x0 x1 .none ivp).2 = .ok r ∧
    ((o.solve x0 x1 .none ivp).1.solve x0 x1 .none ivp).1 = (o.solve x0 x1 .none ivp).1 := by
  obtain ⟨k1, k2⟩ := solve_depends_on_settings ext o [.solve x0 x1 .none ivp] [] (fun op hop => by
    rw [List.mem_singleton.1 hop]; rfl) (fun op hop => by cases hop) (fun k => by cases k <;> rfl) x0 x1 .none ivp
  have e1 : o.run ext [.solve x0 x1 .none ivp] = (o.solve x0 x1 .none ivp).1 := rfl
  have e2 : o.run ext [] = o := rfl
  rw [e1, e2] at k1 k2
  rw [h] at k1
  exact ⟨k1, k2 r k1⟩

end

/-! The hypotheses are met: the settings of a Thwaites object made in two orders, with a solve in between in one of them. -/

example (ic : IC ℝ) (u : Arg ℝ) (ivp : Ivp ℝ) : let l1 : List (Op ℝ) := [.setNu 2, .setInitialCondition ic, .solve 0 1 .none ivp, .setNu 1,
      .setVelocity u .none .none, .setDataFits (.name "White")]
    let l2 : List (Op ℝ) := [.setDataFits (.name "White"), .setVelocity u .none .none, .setNu 2, .setNu 1, .setInitialCondition ic]
    (∀ op ∈ l1, op.withoutEvents) ∧ (∀ op ∈ l2, op.withoutEvents) ∧ ∀ k, callsFor k l1 = callsFor k l2 := by
  refine ⟨by simp [Op.withoutEvents, TermArg.toList], by simp [Op.withoutEvents], fun k => by cases k <;> rfl⟩

end IBL
