import Verif.Model.Shared
import Mathlib.Data.Real.Basic
import Mathlib.Tactic.NormNum

/-! C69, C70: several method objects and shared initial condition objects. -/

namespace IBL
set_option linter.unusedSectionVars false
variable {α : Type}

section spec
variable [Add α] [Sub α] [Mul α] [Div α] [Neg α] [PyLit α] [PyCmp α] [PySqrt α] [PyPow α]

/-- A method object on its own: final state and what each call returned. -/
def Obj.alone (ext : Ext α) : Obj α → List (Op α) → Obj α × List (Out α)
  | o, [] => (o, [])
  | o, op :: l =>
    let r := o.step ext op
    let s := Obj.alone ext r.1 l
    (s.1, r.2 :: s.2)

/-- The calls on method object `j`. -/
def callsOf (j : ℕ) : List (WOp α) → List (Op α)
  | [] => []
  | .call i op :: l => if i = j then op :: callsOf j l else callsOf j l
  | _ :: l => callsOf j l

/-- What the calls on method object `j` returned. -/
def answersOf (j : ℕ) (l : List (ℕ × Out α)) : List (Out α) := (l.filter fun a => a.1 = j).map Prod.snd

/-- **C69** as stated: the calls on each object return what they would return if the object was the only one, in every program that consists of calls
on method objects. -/
def Independent (ext : Ext α) (w : World α) : Prop :=
  ∀ (l : List (ℕ × Op α)) (j : ℕ), (∀ a ∈ l, a.1 < w.size) → j < w.size → answersOf j (w.run ext (l.map fun a => .call a.1 a.2)).2 =
    ((w.view j).alone ext (callsOf j (l.map fun a => .call a.1 a.2))).2

/-- No two method objects refer to the same condition object, and every reference is to an existing one. -/
structure World.Separate (w : World α) : Prop where
  inj : ∀ i j, i < w.size → j < w.size → (w.objs i).2 = (w.objs j).2 → i = j
  alloc : ∀ j, j < w.size → (w.objs j).2 < w.next

end spec

section proofs
variable [Add α] [Sub α] [Mul α] [Div α] [Neg α] [PyLit α] [PyCmp α] [PySqrt α] [PyPow α]

/-- A call changes only the called object (in a world without sharing), in the way it would change on its own. -/
theorem step_call_separate (ext : Ext α) (w : World α) (h : w.Separate) (i : ℕ) (hi : i < w.size) (op : Op α) :
    (w.step ext (.call i op)).1.Separate ∧ (w.step ext (.call i op)).1.size = w.size ∧
    (w.step ext (.call i op)).2 = (i, ((w.view i).step ext op).2) ∧
    ∀ j, j < w.size → (w.step ext (.call i op)).1.view j = if i = j then ((w.view i).step ext op).1 else w.view j := by
  have gen : ∀ r : Obj α × Out α,
      (World.Separate ⟨Function.update w.conds (w.objs i).2 r.1.ic, w.next, w.size, Function.update w.objs i (r.1, (w.objs i).2)⟩) ∧
      ∀ j, j < w.size → World.view ⟨Function.update w.conds (w.objs i).2 r.1.ic, w.next, w.size, Function.update w.objs i (r.1, (w.objs i).2)⟩ j =
        if i = j then r.1 else w.view j := by
    intro r
    have href : ∀ j, (Function.update w.objs i (r.1, (w.objs i).2) j).2 = (w.objs j).2 := by
      intro j
      by_cases hj : j = i
      · subst hj; simp
      · simp [hj]
    refine ⟨⟨fun a b ha hb hab => ?_, fun a ha => ?_⟩, fun j hjs => ?_⟩
    · simp only [href] at hab; exact h.inj a b ha hb hab
    · simp only [href]; exact h.alloc a ha
    · by_cases hj : i = j
      · subst hj; simp [World.view]
      · have hne : (w.objs j).2 ≠ (w.objs i).2 := fun hc => hj (h.inj j i hjs hi hc).symm
        simp [World.view, hj, Function.update_of_ne (Ne.symm hj), hne]
  cases op with
  | setInitialCondition ic =>
    refine ⟨⟨fun a b hsa hsb hab => ?_, fun a hsa => ?_⟩, rfl, rfl, fun j hjs => ?_⟩
    · simp only [World.step] at hab hsa hsb
      by_cases ha : a = i <;> by_cases hb : b = i
      · rw [ha, hb]
      · subst ha
        rw [Function.update_self, Function.update_of_ne hb] at hab
        exact absurd hab (h.alloc b hsb).ne'
      · subst hb
        rw [Function.update_self, Function.update_of_ne ha] at hab
        exact absurd hab (h.alloc a hsa).ne
      · rw [Function.update_of_ne ha, Function.update_of_ne hb] at hab
        exact h.inj a b hsa hsb hab
    · simp only [World.step] at hsa ⊢
      by_cases ha : a = i
      · subst ha; simp
      · rw [Function.update_of_ne ha]; exact (h.alloc a hsa).trans (Nat.lt_succ_self _)
    · by_cases hj : i = j
      · subst hj; simp [World.step, World.view, Obj.step, Obj.setInitialCondition]
      · have hne : (w.objs j).2 ≠ w.next := (h.alloc j hjs).ne
        simp [World.step, World.view, hj, Function.update_of_ne (Ne.symm hj), hne]
  | _ => exact ⟨(gen _).1, rfl, rfl, (gen _).2⟩

/-- **C69**, what holds: in a world in which no condition object is shared, objects are independent: every call returns what it would return
if the object was the only one, and its state is what it would be (missing: worlds with shared conditions). This is what justifies
storing the condition inside the method object in `Model/Method.lean`. -/
theorem independent_partial (ext : Ext α) (w : World α) (h : w.Separate) : Independent ext w ∧
    ∀ (l : List (ℕ × Op α)) (j : ℕ), (∀ a ∈ l, a.1 < w.size) → j < w.size → (w.run ext (l.map fun a => .call a.1 a.2)).1.view j =
      ((w.view j).alone ext (callsOf j (l.map fun a => .call a.1 a.2))).1 := by
  suffices hs : ∀ (l : List (ℕ × Op α)) (w : World α), w.Separate → (∀ a ∈ l, a.1 < w.size) → ∀ j, j < w.size →
      answersOf j (w.run ext (l.map fun a => .call a.1 a.2)).2 = ((w.view j).alone ext (callsOf j (l.map fun a => .call a.1 a.2))).2 ∧
      (w.run ext (l.map fun a => .call a.1 a.2)).1.view j = ((w.view j).alone ext (callsOf j (l.map fun a => .call a.1 a.2))).1 from
    ⟨fun l j hl hj => (hs l w h hl j hj).1, fun l j hl hj => (hs l w h hl j hj).2⟩
  intro l
  induction l with
  | nil => intro w _ _ j _; exact ⟨rfl, rfl⟩
  | cons a l ih =>
    intro w hw hl j hj
    obtain ⟨i, op⟩ := a
    obtain ⟨h1, hsz, h2, h3⟩ := step_call_separate ext w hw i (hl (i, op) (by simp)) op
    obtain ⟨i1, i2⟩ := ih _ h1 (fun a ha => by rw [hsz]; exact hl a (by simp [ha])) j (by rw [hsz]; exact hj)
    rw [h3 j hj] at i1 i2
    simp only [List.map_cons, World.run, callsOf]
    by_cases hij : i = j
    · subst hij
      simp only [if_true, Obj.alone] at i1 i2 ⊢
      exact ⟨by rw [h2]; simpa [answersOf] using i1, i2⟩
    · simp only [hij, if_false] at i1 i2 ⊢
      exact ⟨by rw [h2]; simpa [answersOf, hij] using i1, i2⟩

/-! ### Shared conditions -/

/-- Same kind of condition with the same thicknesses; `nu` and `du_e` may differ. -/
def SameThickness : IC α → IC α → Prop
  | .stag _ _, .stag _ _ => True
  | .manual _ _ a b c, .manual _ _ a' b' c' => a = a' ∧ b = b' ∧ c = c'
  | _, _ => False

theorem SameThickness.refl (c : IC α) : SameThickness c c := by cases c <;> simp [SameThickness]

theorem SameThickness.symm {a b : IC α} (h : SameThickness a b) : SameThickness b a := by
  cases a <;> cases b <;> simp_all [SameThickness]

theorem SameThickness.trans {a b c : IC α} (h : SameThickness a b) (h' : SameThickness b c) : SameThickness a c := by
  cases a <;> cases b <;> cases c <;> simp_all [SameThickness]

/-- Equal but for `nu` and `du_e` of the condition. -/
def AlikeObj (o o' : Obj α) : Prop := SameThickness o.ic o'.ic ∧ o = { o' with ic := o.ic }

/-- The calls that do not assign thicknesses. -/
def Op.keepsThickness : Op α → Bool
  | .setInitialCondition _ | .setInitialDeltaM _ | .setInitialShapeD _ => false
  | _ => true

/-- Two alike objects are the same record with two conditions. -/
private theorem alike_cases {o o' : Obj α} (h : AlikeObj o o') :
    ∃ (b : Obj α) (c c' : IC α), o = { b with ic := c } ∧ o' = { b with ic := c' } ∧ SameThickness c c' := by
  obtain ⟨cls, nu, vel, ic, ev, sol, fits⟩ := o'
  obtain ⟨h1, h2⟩ := h
  exact ⟨⟨cls, nu, vel, ic, ev, sol, fits⟩, o.ic, ic, h2, rfl, h1⟩

private theorem alike_of {b : Obj α} {c c' : IC α} (h : SameThickness c c') : AlikeObj { b with ic := c } { b with ic := c' } := ⟨h, rfl⟩

private theorem setNu_alike {c c' : IC α} (h : SameThickness c c') (n : α) :
    (∃ e, c.setNu n = .error e ∧ c'.setNu n = .error e) ∨
      ∃ d d', c.setNu n = .ok d ∧ c'.setNu n = .ok d' ∧ SameThickness d d' ∧ SameThickness c d ∧ ∀ x, d.setDu x = d'.setDu x := by
  unfold IC.setNu
  by_cases hn : PyCmp.le n (lit 0) = true
  · left; exact ⟨.valueError, by rw [if_pos hn], by rw [if_pos hn]⟩
  · right
    cases c <;> cases c' <;> simp_all [SameThickness, IC.setDu]

private theorem setDu_thickness (c : IC α) (d : α) : SameThickness c (c.setDu d) := by cases c <;> simp [SameThickness, IC.setDu]

/-- What `prepare` hands to the integrator does not depend on the `nu` and `du_e` a condition had before. -/
theorem prepare_alike {o o' : Obj α} (h : AlikeObj o o') (x0 x1 : α) (te : TermArg α) :
    (o.prepare x0 x1 te).2 = (o'.prepare x0 x1 te).2 ∧ AlikeObj (o.prepare x0 x1 te).1 (o'.prepare x0 x1 te).1 := by
  obtain ⟨b, c, c', rfl, rfl, ht⟩ := alike_cases h
  unfold Obj.prepare
  simp only
  rcases setNu_alike ht b.nu with ⟨e, h1, h2⟩ | ⟨d, d', h1, h2, h3, h4, h5⟩
  · rw [h1, h2]
    exact ⟨rfl, alike_of ht⟩
  · rw [h1, h2]
    simp only
    rcases b.vel.duE x0 with e | v
    · exact ⟨rfl, alike_of h3⟩
    · simp only [h5 v]
      refine ⟨?_, SameThickness.refl _, rfl⟩
      first | rfl | trivial

private theorem prepare_thickness (o : Obj α) (x0 x1 : α) (te : TermArg α) : SameThickness o.ic (o.prepare x0 x1 te).1.ic := by
  unfold Obj.prepare
  rcases setNu_alike (SameThickness.refl o.ic) o.nu with ⟨e, h1, -⟩ | ⟨d, d', h1, -, -, h4, -⟩
  · rw [h1]; exact SameThickness.refl _
  · rw [h1]
    simp only
    rcases o.vel.duE x0 with e | v
    · exact h4
    · simp only
      split
      · exact h4.trans (setDu_thickness _ _)
      · exact h4.trans (setDu_thickness _ _)

private theorem solve_alike {o o' : Obj α} (h : AlikeObj o o') (x0 x1 : α) (te : TermArg α) (ivp : Ivp α) :
    (o.solve x0 x1 te ivp).2 = (o'.solve x0 x1 te ivp).2 ∧ AlikeObj (o.solve x0 x1 te ivp).1 (o'.solve x0 x1 te ivp).1 := by
  obtain ⟨h1, h2⟩ := prepare_alike h x0 x1 te
  unfold Obj.solve
  rcases hp : o.prepare x0 x1 te with ⟨p1, p2⟩
  rcases hp' : o'.prepare x0 x1 te with ⟨q1, q2⟩
  rw [hp, hp'] at h1 h2
  simp only at h1 h2
  subst h1
  obtain ⟨b, c, c', rfl, rfl, ht⟩ := alike_cases h2
  rcases p2 with e | p
  · exact ⟨rfl, alike_of ht⟩
  · simp only
    rcases ivp p with e | r
    · exact ⟨rfl, alike_of ht⟩
    · exact ⟨rfl, ht, rfl⟩

private theorem solve_thickness (o : Obj α) (x0 x1 : α) (te : TermArg α) (ivp : Ivp α) : SameThickness o.ic (o.solve x0 x1 te ivp).1.ic := by
  have h := prepare_thickness o x0 x1 te
  unfold Obj.solve
  rcases hp : o.prepare x0 x1 te with ⟨p1, p2⟩
  rw [hp] at h
  rcases p2 with e | p
  · exact h
  · simp only
    rcases ivp p with e | r <;> exact h

/-- One call that assigns no thickness, on alike objects. -/
theorem step_alike (ext : Ext α) {o o' : Obj α} (h : AlikeObj o o') (op : Op α) (hop : op.keepsThickness = true) :
    (o.step ext op).2 = (o'.step ext op).2 ∧ AlikeObj (o.step ext op).1 (o'.step ext op).1 ∧ SameThickness o.ic (o.step ext op).1.ic := by
  cases op with
  | solve x0 x1 te ivp =>
    obtain ⟨h1, h2⟩ := solve_alike h x0 x1 te ivp
    refine ⟨?_, h2, solve_thickness o x0 x1 te ivp⟩
    simp only [Obj.step, h1]
  | setInitialCondition ic => cases hop
  | setInitialDeltaM v => cases hop
  | setInitialShapeD v => cases hop
  | setNu nu =>
    obtain ⟨b, c, c', rfl, rfl, ht⟩ := alike_cases h
    simp only [Obj.step, Obj.setNu]
    split <;> exact ⟨rfl, ⟨ht, rfl⟩, SameThickness.refl _⟩
  | setVelocity u du d2u =>
    obtain ⟨b, c, c', rfl, rfl, ht⟩ := alike_cases h
    exact ⟨rfl, ⟨ht, rfl⟩, SameThickness.refl _⟩
  | setDataFits a =>
    obtain ⟨b, c, c', rfl, rfl, ht⟩ := alike_cases h
    simp only [Obj.step, Obj.setDataFits]
    split
    · split <;> exact ⟨rfl, ⟨ht, rfl⟩, SameThickness.refl _⟩
    · exact ⟨rfl, ⟨ht, rfl⟩, SameThickness.refl _⟩
  | setShapeDCritical c =>
    obtain ⟨b, c, c', rfl, rfl, ht⟩ := alike_cases h
    simp only [Obj.step, Obj.setShapeDCritical]
    split <;> exact ⟨rfl, ⟨ht, rfl⟩, SameThickness.refl _⟩

/-- **C69**, what holds with shared conditions: as long as nobody assigns thicknesses, the calls on each object return what they would return if the
object was the only one. In particular solving one object does not influence the solution of another with the same condition. -/
theorem shared_solves_partial (ext : Ext α) (w : World α) (l : List (ℕ × Op α)) (hl : ∀ a ∈ l, a.2.keepsThickness = true) (j : ℕ) :
    answersOf j (w.run ext (l.map fun a => .call a.1 a.2)).2 = ((w.view j).alone ext (callsOf j (l.map fun a => .call a.1 a.2))).2 ∧
    AlikeObj ((w.run ext (l.map fun a => .call a.1 a.2)).1.view j) ((w.view j).alone ext (callsOf j (l.map fun a => .call a.1 a.2))).1 := by
  suffices hs : ∀ (l : List (ℕ × Op α)), (∀ a ∈ l, a.2.keepsThickness = true) → ∀ (w : World α) (o : Obj α), AlikeObj (w.view j) o →
      answersOf j (w.run ext (l.map fun a => .call a.1 a.2)).2 = (o.alone ext (callsOf j (l.map fun a => .call a.1 a.2))).2 ∧
      AlikeObj ((w.run ext (l.map fun a => .call a.1 a.2)).1.view j) (o.alone ext (callsOf j (l.map fun a => .call a.1 a.2))).1 from
    hs l hl w _ ⟨SameThickness.refl _, rfl⟩
  intro l
  induction l with
  | nil => intro _ w o h; exact ⟨rfl, h⟩
  | cons a l ih =>
    intro hl w o h
    obtain ⟨i, op⟩ := a
    have hop : op.keepsThickness = true := hl (i, op) (by simp)
    have hstep : w.step ext (.call i op) = (⟨Function.update w.conds (w.objs i).2 ((w.view i).step ext op).1.ic, w.next, w.size,
        Function.update w.objs i (((w.view i).step ext op).1, (w.objs i).2)⟩, (i, ((w.view i).step ext op).2)) := by
      cases op with
      | setInitialCondition ic => cases hop
      | _ => rfl
    simp only [List.map_cons, World.run, callsOf, hstep]
    have hic := (step_alike ext (o := w.view i) ⟨SameThickness.refl _, rfl⟩ op hop).2.2
    have htail : ∀ a ∈ l, a.2.keepsThickness = true := fun a ha => hl a (by simp [ha])
    by_cases hij : i = j
    · subst hij
      obtain ⟨h1, h2, -⟩ := step_alike ext h op hop
      simp only [if_true, Obj.alone]
      obtain ⟨x1, x2⟩ := ih htail ⟨Function.update w.conds (w.objs i).2 ((w.view i).step ext op).1.ic, w.next, w.size,
        Function.update w.objs i (((w.view i).step ext op).1, (w.objs i).2)⟩ (o.step ext op).1 (by simpa [World.view] using h2)
      refine ⟨?_, x2⟩
      simp only [answersOf] at x1 ⊢
      simp [x1, h1]
    · simp only [hij, if_false]
      have hv : AlikeObj (World.view ⟨Function.update w.conds (w.objs i).2 ((w.view i).step ext op).1.ic, w.next, w.size,
          Function.update w.objs i (((w.view i).step ext op).1, (w.objs i).2)⟩ j) o := by
        obtain ⟨h1, h2⟩ := h
        by_cases hr : (w.objs j).2 = (w.objs i).2
        · refine ⟨?_, ?_⟩
          · simp only [World.view, Function.update_of_ne (Ne.symm hij), hr, Function.update_self]
            refine SameThickness.trans hic.symm ?_
            have : (w.view i).ic = (w.view j).ic := by simp only [World.view, hr]
            rw [this]; exact h1
          · rw [World.view] at h2
            simp only [World.view, Function.update_of_ne (Ne.symm hij)]
            have := congrArg (fun q : Obj α => ({ q with ic := Function.update w.conds (w.objs i).2 ((w.view i).step ext op).1.ic (w.objs j).2 } : Obj α)) h2
            simpa using this
        · have : World.view ⟨Function.update w.conds (w.objs i).2 ((w.view i).step ext op).1.ic, w.next, w.size,
              Function.update w.objs i (((w.view i).step ext op).1, (w.objs i).2)⟩ j = w.view j := by
            simp [World.view, Function.update_of_ne (Ne.symm hij), hr]
          rw [this]; exact ⟨h1, h2⟩
      obtain ⟨x1, x2⟩ := ih htail _ o hv
      refine ⟨?_, x2⟩
      simp only [answersOf] at x1 ⊢
      simp [x1, hij]

/-- **C70**, what holds: a `solve` (which returns or raises) leaves kind and thicknesses of every condition object as they were. -/
theorem solve_keeps_thickness_partial (ext : Ext α) (w : World α) (j : ℕ) (x0 x1 : α) (te : TermArg α) (ivp : Ivp α) (r : ℕ) :
    SameThickness (w.conds r) ((w.step ext (.call j (.solve x0 x1 te ivp))).1.conds r) := by
  simp only [World.step, Obj.step]
  by_cases hr : r = (w.objs j).2
  · subst hr
    rw [Function.update_self]
    exact solve_thickness (w.view j) x0 x1 te ivp
  · rw [Function.update_of_ne hr]; exact SameThickness.refl _

/-- **C70** fails: a `solve` that gets to the integrator leaves its own viscosity and velocity gradient in the caller's condition object,
whatever they were before and whether the integration succeeds or not. -/
theorem solve_overwrites_condition (ext : Ext α) (w : World α) (j : ℕ) (x0 x1 : α) (te : TermArg α) (ivp : Ivp α) (d : α) (p : IvpProblem α)
    (hp : ((w.view j).prepare x0 x1 te).2 = .ok p) (hd : (w.objs j).1.vel.duE x0 = .ok d) :
    ((w.step ext (.call j (.solve x0 x1 te ivp))).1.conds (w.objs j).2).nu = (w.objs j).1.nu ∧
    ((w.step ext (.call j (.solve x0 x1 te ivp))).1.conds (w.objs j).2).du = d := by
  simp only [World.step, Obj.step, Function.update_self]
  have key : ((w.view j).prepare x0 x1 te).1.ic.nu = (w.objs j).1.nu ∧ ((w.view j).prepare x0 x1 te).1.ic.du = d := by
    unfold Obj.prepare at hp ⊢
    have e1 : (w.view j).nu = (w.objs j).1.nu := rfl
    have e2 : (w.view j).vel.duE x0 = .ok d := hd
    rcases hn : (w.view j).ic.setNu (w.view j).nu with e | c
    · rw [hn] at hp; cases hp
    · rw [hn] at hp
      simp only [e2] at hp ⊢
      have hc : c.nu = (w.view j).nu := by
        unfold IC.setNu at hn
        split at hn
        · cases hn
        · split at hn <;> cases hn <;> rfl
      have hk : (c.setDu d).nu = (w.objs j).1.nu ∧ (c.setDu d).du = d := by
        rw [← e1, ← hc]; cases c <;> exact ⟨rfl, rfl⟩
      split <;> exact hk
  unfold Obj.solve
  rcases hq : (w.view j).prepare x0 x1 te with ⟨p1, p2⟩
  rw [hq] at key hp
  simp only at hp
  subst hp
  simp only
  rcases ivp p with e | r <;> exact key

end proofs

/-! ### Witnesses -/

namespace SharedWit

/-- A Thwaites object in a constant stream. -/
noncomputable def obj : Obj ℝ where
  cls := .thwaitesLinear
  nu := 1
  vel := ⟨some (.fn fun _ => .ok 1), some (.fn fun _ => .ok 0), none⟩
  ic := .manual 0 1 0 1 0
  events := [.sepThwaites Fits.white]
  sol := none
  fits := some Fits.white

/-- Two objects with one condition object. -/
noncomputable def shared : World ℝ := ⟨fun _ => .manual 0 1 0 1 0, 1, 2, fun _ => (obj, 0)⟩

/-- Two objects, each with its own condition object. -/
noncomputable def apart : World ℝ := ⟨fun _ => .manual 0 1 0 1 0, 2, 2, fun j => (obj, j)⟩

/-- An integrator that gives up at once. -/
def giveUp : Ivp ℝ := fun _ => .ok ⟨false, -1, "", [], [], fun _ => []⟩

end SharedWit
open SharedWit

/-- **C69** is false: two objects with the same condition object; assigning the initial momentum thickness of the first changes what the
second starts from. -/
theorem independent_fails (ext : Ext ℝ) : ¬ Independent ext shared := by
  intro h
  have := h [(0, .setInitialDeltaM 2), (1, .solve 0 1 .none giveUp)] 1 (by simp [shared]) (by simp [shared])
  simp [answersOf, World.run, World.step, callsOf, Obj.alone, Obj.step, World.view, shared, obj, Obj.setInitialDeltaM, IC.assignDelM, giveUp, outOf,
    Obj.solve, Obj.prepare, IC.setNu, VelState.duE, VelState.rawDu, callOpt, Vel.call, IC.setDu, Obj.startVector, IC.deltaM, pyDiv, bind, Except.bind,
    pure, Except.pure, TermArg.toList, Except.map, evalResult] at this
  norm_num at this

/-- The hypothesis of `independent_partial` is met by two objects with their own conditions. -/
example : apart.Separate := ⟨fun i j _ _ h => h, fun j h => h⟩

/-- Sharing arises by giving the condition of the first object to the second. -/
example (ext : Ext ℝ) : ((apart.step ext (.setIC 1 0)).1.objs 1).2 = ((apart.step ext (.setIC 1 0)).1.objs 0).2 := by
  simp [World.step, apart]

/-- The hypothesis of `shared_solves_partial` is met by any mixture of solves and reconfigurations of the two objects. -/
example : ∀ a ∈ ([(0, .setNu 2), (1, .solve 0 1 .none giveUp), (0, .solve 0 1 .none giveUp)] : List (ℕ × Op ℝ)), a.2.keepsThickness = true := by
  simp [Op.keepsThickness]

/-- **C70** as stated: solving does not change a condition object. -/
def ConditionsKept (ext : Ext ℝ) (w : World ℝ) : Prop :=
  ∀ (j : ℕ) (x0 x1 : ℝ) (te : TermArg ℝ) (ivp : Ivp ℝ) (r : ℕ), j < w.size → (w.step ext (.call j (.solve x0 x1 te ivp))).1.conds r = w.conds r

/-- **C70** is false: a condition made by the caller with viscosity 1 holds viscosity 2 after it was used by an object with viscosity 2. -/
theorem conditions_kept_fails (ext : Ext ℝ) : ∃ w : World ℝ, (w.conds 0).nu = 1 ∧ (∀ j, j < w.size → (w.objs j).1.nu = 2) ∧ ¬ ConditionsKept ext w := by
  refine ⟨⟨fun _ => .manual 0 1 0 1 0, 1, 1, fun _ => ({ obj with nu := 2 }, 0)⟩, rfl, fun _ _ => rfl, fun h => ?_⟩
  have h1 := h 0 0 1 .none giveUp 0 (by simp)
  obtain ⟨p, hp⟩ : ∃ p, ((World.view (⟨fun _ => .manual 0 1 0 1 0, 1, 1, fun _ => ({ obj with nu := 2 }, 0)⟩ : World ℝ) 0).prepare 0 1 .none).2 =
      .ok p := by
    simp [World.view, obj, Obj.prepare, IC.setNu, VelState.duE, VelState.rawDu, callOpt, Vel.call, IC.setDu, Obj.startVector, IC.deltaM, pyDiv,
      bind, Except.bind, pure, Except.pure, TermArg.toList]
    norm_num
  have h2 := (solve_overwrites_condition ext ⟨fun _ => .manual 0 1 0 1 0, 1, 1, fun _ => ({ obj with nu := 2 }, 0)⟩ 0 0 1 .none giveUp 0 p hp
    (by simp [obj, VelState.duE, VelState.rawDu, callOpt, Vel.call])).1
  simp only at h1 h2
  rw [h1] at h2
  simp [IC.nu] at h2

end IBL
