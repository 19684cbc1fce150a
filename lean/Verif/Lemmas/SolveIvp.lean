import Verif.Model.SolveIvp
import Mathlib.Data.List.Basic
import Mathlib.Tactic.Linarith

/-! What the event loop of `Model/SolveIvp.lean` does. -/

namespace IBL.SolveIvp
variable {α : Type} [PyLit α] [PyCmp α]
set_option linter.unusedSectionVars false

abbrev EvFn (α : Type) := α → List α → Except Exc α

/-- The accepted point at the end of a step. -/
def Step.pt (s : Step α) : α × List α := (s.t, s.y)

/-- Between the accepted points `a` and `b` no event changes sign or vanishes. -/
def Quiet (evs : List (EvFn α)) (a b : α × List α) : Prop :=
  ∀ e ∈ evs, ∀ va vb, e a.1 a.2 = .ok va → e b.1 b.2 = .ok vb → changes va vb = false

/-- Event `e` stops the integration in step `s` that began at `a`, at location `te`. -/
def FiresAt (root : RootFinder α) (e : EvFn α) (a : α × List α) (s : Step α) (te : α) : Prop :=
  (∃ va vb, e a.1 a.2 = .ok va ∧ e s.t s.y = .ok vb ∧ changes va vb = true) ∧ root (fun t => e t (s.dense t)) a.1 s.t = .ok te

theorem evalAll_ok {evs : List (EvFn α)} {t : α} {y g : List α} (h : evalAll evs t y = .ok g) :
    List.Forall₂ (fun e v => e t y = .ok v) evs g := by
  induction evs generalizing g with
  | nil => cases h; exact .nil
  | cons e evs ih =>
    rw [evalAll] at h
    split at h
    · cases h
    · split at h
      · cases h
      · cases h; exact .cons (by assumption) (ih (by assumption))

theorem evalAll_total {evs : List (EvFn α)} {t : α} {y : List α} (h : ∀ e ∈ evs, ∃ v, e t y = .ok v) : ∃ g, evalAll evs t y = .ok g := by
  induction evs with
  | nil => exact ⟨[], rfl⟩
  | cons e evs ih =>
    obtain ⟨v, hv⟩ := h e (by simp)
    obtain ⟨g, hg⟩ := ih fun e he => h e (by simp [he])
    exact ⟨v :: g, by rw [evalAll, hv, hg]⟩

theorem activeRoots_spec (root : RootFinder α) (a : α × List α) (s : Step α) (i : ℕ) (evs : List (EvFn α)) (g h : List α)
    (act : List (ℕ × α)) (hg : List.Forall₂ (fun e v => e a.1 a.2 = .ok v) evs g) (hh : List.Forall₂ (fun e v => e s.t s.y = .ok v) evs h)
    (hr : activeRoots root a.1 s i evs g h = .ok act) :
    (∀ p ∈ act, ∃ k e, p.1 = i + k ∧ evs[k]? = some e ∧ FiresAt root e a s p.2) ∧
    (∀ (k : ℕ) (e : EvFn α) (va vb : α), evs[k]? = some e → e a.1 a.2 = .ok va → e s.t s.y = .ok vb → changes va vb = true →
      ∃ te, (i + k, te) ∈ act ∧ FiresAt root e a s te) := by
  induction hg generalizing i h act with
  | nil => simp only [activeRoots] at hr; cases hr; simp
  | @cons e v evs g h1 h2 ih =>
    cases hh with
    | @cons _ w _ hs h3 h4 =>
      rw [activeRoots] at hr
      by_cases hc : changes v w = true
      · rw [if_pos hc] at hr
        split at hr
        · cases hr
        · rename_i te hte
          split at hr
          · cases hr
          · rename_i l hl
            cases hr
            obtain ⟨i1, i2⟩ := ih (i + 1) hs l h4 hl
            have hf : FiresAt root e a s te := ⟨⟨v, w, h1, h3, hc⟩, hte⟩
            refine ⟨fun p hp => ?_, fun k e' va vb he ha hb hcc => ?_⟩
            · rcases List.mem_cons.1 hp with rfl | hp
              · exact ⟨0, e, rfl, rfl, hf⟩
              · obtain ⟨k, e', hk, he, hfe⟩ := i1 p hp
                exact ⟨k + 1, e', by omega, by simpa using he, hfe⟩
            · cases k with
              | zero =>
                simp only [List.getElem?_cons_zero, Option.some.injEq] at he
                subst he
                exact ⟨te, by simp, hf⟩
              | succ k =>
                obtain ⟨te', hm, hfe⟩ := i2 k e' va vb (by simpa using he) ha hb hcc
                refine ⟨te', ?_, hfe⟩
                rw [show i + (k + 1) = i + 1 + k by omega]
                exact List.mem_cons_of_mem _ hm
      · rw [if_neg hc] at hr
        obtain ⟨i1, i2⟩ := ih (i + 1) hs act h4 hr
        refine ⟨fun p hp => ?_, fun k e' va vb he ha hb hcc => ?_⟩
        · obtain ⟨k, e', hk, he, hfe⟩ := i1 p hp
          exact ⟨k + 1, e', by omega, by simpa using he, hfe⟩
        · cases k with
          | zero =>
            simp only [List.getElem?_cons_zero, Option.some.injEq] at he
            subst he
            rw [h1] at ha; rw [h3] at hb
            cases ha; cases hb
            exact absurd hcc hc
          | succ k =>
            obtain ⟨te', hm, hfe⟩ := i2 k e' va vb (by simpa using he) ha hb hcc
            refine ⟨te', ?_, hfe⟩
            rw [show i + (k + 1) = i + 1 + k by omega]
            exact hm

theorem earliest_none {fwd : Bool} {l : List (ℕ × α)} (h : earliest fwd l = none) : l = [] := by
  cases l with
  | nil => rfl
  | cons a l =>
    rw [earliest] at h
    split at h
    · cases h
    · split_ifs at h

theorem earliest_mem {fwd : Bool} {l : List (ℕ × α)} {a : ℕ × α} (h : earliest fwd l = some a) : a ∈ l := by
  induction l generalizing a with
  | nil => cases h
  | cons b l ih =>
    rw [earliest] at h
    split at h
    · cases h; simp
    · rename_i c hc
      by_cases hb : (if fwd then PyCmp.lt c.2 b.2 else PyCmp.gt c.2 b.2) = true
      · rw [if_pos hb] at h; cases h; exact List.mem_cons_of_mem _ (ih hc)
      · rw [if_neg hb] at h; cases h; simp

theorem earliest_le {l : List (ℕ × ℝ)} {a : ℕ × ℝ} (h : earliest true l = some a) (b : ℕ × ℝ) (hb : b ∈ l) : a.2 ≤ b.2 := by
  induction l generalizing a with
  | nil => cases hb
  | cons c l ih =>
    rw [earliest] at h
    split at h
    · rename_i hn
      rw [earliest_none hn] at hb
      cases h
      simp only [List.mem_cons, List.not_mem_nil, or_false] at hb
      rw [hb]
    · rename_i d hd
      simp only [if_true, real_lt] at h
      by_cases hlt : d.2 < c.2
      · rw [if_pos hlt] at h; cases h
        rcases List.mem_cons.1 hb with rfl | hb
        · exact hlt.le
        · exact ih hd hb
      · rw [if_neg hlt] at h; cases h
        rcases List.mem_cons.1 hb with rfl | hb
        · exact le_refl _
        · exact (not_lt.1 hlt).trans (ih hd hb)

/-- The last accepted point after `pre`. -/
def lastPt (a : α × List α) : List (Step α) → α × List α
  | [] => a
  | s :: pre => lastPt s.pt pre

/-- Consecutive accepted points from `a` on are quiet. -/
def AllQuiet (evs : List (EvFn α)) : α × List α → List (Step α) → Prop
  | _, [] => True
  | a, s :: pre => Quiet evs a s.pt ∧ AllQuiet evs s.pt pre

/-- The loop passes quiet steps and stops in the first one that is not, at the earliest of the events that fire. -/
theorem loop_spec (root : RootFinder α) (evs : List (EvFn α)) (a : α × List α) (g : List α) (steps pre : List (Step α))
    (r : Option (Step α × ℕ × α)) (hg : List.Forall₂ (fun e v => e a.1 a.2 = .ok v) evs g) (h : loop root evs a.1 g steps = .ok (pre, r)) :
    AllQuiet evs a pre ∧ (r = none → pre = steps) ∧
    ∀ s i te, r = some (s, i, te) → (∃ rest, steps = pre ++ s :: rest) ∧ (∃ e, evs[i]? = some e ∧ FiresAt root e (lastPt a pre) s te) ∧
      (∃ act, earliest (PyCmp.gt s.t (lastPt a pre).1) act = some (i, te) ∧
        ∀ (k : ℕ) (e : EvFn α) (va vb : α), evs[k]? = some e → e (lastPt a pre).1 (lastPt a pre).2 = .ok va → e s.t s.y = .ok vb →
          changes va vb = true → ∃ te', (k, te') ∈ act ∧ FiresAt root e (lastPt a pre) s te') := by
  induction steps generalizing a g pre r with
  | nil => simp only [loop] at h; cases h; exact ⟨trivial, fun _ => rfl, fun _ _ _ h => by cases h⟩
  | cons s steps ih =>
    rw [loop] at h
    split at h
    · cases h
    · rename_i gNew hgn
      have hgn' := evalAll_ok hgn
      split at h
      · cases h
      · rename_i act hact
        obtain ⟨a1, a2⟩ := activeRoots_spec root a s 0 evs g gNew act hg hgn' hact
        split at h
        · rename_i hit hhit
          cases h
          refine ⟨trivial, (fun h => nomatch h), ?_⟩
          rintro s' i te h
          cases h
          obtain ⟨k, e, hk, he, hf⟩ := a1 _ (earliest_mem hhit)
          simp only [Nat.zero_add] at hk
          refine ⟨⟨steps, rfl⟩, ⟨e, by rw [hk]; exact he, hf⟩, act, hhit, ?_⟩
          intro k e va vb h1 h2 h3 h4
          have := a2 k e va vb h1 h2 h3 h4
          simp only [Nat.zero_add] at this
          exact this
        · rename_i hnone
          rcases hl : loop root evs s.t gNew steps with x | ⟨pre', r'⟩
          · rw [hl] at h; cases h
          · rw [hl] at h
            cases h
            obtain ⟨q1, q2, q3⟩ := ih s.pt gNew pre' r hgn' hl
            have hquiet : Quiet evs a s.pt := by
              intro e he va vb h1 h2
              by_contra hc
              obtain ⟨k, hk⟩ := List.mem_iff_getElem?.1 he
              obtain ⟨te, hm, -⟩ := a2 k e va vb hk h1 h2 (by simpa using hc)
              rw [earliest_none hnone] at hm
              cases hm
            refine ⟨⟨hquiet, q1⟩, fun hr => by rw [q2 hr], fun s' i te hr => ?_⟩
            obtain ⟨⟨rest, q4⟩, q5⟩ := q3 s' i te hr
            exact ⟨⟨rest, by rw [q4]; rfl⟩, q5⟩

theorem firstFired_skip (n : ℕ) (i : ℕ) (x : α) (l : List (List α)) (j : ℕ) :
    firstFired (List.replicate n [] ++ [x] :: l) j = some (j + n, x) := by
  induction n generalizing j with
  | zero => rfl
  | succ n ih =>
    rw [List.replicate_succ, List.cons_append, firstFired, ih]
    congr 2; omega

theorem tEvents_fired (n : ℕ) (hit : ℕ × α) (h : hit.1 < n) : firstFired (tEventsOf n hit) = some hit := by
  obtain ⟨i, te⟩ := hit
  have key : tEventsOf n (i, te) = List.replicate i [] ++ [te] :: List.replicate (n - i - 1) [] := by
    apply List.ext_getElem?
    intro k
    simp only [tEventsOf, List.getElem?_map]
    rcases lt_trichotomy k i with hk | hk | hk
    · rw [List.getElem?_append_left (by simpa using hk), List.getElem?_replicate, if_pos hk, List.getElem?_range (by simp at h; omega)]
      simp [hk.ne]
    · subst hk
      rw [List.getElem?_append_right (by simp), List.getElem?_range (by simpa using h)]
      simp
    · rw [List.getElem?_append_right (by simp; omega), List.length_replicate]
      obtain ⟨m, hm⟩ : ∃ m, k - i = m + 1 := ⟨k - i - 1, by omega⟩
      rw [hm, List.getElem?_cons_succ, List.getElem?_replicate]
      simp only at h
      by_cases hkn : k < n
      · rw [List.getElem?_range hkn, if_pos (by omega)]
        simp [hk.ne']
      · rw [List.getElem?_eq_none (by simpa using hkn), if_neg (by omega)]; rfl
  rw [key, firstFired_skip i 0]
  simp

theorem firstFired_none (n : ℕ) (l : List (Event α)) (j : ℕ) : firstFired (l.map fun _ => ([] : List α)) j = none := by
  induction l generalizing j with
  | nil => rfl
  | cons a l ih => simpa [firstFired] using ih (j + 1)

theorem activeRoots_total (root : RootFinder α) (hr : ∀ f a b, ∃ x, root f a b = .ok x) (tOld : α) (s : Step α) (i : ℕ) (evs : List (EvFn α))
    (g h : List α) : ∃ act, activeRoots root tOld s i evs g h = .ok act := by
  induction evs generalizing i g h with
  | nil => exact ⟨[], by simp [activeRoots]⟩
  | cons e evs ih =>
    cases g with
    | nil => exact ⟨[], by simp [activeRoots]⟩
    | cons v g =>
      cases h with
      | nil => exact ⟨[], by simp [activeRoots]⟩
      | cons w h =>
        rw [activeRoots]
        obtain ⟨act, ha⟩ := ih (i + 1) g h
        by_cases hc : changes v w = true
        · obtain ⟨x, hx⟩ := hr (fun t => e t (s.dense t)) tOld s.t
          exact ⟨(i, x) :: act, by rw [if_pos hc, hx, ha]⟩
        · exact ⟨act, by rw [if_neg hc, ha]⟩

theorem loop_total (root : RootFinder α) (hr : ∀ f a b, ∃ x, root f a b = .ok x) (evs : List (EvFn α)) (tOld : α) (g : List α)
    (steps : List (Step α)) (hd : ∀ s ∈ steps, ∀ e ∈ evs, ∃ v, e s.t s.y = .ok v) : ∃ res, loop root evs tOld g steps = .ok res := by
  induction steps generalizing tOld g with
  | nil => exact ⟨_, rfl⟩
  | cons s steps ih =>
    obtain ⟨gn, hgn⟩ := evalAll_total (hd s (by simp))
    obtain ⟨act, ha⟩ := activeRoots_total root hr tOld s 0 evs g gn
    obtain ⟨⟨pre, r⟩, hl⟩ := ih s.t gn fun t ht => hd t (by simp [ht])
    rw [loop, hgn]
    simp only [ha]
    cases earliest (PyCmp.gt s.t tOld) act with
    | none => exact ⟨(s :: pre, r), by simp only [hl]⟩
    | some hit => exact ⟨_, rfl⟩

end IBL.SolveIvp
