import Verif.Lemmas.XFoil

/-! Conditions under which the steps of a read succeed, or raise. -/

set_option linter.unusedSectionVars false

namespace IBL.XFoil
variable {α : Type} [Add α] [Sub α] [Mul α] [Div α] [Neg α] [PyLit α] [PyCmp α] [PySpecial α]

theorem mkAll_forward {fl : Floats α} {air : List Text} {ps : List (Pt α)} (h : Rows fl air ps) : mkAll fl air = .ok ps := by
  induction h with
  | nil => rfl
  | cons hp _ ih => simp [mkAll, hp, ih]

theorem mkWake_forward {fl : Floats α} {air : List Text} {ps : List (Wake α)} (h : WakeRows fl air ps) : mkWake fl air = .ok ps := by
  induction h with
  | nil => rfl
  | cons hp _ ih => simp [mkWake, hp, ih]

theorem readUpper_forward {fl : Floats α} {a b : List Text} {x : Text} {ps : List (Pt α)} {p : Pt α} (h : Rows fl a ps)
    (hu : ∀ q ∈ ps, PyCmp.lt q.u (lit 0) = false) (hx : Pt.mk' fl x = .ok p) (hp : PyCmp.lt p.u (lit 0) = true) (r : Reader α) (i : ℕ) :
    ∃ r', r.readUpper fl i (a ++ x :: b) = (r', .ok (some (i + a.length))) := by
  induction h generalizing r i with
  | nil => exact ⟨r, by simp [Reader.readUpper, hx, hp]⟩
  | @cons ad q a ps hq h ih =>
    have hq0 := hu q (by simp)
    obtain ⟨r', hr'⟩ := ih (fun q hq => hu q (by simp [hq])) { (r.alloc q).1 with upper := (r.alloc q).2 :: (r.alloc q).1.upper } (i + 1)
    refine ⟨r', ?_⟩
    rw [List.cons_append, Reader.readUpper]
    simp only [hq, hq0, Bool.false_eq_true, if_false]
    rw [hr']
    simp only [List.length_cons, Prod.mk.injEq, Except.ok.injEq, Option.some.injEq, true_and]
    omega

theorem adjust_forward (f : α → α) : ∀ (l : List ℕ) (h : ℕ → Pt α), l.Nodup → (∀ i ∈ l, PyCmp.lt (f (h i).s) (lit 0) = false) →
    ∃ h', adjust f l h = (h', .ok ())
  | [], h, _, _ => ⟨h, rfl⟩
  | i :: l, h, hn, hc => by
    obtain ⟨hi, hn⟩ := List.nodup_cons.1 hn
    obtain ⟨h', e⟩ := adjust_forward f l (Function.update h i ((h i).at f)) hn (by
      intro j hj
      have hne : j ≠ i := fun e => hi (e ▸ hj)
      rw [Function.update_of_ne hne]
      exact hc j (List.mem_cons_of_mem _ hj))
    refine ⟨h', ?_⟩
    simp only [adjust, Pt.set, hc i (by simp), Bool.false_eq_true, if_false]
    exact e

/-- The only exception of the shift is ValueError. -/
theorem adjust_error (f : α → α) : ∀ (l : List ℕ) (h h' : ℕ → Pt α) (e : Exc), adjust f l h = (h', .error e) → e = .valueError
  | [], h, h', e, he => by simp [adjust] at he
  | i :: l, h, h', e, he => by
    simp only [adjust, Pt.set] at he
    by_cases hw : PyCmp.lt (f (h i).s) (lit 0) = true
    · simp only [hw, if_true, Prod.mk.injEq, Except.error.injEq] at he; exact he.2.symm
    · rw [if_neg hw] at he; exact adjust_error f l _ h' e he

theorem adjustWake_forward (off : α) : ∀ (l : List (Wake α)), (∀ w ∈ l, PyCmp.lt (w.s - off) (lit 0) = false) → ∃ l', adjustWake off l = (l', .ok ())
  | [], _ => ⟨[], rfl⟩
  | w :: l, hc => by
    obtain ⟨l', e⟩ := adjustWake_forward off l fun v hv => hc v (List.mem_cons_of_mem _ hv)
    simp only [adjustWake, Wake.set, hc w (by simp), Bool.false_eq_true, if_false]
    rw [e]
    exact ⟨_, rfl⟩

theorem readWake_forward {fl : Floats α} (r : Reader α) {wk : List Text} {ws : List (Wake α)} (h : WakeRows fl wk ws)
    (hc : ∀ w rest, ws = w :: rest → ∀ v ∈ ws, PyCmp.lt (v.s - w.s) (lit 0) = false) : ∃ r', r.readWake fl wk = (r', .ok ()) := by
  cases h with
  | nil => exact ⟨r, rfl⟩
  | @cons x w l ws hx h =>
    obtain ⟨l', e⟩ := adjustWake_forward w.s (w :: ws) (hc w ws rfl)
    rw [Reader.readWake]
    · have := mkWake_forward (List.Forall₂.cons hx h : WakeRows fl (x :: l) (w :: ws))
      simp only [this, e]
      exact ⟨_, rfl⟩
    · simp

/-- The state before the stagnation point is placed. -/
theorem prepare_forward {fl : Floats α} {airU airL : List Text} {us ls : List (Pt α)} {b : Pt α} (hU : Rows fl airU us)
    (hL : Rows fl airL (b :: ls)) (hu : ∀ q ∈ us, PyCmp.lt q.u (lit 0) = false) (hb : PyCmp.lt b.u (lit 0) = true) :
    ∃ r1 r2 idx lower, (Reader.empty : Reader α).readUpper fl 0 (airU ++ airL) = (r1, .ok idx) ∧
      mkAll fl ((airU ++ airL).drop (idx.getD ((airU ++ airL).length - 1))) = .ok (b :: ls) ∧ r1.allocAll ((b :: ls).map Pt.flip) = (r2, lower) ∧
      ({ r2 with lower := lower } : Reader α).Fresh ∧ ({ r2 with lower := lower } : Reader α).upperPts = us.reverse ∧
      ({ r2 with lower := lower } : Reader α).lowerPts = (b :: ls).map Pt.flip := by
  obtain ⟨x, airL', rfl, hx⟩ : ∃ x t, airL = x :: t ∧ Pt.mk' fl x = .ok b := by cases hL with | cons hx _ => exact ⟨_, _, rfl, hx⟩
  obtain ⟨r1, hr1⟩ := readUpper_forward (b := airL') hU hu hx hb (Reader.empty : Reader α) 0
  rcases hal : r1.allocAll ((b :: ls).map Pt.flip) with ⟨r2, lower⟩
  refine ⟨r1, r2, _, lower, hr1, ?_, hal, ?_⟩
  · simp only [Option.getD_some, zero_add, List.drop_left]
    exact mkAll_forward hL
  obtain ⟨us', g1, g2, _, g4, g5⟩ := readUpper_ok fl _ _ r1 0 _ rfl ⟨by simp [Reader.empty], by simp [Reader.empty]⟩ hr1
  have husu : us' = us := by
    rcases g5 with ⟨e, _⟩ | ⟨a, y, c, p, e1, e2, hr, _, _⟩
    · cases e
    · simp only [Option.some.injEq, zero_add] at e2
      have : airU = a := (List.append_inj e1 e2).1
      rw [← this] at hr
      exact rows_functional hr hU
  have hlow : r1.lower = [] := by rw [g4]; rfl
  obtain ⟨k1, k2, k3, k4, k5, k6⟩ := allocAll_ok ((b :: ls).map Pt.flip) r1
  simp only [hal] at k1 k2 k3 k4 k5 k6
  have hr2u : r2.upper = r1.upper := by rw [k6]
  have hub : ∀ i ∈ r1.upper, i < r1.next := fun i hi => g1.bound i (by simp [hi])
  refine ⟨⟨?_, ?_⟩, ?_, k1⟩
  · simp only [hr2u]
    rw [List.nodup_append]
    have := g1.nodup
    rw [hlow, List.append_nil] at this
    refine ⟨this, k2, ?_⟩
    rintro i hi j hj rfl
    have := hub i hi
    have := (k3 i hj).1
    omega
  · simp only [hr2u, List.mem_append]
    rintro i (hi | hi)
    · exact lt_of_lt_of_le (hub i hi) k4
    · exact (k3 i hi).2
  · rw [← husu, show us'.reverse = r1.upperPts by rw [g2]; simp [Reader.upperPts, Reader.empty]]
    simp only [Reader.upperPts, hr2u]
    exact map_heap_congr fun i hi => k5 i (hub i hi)

/-- A read succeeds if the rows do, the interpolation does, and the shifted arc lengths are admissible. -/
theorem load_forward {fl : Floats α} {fs : Files} {name content : Text} (hn : name ≠ []) (hc : fs name = .ok content) {airU airL wk : List Text}
    (hd : dumpData (readlines content) = .ok (airU ++ airL, wk)) {us ls : List (Pt α)} {a b : Pt α} (hU : Rows fl airU (us ++ [a]))
    (hL : Rows fl airL (b :: ls)) (hu : ∀ q ∈ us ++ [a], PyCmp.lt q.u (lit 0) = false) (hb : PyCmp.lt b.u (lit 0) = true)
    (h0 : PyCmp.eq a.u (lit 0) = false) {frac : α} (hf : pyDiv a.u (a.u + b.flip.u) = .ok frac) {p0 p : Pt α} (hp0 : Pt.mk' fl [] = .ok p0)
    (hp : p0.sets (interpolate a b.flip frac) = (p, .ok ())) (cu : ∀ q ∈ p :: (us ++ [a]), PyCmp.lt (p.s - q.s) (lit 0) = false)
    (cl : ∀ q ∈ p :: b :: ls, PyCmp.lt (q.s - p.s) (lit 0) = false) {ws : List (Wake α)} (hw : WakeRows fl wk ws)
    (cw : ∀ w rest, ws = w :: rest → ∀ v ∈ ws, PyCmp.lt (v.s - w.s) (lit 0) = false) : ∃ r, Reader.load fl fs name = (r, .ok ()) := by
  obtain ⟨r1, r2, idx, lower, h1, h2, h3, hf2, hup, hlo⟩ := prepare_forward hU hL hu hb
  set q : Reader α := { r2 with lower := lower } with hq
  have hnu := (List.nodup_append.1 hf2.nodup).1
  have hnl := (List.nodup_append.1 hf2.nodup).2.1
  have hdis : ∀ i ∈ q.upper, i ∉ q.lower := fun i hi hj => (List.nodup_append.1 hf2.nodup).2.2 i hi i hj rfl
  obtain ⟨ia, iu, hiu, hia⟩ : ∃ ia iu, q.upper = ia :: iu ∧ q.heap ia = a := by
    rw [Reader.upperPts, List.reverse_append] at hup
    cases hqu : q.upper with
    | nil => rw [hqu] at hup; simp at hup
    | cons ia iu => rw [hqu] at hup; simp at hup; exact ⟨ia, iu, rfl, hup.1⟩
  obtain ⟨ib, il, hil, hib⟩ : ∃ ib il, q.lower = ib :: il ∧ q.heap ib = b.flip := by
    rw [Reader.lowerPts] at hlo
    cases hql : q.lower with
    | nil => rw [hql] at hlo; simp at hlo
    | cons ib il => rw [hql] at hlo; simp at hlo; exact ⟨ib, il, rfl, hlo.1⟩
  have hub : ∀ i ∈ q.upper, i < q.next := fun i hi => hf2.bound i (List.mem_append_left _ hi)
  have hlb : ∀ i ∈ q.lower, i < q.next := fun i hi => hf2.bound i (List.mem_append_right _ hi)
  set H := Function.update (Function.update q.heap q.next p) (q.next + 1) p with hH
  have hh : ∀ i < q.next, H i = q.heap i := by
    intro i hi
    rw [hH, Function.update_of_ne (by omega), Function.update_of_ne (by omega)]
  have hn0 : H q.next = p := by rw [hH, Function.update_of_ne (by omega), Function.update_self]
  have hn1 : H (q.next + 1) = p := by rw [hH, Function.update_self]
  have hst : q.stagnation fl =
      ({ q with heap := H, next := q.next + 1 + 1, upper := q.next :: q.upper, lower := (q.next + 1) :: q.lower }, .ok p.s) := by
    rw [Reader.stagnation]
    simp only [hiu, hil, hia, hib, h0, hf, hp0, hp, Bool.false_eq_true, if_false, Reader.alloc, hH]
  obtain ⟨H1, hH1⟩ := adjust_forward (fun s => p.s - s) (q.next :: q.upper) H
    (List.nodup_cons.2 ⟨fun hm => by have := hub _ hm; omega, hnu⟩) (by
      intro i hi
      rcases List.mem_cons.1 hi with rfl | hi
      · rw [hn0]; exact cu p (by simp)
      · rw [hh i (hub i hi)]
        refine cu _ (List.mem_cons_of_mem _ ?_)
        rw [← List.mem_reverse, ← hup]
        exact List.mem_map.2 ⟨i, hi, rfl⟩)
  obtain ⟨_, e2⟩ := adjust_ok _ _ _ _ (List.nodup_cons.2 ⟨fun hm => by have := hub _ hm; omega, hnu⟩) hH1
  have hout : ∀ i ∈ (q.next + 1) :: q.lower, i ∉ q.next :: q.upper := by
    intro i hi hm
    rcases List.mem_cons.1 hi with rfl | hi
    · rcases List.mem_cons.1 hm with h | h
      · omega
      · have := hub _ h; omega
    · rcases List.mem_cons.1 hm with h | h
      · have := hlb _ hi; omega
      · exact hdis i h hi
  obtain ⟨H2, hH2⟩ := adjust_forward (fun s => s - p.s) ((q.next + 1) :: q.lower) H1
    (List.nodup_cons.2 ⟨fun hm => by have := hlb _ hm; omega, hnl⟩) (by
      intro i hi
      rw [e2 i (hout i hi)]
      rcases List.mem_cons.1 hi with rfl | hi
      · rw [hn1]; exact cl p (by simp)
      · rw [hh i (hlb i hi)]
        have hm : q.heap i ∈ (b :: ls).map Pt.flip := by rw [← hlo]; exact List.mem_map.2 ⟨i, hi, rfl⟩
        obtain ⟨x, hx, e⟩ := List.mem_map.1 hm
        rw [← e]
        exact cl x (List.mem_cons_of_mem _ hx))
  obtain ⟨r', hr'⟩ := readWake_forward (fl := fl)
    ({ q with heap := H2, next := q.next + 1 + 1, upper := q.next :: q.upper, lower := (q.next + 1) :: q.lower } : Reader α) hw cw
  refine ⟨r', ?_⟩
  rw [Reader.load, if_neg hn]
  simp only [hc, hd, h1, h2, h3]
  rw [← hq, hst]
  simp only [hH1, hH2]
  exact hr'

/-- A read raises ValueError if the first row of the lower surface does not pass the shift of the arc length. -/
theorem load_between_error {fl : Floats α} {fs : Files} {name content : Text} (hn : name ≠ []) (hc : fs name = .ok content) {airU airL wk : List Text}
    (hd : dumpData (readlines content) = .ok (airU ++ airL, wk)) {us ls : List (Pt α)} {a b : Pt α} (hU : Rows fl airU (us ++ [a]))
    (hL : Rows fl airL (b :: ls)) (hu : ∀ q ∈ us ++ [a], PyCmp.lt q.u (lit 0) = false) (hb : PyCmp.lt b.u (lit 0) = true)
    (h0 : PyCmp.eq a.u (lit 0) = false) {frac : α} (hf : pyDiv a.u (a.u + b.flip.u) = .ok frac) {p0 p : Pt α} (hp0 : Pt.mk' fl [] = .ok p0)
    (hp : p0.sets (interpolate a b.flip frac) = (p, .ok ())) (hbad : PyCmp.lt (b.s - p.s) (lit 0) = true) :
    (Reader.load fl fs name).2 = .error .valueError := by
  obtain ⟨r1, r2, idx, lower, h1, h2, h3, hf2, hup, hlo⟩ := prepare_forward hU hL hu hb
  set q : Reader α := { r2 with lower := lower } with hq
  have hnu := (List.nodup_append.1 hf2.nodup).1
  have hnl := (List.nodup_append.1 hf2.nodup).2.1
  have hdis : ∀ i ∈ q.upper, i ∉ q.lower := fun i hi hj => (List.nodup_append.1 hf2.nodup).2.2 i hi i hj rfl
  obtain ⟨ia, iu, hiu, hia⟩ : ∃ ia iu, q.upper = ia :: iu ∧ q.heap ia = a := by
    rw [Reader.upperPts, List.reverse_append] at hup
    cases hqu : q.upper with
    | nil => rw [hqu] at hup; simp at hup
    | cons ia iu => rw [hqu] at hup; simp at hup; exact ⟨ia, iu, rfl, hup.1⟩
  obtain ⟨ib, il, hil, hib⟩ : ∃ ib il, q.lower = ib :: il ∧ q.heap ib = b.flip := by
    rw [Reader.lowerPts] at hlo
    cases hql : q.lower with
    | nil => rw [hql] at hlo; simp at hlo
    | cons ib il => rw [hql] at hlo; simp at hlo; exact ⟨ib, il, rfl, hlo.1⟩
  have hub : ∀ i ∈ q.upper, i < q.next := fun i hi => hf2.bound i (List.mem_append_left _ hi)
  have hlb : ∀ i ∈ q.lower, i < q.next := fun i hi => hf2.bound i (List.mem_append_right _ hi)
  set H := Function.update (Function.update q.heap q.next p) (q.next + 1) p with hH
  have hh : ∀ i < q.next, H i = q.heap i := by
    intro i hi
    rw [hH, Function.update_of_ne (by omega), Function.update_of_ne (by omega)]
  have hst : q.stagnation fl =
      ({ q with heap := H, next := q.next + 1 + 1, upper := q.next :: q.upper, lower := (q.next + 1) :: q.lower }, .ok p.s) := by
    rw [Reader.stagnation]
    simp only [hiu, hil, hia, hib, h0, hf, hp0, hp, Bool.false_eq_true, if_false, Reader.alloc, hH]
  have hnd1 : (q.next :: q.upper).Nodup := List.nodup_cons.2 ⟨fun hm => by have := hub _ hm; omega, hnu⟩
  have hnd2 : ((q.next + 1) :: q.lower).Nodup := List.nodup_cons.2 ⟨fun hm => by have := hlb _ hm; omega, hnl⟩
  have hibm : ib ∈ q.lower := by rw [hil]; simp
  rw [Reader.load, if_neg hn]
  simp only [hc, hd, h1, h2, h3]
  rw [← hq, hst]
  simp only
  rcases ha : adjust (fun s => p.s - s) (q.next :: q.upper) H with ⟨H1, e | _⟩
  · simp only [adjust_error _ _ _ _ _ ha]
  · obtain ⟨_, e2⟩ := adjust_ok _ _ _ _ hnd1 ha
    have hib1 : H1 ib = b.flip := by
      rw [e2 ib, hh ib (hlb ib hibm), hib]
      intro hm
      rcases List.mem_cons.1 hm with h | h
      · have := hlb _ hibm; omega
      · exact hdis ib h hibm
    simp only
    rcases hl : adjust (fun s => s - p.s) ((q.next + 1) :: q.lower) H1 with ⟨H2, e | _⟩
    · simp only [adjust_error _ _ _ _ _ hl]
    · exfalso
      obtain ⟨e3, _⟩ := adjust_ok _ _ _ _ hnd2 hl
      have := (e3 ib (List.mem_cons_of_mem _ hibm)).2
      rw [hib1] at this
      have hs : b.flip.s = b.s := rfl
      rw [hs, hbad] at this
      cases this

/-- A read in which the last row before the lower surface has zero velocity raises ValueError if that row does not pass the second shift. -/
theorem load_zero_error {fl : Floats α} {fs : Files} {name content : Text} (hn : name ≠ []) (hc : fs name = .ok content) {airU airL wk : List Text}
    (hd : dumpData (readlines content) = .ok (airU ++ airL, wk)) {us ls : List (Pt α)} {a b : Pt α} (hU : Rows fl airU (us ++ [a]))
    (hL : Rows fl airL (b :: ls)) (hu : ∀ q ∈ us ++ [a], PyCmp.lt q.u (lit 0) = false) (hb : PyCmp.lt b.u (lit 0) = true)
    (h0 : PyCmp.eq a.u (lit 0) = true) (hbad : PyCmp.lt ((a.s - a.s) - a.s) (lit 0) = true) :
    (Reader.load fl fs name).2 = .error .valueError := by
  obtain ⟨r1, r2, idx, lower, h1, h2, h3, hf2, hup, hlo⟩ := prepare_forward hU hL hu hb
  set q : Reader α := { r2 with lower := lower } with hq
  obtain ⟨ia, iu, hiu, hia⟩ : ∃ ia iu, q.upper = ia :: iu ∧ q.heap ia = a := by
    rw [Reader.upperPts, List.reverse_append] at hup
    cases hqu : q.upper with
    | nil => rw [hqu] at hup; simp at hup
    | cons ia iu => rw [hqu] at hup; simp at hup; exact ⟨ia, iu, rfl, hup.1⟩
  have hst : q.stagnation fl = ({ q with lower := ia :: q.lower }, .ok a.s) := by
    rw [Reader.stagnation]
    simp only [hiu, hia, h0, if_true]
  have hnu := (List.nodup_append.1 hf2.nodup).1
  rw [Reader.load, if_neg hn]
  simp only [hc, hd, h1, h2, h3]
  rw [← hq, hst]
  simp only
  rcases ha : adjust (fun s => a.s - s) q.upper q.heap with ⟨H1, e | _⟩
  · simp only [adjust_error _ _ _ _ _ ha]
  · obtain ⟨e1, _⟩ := adjust_ok _ _ _ _ hnu ha
    have hx := (e1 ia (by rw [hiu]; simp)).1
    simp only [adjust, Pt.set, hx, hia]
    simp only [Pt.at, hbad, if_true]

end IBL.XFoil
