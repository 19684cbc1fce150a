import Verif.Props.XFoilStagnation

/-! C45, C46, C57: the reader object over any history of calls, and its array accessors. -/

set_option linter.unusedSectionVars false

namespace IBL.XFoil
open Spec

section generic
variable {α : Type} [Add α] [Sub α] [Mul α] [Div α] [Neg α] [PyLit α] [PyCmp α] [PySpecial α]

/-- An object after construction and any calls, including ones that raised. -/
inductive Reached (fl : Floats α) : Reader α → Prop
  | mk (fs : Files) (name : Text) (r : Reader α) (h : mkReader fl fs name = .ok r) : Reached fl r
  | step (r : Reader α) (h : Reached fl r) (op : Op α) : Reached fl (r.step fl op).1

/-! ### What any load leaves behind, whether or not it raises -/

theorem readUpper_keeps (P : Reader α → Prop) (fl : Floats α)
    (hP : ∀ (r : Reader α) (p : Pt α) (ad : Text), Pt.mk' fl ad = .ok p → P r → P { (r.alloc p).1 with upper := (r.alloc p).2 :: (r.alloc p).1.upper }) :
    ∀ (rows : List Text) (r : Reader α) (i : ℕ), P r → P (r.readUpper fl i rows).1
  | [], r, i, h => h
  | ad :: rows, r, i, h => by
    rw [Reader.readUpper]
    cases hp : Pt.mk' fl ad with
    | error e => exact h
    | ok p =>
      simp only
      split_ifs
      · exact h
      · exact readUpper_keeps P fl hP rows _ (i + 1) (hP r p ad hp h)

/-- The parts of a reader that loading a file does not touch after the reset. -/
structure Reader.Plain (r : Reader α) : Prop where
  filename : r.filename = []
  uRef : r.uRef = lit 1
  c : r.c = lit 1
  re : r.re = lit 0
  nTrans : r.nTrans = PySpecial.inf
  heap : ∀ i, (r.heap i).Adm
  wake : ∀ w ∈ r.wake, w.Adm

theorem Pt.flip_adm {p : Pt α} (h : p.Adm) : p.flip.Adm := ⟨h.1, h.2, h.3, h.4, h.5, h.6⟩

theorem update_adm {h : ℕ → Pt α} (hh : ∀ i, (h i).Adm) {p : Pt α} (hp : p.Adm) (k : ℕ) : ∀ i, (Function.update h k p i).Adm := by
  intro i
  by_cases e : i = k
  · subst e; rw [Function.update_self]; exact hp
  · rw [Function.update_of_ne e]; exact hh i

theorem Reader.Plain.alloc {r : Reader α} (h : r.Plain) {p : Pt α} (hp : p.Adm) : (r.alloc p).1.Plain :=
  ⟨h.1, h.2, h.3, h.4, h.5, update_adm h.heap hp _, h.wake⟩

theorem Reader.Plain.lists {r : Reader α} (h : r.Plain) (u l : List ℕ) : ({ r with upper := u, lower := l } : Reader α).Plain :=
  ⟨h.1, h.2, h.3, h.4, h.5, h.6, h.7⟩

theorem allocAll_plain : ∀ (ps : List (Pt α)) (r : Reader α), r.Plain → (∀ p ∈ ps, p.Adm) → (r.allocAll ps).1.Plain
  | [], r, h, _ => h
  | p :: ps, r, h, hp => allocAll_plain ps _ (h.alloc (hp p (by simp))) fun q hq => hp q (by simp [hq])

theorem adjust_adm (f : α → α) : ∀ (l : List ℕ) (h : ℕ → Pt α), (∀ i, (h i).Adm) → ∀ i, ((adjust f l h).1 i).Adm
  | [], h, hh => hh
  | i :: l, h, hh => by
    rw [adjust]
    have := Pt.set_adm (h i) (hh i) .s (f (h i).s)
    rcases hs : (h i).set .s (f (h i).s) with ⟨p, e | _⟩
    · exact hh
    · rw [hs] at this
      exact adjust_adm f l _ (update_adm hh this i)

theorem adjustWake_adm (off : α) : ∀ (l : List (Wake α)), (∀ w ∈ l, w.Adm) → ∀ w ∈ (adjustWake off l).1, w.Adm
  | [], _ => by simp [adjustWake]
  | v :: l, h => by
    rw [adjustWake]
    have hv := Wake.set_adm v (h v (by simp)) .s (v.s - off)
    rcases hs : v.set .s (v.s - off) with ⟨p, e | _⟩
    · exact h
    · rw [hs] at hv
      have ih := adjustWake_adm off l fun w hw => h w (by simp [hw])
      rcases ha : adjustWake off l with ⟨l', res⟩
      rw [ha] at ih
      intro w hw
      rcases List.mem_cons.1 hw with rfl | hw
      · exact hv
      · exact ih w hw

theorem mkAll_adm (hinf : InfAdm α) (fl : Floats α) (air : List Text) (ps : List (Pt α)) (h : mkAll fl air = .ok ps) : ∀ p ∈ ps, p.Adm := by
  intro p hp
  obtain ⟨row, _, hr⟩ := rows_mem (mkAll_rows fl air ps h) hp
  exact Pt.mk'_adm hinf fl row p hr

theorem mkWake_adm (hinf : InfAdm α) (fl : Floats α) : ∀ (wk : List Text) (ws : List (Wake α)), WakeRows fl wk ws → ∀ w ∈ ws, w.Adm := by
  intro wk ws h
  induction h with
  | nil => simp
  | cons hx _ ih =>
    intro w hw
    rcases List.mem_cons.1 hw with rfl | hw
    · exact Wake.mk'_adm hinf fl _ _ hx
    · exact ih w hw

theorem stagnation_plain (hinf : InfAdm α) (fl : Floats α) (r : Reader α) (h : r.Plain) : (r.stagnation fl).1.Plain := by
  rw [Reader.stagnation]
  cases r.upper with
  | nil => exact h
  | cons a _ =>
    simp only
    split_ifs
    · exact ⟨h.1, h.2, h.3, h.4, h.5, h.6, h.7⟩
    · cases r.lower with
      | nil => exact h
      | cons b _ =>
        simp only
        cases pyDiv (r.heap a).u ((r.heap a).u + (r.heap b).u) with
        | error e => exact h
        | ok frac =>
          simp only
          cases hm : Pt.mk' fl [] with
          | error e => exact h
          | ok p0 =>
            have := Pt.sets_adm (interpolate (r.heap a) (r.heap b) frac) p0 (Pt.mk'_adm hinf fl _ _ hm)
            simp only
            rcases hs : p0.sets (interpolate (r.heap a) (r.heap b) frac) with ⟨p, e | _⟩
            · exact h
            · rw [hs] at this
              exact ⟨h.1, h.2, h.3, h.4, h.5, update_adm (update_adm h.heap this _) this _, h.7⟩

theorem readWake_plain (hinf : InfAdm α) (fl : Floats α) (r : Reader α) (h : r.Plain) (wk : List Text) : (r.readWake fl wk).1.Plain := by
  cases wk with
  | nil => exact h
  | cons x t =>
    rw [Reader.readWake]
    · cases hm : mkWake fl (x :: t) with
      | error e => exact h
      | ok ws =>
        have hw := mkWake_adm hinf fl _ _ (mkWake_rows fl _ _ hm)
        cases ws with
        | nil => exact ⟨h.1, h.2, h.3, h.4, h.5, h.6, by simp⟩
        | cons w l =>
          have := adjustWake_adm w.s (w :: l) hw
          simp only
          rcases ha : adjustWake w.s (w :: l) with ⟨l', res⟩
          rw [ha] at this
          exact ⟨h.1, h.2, h.3, h.4, h.5, h.6, this⟩
    · simp

theorem load_plain (hinf : InfAdm α) (fl : Floats α) (fs : Files) (name : Text) : (Reader.load fl fs name).1.Plain := by
  have h0 : (Reader.empty : Reader α).Plain := ⟨rfl, rfl, rfl, rfl, rfl, fun _ => Pt.infs_adm hinf, by simp [Reader.empty]⟩
  rw [Reader.load]
  split_ifs
  · exact h0
  cases fs name with
  | error e => exact h0
  | ok content =>
    simp only
    rcases dumpData (readlines content) with e | ⟨air, wk⟩
    · exact h0
    simp only
    have h1 : ((Reader.empty : Reader α).readUpper fl 0 air).1.Plain :=
      readUpper_keeps Reader.Plain fl (fun r p ad hp h => (h.alloc (Pt.mk'_adm hinf fl ad p hp)).lists _ _) air _ 0 h0
    rcases hru : (Reader.empty : Reader α).readUpper fl 0 air with ⟨r1, e | idx⟩ <;> rw [hru] at h1
    · exact h1
    simp only at h1 ⊢
    cases hm : mkAll fl (air.drop (idx.getD (air.length - 1))) with
    | error e => exact h1
    | ok ps =>
      simp only
      have h2 := allocAll_plain (ps.map Pt.flip) r1 h1 (by
        intro p hp
        obtain ⟨q, hq, rfl⟩ := List.mem_map.1 hp
        exact Pt.flip_adm (mkAll_adm hinf fl _ _ hm q hq))
      rcases hal : r1.allocAll (ps.map Pt.flip) with ⟨r2, lower⟩
      rw [hal] at h2
      simp only at h2 ⊢
      have h3 := stagnation_plain hinf fl _ (h2.lists r2.upper lower)
      rcases hst : ({ r2 with lower := lower } : Reader α).stagnation fl with ⟨r3, e | stag⟩
      · rw [hst] at h3; exact h3
      simp only [hst] at h3 ⊢
      have h4 := adjust_adm (fun s => stag - s) r3.upper r3.heap h3.heap
      rcases ha1 : adjust (fun s => stag - s) r3.upper r3.heap with ⟨H1, e | _⟩ <;> rw [ha1] at h4
      · exact ⟨h3.1, h3.2, h3.3, h3.4, h3.5, h4, h3.7⟩
      simp only at h4 ⊢
      have h5 := adjust_adm (fun s => s - stag) r3.lower H1 h4
      rcases ha2 : adjust (fun s => s - stag) r3.lower H1 with ⟨H2, e | _⟩ <;> rw [ha2] at h5
      · exact ⟨h3.1, h3.2, h3.3, h3.4, h3.5, h5, h3.7⟩
      simp only at h5 ⊢
      exact readWake_plain hinf fl { r3 with heap := H2 } ⟨h3.1, h3.2, h3.3, h3.4, h3.5, h5, h3.7⟩ wk

/-! ### Histories -/

/-- References in range and no inadmissible point. -/
structure Reader.Good (r : Reader α) : Prop where
  uRef : PyCmp.le r.uRef (lit 0) = false
  c : PyCmp.le r.c (lit 0) = false
  re : PyCmp.lt r.re (lit 0) = false
  nTrans : PyCmp.le r.nTrans (lit 0) = false
  heap : ∀ i, (r.heap i).Adm
  wake : ∀ w ∈ r.wake, w.Adm

theorem Reader.Plain.good (hinf : InfAdm α) (h1 : PyCmp.le (lit 1 : α) (lit 0) = false) (h0 : PyCmp.lt (lit 0 : α) (lit 0) = false)
    {r : Reader α} (h : r.Plain) : r.Good :=
  ⟨by rw [h.uRef]; exact h1, by rw [h.c]; exact h1, by rw [h.re]; exact h0, by rw [h.nTrans]; exact hinf.2, h.heap, h.wake⟩

theorem onPoint_good {r : Reader α} (h : r.Good) (refs : List ℕ) (i : ℤ) (f : Pt α → Pt α × Except Exc Unit)
    (hf : ∀ p : Pt α, p.Adm → (f p).1.Adm) : (r.onPoint refs i f).1.Good := by
  rw [Reader.onPoint]
  cases pyIndex refs.length i with
  | error e => exact h
  | ok k =>
    simp only
    cases refs[k]? with
    | none => exact h
    | some a => exact ⟨h.1, h.2, h.3, h.4, update_adm h.heap (hf _ (h.heap a)) _, h.6⟩

theorem onWake_good {r : Reader α} (h : r.Good) (i : ℤ) (f : Wake α → Wake α × Except Exc Unit)
    (hf : ∀ p : Wake α, p.Adm → (f p).1.Adm) : (r.onWake i f).1.Good := by
  rw [Reader.onWake]
  cases pyIndex r.wake.length i with
  | error e => exact h
  | ok k =>
    simp only
    cases hk : r.wake[k]? with
    | none => exact h
    | some w =>
      refine ⟨h.1, h.2, h.3, h.4, h.5, ?_⟩
      intro v hv
      rcases List.mem_or_eq_of_mem_set hv with hv | rfl
      · exact h.6 v hv
      · exact hf _ (h.6 w (List.mem_of_getElem? hk))

/-- C57: whatever calls are made on a reader and its points, and whichever of them raise, the reference values stay in range and no point of it holds
inadmissible data. -/
theorem reader_admissible (hinf : InfAdm α) (h1 : PyCmp.le (lit 1 : α) (lit 0) = false) (h0 : PyCmp.lt (lit 0 : α) (lit 0) = false)
    (fl : Floats α) (r : Reader α) (hr : Reached fl r) :
    PyCmp.le r.uRef (lit 0) = false ∧ PyCmp.le r.c (lit 0) = false ∧ PyCmp.lt r.re (lit 0) = false ∧ PyCmp.le r.nTrans (lit 0) = false ∧
      (∀ p ∈ r.upperPts, p.Adm) ∧ (∀ p ∈ r.lowerPts, p.Adm) ∧ ∀ w ∈ r.wake, w.Adm := by
  have hg : r.Good := by
    induction hr with
    | mk fs name r h =>
      have hp := load_plain hinf fl fs name
      rw [mkReader] at h
      rcases hl : Reader.load fl fs name with ⟨r', e | _⟩
      · rw [hl] at h; cases h
      · rw [hl] at h hp; cases h; exact hp.good hinf h1 h0
    | step r _ op hg =>
      cases op with
      | setFilename fs name => exact (load_plain hinf fl fs name).good hinf h1 h0
      | setName v => exact ⟨hg.1, hg.2, hg.3, hg.4, hg.5, hg.6⟩
      | setAlpha v => exact ⟨hg.1, hg.2, hg.3, hg.4, hg.5, hg.6⟩
      | setURef v =>
        simp only [Reader.step]; split_ifs with hv
        exacts [hg, ⟨by simpa using hv, hg.2, hg.3, hg.4, hg.5, hg.6⟩]
      | setC v =>
        simp only [Reader.step]; split_ifs with hv
        exacts [hg, ⟨hg.1, by simpa using hv, hg.3, hg.4, hg.5, hg.6⟩]
      | setReynolds v =>
        simp only [Reader.step]; split_ifs with hv
        exacts [hg, ⟨hg.1, hg.2, by simpa using hv, hg.4, hg.5, hg.6⟩]
      | setNTrans v =>
        simp only [Reader.step]; split_ifs with hv
        exacts [hg, ⟨hg.1, hg.2, hg.3, by simpa using hv, hg.5, hg.6⟩]
      | setXTransUpper v => exact ⟨hg.1, hg.2, hg.3, hg.4, hg.5, hg.6⟩
      | setXTransLower v => exact ⟨hg.1, hg.2, hg.3, hg.4, hg.5, hg.6⟩
      | upperSet i f v => exact onPoint_good hg _ _ _ fun p hp => Pt.set_adm p hp f v
      | lowerSet i f v => exact onPoint_good hg _ _ _ fun p hp => Pt.set_adm p hp f v
      | wakeSet i f v => exact onWake_good hg _ _ fun p hp => Wake.set_adm p hp f v
      | upperReset i d => exact onPoint_good hg _ _ _ fun p _ => Pt.reset_adm hinf fl p d
      | lowerReset i d => exact onPoint_good hg _ _ _ fun p _ => Pt.reset_adm hinf fl p d
      | wakeReset i d => exact onWake_good hg _ _ fun p _ => Wake.reset_adm hinf fl p d
  refine ⟨hg.1, hg.2, hg.3, hg.4, ?_, ?_, hg.6⟩
  · intro p hp; obtain ⟨i, _, rfl⟩ := List.mem_map.1 hp; exact hg.heap i
  · intro p hp; obtain ⟨i, _, rfl⟩ := List.mem_map.1 hp; exact hg.heap i

/-- C45 is false: `filename` is the empty text after any history of calls, also after successful loads. -/
theorem filename_never_reported (hinf : InfAdm α) (fl : Floats α) (r : Reader α) (hr : Reached fl r) : r.filename = [] := by
  induction hr with
  | mk fs name r h =>
    have hp := load_plain hinf fl fs name
    rw [mkReader] at h
    rcases hl : Reader.load fl fs name with ⟨r', e | _⟩
    · rw [hl] at h; cases h
    · rw [hl] at h hp; cases h; exact hp.filename
  | step r _ op hg =>
    have onp : ∀ (refs : List ℕ) (i : ℤ) (f : Pt α → Pt α × Except Exc Unit), (r.onPoint refs i f).1.filename = [] := by
      intro refs i f
      rw [Reader.onPoint]
      cases pyIndex refs.length i with
      | error e => exact hg
      | ok k =>
        simp only
        cases refs[k]? <;> exact hg
    have onw : ∀ (i : ℤ) (f : Wake α → Wake α × Except Exc Unit), (r.onWake i f).1.filename = [] := by
      intro i f
      rw [Reader.onWake]
      cases pyIndex r.wake.length i with
      | error e => exact hg
      | ok k =>
        simp only
        cases r.wake[k]? <;> exact hg
    cases op with
    | setFilename fs name => exact (load_plain hinf fl fs name).filename
    | upperSet i f v => exact onp _ _ _
    | lowerSet i f v => exact onp _ _ _
    | wakeSet i f v => exact onw _ _
    | upperReset i d => exact onp _ _ _
    | lowerReset i d => exact onp _ _ _
    | wakeReset i d => exact onw _ _
    | setName v => exact hg
    | setAlpha v => exact hg
    | setXTransUpper v => exact hg
    | setXTransLower v => exact hg
    | setURef v => simp only [Reader.step]; split_ifs <;> exact hg
    | setC v => simp only [Reader.step]; split_ifs <;> exact hg
    | setReynolds v => simp only [Reader.step]; split_ifs <;> exact hg
    | setNTrans v => simp only [Reader.step]; split_ifs <;> exact hg

/-- C45, the part that holds: the name is reported if it is empty (no file is loaded). -/
theorem filename_partial (fl : Floats α) (fs : Files) : ∃ r, mkReader fl fs [] = .ok r ∧ r.filename = [] ∧ r.upperCount = 0 ∧ r.lowerCount = 0 ∧
    r.wakeCount = 0 :=
  ⟨Reader.empty, by simp [mkReader, Reader.load], rfl, rfl, rfl, rfl⟩

/-! ### Accessors -/

theorem gather_eq {β : Type} (f : β → α) (l : List β) : gather f l = l.map f := by
  have : ∀ (l : List β) (acc : List α), l.foldl (fun acc sd => acc ++ [f sd]) acc = acc ++ l.map f := by
    intro l
    induction l with
    | nil => simp
    | cons x l ih => intro acc; rw [List.foldl_cons, ih]; simp
  simpa [gather] using this l []

/-- What an accessor of a surface should give for one point. -/
def wanted (uRef : α) (p : Pt α) : Quantity → α
  | .s => p.s
  | .x => p.x
  | .y => p.y
  | .uE => uRef * p.u
  | .deltaD => p.deltaD
  | .deltaM => p.deltaM
  | .deltaK => p.shapeK * p.deltaM
  | .shapeD => p.shapeD
  | .shapeK => p.shapeK
  | .cf => p.cf
  | .mass => p.mass
  | .mom => p.mom
  | .ke => p.ke

/-- What an accessor of the wake should give for one point; the wake has no friction, kinetic energy thickness or defects. -/
def wantedWake (uRef : α) (w : Wake α) : Quantity → Option α
  | .s => some w.s
  | .x => some w.x
  | .y => some w.y
  | .uE => some (uRef * w.u)
  | .deltaD => some w.deltaD
  | .deltaM => some w.deltaM
  | .shapeD => some w.shapeD
  | _ => none

/-- C46: every accessor gives one value per point, in order: the point's value, with `u_e = u_ref * u_e_rel` and `delta_k = shape_k * delta_m`. -/
theorem accessors (r : Reader α) (q : Quantity) :
    (∃ v, r.array q .upper = some v ∧ v.length = r.upperCount ∧ ∀ (i : ℕ) (p : Pt α), r.upperPts[i]? = some p → v[i]? = some (wanted r.uRef p q)) ∧
    (∃ v, r.array q .lower = some v ∧ v.length = r.lowerCount ∧ ∀ (i : ℕ) (p : Pt α), r.lowerPts[i]? = some p → v[i]? = some (wanted r.uRef p q)) ∧
    (∀ v, r.array q .wake = some v → v.length = r.wakeCount ∧ ∀ (i : ℕ) (w : Wake α), r.wake[i]? = some w → v[i]? = wantedWake r.uRef w q) := by
  have key : ∀ pts : List (Pt α), r.surface pts q = pts.map fun p => wanted r.uRef p q := by
    intro pts; cases q <;> simp [Reader.surface, gather_eq, wanted]
  refine ⟨⟨_, rfl, ?_, ?_⟩, ⟨_, rfl, ?_, ?_⟩, ?_⟩
  · rw [key]; simp [Reader.upperPts, Reader.upperCount]
  · intro i p hp; rw [key, List.getElem?_map, hp]; rfl
  · rw [key]; simp [Reader.lowerPts, Reader.lowerCount]
  · intro i p hp; rw [key, List.getElem?_map, hp]; rfl
  · intro v hv
    cases q <;> simp only [Reader.array, gather_eq, Option.some.injEq, reduceCtorEq, List.map_map] at hv <;> subst hv <;>
      exact ⟨by simp [Reader.wakeCount], fun i w hw => by simp [hw, wantedWake]⟩

/-- C46: references out of range are rejected with ValueError and nothing changes. -/
theorem references_guarded (fl : Floats α) (r : Reader α) (v : α) :
    (PyCmp.le v (lit 0) = true → r.step fl (.setURef v) = (r, .error .valueError) ∧ r.step fl (.setC v) = (r, .error .valueError) ∧
      r.step fl (.setNTrans v) = (r, .error .valueError)) ∧
    (PyCmp.lt v (lit 0) = true → r.step fl (.setReynolds v) = (r, .error .valueError)) := by
  constructor
  · intro h; simp [Reader.step, h]
  · intro h; simp [Reader.step, h]

/-- C46: an accepted reference velocity scales the edge velocities of all three parts and leaves every other array alone. -/
theorem reference_velocity_scales (fl : Floats α) (r : Reader α) (v : α) (h : PyCmp.le v (lit 0) = false) :
    ∃ r', r.step fl (.setURef v) = (r', .ok ()) ∧ r'.array .uE .upper = some (r.upperPts.map (v * ·.u)) ∧
      r'.array .uE .lower = some (r.lowerPts.map (v * ·.u)) ∧ r'.array .uE .wake = some (r.wake.map (v * ·.u)) ∧
      ∀ q s, q ≠ .uE → r'.array q s = r.array q s := by
  refine ⟨{ r with uRef := v }, by simp [Reader.step, h], ?_, ?_, ?_, ?_⟩
  · simp [Reader.array, Reader.surface, gather_eq, Reader.upperPts]
  · simp [Reader.array, Reader.surface, gather_eq, Reader.lowerPts]
  · simp [Reader.array, gather_eq]
  · intro q s hq
    cases s <;> cases q <;> first | rfl | exact absurd rfl hq

end generic
end IBL.XFoil
