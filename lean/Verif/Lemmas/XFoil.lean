import Verif.Props.XFoilData

/-! How the reader's heap and lists relate to the rows of the file. -/

set_option linter.unusedSectionVars false

namespace IBL.XFoil
variable {α : Type}

/-- The division of the lines of a dump file: an optional first line that starts with `#`, the airfoil rows, and the wake rows, which begin at the
first line shorter than 80 characters (if that is not the first line of the file). -/
structure Sections (lines air wk : List Text) : Prop where
  split : ∃ hdr, lines = hdr ++ air ++ wk ∧ ((hdr = [] ∧ ∀ l, lines.head? = some l → l.head? ≠ some '#') ∨ ∃ l, hdr = [l] ∧ l.head? = some '#')
  nonempty : lines ≠ []
  wake : wk ≠ [] → ∃ pre w post, pre ≠ [] ∧ lines = pre ++ wk ∧ (∀ l ∈ pre, 80 ≤ l.length) ∧ wk = w :: post ∧ w.length < 80
  noWake : wk = [] → (∀ l ∈ lines, 80 ≤ l.length) ∨ ∃ l, lines.head? = some l ∧ l.length < 80

theorem sections_dumpData (lines air wk : List Text) (h : dumpData lines = .ok (air, wk)) : Sections lines air wk := by
  cases lines with
  | nil => simp [dumpData] at h
  | cons l t =>
    simp only [dumpData] at h
    set k := List.findIdx (fun l : Text => decide (l.length < 80)) (l :: t) with hk
    by_cases hw : 0 < k ∧ k < (l :: t).length
    · rw [if_pos hw] at h
      obtain ⟨rfl, rfl⟩ : List.drop (if l.head? = some '#' then 1 else 0) (List.take k (l :: t)) = air ∧ List.drop k (l :: t) = wk := by
        have := Except.ok.inj h; exact ⟨congrArg Prod.fst this, congrArg Prod.snd this⟩
      have hdec : List.take k (l :: t) ++ List.drop k (l :: t) = l :: t := List.take_append_drop _ _
      obtain ⟨m, hm⟩ : ∃ m, k = m + 1 := ⟨k - 1, by omega⟩
      have hlong : ∀ x ∈ List.take k (l :: t), 80 ≤ x.length := by
        intro x hx
        obtain ⟨i, hi, rfl⟩ := List.getElem_of_mem hx
        rw [List.length_take] at hi
        have := List.not_of_lt_findIdx (p := fun l : Text => decide (l.length < 80)) (xs := l :: t) (i := i) (by omega)
        rw [List.getElem_take]
        simpa using this
      have hshort : ((l :: t)[k]'hw.2).length < 80 := by
        have := List.findIdx_getElem (p := fun l : Text => decide (l.length < 80)) (xs := l :: t) (w := hw.2)
        simpa using this
      refine ⟨?_, by simp, fun _ => ⟨List.take k (l :: t), (l :: t)[k]'hw.2, List.drop (k + 1) (l :: t), by simp [hm], hdec.symm, hlong, ?_, hshort⟩, ?_⟩
      · by_cases hl : l.head? = some '#'
        · rw [if_pos hl]
          refine ⟨[l], ?_, .inr ⟨l, rfl, hl⟩⟩
          rw [hm] at hdec ⊢
          simpa using hdec.symm
        · rw [if_neg hl]
          refine ⟨[], ?_, .inl ⟨rfl, by simp [hl]⟩⟩
          simpa using hdec.symm
      · exact List.drop_eq_getElem_cons hw.2
      · intro hnil
        rw [List.drop_eq_nil_iff] at hnil; omega
    · rw [if_neg hw] at h
      obtain ⟨rfl, rfl⟩ : List.drop (if l.head? = some '#' then 1 else 0) (l :: t) = air ∧ [] = wk := by
        have := Except.ok.inj h; exact ⟨congrArg Prod.fst this, congrArg Prod.snd this⟩
      refine ⟨?_, by simp, by simp, fun _ => ?_⟩
      · by_cases hl : l.head? = some '#'
        · exact ⟨[l], by simp [hl], .inr ⟨l, rfl, hl⟩⟩
        · exact ⟨[], by simp [hl], .inl ⟨rfl, by simp [hl]⟩⟩
      · by_cases h0 : 0 < k
        · left
          have hke : k = (l :: t).length := by
            have := List.findIdx_le_length (p := fun l : Text => decide (l.length < 80)) (xs := l :: t)
            omega
          rw [hk, List.findIdx_eq_length] at hke
          intro x hx; simpa using hke x hx
        · right
          refine ⟨l, rfl, ?_⟩
          by_contra hl
          apply h0
          rw [hk, List.findIdx_cons]
          simp [hl]

section
variable [Add α] [Sub α] [Mul α] [Div α] [Neg α] [PyLit α] [PyCmp α] [PySpecial α]

/-- The same record with another arc length. -/
def Pt.at (f : α → α) (p : Pt α) : Pt α := { p with s := f p.s }
@[inherit_doc Pt.at]
def Wake.at (f : α → α) (p : Wake α) : Wake α := { p with s := f p.s }

/-- The records of rows of text, one each, in order. -/
def Rows (fl : Floats α) (air : List Text) (ps : List (Pt α)) : Prop := List.Forall₂ (fun row p => Pt.mk' fl row = .ok p) air ps
@[inherit_doc Rows]
def WakeRows (fl : Floats α) (wk : List Text) (ps : List (Wake α)) : Prop := List.Forall₂ (fun row p => Wake.mk' fl row = .ok p) wk ps

theorem mkAll_rows (fl : Floats α) : ∀ (air : List Text) (ps : List (Pt α)), mkAll fl air = .ok ps → Rows fl air ps
  | [], ps, h => by simp only [mkAll, Except.ok.injEq] at h; subst h; exact .nil
  | x :: l, ps, h => by
    rw [mkAll] at h
    cases hx : Pt.mk' fl x with
    | error e => simp [hx] at h
    | ok p =>
      cases hl : mkAll fl l with
      | error e => simp [hx, hl] at h
      | ok qs =>
        simp only [hx, hl, Except.ok.injEq] at h; subst h
        exact .cons hx (mkAll_rows fl l qs hl)

theorem mkWake_rows (fl : Floats α) : ∀ (air : List Text) (ps : List (Wake α)), mkWake fl air = .ok ps → WakeRows fl air ps
  | [], ps, h => by simp only [mkWake, Except.ok.injEq] at h; subst h; exact .nil
  | x :: l, ps, h => by
    rw [mkWake] at h
    cases hx : Wake.mk' fl x with
    | error e => simp [hx] at h
    | ok p =>
      cases hl : mkWake fl l with
      | error e => simp [hx, hl] at h
      | ok qs =>
        simp only [hx, hl, Except.ok.injEq] at h; subst h
        exact .cons hx (mkWake_rows fl l qs hl)

theorem adjustWake_ok (off : α) : ∀ (l l' : List (Wake α)), adjustWake off l = (l', .ok ()) → l' = l.map (Wake.at (· - off)) ∧
    ∀ w ∈ l, PyCmp.lt (w.s - off) (lit 0) = false
  | [], l', h => by simp only [adjustWake, Prod.mk.injEq, and_true] at h; subst h; simp
  | w :: l, l', h => by
    simp only [adjustWake, Wake.set] at h
    by_cases hw : PyCmp.lt (w.s - off) (lit 0) = true
    · simp [hw] at h
    · rw [if_neg hw] at h
      rcases hr : adjustWake off l with ⟨l2, res⟩
      simp only [hr, Prod.mk.injEq] at h
      obtain ⟨rfl, rfl⟩ := h
      obtain ⟨rfl, h2⟩ := adjustWake_ok off l l2 hr
      exact ⟨rfl, by intro x hx; rcases List.mem_cons.1 hx with rfl | hx; exacts [by simpa using hw, h2 x hx]⟩

/-- Where two heaps agree, so do lists of references. -/
theorem map_heap_congr {h h' : ℕ → Pt α} {l : List ℕ} (hh : ∀ i ∈ l, h i = h' i) : l.map h = l.map h' := List.map_congr_left hh

theorem adjust_ok (f : α → α) : ∀ (l : List ℕ) (h h' : ℕ → Pt α), l.Nodup → adjust f l h = (h', .ok ()) →
    (∀ i ∈ l, h' i = (h i).at f ∧ PyCmp.lt (f (h i).s) (lit 0) = false) ∧ ∀ i ∉ l, h' i = h i
  | [], h, h', _, e => by simp only [adjust, Prod.mk.injEq, and_true] at e; subst e; simp
  | i :: l, h, h', hn, e => by
    simp only [adjust, Pt.set] at e
    by_cases hw : PyCmp.lt (f (h i).s) (lit 0) = true
    · simp [hw] at e
    · rw [if_neg hw] at e
      obtain ⟨hi, hn⟩ := List.nodup_cons.1 hn
      obtain ⟨h1, h2⟩ := adjust_ok f l _ h' hn e
      constructor
      · intro j hj
        rcases List.mem_cons.1 hj with rfl | hj
        · rw [h2 j hi, Function.update_self]; exact ⟨rfl, by simpa using hw⟩
        · have hne : j ≠ i := fun e => hi (e ▸ hj)
          have := h1 j hj
          rwa [Function.update_of_ne hne] at this
      · intro j hj
        simp only [List.mem_cons, not_or] at hj
        rw [h2 j hj.2, Function.update_of_ne hj.1]

/-- Lists of references to distinct existing objects. -/
structure Reader.Fresh (r : Reader α) : Prop where
  nodup : (r.upper ++ r.lower).Nodup
  bound : ∀ i ∈ r.upper ++ r.lower, i < r.next

theorem readUpper_ok (fl : Floats α) : ∀ (rows : List Text) (r r' : Reader α) (i : ℕ) (idx : Option ℕ), r.lower = [] → r.Fresh →
    r.readUpper fl i rows = (r', .ok idx) →
    ∃ ps, r'.Fresh ∧ r'.upperPts = ps.reverse ++ r.upperPts ∧ (∀ p ∈ ps, PyCmp.lt p.u (lit 0) = false) ∧
      r' = { r with heap := r'.heap, next := r'.next, upper := r'.upper } ∧
      ((idx = none ∧ Rows fl rows ps) ∨ ∃ a x b p, rows = a ++ x :: b ∧ idx = some (i + a.length) ∧ Rows fl a ps ∧ Pt.mk' fl x = .ok p ∧
        PyCmp.lt p.u (lit 0) = true)
  | [], r, r', i, idx, _, hf, h => by
    simp only [Reader.readUpper, Prod.mk.injEq, Except.ok.injEq] at h
    obtain ⟨rfl, rfl⟩ := h
    exact ⟨[], hf, by simp, by simp, rfl, .inl ⟨rfl, .nil⟩⟩
  | ad :: rows, r, r', i, idx, hl, hf, h => by
    rw [Reader.readUpper] at h
    cases hp : Pt.mk' fl ad with
    | error e => simp [hp] at h
    | ok p =>
      simp only [hp] at h
      by_cases hu : PyCmp.lt p.u (lit 0) = true
      · rw [if_pos hu] at h
        simp only [Prod.mk.injEq, Except.ok.injEq] at h
        obtain ⟨rfl, rfl⟩ := h
        exact ⟨[], hf, by simp, by simp, rfl, .inr ⟨[], ad, rows, p, rfl, by simp, .nil, hp, hu⟩⟩
      · rw [if_neg hu] at h
        simp only [Reader.alloc] at h
        have hb : ∀ j ∈ r.upper, j < r.next := fun j hj => hf.bound j (by simp [hj])
        have hf' : Reader.Fresh (α := α) { r with heap := Function.update r.heap r.next p, next := r.next + 1, upper := r.next :: r.upper } := by
          have hn := hf.nodup
          rw [hl, List.append_nil] at hn
          refine ⟨?_, ?_⟩
          · simp only [hl, List.append_nil, List.nodup_cons]
            exact ⟨fun hm => absurd (hb _ hm) (by simp), hn⟩
          · simp only [hl, List.append_nil, List.mem_cons]
            rintro j (rfl | hj)
            · omega
            · have := hb j hj; omega
        obtain ⟨ps, h1, h2, h3, h4, h5⟩ := readUpper_ok fl rows _ r' (i + 1) idx (by exact hl) hf' h
        refine ⟨p :: ps, h1, ?_, ?_, h4, ?_⟩
        · rw [h2]
          have : (r.upper.map (Function.update r.heap r.next p)) = r.upper.map r.heap :=
            map_heap_congr fun j hj => Function.update_of_ne (by have := hb j hj; omega) _ _
          simp [Reader.upperPts, this]
        · intro q hq; rcases List.mem_cons.1 hq with rfl | hq
          exacts [by simpa using hu, h3 q hq]
        · rcases h5 with ⟨e, hr⟩ | ⟨a, x, b, q, e1, e2, hr, hq, hqu⟩
          · exact .inl ⟨e, .cons hp hr⟩
          · exact .inr ⟨ad :: a, x, b, q, by rw [e1]; rfl, by rw [e2]; simp; omega, .cons hp hr, hq, hqu⟩

theorem allocAll_ok : ∀ (ps : List (Pt α)) (r : Reader α),
    let q := r.allocAll ps
    q.2.map q.1.heap = ps ∧ q.2.Nodup ∧ (∀ i ∈ q.2, r.next ≤ i ∧ i < q.1.next) ∧ r.next ≤ q.1.next ∧ (∀ i < r.next, q.1.heap i = r.heap i) ∧
      q.1 = { r with heap := q.1.heap, next := q.1.next }
  | [], r => by simp [Reader.allocAll]
  | p :: ps, r => by
    simp only [Reader.allocAll, Reader.alloc]
    obtain ⟨h1, h2, h3, h4, h5, h6⟩ := allocAll_ok ps { r with heap := Function.update r.heap r.next p, next := r.next + 1 }
    simp only at h1 h2 h3 h4 h5 h6
    refine ⟨?_, ?_, ?_, by omega, ?_, h6⟩
    · rw [List.map_cons, h1, h5 _ (by omega), Function.update_self]
    · rw [List.nodup_cons]
      exact ⟨fun hm => by have := (h3 _ hm).1; omega, h2⟩
    · intro i hi
      rcases List.mem_cons.1 hi with rfl | hi
      · exact ⟨le_rfl, by omega⟩
      · have := h3 i hi; exact ⟨by omega, this.2⟩
    · intro i hi
      rw [h5 i (by omega), Function.update_of_ne (by omega)]

/-- What a successful read has done, in terms of rows. `us` and `ls` are the records of the rows of the two surfaces in file order. -/
inductive Placed (fl : Floats α) (us ls : List (Pt α)) (upper lower : List (Pt α)) : Prop
  /-- The last row of the upper surface has zero velocity: it is moved twice. -/
  | shared (a : Pt α) (rest : List (Pt α)) (hus : us.reverse = a :: rest) (h0 : PyCmp.eq a.u (lit 0) = true)
      (hu : upper = a.at (fun s => (a.s - s) - a.s) :: rest.map (Pt.at (a.s - ·)))
      (hl : lower = a.at (fun s => (a.s - s) - a.s) :: (ls.map Pt.flip).map (Pt.at (· - a.s)))
      (cu : ∀ p ∈ us, PyCmp.lt (a.s - p.s) (lit 0) = false) (ca : PyCmp.lt ((a.s - a.s) - a.s) (lit 0) = false)
      (cl : ∀ p ∈ ls, PyCmp.lt (p.s - a.s) (lit 0) = false)
  /-- Otherwise a new point is put between the neighbours. -/
  | between (a b : Pt α) (ru rl : List (Pt α)) (hus : us.reverse = a :: ru) (hls : ls = b :: rl) (h0 : PyCmp.eq a.u (lit 0) = false)
      (frac : α) (hf : pyDiv a.u (a.u + b.flip.u) = .ok frac) (p0 p : Pt α) (hp0 : Pt.mk' fl [] = .ok p0)
      (hp : p0.sets (interpolate a b.flip frac) = (p, .ok ()))
      (hu : upper = (p :: us.reverse).map (Pt.at (p.s - ·))) (hl : lower = (p :: ls.map Pt.flip).map (Pt.at (· - p.s)))
      (cu : ∀ q ∈ p :: us, PyCmp.lt (p.s - q.s) (lit 0) = false) (cl : ∀ q ∈ p :: ls, PyCmp.lt (q.s - p.s) (lit 0) = false)

theorem place_ok (fl : Floats α) (r r1 : Reader α) (stag : α) (h1 h2 : ℕ → Pt α) (us ls : List (Pt α)) (hf : r.Fresh) (hu : r.upperPts = us.reverse)
    (hl : r.lowerPts = ls.map Pt.flip) (hs : r.stagnation fl = (r1, .ok stag)) (ha : adjust (fun s => stag - s) r1.upper r1.heap = (h1, .ok ()))
    (hb : adjust (fun s => s - stag) r1.lower h1 = (h2, .ok ())) :
    Placed fl us ls (r1.upper.map h2) (r1.lower.map h2) ∧ r1 = { r with heap := r1.heap, next := r1.next, upper := r1.upper, lower := r1.lower } := by
  have flip_s : ∀ p : Pt α, p.flip.s = p.s := fun p => rfl
  have hnu := (List.nodup_append.1 hf.nodup).1
  have hnl := (List.nodup_append.1 hf.nodup).2.1
  have hdis : ∀ i ∈ r.upper, i ∉ r.lower := fun i hi hj => (List.nodup_append.1 hf.nodup).2.2 i hi i hj rfl
  rw [Reader.stagnation] at hs
  cases hup : r.upper with
  | nil => simp [hup] at hs
  | cons a rest =>
    simp only [hup] at hs
    have husr : us.reverse = r.heap a :: rest.map r.heap := by rw [← hu]; simp [Reader.upperPts, hup]
    by_cases h0 : PyCmp.eq (r.heap a).u (lit 0) = true
    · rw [if_pos h0] at hs
      simp only [Prod.mk.injEq, Except.ok.injEq] at hs
      obtain ⟨rfl, rfl⟩ := hs
      refine ⟨?_, by simp⟩
      simp only [hup] at ha hb ⊢
      rw [hup] at hnu hdis
      have hal : a ∉ r.lower := hdis a (by simp)
      obtain ⟨e1, e2⟩ := adjust_ok _ _ _ _ hnu ha
      obtain ⟨f1, f2⟩ := adjust_ok _ _ _ _ (List.nodup_cons.2 ⟨hal, hnl⟩) hb
      have ea := e1 a (by simp)
      have hfa := f1 a (by simp)
      refine .shared (r.heap a) (rest.map r.heap) husr h0 ?_ ?_ ?_ ?_ ?_
      · rw [List.map_cons, hfa.1, ea.1, List.map_map]
        congr 1
        refine List.map_congr_left fun i hi => ?_
        have : i ∉ a :: r.lower := by
          intro hm; rcases List.mem_cons.1 hm with rfl | hm
          · exact (List.nodup_cons.1 hnu).1 hi
          · exact hdis i (by simp [hi]) hm
        rw [f2 i this, (e1 i (by simp [hi])).1]; rfl
      · rw [List.map_cons, hfa.1, ea.1, ← hl, Reader.lowerPts, List.map_map]
        congr 1
        refine List.map_congr_left fun i hi => ?_
        have : i ∉ a :: rest := fun hm => hdis i hm hi
        rw [(f1 i (by simp [hi])).1, e2 i this]; rfl
      · intro p hp
        have hp' : p ∈ us.reverse := List.mem_reverse.2 hp
        rw [← hu, Reader.upperPts, hup] at hp'
        obtain ⟨i, hi, rfl⟩ := List.mem_map.1 hp'
        exact (e1 i hi).2
      · have := hfa.2
        rw [ea.1] at this; exact this
      · intro p hp
        have hp' : p.flip ∈ ls.map Pt.flip := List.mem_map.2 ⟨p, hp, rfl⟩
        rw [← hl, Reader.lowerPts] at hp'
        obtain ⟨i, hi, hip⟩ := List.mem_map.1 hp'
        have := (f1 i (by simp [hi])).2
        have hx : i ∉ a :: rest := fun hm => hdis i hm hi
        rw [e2 i hx, hip] at this; exact this
    · rw [if_neg h0] at hs
      cases hlo : r.lower with
      | nil => simp [hlo] at hs
      | cons b lrest =>
        simp only [hlo] at hs
        cases hd : pyDiv (r.heap a).u ((r.heap a).u + (r.heap b).u) with
        | error e => simp [hd] at hs
        | ok frac =>
          cases hm : Pt.mk' fl [] with
          | error e => simp [hd, hm] at hs
          | ok p0 =>
            rcases hset : p0.sets (interpolate (r.heap a) (r.heap b) frac) with ⟨p, e | _⟩
            · simp [hd, hm, hset] at hs
            · simp only [hd, hm, hset, Reader.alloc, Prod.mk.injEq, Except.ok.injEq] at hs
              obtain ⟨rfl, rfl⟩ := hs
              simp only [hup] at ha hb ⊢
              have hbnd := hf.bound
              rw [hup, hlo] at hbnd hdis
              rw [hup] at hnu
              rw [hlo] at hnl
              have hub : ∀ i ∈ a :: rest, i < r.next := fun i hi => hbnd i (List.mem_append_left _ hi)
              have hlb : ∀ i ∈ b :: lrest, i < r.next := fun i hi => hbnd i (List.mem_append_right _ hi)
              obtain ⟨b', lr', hls, hbf, hlr⟩ : ∃ b' lr', ls = b' :: lr' ∧ b'.flip = r.heap b ∧ lr'.map Pt.flip = lrest.map r.heap := by
                cases ls with
                | nil => simp [Reader.lowerPts, hlo] at hl
                | cons b' lr' =>
                  simp only [Reader.lowerPts, hlo, List.map_cons, List.cons.injEq] at hl
                  exact ⟨b', lr', rfl, hl.1.symm, hl.2.symm⟩
              obtain ⟨e1, e2⟩ := adjust_ok _ _ _ _ (List.nodup_cons.2 ⟨fun hm => by have := hub _ hm; omega, hnu⟩) ha
              obtain ⟨f1, f2⟩ := adjust_ok _ _ _ _ (List.nodup_cons.2 ⟨fun hm => by rw [hlo] at hm; have := hlb _ hm; omega, by rw [hlo]; exact hnl⟩) hb
              have hh : ∀ i < r.next, Function.update (Function.update r.heap r.next p) (r.next + 1) p i = r.heap i := by
                intro i hi
                rw [Function.update_of_ne (by omega), Function.update_of_ne (by omega)]
              have hn0 : Function.update (Function.update r.heap r.next p) (r.next + 1) p r.next = p := by
                rw [Function.update_of_ne (by omega), Function.update_self]
              have hn1 : Function.update (Function.update r.heap r.next p) (r.next + 1) p (r.next + 1) = p := by
                rw [Function.update_self]
              have u0 := e1 r.next (by simp)
              have l0 := f1 (r.next + 1) (by simp)
              have x1 : r.next + 1 ∉ r.next :: a :: rest := by
                intro hm; rcases List.mem_cons.1 hm with h | h
                · omega
                · have := hub _ h; omega
              have x0 : r.next ∉ (r.next + 1) :: r.lower := by
                rw [hlo]
                intro hm; rcases List.mem_cons.1 hm with h | h
                · omega
                · have := hlb _ h; omega
              rw [e2 _ x1, hn1] at l0
              rw [hn0] at u0
              refine ⟨.between (r.heap a) b' (rest.map r.heap) lr' husr hls (by simpa using h0) frac (by rw [hbf]; exact hd) p0 p hm
                (by rw [hbf]; exact hset) ?_ ?_ ?_ ?_, by simp⟩
              · rw [← hu, Reader.upperPts, hup, List.map_cons (f := h2) (a := r.next), List.map_cons (f := Pt.at _), f2 _ x0, u0.1, List.map_map]
                congr 1
                refine List.map_congr_left fun i hi => ?_
                have : i ∉ (r.next + 1) :: r.lower := by
                  rw [hlo]
                  intro hm; rcases List.mem_cons.1 hm with h | h
                  · have := hub i hi; omega
                  · exact hdis i hi h
                rw [f2 i this, (e1 i (List.mem_cons_of_mem _ hi)).1, hh i (hub i hi)]; rfl
              · rw [← hl, Reader.lowerPts, List.map_cons (f := h2) (a := r.next + 1), List.map_cons (f := Pt.at _), l0.1, List.map_map]
                congr 1
                refine List.map_congr_left fun i hi => ?_
                have hi' := hi
                rw [hlo] at hi'
                have : i ∉ r.next :: a :: rest := by
                  intro hm; rcases List.mem_cons.1 hm with h | h
                  · have := hlb i hi'; omega
                  · exact hdis i h hi'
                rw [(f1 i (List.mem_cons_of_mem _ hi)).1, e2 i this, hh i (hlb i hi')]; rfl
              · intro q hq
                rcases List.mem_cons.1 hq with rfl | hq
                · exact u0.2
                · have hq' : q ∈ us.reverse := List.mem_reverse.2 hq
                  rw [← hu, Reader.upperPts, hup] at hq'
                  obtain ⟨i, hi, rfl⟩ := List.mem_map.1 hq'
                  have := (e1 i (List.mem_cons_of_mem _ hi)).2
                  rwa [hh i (hub i hi)] at this
              · intro q hq
                rcases List.mem_cons.1 hq with rfl | hq
                · exact l0.2
                · have hq' : q.flip ∈ ls.map Pt.flip := List.mem_map.2 ⟨q, hq, rfl⟩
                  rw [← hl, Reader.lowerPts] at hq'
                  obtain ⟨i, hi, hip⟩ := List.mem_map.1 hq'
                  have hi' := hi
                  rw [hlo] at hi'
                  have : i ∉ r.next :: a :: rest := by
                    intro hm; rcases List.mem_cons.1 hm with h | h
                    · have := hlb i hi'; omega
                    · exact hdis i h hi'
                  have h3 := (f1 i (List.mem_cons_of_mem _ hi)).2
                  rw [e2 i this, hh i (hlb i hi'), hip] at h3; exact h3

/-- The rows of the two surfaces: all rows up to the first with negative velocity, and the rest; if there is none, the last row twice. -/
inductive Divided (fl : Floats α) (air : List Text) (us ls : List (Pt α)) : Prop
  | at (b : Pt α) (lr : List (Pt α)) (hls : ls = b :: lr) (hrows : Rows fl air (us ++ ls)) (hu : ∀ p ∈ us, PyCmp.lt p.u (lit 0) = false)
      (hb : PyCmp.lt b.u (lit 0) = true)
  | none (a : Pt α) (hus : us.getLast? = some a) (hls : ls = [a]) (hrows : Rows fl air us) (hu : ∀ p ∈ us, PyCmp.lt p.u (lit 0) = false)

/-- A successful read of a file. -/
structure Loaded (fl : Floats α) (lines : List Text) (r : Reader α) (air wk : List Text) (us ls : List (Pt α)) (ws : List (Wake α)) : Prop where
  sections : Sections lines air wk
  divided : Divided fl air us ls
  placed : Placed fl us ls r.upperPts r.lowerPts
  wakeRows : WakeRows fl wk ws
  wake : ∀ w rest, ws = w :: rest → r.wake = ws.map (Wake.at (· - w.s)) ∧ ∀ v ∈ ws, PyCmp.lt (v.s - w.s) (lit 0) = false
  noWake : ws = [] → r.wake = []
  rest : r = { (Reader.empty : Reader α) with heap := r.heap, next := r.next, upper := r.upper, lower := r.lower, wake := r.wake }

theorem rows_functional {fl : Floats α} {air : List Text} {ps qs : List (Pt α)} (h1 : Rows fl air ps) (h2 : Rows fl air qs) : ps = qs := by
  induction h1 generalizing qs with
  | nil => cases h2; rfl
  | cons hp _ ih =>
    cases h2 with
    | cons hq h2 => rw [ih h2]; rw [hp] at hq; rw [Except.ok.inj hq]

theorem rows_append {fl : Floats α} {a b : List Text} {ps qs : List (Pt α)} (h1 : Rows fl a ps) (h2 : Rows fl b qs) : Rows fl (a ++ b) (ps ++ qs) := by
  induction h1 with
  | nil => exact h2
  | cons hp _ ih => exact .cons hp ih

theorem rows_drop {fl : Floats α} {air : List Text} {ps : List (Pt α)} (h : Rows fl air ps) (k : ℕ) : Rows fl (air.drop k) (ps.drop k) := by
  induction h generalizing k with
  | nil => rw [List.drop_nil, List.drop_nil]; exact .nil
  | cons hp h ih =>
    cases k with
    | zero => exact .cons hp h
    | succ k => exact ih k

theorem rows_length {fl : Floats α} {air : List Text} {ps : List (Pt α)} (h : Rows fl air ps) : air.length = ps.length := List.Forall₂.length_eq h

theorem rows_mem {fl : Floats α} {air : List Text} {ps : List (Pt α)} (h : Rows fl air ps) {p : Pt α} (hp : p ∈ ps) :
    ∃ row ∈ air, Pt.mk' fl row = .ok p := by
  induction h with
  | nil => simp at hp
  | cons hq _ ih =>
    rcases List.mem_cons.1 hp with rfl | hm
    · exact ⟨_, List.mem_cons_self, hq⟩
    · obtain ⟨row, h1, h2⟩ := ih hm
      exact ⟨row, List.mem_cons_of_mem _ h1, h2⟩

/-- A record made from a row has an arc length that is not negative. -/
theorem mk'_s {fl : Floats α} {row : Text} {a : Pt α} (hq : Pt.mk' fl row = .ok a) : PyCmp.lt a.s (lit 0) = false := by
  have keep : ∀ (l : List (Field × α)) (p q : Pt α), PyCmp.lt p.s (lit 0) = false → p.sets l = (q, .ok ()) → PyCmp.lt q.s (lit 0) = false := by
    intro l
    induction l with
    | nil => intro p q hp e; simp only [Pt.sets, Prod.mk.injEq, and_true] at e; rw [← e]; exact hp
    | cons fv l ih =>
      intro p q hp e
      obtain ⟨f, v⟩ := fv
      rw [Pt.sets] at e
      rcases hset : p.set f v with ⟨p1, err | _⟩
      · simp [hset] at e
      · simp only [hset] at e
        refine ih p1 q ?_ e
        cases f <;> simp only [Pt.set] at hset <;> (try split_ifs at hset with hv) <;>
          simp only [Prod.mk.injEq, and_true, reduceCtorEq, and_false] at hset <;> (try rw [← hset]) <;> (try exact hp)
        simpa using hv
  have first : ∀ (l : List (Field × α)) (p q : Pt α) (v : α), p.sets ((.s, v) :: l) = (q, .ok ()) → PyCmp.lt q.s (lit 0) = false := by
    intro l p q v e
    rw [Pt.sets] at e
    rcases hset : p.set .s v with ⟨p1, err | _⟩
    · simp [hset] at e
    · simp only [hset] at e
      refine keep l p1 q ?_ e
      simp only [Pt.set] at hset
      split_ifs at hset with hv
      · simp at hset
      · simp only [Prod.mk.injEq, and_true] at hset
        rw [← hset]; simpa using hv
  rw [Pt.mk', Pt.reset] at hq
  rcases hs : (Pt.infs : Pt α).sets Pt.infs.assignments with ⟨p1, err | _⟩
  · simp [hs] at hq
  · simp only [hs] at hq
    by_cases hd : row = []
    · rw [if_pos hd] at hq
      simp only [Except.ok.injEq] at hq
      rw [← hq]; exact first _ _ _ _ hs
    · rw [if_neg hd] at hq
      cases ho : Pt.ofRow fl row with
      | none => simp [ho] at hq
      | some v =>
        simp only [ho] at hq
        rcases hs2 : p1.sets v.assignments with ⟨p2, err | _⟩
        · simp [hs2] at hq
        · simp only [hs2, Except.ok.injEq] at hq
          rw [← hq]; exact first _ _ _ _ hs2

/-- Every row used on the surfaces is a row of the file. -/
theorem Divided.mem {fl : Floats α} {air : List Text} {us ls : List (Pt α)} (h : Divided fl air us ls) {p : Pt α} (hp : p ∈ us) :
    ∃ row ∈ air, Pt.mk' fl row = .ok p := by
  cases h with
  | «at» b lr hls hrows hu hb => exact rows_mem hrows (List.mem_append_left _ hp)
  | none a hga hls hrows hu => exact rows_mem hrows hp

theorem readWake_ok (fl : Floats α) (r r' : Reader α) (wk : List Text) (hr : r.wake = []) (h : r.readWake fl wk = (r', .ok ())) :
    ∃ ws, WakeRows fl wk ws ∧ (∀ w rest, ws = w :: rest → r'.wake = ws.map (Wake.at (· - w.s)) ∧ ∀ v ∈ ws, PyCmp.lt (v.s - w.s) (lit 0) = false) ∧
      (ws = [] → r'.wake = []) ∧ r' = { r with wake := r'.wake } := by
  cases wk with
  | nil =>
    simp only [Reader.readWake, Prod.mk.injEq, and_true] at h
    subst h
    exact ⟨[], .nil, by simp, fun _ => hr, rfl⟩
  | cons x t =>
    rw [Reader.readWake] at h
    · cases hm : mkWake fl (x :: t) with
      | error e => simp [hm] at h
      | ok ws =>
        cases ws with
        | nil => simp [hm] at h
        | cons w l =>
          rcases ha : adjustWake w.s (w :: l) with ⟨l', res⟩
          simp only [hm, ha, Prod.mk.injEq] at h
          obtain ⟨rfl, rfl⟩ := h
          obtain ⟨rfl, h2⟩ := adjustWake_ok _ _ _ ha
          refine ⟨w :: l, mkWake_rows _ _ _ hm, ?_, by simp, rfl⟩
          intro w' rest e
          cases e
          exact ⟨rfl, h2⟩
    · simp

theorem load_ok (fl : Floats α) (fs : Files) (name : Text) (hn : name ≠ []) (r : Reader α) (h : Reader.load fl fs name = (r, .ok ())) :
    ∃ content air wk us ls ws, fs name = .ok content ∧ Loaded fl (readlines content) r air wk us ls ws := by
  rw [Reader.load, if_neg hn] at h
  cases hc : fs name with
  | error e => simp [hc] at h
  | ok content =>
    rcases hd : dumpData (readlines content) with e | ⟨air, wk⟩
    · simp [hc, hd] at h
    · rcases hu : (Reader.empty : Reader α).readUpper fl 0 air with ⟨r1, e | idx⟩
      · simp [hc, hd, hu] at h
      · simp only [hc, hd, hu] at h
        rcases hm : mkAll fl (air.drop (idx.getD (air.length - 1))) with e | ls
        · simp [hm] at h
        · simp only [hm] at h
          rcases hal : r1.allocAll (ls.map Pt.flip) with ⟨r2, lower⟩
          simp only [hal] at h
          rcases hst : ({ r2 with lower := lower } : Reader α).stagnation fl with ⟨r3, e | stag⟩
          · simp [hst] at h
          · simp only [hst] at h
            rcases ha : adjust (fun s => stag - s) r3.upper r3.heap with ⟨h1, e | _⟩
            · simp [ha] at h
            · simp only [ha] at h
              rcases hb : adjust (fun s => s - stag) r3.lower h1 with ⟨h2, e | _⟩
              · simp [hb] at h
              · simp only [hb] at h
                obtain ⟨us, g1, g2, g3, g4, g5⟩ := readUpper_ok fl air _ r1 0 idx rfl ⟨by simp [Reader.empty], by simp [Reader.empty]⟩ hu
                have hlow : r1.lower = [] := by rw [g4]; rfl
                obtain ⟨k1, k2, k3, k4, k5, k6⟩ := allocAll_ok (ls.map Pt.flip) r1
                simp only [hal] at k1 k2 k3 k4 k5 k6
                have hr2u : r2.upper = r1.upper := by rw [k6]
                have hub : ∀ i ∈ r1.upper, i < r1.next := fun i hi => g1.bound i (by simp [hi])
                have hf2 : ({ r2 with lower := lower } : Reader α).Fresh := by
                  refine ⟨?_, ?_⟩
                  · simp only [hr2u]
                    rw [List.nodup_append]
                    have := g1.nodup
                    rw [hlow, List.append_nil] at this
                    refine ⟨this, k2, ?_⟩
                    rintro i hi j hj rfl
                    have := hub i hi
                    have := (k3 i hj).1
                    omega
                  · simp only [hr2u, List.mem_append]
                    rintro i (hi | hi)
                    · exact lt_of_lt_of_le (hub i hi) k4
                    · exact (k3 i hi).2
                have hup2 : ({ r2 with lower := lower } : Reader α).upperPts = us.reverse := by
                  rw [show us.reverse = r1.upperPts by rw [g2]; simp [Reader.upperPts, Reader.empty]]
                  simp only [Reader.upperPts, hr2u]
                  exact map_heap_congr fun i hi => k5 i (hub i hi)
                obtain ⟨hpl, hr3⟩ := place_ok fl { r2 with lower := lower } r3 stag h1 h2 us ls hf2 hup2 k1 hst ha hb
                have hrest : r3 = { (Reader.empty : Reader α) with heap := r3.heap, next := r3.next, upper := r3.upper, lower := r3.lower } := by
                  rw [hr3, k6, g4]
                have hw3 : r3.wake = [] := by rw [hrest]; rfl
                obtain ⟨ws, w1, w2, w3, w4⟩ := readWake_ok fl { r3 with heap := h2 } r wk hw3 h
                refine ⟨content, air, wk, us, ls, ws, rfl, sections_dumpData _ _ _ hd, ?_, ?_, w1, w2, w3, ?_⟩
                · have hrows := mkAll_rows fl _ _ hm
                  rcases g5 with ⟨rfl, hr⟩ | ⟨a, x, b, p, e1, e2, hr, hx, hxu⟩
                  · rw [Option.getD_none] at hrows
                    have hd2 := rows_drop hr (air.length - 1)
                    have e := rows_functional hrows hd2
                    rw [rows_length hr] at e
                    cases husn : us.reverse with
                    | nil =>
                      have : us = [] := by simpa using husn
                      exfalso
                      cases hpl with
                      | shared a rest hus => rw [husn] at hus; cases hus
                      | between a b ru rl hus => rw [husn] at hus; cases hus
                    | cons a rest =>
                      have hus : us = rest.reverse ++ [a] := by rw [← List.reverse_reverse us, husn]; simp
                      refine .none a (by rw [hus]; simp) ?_ hr g3
                      rw [e, hus]; simp
                  · subst e2
                    rw [e1] at hrows
                    simp only [Option.getD_some, zero_add, List.drop_left] at hrows
                    cases hrows with
                    | @cons _ q _ qs hq hqs =>
                      rw [hx] at hq; cases hq
                      exact .at p qs rfl (by rw [e1]; exact rows_append hr (.cons hx hqs)) g3 hxu
                · rw [w4]; exact hpl
                · rw [w4, hrest]

end
end IBL.XFoil
