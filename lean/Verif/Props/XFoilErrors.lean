import Verif.Props.Assign

/-! C93: XFoil dumps that do not contain two surfaces are refused; and which exceptions loading a file can raise. -/

set_option linter.unusedSectionVars false

namespace IBL.XFoil
variable {α : Type}
variable [Add α] [Sub α] [Mul α] [Div α] [Neg α] [PyLit α] [PyCmp α] [PySpecial α]

/-! ### Files that are refused -/

/-- **C93**, an empty file: IndexError. -/
theorem empty_file_refused (fl : Floats α) (fs : Files) (name : Text) (hn : name ≠ []) (hc : fs name = .ok []) :
    (Reader.load fl fs name).2 = .error .indexError := by
  rw [Reader.load, if_neg hn]
  simp [hc, readlines, newlines, linesAux, dumpData]

/-- **C93**, a file without airfoil rows (only a header, or a header and a wake): IndexError. -/
theorem no_rows_refused (fl : Floats α) (fs : Files) (name content : Text) (hn : name ≠ []) (hc : fs name = .ok content) (wk : List Text)
    (hs : Sections (readlines content) [] wk) : (Reader.load fl fs name).2 = .error .indexError := by
  rw [Reader.load, if_neg hn]
  simp [hc, dumpData_sections _ _ _ hs, Reader.readUpper, mkAll, Reader.allocAll, Reader.stagnation, Reader.empty]

private theorem allocAll_upper : ∀ (ps : List (Pt α)) (r : Reader α), (r.allocAll ps).1.upper = r.upper
  | [], r => rfl
  | p :: ps, r => by simp only [Reader.allocAll]; rw [allocAll_upper ps]; rfl

/-- **C93**, a file whose first airfoil row has negative velocity: IndexError. -/
theorem first_negative_refused (fl : Floats α) (fs : Files) (name content : Text) (hn : name ≠ []) (hc : fs name = .ok content) (air wk : List Text)
    (hs : Sections (readlines content) air wk) (p : Pt α) (ps : List (Pt α)) (hrows : Rows fl air (p :: ps)) (hp : PyCmp.lt p.u (lit 0) = true) :
    (Reader.load fl fs name).2 = .error .indexError := by
  rw [Reader.load, if_neg hn]
  simp only [hc, dumpData_sections _ _ _ hs]
  cases hrows with
  | @cons x _ air _ hx hr =>
    simp only [Reader.readUpper, hx, hp, if_true, Option.getD_some, List.drop_zero]
    rw [mkAll_forward (List.Forall₂.cons hx hr : Rows fl (x :: air) (p :: ps))]
    simp only
    have hu : ((Reader.empty : Reader α).allocAll ((p :: ps).map Pt.flip)).1.upper = [] := by rw [allocAll_upper]; rfl
    generalize (Reader.empty : Reader α).allocAll ((p :: ps).map Pt.flip) = q at hu
    obtain ⟨r, lower⟩ := q
    simp only at hu
    simp [Reader.stagnation, hu]

/-! ### All exceptions -/

theorem sets_raises : ∀ (l : List (Field × α)) (p : Pt α) (e : Exc), (p.sets l).2 = .error e → e = .valueError
  | [], p, e, h => by simp [Pt.sets] at h
  | (f, v) :: l, p, e, h => by
    simp only [Pt.sets] at h
    split at h
    · next q e' hq =>
      cases h
      have := Pt.set_error p f v e (by rw [hq])
      rw [hq] at this
      cases this; rfl
    · next q hq => exact sets_raises l q e h

theorem wake_sets_raises : ∀ (l : List (Field × α)) (p : Wake α) (e : Exc), (p.sets l).2 = .error e → e = .valueError
  | [], p, e, h => by simp [Wake.sets] at h
  | (f, v) :: l, p, e, h => by
    simp only [Wake.sets] at h
    split at h
    · next q e' hq =>
      cases h
      have := Wake.set_error p f v e (by rw [hq])
      rw [hq] at this
      cases this; rfl
    · next q hq => exact wake_sets_raises l q e h

/-- A row that is refused raises ValueError. -/
theorem row_raises (fl : Floats α) (row : Text) (e : Exc) : (Pt.mk' fl row = .error e → e = .valueError) ∧ (Wake.mk' fl row = .error e → e = .valueError) := by
  constructor
  · intro h
    simp only [Pt.mk'] at h
    split at h <;> cases h
    next q hq =>
    simp only [Pt.reset] at hq
    split at hq
    · next h1 => cases hq; exact sets_raises _ _ _ (congrArg Prod.snd h1)
    · split at hq
      · cases hq
      · split at hq
        · cases hq; rfl
        · exact sets_raises _ _ _ (congrArg Prod.snd hq)
  · intro h
    simp only [Wake.mk'] at h
    split at h <;> cases h
    next q hq =>
    simp only [Wake.reset] at hq
    split at hq
    · next h1 => cases hq; exact wake_sets_raises _ _ _ (congrArg Prod.snd h1)
    · split at hq
      · cases hq
      · split at hq
        · cases hq; rfl
        · exact wake_sets_raises _ _ _ (congrArg Prod.snd hq)

private theorem mkAll_raises (fl : Floats α) : ∀ (l : List Text) (e : Exc), mkAll fl l = .error e → e = .valueError
  | [], e, h => by simp [mkAll] at h
  | x :: l, e, h => by
    simp only [mkAll] at h
    split at h
    · next e' he => cases h; exact (row_raises fl x _).1 he
    · split at h
      · next e' he => cases h; exact mkAll_raises fl l _ he
      · cases h

private theorem mkWake_raises (fl : Floats α) : ∀ (l : List Text) (e : Exc), mkWake fl l = .error e → e = .valueError
  | [], e, h => by simp [mkWake] at h
  | x :: l, e, h => by
    simp only [mkWake] at h
    split at h
    · next e' he => cases h; exact (row_raises fl x _).2 he
    · split at h
      · next e' he => cases h; exact mkWake_raises fl l _ he
      · cases h

private theorem readUpper_raises (fl : Floats α) : ∀ (rows : List Text) (r : Reader α) (i : ℕ) (e : Exc), (r.readUpper fl i rows).2 = .error e → e = .valueError
  | [], r, i, e, h => by simp [Reader.readUpper] at h
  | x :: l, r, i, e, h => by
    simp only [Reader.readUpper] at h
    split at h
    · next e' he => cases h; exact (row_raises fl x _).1 he
    · split at h
      · cases h
      · exact readUpper_raises fl l _ _ e h

private theorem adjustWake_raises (off : α) : ∀ (l : List (Wake α)) (e : Exc), (adjustWake off l).2 = .error e → e = .valueError
  | [], e, h => by simp [adjustWake] at h
  | w :: l, e, h => by
    simp only [adjustWake] at h
    split at h
    · next q e' hq =>
      cases h
      have := Wake.set_error w .s (w.s - off) e (by rw [hq])
      rw [hq] at this
      cases this; rfl
    · exact adjustWake_raises off l e h

private theorem readWake_raises (fl : Floats α) (r : Reader α) (rows : List Text) (e : Exc) (h : (r.readWake fl rows).2 = .error e) : e = .valueError := by
  cases rows with
  | nil => simp [Reader.readWake] at h
  | cons x l =>
    simp only [Reader.readWake] at h
    split at h
    · next e' he => cases h; exact mkWake_raises fl _ _ he
    · next hl =>
      have := List.Forall₂.length_eq (mkWake_rows fl _ _ hl)
      simp at this
    · next w ws hl => exact adjustWake_raises _ _ _ h

/-- What a file that opens but is not refused for a single value lacks, with the exception raised for it: airfoil rows, an upper surface, or a
nonzero difference of the velocities next to the stagnation point. -/
inductive Incomplete (fl : Floats α) (lines : List Text) : Exc → Prop
  | empty : lines = [] → Incomplete fl lines .indexError
  | noRows (wk : List Text) : Sections lines [] wk → Incomplete fl lines .indexError
  | noUpper (air wk : List Text) (p : Pt α) (ps : List (Pt α)) : Sections lines air wk → Rows fl air (p :: ps) → PyCmp.lt p.u (lit 0) = true →
      Incomplete fl lines .indexError
  | noChange (air wk : List Text) (us ls : List (Pt α)) (a b : Pt α) : Sections lines air wk → Divided fl air us ls → us.getLast? = some a →
      ls.head? = some b → PyCmp.eq (a.u + b.u * lit (-1)) (lit 0) = true → Incomplete fl lines .zeroDivision

private theorem stagnation_raises (fl : Floats α) (r : Reader α) (e : Exc) (h : (r.stagnation fl).2 = .error e) :
    e = .valueError ∨ (e = .indexError ∧ (r.upper = [] ∨ r.lower = [])) ∨
    (e = .zeroDivision ∧ ∃ a b, r.upperPts.head? = some a ∧ r.lowerPts.head? = some b ∧ PyCmp.eq (a.u + b.u) (lit 0) = true) := by
  simp only [Reader.stagnation] at h
  split at h
  · next hu => cases h; exact .inr (.inl ⟨rfl, .inl hu⟩)
  · next a as hu =>
    split at h
    · cases h
    · split at h
      · next hl => cases h; exact .inr (.inl ⟨rfl, .inr hl⟩)
      · next b bs hl =>
        split at h
        · next e' hd =>
          cases h
          simp only [pyDiv] at hd
          split at hd <;> cases hd
          next hz => exact .inr (.inr ⟨rfl, _, _, by rw [Reader.upperPts, hu]; rfl, by rw [Reader.lowerPts, hl]; rfl, hz⟩)
        · split at h
          · next e' he => cases h; exact .inl ((row_raises fl [] _).1 he)
          · split at h
            · next q e' he => cases h; exact .inl (sets_raises _ _ _ (congrArg Prod.snd he))
            · cases h

/-- **C93**, every exception of a load: what opening the file raised, ValueError, or one of the cases of `Incomplete`. -/
theorem load_raises_partial (fl : Floats α) (fs : Files) (name : Text) (e : Exc) (h : (Reader.load fl fs name).2 = .error e) :
    fs name = .error e ∨ e = .valueError ∨ ∃ content, fs name = .ok content ∧ Incomplete fl (readlines content) e := by
  rw [Reader.load] at h
  split at h
  · cases h
  split at h
  · next e' he => cases h; exact .inl he
  next content hc =>
  right
  split at h
  · next e' he =>
    cases h
    right
    refine ⟨content, hc, ?_⟩
    cases hl : readlines content with
    | nil => rw [hl] at he; simp only [dumpData, Except.error.injEq] at he; rw [← he]; exact .empty rfl
    | cons x l => rw [hl] at he; simp only [dumpData] at he; split_ifs at he
  next air wk hd =>
  have hs := sections_dumpData _ _ _ hd
  split at h
  · next r e' he => cases h; exact .inl (readUpper_raises fl _ _ _ _ (by rw [he]))
  next r1 idx hu =>
  obtain ⟨us, g1, g2, g3, g4, g5⟩ := readUpper_ok fl _ _ r1 0 _ rfl ⟨by simp [Reader.empty], by simp [Reader.empty]⟩ hu
  split at h
  · next e' he => cases h; exact .inl (mkAll_raises fl _ _ he)
  next ps hps =>
  have hrows := mkAll_rows fl _ _ hps
  split at h
  next r2 lower hal =>
  obtain ⟨k1, k2, k3, k4, k5, k6⟩ := allocAll_ok (ps.map Pt.flip) r1
  simp only [hal] at k1 k2 k3 k4 k5 k6
  split at h
  · next r3 e' he =>
    cases h
    have hup : ({ r2 with lower := lower } : Reader α).upperPts = us.reverse := by
      rw [show us.reverse = r1.upperPts by rw [g2]; simp [Reader.upperPts, Reader.empty]]
      simp only [Reader.upperPts]
      rw [show r2.upper = r1.upper by rw [k6]]
      exact map_heap_congr fun i hi => k5 i (g1.bound i (by simp [hi]))
    have hlo : ({ r2 with lower := lower } : Reader α).lowerPts = ps.map Pt.flip := k1
    have hdiv : us ≠ [] → Divided fl air us ps := by
      intro hne
      rcases g5 with ⟨rfl, hr⟩ | ⟨a, x, b, p, rfl, rfl, hr, hx, hp⟩
      · obtain ⟨a, ha⟩ : ∃ a, us.getLast? = some a := ⟨_, List.getLast?_eq_some_getLast hne⟩
        refine .none a ha ?_ hr g3
        have := rows_functional hrows (rows_drop hr (air.length - 1))
        rw [Option.getD_none] at *
        obtain ⟨us', rfl⟩ : ∃ us', us = us' ++ [a] := by
          rw [List.getLast?_eq_some_iff] at ha; exact ha
        rw [this, rows_length hr]
        simp
      · simp only [zero_add, Option.getD_some, List.drop_left] at hrows
        cases hrows with
        | cons hx' hr' =>
          refine .at _ _ rfl (rows_append hr (.cons hx' hr')) g3 ?_
          rw [hx] at hx'; cases hx'; exact hp
    rcases stagnation_raises fl _ _ (by rw [he]) with h | ⟨rfl, h⟩ | ⟨rfl, a, b, ha, hb, hz⟩
    · exact .inl h
    · right
      refine ⟨content, hc, ?_⟩
      by_cases hus : us = []
      · subst hus
        rcases g5 with ⟨rfl, hr⟩ | ⟨a, x, b, p, rfl, rfl, hr, hx, hp⟩
        · cases hr; exact .noRows wk hs
        · cases hr
          simp only [zero_add, Option.getD_some, List.length_nil, List.nil_append, List.drop_zero] at hrows
          cases hrows with
          | cons hx' hr' =>
            rw [hx] at hx'; cases hx'
            exact .noUpper _ wk _ _ hs (.cons hx hr') hp
      · exfalso
        rcases h with h | h
        · rw [Reader.upperPts, h] at hup
          exact hus (by simpa using hup.symm)
        · rw [Reader.lowerPts, h] at hlo
          have hpe : ps = [] := by simpa using hlo.symm
          cases hdiv hus with
          | «at» b lr hls _ _ _ => rw [hpe] at hls; cases hls
          | none a _ hls _ _ => rw [hpe] at hls; cases hls
    · right
      refine ⟨content, hc, ?_⟩
      rw [hup, List.head?_reverse] at ha
      have hne : us ≠ [] := by rintro rfl; cases ha
      rw [hlo, List.head?_map] at hb
      obtain ⟨b', hb', rfl⟩ : ∃ b', ps.head? = some b' ∧ b'.flip = b := by
        cases hps' : ps.head? with
        | none => rw [hps'] at hb; cases hb
        | some b' => rw [hps'] at hb; exact ⟨b', rfl, by simpa using hb⟩
      exact .noChange air wk us ps a b' hs (hdiv hne) ha hb' hz
  next r3 stag hst =>
  left
  split at h
  · next H e' he => cases h; exact adjust_error _ _ _ _ _ he
  split at h
  · next H e' he => cases h; exact adjust_error _ _ _ _ _ he
  · exact readWake_raises fl _ _ _ h

/-! ### Exact arithmetic -/

section real
variable [PySpecial ℝ]

/-- **C93**, with real numbers: ZeroDivisionError is raised only if no row has negative velocity. -/
theorem zero_division_only (fl : Floats ℝ) (fs : Files) (name : Text) (hf : fs name ≠ .error .zeroDivision)
    (h : (Reader.load fl fs name).2 = .error .zeroDivision) :
    ∃ content air wk us, fs name = .ok content ∧ Sections (readlines content) air wk ∧ Rows fl air us ∧ ∀ p ∈ us, 0 ≤ p.u := by
  rcases load_raises_partial fl fs name _ h with h | h | ⟨content, hc, h⟩
  · exact absurd h hf
  · cases h
  · cases h with
    | noChange air wk us ls a b hs hd ha hb hz =>
      cases hd with
      | none a' hus hls hr hu =>
        exact ⟨content, air, wk, us, hc, hs, hr, fun p hp => by have := hu p hp; rwa [lt_false, real_lit, Rat.cast_zero] at this⟩
      | «at» b' lr hls hr hu hb' =>
        exfalso
        rw [hls] at hb
        cases hb
        have h1 : 0 ≤ a.u := by
          have := hu a (List.mem_of_getLast? ha)
          rwa [lt_false, real_lit, Rat.cast_zero] at this
        rw [real_lt, real_lit] at hb'
        simp only [real_eq, real_lit] at hz
        push_cast at hb' hz
        linarith

/-- **C93**, a file in which no row has negative velocity: ZeroDivisionError, unless the last row has zero velocity. -/
theorem one_surface_refused (fl : Floats ℝ) (fs : Files) (name content : Text) (hn : name ≠ []) (hc : fs name = .ok content) (air wk : List Text)
    (hs : Sections (readlines content) air wk) (us : List (Pt ℝ)) (a : Pt ℝ) (hrows : Rows fl air (us ++ [a])) (hu : ∀ p ∈ us, 0 ≤ p.u) (ha : 0 < a.u) :
    (Reader.load fl fs name).2 = .error .zeroDivision := by
  have hnn : ∀ p ∈ us ++ [a], PyCmp.lt p.u (lit 0) = false := by
    intro p hp
    rw [lt_false, real_lit, Rat.cast_zero]
    rcases List.mem_append.1 hp with hp | hp
    · exact hu p hp
    · rw [List.mem_singleton.1 hp]; exact ha.le
  obtain ⟨r1, hr1⟩ : ∃ r1, (Reader.empty : Reader ℝ).readUpper fl 0 air = (r1, .ok none) := by
    clear hs
    generalize (Reader.empty : Reader ℝ) = r
    generalize 0 = i
    generalize us ++ [a] = ps at hrows hnn
    induction hrows generalizing r i with
    | nil => exact ⟨r, rfl⟩
    | @cons x p air ps hx _ ih =>
      simp only [Reader.readUpper, hx, hnn p (by simp), Bool.false_eq_true, if_false]
      exact ih _ _ fun q hq => hnn q (by simp [hq])
  obtain ⟨us', g1, g2, -, -, g5⟩ := readUpper_ok fl _ _ r1 0 _ rfl ⟨by simp [Reader.empty], by simp [Reader.empty]⟩ hr1
  have hus : us' = us ++ [a] := by
    rcases g5 with ⟨-, hr⟩ | ⟨_, _, _, _, _, h, _⟩
    · exact rows_functional hr hrows
    · cases h
  have hlast : mkAll fl (air.drop (air.length - 1)) = .ok [a] := by
    have := rows_drop hrows (air.length - 1)
    rw [rows_length hrows] at this
    simp only [List.length_append, List.length_singleton, Nat.add_sub_cancel, List.drop_left] at this
    rw [rows_length hrows]
    simpa using mkAll_forward this
  obtain ⟨k1, k2, k3, k4, k5, k6⟩ := allocAll_ok [a.flip] r1
  rcases hal : r1.allocAll [a.flip] with ⟨r2, lower⟩
  simp only [hal] at k1 k2 k3 k4 k5 k6
  have hup : r2.upper.map r2.heap = a :: us.reverse := by
    rw [show a :: us.reverse = r1.upperPts by rw [g2, hus]; simp [Reader.upperPts, Reader.empty]]
    rw [show r2.upper = r1.upper by rw [k6]]
    exact map_heap_congr fun i hi => k5 i (g1.bound i (by simp [hi]))
  rw [Reader.load, if_neg hn]
  simp only [hc, dumpData_sections _ _ _ hs, hr1, Option.getD_none, hlast, List.map_cons, List.map_nil, hal]
  rcases hu2 : r2.upper with _ | ⟨i, l⟩
  · rw [hu2] at hup; cases hup
  · rw [hu2] at hup
    rcases hl2 : lower with _ | ⟨j, m⟩
    · rw [hl2] at k1; cases k1
    · rw [hl2] at k1
      have hi : r2.heap i = a := (List.cons.inj hup).1
      have hj : r2.heap j = a.flip := (List.cons.inj k1).1
      have h0 : PyCmp.eq a.u (lit 0) = false := by rw [Bool.eq_false_iff, ne_eq, real_eq, real_lit]; push_cast; exact ha.ne'
      have h1 : PyCmp.eq (a.u + a.flip.u) (lit 0) = true := by rw [real_eq, real_lit, Pt.flip]; simp only [real_lit]; push_cast; ring
      simp only [Reader.stagnation, hu2, hi, hj, h0, pyDiv, h1, Bool.false_eq_true, if_false, if_true]

end real

/-! ### Cases -/

/-- A dump of one row with velocity and arc length zero: it is read, and both surfaces hold that row, the lower one twice. So C93 is false of the code. -/
def oneRowFile : Text := "0 1 1 0 1 1 1 1 1 1 1 1\n".toList

/-- **C93** is false: a file without a lower surface is accepted. -/
theorem one_surface_accepted :
    (Reader.load sharedFloat (fun _ => .ok oneRowFile) ['a']).2 = .ok () ∧
    (Reader.load sharedFloat (fun _ => .ok oneRowFile) ['a']).1.upperCount = 1 ∧
    (Reader.load sharedFloat (fun _ => .ok oneRowFile) ['a']).1.lowerCount = 2 := by
  decide +kernel

/-- The exceptions do occur: a file that begins with a negative velocity, one without negative velocities, and one of a header only. -/
example : (Reader.load sharedFloat (fun _ => .ok "0 1 1 -1 1 1 1 1 1 1 1 1\n".toList) ['a']).2 = .error .indexError ∧
    (Reader.load sharedFloat (fun _ => .ok "0 1 1 1 1 1 1 1 1 1 1 1\n1 1 1 1 1 1 1 1 1 1 1 1\n".toList) ['a']).2 = .error .zeroDivision ∧
    (Reader.load sharedFloat (fun _ => .ok "# s x\n".toList) ['a']).2 = .error .indexError := by
  decide +kernel

end IBL.XFoil
