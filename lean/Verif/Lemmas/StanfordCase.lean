import Verif.Lemmas.Stanford

/-! What selecting a case does when it succeeds, and what it leaves when it does not. -/

set_option linter.unusedSectionVars false

namespace IBL.Stanford
variable {α : Type} [Add α] [Sub α] [Mul α] [Div α] [PyLit α] [PyCmp α] [PySpecial α] [PySqrt α] [PyPow α]

/-- A row of the smoothed velocities, in SI. -/
def smoothRow (fl : Floats α) (si : Bool) (row : Text) : Option (α × α × α) :=
  match row.split.mapM fl with
  | some [x, ui, dui] => some (if si then x else x * foot, if si then ui else ui * foot, dui)
  | _ => none

theorem smooth_read_ok (fl : Floats α) (si : Bool) : ∀ (rows : List Text) (q : Smooth α) (ds : List (α × α × α)) (m0 m1 m2 : List α),
    m0.length = rows.length → m1.length = rows.length → m2.length = rows.length →
    (Smooth.read fl si ⟨ds.map (·.1) ++ m0, ds.map (·.2.1) ++ m1, ds.map (·.2.2) ++ m2⟩ ds.length rows = (q, .ok ()) ↔
      ∃ es, rows.mapM (smoothRow fl si) = some es ∧ q = ⟨(ds ++ es).map (·.1), (ds ++ es).map (·.2.1), (ds ++ es).map (·.2.2)⟩)
  | [], q, ds, m0, m1, m2, h0, h1, h2 => by
    simp only [List.length_nil, List.length_eq_zero_iff] at h0 h1 h2
    subst h0 h1 h2
    simp [Smooth.read, eq_comm]
  | row :: rows, q, ds, m0, m1, m2, h0, h1, h2 => by
    obtain ⟨c0, n0, rfl, h0'⟩ := exists_cons_of_length h0
    obtain ⟨c1, n1, rfl, h1'⟩ := exists_cons_of_length h1
    obtain ⟨c2, n2, rfl, h2'⟩ := exists_cons_of_length h2
    rw [Smooth.read]
    have bad (h : smoothRow fl si row = none) :
        ¬ ∃ es, (row :: rows).mapM (smoothRow fl si) = some es ∧ q = ⟨(ds ++ es).map (·.1), (ds ++ es).map (·.2.1), (ds ++ es).map (·.2.2)⟩ := by
      rintro ⟨es, hes, _⟩
      simp [List.mapM_cons, h] at hes
    split
    · rename_i x ui dui hsp
      have hrow : smoothRow fl si row = some (if si then x else x * foot, if si then ui else ui * foot, dui) := by rw [smoothRow, hsp]
      have ih := smooth_read_ok fl si rows q (ds ++ [(if si then x else x * foot, if si then ui else ui * foot, dui)]) n0 n1 n2 h0' h1' h2'
      simp only [List.map_append, List.map_cons, List.map_nil, List.append_assoc, List.singleton_append, List.length_append,
        List.length_singleton] at ih
      have e0 := set_append_length (ds.map (·.1)) n0 c0 (if si then x else x * foot)
      have e1 := set_append_length (ds.map (·.2.1)) n1 c1 (if si then ui else ui * foot)
      have e2 := set_append_length (ds.map (·.2.2)) n2 c2 dui
      simp only [List.length_map] at e0 e1 e2
      simp only [e0, e1, e2]
      rw [ih]
      constructor
      · rintro ⟨es, hes, rfl⟩
        exact ⟨_ :: es, by rw [List.mapM_cons, hrow, hes]; rfl, by simp⟩
      · rintro ⟨es, hes, rfl⟩
        rw [List.mapM_cons, hrow] at hes
        simp only [Option.bind_eq_bind, Option.bind_some, Option.bind_eq_some_iff] at hes
        obtain ⟨es', hes', h⟩ := hes
        cases h
        exact ⟨es', hes', by simp⟩
    · rename_i hno
      have hrow : smoothRow fl si row = none := by
        rw [smoothRow]; split
        · rename_i x ui dui h; exact absurd h (hno x ui dui)
        · rfl
      exact iff_of_false (by simp) (bad hrow)

theorem smooth_ok_iff (fl : Floats α) (mem : Mem α) (si : Bool) (rows : List Text) (q : Smooth α) :
    Smooth.mk' fl mem si rows = .ok q ↔ ∃ es, rows.mapM (smoothRow fl si) = some es ∧ q = ⟨es.map (·.1), es.map (·.2.1), es.map (·.2.2)⟩ := by
  have := fun q => smooth_read_ok fl si rows q [] (mem.empty 0 rows.length) (mem.empty 1 rows.length) (mem.empty 2 rows.length) (by simp [Mem.empty])
    (by simp [Mem.empty]) (by simp [Mem.empty])
  simp only [List.map_nil, List.nil_append, List.length_nil] at this
  rw [Smooth.mk', Smooth.reset]
  rcases h : Smooth.read fl si ⟨mem.empty 0 rows.length, mem.empty 1 rows.length, mem.empty 2 rows.length⟩ 0 rows with ⟨p, e | u⟩
  · simp only [reduceCtorEq, false_iff]
    intro hh
    rw [← this, h] at hh
    simp at hh
  · have h' := (this p).1 h
    simp only [Except.ok.injEq]
    constructor
    · rintro rfl; exact h'
    · intro hq
      rw [← this, h] at hq
      simpa using hq

theorem addStations_ok (fl : Floats α) (mem : Mem α) (si : Bool) : ∀ (l : List (Text × Text × List Text)) (o o' : Case α),
    addStations fl mem si o l = (o', .ok ()) ↔
      ∃ ss, List.Forall₂ (fun t s => Station.mk' fl mem si t.1 t.2.1 t.2.2 = .ok s) l ss ∧ o' = { o with stations := o.stations ++ ss }
  | [], o, o' => by
    simp only [addStations, Prod.mk.injEq, and_true, List.forall₂_nil_left_iff, exists_eq_left, List.append_nil]
    exact eq_comm
  | (a, b, c) :: l, o, o' => by
    rw [addStations]
    rcases h : Station.mk' fl mem si a b c with e | s
    · refine iff_of_false (by simp) ?_
      rintro ⟨ss, hss, _⟩
      cases hss with
      | cons hs _ => rw [h] at hs; cases hs
    · simp only
      rw [addStations_ok fl mem si l]
      constructor
      · rintro ⟨ss, hss, rfl⟩
        exact ⟨s :: ss, .cons h hss, by simp⟩
      · rintro ⟨ss, hss, rfl⟩
        cases hss with
        | cons hs hss =>
          rw [h] at hs; cases hs
          exact ⟨_, hss, by simp⟩

/-- When it raises, the stations before the one that raised stay. -/
theorem addStations_error (fl : Floats α) (mem : Mem α) (si : Bool) : ∀ (l : List (Text × Text × List Text)) (o o' : Case α) (e : Exc),
    addStations fl mem si o l = (o', .error e) →
      ∃ l1 t l2 ss, l = l1 ++ t :: l2 ∧ List.Forall₂ (fun t s => Station.mk' fl mem si t.1 t.2.1 t.2.2 = .ok s) l1 ss ∧
        Station.mk' fl mem si t.1 t.2.1 t.2.2 = .error e ∧ o' = { o with stations := o.stations ++ ss }
  | [], o, o', e, h => by simp [addStations] at h
  | (a, b, c) :: l, o, o', e, h => by
    rw [addStations] at h
    rcases hs : Station.mk' fl mem si a b c with e' | s
    · simp only [hs, Prod.mk.injEq, Except.error.injEq] at h
      exact ⟨[], (a, b, c), l, [], rfl, .nil, by rw [hs, h.2], by simp [← h.1]⟩
    · simp only [hs] at h
      obtain ⟨l1, t, l2, ss, rfl, hss, ht, rfl⟩ := addStations_error fl mem si l _ _ _ h
      exact ⟨(a, b, c) :: l1, t, l2, s :: ss, by simp, .cons hs hss, ht, by simp⟩

/-- When selecting a named case succeeds and what it gives. -/
theorem select_ok_iff (files : CaseFiles) (fl : Floats α) (mem : Mem α) (o o' : Case α) (name : Text) (hne : name ≠ []) :
    o.select files fl mem name = (o', .ok ()) ↔
      ∃ data nu b2 sm l ss, getCaseData files name = .ok data ∧ identify data name = .ok () ∧ viscosity fl data (siUnit name) = .ok nu ∧
        item data 2 = .ok b2 ∧ Smooth.mk' fl mem (siUnit name) b2 = .ok sm ∧ stationTexts data = .ok l ∧
        List.Forall₂ (fun t s => Station.mk' fl mem (siUnit name) t.1 t.2.1 t.2.2 = .ok s) l ss ∧ o' = ⟨name, nu, some sm, ss⟩ := by
  rw [Case.select]
  simp only [if_neg hne]
  rcases h1 : getCaseData files name with e | data
  · simp
  rcases h2 : identify data name with e | u
  · simp [h2]
  rcases h3 : viscosity fl data (siUnit name) with e | nu
  · simp [h2, h3]
  rcases h4 : item data 2 with e | b2
  · simp [h2, h3, h4]
  rcases h5 : Smooth.mk' fl mem (siUnit name) b2 with e | sm
  · simp [h2, h3, h4, h5]
  rcases h6 : stationTexts data with e | l
  · simp [h2, h3, h4, h5, h6]
  simp only [h2, h3, h4, h5, h6, addStations_ok]
  constructor
  · rintro ⟨ss, hss, rfl⟩
    exact ⟨data, nu, b2, sm, l, ss, rfl, h2, h3, h4, h5, h6, hss, by simp⟩
  · rintro ⟨data', nu', b2', sm', l', ss, hd, hi, hv, h2', hsm, hl, hss, rfl⟩
    cases hd
    rw [h3] at hv; cases hv
    rw [h4] at h2'; cases h2'
    rw [h5] at hsm; cases hsm
    rw [h6] at hl; cases hl
    exact ⟨ss, hss, by simp⟩

/-- What is left when selecting raises: the old name without data, or the new name with the data read so far. -/
theorem select_error (files : CaseFiles) (fl : Floats α) (mem : Mem α) (o o' : Case α) (name : Text) (e : Exc)
    (h : o.select files fl mem name = (o', .error e)) :
    o' = ⟨o.case, PySpecial.inf, none, []⟩ ∨
      (∃ data, getCaseData files name = .ok data ∧ identify data name = .ok () ∧ o'.case = name ∧
        (o'.nuRef = PySpecial.inf ∧ o'.smooth = none ∧ o'.stations = [] ∨ viscosity fl data (siUnit name) = .ok o'.nuRef ∧
          (o'.smooth = none ∧ o'.stations = [] ∨ ∃ b2 sm, item data 2 = .ok b2 ∧ Smooth.mk' fl mem (siUnit name) b2 = .ok sm ∧ o'.smooth = some sm ∧
            (o'.stations = [] ∨ ∃ l1 t l2, stationTexts data = .ok (l1 ++ t :: l2) ∧ Station.mk' fl mem (siUnit name) t.1 t.2.1 t.2.2 = .error e ∧
              List.Forall₂ (fun t s => Station.mk' fl mem (siUnit name) t.1 t.2.1 t.2.2 = .ok s) l1 o'.stations)))) := by
  rw [Case.select] at h
  simp only at h
  by_cases hne : name = []
  · rw [if_pos hne] at h; simp at h
  rw [if_neg hne] at h
  rcases h1 : getCaseData files name with e1 | data
  · simp only [h1, Prod.mk.injEq] at h; left; exact h.1.symm
  rcases h2 : identify data name with e1 | u
  · simp only [h1, h2, Prod.mk.injEq] at h; left; exact h.1.symm
  right
  refine ⟨data, rfl, h2, ?_⟩
  rcases h3 : viscosity fl data (siUnit name) with e1 | nu
  · simp only [h1, h2, h3, Prod.mk.injEq] at h; rw [← h.1]; exact ⟨rfl, .inl ⟨rfl, rfl, rfl⟩⟩
  rcases h4 : item data 2 with e1 | b2
  · simp only [h1, h2, h3, h4, Prod.mk.injEq] at h; rw [← h.1]; exact ⟨rfl, .inr ⟨rfl, .inl ⟨rfl, rfl⟩⟩⟩
  rcases h5 : Smooth.mk' fl mem (siUnit name) b2 with e1 | sm
  · simp only [h1, h2, h3, h4, h5, Prod.mk.injEq] at h; rw [← h.1]; exact ⟨rfl, .inr ⟨rfl, .inl ⟨rfl, rfl⟩⟩⟩
  rcases h6 : stationTexts data with e1 | l
  · simp only [h1, h2, h3, h4, h5, h6, Prod.mk.injEq] at h; rw [← h.1]; exact ⟨rfl, .inr ⟨rfl, .inr ⟨b2, sm, rfl, h5, rfl, .inl rfl⟩⟩⟩
  simp only [h1, h2, h3, h4, h5, h6] at h
  obtain ⟨l1, t, l2, ss, hl, hss, ht, rfl⟩ := addStations_error _ _ _ _ _ _ _ h
  exact ⟨rfl, .inr ⟨rfl, .inr ⟨b2, sm, rfl, h5, rfl, .inr ⟨l1, t, l2, by rw [hl], ht, by simpa using hss⟩⟩⟩⟩

end IBL.Stanford
