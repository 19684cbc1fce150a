import Verif.Props.StanfordFile
import Verif.Props.StanfordObject

/-! C48, C49, C50 (viscosity), C61, C63: the case object. -/

set_option linter.unusedSectionVars false

namespace IBL.Stanford
open Spec

section
variable {α : Type} [Add α] [Sub α] [Mul α] [Div α] [PyLit α] [PyCmp α] [PySpecial α] [PySqrt α] [PyPow α]

theorem item_ok {β : Type} {l : List β} {i : ℕ} {b : β} : item l i = .ok b ↔ l[i]? = some b := by
  rw [item]; split <;> rename_i h <;> simp [h]

theorem station_nth {o : Case α} {i : ℕ} {s : Station α} (h : o.stations[i]? = some s) : o.station i = .ok s := by
  have hi : i < o.stations.length := (List.getElem?_eq_some_iff.1 h).1
  rw [Case.station, pyIndex, if_pos ⟨by omega, by omega⟩]
  simp only [Int.toNat_natCast]
  exact item_ok.2 h

theorem built_nth {fl : Floats α} {mem : Mem α} {si : Bool} {l : List (Text × Text × List Text)} {o : Case α}
    (h : List.Forall₂ (fun t s => Station.mk' fl mem si t.1 t.2.1 t.2.2 = .ok s) l o.stations) {i : ℕ} {t : Text × Text × List Text}
    (ht : l[i]? = some t) : ∃ st, o.station i = .ok st ∧ Station.mk' fl mem si t.1 t.2.1 t.2.2 = .ok st := by
  obtain ⟨hi, rfl⟩ := List.getElem?_eq_some_iff.1 ht
  have hi' : i < o.stations.length := by rw [← h.length_eq]; exact hi
  exact ⟨o.stations[i], station_nth (List.getElem?_eq_getElem hi'), h.get hi hi'⟩

/-- **C48**, what holds. After a successful selection the file has a summary and a section of smoothed velocities, and there is one station for each
place where all of the station sections have an entry; station `i` is the one read from entry `i` of each. All rows of the summary are represented
if the station summaries and profiles are at least as many; if they are fewer, the last rows of the summary are lost without error (`rows_lost`). -/
theorem stations_partial (files : CaseFiles) (fl : Floats α) (mem : Mem α) (name s t : Text) (ls : List Text) (hf : files name = some (.ok s))
    (hn : Normal s t) (hl : Lines t ls) (cf : CaseFile ls) (hne : name ≠ []) (o o' : Case α)
    (h : o.select files fl mem name = (o', .ok ())) :
    ∃ summ smooth rest, cf.sections = summ :: smooth :: rest ∧
      match rest with
      | [] => o'.stationCount = (content summ.rows).length ∧ ∀ (i : ℕ) a, (content summ.rows)[i]? = some a →
          ∃ st, o'.station i = .ok st ∧ Station.mk' fl mem (name.head? == some '1') a [] [] = .ok st
      | [det] => o'.stationCount = min (content summ.rows).length (content det.rows).length ∧
          ∀ (i : ℕ) a b, (content summ.rows)[i]? = some a → (content det.rows)[i]? = some b →
            ∃ st, o'.station i = .ok st ∧ Station.mk' fl mem (name.head? == some '1') a b [] = .ok st
      | det :: p :: ps => o'.stationCount = min (content summ.rows).length (min (content det.rows).length (ps.length + 1)) ∧
          ∀ (i : ℕ) a b c, (content summ.rows)[i]? = some a → (content det.rows)[i]? = some b → (p :: ps)[i]? = some c →
            ∃ st, o'.station i = .ok st ∧ Station.mk' fl mem (name.head? == some '1') a b (content c.rows) = .ok st := by
  obtain ⟨data, nu, b2, sm, l, ss, hd, -, -, h2, -, hst, hss, rfl⟩ := (select_ok_iff _ _ _ _ _ _ hne).1 h
  have hdata := sections_read files name s t ls hf hn hl cf
  rw [hd] at hdata
  simp only [Except.ok.injEq] at hdata
  obtain ⟨before, title, rows, secs, hb, ht, hrw, layout⟩ := cf
  simp only at hdata ⊢
  rw [item_ok, hdata] at h2
  have hcount : Case.stationCount (⟨name, nu, some sm, ss⟩ : Case α) = l.length := hss.length_eq.symm
  rw [stationTexts, hdata] at hst
  match secs, h2 with
  | [summ, smooth], _ =>
    refine ⟨summ, smooth, [], rfl, ?_⟩
    simp only [item, List.map_cons, List.map_nil, List.getElem?_cons_succ, List.getElem?_cons_zero, List.length_cons, List.length_nil, Nat.zero_add,
      Nat.reduceAdd, Nat.reduceLT, if_true, Except.ok.injEq] at hst
    subst hst
    refine ⟨by rw [hcount]; simp, fun i a ha => ?_⟩
    exact built_nth (o := ⟨name, nu, some sm, ss⟩) hss (i := i) (t := (a, [], [])) (by simp [ha])
  | [summ, smooth, det], _ =>
    refine ⟨summ, smooth, [det], rfl, ?_⟩
    simp only [item, List.map_cons, List.map_nil, List.getElem?_cons_succ, List.getElem?_cons_zero, List.length_cons, List.length_nil, Nat.zero_add,
      Nat.reduceAdd, Nat.reduceLT, if_true, if_false, lt_self_iff_false, Except.ok.injEq] at hst
    subst hst
    refine ⟨by rw [hcount]; simp, fun i a b ha hb => ?_⟩
    exact built_nth (o := ⟨name, nu, some sm, ss⟩) hss (i := i) (t := (a, b, [])) (by simp [List.getElem?_zip_eq_some, ha, hb])
  | summ :: smooth :: det :: p :: ps, _ =>
    refine ⟨summ, smooth, det :: p :: ps, rfl, ?_⟩
    have e1 : ¬ (ps.length + 1 + 1 + 1 + 1 + 1 < 4) := by omega
    have e2 : ¬ (ps.length + 1 + 1 + 1 + 1 + 1 < 5) := by omega
    simp only [item, List.map_cons, List.getElem?_cons_succ, List.getElem?_cons_zero, List.length_cons, List.length_map, e1, e2, if_false,
      Except.ok.injEq, List.drop_succ_cons, List.drop_zero] at hst
    subst hst
    refine ⟨by rw [hcount]; simp, fun i a b c ha hb hc => ?_⟩
    refine built_nth (o := ⟨name, nu, some sm, ss⟩) hss (i := i) (t := (a, b, content c.rows)) ?_
    rw [← List.map_cons (f := fun sec : Section => content sec.rows), List.getElem?_zip_eq_some, List.getElem?_zip_eq_some]
    exact ⟨ha, hb, by rw [List.getElem?_map, hc]; rfl⟩
  | [], h2 => simp at h2
  | [summ], h2 => simp at h2

/-- The data of the object are empty, or read from the file of its `case`: the viscosity, then the smoothed velocities, then some of the first
stations. -/
def FromFile (files : CaseFiles) (fl : Floats α) (o : Case α) : Prop :=
  (o.nuRef = PySpecial.inf ∧ o.smooth = none ∧ o.stations = []) ∨
    ∃ data, getCaseData files o.case = .ok data ∧ identify data o.case = .ok () ∧ viscosity fl data (siUnit o.case) = .ok o.nuRef ∧
      ((o.smooth = none ∧ o.stations = []) ∨ ∃ b2 sm l1 l2, item data 2 = .ok b2 ∧ o.smooth = some sm ∧
        (∀ mem, Smooth.mk' fl mem (siUnit o.case) b2 = .ok sm) ∧ (stationTexts data = .ok (l1 ++ l2) ∨ l1 = []) ∧
        List.Forall₂ (fun t s => ∀ mem, Station.mk' fl mem (siUnit o.case) t.1 t.2.1 t.2.2 = .ok s) l1 o.stations)

theorem fromFile_select (files : CaseFiles) (fl : Floats α) (mem : Mem α) (o : Case α) (name : Text) :
    FromFile files fl (o.select files fl mem name).1 := by
  have hsm : ∀ {si b2 sm}, Smooth.mk' fl mem si b2 = .ok sm → ∀ mem', Smooth.mk' fl mem' si b2 = .ok sm := by
    intro si b2 sm h mem'; rw [smooth_ok_iff] at h ⊢; exact h
  have hst : ∀ {si} {l : List (Text × Text × List Text)} {ss}, List.Forall₂ (fun t s => Station.mk' fl mem si t.1 t.2.1 t.2.2 = .ok s) l ss →
      List.Forall₂ (fun t s => ∀ mem', Station.mk' fl mem' si t.1 t.2.1 t.2.2 = .ok s) l ss := by
    intro si l ss h
    exact h.imp fun t s hs mem' => (station_initialised fl mem mem' _ _ _ _ _).1 hs
  by_cases hne : name = []
  · left; rw [Case.select]; simp [hne]
  rcases e : o.select files fl mem name with ⟨o', e' | u⟩
  · rcases select_error _ _ _ _ _ _ _ e with rfl | ⟨data, h1, h2, rfl, h'⟩
    · exact .inl ⟨rfl, rfl, rfl⟩
    · rcases h' with h' | ⟨hv, h' | ⟨b2, sm, h3, h4, h5, h'⟩⟩
      · exact .inl h'
      · exact .inr ⟨data, h1, h2, hv, .inl h'⟩
      · rcases h' with h' | ⟨l1, t, l2, hl, _, h'⟩
        · exact .inr ⟨data, h1, h2, hv, .inr ⟨b2, sm, [], [], h3, h5, hsm h4, .inr rfl, by rw [h']; exact .nil⟩⟩
        · exact .inr ⟨data, h1, h2, hv, .inr ⟨b2, sm, l1, t :: l2, h3, h5, hsm h4, .inl hl, hst h'⟩⟩
  · obtain ⟨data, nu, b2, sm, l, ss, h1, h2, h3, h4, h5, h6, hss, rfl⟩ := (select_ok_iff _ _ _ _ _ _ hne).1 e
    exact .inr ⟨data, h1, h2, h3, .inr ⟨b2, sm, l, [], h4, rfl, hsm h5, .inl (by simpa using h6), hst hss⟩⟩

/-- **C49**, success: `case` is the requested name, `''` gives the empty object, and the data do not depend on what was there before
(see also `selection_fresh`). -/
theorem selected (files : CaseFiles) (fl : Floats α) (mem : Mem α) (o o' : Case α) (name : Text) (h : o.select files fl mem name = (o', .ok ())) :
    o'.case = name ∧ (name = [] → o' = ⟨[], PySpecial.inf, none, []⟩) ∧ (name ≠ [] → o'.smooth ≠ none) ∧
      Case.empty.select files fl mem name = (o', .ok ()) := by
  refine ⟨?_, ?_, ?_, (selection_fresh _ _ _ _ _ _ _ _).1 h⟩
  · by_cases hne : name = []
    · subst hne; simp [Case.select] at h; rw [← h]
    · obtain ⟨data, nu, b2, sm, l, ss, -, -, -, -, -, -, -, rfl⟩ := (select_ok_iff _ _ _ _ _ _ hne).1 h
      rfl
  · rintro rfl; simp [Case.select] at h; rw [← h]
  · intro hne
    obtain ⟨data, nu, b2, sm, l, ss, -, -, -, -, -, -, -, rfl⟩ := (select_ok_iff _ _ _ _ _ _ hne).1 h
    simp

/-- **C49**, success: a selected case has a file, and the first row of the file names that case: `IDENT = name` (or `ident`), blanks around key and
name not counting. -/
theorem selected_ident (files : CaseFiles) (fl : Floats α) (mem : Mem α) (o o' : Case α) (name : Text) (hne : name ≠ [])
    (h : o.select files fl mem name = (o', .ok ())) :
    ∃ (content row key : Text) (rows : List Text) (blocks : List (List Text)) (more : List Text), files name = some (.ok content) ∧
      caseBlocks (readlines content) = (row :: rows) :: blocks ∧ (key = "IDENT".toList ∨ key = "ident".toList) ∧
      (Text.splitOn '=' row).map (fun x => x.rstrip.lstrip) = key :: name :: more := by
  obtain ⟨data, nu, b2, sm, l, ss, hd, hi, -⟩ := (select_ok_iff _ _ _ _ _ _ hne).1 h
  have hfile : ∃ content, files name = some (.ok content) ∧ caseBlocks (readlines content) = data ∨ data = [] := by
    rw [getCaseData] at hd
    split at hd
    · exact ⟨[], .inr (Except.ok.inj hd).symm⟩
    · cases hd
    · exact ⟨_, .inl ⟨by assumption, Except.ok.inj hd⟩⟩
  obtain ⟨content, ⟨hf, rfl⟩ | rfl⟩ := hfile
  · rcases hb : caseBlocks (readlines content) with _ | ⟨_ | ⟨row, rows⟩, blocks⟩
    · rw [hb] at hi; simp [identify, item] at hi
    · rw [hb] at hi; simp [identify, item] at hi
    · rw [hb] at hi
      simp only [identify, item, List.getElem?_cons_zero] at hi
      rcases hp : parts row with _ | ⟨key, _ | ⟨val, more⟩⟩
      · rw [hp] at hi; simp at hi
      · rw [hp] at hi
        simp only [List.getElem?_cons_zero] at hi
        split at hi <;> simp at hi
      · rw [hp] at hi
        simp only [List.getElem?_cons_zero, List.getElem?_cons_succ] at hi
        split at hi
        · simp at hi
        · rename_i hk
          split at hi
          · simp at hi
          · rename_i hv
            obtain rfl : val = name := not_not.1 hv
            refine ⟨content, row, key, rows, blocks, more, hf, hb, ?_, hp⟩
            by_contra hc
            exact hk ⟨fun h => hc (.inl h), fun h => hc (.inr h)⟩
  · simp [identify, item] at hi

/-- **C49**, what holds when selections raise. After any history of selections the data are empty or come from the file of the current `case`, so data
of two files are never mixed and never shown under the name of another; but they may be empty under the name of a case that has data
(`failed_selection_keeps_name`) and incomplete under the new name (`failed_selection_half_loaded`). -/
theorem selections_partial (files : CaseFiles) (fl : Floats α) : ∀ (sel : List (Mem α × Text)),
    FromFile files fl (Case.run files fl Case.empty (sel.map fun s => Op.select s.1 s.2)) := by
  have : ∀ (sel : List (Mem α × Text)) (o : Case α), FromFile files fl o → FromFile files fl (Case.run files fl o (sel.map fun s => Op.select s.1 s.2)) := by
    intro sel
    induction sel with
    | nil => intro o h; exact h
    | cons s sel ih => intro o _; exact ih _ (fromFile_select files fl s.1 o s.2)
  exact fun sel => this sel _ (.inl ⟨rfl, rfl, rfl⟩)

/-- **C49** fails: selecting a case without file raises and leaves the old name with no data. -/
theorem failed_selection_keeps_name (files : CaseFiles) (fl : Floats α) (mem : Mem α) (o : Case α) (name : Text) (hne : name ≠ [])
    (hf : files name = none) : o.select files fl mem name = (⟨o.case, PySpecial.inf, none, []⟩, .error .indexError) := by
  rw [Case.select]
  simp [hne, getCaseData, hf, identify, item]

theorem guard_error {b : Bool} {e e' : Exc} {f : Except Exc Unit} (h : (if b = true then .error e else f) = .error e') : e = e' ∨ f = .error e' := by
  cases b <;> simp_all

/-- The exceptions that a station can raise. -/
theorem station_error (fl : Floats α) (mem : Mem α) (si : Bool) (a b : Text) (rows : List Text) (e : Exc)
    (h : Station.mk' fl mem si a b rows = .error e) :
    e = .valueError ∨ e = .zeroDivision ∧ ∃ d, Detail.ofRow fl b = some d ∧ PyCmp.eq (d.toSI si).v (lit 0) = true := by
  have hcheck : ∀ (p : Station α) (d : Detail α) e, p.check d = .error e → e = .valueError ∨ e = .zeroDivision ∧ PyCmp.eq d.v (lit 0) = true := by
    intro p d e h
    rw [Station.check] at h
    iterate 8
      rcases guard_error h with rfl | h
      · exact .inl rfl
    simp only [pyDiv] at h
    by_cases hv : PyCmp.eq d.v (lit 0) = true
    · rw [if_pos hv] at h
      simp only [Except.error.injEq] at h
      exact .inr ⟨h.symm, hv⟩
    · rw [if_neg hv, if_neg hv] at h
      simp only at h
      iterate 3
        rcases guard_error h with rfl | h
        · exact .inl rfl
      cases h
  have hsample : ∀ (p : Station α) (d : Sample α) e, p.checkSample d = .error e → e = .valueError := by
    intro p d e h
    rw [Station.checkSample] at h
    iterate 4
      rcases guard_error h with rfl | h
      · rfl
    cases h
  have hread : ∀ (rows : List Text) (p q : Station α) (i : ℕ) e, Station.readSamples fl si p i rows = (q, .error e) → e = .valueError := by
    intro rows
    induction rows with
    | nil => intro p q i e h; simp [Station.readSamples] at h
    | cons r rows ih =>
      intro p q i e h
      rw [Station.readSamples] at h
      rcases hr : Sample.ofRow fl r with _ | d
      · simp only [hr, Prod.mk.injEq, Except.error.injEq] at h; exact h.2.symm
      · simp only [hr] at h
        rcases hs : p.checkSample (d.toSI si) with e' | u
        · simp only [hs, Prod.mk.injEq, Except.error.injEq] at h
          rw [← h.2]; exact hsample _ _ _ hs
        · simp only [hs] at h; exact ih _ _ _ _ h
  rw [Station.mk'] at h
  rcases hr : Station.blank.reset fl mem si a b rows with ⟨p, e' | u⟩
  swap
  · simp [hr] at h
  simp only [hr, Except.error.injEq] at h
  subst h
  rw [Station.reset] at hr
  rcases h1 : (Station.blank : Station α).resetSummary fl si a with ⟨p1, e1 | u1⟩
  · simp only [h1, Prod.mk.injEq, Except.error.injEq] at hr
    rw [← hr.2]; left
    rw [Station.resetSummary] at h1
    rcases hs : Summary.ofRow fl a with _ | s
    · simp only [hs, Prod.mk.injEq, Except.error.injEq] at h1; exact h1.2.symm
    · simp only [hs] at h1
      split at h1
      · rename_i p' e'' hh
        simp only [Prod.mk.injEq, Except.error.injEq] at h1
        rw [← h1.2]; exact (sets_error _ _ _ _ hh).1
      · exact (sets_error _ _ _ _ h1).1
  simp only [h1] at hr
  rcases h2 : p1.resetDetail fl si b with ⟨p2, e2 | u2⟩
  · simp only [h2, Prod.mk.injEq, Except.error.injEq] at hr
    rw [← hr.2]
    rw [Station.resetDetail] at h2
    simp only at h2
    split at h2
    · rename_i p' e'' hh
      simp only [Prod.mk.injEq, Except.error.injEq] at h2
      rw [← h2.2]; left
      split at hh
      · simp at hh
      · exact (sets_error _ _ _ _ hh).1
    · split_ifs at h2
      · simp at h2
      · rcases hd : Detail.ofRow fl b with _ | d
        · simp only [hd, Prod.mk.injEq, Except.error.injEq] at h2; left; exact h2.2.symm
        · simp only [hd] at h2
          rename_i p' _ _ _
          rcases hc : Station.check _ (d.toSI si) with e3 | u3
          · rw [hc] at h2
            simp only [Prod.mk.injEq, Except.error.injEq] at h2
            rw [← h2.2]
            rcases hcheck _ _ _ hc with h | ⟨h, h'⟩
            · exact .inl h
            · exact .inr ⟨h, d, rfl, h'⟩
          · rw [hc] at h2
            left; exact (sets_error _ _ _ _ h2).1
  · simp only [h2] at hr
    left; exact hread _ _ _ _ _ hr

theorem smooth_error (fl : Floats α) (mem : Mem α) (si : Bool) (rows : List Text) (e : Exc) (h : Smooth.mk' fl mem si rows = .error e) :
    e = .valueError := by
  have hread : ∀ (rows : List Text) (p q : Smooth α) (i : ℕ) e, Smooth.read fl si p i rows = (q, .error e) → e = .valueError := by
    intro rows
    induction rows with
    | nil => intro p q i e h; simp [Smooth.read] at h
    | cons r rows ih =>
      intro p q i e h
      rw [Smooth.read] at h
      split at h
      · exact ih _ _ _ _ h
      · simp only [Prod.mk.injEq, Except.error.injEq] at h; exact h.2.symm
  rw [Smooth.mk', Smooth.reset] at h
  rcases hr : Smooth.read fl si ⟨mem.empty 0 rows.length, mem.empty 1 rows.length, mem.empty 2 rows.length⟩ 0 rows with ⟨p, e' | u⟩
  · simp only [hr, Except.error.injEq] at h
    rw [← h]; exact hread _ _ _ _ _ hr
  · simp [hr] at h

theorem item_error {β : Type} {l : List β} {i : ℕ} {e : Exc} (h : item l i = .error e) : e = .indexError ∧ l.length ≤ i := by
  rw [item] at h; split at h <;> rename_i hh
  · cases h
  · simp only [Except.error.injEq] at h; exact ⟨h.symm, List.getElem?_eq_none_iff.1 hh⟩

theorem splitOnAux_ne (sep : Char) : ∀ (s w : Text), splitOnAux sep w s ≠ []
  | [], w => by simp [splitOnAux]
  | c :: s, w => by
    rw [splitOnAux]; split_ifs
    · simp
    · exact splitOnAux_ne sep s _

theorem splitOnAux_two (sep : Char) : ∀ (s w : Text), sep ∈ s → 2 ≤ (splitOnAux sep w s).length
  | [], w, h => by simp at h
  | c :: s, w, h => by
    rw [splitOnAux]; split_ifs with hc
    · have := List.length_pos_iff.2 (splitOnAux_ne sep s [])
      simp only [List.length_cons]; omega
    · exact splitOnAux_two sep s _ (by rcases List.mem_cons.1 h with h | h; exact absurd h.symm hc; exact h)

theorem parts_two {l : Text} (h : '=' ∈ l) : 2 ≤ (parts l).length := by
  rw [parts, List.length_map]; exact splitOnAux_two _ _ _ h

theorem identify_error {data : List (List Text)} {name : Text} {e : Exc} (h : identify data name = .error e) :
    e = .valueError ∨ e = .indexError ∧ ∀ l0 ls bs, data = (l0 :: ls) :: bs → '=' ∉ l0 := by
  rw [identify] at h
  rcases h0 : item data 0 with e0 | b0
  · simp only [h0, Except.error.injEq] at h
    subst h
    obtain ⟨h1, h2⟩ := item_error h0
    exact .inr ⟨h1, by rintro l0 ls bs rfl; simp at h2⟩
  simp only [h0] at h
  rcases h1 : item b0 0 with e0 | l0
  · simp only [h1, Except.error.injEq] at h
    subst h
    obtain ⟨h2, h3⟩ := item_error h1
    exact .inr ⟨h2, by rintro l0 ls bs rfl; simp [item] at h0; subst h0; simp at h3⟩
  simp only [h1] at h
  have hl : ∀ l0' ls bs, data = (l0' :: ls) :: bs → l0' = l0 := by
    rintro l0' ls bs rfl; simp [item] at h0; subst h0; simpa [item] using h1
  rcases h2 : item (parts l0) 0 with e0 | k
  · simp only [h2, Except.error.injEq] at h
    subst h
    obtain ⟨h3, h4⟩ := item_error h2
    exact .inr ⟨h3, fun l0' ls bs hd hm => by have := parts_two (hl l0' ls bs hd ▸ hm); omega⟩
  simp only [h2] at h
  split_ifs at h
  · simp only [Except.error.injEq] at h; exact .inl h.symm
  · rcases h3 : item (parts l0) 1 with e0 | v
    · simp only [h3, Except.error.injEq] at h
      subst h
      obtain ⟨h4, h5⟩ := item_error h3
      exact .inr ⟨h4, fun l0' ls bs hd hm => by have := parts_two (hl l0' ls bs hd ▸ hm); omega⟩
    · simp only [h3] at h
      split_ifs at h
      simp only [Except.error.injEq] at h; exact .inl h.symm

theorem viscosity_error {fl : Floats α} {data : List (List Text)} {si : Bool} {e : Exc} (h : viscosity fl data si = .error e) :
    e = .valueError ∨ e = .indexError ∧ ∀ l0 l1 ls bs, data = (l0 :: l1 :: ls) :: bs → '=' ∉ l1 := by
  rw [viscosity] at h
  rcases h0 : item data 0 with e0 | b0
  · simp only [h0, Except.error.injEq] at h
    subst h
    obtain ⟨h1, h2⟩ := item_error h0
    exact .inr ⟨h1, by rintro l0 l1 ls bs rfl; simp at h2⟩
  simp only [h0] at h
  rcases h1 : item b0 1 with e0 | l0
  · simp only [h1, Except.error.injEq] at h
    subst h
    obtain ⟨h2, h3⟩ := item_error h1
    exact .inr ⟨h2, by rintro l0 l1 ls bs rfl; simp [item] at h0; subst h0; simp at h3⟩
  simp only [h1] at h
  have hl : ∀ l0' l1' ls bs, data = (l0' :: l1' :: ls) :: bs → l1' = l0 := by
    rintro l0' l1' ls bs rfl; simp [item] at h0; subst h0; simpa [item] using h1
  rcases h2 : item (parts l0) 0 with e0 | k
  · simp only [h2, Except.error.injEq] at h
    subst h
    obtain ⟨h3, h4⟩ := item_error h2
    exact .inr ⟨h3, fun l0' l1' ls bs hd hm => by have := parts_two (hl l0' l1' ls bs hd ▸ hm); omega⟩
  simp only [h2] at h
  by_cases hk : k ≠ "V".toList ∧ k ≠ "v".toList
  · rw [if_pos hk] at h
    simp only [Except.error.injEq] at h; exact .inl h.symm
  · rw [if_neg hk] at h
    rcases h3 : item (parts l0) 1 with e0 | v
    · simp only [h3, Except.error.injEq] at h
      subst h
      obtain ⟨h4, h5⟩ := item_error h3
      exact .inr ⟨h4, fun l0' l1' ls bs hd hm => by have := parts_two (hl l0' l1' ls bs hd ▸ hm); omega⟩
    · simp only [h3] at h
      rcases h4 : fl v with _ | v
      · simp only [h4, Except.error.injEq] at h; exact .inl h.symm
      · simp [h4] at h

theorem stationTexts_error {data : List (List Text)} {e : Exc} (h : stationTexts data = .error e) : e = .indexError ∧ data.length ≤ 1 := by
  rw [stationTexts] at h
  rcases h0 : item data 1 with e0 | b1
  · simp only [h0, Except.error.injEq] at h
    subst h; exact item_error h0
  simp only [h0] at h
  by_cases h4 : data.length < 4
  · rw [if_pos h4] at h; cases h
  rw [if_neg h4] at h
  rcases h3 : item data 3 with e0 | b3
  · have := (item_error h3).2; omega
  · simp only [h3] at h
    split_ifs at h

/-- The parts of a selection that raise, and what they raise. -/
theorem select_raises (files : CaseFiles) (fl : Floats α) (mem : Mem α) (o o' : Case α) (name : Text) (e : Exc)
    (h : o.select files fl mem name = (o', .error e)) :
    files name = some (.error e) ∨ ∃ data, getCaseData files name = .ok data ∧
      (e = .valueError ∨ (e = .indexError ∧ (data.length < 3 ∨ (∀ l0 ls bs, data = (l0 :: ls) :: bs → '=' ∉ l0) ∨
          ∀ l0 l1 ls bs, data = (l0 :: l1 :: ls) :: bs → '=' ∉ l1)) ∨
        (e = .zeroDivision ∧ ∃ b3 r d, data[3]? = some b3 ∧ r ∈ b3 ∧ Detail.ofRow fl r = some d ∧ PyCmp.eq (d.toSI (siUnit name)).v (lit 0) = true)) := by
  rw [Case.select] at h
  simp only at h
  by_cases hne : name = []
  · rw [if_pos hne] at h; simp at h
  rw [if_neg hne] at h
  rcases h1 : getCaseData files name with e1 | data
  · simp only [h1, Prod.mk.injEq, Except.error.injEq] at h
    left
    rw [getCaseData] at h1
    split at h1 <;> simp_all
  right
  refine ⟨data, rfl, ?_⟩
  rcases h2 : identify data name with e1 | u
  · simp only [h1, h2, Prod.mk.injEq, Except.error.injEq] at h
    rw [h.2] at h2
    rcases identify_error h2 with h | ⟨h, h'⟩
    · exact .inl h
    · exact .inr (.inl ⟨h, .inr (.inl h')⟩)
  rcases h3 : viscosity fl data (siUnit name) with e1 | nu
  · simp only [h1, h2, h3, Prod.mk.injEq, Except.error.injEq] at h
    rw [h.2] at h3
    rcases viscosity_error h3 with h | ⟨h, h'⟩
    · exact .inl h
    · exact .inr (.inl ⟨h, .inr (.inr h')⟩)
  rcases h4 : item data 2 with e1 | b2
  · simp only [h1, h2, h3, h4, Prod.mk.injEq, Except.error.injEq] at h
    rw [h.2] at h4
    obtain ⟨h5, h6⟩ := item_error h4
    exact .inr (.inl ⟨h5, .inl (by omega)⟩)
  rcases h5 : Smooth.mk' fl mem (siUnit name) b2 with e1 | sm
  · simp only [h1, h2, h3, h4, h5, Prod.mk.injEq, Except.error.injEq] at h
    rw [h.2] at h5
    exact .inl (smooth_error _ _ _ _ _ h5)
  rcases h6 : stationTexts data with e1 | l
  · have := (stationTexts_error h6).2
    have := (List.getElem?_eq_some_iff.1 (item_ok.1 h4)).1
    omega
  simp only [h1, h2, h3, h4, h5, h6] at h
  obtain ⟨l1, t, l2, ss, hl, hss, ht, rfl⟩ := addStations_error _ _ _ _ _ _ _ h
  rcases station_error _ _ _ _ _ _ _ ht with h | ⟨h, d, hd, hz⟩
  · exact .inl h
  refine .inr (.inr ⟨h, ?_⟩)
  have hm : t ∈ l := by rw [hl]; simp
  rw [stationTexts] at h6
  rcases h7 : item data 1 with e0 | b1
  · simp [h7] at h6
  simp only [h7] at h6
  by_cases h4' : data.length < 4
  · rw [if_pos h4'] at h6
    simp only [Except.ok.injEq] at h6
    rw [← h6, List.mem_map] at hm
    obtain ⟨r, _, rfl⟩ := hm
    simp [Detail.ofRow, Text.split, splitAux] at hd
  rw [if_neg h4'] at h6
  rcases h8 : item data 3 with e0 | b3
  · simp [h8] at h6
  simp only [h8] at h6
  split_ifs at h6
  · simp only [Except.ok.injEq] at h6
    rw [← h6, List.mem_map] at hm
    obtain ⟨r, hr, rfl⟩ := hm
    exact ⟨b3, _, d, item_ok.1 h8, (List.of_mem_zip hr).2, hd, hz⟩
  · simp only [Except.ok.injEq] at h6
    rw [← h6] at hm
    exact ⟨b3, _, d, item_ok.1 h8, (List.of_mem_zip (List.of_mem_zip hm).2).1, hd, hz⟩

end

/-- **C61**, what holds. If the file can be read, has the layout of a case file with at least two sections after the first, `=` in the first two rows
and no zero viscosity in the station summaries, nothing but ValueError is raised. -/
theorem selection_raises_partial [PySpecial ℝ] (files : CaseFiles) (fl : Floats ℝ) (mem : Mem ℝ) (name s t : Text) (ls : List Text)
    (hf : files name = some (.ok s)) (hn : Normal s t) (hl : Lines t ls) (cf : CaseFile ls) (l0 l1 : Text) (more : List Text)
    (hrows : content cf.rows = l0 :: l1 :: more) (h0 : '=' ∈ l0) (h1 : '=' ∈ l1) (hsec : 2 ≤ cf.sections.length)
    (hz : ∀ sec, cf.sections[2]? = some sec → ∀ r ∈ content sec.rows, ∀ cols, Numbers Spec.blank fl r cols → cols[3]? ≠ some 0)
    (o o' : Case ℝ) (e : Exc) (h : o.select files fl mem name = (o', .error e)) : e = .valueError := by
  have hdata := sections_read files name s t ls hf hn hl cf
  rcases select_raises _ _ _ _ _ _ _ h with h | ⟨data, hd, h⟩
  · rw [hf] at h; simp at h
  rw [hd] at hdata
  simp only [Except.ok.injEq] at hdata
  rcases h with h | ⟨_, h⟩ | ⟨_, b3, r, d, h3, hr, hd', hzero⟩
  · exact h
  · exfalso
    rcases h with h | h | h
    · rw [hdata] at h; simp at h; omega
    · exact h l0 (l1 :: more) _ (by rw [hdata, hrows]) h0
    · exact h l0 l1 more _ (by rw [hdata, hrows]) h1
  · exfalso
    rw [hdata] at h3
    simp only [List.getElem?_cons_succ, List.getElem?_map, Option.map_eq_some_iff] at h3
    obtain ⟨sec, hs, rfl⟩ := h3
    rw [Detail.ofRow] at hd'
    split at hd'
    · rename_i x us ui v theta dels enth clth h' g hs' rtheta rdels hsp
      have hv := hz sec hs r hr _ ((numbers_iff _ _ _).2 hsp)
      simp only [Option.some.injEq] at hd'
      subst hd'
      apply hv
      simp only [List.getElem?_cons_succ, List.getElem?_cons_zero, Option.some.injEq]
      rw [real_eq] at hzero
      rw [Detail.toSI] at hzero
      split_ifs at hzero
      · simpa using hzero
      · have h2 : (foot2 : ℝ) ≠ 0 := by rw [foot2_real]; norm_num
        simpa [h2] using hzero
    · cases hd'

section
variable {α : Type} [Add α] [Sub α] [Mul α] [Div α] [PyLit α] [PyCmp α] [PySpecial α] [PySqrt α] [PyPow α]

/-- The six arrays of a profile have the same length. -/
structure Aligned (p : Station α) : Prop where
  yPlus : p.yPlus.length = p.y.length
  uPlus : p.uPlus.length = p.y.length
  u : p.u.length = p.y.length
  yC : p.yC.length = p.y.length
  uDef : p.uDef.length = p.y.length

theorem aligned_set {p : Station α} (h : Aligned p) (f : Field) (v : α) : Aligned (p.set f v).1 := by
  obtain ⟨h1, h2, h3, h4, h5⟩ := h
  cases f <;> simp only [Station.set] <;> (try split_ifs) <;> exact ⟨h1, h2, h3, h4, h5⟩

theorem aligned_sets : ∀ (l : List (Field × α)) {p : Station α}, Aligned p → Aligned (p.sets l).1
  | [], _, h => h
  | (f, v) :: l, p, h => by
    have h' := aligned_set h f v
    rw [Station.sets]
    rcases e : p.set f v with ⟨q, e' | u⟩ <;> rw [e] at h'
    · exact h'
    · exact aligned_sets l h'

theorem aligned_readSamples (fl : Floats α) (si : Bool) : ∀ (rows : List Text) {p : Station α} (i : ℕ), Aligned p →
    Aligned (Station.readSamples fl si p i rows).1
  | [], _, _, h => h
  | row :: rows, p, i, h => by
    rw [Station.readSamples]
    cases Sample.ofRow fl row with
    | none => exact h
    | some d =>
      simp only
      split
      · exact h
      · obtain ⟨h1, h2, h3, h4, h5⟩ := h
        exact aligned_readSamples fl si rows _ ⟨by simpa using h1, by simpa using h2, by simpa using h3, by simpa using h4, by simpa using h5⟩

theorem aligned_resetSummary (fl : Floats α) {p : Station α} (h : Aligned p) (si : Bool) (a : Text) : Aligned (p.resetSummary fl si a).1 := by
  obtain ⟨h1, h2, h3, h4, h5⟩ := h
  rw [Station.resetSummary]
  cases Summary.ofRow fl a with
  | none => exact ⟨h1, h2, h3, h4, h5⟩
  | some v =>
    simp only
    have := aligned_sets (v.toSI si).assignments (p := { p with x := PySpecial.inf, ue := PySpecial.inf, due := PySpecial.inf, deltaM := PySpecial.inf, shapeD := PySpecial.inf, shapeK := PySpecial.inf, shapeEq := PySpecial.inf, cf := PySpecial.inf, cfLt := PySpecial.inf, cfExp := PySpecial.inf, beta := PySpecial.inf }) ⟨h1, h2, h3, h4, h5⟩
    split <;> rename_i q e hh <;> rw [hh] at this
    · exact this
    · exact aligned_sets _ this

theorem aligned_resetDetail (fl : Floats α) {p : Station α} (h : Aligned p) (si : Bool) (a : Text) : Aligned (p.resetDetail fl si a).1 := by
  obtain ⟨h1, h2, h3, h4, h5⟩ := h
  rw [Station.resetDetail]
  simp only
  have key : ∀ r : Station α × Except Exc Unit, Aligned r.1 → Aligned (match r with
      | (p, .error e) => (p, .error e)
      | (p, .ok ()) =>
        if a = [] then (p, .ok ()) else
        match Detail.ofRow fl a with
        | none => (p, .error .valueError)
        | some d =>
          match p.check (d.toSI si) with
          | .error e => (p, .error e)
          | .ok () => p.sets (d.toSI si).assignments : Station α × Except Exc Unit).1 := by
    rintro ⟨q, e | u⟩ hq
    · exact hq
    · simp only
      split_ifs
      · exact hq
      · cases Detail.ofRow fl a with
        | none => exact hq
        | some d =>
          simp only
          split
          · exact hq
          · exact aligned_sets _ hq
  apply key
  split_ifs
  · exact ⟨h1, h2, h3, h4, h5⟩
  · exact aligned_sets _ ⟨h1, h2, h3, h4, h5⟩

theorem aligned_reset (fl : Floats α) (mem : Mem α) {p : Station α} (h : Aligned p) (si : Bool) (a b : Text) (rows : List Text) :
    Aligned (p.reset fl mem si a b rows).1 := by
  rw [Station.reset]
  have h1 := aligned_resetSummary fl h si a
  rcases e1 : p.resetSummary fl si a with ⟨q, e | u⟩ <;> rw [e1] at h1
  · exact h1
  have h2 := aligned_resetDetail fl h1 si b
  simp only at h2 ⊢
  rcases e2 : q.resetDetail fl si b with ⟨q2, e | u⟩ <;> rw [e2] at h2
  · exact h2
  exact aligned_readSamples fl si rows _ ⟨by simp [Mem.empty], by simp [Mem.empty], by simp [Mem.empty], by simp [Mem.empty], by simp [Mem.empty]⟩

theorem aligned_mk (fl : Floats α) (mem : Mem α) (si : Bool) (a b : Text) (rows : List Text) (p : Station α)
    (hp : Station.mk' fl mem si a b rows = .ok p) : Aligned p := by
  have := aligned_reset fl mem (p := Station.blank) ⟨rfl, rfl, rfl, rfl, rfl⟩ si a b rows
  rw [Station.mk'] at hp
  rcases e : Station.blank.reset fl mem si a b rows with ⟨q, e | u⟩
  · simp [e] at hp
  · rw [e] at this hp
    cases hp; exact this

/-- The object has arrays that can be plotted against each other: in every station and for the smoothed velocities. -/
def Plottable (o : Case α) : Prop :=
  (∀ s ∈ o.stations, Aligned s) ∧ o.ueSmooth.length = o.xSmooth.length ∧ o.dueSmooth.length = o.xSmooth.length

/-- Uses that do not assign a profile array. -/
def Op.scalar : Op α → Bool
  | .setArr .. => false
  | _ => true

/-- **C63**. After any history of selections, attribute assignments and resets, successful or not, the six arrays of every profile have the same length,
and so do the three arrays of smoothed velocities. -/
theorem arrays_aligned (files : CaseFiles) (fl : Floats α) : ∀ (ops : List (Op α)) (o : Case α), (∀ op ∈ ops, op.scalar = true) → Plottable o →
    Plottable (o.run files fl ops)
  | [], _, _, h => h
  | op :: ops, o, hops, h => by
    rw [Case.run]
    refine arrays_aligned files fl ops _ (fun op' hop => hops op' (by simp [hop])) ?_
    have onSt : ∀ (i : ℤ) (f : Station α → Station α × Except Exc Unit), (∀ s, Aligned s → Aligned (f s).1) →
        Plottable (o.onStation i f).1 := by
      intro i f hf
      rw [Case.onStation]
      cases pyIndex o.stations.length i with
      | error e => exact h
      | ok k =>
        simp only
        rcases hk : o.stations[k]? with _ | s
        · exact h
        · refine ⟨fun t ht => ?_, h.2⟩
          rcases List.mem_or_eq_of_mem_set ht with ht | rfl
          · exact h.1 t ht
          · exact hf s (h.1 s (List.mem_of_getElem? hk))
    cases op with
    | select mem name =>
      show Plottable (o.select files fl mem name).1
      rcases fromFile_select files fl mem o name with ⟨_, h2, h3⟩ | ⟨data, _, _, _, ⟨h2, h3⟩ | ⟨b2, sm, l1, l2, _, h2, hsm, _, hss⟩⟩
      · exact ⟨by simp [h3], by simp [Case.ueSmooth, Case.xSmooth, h2], by simp [Case.dueSmooth, Case.xSmooth, h2]⟩
      · exact ⟨by simp [h3], by simp [Case.ueSmooth, Case.xSmooth, h2], by simp [Case.dueSmooth, Case.xSmooth, h2]⟩
      · refine ⟨fun s hs => ?_, ?_⟩
        · obtain ⟨t, _, ht⟩ := stations_mk (fl := fl) (mem := mem) (si := siUnit (o.select files fl mem name).1.case) _ _
            (hss.imp fun _ _ h => h mem) s hs
          exact aligned_mk _ _ _ _ _ _ _ ht
        · obtain ⟨es, _, rfl⟩ := (smooth_ok_iff _ _ _ _ _).1 (hsm mem)
          simp [Case.ueSmooth, Case.dueSmooth, Case.xSmooth, h2]
    | set i f v => exact onSt i _ fun s hs => aligned_set hs f v
    | setArr i f v => simp [Op.scalar] at hops
    | reset i mem si a b c => exact onSt i _ fun s hs => aligned_reset fl mem hs si a b c

example (files : CaseFiles) (fl : Floats α) (ops : List (Op α)) (h : ∀ op ∈ ops, op.scalar = true) : Plottable (Case.empty.run files fl ops) :=
  arrays_aligned files fl ops _ h ⟨by simp [Case.empty], rfl, rfl⟩

/-- **C59** A station has as many samples as its profile has rows. -/
theorem samples_counted (fl : Floats α) (mem : Mem α) (si : Bool) (a b : Text) (rows : List Text) (p : Station α)
    (hp : Station.mk' fl mem si a b rows = .ok p) : p.sampleCount = rows.length := by
  obtain ⟨s, es, q, -, -, -, hes, -, rfl⟩ := (mk_ok_iff _ _ _ _ _ _ _).1 hp
  rw [mapM_iff] at hes
  have := congrArg List.length hes
  simp only [List.length_map] at this
  simp [Station.sampleCount, Station.profiled, this]

end

/-! ### Units of the viscosity and of the smoothed velocities -/

theorem strip_word (a w b : Text) (ha : ∀ c ∈ a, isSpace c = true) (hb : ∀ c ∈ b, isSpace c = true) (hne : w ≠ []) (hw : ∀ c ∈ w, isSpace c = false) :
    (a ++ w ++ b).rstrip.lstrip = w := by
  have h1 : (a ++ w ++ b).rstrip = a ++ w := by
    rw [Text.rstrip, List.reverse_append, List.dropWhile_append_of_pos (by simpa using hb)]
    have : (a ++ w).reverse.dropWhile isSpace = (a ++ w).reverse := by
      rw [List.reverse_append]
      obtain ⟨c, r, hr⟩ := List.exists_cons_of_ne_nil (List.reverse_ne_nil_iff.2 hne)
      rw [hr, List.cons_append, List.dropWhile_cons_of_neg]
      have : c ∈ w := by rw [← List.mem_reverse, hr]; simp
      simp [hw c this]
    rw [this, List.reverse_reverse]
  rw [h1, Text.lstrip, List.dropWhile_append_of_pos ha]
  obtain ⟨c, r, rfl⟩ := List.exists_cons_of_ne_nil hne
  rw [List.dropWhile_cons_of_neg]
  simp [hw c (by simp)]

theorem parts_pair (k a w b : Text) (hk : '=' ∉ k) (ha : ∀ c ∈ a, isSpace c = true) (hb : ∀ c ∈ b, isSpace c = true) (hne : w ≠ [])
    (hw : ∀ c ∈ w, isSpace c = false ∧ c ≠ '=') : parts (k ++ '=' :: (a ++ w ++ b)) = [k.rstrip.lstrip, w] := by
  have hsp : ∀ {l : Text}, (∀ c ∈ l, isSpace c = true) → '=' ∉ l := fun h hm => absurd (h _ hm) (by decide)
  have := splitOn_parts '=' [k, a ++ w ++ b] (by simp) (by
    intro p hp
    simp only [List.mem_cons, List.not_mem_nil, or_false] at hp
    rcases hp with rfl | rfl
    · exact hk
    · simp only [List.mem_append, not_or]
      exact ⟨⟨hsp ha, fun hm => (hw _ hm).2 rfl⟩, hsp hb⟩)
  simp only [List.intercalate, List.intersperse, List.flatten_cons, List.flatten_nil, List.append_nil, List.singleton_append] at this
  rw [parts, this]
  simp only [List.map_cons, List.map_nil, strip_word a w b ha hb hne fun c hc => (hw c hc).1]

/-- **C50** The reference viscosity in SI: the second row of the file is `V = number`, in cm²/s for the SI cases and in ft²/s for the others. -/
theorem viscosity_units [PySpecial ℝ] (files : CaseFiles) (fl : Floats ℝ) (mem : Mem ℝ) (name s t : Text) (ls : List Text)
    (hf : files name = some (.ok s)) (hn : Normal s t) (hl : Lines t ls) (cf : CaseFile ls) (hne : name ≠ []) (k a w b : Text) (v nu : ℝ)
    (hrow : (content cf.rows)[1]? = some (k ++ '=' :: (a ++ w ++ b))) (hk : '=' ∉ k) (ha : ∀ c ∈ a, Spec.blank c = true)
    (hb : ∀ c ∈ b, Spec.blank c = true) (hw0 : w ≠ []) (hw : ∀ c ∈ w, Spec.blank c = false ∧ c ≠ '=') (hv : fl w = some v)
    (hnu : v = if name.head? = some '1' then 10000 * nu else nu / 0.3048 ^ 2) (o o' : Case ℝ)
    (h : o.select files fl mem name = (o', .ok ())) : o'.nuRef = nu := by
  rw [← isSpace_eq] at ha hb hw
  obtain ⟨data, nu', b2, sm, l, ss, hd, -, hvis, -, -, -, -, rfl⟩ := (select_ok_iff _ _ _ _ _ _ hne).1 h
  have hdata := sections_read files name s t ls hf hn hl cf
  rw [hd] at hdata
  simp only [Except.ok.injEq] at hdata
  have h0 : item data 0 = .ok (content cf.rows) := by rw [hdata]; rfl
  rw [viscosity, h0] at hvis
  have i0 : item [k.rstrip.lstrip, w] 0 = .ok k.rstrip.lstrip := rfl
  have i1 : item [k.rstrip.lstrip, w] 1 = .ok w := rfl
  simp only [item_ok.2 hrow, parts_pair k a w b hk ha hb hw0 hw, i0, i1, hv] at hvis
  split_ifs at hvis with h1 h2
  · simp only [Except.ok.injEq] at hvis
    have h2 : name.head? = some '1' := by simpa [siUnit] using h2
    rw [if_pos h2] at hnu
    rw [← hvis, hnu]; simp; ring
  · simp only [Except.ok.injEq] at hvis
    have h2 : ¬ name.head? = some '1' := by simpa [siUnit] using h2
    rw [if_neg h2] at hnu
    rw [← hvis, hnu, foot2_real]
    field_simp

/-- The columns of a smoothed velocity: position, velocity, derivative. -/
noncomputable def smoothColumns (e : ℝ × ℝ × ℝ) : Bool → List ℝ
  | true => [e.1, e.2.1, e.2.2]
  | false => [e.1 / 0.3048, e.2.1 / 0.3048, e.2.2]

/-- **C50** The smoothed velocities in SI. -/
theorem smooth_units [PySpecial ℝ] (fl : Floats ℝ) (mem : Mem ℝ) (si : Bool) (rows : List Text) (es : List (ℝ × ℝ × ℝ))
    (h : List.Forall₂ (fun t e => Numbers Spec.blank fl t (smoothColumns e si)) rows es) :
    Smooth.mk' fl mem si rows = .ok ⟨es.map (·.1), es.map (·.2.1), es.map (·.2.2)⟩ := by
  rw [smooth_ok_iff]
  refine ⟨es, ?_, rfl⟩
  induction h with
  | nil => rfl
  | @cons t e rows es ht _ ih =>
    have : smoothRow fl si t = some e := by
      rw [numbers_iff] at ht
      rw [smoothRow, ht]
      cases si
      · obtain ⟨x, u, d⟩ := e
        have h1 : x / 0.3048 * 0.3048 = x := by field_simp
        have h2 : u / 0.3048 * 0.3048 = u := by field_simp
        simp [smoothColumns, foot_real, h1, h2]
      · simp [smoothColumns]
    rw [List.mapM_cons, this, ih]; rfl

end IBL.Stanford
