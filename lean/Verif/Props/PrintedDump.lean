import Verif.Props.Printed
import Verif.Props.XFoilTable
import Verif.Props.StanfordStation

/-! C126: XFoil dumps as printed text. -/

set_option linter.unusedSectionVars false

namespace IBL
open Spec PyFloat

/-- The columns of the row are numerals, which stand for these numbers. -/
def PrintedRow (row : Text) (qs : List ℚ) : Prop := ∃ ws, Columns Spec.blank row ws ∧ List.Forall₂ Numeral ws qs

namespace XFoil
section row
variable {α : Type} [PyLit α] [PyCmp α] [PySpecial α] [Neg α]

/-- The columns in the order of the file. -/
def Pt.columns {K : Type} (p : Pt K) : List K :=
  [p.s, p.x, p.y, p.u, p.deltaD, p.deltaM, p.cf, p.shapeD, p.shapeK, p.mom, p.mass, p.ke]

/-- The numbers as floats. -/
def Pt.lits (p : Pt ℚ) : Pt α :=
  ⟨lit p.s, lit p.x, lit p.y, lit p.u, lit p.deltaD, lit p.deltaM, lit p.cf, lit p.shapeD, lit p.shapeK, lit p.mom, lit p.mass, lit p.ke⟩
@[inherit_doc Pt.lits]
def Wake.lits (p : Wake ℚ) : Wake α := ⟨lit p.s, lit p.x, lit p.y, lit p.u, lit p.deltaD, lit p.deltaM, lit p.shapeD⟩

theorem printed_numbers {row : Text} {qs : List ℚ} (h : PrintedRow row qs) : Numbers (floats : Floats α) row (qs.map lit) := by
  obtain ⟨ws, hc, hw⟩ := h
  refine ⟨ws, hc, ?_⟩
  clear hc
  induction hw with
  | nil => exact .nil
  | cons hw _ ih => exact .cons (by simp [floats, float_numeral hw, toNumber]) ih

theorem printed_ne {row : Text} {q : ℚ} {qs : List ℚ} (h : PrintedRow row (q :: qs)) : row ≠ [] := by
  rintro rfl
  obtain ⟨ws, hc, hw⟩ := h
  rw [← isSpace_eq, columns_iff] at hc
  subst hc
  cases hw

/-- **C126**: a row with the printed columns of a record is read as this record. -/
theorem printed_row (hinf : InfAdm α) (row : Text) (p : Pt ℚ) (h : PrintedRow row p.columns) (ha : (p.lits : Pt α).Adm) :
    Pt.mk' (floats : Floats α) row = .ok p.lits := by
  have := (row_accepted_iff hinf floats Pt.infs p.lits row (printed_ne h)).2 ⟨printed_numbers h, ha⟩
  rw [Pt.mk', this]

/-- **C126**, wake. -/
theorem printed_wake_row (hinf : InfAdm α) (row : Text) (p : Wake ℚ) (t : ℚ)
    (h : PrintedRow row [p.s, p.x, p.y, p.u, p.deltaD, p.deltaM, t, p.shapeD]) (ha : (p.lits : Wake α).Adm) :
    Wake.mk' (floats : Floats α) row = .ok p.lits := by
  have := (wake_row_accepted_iff hinf floats Wake.infs p.lits row (printed_ne h)).2 ⟨⟨lit t, printed_numbers h⟩, ha⟩
  rw [Wake.mk', this]

/-- **C126**: a row with another number of columns, or with a column that is no number, raises ValueError; so columns that run together are found out. -/
theorem printed_row_rejected (hinf : InfAdm α) (row : Text) (ws : List Text) (hc : Columns Spec.blank row ws) (hne : ws ≠ [])
    (h : ws.length ≠ 12 ∨ ∃ w ∈ ws, float w = none) : Pt.mk' (floats : Floats α) row = .error .valueError := by
  have hrow : row ≠ [] := by
    rintro rfl
    rw [← isSpace_eq, columns_iff] at hc
    subst hc
    exact hne rfl
  have key : ¬ ∃ q, (Pt.infs : Pt α).reset floats row = (q, .ok ()) := by
    rintro ⟨q, hq⟩
    obtain ⟨⟨ws', hc', hw⟩, -⟩ := (row_accepted_iff hinf floats Pt.infs q row hrow).1 hq
    have e : ws' = ws := by
      rw [← isSpace_eq, columns_iff] at hc hc'
      exact hc'.symm.trans hc
    subst e
    rcases h with h | ⟨w, hm, hn⟩
    · exact h hw.length_eq
    · have : ∀ {ws : List Text} {vs : List α}, List.Forall₂ (fun w v => (floats w : Option α) = some v) ws vs → w ∉ ws := fun hw => by
        induction hw with
        | nil => simp
        | cons h _ ih =>
          simp only [List.mem_cons, not_or]
          exact ⟨fun e => by subst e; simp [floats, hn] at h, ih⟩
      exact this hw hm
  have := row_rejected hinf floats Pt.infs row key
  rw [Pt.mk']
  rcases hr : (Pt.infs : Pt α).reset floats row with ⟨p, e | _⟩
  · rw [hr] at this
    simp only [Except.error.injEq] at this
    rw [this]
  · rw [hr] at this; cases this

/-- A dump file as text: a header that begins with `#`, rows of at least 80 characters for the airfoil, shorter ones for the wake (whose seventh column
is given separately). -/
structure PrintedDump (content : Text) (ps : List (Pt ℚ)) (ws : List (Wake ℚ × ℚ)) : Prop where
  text : ∃ t hdr air wk, Normal content t ∧ Lines t (hdr :: air ++ wk) ∧ hdr.head? = some '#' ∧ (∀ l ∈ hdr :: air, 80 ≤ l.length) ∧
    (∀ l ∈ wk, l.length < 80) ∧ List.Forall₂ (fun row p => PrintedRow row p.columns) air ps ∧
    List.Forall₂ (fun row p => PrintedRow row [p.1.s, p.1.x, p.1.y, p.1.u, p.1.deltaD, p.1.deltaM, p.2, p.1.shapeD]) wk ws

/-- **C126**: such a file is read as these records, row by row. -/
theorem printed_dump (hinf : InfAdm α) (content : Text) (ps : List (Pt ℚ)) (ws : List (Wake ℚ × ℚ)) (D : PrintedDump content ps ws)
    (hp : ∀ p ∈ ps, (p.lits : Pt α).Adm) (hw : ∀ p ∈ ws, (p.1.lits : Wake α).Adm) :
    ∃ air wk, Sections (readlines content) air wk ∧ Rows (floats : Floats α) air (ps.map Pt.lits) ∧
      WakeRows (floats : Floats α) wk (ws.map fun p => p.1.lits) := by
  obtain ⟨t, hdr, air, wk, hn, hl, hh, hlong, hshort, h1, h2⟩ := D.text
  have e : readlines content = hdr :: air ++ wk := (readlines_iff _ _).1 ⟨t, hn, hl⟩
  refine ⟨air, wk, ⟨⟨[hdr], by rw [e]; simp, .inr ⟨hdr, rfl, hh⟩⟩, by rw [e]; simp, fun hne => ?_, fun he => ?_⟩, ?_, ?_⟩
  · obtain ⟨w, post, rfl⟩ := List.exists_cons_of_ne_nil hne
    exact ⟨hdr :: air, w, post, by simp, by rw [e], hlong, rfl, hshort w (by simp)⟩
  · left
    rw [e, he, List.append_nil]
    exact hlong
  · clear e hl hlong D
    induction h1 with
    | nil => exact .nil
    | cons h _ ih => exact .cons (printed_row hinf _ _ h (hp _ (by simp))) (ih fun p hm => hp p (by simp [hm]))
  · clear e hl hlong hshort D
    induction h2 with
    | nil => exact .nil
    | cons h _ ih => exact .cons (printed_wake_row hinf _ _ _ h (hw _ (by simp))) (ih fun p hm => hw p (by simp [hm]))

end row

variable [PySpecial ℝ]

/-- **C126**, from the text to the arrays: a printed dump with increasing arc lengths, positive velocities up to the stagnation point and negative ones
after it, is read, and for any reference velocity the arrays of arc length and edge velocity are those of the printed numbers. -/
theorem printed_tables (hinf : InfAdm ℝ) (fs : Files) (name content : Text) (us ls : List (Pt ℚ)) (a b : Pt ℚ) (ws : List (Wake ℚ × ℚ)) (hn : name ≠ [])
    (hc : fs name = .ok content) (D : PrintedDump content (us ++ a :: b :: ls) ws)
    (adm : ∀ p ∈ us ++ a :: b :: ls, 0 ≤ p.s ∧ 0 ≤ p.deltaD ∧ 0 ≤ p.deltaM ∧ 0 ≤ p.cf ∧ 0 < p.shapeD ∧ 0 < p.shapeK)
    (admW : ∀ p ∈ ws, 0 ≤ p.1.s ∧ 0 ≤ p.1.deltaD ∧ 0 ≤ p.1.deltaM ∧ 0 < p.1.shapeD) (arcW : (ws.map fun p => p.1.s).Pairwise (· ≤ ·))
    (before : ∀ p ∈ us ++ [a], 0 < p.u) (after : ∀ p ∈ b :: ls, p.u < 0) (arc : ((us ++ a :: b :: ls).map Pt.s).Pairwise (· < ·)) (v : ℝ) (hv : 0 < v) :
    ∃ r r' : Reader ℝ, Reader.load floats fs name = (r, .ok ()) ∧ r.step floats (.setURef v) = (r', .ok ()) ∧
      ∃ z : ℚ, (z - a.s) * (a.u - b.u) = (b.s - a.s) * a.u ∧
        SurfaceTable r' .upper ((0, 0) :: (a :: us.reverse).map fun q => (((z - q.s : ℚ) : ℝ), v * (q.u : ℝ))) ∧
        SurfaceTable r' .lower ((0, 0) :: (b :: ls).map fun q => (((q.s - z : ℚ) : ℝ), v * -(q.u : ℝ))) := by
  have cast : ∀ q : ℚ, (lit q : ℝ) = (q : ℝ) := fun _ => rfl
  obtain ⟨air, wk, hs, hr, hw⟩ := printed_dump (α := ℝ) hinf content _ ws D
    (fun p hp => by
      obtain ⟨h1, h2, h3, h4, h5, h6⟩ := adm p hp
      exact ⟨by simp [Pt.lits, PyCmp.lt, cast, h1], by simp [Pt.lits, PyCmp.lt, cast, h2], by simp [Pt.lits, PyCmp.lt, cast, h3],
        by simp [Pt.lits, PyCmp.lt, cast, h4], by simp [Pt.lits, PyCmp.le, cast, h5], by simp [Pt.lits, PyCmp.le, cast, h6]⟩)
    (fun p hp => by
      obtain ⟨h1, h2, h3, h4⟩ := admW p hp
      exact ⟨by simp [Wake.lits, PyCmp.lt, cast, h1], by simp [Wake.lits, PyCmp.lt, cast, h2], by simp [Wake.lits, PyCmp.lt, cast, h3],
        by simp [Wake.lits, PyCmp.le, cast, h4]⟩)
  have C : CleanDump floats content (us.map Pt.lits) (ls.map Pt.lits) (a.lits : Pt ℝ) b.lits := by
    refine ⟨⟨air, wk, _, hs, by simpa using hr, hw, ?_⟩, fun p hp => ?_, fun p hp => ?_, ?_⟩
    · rw [List.map_map, List.pairwise_map]
      rw [List.pairwise_map] at arcW
      exact arcW.imp fun h => by simpa [Wake.lits, cast] using h
    · obtain ⟨q, hq, rfl⟩ : ∃ q ∈ us ++ [a], q.lits = p := by
        rw [← List.mem_map]; simpa using hp
      simpa [Pt.lits, cast] using before q hq
    · obtain ⟨q, hq, rfl⟩ : ∃ q ∈ b :: ls, q.lits = p := by
        rw [← List.mem_map]; simpa using hp
      simpa [Pt.lits, cast] using after q hq
    · have : (us.map Pt.lits ++ a.lits :: b.lits :: ls.map Pt.lits : List (Pt ℝ)) = (us ++ a :: b :: ls).map Pt.lits := by simp
      rw [this, List.map_map, List.pairwise_map]
      rw [List.pairwise_map] at arc
      exact arc.imp fun h => by simpa [Pt.lits, cast] using h
  obtain ⟨r, r', h1, h2, h3⟩ := clean_tables hinf floats fs name content _ _ _ _ hn hc C v hv
  have hab : a.u - b.u ≠ 0 := by
    have := before a (by simp)
    have := after b (by simp)
    linarith
  refine ⟨r, r', h1, h2, a.s + (b.s - a.s) * (a.u / (a.u - b.u)), by field_simp; ring, ?_, ?_⟩
  · have := (h3 .upper (by simp)).1
    simpa [passed, zeroS, Pt.lits, cast, Function.comp_def] using this
  · have := (h3 .lower (by simp)).1
    simpa [passed, zeroS, Pt.lits, cast, Function.comp_def] using this

/-- A case: header and two rows of 12 columns. -/
def sampleHeader : Text :=
  "#    s        x        y     Ue/Vinf    Dstar     Theta      Cf       H       H*        P         m          K\n".toList
def sampleUpper : Text :=
  "  0.00000  1.00000  0.00126  0.91000 0.004710 0.002110 0.000917    2.2323    1.6390  0.001747  0.004286  0.002604\n".toList
def sampleLower : Text :=
  "  2.00000  1.00000 -0.00126 -0.91000 0.004710 0.002110 0.000917    2.2323    1.6390  0.001747  0.004286 -2.604E-03\n".toList

private def sampleRow (s y u k : ℚ) : Pt ℚ := ⟨s, 1, y, u, 471/100000, 211/100000, 917/1000000, 22323/10000, 1639/1000, 1747/1000000, 4286/1000000, k⟩

private theorem sample_read {row : Text} {qs : List ℚ} (h : row.split.mapM float = some (qs.map Flt.fin))
    (hu : ∀ w ∈ row.split, '_' ∉ w) : PrintedRow row qs := by
  refine ⟨row.split, by rw [← isSpace_eq, columns_iff], ?_⟩
  have hb : ∀ w ∈ row.split, ∀ c ∈ w, isSpace c = false := fun w hw => (columns_words ((columns_iff row _).2 rfl) w hw).2
  generalize row.split = ws at *
  induction ws generalizing qs with
  | nil =>
    cases qs with
    | nil => exact .nil
    | cons q qs => simp at h
  | cons w ws ih =>
    rw [List.mapM_cons] at h
    simp only [Option.bind_eq_bind, Option.bind_eq_some_iff, Option.pure_def, Option.some.injEq] at h
    obtain ⟨v, hv, vs, hvs, e⟩ := h
    cases qs with
    | nil => simp at e
    | cons q qs =>
      simp only [List.map_cons, List.cons.injEq] at e
      obtain ⟨rfl, rfl⟩ := e
      exact .cons ((float_iff w (hb w (by simp)) (hu w (by simp)) q).1 hv) (ih hvs (fun w hw => hu w (by simp [hw])) fun w hw => hb w (by simp [hw]))

example : PrintedDump (sampleHeader ++ sampleUpper ++ sampleLower)
    [sampleRow 0 (126/100000) (91/100) (2604/1000000), sampleRow 2 (-126/100000) (-91/100) (-2604/1000000)] [] := by
  obtain ⟨t, hn, hl⟩ := lines_readlines (sampleHeader ++ sampleUpper ++ sampleLower)
  have e : readlines (sampleHeader ++ sampleUpper ++ sampleLower) = sampleHeader :: [sampleUpper, sampleLower] ++ [] := by decide +kernel
  rw [e] at hl
  have h1 : sampleUpper.split.mapM float = some ((sampleRow 0 (126/100000) (91/100) (2604/1000000)).columns.map Flt.fin) := by decide +kernel
  have h2 : sampleLower.split.mapM float = some ((sampleRow 2 (-126/100000) (-91/100) (-2604/1000000)).columns.map Flt.fin) := by decide +kernel
  exact ⟨t, _, _, _, hn, hl, by decide +kernel, by decide +kernel, by simp, .cons (sample_read h1 (by decide +kernel)) (.cons (sample_read h2 (by decide +kernel)) .nil), .nil⟩

end XFoil

namespace Stanford
variable [PySpecial ℝ]

/-- The printed columns of a row in the unit system of the file. -/
def Printed (text : Text) (cols : List ℝ) : Prop := ∃ qs, PrintedRow text qs ∧ cols = qs.map fun q : ℚ => (q : ℝ)

/-- **C126**, Stanford data: a station whose rows are printed as decimal numerals has exactly these numbers as its columns (so what is
proved about `Rows` holds for the text). -/
theorem printed_station (si : Bool) (a b : Text) (rows : List Text) (s : SummaryState) (d : Option DetailState) (ps : List SampleState)
    (h1 : Printed a (s.columns si)) (h2 : match d with | none => b = [] | some d => Printed b (d.columns si))
    (h3 : List.Forall₂ (fun t (p : SampleState) => Printed t (p.columns si)) rows ps) : Rows floats si a b rows s d ps := by
  have key : ∀ {t : Text} {cols : List ℝ}, Printed t cols → Spec.Numbers Spec.blank (floats : Floats ℝ) t cols := fun h => by
    obtain ⟨qs, ⟨ws, hc, hw⟩, rfl⟩ := h
    refine ⟨ws, hc, ?_⟩
    clear hc
    induction hw with
    | nil => rfl
    | cons hw _ ih =>
      simp only [List.map_cons, ih]
      rw [floats, float_numeral hw]
      rfl
  exact ⟨key h1, by cases d with | none => exact h2 | some d => exact key h2, h3.imp fun _ _ => key⟩

end Stanford
end IBL
