import Verif.Lemmas.StanfordCase
import Verif.Props.StanfordExamples

/-! C60, C62: bounds of the station attributes over histories, and uninitialised memory. -/

set_option linter.unusedSectionVars false

namespace IBL.Stanford
open Spec

section generic
variable {α : Type} [Add α] [Sub α] [Mul α] [Div α] [PyLit α] [PyCmp α] [PySpecial α] [PySqrt α] [PyPow α]

/-- The scalar attributes documented as positive are not `<= 0`. -/
structure Bounded (p : Station α) : Prop where
  ue : PyCmp.le p.ue (lit 0) = false
  deltaM : PyCmp.le p.deltaM (lit 0) = false
  shapeD : PyCmp.le p.shapeD (lit 0) = false
  shapeK : PyCmp.le p.shapeK (lit 0) = false
  shapeEq : PyCmp.le p.shapeEq (lit 0) = false
  uStar : PyCmp.le p.uStar (lit 0) = false
  nu : PyCmp.le p.nu (lit 0) = false
  deltaD : PyCmp.le p.deltaD (lit 0) = false
  deltaK : PyCmp.le p.deltaK (lit 0) = false
  deltaC : PyCmp.le p.deltaC (lit 0) = false
  reM : PyCmp.le p.reM (lit 0) = false
  reD : PyCmp.le p.reD (lit 0) = false

theorem bounded_set {p : Station α} (h : Bounded p) (f : Field) (v : α) : Bounded (p.set f v).1 := by
  by_cases hp : passes (f, v)
  · rw [set_ok hp]
    obtain ⟨h1, h2, h3, h4, h5, h6, h7, h8, h9, h10, h11, h12⟩ := h
    cases f <;> simp only [passes, Field.guarded, forall_const] at hp <;> exact ⟨by assumption, by assumption, by assumption, by assumption, by assumption, by assumption, by assumption, by assumption, by assumption, by assumption, by assumption, by assumption⟩
  · rw [set_error hp]; exact h

theorem bounded_sets : ∀ (l : List (Field × α)) {p : Station α}, Bounded p → Bounded (p.sets l).1
  | [], _, h => h
  | (f, v) :: l, p, h => by
    have := bounded_set h f v
    rw [Station.sets]
    rcases hs : p.set f v with ⟨q, e | u⟩
    · rw [hs] at this; exact this
    · rw [hs] at this; exact bounded_sets l this

theorem bounded_setArr {p : Station α} (h : Bounded p) (f : Arr) (v : List α) : Bounded (p.setArr f v).1 := by
  obtain ⟨h1, h2, h3, h4, h5, h6, h7, h8, h9, h10, h11, h12⟩ := h
  simp only [Station.setArr]; split_ifs
  · exact ⟨h1, h2, h3, h4, h5, h6, h7, h8, h9, h10, h11, h12⟩
  · cases f <;> exact ⟨h1, h2, h3, h4, h5, h6, h7, h8, h9, h10, h11, h12⟩

theorem bounded_resetSummary (hinf : PyCmp.le (PySpecial.inf : α) (lit 0) = false) (fl : Floats α) {p : Station α} (h : Bounded p) (si : Bool)
    (row : Text) : Bounded (p.resetSummary fl si row).1 := by
  obtain ⟨h1, h2, h3, h4, h5, h6, h7, h8, h9, h10, h11, h12⟩ := h
  rw [Station.resetSummary]
  have hb : Bounded { p with x := PySpecial.inf, ue := PySpecial.inf, due := PySpecial.inf, deltaM := PySpecial.inf, shapeD := PySpecial.inf, shapeK := PySpecial.inf, shapeEq := PySpecial.inf, cf := PySpecial.inf, cfLt := PySpecial.inf, cfExp := PySpecial.inf, beta := PySpecial.inf } :=
    ⟨hinf, hinf, hinf, hinf, hinf, h6, h7, h8, h9, h10, h11, h12⟩
  cases Summary.ofRow fl row with
  | none => exact hb
  | some v =>
    simp only
    have := bounded_sets (v.toSI si).assignments hb
    split
    · rename_i q e hs; rw [hs] at this; exact this
    · rename_i q hs; rw [hs] at this; exact bounded_sets _ this

theorem bounded_resetDetail (hinf : PyCmp.le (PySpecial.inf : α) (lit 0) = false) (fl : Floats α) {p : Station α} (h : Bounded p) (si : Bool)
    (row : Text) : Bounded (p.resetDetail fl si row).1 := by
  obtain ⟨h1, h2, h3, h4, h5, h6, h7, h8, h9, h10, h11, h12⟩ := h
  rw [Station.resetDetail]
  have hb : Bounded { p with nu := PySpecial.inf, deltaC := PySpecial.inf, reM := PySpecial.inf, reD := PySpecial.inf } :=
    ⟨h1, h2, h3, h4, h5, h6, hinf, h8, h9, hinf, hinf, hinf⟩
  have hb' : Bounded { p with nu := PySpecial.inf, deltaC := PySpecial.inf, reM := PySpecial.inf, reD := PySpecial.inf, uStar := PySpecial.inf, deltaD := PySpecial.inf, deltaK := PySpecial.inf } :=
    ⟨h1, h2, h3, h4, h5, hinf, hinf, hinf, hinf, hinf, hinf, hinf⟩
  have key : ∀ q : Station α × Except Exc Unit, Bounded q.1 → Bounded (match q with
      | (p, .error e) => (p, .error e)
      | (p, .ok ()) =>
        if row = [] then (p, .ok ()) else
        match Detail.ofRow fl row with
        | none => (p, .error .valueError)
        | some d =>
          match p.check (d.toSI si) with
          | .error e => (p, .error e)
          | .ok () => p.sets (d.toSI si).assignments : Station α × Except Exc Unit).1 := by
    rintro ⟨q, e | u⟩ hq
    · exact hq
    · simp only
      split_ifs
      · exact hq
      · cases Detail.ofRow fl row with
        | none => exact hq
        | some d =>
          simp only
          split
          · exact hq
          · exact bounded_sets _ hq
  apply key
  simp only
  split_ifs
  · exact hb'
  · exact bounded_sets _ hb

theorem bounded_readSamples (fl : Floats α) (si : Bool) : ∀ (rows : List Text) {p : Station α} (i : ℕ), Bounded p →
    Bounded (Station.readSamples fl si p i rows).1
  | [], _, _, h => h
  | row :: rows, p, i, h => by
    rw [Station.readSamples]
    cases Sample.ofRow fl row with
    | none => exact h
    | some d =>
      simp only
      split
      · exact h
      · obtain ⟨h1, h2, h3, h4, h5, h6, h7, h8, h9, h10, h11, h12⟩ := h
        exact bounded_readSamples fl si rows _ ⟨h1, h2, h3, h4, h5, h6, h7, h8, h9, h10, h11, h12⟩

theorem bounded_reset (hinf : PyCmp.le (PySpecial.inf : α) (lit 0) = false) (fl : Floats α) (mem : Mem α) {p : Station α} (h : Bounded p) (si : Bool)
    (a b : Text) (rows : List Text) : Bounded (p.reset fl mem si a b rows).1 := by
  rw [Station.reset]
  have h1 := bounded_resetSummary hinf fl h si a
  rcases e1 : p.resetSummary fl si a with ⟨q, e | u⟩ <;> rw [e1] at h1
  · exact h1
  have h2 := bounded_resetDetail hinf fl h1 si b
  simp only at h2 ⊢
  rcases e2 : q.resetDetail fl si b with ⟨q2, e | u⟩ <;> rw [e2] at h2
  · exact h2
  obtain ⟨h1, h2, h3, h4, h5, h6, h7, h8, h9, h10, h11, h12⟩ := h2
  exact bounded_readSamples fl si rows _ ⟨h1, h2, h3, h4, h5, h6, h7, h8, h9, h10, h11, h12⟩

theorem bounded_mk (hinf : PyCmp.le (PySpecial.inf : α) (lit 0) = false) (fl : Floats α) (mem : Mem α) (si : Bool) (a b : Text) (rows : List Text)
    (p : Station α) (hp : Station.mk' fl mem si a b rows = .ok p) : Bounded p := by
  have := bounded_reset hinf fl mem (p := Station.blank) ⟨hinf, hinf, hinf, hinf, hinf, hinf, hinf, hinf, hinf, hinf, hinf, hinf⟩ si a b rows
  rw [Station.mk'] at hp
  rcases e : Station.blank.reset fl mem si a b rows with ⟨q, e | u⟩
  · simp [e] at hp
  · rw [e] at this hp
    cases hp; exact this

theorem stations_mk {fl : Floats α} {mem : Mem α} {si : Bool} : ∀ (l : List (Text × Text × List Text)) (ss : List (Station α)),
    List.Forall₂ (fun t s => Station.mk' fl mem si t.1 t.2.1 t.2.2 = .ok s) l ss → ∀ s ∈ ss, ∃ t ∈ l, Station.mk' fl mem si t.1 t.2.1 t.2.2 = .ok s := by
  intro l ss h
  induction h with
  | nil => simp
  | cons h _ ih =>
    intro s hs
    rcases List.mem_cons.1 hs with rfl | hs
    · exact ⟨_, by simp, h⟩
    · obtain ⟨t, ht, h⟩ := ih s hs; exact ⟨t, by simp [ht], h⟩

/-- **C60** (scalar attributes). After any history of selections, assignments and resets, successful or not, none of the attributes documented as
positive is `<= 0`, in any station of the object. -/
theorem attributes_bounded (hinf : PyCmp.le (PySpecial.inf : α) (lit 0) = false) (files : CaseFiles) (fl : Floats α) :
    ∀ (ops : List (Op α)) (o : Case α), (∀ s ∈ o.stations, Bounded s) → ∀ s ∈ (o.run files fl ops).stations, Bounded s
  | [], _, h => h
  | op :: ops, o, h => by
    rw [Case.run]
    refine attributes_bounded hinf files fl ops _ ?_
    have onSt : ∀ (i : ℤ) (f : Station α → Station α × Except Exc Unit), (∀ s, Bounded s → Bounded (f s).1) →
        ∀ s ∈ (o.onStation i f).1.stations, Bounded s := by
      intro i f hf
      rw [Case.onStation]
      cases pyIndex o.stations.length i with
      | error e => exact h
      | ok k =>
        simp only
        rcases hk : o.stations[k]? with _ | s
        · exact h
        · intro t ht
          rcases List.mem_or_eq_of_mem_set ht with ht | rfl
          · exact h t ht
          · exact hf s (h s (List.mem_of_getElem? hk))
    cases op with
    | select mem name =>
      show ∀ s ∈ (o.select files fl mem name).1.stations, Bounded s
      by_cases hne : name = []
      · rw [Case.select]; simp [hne]
      rcases e : o.select files fl mem name with ⟨o', e' | u⟩
      · rcases select_error _ _ _ _ _ _ _ e with rfl | ⟨data, _, _, _, h'⟩
        · simp
        · rcases h' with ⟨_, _, h'⟩ | ⟨_, ⟨_, h'⟩ | ⟨b2, sm, _, _, _, h' | ⟨l1, t, l2, _, _, h'⟩⟩⟩
          · simp [h']
          · simp [h']
          · simp [h']
          · intro s hs
            obtain ⟨t, _, ht⟩ := stations_mk _ _ h' s hs
            exact bounded_mk hinf _ _ _ _ _ _ _ ht
      · obtain ⟨data, nu, b2, sm, l, ss, _, _, _, _, _, _, hss, rfl⟩ := (select_ok_iff _ _ _ _ _ _ hne).1 e
        intro s hs
        obtain ⟨t, _, ht⟩ := stations_mk _ _ hss s hs
        exact bounded_mk hinf _ _ _ _ _ _ _ ht
    | set i f v => exact onSt i _ fun s hs => bounded_set hs f v
    | setArr i f v => exact onSt i _ fun s hs => bounded_setArr hs f v
    | reset i mem si a b c => exact onSt i _ fun s hs => bounded_reset hinf fl mem hs si a b c

/-- **C62**. A station that was read does not depend on what the memory held before. -/
theorem station_initialised (fl : Floats α) (mem mem' : Mem α) (si : Bool) (a b : Text) (rows : List Text) (p : Station α) :
    Station.mk' fl mem si a b rows = .ok p ↔ Station.mk' fl mem' si a b rows = .ok p := by
  rw [mk_ok_iff, mk_ok_iff]

/-- **C62**. Neither does the whole object after a successful selection, nor on what the object was before. -/
theorem selection_fresh (files : CaseFiles) (fl : Floats α) (mem mem' : Mem α) (o1 o2 o' : Case α) (name : Text) :
    o1.select files fl mem name = (o', .ok ()) ↔ o2.select files fl mem' name = (o', .ok ()) := by
  by_cases hne : name = []
  · subst hne; simp [Case.select]
  rw [select_ok_iff _ _ _ _ _ _ hne, select_ok_iff _ _ _ _ _ _ hne]
  simp only [smooth_ok_iff, station_initialised fl mem mem']

end generic

/-! ### Uninitialised memory and negative samples -/

theorem decimal_single (w : Text) (m : ℤ × ℕ) (t : Text) (hs : t.split = [w]) (hm : numeral w = some m) : Sample.ofRow decimal t = none := by
  rw [Sample.ofRow, hs]
  simp [List.mapM_cons, decimal, hm]

/-- The reset of any station with the two summary rows of case 1100 reaches the profile. -/
theorem reset1100 [PySpecial ℝ] (mem : Mem ℝ) (p : Station ℝ) (rows : List Text) :
    ∃ q : Station ℝ, p.reset decimal mem true summary1100 detail1100 rows = q.resetData decimal mem true rows ∧ q.ue = detailState.ue ∧
      q.uStar = detailState.us ∧ q.nu = detailState.nu ∧ q.deltaC = detailState.clth := by
  obtain ⟨r, hr, hr'⟩ := summary_row rows1100.summary
  obtain ⟨d, hd, hd'⟩ := detail_row (d := detailState) rows1100.detail
  obtain ⟨hs, hdp, hsd, -⟩ := (accepted_iff rows1100 mem).1 (station1100 mem)
  have hg := (summary_good _).2 hs
  obtain ⟨p1, hp1⟩ : ∃ p1, p.resetSummary decimal true summary1100 = (p1, .ok ()) :=
    ⟨_, (resetSummary_ok _ _ _ _ _).2 ⟨r, hr, by rw [hr']; exact hg, rfl⟩⟩
  obtain ⟨r1, hr1, -, hp1'⟩ := (resetSummary_ok _ _ _ _ _).1 hp1
  rw [hr] at hr1; cases hr1
  rw [hr'] at hp1'
  have hder : ∀ x ∈ p1.derived, passes x := by
    rw [hp1']
    simp only [Station.derived, List.mem_cons, List.not_mem_nil, or_false, forall_eq_or_imp, forall_eq, passes, Field.guarded, forall_const]
    exact ⟨hg.dels, hg.enth, hg.us⟩
  have hag : p1.refreshed.Agrees (toDetail detailState) := by
    have h0 := (agrees_iff summaryState detailState hdp.nu).2 hsd
    have hcong : ∀ t u : Station ℝ, t.x = u.x → t.ue = u.ue → t.deltaM = u.deltaM → t.shapeD = u.shapeD → t.shapeK = u.shapeK →
        t.shapeEq = u.shapeEq → t.cf = u.cf → t.Agrees (toDetail detailState) → u.Agrees (toDetail detailState) := by
      intro t u e1 e2 e3 e4 e5 e6 e7 h
      obtain ⟨h1, h2, h3, h4, h5, h6, h7, h8, h9, h10, h11, h12⟩ := h
      rw [e1] at h1; rw [e2] at h2 h10 h11 h12; rw [e3] at h3 h7 h8; rw [e4] at h4 h7; rw [e5] at h5 h8; rw [e6] at h6; rw [e7] at h12
      exact ⟨h1, h2, h3, h4, h5, h6, h7, h8, h9, h10, h11, h12⟩
    have hr : ∀ t : Station ℝ, t.refreshed.x = t.x ∧ t.refreshed.ue = t.ue ∧ t.refreshed.deltaM = t.deltaM ∧
        t.refreshed.shapeD = t.shapeD ∧ t.refreshed.shapeK = t.shapeK ∧ t.refreshed.shapeEq = t.shapeEq ∧ t.refreshed.cf = t.cf := by
      intro t; rw [Station.refreshed]; split_ifs <;> simp
    obtain ⟨a1, a2, a3, a4, a5, a6, a7⟩ := hr p1
    obtain ⟨b1, b2, b3, b4, b5, b6, b7⟩ := hr (toSummary summaryState).station
    refine hcong _ _ ?_ ?_ ?_ ?_ ?_ ?_ ?_ h0
    · rw [Summary.read, a1, b1, hp1']; rfl
    · rw [Summary.read, a2, b2, hp1']; rfl
    · rw [Summary.read, a3, b3, hp1']; rfl
    · rw [Summary.read, a4, b4, hp1']; rfl
    · rw [Summary.read, a5, b5, hp1']; rfl
    · rw [Summary.read, a6, b6, hp1']; rfl
    · rw [Summary.read, a7, b7, hp1']; rfl
  have hp2 : p1.resetDetail decimal true detail1100 = (p1.refreshed.detailed (toDetail detailState), .ok ()) :=
    (resetDetail_ok _ _ _ _ _ fun _ => hder).2 (.inr ⟨by decide, d, hd, by rw [hd']; exact hag, by rw [hd']; exact (detail_good _).2 hdp, by rw [hd']⟩)
  refine ⟨p1.refreshed.detailed (toDetail detailState), ?_, rfl, rfl, rfl, rfl⟩
  rw [Station.reset, hp1]
  simp only [hp2]

/-- A profile whose second row is not complete. -/
def badProfile : List Text := ["   0.0   0.0    0.0    0.0     0.0     26.48".toList, "41.3".toList]

/-- **C62** fails for resets: a reset of an existing station that raises in the profile leaves uninitialised values visible. -/
theorem failed_reset_uninitialised [PySpecial ℝ] (mem : Mem ℝ) (p : Station ℝ) :
    (p.reset decimal mem true summary1100 detail1100 badProfile).2 = .error .valueError ∧
    ((p.reset decimal mem true summary1100 detail1100 badProfile).1.y)[1]? = some (mem 2 1) := by
  obtain ⟨q, hq, e1, e2, e3, e4⟩ := reset1100 mem p badProfile
  rw [hq]
  have hs := rows1100.samples
  simp only [profile1100, profileState] at hs
  cases hs with
  | cons h1 _ =>
    obtain ⟨d, hd, hd'⟩ := sample_row h1
    have hbad : Sample.ofRow decimal "41.3".toList = none := decimal_single "41.3".toList (413, 1) _ (by decide) (by decide)
    rw [Station.resetData]
    simp only [badProfile, Station.readSamples, hd, hbad]
    rw [hd']
    rw [(checkSample_ok _ _).2]
    · simp [Mem.empty, List.range_succ]
    · have t1 : ((1 / 2 : ℚ) : ℝ) = 0.5 := by norm_num
      constructor <;> simp only [exceeds_false, toSample, e1, e2, e3, e4, detailState, real_lit, t1] <;> rw [abs_le] <;> constructor <;> norm_num

/-- A profile with a negative wall distance. -/
def negProfile : List Text := ["-0.5  0.0  0.0  0.0  0.0  26.48".toList]

theorem neg_rows : Rows decimal true summary1100 detail1100 negProfile summaryState (some detailState) [⟨-0.5, 0, 0, 0, 0, 26.48⟩] where
  summary := rows1100.summary
  detail := rows1100.detail
  samples := by
    refine .cons ?_ .nil
    have := decimal_numbers (text := "-0.5  0.0  0.0  0.0  0.0  26.48".toList) (ps := [(-5, 1), (0, 1), (0, 1), (0, 1), (0, 1), (2648, 2)]) (by decide)
    convert this using 1
    simp only [SampleState.columns, List.map_cons, List.map_nil, List.cons.injEq]
    norm_num

/-- **C60** fails for the arrays: a station with a negative `y_plus` is read without error, although assigning that array raises. -/
theorem negative_sample_accepted [PySpecial ℝ] (mem : Mem ℝ) :
    ∃ p, Station.mk' decimal mem true summary1100 detail1100 negProfile = .ok p ∧ p.yPlus = [-0.5] ∧
      (p.setArr .yPlus p.yPlus).2 = .error .valueError := by
  obtain ⟨hs, hdp, hsd, -⟩ := (accepted_iff rows1100 mem).1 (station1100 mem)
  obtain ⟨p, hp⟩ := (accepted_iff neg_rows mem).2 ⟨hs, hdp, hsd, by
    intro q hq
    rw [List.mem_singleton.1 hq]
    constructor <;> rw [abs_le] <;> constructor <;> norm_num [detailState]⟩
  obtain ⟨-, -, -, -, -, -, -, -, -, -, -, -, -, -, -, -, -, -, h, -⟩ := units_read neg_rows mem p hp
  have h' : p.yPlus = [-0.5] := by rw [h]; rfl
  refine ⟨p, hp, h', ?_⟩
  rw [h', Station.setArr, if_pos]
  simp only [List.any_cons, List.any_nil, Bool.or_false, real_lt, real_lit]
  norm_num

/-- What holds of the arrays: an assignment that is accepted has no negative entry. -/
theorem assigned_array_bounded {α : Type} [PyLit α] [PyCmp α] (p q : Station α) (f : Arr) (v : List α)
    (h : p.setArr f v = (q, .ok ())) : ∀ a ∈ v, PyCmp.lt a (lit 0) = false := by
  simp only [Station.setArr] at h
  split_ifs at h with hc
  · simp at h
  · simpa using hc

end IBL.Stanford
