import Verif.Props.StanfordObject
import Verif.Props.StanfordCaseExamples

/-! C60, C62 over whole histories: the full statements, what holds of them, and the histories that break them. -/

set_option linter.unusedSectionVars false

namespace IBL.Stanford
open Spec

section generic
variable {α : Type} [Add α] [Sub α] [Mul α] [Div α] [PyLit α] [PyCmp α] [PySpecial α] [PySqrt α] [PyPow α]

/-- The same use, except for what `np.empty` returns during it. -/
inductive SameUse : Op α → Op α → Prop
  | select (mem mem' : Mem α) (name : Text) : SameUse (.select mem name) (.select mem' name)
  | set (i : ℤ) (f : Field) (v : α) : SameUse (.set i f v) (.set i f v)
  | setArr (i : ℤ) (f : Arr) (v : List α) : SameUse (.setArr i f v) (.setArr i f v)
  | reset (i : ℤ) (mem mem' : Mem α) (si : Bool) (a b : Text) (rows : List Text) : SameUse (.reset i mem si a b rows) (.reset i mem' si a b rows)

/-- **C62** as stated: two histories that differ only in what `np.empty` returns end in the same object. -/
def Initialised (files : CaseFiles) (fl : Floats α) : Prop :=
  ∀ ops ops' : List (Op α), List.Forall₂ SameUse ops ops' → Case.empty.run files fl ops = Case.empty.run files fl ops'

/-- No reset of a station raises anywhere in the history (selections and assignments may). -/
def NoResetRaises (files : CaseFiles) (fl : Floats α) : Case α → List (Op α) → Prop
  | _, [] => True
  | o, op :: ops =>
    (∀ i mem si a b rows, op = .reset i mem si a b rows → (o.step files fl op).2 = .ok ()) ∧ NoResetRaises files fl (o.step files fl op).1 ops

/-! ### The scalar attributes alone -/

/-- A station without its profile arrays. -/
def Station.scalars (p : Station α) : Station α := { p with yPlus := [], uPlus := [], y := [], u := [], yC := [], uDef := [] }

/-- An object without the profile arrays of its stations. -/
def Case.scalars (o : Case α) : Case α := { o with stations := o.stations.map Station.scalars }

theorem set_scalars (p : Station α) (f : Field) (v : α) : p.scalars.set f v = ((p.set f v).1.scalars, (p.set f v).2) := by
  cases f <;> simp only [Station.set, Station.scalars] <;> split_ifs <;> rfl

theorem sets_scalars : ∀ (l : List (Field × α)) (p : Station α), p.scalars.sets l = ((p.sets l).1.scalars, (p.sets l).2)
  | [], _ => rfl
  | (f, v) :: l, p => by
    rw [Station.sets, Station.sets, set_scalars]
    rcases p.set f v with ⟨q, e | u⟩
    · rfl
    · exact sets_scalars l q

theorem setArr_scalars (p q : Station α) (h : p.scalars = q.scalars) (f : Arr) (v : List α) :
    (p.setArr f v).1.scalars = (q.setArr f v).1.scalars := by
  simp only [Station.setArr]
  split_ifs
  · exact h
  · cases f <;> exact h

theorem resetSummary_scalars (fl : Floats α) (p : Station α) (si : Bool) (row : Text) :
    p.scalars.resetSummary fl si row = ((p.resetSummary fl si row).1.scalars, (p.resetSummary fl si row).2) := by
  have e : ∀ q : Station α, ({ q.scalars with x := PySpecial.inf, ue := PySpecial.inf, due := PySpecial.inf, deltaM := PySpecial.inf, shapeD := PySpecial.inf, shapeK := PySpecial.inf, shapeEq := PySpecial.inf, cf := PySpecial.inf, cfLt := PySpecial.inf, cfExp := PySpecial.inf, beta := PySpecial.inf } : Station α) = ({ q with x := PySpecial.inf, ue := PySpecial.inf, due := PySpecial.inf, deltaM := PySpecial.inf, shapeD := PySpecial.inf, shapeK := PySpecial.inf, shapeEq := PySpecial.inf, cf := PySpecial.inf, cfLt := PySpecial.inf, cfExp := PySpecial.inf, beta := PySpecial.inf } : Station α).scalars := fun _ => rfl
  rw [Station.resetSummary, Station.resetSummary]
  cases Summary.ofRow fl row with
  | none => rfl
  | some v =>
    simp only [e, sets_scalars]
    split
    · rename_i q e hs; rcases hs' : ({ p with x := PySpecial.inf, ue := PySpecial.inf, due := PySpecial.inf, deltaM := PySpecial.inf, shapeD := PySpecial.inf, shapeK := PySpecial.inf, shapeEq := PySpecial.inf, cf := PySpecial.inf, cfLt := PySpecial.inf, cfExp := PySpecial.inf, beta := PySpecial.inf } : Station α).sets (v.toSI si).assignments with ⟨q', e' | u⟩ <;> rw [hs'] at hs <;> simp only [Prod.mk.injEq, reduceCtorEq, and_false, Except.error.injEq] at hs
      simp [hs.1, hs.2]
    · rename_i q hs; rcases hs' : ({ p with x := PySpecial.inf, ue := PySpecial.inf, due := PySpecial.inf, deltaM := PySpecial.inf, shapeD := PySpecial.inf, shapeK := PySpecial.inf, shapeEq := PySpecial.inf, cf := PySpecial.inf, cfLt := PySpecial.inf, cfExp := PySpecial.inf, beta := PySpecial.inf } : Station α).sets (v.toSI si).assignments with ⟨q', e' | u⟩ <;> rw [hs'] at hs <;> simp only [Prod.mk.injEq, reduceCtorEq, and_false, and_true] at hs
      rw [← hs]
      simp only
      rw [← sets_scalars]
      rfl

theorem check_scalars (p : Station α) (d : Detail α) : p.scalars.check d = p.check d := rfl

theorem resetDetail_scalars (fl : Floats α) (p : Station α) (si : Bool) (row : Text) :
    p.scalars.resetDetail fl si row = ((p.resetDetail fl si row).1.scalars, (p.resetDetail fl si row).2) := by
  have key : ∀ q q' : Station α × Except Exc Unit, q' = (q.1.scalars, q.2) → (match q' with
      | (p, .error e) => (p, .error e)
      | (p, .ok ()) =>
        if row = [] then (p, .ok ()) else
        match Detail.ofRow fl row with
        | none => (p, .error .valueError)
        | some d =>
          match p.check (d.toSI si) with
          | .error e => (p, .error e)
          | .ok () => p.sets (d.toSI si).assignments : Station α × Except Exc Unit) =
      ((match q with
      | (p, .error e) => (p, .error e)
      | (p, .ok ()) =>
        if row = [] then (p, .ok ()) else
        match Detail.ofRow fl row with
        | none => (p, .error .valueError)
        | some d =>
          match p.check (d.toSI si) with
          | .error e => (p, .error e)
          | .ok () => p.sets (d.toSI si).assignments : Station α × Except Exc Unit).1.scalars,
       (match q with
      | (p, .error e) => (p, .error e)
      | (p, .ok ()) =>
        if row = [] then (p, .ok ()) else
        match Detail.ofRow fl row with
        | none => (p, .error .valueError)
        | some d =>
          match p.check (d.toSI si) with
          | .error e => (p, .error e)
          | .ok () => p.sets (d.toSI si).assignments : Station α × Except Exc Unit).2) := by
    rintro ⟨q, e | u⟩ q' rfl
    · rfl
    · simp only
      split_ifs
      · rfl
      · cases Detail.ofRow fl row with
        | none => rfl
        | some d =>
          simp only [check_scalars]
          cases q.check (d.toSI si) with
          | error e => rfl
          | ok u => exact sets_scalars _ _
  rw [Station.resetDetail, Station.resetDetail]
  apply key
  by_cases hx : PyCmp.eq p.x PySpecial.inf = true
  · simp only [show p.scalars.x = p.x from rfl, hx, if_true]; rfl
  · simp only [show p.scalars.x = p.x from rfl, hx]
    exact sets_scalars ({ p with nu := PySpecial.inf, deltaC := PySpecial.inf, reM := PySpecial.inf, reD := PySpecial.inf } : Station α).derived { p with nu := PySpecial.inf, deltaC := PySpecial.inf, reM := PySpecial.inf, reD := PySpecial.inf }

theorem readSamples_scalars (fl : Floats α) (si : Bool) : ∀ (rows : List Text) (p : Station α) (i : ℕ),
    Station.readSamples fl si p.scalars i rows = ((Station.readSamples fl si p i rows).1.scalars, (Station.readSamples fl si p i rows).2)
  | [], _, _ => rfl
  | row :: rows, p, i => by
    rw [Station.readSamples, Station.readSamples]
    cases Sample.ofRow fl row with
    | none => rfl
    | some d =>
      simp only
      have : p.scalars.checkSample (d.toSI si) = p.checkSample (d.toSI si) := rfl
      rw [this]
      cases p.checkSample (d.toSI si) with
      | error e => rfl
      | ok u =>
        simp only
        rw [← readSamples_scalars fl si rows]
        rfl

/-- What a reset does to the scalar attributes, and whether it raises, is determined by the texts and the scalar attributes. -/
theorem reset_scalars (fl : Floats α) (mem mem' : Mem α) {p p' : Station α} (h : p.scalars = p'.scalars) (si : Bool) (a b : Text)
    (rows : List Text) :
    (p.reset fl mem si a b rows).1.scalars = (p'.reset fl mem' si a b rows).1.scalars ∧
      (p.reset fl mem si a b rows).2 = (p'.reset fl mem' si a b rows).2 := by
  have h1 := resetSummary_scalars fl p si a
  have h1' := resetSummary_scalars fl p' si a
  rw [h, h1'] at h1
  rw [Station.reset, Station.reset]
  generalize p.resetSummary fl si a = r at h1 ⊢
  generalize p'.resetSummary fl si a = r' at h1 ⊢
  rcases r with ⟨q, e | u⟩ <;> rcases r' with ⟨q', e' | u'⟩ <;>
    simp only [Prod.mk.injEq, reduceCtorEq, and_false, Except.error.injEq] at h1
  · exact ⟨h1.1.symm, by rw [h1.2]⟩
  have h2 := resetDetail_scalars fl q si b
  have h2' := resetDetail_scalars fl q' si b
  rw [← h1.1, h2'] at h2
  simp only
  generalize q.resetDetail fl si b = r at h2 ⊢
  generalize q'.resetDetail fl si b = r' at h2 ⊢
  rcases r with ⟨q, e | u⟩ <;> rcases r' with ⟨q', e' | u'⟩ <;>
    simp only [Prod.mk.injEq, reduceCtorEq, and_false, Except.error.injEq] at h2
  · exact ⟨h2.1.symm, by rw [h2.2]⟩
  have h3 : ∀ (m : Mem α) (t : Station α), Station.readSamples fl si t.scalars 0 rows =
      ((t.resetData fl m si rows).1.scalars, (t.resetData fl m si rows).2) := fun m t => by
    rw [Station.resetData, ← readSamples_scalars]; rfl
  have h4 := h3 mem q
  rw [← h2.1, h3 mem' q', Prod.mk.injEq] at h4
  exact ⟨h4.1.symm, h4.2.symm⟩

/-- A reset that does not raise: nothing of the station comes from uninitialised memory or from its previous profile. -/
theorem reset_initialised (fl : Floats α) (mem mem' : Mem α) (p : Station α) (si : Bool) (a b : Text) (rows : List Text)
    (h : (p.reset fl mem si a b rows).2 = .ok ()) : p.reset fl mem si a b rows = p.reset fl mem' si a b rows := by
  rw [Station.reset] at h ⊢
  rw [Station.reset]
  generalize p.resetSummary fl si a = r at h ⊢
  rcases r with ⟨q, e | u⟩
  · rfl
  simp only at h ⊢
  generalize q.resetDetail fl si b = r at h ⊢
  rcases r with ⟨q, e | u⟩
  · rfl
  simp only at h ⊢
  rcases hd : q.resetData fl mem si rows with ⟨t, e | u⟩ <;> rw [hd] at h
  · cases h
  · exact ((resetData_ok fl mem' q t si rows).2 ((resetData_ok fl mem q t si rows).1 hd)).symm

theorem mk_mem (fl : Floats α) (mem mem' : Mem α) (si : Bool) (a b : Text) (rows : List Text) :
    Station.mk' fl mem si a b rows = Station.mk' fl mem' si a b rows := by
  rw [Station.mk', Station.mk']
  have h := reset_scalars fl mem mem' (rfl : (Station.blank : Station α).scalars = _) si a b rows
  have h' := reset_initialised fl mem mem' Station.blank si a b rows
  rcases e : Station.blank.reset fl mem si a b rows with ⟨q, e1 | u⟩
  · rw [e] at h
    rcases e' : Station.blank.reset fl mem' si a b rows with ⟨q', e2 | u'⟩ <;> rw [e'] at h <;> have := h.2 <;> simp at this
    simp [this]
  · rw [e] at h'
    rw [← h' rfl]

theorem smooth_mem (fl : Floats α) (mem mem' : Mem α) (si : Bool) (rows : List Text) : Smooth.mk' fl mem si rows = Smooth.mk' fl mem' si rows := by
  rcases h : Smooth.mk' fl mem si rows with e | q
  · rcases h' : Smooth.mk' fl mem' si rows with e' | q
    · rw [smooth_error _ _ _ _ _ h, smooth_error _ _ _ _ _ h']
    · rw [smooth_ok_iff, ← smooth_ok_iff fl mem, h] at h'; cases h'
  · exact ((smooth_ok_iff ..).2 ((smooth_ok_iff ..).1 h)).symm

theorem addStations_mem (fl : Floats α) (mem mem' : Mem α) (si : Bool) : ∀ (l : List (Text × Text × List Text)) (o : Case α),
    addStations fl mem si o l = addStations fl mem' si o l
  | [], _ => rfl
  | (a, b, c) :: l, o => by
    rw [addStations, addStations, mk_mem fl mem mem']
    cases Station.mk' fl mem' si a b c with
    | error e => rfl
    | ok s => exact addStations_mem fl mem mem' si l _

/-- A selection, whether it raises or not, leaves the same object whatever the memory held, and the former stations do not matter. -/
theorem select_mem (files : CaseFiles) (fl : Floats α) (mem mem' : Mem α) (o : Case α) (name : Text) :
    o.select files fl mem name = o.select files fl mem' name := by
  rw [Case.select, Case.select]
  simp only [smooth_mem fl mem mem', addStations_mem fl mem mem']

theorem onStation_eq (o : Case α) (i : ℤ) (f g : Station α → Station α × Except Exc Unit)
    (hfg : ∀ s ∈ o.stations, (f s).2 = .ok () → f s = g s) (h : (o.onStation i f).2 = .ok ()) : o.onStation i f = o.onStation i g := by
  rw [Case.onStation] at h ⊢
  rw [Case.onStation]
  generalize pyIndex o.stations.length i = r at h ⊢
  cases r with
  | error e => rfl
  | ok k =>
    simp only at h ⊢
    rcases hk : o.stations[k]? with _ | s
    · rfl
    · rw [hk] at h
      simp only at h ⊢
      rw [hfg s (List.mem_of_getElem? hk) h]

theorem step_same (files : CaseFiles) (fl : Floats α) (o : Case α) {op op' : Op α} (h : SameUse op op')
    (hr : ∀ i mem si a b rows, op = .reset i mem si a b rows → (o.step files fl op).2 = .ok ()) : o.step files fl op = o.step files fl op' := by
  cases h with
  | select mem mem' name => exact select_mem files fl mem mem' o name
  | set i f v => rfl
  | setArr i f v => rfl
  | reset i mem mem' si a b rows =>
    exact onStation_eq o i _ _ (fun s _ hs => reset_initialised fl mem mem' s si a b rows hs) (hr i mem si a b rows rfl)

theorem run_same (files : CaseFiles) (fl : Floats α) {ops ops' : List (Op α)} (h : List.Forall₂ SameUse ops ops') :
    ∀ o : Case α, NoResetRaises files fl o ops → o.run files fl ops = o.run files fl ops' := by
  induction h with
  | nil => intro o _; rfl
  | cons h _ ih =>
    intro o hn
    rw [Case.run, Case.run, ← step_same files fl o h hn.1]
    exact ih _ hn.2

theorem onStation_scalars {o o' : Case α} (ho : o.scalars = o'.scalars) (i : ℤ) (f g : Station α → Station α × Except Exc Unit)
    (hfg : ∀ s s' : Station α, s.scalars = s'.scalars → (f s).1.scalars = (g s').1.scalars) :
    (o.onStation i f).1.scalars = (o'.onStation i g).1.scalars := by
  have hst : o.stations.map Station.scalars = o'.stations.map Station.scalars := congrArg Case.stations ho
  have hlen : o.stations.length = o'.stations.length := by simpa using congrArg List.length hst
  rw [Case.onStation, Case.onStation, hlen]
  cases pyIndex o'.stations.length i with
  | error e => exact ho
  | ok k =>
    simp only
    have hk : (o.stations[k]?).map Station.scalars = (o'.stations[k]?).map Station.scalars := by
      rw [← List.getElem?_map, ← List.getElem?_map, hst]
    generalize o.stations[k]? = r at hk ⊢
    generalize o'.stations[k]? = r' at hk ⊢
    rcases r with _ | s <;> rcases r' with _ | s' <;> simp only [Option.map_none, Option.map_some, reduceCtorEq, Option.some.injEq] at hk
    · exact ho
    · obtain ⟨c, nu, sm, st⟩ := o
      obtain ⟨c', nu', sm', st'⟩ := o'
      simp only [Case.scalars, Case.mk.injEq] at ho hst ⊢
      refine ⟨ho.1, ho.2.1, ho.2.2.1, ?_⟩
      rw [List.map_set, List.map_set, hst, hfg s s' hk]

theorem select_scalars (files : CaseFiles) (fl : Floats α) (mem : Mem α) {o o' : Case α} (ho : o.scalars = o'.scalars) (name : Text) :
    o.select files fl mem name = o'.select files fl mem name := by
  have hc : o.case = o'.case := (Case.mk.inj ho).1
  rw [Case.select, Case.select, hc]

theorem run_same_scalars (files : CaseFiles) (fl : Floats α) {ops ops' : List (Op α)} (h : List.Forall₂ SameUse ops ops') :
    ∀ o o' : Case α, o.scalars = o'.scalars → (o.run files fl ops).scalars = (o'.run files fl ops').scalars := by
  induction h with
  | nil => intro o o' h; exact h
  | cons h _ ih =>
    intro o o' ho
    rw [Case.run, Case.run]
    apply ih
    cases h with
    | select mem mem' name =>
      show (o.select files fl mem name).1.scalars = (o'.select files fl mem' name).1.scalars
      rw [select_mem files fl mem mem', select_scalars files fl mem' ho]
    | set i f v =>
      refine onStation_scalars ho i _ _ fun s s' hs => ?_
      have h1 := set_scalars s f v
      rw [hs, set_scalars s' f v] at h1
      exact (Prod.mk.inj h1).1.symm
    | setArr i f v => exact onStation_scalars ho i _ _ fun s s' hs => setArr_scalars s s' hs f v
    | reset i mem mem' si a b rows => exact onStation_scalars ho i _ _ fun s s' hs => (reset_scalars fl mem mem' hs si a b rows).1

/-- **C62** (`Initialised` where it holds). Two histories that differ only in what `np.empty` returns end in objects with the same name, viscosity,
smoothed velocities, number of stations and scalar attributes; the profiles are also the same, so the objects are equal, when no reset of a station
raises. Missing: the profiles after a reset that raises (`initialised_fails`). -/
theorem initialised_partial (files : CaseFiles) (fl : Floats α) (ops ops' : List (Op α)) (h : List.Forall₂ SameUse ops ops') :
    (Case.empty.run files fl ops).scalars = (Case.empty.run files fl ops').scalars ∧
      (NoResetRaises files fl .empty ops → Case.empty.run files fl ops = Case.empty.run files fl ops') :=
  ⟨run_same_scalars files fl h _ _ rfl, fun hn => run_same files fl h _ hn⟩

end generic

theorem single_onStation {α : Type} {o : Case α} {p : Station α} (hp : o.stations = [p]) (f : Station α → Station α × Except Exc Unit) :
    o.onStation 0 f = ({ o with stations := [(f p).1] }, (f p).2) := by
  obtain ⟨c, nu, sm, st⟩ := o
  simp only at hp
  subst hp
  rfl

/-- A case with one station, as selected. -/
theorem one_station [PySpecial ℝ] (mem : Mem ℝ) :
    ∃ o p, Case.empty.select (filesWith lossText) decimal mem "1100".toList = (o, .ok ()) ∧ o.stations = [p] := by
  obtain ⟨o, h, hc⟩ := loss_selected mem Case.empty
  rw [Case.stationCount, List.length_eq_one_iff] at hc
  obtain ⟨p, hp⟩ := hc
  exact ⟨o, p, h, hp⟩

theorem one_station_reset [PySpecial ℝ] (mem : Mem ℝ) (rows : List Text) :
    ∃ p : Station ℝ, ((Case.empty.run (filesWith lossText) decimal
      [.select mem "1100".toList, .reset 0 mem true summary1100 detail1100 rows]).stations) =
        [(p.reset decimal mem true summary1100 detail1100 rows).1] := by
  obtain ⟨o, p, h, hp⟩ := one_station mem
  refine ⟨p, ?_⟩
  simp only [Case.run, Case.step, h, single_onStation hp]

/-- **C62** is false of the code: a reset that raises in the profile. -/
theorem initialised_fails [PySpecial ℝ] : ¬ Initialised (α := ℝ) (filesWith lossText) decimal := by
  intro h
  have e := h [.select (fun _ _ => 0) "1100".toList, .reset 0 (fun _ _ => 0) true summary1100 detail1100 badProfile]
    [.select (fun _ _ => 1) "1100".toList, .reset 0 (fun _ _ => 1) true summary1100 detail1100 badProfile]
    (.cons (.select _ _ _) (.cons (.reset _ _ _ _ _ _ _) .nil))
  obtain ⟨p, hp⟩ := one_station_reset (fun _ _ => (0:ℝ)) badProfile
  obtain ⟨q, hq⟩ := one_station_reset (fun _ _ => (1:ℝ)) badProfile
  rw [e, hq, List.cons.injEq] at hp
  have h0 := (failed_reset_uninitialised (fun _ _ => (0:ℝ)) p).2
  have h1 := (failed_reset_uninitialised (fun _ _ => (1:ℝ)) q).2
  rw [hp.1, h0] at h1
  simp at h1

/-- A reset that works and reads a negative sample. -/
theorem reset_negative [PySpecial ℝ] (mem : Mem ℝ) (p : Station ℝ) :
    (p.reset decimal mem true summary1100 detail1100 negProfile).2 = .ok () ∧
      (p.reset decimal mem true summary1100 detail1100 negProfile).1.yPlus = [-0.5] := by
  obtain ⟨q, hq, e1, e2, e3, e4⟩ := reset1100 mem p negProfile
  rw [hq]
  have hs := neg_rows.samples
  simp only [negProfile] at hs
  cases hs with
  | cons h1 _ =>
    obtain ⟨d, hd, hd'⟩ := sample_row h1
    rw [Station.resetData]
    simp only [negProfile, Station.readSamples, hd]
    rw [hd']
    rw [(checkSample_ok _ _).2]
    · simp [Mem.empty, List.range_succ, toSample]
    · have t1 : ((1 / 2 : ℚ) : ℝ) = 0.5 := by norm_num
      constructor <;> simp only [exceeds_false, toSample, e1, e2, e3, e4, detailState, real_lit, t1] <;> rw [abs_le] <;> constructor <;> norm_num

/-- The hypothesis of `initialised_partial`: a failed selection, a selection and a reset that works. -/
theorem no_reset_raises_example [PySpecial ℝ] (mem : Mem ℝ) : NoResetRaises (filesWith lossText) decimal (Case.empty : Case ℝ)
    [.select mem "1100".toList, .select mem "9999".toList, .select mem "1100".toList,
      .reset 0 mem true summary1100 detail1100 negProfile] := by
  refine ⟨by simp, by simp, by simp, ?_, trivial⟩
  rintro i mem' si a b rows -
  generalize (Case.step (filesWith lossText) decimal Case.empty (.select mem "1100".toList)).1 = o1
  generalize (Case.step (filesWith lossText) decimal o1 (.select mem "9999".toList)).1 = o2
  obtain ⟨o, h, hc⟩ := loss_selected mem o2
  rw [Case.stationCount, List.length_eq_one_iff] at hc
  obtain ⟨p, hp⟩ := hc
  simp only [Case.step, h, single_onStation hp]
  exact (reset_negative mem p).1

/-! ### C60 -/

/-- No profile array has a negative entry. -/
structure NoNegative (p : Station ℝ) : Prop where
  yPlus : ∀ a ∈ p.yPlus, 0 ≤ a
  uPlus : ∀ a ∈ p.uPlus, 0 ≤ a
  y : ∀ a ∈ p.y, 0 ≤ a
  u : ∀ a ∈ p.u, 0 ≤ a
  yC : ∀ a ∈ p.yC, 0 ≤ a
  uDef : ∀ a ∈ p.uDef, 0 ≤ a

/-- **C60** as stated, for one set of files. -/
def AttributesPositive [PySpecial ℝ] (files : CaseFiles) (fl : Floats ℝ) : Prop :=
  ∀ ops : List (Op ℝ), ∀ s ∈ (Case.empty.run files fl ops).stations, Bounded s ∧ NoNegative s

/-- A row of a profile without negative number. -/
def CleanRow (fl : Floats ℝ) (row : Text) : Prop := ∀ v ∈ row.split, ∀ a, fl v = some a → 0 ≤ a

/-- A use in which no row of a profile that is read has a negative number. -/
def CleanUse (files : CaseFiles) (fl : Floats ℝ) : Op ℝ → Prop
  | .select _ name => ∀ data, getCaseData files name = .ok data → ∀ block ∈ data.drop 4, ∀ row ∈ block, CleanRow fl row
  | .reset _ _ _ _ _ rows => ∀ row ∈ rows, CleanRow fl row
  | _ => True

theorem mapM_mem {β γ : Type} (f : β → Option γ) : ∀ (l : List β) (r : List γ), l.mapM f = some r → ∀ c ∈ r, ∃ b ∈ l, f b = some c
  | [], r, h, c, hc => by
    simp only [List.mapM_nil, Option.pure_def, Option.some.injEq] at h; subst h; simp at hc
  | b :: l, r, h, c, hc => by
    rw [List.mapM_cons] at h
    simp only [Option.bind_eq_bind, Option.bind_eq_some_iff, Option.pure_def, Option.some.injEq] at h
    obtain ⟨c', hc', r', hr', rfl⟩ := h
    rcases List.mem_cons.1 hc with rfl | hc
    · exact ⟨b, by simp, hc'⟩
    · obtain ⟨b', hb', h⟩ := mapM_mem f l r' hr' c hc
      exact ⟨b', by simp [hb'], h⟩

theorem clean_sample {fl : Floats ℝ} {row : Text} (h : CleanRow fl row) {d : Sample ℝ} (hd : Sample.ofRow fl row = some d) :
    0 ≤ d.yplus ∧ 0 ≤ d.uplus ∧ 0 ≤ d.y ∧ 0 ≤ d.uoui ∧ 0 ≤ d.ycd ∧ 0 ≤ d.udef := by
  rw [Sample.ofRow] at hd
  split at hd
  · rename_i a b c e f g hm
    cases hd
    have := mapM_mem fl _ _ hm
    have key : ∀ v ∈ [a, b, c, e, f, g], 0 ≤ v := fun v hv => by
      obtain ⟨w, hw, hf⟩ := this v hv
      exact h w hw v hf
    exact ⟨key a (by simp), key b (by simp), key c (by simp), key e (by simp), key f (by simp), key g (by simp)⟩
  · cases hd

theorem resetData_noNegative [PySpecial ℝ] {fl : Floats ℝ} {mem : Mem ℝ} {p q : Station ℝ} {si : Bool} {rows : List Text} (hue : 0 ≤ p.ue)
    (hc : ∀ row ∈ rows, CleanRow fl row) (h : p.resetData fl mem si rows = (q, .ok ())) : NoNegative q := by
  obtain ⟨es, hes, -, rfl⟩ := (resetData_ok _ _ _ _ _ _).1 h
  have key : ∀ e ∈ es, 0 ≤ e.yplus ∧ 0 ≤ e.uplus ∧ 0 ≤ e.y ∧ 0 ≤ e.uoui ∧ 0 ≤ e.ycd ∧ 0 ≤ e.udef := fun e he => by
    obtain ⟨row, hr, hd⟩ := mapM_mem _ _ _ hes e he
    exact clean_sample (hc row hr) hd
  constructor <;> intro a ha <;> simp only [Station.profiled, List.map_map, List.mem_map, Function.comp] at ha <;> obtain ⟨e, he, rfl⟩ := ha <;>
    obtain ⟨h1, h2, h3, h4, h5, h6⟩ := key e he
  · exact h1
  · exact h2
  · rw [Sample.toSI]
    simp only
    split_ifs
    · rw [real_lit]; positivity
    · rw [inch_real]; positivity
  · exact mul_nonneg hue h4
  · exact h5
  · exact h6

theorem bounded_ue [PySpecial ℝ] {p : Station ℝ} (h : Bounded p) : 0 ≤ p.ue := by
  have := h.ue
  rw [← Bool.not_eq_true, real_le, real_lit] at this
  push_cast at this
  linarith

theorem reset_noNegative [PySpecial ℝ] (hinf : PyCmp.le (PySpecial.inf : ℝ) (lit 0) = false) {fl : Floats ℝ} {mem : Mem ℝ} {p : Station ℝ} {si : Bool}
    {a b : Text} {rows : List Text} (hb : Bounded p) (hc : ∀ row ∈ rows, CleanRow fl row) (h : (p.reset fl mem si a b rows).2 = .ok ()) :
    NoNegative (p.reset fl mem si a b rows).1 := by
  rw [Station.reset] at h ⊢
  have h1 := bounded_resetSummary hinf fl hb si a
  generalize p.resetSummary fl si a = r at h h1 ⊢
  rcases r with ⟨q, e | u⟩
  · cases h
  simp only at h h1 ⊢
  have h2 := bounded_resetDetail hinf fl h1 si b
  generalize q.resetDetail fl si b = r at h h2 ⊢
  rcases r with ⟨t, e | u⟩
  · cases h
  simp only at h h2 ⊢
  rcases hd : t.resetData fl mem si rows with ⟨w, e | u⟩
  · rw [hd] at h; cases h
  · exact resetData_noNegative (bounded_ue h2) hc hd

theorem mk_noNegative [PySpecial ℝ] (hinf : PyCmp.le (PySpecial.inf : ℝ) (lit 0) = false) {fl : Floats ℝ} {mem : Mem ℝ} {si : Bool}
    {a b : Text} {rows : List Text} {p : Station ℝ} (hc : ∀ row ∈ rows, CleanRow fl row) (h : Station.mk' fl mem si a b rows = .ok p) :
    NoNegative p := by
  have hb : Bounded (Station.blank : Station ℝ) := ⟨hinf, hinf, hinf, hinf, hinf, hinf, hinf, hinf, hinf, hinf, hinf, hinf⟩
  have := reset_noNegative hinf (fl := fl) (mem := mem) (si := si) (a := a) (b := b) hb hc
  rw [Station.mk'] at h
  rcases e : Station.blank.reset fl mem si a b rows with ⟨q, e | u⟩
  · simp [e] at h
  · rw [e] at this h
    cases h; exact this rfl

theorem set_noNegative {p : Station ℝ} (h : NoNegative p) (f : Field) (v : ℝ) : NoNegative (p.set f v).1 := by
  obtain ⟨h1, h2, h3, h4, h5, h6⟩ := h
  cases f <;> simp only [Station.set] <;> (try split_ifs) <;> exact ⟨h1, h2, h3, h4, h5, h6⟩

theorem setArr_noNegative {p : Station ℝ} (h : NoNegative p) (f : Arr) (v : List ℝ) : NoNegative (p.setArr f v).1 := by
  obtain ⟨h1, h2, h3, h4, h5, h6⟩ := h
  simp only [Station.setArr]
  split_ifs with hv
  · exact ⟨h1, h2, h3, h4, h5, h6⟩
  · have hv' : ∀ a ∈ v, 0 ≤ a := by simpa using hv
    cases f <;> constructor <;> first | exact hv' | assumption

theorem stationTexts_rows {data : List (List Text)} {l : List (Text × Text × List Text)} (h : stationTexts data = .ok l) :
    ∀ t ∈ l, t.2.2 = [] ∨ t.2.2 ∈ data.drop 4 := by
  rw [stationTexts] at h
  split at h
  · cases h
  split at h
  · cases h; intro t ht; obtain ⟨r, -, rfl⟩ := List.mem_map.1 ht; exact .inl rfl
  split at h
  · cases h
  split at h
  · cases h; intro t ht; obtain ⟨r, -, rfl⟩ := List.mem_map.1 ht; exact .inl rfl
  · cases h
    rintro ⟨a, b, c⟩ ht
    exact .inr (List.of_mem_zip (List.of_mem_zip ht).2).2

theorem select_noNegative [PySpecial ℝ] (hinf : PyCmp.le (PySpecial.inf : ℝ) (lit 0) = false) (files : CaseFiles) (fl : Floats ℝ) (mem : Mem ℝ)
    (o : Case ℝ) (name : Text) (hc : CleanUse files fl (.select mem name)) : ∀ s ∈ (o.select files fl mem name).1.stations, NoNegative s := by
  have key : ∀ data l, getCaseData files name = .ok data → stationTexts data = .ok l → ∀ t ∈ l, ∀ row ∈ t.2.2, CleanRow fl row := by
    intro data l hd hl t ht row hr
    rcases stationTexts_rows hl t ht with h | h
    · rw [h] at hr; cases hr
    · exact hc data hd _ h row hr
  by_cases hne : name = []
  · rw [Case.select]; simp [hne]
  rcases e : o.select files fl mem name with ⟨o', e' | u⟩
  · rcases select_error _ _ _ _ _ _ _ e with rfl | ⟨data, hd, _, _, h'⟩
    · simp
    · rcases h' with ⟨_, _, h'⟩ | ⟨_, ⟨_, h'⟩ | ⟨b2, sm, _, _, _, h' | ⟨l1, t, l2, hl, _, h'⟩⟩⟩
      · simp [h']
      · simp [h']
      · simp [h']
      · intro s hs
        obtain ⟨t, ht', ht⟩ := stations_mk _ _ h' s hs
        exact mk_noNegative hinf (key data _ hd hl t (by simp [ht'])) ht
  · obtain ⟨data, nu, b2, sm, l, ss, hd, _, _, _, _, hl, hss, rfl⟩ := (select_ok_iff _ _ _ _ _ _ hne).1 e
    intro s hs
    obtain ⟨t, ht', ht⟩ := stations_mk _ _ hss s hs
    exact mk_noNegative hinf (key data _ hd hl t ht') ht

theorem onStation_inv {o : Case ℝ} {P : Station ℝ → Prop} (ho : ∀ s ∈ o.stations, P s) (i : ℤ) (f : Station ℝ → Station ℝ × Except Exc Unit)
    (hf : ∀ s ∈ o.stations, (o.onStation i f).2 = (f s).2 → P (f s).1) : ∀ s ∈ (o.onStation i f).1.stations, P s := by
  rw [Case.onStation] at hf ⊢
  generalize pyIndex o.stations.length i = r at hf ⊢
  cases r with
  | error e => exact ho
  | ok k =>
    simp only at hf ⊢
    rcases hk : o.stations[k]? with _ | s
    · exact ho
    · rw [hk] at hf
      intro t ht
      rcases List.mem_or_eq_of_mem_set ht with ht | rfl
      · exact ho t ht
      · exact hf s (List.mem_of_getElem? hk) rfl

theorem run_noNegative [PySpecial ℝ] (hinf : PyCmp.le (PySpecial.inf : ℝ) (lit 0) = false) (files : CaseFiles) (fl : Floats ℝ) :
    ∀ (ops : List (Op ℝ)) (o : Case ℝ), (∀ s ∈ o.stations, Bounded s) → (∀ s ∈ o.stations, NoNegative s) → (∀ op ∈ ops, CleanUse files fl op) →
      NoResetRaises files fl o ops → ∀ s ∈ (o.run files fl ops).stations, NoNegative s
  | [], _, _, h, _, _ => h
  | op :: ops, o, hb, h, hc, hn => by
    rw [Case.run]
    refine run_noNegative hinf files fl ops _ (attributes_bounded hinf files fl [op] o hb) ?_ (fun op' h' => hc op' (by simp [h'])) hn.2
    have hcop := hc op (by simp)
    cases op with
    | select mem name => exact select_noNegative hinf files fl mem o name hcop
    | set i f v => exact onStation_inv h i _ fun s hs _ => set_noNegative (h s hs) f v
    | setArr i f v => exact onStation_inv h i _ fun s hs _ => setArr_noNegative (h s hs) f v
    | reset i mem si a b rows =>
      refine onStation_inv h i _ fun s hs he => reset_noNegative hinf (hb s hs) hcop ?_
      rw [← he]
      exact hn.1 i mem si a b rows rfl

/-- **C60** (`AttributesPositive` where it holds). After any history no scalar attribute documented as positive is `<= 0`, in any station; and no
profile array has a negative entry if no row of a profile that was read has a negative number and no reset of a station raised. Missing: negative
samples (`attributes_positive_fails`), and the uninitialised entries after a reset that raises. -/
theorem attributes_positive_partial [PySpecial ℝ] (hinf : PyCmp.le (PySpecial.inf : ℝ) (lit 0) = false) (files : CaseFiles) (fl : Floats ℝ)
    (ops : List (Op ℝ)) (s : Station ℝ) (hs : s ∈ (Case.empty.run files fl ops).stations) :
    Bounded s ∧ ((∀ op ∈ ops, CleanUse files fl op) → NoResetRaises files fl .empty ops → NoNegative s) :=
  ⟨attributes_bounded hinf files fl ops .empty (by simp [Case.empty]) s hs,
    fun hc hn => run_noNegative hinf files fl ops .empty (by simp [Case.empty]) (by simp [Case.empty]) hc hn s hs⟩

theorem clean_of_numerals {row : Text} (h : (row.split.all fun w => match numeral w with | some m => decide (0 ≤ m.1) | none => true) = true) :
    CleanRow decimal row := by
  intro v hv a ha
  have := List.all_eq_true.1 h v hv
  rw [decimal] at ha
  rcases hn : numeral v with _ | m
  · rw [hn] at ha; cases ha
  · rw [hn] at ha this
    simp only [decide_eq_true_eq] at this
    simp only [Option.map_some, Option.some.injEq] at ha
    rw [← ha]
    have : (0:ℝ) ≤ (m.1 : ℝ) := by exact_mod_cast this
    positivity

/-- The hypotheses of `attributes_positive_partial`: case 1100 is selected and its station is reset with its own rows. -/
theorem clean_example [PySpecial ℝ] (mem : Mem ℝ) : CleanUse (filesWith lossText) decimal (.select mem "1100".toList) ∧
    CleanUse (filesWith lossText) decimal (.reset 0 mem true summary1100 detail1100 profile1100) := by
  have key : ∀ row ∈ profile1100, CleanRow decimal row := by
    intro row hr
    apply clean_of_numerals
    revert row
    decide
  refine ⟨fun data hd block hb row hr => ?_, key⟩
  rw [loss_data] at hd
  cases hd
  simp only [List.drop_succ_cons, List.drop_zero, List.mem_singleton] at hb
  exact key row (hb ▸ hr)

/-- **C60** is false of the code: a station is reset with a profile that has a negative wall distance. -/
theorem attributes_positive_fails [PySpecial ℝ] : ¬ AttributesPositive (filesWith lossText) decimal := by
  intro h
  obtain ⟨p, hp⟩ := one_station_reset (fun _ _ => (0:ℝ)) negProfile
  have := (h _ _ (by rw [hp]; exact List.mem_singleton.2 rfl)).2.yPlus
  rw [(reset_negative (fun _ _ => (0:ℝ)) p).2] at this
  have := this (-0.5) (by simp)
  norm_num at this

end IBL.Stanford
