import Verif.Lemmas.Stanford
import Verif.Spec.Stanford

/-! C50-C52, C59: units, consistency and derived values of a station. -/

set_option linter.unusedSectionVars false

namespace IBL.Stanford
open Spec

theorem mapM_iff {β γ : Type} (f : β → Option γ) : ∀ (l : List β) (m : List γ), l.mapM f = some m ↔ l.map f = m.map some
  | [], m => by cases m <;> simp
  | a :: l, [] => by
    simp only [List.mapM_cons, Option.bind_eq_bind, List.map_cons, List.map_nil, reduceCtorEq, iff_false]
    intro h
    obtain ⟨b, _, h⟩ := Option.bind_eq_some_iff.1 h
    obtain ⟨c, _, h⟩ := Option.bind_eq_some_iff.1 h
    cases h
  | a :: l, b :: m => by
    simp only [List.mapM_cons, Option.bind_eq_bind, List.map_cons, List.cons.injEq, ← mapM_iff f l m]
    constructor
    · intro h
      obtain ⟨c, hc, h⟩ := Option.bind_eq_some_iff.1 h
      obtain ⟨d, hd, h⟩ := Option.bind_eq_some_iff.1 h
      cases h
      exact ⟨hc, hd⟩
    · rintro ⟨h1, h2⟩; rw [h1, h2]; rfl

theorem numbers_iff {K : Type} (fl : Floats K) (text : Text) (cols : List K) : Numbers Spec.blank fl text cols ↔ text.split.mapM fl = some cols := by
  rw [mapM_iff, ← isSpace_eq]
  constructor
  · rintro ⟨ws, hw, h⟩; rw [(columns_iff _ _).1 hw]; exact h
  · intro h; exact ⟨_, (columns_iff _ _).2 rfl, h⟩

variable [PySpecial ℝ]

theorem foot_real : (foot : ℝ) = 0.3048 := by simp [foot]; norm_num
theorem inch_real : (inch : ℝ) = 0.0254 := by simp [inch, foot]; norm_num
theorem foot2_real : (foot2 : ℝ) = 0.3048 ^ 2 := by
  rw [foot2, foot_real]
  simp only [real_pow, real_lit]
  norm_num

/-- The model's record of a state. -/
def toSummary (s : SummaryState) : Summary ℝ := ⟨s.x, s.ue, s.due, s.theta, s.h, s.hs, s.g, s.cf, s.cfLt, s.cfExp, s.beta⟩
@[inherit_doc toSummary]
def toDetail (d : DetailState) : Detail ℝ := ⟨d.x, d.us, d.ue, d.nu, d.theta, d.dels, d.enth, d.clth, d.h, d.g, d.hs, d.rtheta, d.rdels⟩
@[inherit_doc toSummary]
def toSample (p : SampleState) : Sample ℝ := ⟨p.yplus, p.uplus, p.y, p.ratio, p.yc, p.udef⟩

theorem summary_row {fl : Floats ℝ} {si : Bool} {a : Text} {s : SummaryState} (h : Numbers Spec.blank fl a (s.columns si)) :
    ∃ r, Summary.ofRow fl a = some r ∧ r.toSI si = toSummary s := by
  rw [numbers_iff] at h
  cases si
  · refine ⟨_, by rw [Summary.ofRow, h]; rfl, ?_⟩
    simp only [Summary.toSI, toSummary, foot_real, inch_real, Bool.false_eq_true, if_false, Summary.mk.injEq]
    refine ⟨?_, ?_, trivial, ?_, trivial, trivial, trivial, trivial, trivial, trivial, trivial⟩ <;> field_simp
  · refine ⟨_, by rw [Summary.ofRow, h]; rfl, ?_⟩
    simp only [Summary.toSI, toSummary, if_true, Summary.mk.injEq, real_lit]
    refine ⟨trivial, trivial, trivial, ?_, trivial, trivial, trivial, trivial, trivial, trivial, trivial⟩; push_cast; ring

theorem detail_row {fl : Floats ℝ} {si : Bool} {a : Text} {d : DetailState} (h : Numbers Spec.blank fl a (d.columns si)) :
    ∃ r, Detail.ofRow fl a = some r ∧ r.toSI si = toDetail d := by
  rw [numbers_iff] at h
  cases si
  · refine ⟨_, by rw [Detail.ofRow, h]; rfl, ?_⟩
    simp only [Detail.toSI, toDetail, foot_real, inch_real, foot2_real, Bool.false_eq_true, if_false, Detail.mk.injEq]
    refine ⟨?_, ?_, ?_, ?_, ?_, ?_, ?_, ?_, trivial, trivial, trivial, trivial, trivial⟩ <;> field_simp
  · refine ⟨_, by rw [Detail.ofRow, h]; rfl, ?_⟩
    simp only [Detail.toSI, toDetail, if_true, Detail.mk.injEq, real_lit]
    refine ⟨trivial, trivial, trivial, ?_, ?_, ?_, ?_, ?_, trivial, trivial, trivial, trivial, trivial⟩ <;> push_cast <;> ring

theorem sample_row {fl : Floats ℝ} {si : Bool} {a : Text} {p : SampleState} (h : Numbers Spec.blank fl a (p.columns si)) :
    ∃ r, Sample.ofRow fl a = some r ∧ r.toSI si = toSample p := by
  rw [numbers_iff] at h
  cases si
  · refine ⟨_, by rw [Sample.ofRow, h]; rfl, ?_⟩
    simp only [Sample.toSI, toSample, inch_real, Bool.false_eq_true, if_false, Sample.mk.injEq]
    refine ⟨trivial, trivial, ?_, trivial, trivial, trivial⟩; field_simp
  · refine ⟨_, by rw [Sample.ofRow, h]; rfl, ?_⟩
    simp only [Sample.toSI, toSample, if_true, Sample.mk.injEq, real_lit]
    refine ⟨trivial, trivial, ?_, trivial, trivial, trivial⟩; push_cast; ring

theorem sample_rows {fl : Floats ℝ} {si : Bool} {rows : List Text} {ps : List SampleState}
    (h : List.Forall₂ (fun t (p : SampleState) => Numbers Spec.blank fl t (p.columns si)) rows ps) :
    ∃ rs, rows.mapM (Sample.ofRow fl) = some rs ∧ rs.map (Sample.toSI si) = ps.map toSample := by
  induction h with
  | nil => exact ⟨[], by simp⟩
  | cons hd _ ih =>
    obtain ⟨r, hr, hr'⟩ := sample_row hd
    obtain ⟨rs, hrs, hrs'⟩ := ih
    exact ⟨r :: rs, by simp [List.mapM_cons, hr, hrs], by simp [hr', hrs']⟩

/-- The rows of a station as texts: `a` is the summary row, `b` the row of the station summaries (empty if there is none), `rows` the profile. -/
structure Rows (fl : Floats ℝ) (si : Bool) (a b : Text) (rows : List Text) (s : SummaryState) (d : Option DetailState) (ps : List SampleState) : Prop where
  summary : Numbers Spec.blank fl a (s.columns si)
  detail : match d with | none => b = [] | some d => Numbers Spec.blank fl b (d.columns si)
  samples : List.Forall₂ (fun t (p : SampleState) => Numbers Spec.blank fl t (p.columns si)) rows ps

omit [PySpecial ℝ] in
theorem numbers_ne {fl : Floats ℝ} {b : Text} {cols : List ℝ} (h : Numbers Spec.blank fl b cols) (hc : cols ≠ []) : b ≠ [] := by
  rintro rfl
  rw [numbers_iff] at h
  simp [Text.split, splitAux] at h
  exact hc h

omit [PySpecial ℝ] in
theorem detail_columns_ne (d : DetailState) (si : Bool) : d.columns si ≠ [] := by cases si <;> simp [DetailState.columns]

/-- What the constructor gives, in terms of the states. -/
theorem mk_states {fl : Floats ℝ} {si : Bool} {a b : Text} {rows : List Text} {s : SummaryState} {d : Option DetailState} {ps : List SampleState}
    (h : Rows fl si a b rows s d ps) (mem : Mem ℝ) (p : Station ℝ) :
    Station.mk' fl mem si a b rows = .ok p ↔ ∃ q, (toSummary s).Good ∧
      (match d with
        | none => q = (toSummary s).read
        | some d => (toSummary s).read.Agrees (toDetail d) ∧ (toDetail d).Good ∧ q = (toSummary s).read.detailed (toDetail d)) ∧
      (∀ e ∈ ps, q.Fits (toSample e)) ∧ p = q.profiled (ps.map toSample) := by
  rw [mk_ok_iff]
  obtain ⟨r, hr, hr'⟩ := summary_row h.summary
  obtain ⟨es, hes, hes'⟩ := sample_rows h.samples
  have hfit : ∀ q : Station ℝ, (∀ e ∈ es, q.Fits (e.toSI si)) ↔ ∀ e ∈ ps, q.Fits (toSample e) := by
    intro q
    have e1 : (∀ e ∈ es, q.Fits (e.toSI si)) ↔ ∀ x ∈ es.map (Sample.toSI si), q.Fits x := by simp
    rw [e1, hes']; simp
  have hdet := h.detail
  constructor
  · rintro ⟨s1, es1, q, hs1, hg, hb, hes1, hf, rfl⟩
    rw [hr] at hs1; cases hs1
    rw [hes] at hes1; cases hes1
    rw [hr'] at hg hb
    refine ⟨q, hg, ?_, (hfit q).1 hf, by rw [hes']⟩
    cases d with
    | none =>
      simp only at hdet ⊢
      rcases hb with ⟨_, hq⟩ | ⟨hb, _⟩
      · exact hq
      · exact absurd hdet hb
    | some d =>
      simp only at hdet ⊢
      obtain ⟨r2, hr2, hr2'⟩ := detail_row hdet
      rcases hb with ⟨hb, _⟩ | ⟨_, d1, hd1, hag, hgd, hq⟩
      · exact absurd hb (numbers_ne hdet (detail_columns_ne _ _))
      · rw [hr2] at hd1; cases hd1
        rw [hr2'] at hag hgd hq
        exact ⟨hag, hgd, hq⟩
  · rintro ⟨q, hg, hm, hf, rfl⟩
    refine ⟨r, es, q, hr, by rw [hr']; exact hg, ?_, hes, (hfit q).2 hf, by rw [hes']⟩
    rw [hr']
    cases d with
    | none => exact .inl ⟨hdet, hm⟩
    | some d =>
      simp only at hdet hm
      obtain ⟨r2, hr2, hr2'⟩ := detail_row hdet
      exact .inr ⟨numbers_ne hdet (detail_columns_ne _ _), r2, hr2, by rw [hr2']; exact hm.1, by rw [hr2']; exact hm.2.1, by rw [hr2']; exact hm.2.2⟩

/-- **C50**. The same physical state written in the two unit systems gives the same station, or is rejected in both. -/
theorem units_agree {fl : Floats ℝ} {a b a' b' : Text} {rows rows' : List Text} {s : SummaryState} {d : Option DetailState} {ps : List SampleState}
    (h : Rows fl true a b rows s d ps) (h' : Rows fl false a' b' rows' s d ps) (mem mem' : Mem ℝ) (p : Station ℝ) :
    Station.mk' fl mem true a b rows = .ok p ↔ Station.mk' fl mem' false a' b' rows' = .ok p := by
  rw [mk_states h, mk_states h']

/-- **C50**. The station has the SI values of its rows: those of the station summary where there is one. -/
theorem units_read {fl : Floats ℝ} {si : Bool} {a b : Text} {rows : List Text} {s : SummaryState} {d : DetailState} {ps : List SampleState}
    (h : Rows fl si a b rows s (some d) ps) (mem : Mem ℝ) (p : Station ℝ) (hp : Station.mk' fl mem si a b rows = .ok p) :
    p.x = d.x ∧ p.uStar = d.us ∧ p.ue = d.ue ∧ p.nu = d.nu ∧ p.deltaM = d.theta ∧ p.deltaD = d.dels ∧ p.deltaK = d.enth ∧ p.deltaC = d.clth ∧
    p.shapeD = d.h ∧ p.shapeEq = d.g ∧ p.shapeK = d.hs ∧ p.reM = d.rtheta ∧ p.reD = d.rdels ∧
    p.due = s.due ∧ p.cf = s.cf ∧ p.cfLt = s.cfLt ∧ p.cfExp = s.cfExp ∧ p.beta = s.beta ∧
    p.yPlus = ps.map (·.yplus) ∧ p.uPlus = ps.map (·.uplus) ∧ p.y = ps.map (·.y) ∧ p.u = ps.map (fun q => d.ue * q.ratio) ∧
    p.yC = ps.map (·.yc) ∧ p.uDef = ps.map (·.udef) ∧ p.sampleCount = rows.length := by
  obtain ⟨q, _, hq, _, rfl⟩ := (mk_states h mem p).1 hp
  simp only at hq
  obtain ⟨_, _, rfl⟩ := hq
  have hlen := h.samples.length_eq
  have hr : ∀ t : Station ℝ, t.refreshed.due = t.due ∧ t.refreshed.cf = t.cf ∧ t.refreshed.cfLt = t.cfLt ∧ t.refreshed.cfExp = t.cfExp ∧
      t.refreshed.beta = t.beta := by
    intro t; rw [Station.refreshed]; split_ifs <;> simp
  obtain ⟨h1, h2, h3, h4, h5⟩ := hr (toSummary s).station
  simp [Station.profiled, Station.detailed, Summary.read, toDetail, toSample, h1, h2, h3, h4, h5, Station.sampleCount, hlen]
  simp [Summary.station, toSummary]

/-- **C50**. A station read from a summary row alone has the SI values of that row. -/
theorem units_read_summary {fl : Floats ℝ} {si : Bool} {a b : Text} {rows : List Text} {s : SummaryState} {ps : List SampleState}
    (h : Rows fl si a b rows s none ps) (mem : Mem ℝ) (p : Station ℝ) (hp : Station.mk' fl mem si a b rows = .ok p) :
    p.x = s.x ∧ p.ue = s.ue ∧ p.due = s.due ∧ p.deltaM = s.theta ∧ p.shapeD = s.h ∧ p.shapeK = s.hs ∧ p.shapeEq = s.g ∧ p.cf = s.cf ∧
    p.cfLt = s.cfLt ∧ p.cfExp = s.cfExp ∧ p.beta = s.beta := by
  obtain ⟨q, _, rfl, _, rfl⟩ := (mk_states h mem p).1 hp
  have hr : ∀ t : Station ℝ, t.refreshed.x = t.x ∧ t.refreshed.ue = t.ue ∧ t.refreshed.due = t.due ∧ t.refreshed.deltaM = t.deltaM ∧
      t.refreshed.shapeD = t.shapeD ∧ t.refreshed.shapeK = t.shapeK ∧ t.refreshed.shapeEq = t.shapeEq ∧ t.refreshed.cf = t.cf ∧
      t.refreshed.cfLt = t.cfLt ∧ t.refreshed.cfExp = t.cfExp ∧ t.refreshed.beta = t.beta := by
    intro t; rw [Station.refreshed]; split_ifs <;> simp
  simpa [Station.profiled, Summary.read, Summary.station, toSummary] using hr (toSummary s).station

theorem le_false (a b : ℝ) : PyCmp.le a b = false ↔ b < a := by
  rw [Bool.eq_false_iff, ne_eq, real_le, not_le]

theorem differs_false (a b c : ℝ) : differs a b c = false ↔ |a - b| < c := by
  rw [differs, Bool.eq_false_iff, ne_eq, real_ge, not_le, real_abs]

theorem exceeds_false (a b c : ℝ) : exceeds a b c = false ↔ |a - b| ≤ c := by
  rw [exceeds, Bool.eq_false_iff, ne_eq, real_gt, not_lt, real_abs]

theorem summary_good (s : SummaryState) : (toSummary s).Good ↔ s.Positive := by
  have hh : ((1 / 2 : ℚ) : ℝ) = 1 / 2 := by norm_num
  constructor
  · rintro ⟨h1, h2, h3, h4, h5, h6, h7, h8⟩
    simp only [le_false, toSummary, real_lit, Rat.cast_zero, real_sqrt, hh] at h1 h2 h3 h4 h5 h6 h7 h8
    refine ⟨h1, h2, h3, h4, h5, ?_⟩
    have := (mul_pos_iff_of_pos_left h1).1 h8
    rw [Real.sqrt_pos] at this
    linarith
  · rintro ⟨h1, h2, h3, h4, h5, h6⟩
    constructor <;> simp only [le_false, toSummary, real_lit, Rat.cast_zero, real_sqrt, hh]
    · exact h1
    · exact h2
    · exact h3
    · exact h4
    · exact h5
    · exact mul_pos h3 h2
    · exact mul_pos h4 h2
    · exact mul_pos h1 (Real.sqrt_pos.2 (by linarith))

theorem detail_good (d : DetailState) : (toDetail d).Good ↔ d.Positive := by
  constructor
  · rintro ⟨h1, h2, h3, h4, h5, h6, h7, h8, h9, h10, h11, h12⟩
    simp only [le_false, toDetail, real_lit, Rat.cast_zero] at *
    exact ⟨h1, h2, h3, h4, h5, h6, h7, h8, h9, h10, h11, h12⟩
  · rintro ⟨h1, h2, h3, h4, h5, h6, h7, h8, h9, h10, h11, h12⟩
    constructor <;> simpa only [le_false, toDetail, real_lit, Rat.cast_zero]

theorem agrees_iff (s : SummaryState) (d : DetailState) (hd : 0 < d.nu) : (toSummary s).read.Agrees (toDetail d) ↔ SameStation s d := by
  have hr : ∀ t : Station ℝ, t.refreshed.x = t.x ∧ t.refreshed.ue = t.ue ∧ t.refreshed.deltaM = t.deltaM ∧
      t.refreshed.shapeD = t.shapeD ∧ t.refreshed.shapeK = t.shapeK ∧ t.refreshed.shapeEq = t.shapeEq ∧ t.refreshed.cf = t.cf := by
    intro t; rw [Station.refreshed]; split_ifs <;> simp
  have he : (toSummary s).read.x = s.x ∧ (toSummary s).read.ue = s.ue ∧ (toSummary s).read.deltaM = s.theta ∧ (toSummary s).read.shapeD = s.h ∧
      (toSummary s).read.shapeK = s.hs ∧ (toSummary s).read.shapeEq = s.g ∧ (toSummary s).read.cf = s.cf := hr (toSummary s).station
  obtain ⟨e1, e2, e3, e4, e5, e6, e7⟩ := he
  have hv : PyCmp.eq d.nu (lit 0 : ℝ) = false := by
    rw [Bool.eq_false_iff]; simpa using hd.ne'
  have t1 : ((2 / 1000 : ℚ) : ℝ) = 0.002 := by norm_num
  have t2 : ((6 / 100 : ℚ) : ℝ) = 0.06 := by norm_num
  have t3 : ((5 / 1000 : ℚ) : ℝ) = 0.005 := by norm_num
  have t4 : ((5 : ℚ) : ℝ) = 5 := by norm_num
  have t5 : ((1 / 2 : ℚ) : ℝ) * s.cf = s.cf / 2 := by push_cast; ring
  constructor
  · rintro ⟨h1, h2, h3, h4, h5, h6, h7, h8, h9, h10, h11, h12⟩
    simp only [e1, e2, e3, e4, e5, e6, e7, differs_false, toDetail, real_lit, real_sqrt, t1, t2, t3, t4, t5] at *
    exact ⟨h1, h2, h3, h4, h5, h6, h7, h8, h10, h11, h12⟩
  · rintro ⟨h1, h2, h3, h4, h5, h6, h7, h8, h10, h11, h12⟩
    constructor
    case v => exact hv
    all_goals
      simp only [e1, e2, e3, e4, e5, e6, e7, differs_false, toDetail, real_lit, real_sqrt, t1, t2, t3, t4, t5]
      assumption

theorem fits_iff (s : SummaryState) (d : DetailState) (e : SampleState) :
    ((toSummary s).read.detailed (toDetail d)).Fits (toSample e) ↔ SampleOf d e := by
  have t1 : ((1 / 2 : ℚ) : ℝ) = 0.5 := by norm_num
  have t2 : ((1 : ℚ) : ℝ) = 1 := by norm_num
  constructor
  · rintro ⟨h1, h2, h3, h4⟩
    simp only [exceeds_false, Station.detailed, toDetail, toSample, real_lit, t1, t2] at *
    exact ⟨h1, h2, h3, h4⟩
  · rintro ⟨h1, h2, h3, h4⟩
    constructor <;> simpa only [exceeds_false, Station.detailed, toDetail, toSample, real_lit, t1, t2]

/-- **C51, C59**. A station with both summaries is accepted exactly if the values that must be positive are, the two summaries agree within the
tolerances and every sample agrees with the station within the tolerances. -/
theorem accepted_iff {fl : Floats ℝ} {si : Bool} {a b : Text} {rows : List Text} {s : SummaryState} {d : DetailState} {ps : List SampleState}
    (h : Rows fl si a b rows s (some d) ps) (mem : Mem ℝ) :
    (∃ p, Station.mk' fl mem si a b rows = .ok p) ↔ s.Positive ∧ d.Positive ∧ SameStation s d ∧ ∀ p ∈ ps, SampleOf d p := by
  constructor
  · rintro ⟨p, hp⟩
    obtain ⟨q, hg, ⟨hag, hgd, rfl⟩, hf, -⟩ := (mk_states h mem p).1 hp
    have hdp := (detail_good d).1 hgd
    exact ⟨(summary_good s).1 hg, hdp, (agrees_iff s d hdp.nu).1 hag, fun e he => (fits_iff s d e).1 (hf e he)⟩
  · rintro ⟨hs, hd, hsd, hf⟩
    exact ⟨_, (mk_states h mem _).2 ⟨_, (summary_good s).2 hs, ⟨(agrees_iff s d hd.nu).2 hsd, (detail_good d).2 hd, rfl⟩,
      fun e he => (fits_iff s d e).2 (hf e he), rfl⟩⟩

/-- **C51**. If a station with two summaries is accepted, the one read from the summary row alone exists, and every quantity that both have differs by
less than the tolerance. -/
theorem summaries_consistent {fl : Floats ℝ} {si : Bool} {a b : Text} {rows : List Text} {s : SummaryState} {d : DetailState} {ps : List SampleState}
    (h : Rows fl si a b rows s (some d) ps) (mem : Mem ℝ) (p : Station ℝ) (hp : Station.mk' fl mem si a b rows = .ok p) :
    ∃ p0, Station.mk' fl mem si a [] [] = .ok p0 ∧ |p.x - p0.x| < 0.002 ∧ |p.ue - p0.ue| < 0.06 ∧ |p.deltaM - p0.deltaM| < 0.002 ∧
      |p.shapeD - p0.shapeD| < 0.002 ∧ |p.shapeK - p0.shapeK| < 0.002 ∧ |p.shapeEq - p0.shapeEq| < 0.002 ∧
      |p.deltaD - p0.shapeD * p0.deltaM| < 0.005 ∧ |p.deltaK - p0.shapeK * p0.deltaM| < 0.005 ∧ |p.reD - p0.ue * p.deltaD / p.nu| < 5 ∧
      |p.reM - p0.ue * p.deltaM / p.nu| < 5 ∧ |p.uStar - p0.ue * Real.sqrt (p0.cf / 2)| < 0.005 := by
  obtain ⟨hs, hd, hsd, _⟩ := (accepted_iff h mem).1 ⟨p, hp⟩
  have h0 : Rows fl si a [] [] s none [] := ⟨h.summary, rfl, .nil⟩
  have hp0 := (mk_states h0 mem _).2 ⟨_, (summary_good s).2 hs, rfl, by simp, rfl⟩
  refine ⟨_, hp0, ?_⟩
  obtain ⟨e1, e2, e3, e4, e5, e6, e7, e8, e9, e10, e11, e12, e13, -⟩ := units_read h mem p hp
  obtain ⟨f1, f2, -, f4, f5, f6, f7, f8, -⟩ := units_read_summary h0 mem _ hp0
  rw [e1, e2, e3, e4, e5, e6, e7, e9, e10, e11, e12, e13, f1, f2, f4, f5, f6, f7, f8]
  exact ⟨hsd.x, hsd.ue, hsd.theta, hsd.h, hsd.hs, hsd.g, hsd.dels, hsd.enth, hsd.rdels, hsd.rtheta, hsd.us⟩

/-- **C52**. After reading a summary row alone the derived values satisfy their definitions. (`x` is a finite number; `inf` in that column makes them
infinite.) -/
theorem derived_values (fl : Floats ℝ) (si : Bool) (a : Text) (rows : List Text) (mem : Mem ℝ) (p : Station ℝ)
    (hp : Station.mk' fl mem si a [] rows = .ok p) (hx : p.x ≠ PySpecial.inf) (hc : 0 ≤ p.cf) :
    p.deltaD = p.shapeD * p.deltaM ∧ p.deltaK = p.shapeK * p.deltaM ∧ p.uStar ^ 2 = p.ue ^ 2 * p.cf / 2 ∧ 0 < p.uStar := by
  obtain ⟨s, es, q, hs, hg, hb, -, -, rfl⟩ := (mk_ok_iff _ _ _ _ _ _ _).1 hp
  obtain ⟨-, rfl⟩ | ⟨hb, -⟩ := hb
  swap
  · exact absurd rfl hb
  have e : (((s.toSI si).read).profiled (es.map (Sample.toSI si))).x = (s.toSI si).x := by
    simp only [Station.profiled, Summary.read, Station.refreshed]; split_ifs <;> rfl
  rw [e] at hx
  have hx' : ¬ PyCmp.eq (s.toSI si).station.x PySpecial.inf = true := by rw [real_eq]; exact hx
  have hu := hg.us
  rw [le_false] at hu
  have hcf : (((s.toSI si).read).profiled (es.map (Sample.toSI si))).cf = (s.toSI si).cf := by
    simp only [Station.profiled, Summary.read, Station.refreshed]; split_ifs <;> rfl
  rw [hcf] at hc
  simp only [Station.profiled, Summary.read, Station.refreshed, if_neg hx']
  simp only [Summary.station] at hu ⊢
  refine ⟨trivial, trivial, ?_, by simpa using hu⟩
  simp only [real_sqrt, real_lit]
  rw [mul_pow, Real.sq_sqrt (by push_cast; linarith)]
  push_cast; ring

end IBL.Stanford
