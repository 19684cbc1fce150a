import Verif.Props.StanfordFloat
import Verif.Props.StanfordCaseExamples

/-! C151: the cases of the Stanford collection in rounded arithmetic. -/

set_option linter.unusedSectionVars false

namespace IBL.Stanford
open Spec

variable {R : Rounding}

/-- Converting the texts of a row: each column is rounded. -/
theorem rounded_mapM (num : Floats ℝ) : ∀ l : List Text, l.mapM (rounded R num) = (l.mapM num).map (List.map R.round)
  | [] => rfl
  | a :: l => by
    rw [List.mapM_cons, List.mapM_cons, rounded_mapM num l, rounded]
    cases num a with
    | none => rfl
    | some v => cases l.mapM num <;> rfl

/-- Position or velocity as it is read from a smoothed row, from its SI value. -/
noncomputable def smoothValue (R : Rounding) (si : Bool) (x : ℝ) : R.F := if si then R.round x else R.round (x / 0.3048) * foot

theorem smoothValue_near (si : Bool) (x : ℝ) : Near R 7 (smoothValue R si x) x := by
  cases si
  · exact (near_conv near_foot (by norm_num) (by norm_num) x).mono (by norm_num)
  · exact (near_round x).mono (by norm_num)

theorem smoothValue_mono (si : Bool) {x y : ℝ} (h : x ≤ y) : (smoothValue R si x).val ≤ (smoothValue R si y).val := by
  cases si
  · have hf : 0 ≤ (foot : R.F).val := Rounding.rd_nonneg (by norm_num)
    exact R.mono (mul_le_mul_of_nonneg_right (R.mono (div_le_div_of_nonneg_right h (by norm_num))) hf)
  · exact R.mono h

theorem rounded_smoothRow (num : Floats ℝ) (si : Bool) (row : Text) : smoothRow (rounded R num) si row =
    (smoothRow num si row).map fun e => (smoothValue R si e.1, smoothValue R si e.2.1, R.round e.2.2) := by
  rw [smoothRow, smoothRow, rounded_mapM]
  rcases row.split.mapM num with _ | l
  · rfl
  · match l with
    | [] => rfl
    | [_] => rfl
    | [_, _] => rfl
    | [x, u, d] =>
      cases si
      · have e : ∀ v : ℝ, v * 0.3048 / 0.3048 = v := fun v => by field_simp
        have hf : (foot : ℝ) = 0.3048 := by simp [foot]; norm_num
        have hx := e x
        have hu := e u
        rw [← hf] at hx hu
        simp [smoothValue, ← hf, hx, hu]
      · simp [smoothValue]
    | _ :: _ :: _ :: _ :: _ => rfl

theorem rounded_smoothRows (num : Floats ℝ) (si : Bool) : ∀ rows : List Text, rows.mapM (smoothRow (rounded R num) si) =
    (rows.mapM (smoothRow num si)).map (List.map fun e => (smoothValue R si e.1, smoothValue R si e.2.1, R.round e.2.2))
  | [] => rfl
  | a :: l => by
    rw [List.mapM_cons, List.mapM_cons, rounded_smoothRows num si l, rounded_smoothRow]
    cases smoothRow num si a with
    | none => rfl
    | some v => cases l.mapM (smoothRow num si) <;> rfl

variable [PyPow R.F] [PySpecial R.F] [PySpecial ℝ]

/-- The smoothed velocities of a case. -/
theorem rounded_smooth (num : Floats ℝ) (mem : Mem ℝ) (mem' : Mem R.F) (si : Bool) (rows : List Text) :
    (∀ q, Smooth.mk' num mem si rows = .ok q → Smooth.mk' (rounded R num) mem' si rows =
      .ok ⟨q.x.map (smoothValue R si), q.ue.map (smoothValue R si), q.due.map R.round⟩) ∧
    ((∃ q, Smooth.mk' (rounded R num) mem' si rows = .ok q) → ∃ q, Smooth.mk' num mem si rows = .ok q) := by
  constructor
  · intro q hq
    obtain ⟨es, he, rfl⟩ := (smooth_ok_iff _ _ _ _ _).1 hq
    rw [smooth_ok_iff, rounded_smoothRows, he]
    exact ⟨_, rfl, by simp [List.map_map, Function.comp_def]⟩
  · rintro ⟨q, hq⟩
    obtain ⟨es, he, rfl⟩ := (smooth_ok_iff _ _ _ _ _).1 hq
    rw [rounded_smoothRows, Option.map_eq_some_iff] at he
    obtain ⟨es', he, -⟩ := he
    exact ⟨_, (smooth_ok_iff _ _ _ _ _).2 ⟨es', he, rfl⟩⟩

/-- The viscosity of a case. -/
theorem rounded_viscosity (hsq : Squares R) (num : Floats ℝ) (data : List (List Text)) (si : Bool) :
    (∀ v, viscosity num data si = .ok v → ∃ w : R.F, viscosity (rounded R num) data si = .ok w ∧ Near R 7 w v) ∧
    ((∃ w, viscosity (rounded R num) data si = .ok w) → ∃ v, viscosity num data si = .ok v) := by
  rw [viscosity, viscosity]
  rcases item data 0 with e | b0
  · exact ⟨fun v h => (by cases h), fun ⟨w, h⟩ => (by cases h)⟩
  simp only
  rcases item b0 1 with e | l1
  · exact ⟨fun v h => (by cases h), fun ⟨w, h⟩ => (by cases h)⟩
  simp only
  rcases item (parts l1) 0 with e | key
  · exact ⟨fun v h => (by cases h), fun ⟨w, h⟩ => (by cases h)⟩
  simp only
  by_cases hk : key ≠ "V".toList ∧ key ≠ "v".toList
  · rw [if_pos hk, if_pos hk]
    exact ⟨fun v h => (by cases h), fun ⟨w, h⟩ => (by cases h)⟩
  rw [if_neg hk, if_neg hk]
  rcases item (parts l1) 1 with e | val
  · exact ⟨fun v h => (by cases h), fun ⟨w, h⟩ => (by cases h)⟩
  simp only [rounded]
  rcases num val with _ | x
  · exact ⟨fun v h => (by cases h), fun ⟨w, h⟩ => (by cases h)⟩
  simp only [Option.map_some]
  refine ⟨fun v h => ⟨_, rfl, ?_⟩, fun _ => ⟨_, rfl⟩⟩
  cases si
  · simp only [Bool.false_eq_true, if_false, Except.ok.injEq] at h ⊢
    rw [← h, foot2_real]
    exact (near_round x).mul (near_foot2 hsq) zero_le_one (by norm_num) (by norm_num)
  · simp only [if_true, Except.ok.injEq, real_lit] at h ⊢
    rw [← h]
    have := (near_round (R := R) x).mul near_tenthousandth zero_le_one zero_le_one (m := 7) (by norm_num)
    simpa using this

/-- The state that a summary row is the text of. -/
theorem summary_state {num : Floats ℝ} {a : Text} {r : Summary ℝ} (h : Summary.ofRow num a = some r) (si : Bool) :
    ∃ s : SummaryState, Numbers Spec.blank num a (s.columns si) := by
  rw [Summary.ofRow] at h
  split at h
  · rename_i x ui dui theta hh hs g cf cflt cfe beta he
    cases si
    · refine ⟨⟨x * 0.3048, ui * 0.3048, dui, theta * 0.0254, hh, hs, g, cf, cflt, cfe, beta⟩, ?_⟩
      rw [numbers_iff, he]
      simp [SummaryState.columns]
      refine ⟨?_, ?_, ?_⟩ <;> field_simp
    · refine ⟨⟨x, ui, dui, theta / 100, hh, hs, g, cf, cflt, cfe, beta⟩, ?_⟩
      rw [numbers_iff, he]
      simp [SummaryState.columns]
      ring
  · cases h

theorem detail_state {num : Floats ℝ} {a : Text} {r : Detail ℝ} (h : Detail.ofRow num a = some r) (si : Bool) :
    ∃ d : DetailState, Numbers Spec.blank num a (d.columns si) := by
  rw [Detail.ofRow] at h
  split at h
  · rename_i x us ui v theta dels enth clth hh g hs rtheta rdels he
    cases si
    · refine ⟨⟨x * 0.3048, us * 0.3048, ui * 0.3048, v * 0.3048 ^ 2, theta * 0.0254, dels * 0.0254, enth * 0.0254, clth * 0.0254, hh, g, hs, rtheta, rdels⟩, ?_⟩
      rw [numbers_iff, he]
      simp only [DetailState.columns, Option.some.injEq, List.cons.injEq, and_true]
      refine ⟨?_, ?_, ?_, ?_, ?_, ?_, ?_, ?_⟩ <;> field_simp
    · refine ⟨⟨x, us, ui, v / 10000, theta / 100, dels / 100, enth / 100, clth / 100, hh, g, hs, rtheta, rdels⟩, ?_⟩
      rw [numbers_iff, he]
      simp only [DetailState.columns, Option.some.injEq, List.cons.injEq, and_true, true_and]
      refine ⟨?_, ?_, ?_, ?_, ?_⟩ <;> ring
  · cases h

theorem sample_states {num : Floats ℝ} (si : Bool) : ∀ {rows : List Text} {rs : List (Sample ℝ)}, rows.mapM (Sample.ofRow num) = some rs →
    ∃ ps : List SampleState, List.Forall₂ (fun t (p : SampleState) => Numbers Spec.blank num t (p.columns si)) rows ps
  | [], _, _ => ⟨[], .nil⟩
  | a :: l, rs, h => by
    rw [List.mapM_cons] at h
    simp only [Option.bind_eq_bind, Option.bind_eq_some_iff] at h
    obtain ⟨r, hr, rs', hrs, -⟩ := h
    obtain ⟨ps, hps⟩ := sample_states si hrs
    rw [Sample.ofRow] at hr
    split at hr
    · rename_i a1 a2 a3 a4 a5 a6 he
      cases si
      · refine ⟨⟨a1, a2, a3 * 0.0254, a4, a5, a6⟩ :: ps, .cons ?_ hps⟩
        rw [numbers_iff, he]
        simp [SampleState.columns]
        field_simp
      · refine ⟨⟨a1, a2, a3 / 100, a4, a5, a6⟩ :: ps, .cons ?_ hps⟩
        rw [numbers_iff, he]
        simp [SampleState.columns]
        ring
    · cases hr

/-- A station that was created has rows that are the texts of states. -/
theorem station_rows {num : Floats ℝ} {mem : Mem ℝ} {si : Bool} {a b : Text} {rows : List Text} {p : Station ℝ}
    (h : Station.mk' num mem si a b rows = .ok p) : ∃ s d ps, Rows num si a b rows s d ps ∧ (d = none ↔ b = []) := by
  obtain ⟨v, es, q, hs, -, hb, hes, -, -⟩ := (mk_ok_iff _ _ _ _ _ _ _).1 h
  obtain ⟨s, hs⟩ := summary_state hs si
  obtain ⟨ps, hps⟩ := sample_states si hes
  obtain ⟨hb, -⟩ | ⟨hb, d, hd, -⟩ := hb
  · exact ⟨s, none, ps, ⟨hs, hb, hps⟩, iff_of_true rfl hb⟩
  · obtain ⟨d, hd⟩ := detail_state hd si
    exact ⟨s, some d, ps, ⟨hs, hd, hps⟩, iff_of_false (by simp) hb⟩

/-- A station of floats and the one with exact numbers. -/
structure StationNear (p : Station R.F) (q : Station ℝ) : Prop where
  x : Near R 7 p.x q.x
  ue : Near R 7 p.ue q.ue
  deltaM : Near R 7 p.deltaM q.deltaM
  due : p.due = R.round q.due
  shapeD : p.shapeD = R.round q.shapeD
  shapeK : p.shapeK = R.round q.shapeK
  shapeEq : p.shapeEq = R.round q.shapeEq
  cf : p.cf = R.round q.cf
  cfLt : p.cfLt = R.round q.cfLt
  cfExp : p.cfExp = R.round q.cfExp
  beta : p.beta = R.round q.beta

theorem rounded_station_near (hsq : Squares R) {num : Floats ℝ} {mem : Mem ℝ} {mem' : Mem R.F} {si : Bool} {a b : Text} {rows : List Text}
    {p : Station R.F} {q : Station ℝ} (hq : Station.mk' num mem si a b rows = .ok q) (hp : Station.mk' (rounded R num) mem' si a b rows = .ok p) :
    StationNear p q := by
  obtain ⟨s, d, ps, hr, hd⟩ := station_rows hq
  cases d with
  | none =>
    obtain rfl := hd.1 rfl
    obtain ⟨e1, e2, e3, e4, e5, e6, e7, e8, e9, e10, e11⟩ := units_read_summary hr mem q hq
    obtain ⟨⟨f1, f2, f3⟩, ⟨f4, f5, f6, f7, f8, f9, f10, f11⟩, -⟩ := rounded_summary_read hr mem' p hp
    constructor <;> simp only [e1, e2, e3, e4, e5, e6, e7, e8, e9, e10, e11] <;> assumption
  | some d =>
    obtain ⟨e1, -, e2, -, e3, -, -, -, e4, e5, e6, -, -, e7, e8, e9, e10, e11, -⟩ := units_read hr mem q hq
    obtain ⟨⟨f1, f2, -, -, f3, -⟩, ⟨f4, f5, f6, -, -, f7, f8, f9, f10, f11⟩, -⟩ := rounded_station_read hsq hr mem' p hp
    constructor <;> simp only [e1, e2, e3, e4, e5, e6, e7, e8, e9, e10, e11] <;> assumption

theorem forall₂_both {β γ δ : Type} {P : β → γ → Prop} {Q : β → δ → Prop} {S : γ → δ → Prop} (hPQ : ∀ t c d, P t c → Q t d → S c d) :
    ∀ {l : List β} {cs : List γ} {ds : List δ}, List.Forall₂ P l cs → List.Forall₂ Q l ds → List.Forall₂ S cs ds
  | [], _, _, .nil, .nil => .nil
  | _ :: _, _, _, .cons h1 h2, .cons h3 h4 => .cons (hPQ _ _ _ h1 h3) (forall₂_both hPQ h2 h4)

/-- **C151**. A case selected in rounded arithmetic and the same case with exact numbers, whatever was selected before: the viscosity, the positions
and velocities of the smoothed table and the dimensional attributes of the stations are the exact ones up to seven units of rounding, the other
attributes and the tabulated derivative are the nearest floats, and table and stations have the same length. -/
theorem rounded_case_read (hsq : Squares R) (files : CaseFiles) (num : Floats ℝ) (mem : Mem ℝ) (mem' : Mem R.F) (name : Text) (hne : name ≠ [])
    (o e : Case ℝ) (o' f : Case R.F) (he : o.select files num mem name = (e, .ok ())) (hf : o'.select files (rounded R num) mem' name = (f, .ok ())) :
    f.case = e.case ∧ Near R 7 f.nuRef e.nuRef ∧ List.Forall₂ (Near R 7) f.xSmooth e.xSmooth ∧ List.Forall₂ (Near R 7) f.ueSmooth e.ueSmooth ∧
      f.dueSmooth = e.dueSmooth.map R.round ∧ List.Forall₂ StationNear f.stations e.stations := by
  obtain ⟨data, nu, b2, sm, l, ss, h1, -, h3, h4, h5, h6, h7, rfl⟩ := (select_ok_iff _ _ _ _ _ _ hne).1 he
  obtain ⟨data', nu', b2', sm', l', ss', k1, -, k3, k4, k5, k6, k7, rfl⟩ := (select_ok_iff _ _ _ _ _ _ hne).1 hf
  rw [h1] at k1; cases k1
  rw [h4] at k4; cases k4
  rw [h6] at k6; cases k6
  obtain ⟨w, hw, hn⟩ := (rounded_viscosity hsq num data (siUnit name)).1 nu h3
  rw [hw] at k3; cases k3
  rw [(rounded_smooth num mem mem' (siUnit name) b2).1 sm h5] at k5
  obtain rfl := Except.ok.inj k5
  have hl : ∀ xs : List ℝ, List.Forall₂ (Near R 7) (xs.map (smoothValue R (siUnit name))) xs := by
    intro xs
    induction xs with
    | nil => exact .nil
    | cons x xs ih => exact .cons (smoothValue_near _ x) ih
  have hst : ∀ (t : Text × Text × List Text) (c : Station R.F) (d : Station ℝ), Station.mk' (rounded R num) mem' (siUnit name) t.1 t.2.1 t.2.2 = .ok c →
      Station.mk' num mem (siUnit name) t.1 t.2.1 t.2.2 = .ok d → StationNear c d := fun t c d hc hd => rounded_station_near hsq hd hc
  exact ⟨rfl, hn, hl _, hl _, rfl, forall₂_both hst k7 h7⟩

/-- **C151**. Rounding keeps the order of the smoothed table: where the positions do not decrease in the file they do not decrease as floats. -/
theorem rounded_smooth_ordered (files : CaseFiles) (num : Floats ℝ) (mem : Mem ℝ) (mem' : Mem R.F) (name : Text) (hne : name ≠ [])
    (o e : Case ℝ) (o' f : Case R.F) (he : o.select files num mem name = (e, .ok ())) (hf : o'.select files (rounded R num) mem' name = (f, .ok ()))
    (hx : e.xSmooth.Pairwise (· ≤ ·)) : f.xSmooth.Pairwise fun v w => PyCmp.le v w = true := by
  obtain ⟨data, nu, b2, sm, l, ss, h1, -, -, h4, h5, -, -, rfl⟩ := (select_ok_iff _ _ _ _ _ _ hne).1 he
  obtain ⟨data', nu', b2', sm', l', ss', k1, -, -, k4, k5, -, -, rfl⟩ := (select_ok_iff _ _ _ _ _ _ hne).1 hf
  rw [h1] at k1; cases k1
  rw [h4] at k4; cases k4
  rw [(rounded_smooth num mem mem' (siUnit name) b2).1 sm h5] at k5
  obtain rfl := Except.ok.inj k5
  simp only [Case.xSmooth] at hx ⊢
  rw [List.pairwise_map]
  refine hx.imp fun h => ?_
  rw [Rounding.F_le]
  exact smoothValue_mono _ h

/-- A station from a summary row alone is created in rounded arithmetic exactly if it is with exact numbers. -/
theorem rounded_summary_same (num : Floats ℝ) (mem : Mem ℝ) (mem' : Mem R.F) (si : Bool) (a : Text) :
    (∃ p, Station.mk' (rounded R num) mem' si a [] [] = .ok p) ↔ ∃ q, Station.mk' num mem si a [] [] = .ok q := by
  by_cases hr : ∃ r, Summary.ofRow num a = some r
  · obtain ⟨r, hr⟩ := hr
    obtain ⟨s, hs⟩ := summary_state hr si
    rw [rounded_summary_accepted hs]
    have hrows : Rows num si a [] [] s none [] := ⟨hs, rfl, .nil⟩
    rw [← summary_good]
    constructor
    · intro h
      exact ⟨_, (mk_states hrows mem _).2 ⟨_, h, rfl, by simp, rfl⟩⟩
    · rintro ⟨q, hq⟩
      obtain ⟨_, h, -⟩ := (mk_states hrows mem _).1 hq
      exact h
  · refine iff_of_false ?_ ?_
    · rintro ⟨p, hp⟩
      obtain ⟨v, es, q, hs, -⟩ := (mk_ok_iff _ _ _ _ _ _ _).1 hp
      rw [Summary.ofRow, rounded_mapM] at hs
      apply hr
      rw [Summary.ofRow]
      split at hs
      · rename_i hm
        obtain ⟨l, hl, hl2⟩ := Option.map_eq_some_iff.1 hm
        simp only [List.map_eq_cons_iff, List.map_eq_nil_iff] at hl2
        obtain ⟨a1, l1, rfl, -, a2, l2, rfl, -, a3, l3, rfl, -, a4, l4, rfl, -, a5, l5, rfl, -, a6, l6, rfl, -, a7, l7, rfl, -, a8, l8, rfl, -, a9,
          l9, rfl, -, a10, l10, rfl, -, a11, l11, rfl, -, rfl⟩ := hl2
        rw [hl]
        exact ⟨_, rfl⟩
      · cases hs
    · rintro ⟨q, hq⟩
      obtain ⟨v, -, -, hs, -⟩ := (mk_ok_iff _ _ _ _ _ _ _).1 hq
      exact hr ⟨v, hs⟩

/-- **C151**. Rounding does not change which cases without station sections can be selected: the selection succeeds in rounded arithmetic exactly if it does with
exact numbers. -/
theorem rounded_case_accepted (hsq : Squares R) (files : CaseFiles) (num : Floats ℝ) (mem : Mem ℝ) (mem' : Mem R.F) (name : Text) (hne : name ≠ [])
    (hd : ∀ data, getCaseData files name = .ok data → data.length < 4) (o : Case ℝ) (o' : Case R.F) :
    (∃ f, o'.select files (rounded R num) mem' name = (f, .ok ())) ↔ ∃ e, o.select files num mem name = (e, .ok ()) := by
  have ht : ∀ {data l}, getCaseData files name = .ok data → stationTexts data = .ok l → ∃ rows, l = List.map (fun r => (r, [], [])) rows := by
    intro data l h hl
    rw [stationTexts] at hl
    split at hl
    · cases hl
    · rename_i b1 _
      rw [if_pos (hd data h)] at hl
      exact ⟨b1, (Except.ok.inj hl).symm⟩
  constructor
  · rintro ⟨f, hf⟩
    obtain ⟨data, nu, b2, sm, l, ss, h1, h2, h3, h4, h5, h6, h7, rfl⟩ := (select_ok_iff _ _ _ _ _ _ hne).1 hf
    obtain ⟨rows, rfl⟩ := ht h1 h6
    obtain ⟨nu', h3⟩ := (rounded_viscosity hsq num data (siUnit name)).2 ⟨_, h3⟩
    obtain ⟨sm', h5⟩ := (rounded_smooth num mem mem' (siUnit name) b2).2 ⟨_, h5⟩
    obtain ⟨ss', h7⟩ : ∃ ss', List.Forall₂ (fun (t : Text × Text × List Text) s => Station.mk' num mem (siUnit name) t.1 t.2.1 t.2.2 = .ok s)
        (rows.map fun r => (r, [], [])) ss' := by
      clear h6 hf
      induction rows generalizing ss with
      | nil => exact ⟨[], .nil⟩
      | cons r rows ih =>
        cases h7 with
        | cons a1 a2 =>
          obtain ⟨ss', hs⟩ := ih _ a2
          obtain ⟨q, hq⟩ := (rounded_summary_same num mem mem' (siUnit name) r).1 ⟨_, a1⟩
          exact ⟨q :: ss', .cons hq hs⟩
    exact ⟨_, (select_ok_iff _ _ _ _ _ _ hne).2 ⟨data, nu', b2, sm', _, ss', h1, h2, h3, h4, h5, h6, h7, rfl⟩⟩
  · rintro ⟨e, he⟩
    obtain ⟨data, nu, b2, sm, l, ss, h1, h2, h3, h4, h5, h6, h7, rfl⟩ := (select_ok_iff _ _ _ _ _ _ hne).1 he
    obtain ⟨rows, rfl⟩ := ht h1 h6
    obtain ⟨nu', h3, -⟩ := (rounded_viscosity hsq num data (siUnit name)).1 nu h3
    have h5 := (rounded_smooth num mem mem' (siUnit name) b2).1 sm h5
    obtain ⟨ss', h7⟩ : ∃ ss', List.Forall₂ (fun (t : Text × Text × List Text) s => Station.mk' (rounded R num) mem' (siUnit name) t.1 t.2.1 t.2.2 = .ok s)
        (rows.map fun r => (r, [], [])) ss' := by
      clear h6 he
      induction rows generalizing ss with
      | nil => exact ⟨[], .nil⟩
      | cons r rows ih =>
        cases h7 with
        | cons a1 a2 =>
          obtain ⟨ss', hs⟩ := ih _ a2
          obtain ⟨q, hq⟩ := (rounded_summary_same num mem mem' (siUnit name) r).2 ⟨_, a1⟩
          exact ⟨q :: ss', .cons hq hs⟩
    exact ⟨_, (select_ok_iff _ _ _ _ _ _ hne).2 ⟨data, nu', b2, _, _, ss', h1, h2, h3, h4, h5, h6, h7, rfl⟩⟩

/-- A file with the summary and a smoothed velocity of case 1100 only. -/
def shortText : Text := "# Ludwieg\nIDENT = 1100\nV = 0.155000\n\n# Summary data\n# X\n".toList ++ summary1100 ++
  "\n# Edge velocity plot\n# X    UI      DUI\n".toList ++ smooth1100 ++ "\n".toList

theorem short_data : getCaseData (filesWith shortText) "1100".toList =
    .ok [["IDENT = 1100".toList, "V = 0.155000".toList], [summary1100], [smooth1100]] := by
  rw [getCaseData, filesWith, if_pos rfl]
  simp only [Except.ok.injEq]
  decide +kernel

/-- Non-vacuity of C151: that file is selected with exact numbers and in every rounding. -/
theorem rounded_case_case (hsq : Squares R) (mem : Mem ℝ) (mem' : Mem R.F) (o : Case ℝ) (o' : Case R.F) :
    ∃ e f, o.select (filesWith shortText) decimal mem "1100".toList = (e, .ok ()) ∧
      o'.select (filesWith shortText) (rounded R decimal) mem' "1100".toList = (f, .ok ()) ∧ e.xSmooth = [0.75] ∧ e.stationCount = 1 := by
  have hid : identify [["IDENT = 1100".toList, "V = 0.155000".toList], [summary1100], [smooth1100]] "1100".toList = .ok () := by rfl
  have hsi : siUnit "1100".toList = true := by decide
  obtain ⟨p, hp⟩ := station1100 mem
  obtain ⟨v, es, q, hs, hg, -⟩ := (mk_ok_iff _ _ _ _ _ _ _).1 hp
  have hq := (mk_ok_iff decimal mem true summary1100 [] [] _).2 ⟨v, [], _, hs, hg, .inl ⟨rfl, rfl⟩, rfl, by simp, rfl⟩
  have he := (select_ok_iff (filesWith shortText) decimal mem o ⟨"1100".toList, 155000 / 10 ^ 6 * ((1 / 10000 : ℚ) : ℝ), some ⟨[0.75], [33.98], [-2.25]⟩, [_]⟩
    "1100".toList (by decide)).2 ⟨_, _, _, _, _, _, short_data, hid, by rw [hsi]; exact visc1100 _, rfl, by rw [hsi]; exact smooth_ok mem,
      rfl, by rw [hsi]; exact .cons hq .nil, rfl⟩
  obtain ⟨f, hf⟩ := (rounded_case_accepted (R := R) hsq (filesWith shortText) decimal mem mem' "1100".toList (by decide) (fun data h => by
    rw [short_data] at h; cases h; decide) o o').2 ⟨_, he⟩
  exact ⟨_, f, he, hf, rfl, rfl⟩

end IBL.Stanford
