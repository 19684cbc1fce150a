import Verif.Props.StanfordObject
import Verif.Props.StanfordCaseExamples
import Verif.Props.TableFlow
import Verif.Props.HeadGlobal

/-! C104: from a case of the Stanford collection to Head's method, as in examples/turbulent/head_case1100_comparison.py 22-37. -/

set_option linter.unusedSectionVars false

namespace IBL.Stanford
open Spec PPoly
section real
variable [PySpecial ℝ]

/-- Location and edge velocity of the stations. -/
noncomputable def points (c : Case ℝ) : List (ℝ × ℝ) := c.stations.map fun s => (s.x, s.ue)

/-- The argument `U_e=[case.x(), case.u_e()]`. -/
noncomputable def edgeTable (c : Case ℝ) : Arg ℝ := .pair (vector (c.column .x)) (vector (c.column .ue))

private theorem edgeTable_eq (c : Case ℝ) : edgeTable c = tableArg (points c) := by
  simp [edgeTable, tableArg, points, Case.column, Station.get, Function.comp_def]

private theorem points_table (c : Case ℝ) : Table (points c) ↔ 2 ≤ c.stationCount ∧ (c.column .x).IsChain (· < ·) := by
  constructor
  · rintro ⟨h1, h2⟩
    refine ⟨by simpa [points, Case.stationCount] using h1, ?_⟩
    rw [Case.column, List.isChain_map]
    rw [points, List.isChain_map] at h2
    exact h2
  · rintro ⟨h1, h2⟩
    refine ⟨by simpa [points, Case.stationCount] using h1, ?_⟩
    rw [points, List.isChain_map]
    rw [Case.column, List.isChain_map] at h2
    exact h2

/-- The object on which `__init__` calls `set_velocity`. -/
private noncomputable def started (nu : ℝ) : Obj ℝ := ⟨.head, nu, VelState.empty, .stag 0 nu, [], none, none⟩

private theorem mkHead_table (ext : Ext ℝ) {nu : ℝ} (hnu : 0 < nu) (pts : List (ℝ × ℝ)) (crit : ℝ) :
    Obj.mkHead ext nu (tableArg pts) .none .none crit =
      match (started nu).setVelocity ext (tableArg pts) .none .none with
      | (_, .error e) => .error e
      | (o, .ok ()) => .ok { o with ic := .manual 0 (1/100000) PySpecial.inf PySpecial.inf 0, events := [.sepHead crit] } := by
  have h : PyCmp.le nu (lit 0) = false := by rw [Bool.eq_false_iff]; simpa using hnu
  have h0 : (lit 0 : ℝ) = 0 := by simp
  have h1 : (lit (1/100000) : ℝ) = 1/100000 := by simp
  simp only [Obj.mkHead, Obj.mkBase, IC.mkStag, h, tableArg, started, IC.mkManual, Bool.false_eq_true, if_false]
  simp only [h0, h1]
  rcases Obj.setVelocity ext ⟨.head, nu, VelState.empty, .stag 0 nu, [], none, none⟩ (.pair (vector (pts.map Prod.fst)) (vector (pts.map Prod.snd))) .none .none with ⟨o, e | u⟩
  · rfl
  · rfl

/-- **C104**: the stations of a case are accepted as flow of a Head object exactly if the viscosity is positive, there are at least two of them and
their locations increase; everything else is a ValueError. -/
theorem head_accepts_case (ext : Ext ℝ) (other : Pchip ℝ) (hext : ext.pchip = Pchip.interpolator other) (c : Case ℝ) (crit : ℝ) :
    ((∃ o, Obj.mkHead ext c.nuRef (edgeTable c) .none .none crit = .ok o) ↔
      0 < c.nuRef ∧ 2 ≤ c.stationCount ∧ (c.column .x).IsChain (· < ·)) ∧
    (¬ (0 < c.nuRef ∧ 2 ≤ c.stationCount ∧ (c.column .x).IsChain (· < ·)) →
      Obj.mkHead ext c.nuRef (edgeTable c) .none .none crit = .error .valueError) := by
  rw [edgeTable_eq, ← points_table]
  by_cases hnu : 0 < c.nuRef
  · rw [mkHead_table ext hnu]
    obtain ⟨h1, h2⟩ := table_velocity_accepted_iff ext other hext (started c.nuRef) (points c) .none .none
    rcases e : (started c.nuRef).setVelocity ext (tableArg (points c)) .none .none with ⟨o, e' | u⟩
    · rw [e] at h1 h2
      have hT : ¬ Table (points c) := fun h => by simpa using h1.2 h
      have := (Prod.mk.inj (h2 hT)).2
      simp only [Except.error.injEq] at this
      exact ⟨⟨fun ⟨_, h⟩ => by simp at h, fun h => absurd h.2 hT⟩, fun _ => by rw [this]⟩
    · rw [e] at h1 h2
      have hT : Table (points c) := h1.1 rfl
      exact ⟨⟨fun _ => ⟨hnu, hT⟩, fun _ => ⟨_, rfl⟩⟩, fun h => absurd ⟨hnu, hT⟩ h⟩
  · have : Obj.mkHead ext c.nuRef (tableArg (points c)) .none .none crit = .error .valueError := by
      have h : PyCmp.le c.nuRef (lit 0) = true := by simpa using hnu
      simp only [Obj.mkHead, Obj.mkBase, IC.mkStag, h, if_true]
    rw [this]
    exact ⟨⟨fun ⟨_, h⟩ => (by simp at h), fun h => absurd h.1 hnu⟩, fun _ => rfl⟩

/-- **C104**: the program of the example. A case is selected; if the Head object is created from its stations, the thickness and the shape
factor of the first station are accepted; the edge velocity is that of the stations at their locations and positive between them; the
integration starts from the values of the first station; and the equation has a solution from there to the last station or to the place where the
shape factor reaches a given level, such as the critical one. -/
theorem head_of_case (hinf : PyCmp.le (PySpecial.inf : ℝ) (lit 0) = false) (files : CaseFiles) (fl : Floats ℝ) (mem : Mem ℝ) (c0 c : Case ℝ)
    (name : Text) (hn : name ≠ []) (hsel : c0.select files fl mem name = (c, .ok ())) (ext : Ext ℝ) (other : Pchip ℝ)
    (hext : ext.pchip = Pchip.interpolator other) (crit : ℝ) (o : Obj ℝ)
    (hmk : Obj.mkHead ext c.nuRef (edgeTable c) .none .none crit = .ok o) :
    ∃ first last o1 o2, c.station 0 = .ok first ∧ c.station (-1) = .ok last ∧ first.x < last.x ∧ 0 < first.deltaM ∧ 0 < first.shapeD ∧
      o.setInitialDeltaM first.deltaM = (o1, .ok ()) ∧ o1.setInitialShapeD first.shapeD = (o2, .ok ()) ∧
      (∀ s ∈ c.stations, 0 < s.ue ∧ o2.vel.uE s.x = .ok s.ue) ∧
      (∀ x, first.x ≤ x → x ≤ last.x → ∃ v, o2.vel.uE x = .ok v ∧ 0 < v) ∧
      (∃ p, (o2.prepare first.x last.x .none).2 = .ok p ∧ p.x0 = first.x ∧ p.y0 = [first.deltaM, first.shapeD] ∧ p.events = [.sepHead crit]) ∧
      ∃ u du : ℝ → ℝ, (∀ x, o2.vel.uE x = .ok (u x) ∧ o2.vel.duE x = .ok (du x)) ∧
        ∀ H, first.shapeD < H → ∃ x1, first.x < x1 ∧ x1 ≤ last.x ∧ ∃ dm h : ℝ → ℝ, dm first.x = first.deltaM ∧ h first.x = first.shapeD ∧
          HeadSolutionOn { o2 with sol := some fun t => [dm t, h t] } u du dm h first.x x1 ∧ (∀ x ∈ Set.Icc first.x x1, 0 < dm x) ∧
          (∀ x ∈ Set.Ico first.x x1, h x < H) ∧ (x1 = last.x ∨ h x1 = H) := by
  obtain ⟨hnu, hlen, hchain⟩ := (head_accepts_case ext other hext c crit).1.1 ⟨o, hmk⟩
  have T : Table (points c) := (points_table c).2 ⟨hlen, hchain⟩
  have hb : ∀ s ∈ c.stations, Bounded s := by
    obtain ⟨data, nu, b2, sm, l, ss, -, -, -, -, -, -, hss, rfl⟩ := (select_ok_iff files fl mem c0 c name hn).1 hsel
    intro s hs
    obtain ⟨t, -, ht⟩ := stations_mk l ss hss s hs
    exact bounded_mk hinf fl mem _ _ _ _ _ ht
  have pos : ∀ {v : ℝ}, PyCmp.le v (lit 0) = false → 0 < v := fun {v} h => by
    rw [Bool.eq_false_iff] at h
    simpa using h
  obtain ⟨ob, u, du, d2u, e, hob, hq, M⟩ := table_velocity ext other hext (started c.nuRef) (points c) T .none .none
  rw [edgeTable_eq, mkHead_table ext hnu, e] at hmk
  obtain rfl := Except.ok.inj hmk
  clear hmk
  obtain ⟨first, rest, hst⟩ : ∃ first rest, c.stations = first :: rest := by
    rcases h : c.stations with _ | ⟨a, l⟩
    · simp [Case.stationCount, h] at hlen
    · exact ⟨a, l, rfl⟩
  have hne : c.stations ≠ [] := by rw [hst]; simp
  set last := c.stations.getLast hne with hlast
  have hfirst : firstX (points c) = first.x := by simp [firstX, points, hst]
  have hlastX : lastX (points c) = last.x := by
    rw [lastX, points, List.map_map, List.getLastD_eq_getLast?, List.getLast?_map, List.getLast?_eq_getLast_of_ne_nil hne]
    rfl
  have hfb := hb first (by rw [hst]; simp)
  have hm : 0 < first.deltaM := pos hfb.deltaM
  have hs : 0 < first.shapeD := pos hfb.shapeD
  have hfl : first.x < last.x := by
    haveI : Trans (fun p q : ℝ × ℝ => p.1 < q.1) (fun p q : ℝ × ℝ => p.1 < q.1) (fun p q : ℝ × ℝ => p.1 < q.1) := ⟨fun h k => lt_trans h k⟩
    have hp := List.isChain_iff_pairwise.1 T.ascending
    rw [points, hst, List.map_cons, List.pairwise_cons] at hp
    have hr : rest ≠ [] := by
      rintro rfl
      rw [Case.stationCount, hst] at hlen
      simp at hlen
    have : last = rest.getLast hr := by
      rw [hlast]
      simp only [hst]
      exact List.getLast_cons hr
    exact hp.1 (last.x, last.ue) (List.mem_map.2 ⟨last, by rw [this]; exact List.getLast_mem hr, rfl⟩)
  have hcls : ob.cls = .head := by rw [hob]; rfl
  have hnu' : ob.nu = c.nuRef := by rw [hob]; rfl
  have le0 : ∀ {v : ℝ}, 0 < v → PyCmp.le v (lit 0) = false := fun {v} h => by rw [Bool.eq_false_iff]; simpa using h
  have hmne : first.deltaM ≠ 0 := hm.ne'
  refine ⟨first, last, { ob with ic := .manual 0 (1/100000) PySpecial.inf first.deltaM 0, events := [.sepHead crit] }, { ob with ic := .manual 0 (1/100000) (first.shapeD * first.deltaM) first.deltaM 0, events := [.sepHead crit] }, ?_, ?_, hfl, hm, hs,
    ?_, ?_, fun s hs' => ⟨pos (hb s hs').ue, ?_⟩, fun x h1 h2 => ⟨u x, (hq x).1, ?_⟩, ?_, u, du, fun x => ⟨(hq x).1, (hq x).2.1⟩, ?_⟩
  · rw [Case.station, hst]
    simp [pyIndex, item]
  · have hl : c.stations.length = rest.length + 1 := by rw [hst]; rfl
    have hi : pyIndex c.stations.length (-1) = .ok rest.length := by
      rw [pyIndex, if_neg (by omega), if_pos (by omega)]
      congr 1
      omega
    have hg : c.stations[rest.length]? = some last := by
      rw [hlast, List.getLast_eq_getElem, List.getElem?_eq_getElem (by omega)]
      simp only [hl, Nat.add_sub_cancel]
    simp only [Case.station, hi, item, hg]
  · simp only [Obj.setInitialDeltaM, le0 hm, Bool.false_eq_true, if_false, IC.assignDelM]
  · simp only [Obj.setInitialShapeD, le0 hs, Bool.false_eq_true, if_false, IC.deltaM, IC.assignDelD]
  · rw [(hq s.x).1]
    exact congrArg _ (M.through (s.x, s.ue) (List.mem_map.2 ⟨s, hs', rfl⟩))
  · obtain ⟨p, q, hpq, hx⟩ := table_segment T (x := x) ⟨by rw [hfirst]; exact h1, by rw [hlastX]; exact h2⟩
    have key : ∀ k ∈ points c, 0 < k.2 := fun k hk => by
      obtain ⟨s, hs', rfl⟩ := List.mem_map.1 hk
      exact pos (hb s hs').ue
    exact (lt_min (key p (hpq.subset (by simp))) (key q (hpq.subset (by simp)))).trans_le (M.between p q hpq x hx).1
  · have hnle : PyCmp.le ob.nu (lit 0) = false := by rw [hnu']; exact le0 hnu
    have hz : PyCmp.eq first.deltaM (lit 0) = false := by rw [Bool.eq_false_iff]; simpa using hmne
    simp only [Obj.prepare, IC.setNu, hnle, Bool.false_eq_true, if_false, (hq first.x).2.1, IC.setDu, Obj.startVector, hcls, IC.deltaM, IC.shapeD, pyDiv, hz,
      bind, Except.bind, pure, Except.pure]
    refine ⟨_, rfl, rfl, ?_, ?_⟩
    · simp [hmne]
    · simp [TermArg.toList]
  · intro H hH
    obtain ⟨x1, hx1, dm, h, e1, e2, S, hp, hb, hend⟩ := head_until_separation { ob with ic := .manual 0 (1/100000) (first.shapeD * first.deltaM) first.deltaM 0, events := [.sepHead crit] }
      u du first.x last.x first.deltaM first.shapeD H hcls (by show 0 < ob.nu; rw [hnu']; exact hnu) (fun t => (hq t).1) (fun t => (hq t).2.1)
      (fun x _ => M.slope x) M.slopeCont.continuousOn hfl hm hH
    exact ⟨x1, hx1.1, hx1.2, dm, h, e1, e2, S, hp, hb, hend⟩

/-! ### The first two stations of case 1100 -/

/-- The second row of the summary of case 1100 (line 8). -/
def summary1100b : Text := "1.282  32.60  -3.350  0.413  1.394  1.760   8.014  0.00249  0.00246  0.00249  0.475".toList

noncomputable def summaryStateB : SummaryState := ⟨1.282, 32.6, -3.35, 0.00413, 1.394, 1.760, 8.014, 0.00249, 0.00246, 0.00249, 0.475⟩

/-- Summary and smoothed velocity only. -/
def pairText : Text :=
  "# Ludwieg\nIDENT = 1100\nV = 0.155000\n\n# Summary data\n# X\n".toList ++ summary1100 ++ ['\n'] ++ summary1100b ++ ['\n'] ++
    "# Edge velocity plot\n# X    UI      DUI\n".toList ++ smooth1100 ++ ['\n']

theorem pair_data : getCaseData (filesWith pairText) "1100".toList =
    .ok [["IDENT = 1100".toList, "V = 0.155000".toList], [summary1100, summary1100b], [smooth1100]] := by
  rw [getCaseData, filesWith, if_pos rfl]
  simp only [Except.ok.injEq]
  decide +kernel

theorem rows1100a : Rows decimal true summary1100 [] [] summaryState none [] := ⟨rows1100.summary, rfl, .nil⟩

theorem rows1100b : Rows decimal true summary1100b [] [] summaryStateB none [] where
  summary := by
    have := decimal_numbers (text := summary1100b) (ps := [(1282, 3), (3260, 2), (-3350, 3), (413, 3), (1394, 3), (1760, 3), (8014, 3), (249, 5),
      (246, 5), (249, 5), (475, 3)]) (by decide)
    convert this using 1
    simp only [SummaryState.columns, summaryStateB, List.map_cons, List.map_nil, List.cons.injEq]
    norm_num
  detail := rfl
  samples := .nil

/-- A case of `head_of_case`: for a file with the first two stations of case 1100 the case is selected, and the Head object is created. -/
theorem pair_selected (mem : Mem ℝ) (o : Case ℝ) :
    ∃ c, o.select (filesWith pairText) decimal mem "1100".toList = (c, .ok ()) ∧ c.nuRef = 0.0000155 ∧ points c = [(0.782, 33.9), (1.282, 32.6)] := by
  have good1 : ∃ p, Station.mk' decimal mem true summary1100 [] [] = .ok p :=
    ⟨_, (mk_states rows1100a mem _).2 ⟨_, (summary_good _).2 (by constructor <;> norm_num [summaryState]), rfl, by simp, rfl⟩⟩
  have good2 : ∃ p, Station.mk' decimal mem true summary1100b [] [] = .ok p :=
    ⟨_, (mk_states rows1100b mem _).2 ⟨_, (summary_good _).2 (by constructor <;> norm_num [summaryStateB]), rfl, by simp, rfl⟩⟩
  obtain ⟨p, hp⟩ := good1
  obtain ⟨q, hq⟩ := good2
  obtain ⟨p1, p2, -⟩ := units_read_summary rows1100a mem p hp
  obtain ⟨q1, q2, -⟩ := units_read_summary rows1100b mem q hq
  have hid : identify [["IDENT = 1100".toList, "V = 0.155000".toList], [summary1100, summary1100b], [smooth1100]] "1100".toList = .ok () := by rfl
  have hsi : siUnit "1100".toList = true := by decide
  refine ⟨⟨"1100".toList, 155000 / 10 ^ 6 * ((1 / 10000 : ℚ) : ℝ), some ⟨[0.75], [33.98], [-2.25]⟩, [p, q]⟩,
    (select_ok_iff _ _ _ _ _ _ (by decide)).2 ⟨_, _, _, _, _, _, pair_data, hid, by rw [hsi]; exact visc1100 _, rfl, by rw [hsi]; exact smooth_ok mem,
      rfl, by rw [hsi]; exact .cons hp (.cons hq .nil), rfl⟩, ?_, ?_⟩
  · norm_num
  · simp only [points, List.map_cons, List.map_nil, p1, p2, q1, q2, summaryState, summaryStateB]

example (mem : Mem ℝ) (ext : Ext ℝ) (other : Pchip ℝ) (hext : ext.pchip = Pchip.interpolator other) :
    ∃ c o, Case.empty.select (filesWith pairText) decimal mem "1100".toList = (c, .ok ()) ∧
      Obj.mkHead ext c.nuRef (edgeTable c) .none .none 2.4 = .ok o := by
  obtain ⟨c, hc, hnu, hp⟩ := pair_selected mem Case.empty
  have hT : Table (points c) := by
    rw [hp]
    exact ⟨by simp, by simp; norm_num⟩
  obtain ⟨o, ho⟩ := (head_accepts_case ext other hext c 2.4).1.2 ⟨by rw [hnu]; norm_num, (points_table c).1 hT⟩
  exact ⟨c, o, hc, ho⟩

end real
end IBL.Stanford
