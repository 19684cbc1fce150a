import Verif.Props.StanfordCase

/-! Case files for which the claims about the case object fail, and instances of the theorems that hold. -/

set_option linter.unusedSectionVars false

namespace IBL.Stanford
open Spec

/-- A file with the name, the viscosity and one smoothed velocity of case 1100, and the given summary rows, smoothed velocities, station summaries and
profile. -/
def fileText (summ smooth stat rows : List Text) : Text :=
  "# Ludwieg\nIDENT = 1100\nV = 0.155000\n\n# Summary data\n# X\n".toList ++ (summ.map (· ++ ['\n'])).flatten ++
  "# Edge velocity plot\n# X    UI      DUI\n".toList ++ (smooth.map (· ++ ['\n'])).flatten ++ "# Stations summary\n# X\n".toList ++
  (stat.map (· ++ ['\n'])).flatten ++ "# Station\n# Y+\n".toList ++ (rows.map (· ++ ['\n'])).flatten

/-- Only case 1100 has a file. -/
def filesWith (text : Text) : CaseFiles := fun name => if name = "1100".toList then some (.ok text) else none

def smooth1100 : Text := "0.75  33.98  -2.25".toList

/-- Two rows in the summary, one station. -/
def lossText : Text := fileText [summary1100, summary1100] [smooth1100] [detail1100] profile1100

theorem loss_data : getCaseData (filesWith lossText) "1100".toList =
    .ok [["IDENT = 1100".toList, "V = 0.155000".toList], [summary1100, summary1100], [smooth1100], [detail1100], profile1100] := by
  rw [getCaseData, filesWith, if_pos rfl]
  simp only [Except.ok.injEq]
  decide +kernel

theorem visc1100 [PySpecial ℝ] (bs : List (List Text)) :
    viscosity decimal (["IDENT = 1100".toList, "V = 0.155000".toList] :: bs) true = .ok (155000 / 10 ^ 6 * ((1 / 10000 : ℚ) : ℝ)) := by
  have h1 : parts "V = 0.155000".toList = ["V".toList, "0.155000".toList] := by decide
  have h2 : decimal "0.155000".toList = some (155000 / 10 ^ 6) := by
    have : numeral "0.155000".toList = some (155000, 6) := by decide
    rw [decimal, this]; norm_num
  simp only [viscosity, item, List.getElem?_cons_zero, List.getElem?_cons_succ, h1, h2]
  simp

theorem smooth_ok (mem : Mem ℝ) [PySpecial ℝ] : Smooth.mk' decimal mem true [smooth1100] = .ok ⟨[0.75], [33.98], [-2.25]⟩ := by
  have := smooth_units decimal mem true [smooth1100] [(0.75, 33.98, -2.25)] (.cons (by
    have := decimal_numbers (text := smooth1100) (ps := [(75, 2), (3398, 2), (-225, 2)]) (by decide)
    convert this using 1
    simp only [smoothColumns, List.map_cons, List.map_nil, List.cons.injEq]
    norm_num) .nil)
  simpa using this

theorem loss_selected [PySpecial ℝ] (mem : Mem ℝ) (o : Case ℝ) :
    ∃ o', o.select (filesWith lossText) decimal mem "1100".toList = (o', .ok ()) ∧ o'.stationCount = 1 := by
  obtain ⟨p, hp⟩ := station1100 mem
  have hid : identify [["IDENT = 1100".toList, "V = 0.155000".toList], [summary1100, summary1100], [smooth1100], [detail1100], profile1100]
      "1100".toList = .ok () := by rfl
  have hsi : siUnit "1100".toList = true := by decide
  exact ⟨⟨"1100".toList, 155000 / 10 ^ 6 * ((1 / 10000 : ℚ) : ℝ), some ⟨[0.75], [33.98], [-2.25]⟩, [p]⟩,
    (select_ok_iff _ _ _ _ _ _ (by decide)).2 ⟨_, _, _, _, _, _, loss_data, hid, by rw [hsi]; exact visc1100 _, rfl, by rw [hsi]; exact smooth_ok mem,
      rfl, by rw [hsi]; exact .cons hp .nil, rfl⟩, rfl⟩

/-- **C48** fails: a file with two rows in the summary and one row of station summaries is read without error as one station. -/
theorem rows_lost [PySpecial ℝ] (mem : Mem ℝ) :
    ∃ data o', getCaseData (filesWith lossText) "1100".toList = .ok data ∧ data[1]? = some [summary1100, summary1100] ∧
      Case.mk' (filesWith lossText) decimal mem (some "1100".toList) = .ok o' ∧ o'.stationCount = 1 := by
  obtain ⟨o', ho, hc⟩ := loss_selected mem Case.empty
  exact ⟨_, o', loss_data, rfl, by rw [Case.mk', ho], hc⟩

/-- **C49** fails (instance of `failed_selection_keeps_name`): after selecting case 1100, selecting a case without file raises IndexError and the object
still says 1100, without stations. -/
theorem failed_selection_example [PySpecial ℝ] (mem : Mem ℝ) :
    ∃ o1 o2, Case.empty.select (filesWith lossText) decimal mem "1100".toList = (o1, .ok ()) ∧ o1.stationCount = 1 ∧
      o1.select (filesWith lossText) decimal mem "9999".toList = (o2, .error .indexError) ∧ o2.case = "1100".toList ∧ o2.stationCount = 0 := by
  obtain ⟨o1, h1, hc⟩ := loss_selected mem Case.empty
  have hcase := (selected _ _ _ _ _ _ h1).1
  exact ⟨o1, _, h1, hc, failed_selection_keeps_name _ _ _ _ _ (by decide) (by decide), hcase, rfl⟩

/-- A second smoothed velocity is not complete. -/
def halfText : Text := fileText [summary1100] [smooth1100, "1.00  33.38".toList] [detail1100] profile1100

theorem half_data : getCaseData (filesWith halfText) "1100".toList =
    .ok [["IDENT = 1100".toList, "V = 0.155000".toList], [summary1100], [smooth1100, "1.00  33.38".toList], [detail1100], profile1100] := by
  rw [getCaseData, filesWith, if_pos rfl]
  simp only [Except.ok.injEq]
  decide +kernel

/-- **C49** fails: a file with an incomplete row raises, and the object has the new name and viscosity but no velocities and no stations. -/
theorem failed_selection_half_loaded [PySpecial ℝ] (mem : Mem ℝ) (o : Case ℝ) :
    o.select (filesWith halfText) decimal mem "1100".toList =
      (⟨"1100".toList, 155000 / 10 ^ 6 * ((1 / 10000 : ℚ) : ℝ), none, []⟩, .error .valueError) := by
  have hid : identify [["IDENT = 1100".toList, "V = 0.155000".toList], [summary1100], [smooth1100, "1.00  33.38".toList], [detail1100], profile1100]
      "1100".toList = .ok () := by rfl
  have hsi : siUnit "1100".toList = true := by decide
  have hsm : Smooth.mk' decimal mem true [smooth1100, "1.00  33.38".toList] = .error .valueError := by
    rcases h : Smooth.mk' decimal mem true [smooth1100, "1.00  33.38".toList] with e | q
    · rw [smooth_error _ _ _ _ _ h]
    · obtain ⟨es, hes, _⟩ := (smooth_ok_iff _ _ _ _ _).1 h
      have : smoothRow decimal true "1.00  33.38".toList = none := by
        have := decimal_numbers (text := "1.00  33.38".toList) (ps := [(100, 2), (3338, 2)]) (by decide)
        rw [numbers_iff] at this
        rw [smoothRow, this]; rfl
      rw [List.mapM_cons, List.mapM_cons, this] at hes
      simp at hes
  have hi : item [["IDENT = 1100".toList, "V = 0.155000".toList], [summary1100], [smooth1100, "1.00  33.38".toList], [detail1100], profile1100] 2 =
    .ok [smooth1100, "1.00  33.38".toList] := rfl
  rw [Case.select]
  simp only [half_data, hid, hsi, visc1100, hi, hsm]
  rw [if_neg (by decide)]

/-- A row of station summaries with viscosity zero. -/
def zeroDetail : Text := "0.7820  1.280  33.900  0.0  0.2760  0.3812  0.4908   10.0941  1.3811   7.3070  1.7783   6036.6   8337.1".toList

noncomputable def zeroState : DetailState := { detailState with nu := 0 }

/-- **C61** fails for a station: a zero viscosity raises ZeroDivisionError, not ValueError. -/
theorem zero_viscosity_raises [PySpecial ℝ] (mem : Mem ℝ) (rows : List Text) :
    Station.mk' decimal mem true summary1100 zeroDetail rows = .error .zeroDivision := by
  have hnum : Numbers Spec.blank decimal zeroDetail (zeroState.columns true) := by
    have := decimal_numbers (text := zeroDetail) (ps := [(7820, 4), (1280, 3), (33900, 3), (0, 1), (2760, 4), (3812, 4), (4908, 4), (100941, 4),
      (13811, 4), (73070, 4), (17783, 4), (60366, 1), (83371, 1)]) (by decide)
    convert this using 1
    simp only [DetailState.columns, zeroState, detailState, List.map_cons, List.map_nil, List.cons.injEq]
    norm_num
  obtain ⟨r, hr, hr'⟩ := summary_row rows1100.summary
  obtain ⟨d, hd, hd'⟩ := detail_row hnum
  obtain ⟨hs, hdp, hsd, -⟩ := (accepted_iff rows1100 mem).1 (station1100 mem)
  have hg := (summary_good _).2 hs
  have h1 : Station.blank.resetSummary decimal true summary1100 = ((toSummary summaryState).station, .ok ()) :=
    (resetSummary_ok _ _ _ _ _).2 ⟨r, hr, by rw [hr']; exact hg, by rw [hr']; rfl⟩
  have hder : ∀ x ∈ (toSummary summaryState).station.derived, passes x := by
    simp only [Station.derived, List.mem_cons, List.not_mem_nil, or_false, forall_eq_or_imp, forall_eq, passes, Field.guarded, forall_const]
    exact ⟨hg.dels, hg.enth, hg.us⟩
  obtain ⟨a1, a2, a3, a4, a5, a6, a7, a8, -⟩ := (agrees_iff summaryState detailState hdp.nu).2 hsd
  have hc : (toSummary summaryState).station.refreshed.check (toDetail zeroState) = .error .zeroDivision := by
    rw [Station.check]
    have b1 : ∀ {b : Bool} {f : Except Exc Unit} {e : Exc}, b = false → f = .error .zeroDivision → (if b = true then .error e else f) = .error .zeroDivision := by
      intro b f e hb hf; simp [hb, hf]
    refine b1 a1 (b1 a2 (b1 a3 (b1 a4 (b1 a5 (b1 a6 (b1 a7 (b1 a8 ?_)))))))
    have : PyCmp.eq (toDetail zeroState).v (lit 0) = true := by rw [real_eq]; simp [toDetail, zeroState]
    rw [pyDiv, if_pos this]
  rw [Station.mk', Station.reset, h1]
  simp only [resetDetail_eq _ _ _ _ fun _ => hder, hd, hd', hc]
  rw [if_neg (by decide)]

def zeroText : Text := fileText [summary1100] [smooth1100] [zeroDetail] profile1100

theorem zero_data : getCaseData (filesWith zeroText) "1100".toList =
    .ok [["IDENT = 1100".toList, "V = 0.155000".toList], [summary1100], [smooth1100], [zeroDetail], profile1100] := by
  rw [getCaseData, filesWith, if_pos rfl]
  simp only [Except.ok.injEq]
  decide +kernel

/-- **C61** fails: ZeroDivisionError for a file with a zero viscosity, IndexError for a missing file (`failed_selection_keeps_name`), and for an
identifier line that ends after `IDENT`. -/
theorem other_exceptions [PySpecial ℝ] (mem : Mem ℝ) :
    Case.mk' (filesWith zeroText) decimal mem (some "1100".toList) = .error .zeroDivision ∧
    Case.mk' (filesWith zeroText) decimal mem (some "9999".toList) = .error .indexError ∧
    Case.mk' (filesWith "# x\nIDENT\n".toList) decimal mem (some "1100".toList) = .error .indexError := by
  refine ⟨?_, ?_, ?_⟩
  · have hid : identify [["IDENT = 1100".toList, "V = 0.155000".toList], [summary1100], [smooth1100], [zeroDetail], profile1100] "1100".toList =
      .ok () := by rfl
    have hsi : siUnit "1100".toList = true := by decide
    have hi : item [["IDENT = 1100".toList, "V = 0.155000".toList], [summary1100], [smooth1100], [zeroDetail], profile1100] 2 = .ok [smooth1100] := rfl
    have hst : stationTexts [["IDENT = 1100".toList, "V = 0.155000".toList], [summary1100], [smooth1100], [zeroDetail], profile1100] =
      .ok [(summary1100, zeroDetail, profile1100)] := rfl
    rw [Case.mk', Case.select]
    simp only [zero_data, hid, hsi, visc1100, hi, smooth_ok, hst, addStations, zero_viscosity_raises]
    rw [if_neg (by decide)]
  · rw [Case.mk', failed_selection_keeps_name _ _ _ _ _ (by decide) (by decide)]
  · have hd : getCaseData (filesWith "# x\nIDENT\n".toList) "1100".toList = .ok [["IDENT".toList]] := by
      rw [getCaseData, filesWith, if_pos rfl]
      simp only [Except.ok.injEq]
      decide
    have hid : identify [["IDENT".toList]] "1100".toList = .error .indexError := by rfl
    rw [Case.mk', Case.select]
    simp only [hd, hid]
    rw [if_neg (by decide)]

/-- The lines of `halfText` as a case file. -/
def halfFile : CaseFile (readlines halfText) where
  before := []
  title := "# Ludwieg\n".toList
  rows := ["IDENT = 1100\n".toList, "V = 0.155000\n".toList, "\n".toList]
  sections :=
    [⟨"# Summary data\n".toList, "# X\n".toList, [summary1100 ++ ['\n']], (marked_iff _).1 (by decide), (marked_iff _).1 (by decide),
        plain_of (by decide)⟩,
      ⟨"# Edge velocity plot\n".toList, "# X    UI      DUI\n".toList, [smooth1100 ++ ['\n'], "1.00  33.38\n".toList], (marked_iff _).1 (by decide),
        (marked_iff _).1 (by decide), plain_of (by decide)⟩,
      ⟨"# Stations summary\n".toList, "# X\n".toList, [detail1100 ++ ['\n']], (marked_iff _).1 (by decide), (marked_iff _).1 (by decide),
        plain_of (by decide)⟩,
      ⟨"# Station\n".toList, "# Y+\n".toList, profile1100.map (· ++ ['\n']), (marked_iff _).1 (by decide), (marked_iff _).1 (by decide),
        plain_of (by decide)⟩]
  before_plain := by simp
  title_comment := (marked_iff _).1 (by decide)
  rows_plain := plain_of (by decide)
  layout := by decide +kernel

/-- A case of `selection_raises_partial`: a file of that kind, of which selecting raises. -/
example [PySpecial ℝ] (mem : Mem ℝ) (o : Case ℝ) : ∃ o' e, o.select (filesWith halfText) decimal mem "1100".toList = (o', .error e) ∧ e = .valueError := by
  obtain ⟨t, hn, hl⟩ := (readlines_iff halfText _).2 rfl
  have h := failed_selection_half_loaded mem o
  refine ⟨_, _, h, selection_raises_partial (filesWith halfText) decimal mem "1100".toList halfText t _ rfl hn hl halfFile "IDENT = 1100".toList
    "V = 0.155000".toList [] (by decide) (by decide) (by decide) (by decide) ?_ o _ _ h⟩
  intro sec hs r hr cols hc
  obtain rfl : _ = sec := Option.some.inj hs
  have hr' : r = detail1100 := by
    have : r ∈ content [detail1100 ++ ['\n']] := hr
    have h2 : content [detail1100 ++ ['\n']] = [detail1100] := by decide +kernel
    rw [h2] at this; exact List.mem_singleton.1 this
  subst hr'
  have h1 := rows1100.detail
  rw [numbers_iff] at hc
  simp only [numbers_iff] at h1
  rw [h1] at hc
  simp only [Option.some.injEq] at hc
  rw [← hc]
  norm_num [DetailState.columns, detailState]

end IBL.Stanford
