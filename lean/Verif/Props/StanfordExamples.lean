import Verif.Props.StanfordStation

/-! The first station of case 1100 as an instance of the theorems about stations, and stations that should not be accepted. -/

set_option linter.unusedSectionVars false

namespace IBL.Stanford
open Spec

/-- Decimal numerals as mantissa and number of decimals. -/
def digits : Text → Option ℕ → ℕ → Option (ℕ × ℕ)
  | [], none, m => some (m, 0)
  | [], some k, m => some (m, k)
  | c :: s, k, m =>
    if '0' ≤ c ∧ c ≤ '9' then digits s (k.map (· + 1)) (10 * m + (c.toNat - 48))
    else if c = '.' ∧ k = none then digits s (some 0) m
    else none

def numeral : Text → Option (ℤ × ℕ)
  | '-' :: s => (digits s none 0).map fun p => (-(p.1 : ℤ), p.2)
  | s => (digits s none 0).map fun p => ((p.1 : ℤ), p.2)

/-- `float(text)` of a decimal numeral, with exact value. -/
noncomputable def decimal : Floats ℝ := fun s => (numeral s).map fun p => (p.1 : ℝ) / 10 ^ p.2

theorem decimal_numbers {text : Text} {ps : List (ℤ × ℕ)} (h : text.split.mapM numeral = some ps) :
    Numbers Spec.blank decimal text (ps.map fun p => (p.1 : ℝ) / 10 ^ p.2) := by
  rw [numbers_iff, mapM_iff]
  rw [mapM_iff] at h
  have : text.split.map decimal = (text.split.map numeral).map (Option.map fun p : ℤ × ℕ => (p.1 : ℝ) / 10 ^ p.2) := by
    simp [decimal, Function.comp_def]
  rw [this, h]; simp [Function.comp_def]

/-- The first row of the summary of case 1100 (data file, line 7). -/
def summary1100 : Text := "0.782  33.90  -2.300  0.276  1.381  1.778   7.307  0.00285  0.00276  0.00271  0.181".toList
/-- The first row of its station summaries (line 40). -/
def detail1100 : Text :=
  "0.7820  1.280  33.900  0.155000  0.2760  0.3812  0.4908   10.0941  1.3811   7.3070  1.7783   6036.6   8337.1".toList
/-- Two rows of the profile of its first station (lines 55, 56). -/
def profile1100 : List Text := ["   0.0   0.0    0.0    0.0     0.0     26.48".toList, "  41.3  14.43   0.050  0.5450  0.0050  12.05".toList]

noncomputable def summaryState : SummaryState := ⟨0.782, 33.9, -2.3, 0.00276, 1.381, 1.778, 7.307, 0.00285, 0.00276, 0.00271, 0.181⟩
noncomputable def detailState : DetailState :=
  ⟨0.782, 1.28, 33.9, 0.0000155, 0.00276, 0.003812, 0.004908, 0.100941, 1.3811, 7.307, 1.7783, 6036.6, 8337.1⟩
noncomputable def profileState : List SampleState := [⟨0, 0, 0, 0, 0, 26.48⟩, ⟨41.3, 14.43, 0.0005, 0.545, 0.005, 12.05⟩]

theorem rows1100 : Rows decimal true summary1100 detail1100 profile1100 summaryState (some detailState) profileState where
  summary := by
    have := decimal_numbers (text := summary1100) (ps := [(782, 3), (3390, 2), (-2300, 3), (276, 3), (1381, 3), (1778, 3), (7307, 3), (285, 5),
      (276, 5), (271, 5), (181, 3)]) (by decide)
    convert this using 1
    simp only [SummaryState.columns, summaryState, List.map_cons, List.map_nil, List.cons.injEq]
    norm_num
  detail := by
    have := decimal_numbers (text := detail1100) (ps := [(7820, 4), (1280, 3), (33900, 3), (155000, 6), (2760, 4), (3812, 4), (4908, 4), (100941, 4),
      (13811, 4), (73070, 4), (17783, 4), (60366, 1), (83371, 1)]) (by decide)
    show Numbers _ _ _ _
    convert this using 1
    simp only [DetailState.columns, detailState, List.map_cons, List.map_nil, List.cons.injEq]
    norm_num
  samples := by
    refine .cons ?_ (.cons ?_ .nil)
    · have := decimal_numbers (text := "   0.0   0.0    0.0    0.0     0.0     26.48".toList)
        (ps := [(0, 1), (0, 1), (0, 1), (0, 1), (0, 1), (2648, 2)]) (by decide)
      convert this using 1
      simp only [SampleState.columns, List.map_cons, List.map_nil, List.cons.injEq]
      norm_num
    · have := decimal_numbers (text := "  41.3  14.43   0.050  0.5450  0.0050  12.05".toList)
        (ps := [(413, 1), (1443, 2), (50, 3), (5450, 4), (50, 4), (1205, 2)]) (by decide)
      convert this using 1
      simp only [SampleState.columns, List.map_cons, List.map_nil, List.cons.injEq]
      norm_num

/-- That station is accepted. -/
theorem station1100 [PySpecial ℝ] (mem : Mem ℝ) : ∃ p, Station.mk' decimal mem true summary1100 detail1100 profile1100 = .ok p := by
  rw [accepted_iff rows1100]
  refine ⟨?_, ?_, ?_, ?_⟩
  · constructor <;> norm_num [summaryState]
  · constructor <;> norm_num [detailState]
  · constructor
    case us =>
      have h1 : (0.0377 : ℝ) < Real.sqrt (0.00285 / 2) := Real.lt_sqrt_of_sq_lt (by norm_num)
      have h2 : Real.sqrt (0.00285 / 2) < 0.0378 := (Real.sqrt_lt' (by norm_num)).2 (by norm_num)
      rw [abs_lt]; constructor <;> norm_num [summaryState, detailState] at * <;> linarith
    all_goals rw [abs_lt]; constructor <;> norm_num [summaryState, detailState]
  · intro p hp
    simp only [profileState, List.mem_cons, List.not_mem_nil, or_false] at hp
    rcases hp with rfl | rfl
    · constructor <;> rw [abs_le] <;> constructor <;> norm_num [detailState]
    · constructor <;> rw [abs_le] <;> constructor <;> norm_num [detailState]

end IBL.Stanford
