import Verif.Model.StanfordCase
import Verif.Spec.CaseFile
import Verif.Lemmas.Text

/-! C47: a case file is split into its sections. -/

set_option linter.unusedSectionVars false

namespace IBL.Stanford
open Spec

theorem marked_iff (l : Text) : marked l = true ↔ Comment l := contains_iff _ l

theorem chomp_nl (d : Text) : chomp (d ++ ['\n']) = d := by simp [chomp]

theorem chomp_plain {l : Text} (h : '\n' ∉ l) : chomp l = l := by
  rw [chomp, if_neg]; intro he; exact h (List.mem_of_getLast? he)

theorem rowsOf_lines : ∀ (ls : List Text), (∀ l ∈ ls, l ≠ []) → (∀ l ∈ ls, '\n' ∉ l.dropLast) →
    (∀ l ∈ ls.dropLast, l.getLast? = some '\n') → rowsOf ls = content ls
  | [], _, _, _ => by simp [rowsOf, content, Text.splitOn, splitOnAux]
  | [l], hne, hi, _ => by
    have hl := hne l (by simp)
    rcases line_cases (hi l (by simp)) hl with ⟨d, rfl, hd⟩ | h
    · simp only [rowsOf, content, List.flatten_cons, List.flatten_nil, List.append_nil, Text.splitOn, List.map_cons, List.map_nil, chomp_nl]
      rw [splitOnAux_word _ _ _ _ hd]; cases d <;> simp [splitOnAux, List.filter]
    · have := splitOnAux_word '\n' [] l [] h
      simp only [List.append_nil, List.nil_append] at this
      simp only [rowsOf, content, List.flatten_cons, List.flatten_nil, List.append_nil, Text.splitOn, List.map_cons, List.map_nil, chomp_plain h, this]
      cases l <;> simp [splitOnAux, List.filter]
  | l :: m :: ls, hne, hi, he => by
    have hl := he l (by simp)
    obtain ⟨d, rfl, hd⟩ : ∃ d, l = d ++ ['\n'] ∧ '\n' ∉ d := by
      rcases line_cases (hi l (by simp)) (hne l (by simp)) with h | h
      · exact h
      · exact absurd (List.mem_of_getLast? hl) h
    have ih := rowsOf_lines (m :: ls) (fun x hx => hne x (by simp [hx])) (fun x hx => hi x (by simp [hx]))
      (fun x hx => he x (by rw [List.dropLast_cons_of_ne_nil (by simp)]; simp [hx]))
    rw [rowsOf, List.flatten_cons, List.append_assoc, Text.splitOn, splitOnAux_word _ _ _ _ hd, List.singleton_append, splitOnAux, if_pos rfl,
      List.nil_append, content, List.map_cons, chomp_nl]
    rw [rowsOf, Text.splitOn, content] at ih
    rw [List.filter_cons, List.filter_cons, ih]
    cases d <;> simp

/-- The indices of the marked lines of `ls`, the first of which has index `n`. -/
def marks (n : ℕ) (ls : List Text) : List ℕ := ((ls.zipIdx n).filter fun p => marked p.1).map Prod.snd

theorem marks_append (n : ℕ) (a b : List Text) : marks n (a ++ b) = marks n a ++ marks (n + a.length) b := by
  simp [marks, List.zipIdx_append]

theorem marks_plain (n : ℕ) : ∀ (ls : List Text), (∀ l ∈ ls, ¬ Comment l) → marks n ls = [] := by
  intro ls h
  rw [marks, List.map_eq_nil_iff, List.filter_eq_nil_iff]
  rintro ⟨l, i⟩ hm
  rw [marked_iff]
  exact h l (List.fst_mem_of_mem_zipIdx hm)

theorem marks_cons (n : ℕ) {l : Text} (h : Comment l) (ls : List Text) : marks n (l :: ls) = n :: marks (n + 1) ls := by
  simp [marks, List.zipIdx_cons, List.filter_cons, (marked_iff l).2 h]

theorem slice_mid {β : Type} (a b c : List β) (m n : ℕ) (hm : m = a.length) (hn : n = a.length + b.length) : slice (a ++ b ++ c) m n = b := by
  subst hm hn
  rw [slice, ← List.length_append, List.take_left, List.drop_left]

theorem blocks_sections : ∀ (secs : List Section) (a : List Text) (h : Text) (body buff : List Text),
    (∀ l ∈ body, ¬ Comment l) → buff = a ++ [h] ++ body ++ secs.flatMap (fun s => s.title :: s.columns :: s.rows) →
    blocks buff a.length (marks (a.length + 1 + body.length) (secs.flatMap fun s => s.title :: s.columns :: s.rows) ++ [buff.length])
      = rowsOf body :: secs.map fun s => rowsOf s.rows
  | [], a, h, body, buff, hb, hbuff => by
    have hlen : buff.length = a.length + 1 + body.length := by rw [hbuff]; simp; omega
    simp only [List.flatMap_nil, marks, List.zipIdx_nil, List.filter_nil, List.map_nil, List.nil_append, blocks]
    rw [if_pos (by omega), hlen, hbuff, List.flatMap_nil, slice_mid _ _ _ _ _ (by simp) (by simp)]
  | s :: secs, a, h, body, buff, hb, hbuff => by
    have ih := blocks_sections secs (a ++ [h] ++ body ++ [s.title]) s.columns s.rows buff s.rows_plain (by rw [hbuff]; simp)
    have hlen : (a ++ [h] ++ body ++ [s.title]).length = a.length + 1 + body.length + 1 := by simp; omega
    rw [hlen] at ih
    rw [List.flatMap_cons, List.cons_append, List.cons_append, marks_cons _ s.title_comment, marks_cons _ s.columns_comment, marks_append,
      marks_plain _ _ s.rows_plain, List.nil_append, List.cons_append, List.cons_append, blocks, if_pos (by omega), blocks,
      if_neg (by omega), List.map_cons, ← ih]
    congr 2
    rw [hbuff, slice_mid _ _ _ _ _ (by simp) (by simp)]

/-- Contiguous lines of a file are lines again, so their rows are the contents. -/
theorem rowsOf_part {ls a b c : List Text} (t : Text) (h : Lines t ls) (hls : ls = a ++ b ++ c) : rowsOf b = content b := by
  have hsub : ∀ l ∈ b, l ∈ ls := fun l hl => by rw [hls]; simp [hl]
  refine rowsOf_lines b (fun l hl => h.nonempty l (hsub l hl)) (fun l hl => h.inner l (hsub l hl)) fun l hl => h.ends l ?_
  rcases List.eq_nil_or_concat b with rfl | ⟨d, x, rfl⟩
  · simp at hl
  · rw [List.concat_eq_append, List.dropLast_concat] at hl
    rw [hls, List.concat_eq_append]
    have : a ++ (d ++ [x]) ++ c = (a ++ d) ++ (x :: c) := by simp
    rw [this, List.dropLast_append_of_ne_nil (by simp)]
    simp [hl]

theorem rowsOf_sections (t : Text) {ls : List Text} (h : Lines t ls) : ∀ (secs : List Section) (a : List Text),
    ls = a ++ secs.flatMap (fun s => s.title :: s.columns :: s.rows) → (secs.map fun s => rowsOf s.rows) = secs.map fun s => content s.rows
  | [], _, _ => rfl
  | s :: secs, a, hls => by
    have ih := rowsOf_sections t h secs (a ++ s.title :: s.columns :: s.rows) (by rw [hls]; simp)
    rw [List.map_cons, List.map_cons, ih]
    congr 1
    exact rowsOf_part (a := a ++ [s.title, s.columns]) (c := secs.flatMap fun s => s.title :: s.columns :: s.rows) t h (by rw [hls]; simp)

/-- **C47**. A file whose lines are laid out as a case file is read as its sections: the non-empty rows of each, in order. -/
theorem sections_read (files : CaseFiles) (name s t : Text) (ls : List Text) (hf : files name = some (.ok s)) (hn : Normal s t)
    (hl : Lines t ls) (cf : CaseFile ls) :
    getCaseData files name = .ok (content cf.rows :: cf.sections.map fun sec => content sec.rows) := by
  have hr : readlines s = ls := (readlines_iff s ls).1 ⟨t, hn, hl⟩
  rw [getCaseData, hf]
  simp only [hr]
  congr 1
  obtain ⟨before, title, rows, secs, hb, ht, hrw, layout⟩ := cf
  simp only
  have hidx : chunkIdx ls = before.length :: (marks (before.length + 1 + rows.length)
      (secs.flatMap fun s => s.title :: s.columns :: s.rows) ++ [ls.length]) := by
    show marks 0 ls ++ [ls.length] = _
    rw [← List.cons_append]
    congr 1
    rw [layout, marks_append, marks_append, marks_plain _ _ hb, marks_cons _ ht, marks_plain _ _ hrw]
    simp; congr 1; omega
  rw [caseBlocks, hidx]
  have := blocks_sections secs before title rows ls hrw (by rw [layout]; simp)
  simp only [this]
  rw [rowsOf_part (a := before ++ [title]) (b := rows) (c := secs.flatMap fun s => s.title :: s.columns :: s.rows) t hl (by rw [layout]; simp),
    rowsOf_sections t hl secs (before ++ title :: rows) layout]

theorem plain_of {ls : List Text} (h : ∀ l ∈ ls, marked l = false) : ∀ l ∈ ls, ¬ Comment l := by
  intro l hl hc
  rw [← marked_iff, h l hl] at hc
  exact Bool.false_ne_true hc

/-- A case of `sections_read`: two sections, the second with an empty row and a last line without line end. -/
def exampleFile : CaseFile ["# t\n".toList, "IDENT = 1\n".toList, "# a\n".toList, "# b\n".toList, "1 2\n".toList, "\n".toList, "3 4".toList] where
  before := []
  title := "# t\n".toList
  rows := ["IDENT = 1\n".toList]
  sections := [⟨"# a\n".toList, "# b\n".toList, ["1 2\n".toList, "\n".toList, "3 4".toList], (marked_iff _).1 (by decide),
    (marked_iff _).1 (by decide), plain_of (by decide)⟩]
  before_plain := by simp
  title_comment := (marked_iff _).1 (by decide)
  rows_plain := plain_of (by decide)
  layout := rfl

example (files : CaseFiles) (name : Text) (hf : files name = some (.ok "# t\nIDENT = 1\n# a\n# b\n1 2\n\n3 4".toList)) :
    getCaseData files name = .ok [["IDENT = 1".toList], ["1 2".toList, "3 4".toList]] :=
  sections_read files name _ _ _ hf (normal_newlines _) ⟨by decide, by decide, by decide, by decide⟩ exampleFile

/-- Outside that layout rows are lost: after the first section, a section with one comment line loses its first row. -/
theorem single_header_loses_row :
    caseBlocks (readlines "# t\nIDENT = 1\n# a\n1 2\n3 4\n".toList) = [["IDENT = 1".toList], ["3 4".toList]] := by decide

/-- ... and a third comment line makes an empty block and takes the first row as well, so all later sections are taken for the wrong ones. -/
theorem third_header_shifts_sections :
    caseBlocks (readlines "# t\nIDENT = 1\n# a\n# b\n# c\n1 2\n3 4\n".toList) = [["IDENT = 1".toList], [], ["3 4".toList]] := by decide

end IBL.Stanford
