import Verif.PyText
import Verif.Spec.Text

namespace IBL
open Spec

theorem isSpace_iff (c : Char) : isSpace c = true ↔ c ∈ whitespace := by
  have h : ∀ d : Char, c = d ↔ c.toNat = d.toNat := fun d => Char.toNat_inj.symm
  simp only [whitespace, List.mem_cons, List.not_mem_nil, or_false, h, isSpace]
  simp
  omega

theorem isSpace_eq : isSpace = blank := by
  funext c
  rw [Bool.eq_iff_iff, isSpace_iff, blank]
  simp

theorem splitAux_word (w : Text) : ∀ (v s : Text), (∀ c ∈ v, isSpace c = false) → splitAux w (v ++ s) = splitAux (w ++ v) s
  | [], s, _ => by simp
  | c :: v, s, h => by
    have hc := h c (by simp)
    rw [List.cons_append, splitAux, if_neg (by simp [hc]), splitAux_word (w ++ [c]) v s (fun d hd => h d (by simp [hd]))]
    simp

theorem splitAux_blank : ∀ (sp s : Text), (∀ c ∈ sp, isSpace c = true) → splitAux [] (sp ++ s) = splitAux [] s
  | [], s, _ => by simp
  | c :: sp, s, h => by
    rw [List.cons_append, splitAux, if_pos (h c (by simp)), if_pos rfl]
    exact splitAux_blank sp s fun d hd => h d (by simp [hd])

theorem split_of_columns {s : Text} {ws : List Text} (h : Columns isSpace s ws) : s.split = ws := by
  induction h with
  | none s h => simpa [splitAux, Text.split] using splitAux_blank s [] h
  | cons sp w rest ws hsp hne hw hrest h ih =>
    rw [Text.split, List.append_assoc, splitAux_blank _ _ hsp, splitAux_word _ _ _ hw, List.nil_append]
    rw [Text.split] at ih
    cases rest with
    | nil => rw [splitAux, if_neg hne]; simp only [splitAux, if_pos] at ih; rw [← ih]
    | cons c r =>
      have hc := hrest c rfl
      rw [splitAux, if_pos hc] at ih ⊢
      rw [if_neg hne]; rw [if_pos rfl] at ih; rw [ih]

theorem columns_aux : ∀ (s w : Text), (∀ c ∈ w, isSpace c = false) → Columns isSpace (w ++ s) (splitAux w s)
  | [], w, hw => by
    rw [splitAux, List.append_nil]
    by_cases h : w = []
    · subst h; exact .none _ (by simp)
    · rw [if_neg h]
      simpa using Columns.cons (blank := isSpace) [] w [] [] (by simp) h hw (by simp) (.none [] (by simp))
  | c :: s, w, hw => by
    rw [splitAux]
    by_cases hc : isSpace c = true
    · rw [if_pos hc]
      have ih := columns_aux s [] (by simp)
      rw [List.nil_append] at ih
      have blank : Columns isSpace (c :: s) (splitAux [] s) := by
        generalize hws : splitAux [] s = ws at ih
        cases ih with
        | none _ h => exact .none _ (by intro d hd; rcases List.mem_cons.1 hd with rfl | hd; exacts [hc, h d hd])
        | cons sp w rest ws hsp hne hw hrest h =>
          exact Columns.cons (c :: sp) w rest ws (by intro d hd; rcases List.mem_cons.1 hd with rfl | hd; exacts [hc, hsp d hd]) hne hw hrest h
      by_cases h : w = []
      · subst h; rw [if_pos rfl]; exact blank
      · rw [if_neg h]
        simpa using Columns.cons [] w (c :: s) _ (by simp) h hw (by simp [hc]) blank
    · rw [if_neg hc]
      have := columns_aux s (w ++ [c]) (by
        intro d hd; rcases List.mem_append.1 hd with hd | hd
        · exact hw d hd
        · rw [List.mem_singleton.1 hd]; simpa using hc)
      simpa using this

/-- `split` gives the columns, and there are no other columns. -/
theorem columns_iff (s : Text) (ws : List Text) : Columns isSpace s ws ↔ s.split = ws :=
  ⟨split_of_columns, fun h => by rw [← h]; simpa [Text.split] using columns_aux s [] (by simp)⟩

theorem normal_newlines (s : Text) : Normal s (newlines s) := by
  induction s using newlines.induct with
  | case1 s ih => rw [newlines]; exact .crlf _ _ ih
  | case2 c s h ih =>
    rw [newlines]
    · split_ifs with hc
      · subst hc
        refine .cr _ _ ?_ ih
        intro hs
        cases s with
        | nil => simp at hs
        | cons d t => simp only [List.head?_cons, Option.some.injEq] at hs; exact h t rfl (by rw [hs])
      · exact .other _ _ _ hc ih
    · exact h
  | case3 => rw [newlines]; exact .nil

theorem linesAux_flatten : ∀ (s l : Text), (linesAux l s).flatten = l ++ s
  | [], l => by rw [linesAux]; split_ifs with h <;> simp [h]
  | c :: s, l => by
    rw [linesAux]; split_ifs with h
    · simp [linesAux_flatten s [], h]
    · rw [linesAux_flatten s]; simp

theorem linesAux_ne : ∀ (s l : Text), ∀ x ∈ linesAux l s, x ≠ []
  | [], l => by rw [linesAux]; split_ifs with h <;> simp [h]
  | c :: s, l => by
    rw [linesAux]; split_ifs with h
    · intro x hx; rcases List.mem_cons.1 hx with rfl | hx
      · simp
      · exact linesAux_ne s [] x hx
    · exact linesAux_ne s _

theorem linesAux_inner : ∀ (s l : Text), '\n' ∉ l → ∀ x ∈ linesAux l s, '\n' ∉ x.dropLast
  | [], l, hl => by
    rw [linesAux]; split_ifs with h
    · simp
    · simp only [List.mem_singleton, forall_eq]; exact fun hm => hl (List.dropLast_subset _ hm)
  | c :: s, l, hl => by
    rw [linesAux]; split_ifs with h
    · intro x hx; rcases List.mem_cons.1 hx with rfl | hx
      · simpa using hl
      · exact linesAux_inner s [] (by simp) x hx
    · exact linesAux_inner s _ (by simp [hl, Ne.symm h])

theorem linesAux_ends : ∀ (s l : Text), ∀ x ∈ (linesAux l s).dropLast, x.getLast? = some '\n'
  | [], l => by rw [linesAux]; split_ifs with h <;> simp
  | c :: s, l => by
    rw [linesAux]; split_ifs with h
    · intro x hx
      cases hl : linesAux [] s with
      | nil => simp [hl] at hx
      | cons a t =>
        rw [hl, List.dropLast_cons_of_ne_nil (by simp)] at hx
        rcases List.mem_cons.1 hx with rfl | hx
        · simp
        · exact linesAux_ends s [] x (by rw [hl]; exact hx)
    · exact linesAux_ends s _

/-- `readlines` gives the lines of the text with normal line ends. -/
theorem lines_readlines (s : Text) : ∃ t, Normal s t ∧ Lines t (readlines s) :=
  ⟨newlines s, normal_newlines s, ⟨by simp [readlines, linesAux_flatten], linesAux_ne _ _, linesAux_inner _ _ (by simp), linesAux_ends _ _⟩⟩

/-- Every column is a non-empty word without blanks. -/
theorem columns_words {s : Text} {ws : List Text} (h : Columns isSpace s ws) : ∀ w ∈ ws, w ≠ [] ∧ ∀ c ∈ w, isSpace c = false := by
  induction h with
  | none => simp
  | cons sp w rest ws _ hne hw _ _ ih =>
    intro v hv; rcases List.mem_cons.1 hv with rfl | hv
    exacts [⟨hne, hw⟩, ih v hv]

end IBL

namespace IBL
open Spec

theorem newlines_of_normal {s t : Text} (h : Normal s t) : newlines s = t := by
  induction h with
  | nil => rw [newlines]
  | crlf s t _ ih => rw [newlines, ih]
  | cr s t hs _ ih =>
    rw [newlines, ih]
    · simp
    · intro s' _ h; subst h; exact hs rfl
  | other c s t hc _ ih =>
    rw [newlines, ih]
    · simp [hc]
    · intro s' h; exact absurd h hc

theorem linesAux_word (w : Text) : ∀ (v s : Text), '\n' ∉ v → linesAux w (v ++ s) = linesAux (w ++ v) s
  | [], s, _ => by simp
  | c :: v, s, h => by
    have hc : c ≠ '\n' := fun hc => h (by simp [hc])
    rw [List.cons_append, linesAux, if_neg hc, linesAux_word (w ++ [c]) v s (fun hm => h (by simp [hm]))]
    simp

/-- A line is a text without newline, or that and a newline. -/
theorem line_cases {l : Text} (hi : '\n' ∉ l.dropLast) (hne : l ≠ []) : (∃ d, l = d ++ ['\n'] ∧ '\n' ∉ d) ∨ '\n' ∉ l := by
  rcases List.eq_nil_or_concat l with h | ⟨d, c, h⟩
  · exact absurd h hne
  · subst h
    rw [List.concat_eq_append, List.dropLast_concat] at hi
    by_cases hc : c = '\n'
    · left; exact ⟨d, by simp [hc], hi⟩
    · right; simp [hi, Ne.symm hc]

theorem linesAux_of_lines : ∀ (ls : List Text), (∀ l ∈ ls, l ≠ []) → (∀ l ∈ ls, '\n' ∉ l.dropLast) →
    (∀ l ∈ ls.dropLast, l.getLast? = some '\n') → linesAux [] ls.flatten = ls
  | [], _, _, _ => by simp [linesAux]
  | [l], hne, hi, _ => by
    have hl := hne l (by simp)
    rcases line_cases (hi l (by simp)) hl with ⟨d, rfl, hd⟩ | h
    · simp only [List.flatten_cons, List.flatten_nil, List.append_nil]
      rw [linesAux_word _ _ _ hd]; simp [linesAux]
    · have := linesAux_word [] l [] h
      simp only [List.append_nil, List.nil_append] at this
      simp [this, linesAux, hl]
  | l :: m :: ls, hne, hi, he => by
    have hl := he l (by simp)
    have hl' : ∃ d, l = d ++ ['\n'] ∧ '\n' ∉ d := by
      rcases line_cases (hi l (by simp)) (hne l (by simp)) with h | h
      · exact h
      · exact absurd (List.mem_of_getLast? hl) h
    obtain ⟨d, rfl, hd⟩ := hl'
    have ih := linesAux_of_lines (m :: ls) (fun x hx => hne x (by simp [hx])) (fun x hx => hi x (by simp [hx]))
      (fun x hx => he x (by rw [List.dropLast_cons_of_ne_nil (by simp)]; simp [hx]))
    rw [List.flatten_cons, List.append_assoc, linesAux_word _ _ _ hd, List.singleton_append, linesAux, if_pos rfl, ih]
    simp

/-- `readlines` gives the lines of the text with normal line ends, and a text has no other lines. -/
theorem readlines_iff (s : Text) (ls : List Text) : (∃ t, Normal s t ∧ Lines t ls) ↔ readlines s = ls := by
  constructor
  · rintro ⟨t, hn, hl⟩
    rw [readlines, newlines_of_normal hn, ← hl.join]
    exact linesAux_of_lines ls hl.nonempty hl.inner hl.ends
  · rintro rfl; exact lines_readlines s

theorem contains_iff (p : Text) : ∀ s : Text, Text.contains p s = true ↔ ∃ a b, s = a ++ p ++ b
  | [] => by
    rw [Text.contains, List.isEmpty_iff]
    constructor
    · rintro rfl; exact ⟨[], [], rfl⟩
    · rintro ⟨a, b, h⟩; simp at h; exact h.2.1
  | c :: s => by
    rw [Text.contains, Bool.or_eq_true, contains_iff p s, List.isPrefixOf_iff_prefix]
    constructor
    · rintro (⟨b, h⟩ | ⟨a, b, h⟩)
      · exact ⟨[], b, by simp [h]⟩
      · exact ⟨c :: a, b, by simp [h]⟩
    · rintro ⟨a, b, h⟩
      cases a with
      | nil => left; exact ⟨b, by simpa using h.symm⟩
      | cons d a =>
        simp only [List.cons_append, List.cons.injEq] at h
        exact .inr ⟨a, b, h.2⟩

theorem splitOnAux_word (sep : Char) (w : Text) : ∀ (v s : Text), sep ∉ v → splitOnAux sep w (v ++ s) = splitOnAux sep (w ++ v) s
  | [], s, _ => by simp
  | c :: v, s, h => by
    have hc : c ≠ sep := fun hc => h (by simp [hc])
    rw [List.cons_append, splitOnAux, if_neg hc, splitOnAux_word sep (w ++ [c]) v s (fun hm => h (by simp [hm]))]
    simp

/-- `s.split(sep)`: the parts between the separators. -/
theorem splitOn_parts (sep : Char) : ∀ (ps : List Text), ps ≠ [] → (∀ p ∈ ps, sep ∉ p) → Text.splitOn sep (List.intercalate [sep] ps) = ps
  | [], h, _ => absurd rfl h
  | [p], _, h => by
    have := splitOnAux_word sep [] p [] (h p (by simp))
    simp only [List.append_nil, List.nil_append] at this
    simp [Text.splitOn, this, splitOnAux, List.intercalate]
  | p :: q :: ps, _, h => by
    have ih := splitOn_parts sep (q :: ps) (by simp) (fun x hx => h x (by simp [hx]))
    have : List.intercalate [sep] (p :: q :: ps) = p ++ (sep :: List.intercalate [sep] (q :: ps)) := by
      simp [List.intercalate]
    rw [this, Text.splitOn, splitOnAux_word _ _ _ _ (h p (by simp)), List.nil_append, splitOnAux, if_pos rfl]
    rw [Text.splitOn] at ih; rw [ih]

end IBL
