import Mathlib.Data.List.Basic

/-! The layout of a case file of the Stanford data, as lines. -/

namespace IBL.Spec

/-- The line is a comment for the reader: it has `# ` somewhere. -/
def Comment (l : List Char) : Prop := ∃ a b, l = a ++ ['#', ' '] ++ b

/-- A line without its line end. -/
def chomp (l : List Char) : List Char := if l.getLast? = some '\n' then l.dropLast else l

/-- A section after the first: two comment lines, then rows. -/
structure Section where
  title : List Char
  columns : List Char
  rows : List (List Char)
  title_comment : Comment title
  columns_comment : Comment columns
  rows_plain : ∀ l ∈ rows, ¬ Comment l

/-- The lines of a case file: some lines before the first comment, a comment line, the rows of the first section, and the other sections. -/
structure CaseFile (ls : List (List Char)) where
  before : List (List Char)
  title : List Char
  rows : List (List Char)
  sections : List Section
  before_plain : ∀ l ∈ before, ¬ Comment l
  title_comment : Comment title
  rows_plain : ∀ l ∈ rows, ¬ Comment l
  layout : ls = before ++ title :: rows ++ sections.flatMap fun s => s.title :: s.columns :: s.rows

/-- The non-empty rows of a section. -/
def content (rows : List (List Char)) : List (List Char) := (rows.map chomp).filter (· ≠ [])

end IBL.Spec
