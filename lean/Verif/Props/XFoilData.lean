import Verif.Model.XFoil
import Verif.Lemmas.Text

/-! C40: records of the XFoil dump. All statements are for any number type, so they include IEEE arithmetic with NaN. -/

set_option linter.unusedSectionVars false

namespace IBL.XFoil
open Spec
variable {α : Type} [PyLit α] [PyCmp α] [PySpecial α]

/-- Infinity is above the limits; true of IEEE numbers. -/
def InfAdm (α : Type) [PyLit α] [PyCmp α] [PySpecial α] : Prop :=
  PyCmp.lt (PySpecial.inf : α) (lit 0) = false ∧ PyCmp.le (PySpecial.inf : α) (lit 0) = false

/-- Nothing in the record compares below its limit. -/
structure Pt.Adm (p : Pt α) : Prop where
  s : PyCmp.lt p.s (lit 0) = false
  deltaD : PyCmp.lt p.deltaD (lit 0) = false
  deltaM : PyCmp.lt p.deltaM (lit 0) = false
  cf : PyCmp.lt p.cf (lit 0) = false
  shapeD : PyCmp.le p.shapeD (lit 0) = false
  shapeK : PyCmp.le p.shapeK (lit 0) = false

@[inherit_doc Pt.Adm]
structure Wake.Adm (p : Wake α) : Prop where
  s : PyCmp.lt p.s (lit 0) = false
  deltaD : PyCmp.lt p.deltaD (lit 0) = false
  deltaM : PyCmp.lt p.deltaM (lit 0) = false
  shapeD : PyCmp.le p.shapeD (lit 0) = false

theorem Pt.infs_adm (h : InfAdm α) : (Pt.infs : Pt α).Adm := ⟨h.1, h.1, h.1, h.1, h.2, h.2⟩
theorem Wake.infs_adm (h : InfAdm α) : (Wake.infs : Wake α).Adm := ⟨h.1, h.1, h.1, h.2⟩

theorem Pt.set_adm (p : Pt α) (hp : p.Adm) (f : Field) (v : α) : (p.set f v).1.Adm := by
  obtain ⟨h1, h2, h3, h4, h5, h6⟩ := hp
  cases f <;> simp only [Pt.set] <;> (try split_ifs with h) <;> constructor <;> simp_all

theorem Wake.set_adm (p : Wake α) (hp : p.Adm) (f : Field) (v : α) : (p.set f v).1.Adm := by
  obtain ⟨h1, h2, h3, h4⟩ := hp
  cases f <;> simp only [Wake.set] <;> (try split_ifs with h) <;> constructor <;> simp_all

/-- A rejected assignment raises ValueError and leaves the record alone. -/
theorem Pt.set_error (p : Pt α) (f : Field) (v : α) (e : Exc) (h : (p.set f v).2 = .error e) : p.set f v = (p, .error .valueError) := by
  cases f <;> simp only [Pt.set] at h ⊢ <;> (try split_ifs at h ⊢) <;> simp_all

theorem Wake.set_error (p : Wake α) (f : Field) (v : α) (e : Exc) (h : (p.set f v).2 = .error e) : p.set f v = (p, .error .valueError) := by
  cases f <;> simp only [Wake.set] at h ⊢ <;> (try split_ifs at h ⊢) <;> simp_all

theorem Pt.sets_adm : ∀ (l : List (Field × α)) (p : Pt α), p.Adm → (p.sets l).1.Adm
  | [], p, hp => hp
  | (f, v) :: l, p, hp => by
    have h := p.set_adm hp f v
    rw [Pt.sets]
    rcases hs : p.set f v with ⟨q, e | _⟩ <;> rw [hs] at h
    · exact h
    · exact Pt.sets_adm l q h

theorem Wake.sets_adm : ∀ (l : List (Field × α)) (p : Wake α), p.Adm → (p.sets l).1.Adm
  | [], p, hp => hp
  | (f, v) :: l, p, hp => by
    have h := p.set_adm hp f v
    rw [Wake.sets]
    rcases hs : p.set f v with ⟨q, e | _⟩ <;> rw [hs] at h
    · exact h
    · exact Wake.sets_adm l q h

theorem Pt.sets_ok (p v : Pt α) (hv : v.Adm) : p.sets v.assignments = (v, .ok ()) := by
  obtain ⟨h1, h2, h3, h4, h5, h6⟩ := hv
  simp [Pt.assignments, Pt.sets, Pt.set, h1, h2, h3, h4, h5, h6]

theorem Pt.sets_error (p v : Pt α) (hv : ¬ v.Adm) : (p.sets v.assignments).2 = .error .valueError := by
  by_cases h1 : PyCmp.lt v.s (lit 0) = true
  · simp [Pt.assignments, Pt.sets, Pt.set, h1]
  by_cases h2 : PyCmp.lt v.deltaD (lit 0) = true
  · simp [Pt.assignments, Pt.sets, Pt.set, h1, h2]
  by_cases h3 : PyCmp.lt v.deltaM (lit 0) = true
  · simp [Pt.assignments, Pt.sets, Pt.set, h1, h2, h3]
  by_cases h4 : PyCmp.lt v.cf (lit 0) = true
  · simp [Pt.assignments, Pt.sets, Pt.set, h1, h2, h3, h4]
  by_cases h5 : PyCmp.le v.shapeD (lit 0) = true
  · simp [Pt.assignments, Pt.sets, Pt.set, h1, h2, h3, h4, h5]
  by_cases h6 : PyCmp.le v.shapeK (lit 0) = true
  · simp [Pt.assignments, Pt.sets, Pt.set, h1, h2, h3, h4, h5, h6]
  exact (hv ⟨by simpa using h1, by simpa using h2, by simpa using h3, by simpa using h4, by simpa using h5, by simpa using h6⟩).elim

theorem Wake.sets_ok (p v : Wake α) (hv : v.Adm) : p.sets v.assignments = (v, .ok ()) := by
  obtain ⟨h1, h2, h3, h4⟩ := hv
  simp [Wake.assignments, Wake.sets, Wake.set, h1, h2, h3, h4]

theorem Wake.sets_error (p v : Wake α) (hv : ¬ v.Adm) : (p.sets v.assignments).2 = .error .valueError := by
  by_cases h1 : PyCmp.lt v.s (lit 0) = true
  · simp [Wake.assignments, Wake.sets, Wake.set, h1]
  by_cases h2 : PyCmp.lt v.deltaD (lit 0) = true
  · simp [Wake.assignments, Wake.sets, Wake.set, h1, h2]
  by_cases h3 : PyCmp.lt v.deltaM (lit 0) = true
  · simp [Wake.assignments, Wake.sets, Wake.set, h1, h2, h3]
  by_cases h4 : PyCmp.le v.shapeD (lit 0) = true
  · simp [Wake.assignments, Wake.sets, Wake.set, h1, h2, h3, h4]
  exact (hv ⟨by simpa using h1, by simpa using h2, by simpa using h3, by simpa using h4⟩).elim

/-- The numbers in the columns of a row: every column is a number. -/
def Numbers (fl : Floats α) (data : Text) (vs : List α) : Prop :=
  ∃ ws, Columns Spec.blank data ws ∧ List.Forall₂ (fun w v => fl w = some v) ws vs

theorem mapM_some_iff (fl : Floats α) : ∀ (ws : List Text) (vs : List α), ws.mapM fl = some vs ↔ List.Forall₂ (fun w v => fl w = some v) ws vs
  | [], vs => by simp [List.mapM_nil, eq_comm]
  | w :: ws, vs => by
    rw [List.mapM_cons]
    constructor
    · intro h
      simp only [Option.bind_eq_bind, Option.bind_eq_some_iff, Option.pure_def, Option.some.injEq] at h
      obtain ⟨v, hv, t, ht, rfl⟩ := h
      exact .cons hv ((mapM_some_iff fl ws t).1 ht)
    · rintro (_ | ⟨hv, ht⟩)
      simp [hv, (mapM_some_iff fl ws _).2 ht]

theorem numbers_iff (fl : Floats α) (data : Text) (vs : List α) : Numbers fl data vs ↔ data.split.mapM fl = some vs := by
  simp only [Numbers, ← isSpace_eq, columns_iff, mapM_some_iff]
  exact ⟨fun ⟨ws, h, h'⟩ => h ▸ h', fun h => ⟨_, rfl, h⟩⟩

theorem Pt.ofRow_iff (fl : Floats α) (data : Text) (p : Pt α) : Pt.ofRow fl data = some p ↔
    Numbers fl data [p.s, p.x, p.y, p.u, p.deltaD, p.deltaM, p.cf, p.shapeD, p.shapeK, p.mom, p.mass, p.ke] := by
  rw [numbers_iff, Pt.ofRow]
  constructor
  · intro h
    split at h
    · next s x y u dd dm cf hd hk mom mass ke hs =>
      cases h; exact hs
    · cases h
  · intro h; rw [h]

theorem Wake.ofRow_iff (fl : Floats α) (data : Text) (p : Wake α) : Wake.ofRow fl data = some p ↔
    ∃ t, Numbers fl data [p.s, p.x, p.y, p.u, p.deltaD, p.deltaM, t, p.shapeD] := by
  simp only [numbers_iff, Wake.ofRow]
  constructor
  · intro h
    split at h
    · next s x y u dd dm t hd hs => cases h; exact ⟨t, hs⟩
    · cases h
  · rintro ⟨t, h⟩; rw [h]

theorem Pt.reset_eq (hinf : InfAdm α) (fl : Floats α) (p : Pt α) (data : Text) (hd : data ≠ []) :
    p.reset fl data = match Pt.ofRow fl data with
      | none => (Pt.infs, .error .valueError)
      | some v => Pt.infs.sets v.assignments := by
  rw [Pt.reset, Pt.sets_ok _ _ (Pt.infs_adm hinf)]
  simp only [hd, if_false]
  cases Pt.ofRow fl data <;> rfl

theorem Wake.reset_eq (hinf : InfAdm α) (fl : Floats α) (p : Wake α) (data : Text) (hd : data ≠ []) :
    p.reset fl data = match Wake.ofRow fl data with
      | none => (Wake.infs, .error .valueError)
      | some v => Wake.infs.sets v.assignments := by
  rw [Wake.reset, Wake.sets_ok _ _ (Wake.infs_adm hinf)]
  simp only [hd, if_false]
  cases Wake.ofRow fl data <;> rfl

/-- C40: a non-empty row is accepted exactly if it has twelve columns, all numbers, and the limited ones do not compare below their limits;
then the fields are the columns. -/
theorem row_accepted_iff (hinf : InfAdm α) (fl : Floats α) (p q : Pt α) (data : Text) (hd : data ≠ []) :
    p.reset fl data = (q, .ok ()) ↔
      Numbers fl data [q.s, q.x, q.y, q.u, q.deltaD, q.deltaM, q.cf, q.shapeD, q.shapeK, q.mom, q.mass, q.ke] ∧ q.Adm := by
  rw [Pt.reset_eq hinf fl p data hd, ← Pt.ofRow_iff]
  cases h : Pt.ofRow fl data with
  | none => simp
  | some v =>
    by_cases hv : v.Adm
    · simp only [Pt.sets_ok _ _ hv, Prod.mk.injEq, and_true, Option.some.injEq]
      exact ⟨fun e => ⟨e, e ▸ hv⟩, fun e => e.1⟩
    · have := Pt.sets_error Pt.infs v hv
      constructor
      · intro e; have e2 : (Pt.infs.sets v.assignments).2 = .ok () := congrArg Prod.snd e; rw [this] at e2; cases e2
      · rintro ⟨e, hq⟩; cases e; exact absurd hq hv

/-- C40, wake: eight columns, of which the seventh only has to be a number. -/
theorem wake_row_accepted_iff (hinf : InfAdm α) (fl : Floats α) (p q : Wake α) (data : Text) (hd : data ≠ []) :
    p.reset fl data = (q, .ok ()) ↔ (∃ t, Numbers fl data [q.s, q.x, q.y, q.u, q.deltaD, q.deltaM, t, q.shapeD]) ∧ q.Adm := by
  rw [Wake.reset_eq hinf fl p data hd, ← Wake.ofRow_iff]
  cases h : Wake.ofRow fl data with
  | none => simp
  | some v =>
    by_cases hv : v.Adm
    · simp only [Wake.sets_ok _ _ hv, Prod.mk.injEq, and_true, Option.some.injEq]
      exact ⟨fun e => ⟨e, e ▸ hv⟩, fun e => e.1⟩
    · have := Wake.sets_error Wake.infs v hv
      constructor
      · intro e; have e2 : (Wake.infs.sets v.assignments).2 = .ok () := congrArg Prod.snd e; rw [this] at e2; cases e2
      · rintro ⟨e, hq⟩; cases e; exact absurd hq hv

/-- C40: any row that is not accepted raises ValueError. -/
theorem row_rejected (hinf : InfAdm α) (fl : Floats α) (p : Pt α) (data : Text) (h : ¬ ∃ q, p.reset fl data = (q, .ok ())) :
    (p.reset fl data).2 = .error .valueError := by
  by_cases hd : data = []
  · exact (h ⟨Pt.infs, by simp [Pt.reset, hd, Pt.sets_ok _ _ (Pt.infs_adm hinf)]⟩).elim
  rw [Pt.reset_eq hinf fl p data hd] at h ⊢
  cases ho : Pt.ofRow fl data with
  | none => rfl
  | some v =>
    rw [ho] at h
    by_cases hv : v.Adm
    · exact (h ⟨v, Pt.sets_ok _ _ hv⟩).elim
    · exact Pt.sets_error _ v hv

theorem wake_row_rejected (hinf : InfAdm α) (fl : Floats α) (p : Wake α) (data : Text) (h : ¬ ∃ q, p.reset fl data = (q, .ok ())) :
    (p.reset fl data).2 = .error .valueError := by
  by_cases hd : data = []
  · exact (h ⟨Wake.infs, by simp [Wake.reset, hd, Wake.sets_ok _ _ (Wake.infs_adm hinf)]⟩).elim
  rw [Wake.reset_eq hinf fl p data hd] at h ⊢
  cases ho : Wake.ofRow fl data with
  | none => rfl
  | some v =>
    rw [ho] at h
    by_cases hv : v.Adm
    · exact (h ⟨v, Wake.sets_ok _ _ hv⟩).elim
    · exact Wake.sets_error _ v hv

/-- C40: the empty text resets all values to infinity. -/
theorem row_empty (hinf : InfAdm α) (fl : Floats α) (p : Pt α) : p.reset fl [] = (Pt.infs, .ok ()) := by
  simp [Pt.reset, Pt.sets_ok _ _ (Pt.infs_adm hinf)]

theorem wake_row_empty (hinf : InfAdm α) (fl : Floats α) (p : Wake α) : p.reset fl [] = (Wake.infs, .ok ()) := by
  simp [Wake.reset, Wake.sets_ok _ _ (Wake.infs_adm hinf)]

theorem Pt.reset_adm (hinf : InfAdm α) (fl : Floats α) (p : Pt α) (data : Text) : (p.reset fl data).1.Adm := by
  by_cases hd : data = []
  · rw [hd, row_empty hinf]; exact Pt.infs_adm hinf
  rw [Pt.reset_eq hinf fl p data hd]
  split
  · exact Pt.infs_adm hinf
  · exact Pt.sets_adm _ _ (Pt.infs_adm hinf)

theorem Wake.reset_adm (hinf : InfAdm α) (fl : Floats α) (p : Wake α) (data : Text) : (p.reset fl data).1.Adm := by
  by_cases hd : data = []
  · rw [hd, wake_row_empty hinf]; exact Wake.infs_adm hinf
  rw [Wake.reset_eq hinf fl p data hd]
  split
  · exact Wake.infs_adm hinf
  · exact Wake.sets_adm _ _ (Wake.infs_adm hinf)

/-- The public calls on a record. -/
inductive RecordOp (α : Type)
  | set (f : Field) (v : α)
  | reset (data : Text)

def Pt.run (fl : Floats α) (p : Pt α) : RecordOp α → Pt α × Except Exc Unit
  | .set f v => p.set f v
  | .reset d => p.reset fl d

def Wake.run (fl : Floats α) (p : Wake α) : RecordOp α → Wake α × Except Exc Unit
  | .set f v => p.set f v
  | .reset d => p.reset fl d

theorem Pt.mk'_adm (hinf : InfAdm α) (fl : Floats α) (data : Text) (p : Pt α) (hp : Pt.mk' fl data = .ok p) : p.Adm := by
  have h := Pt.reset_adm hinf fl Pt.infs data
  rw [Pt.mk'] at hp
  rcases hr : (Pt.infs : Pt α).reset fl data with ⟨q, e | _⟩
  · rw [hr] at hp; cases hp
  · rw [hr] at hp h; cases hp; exact h

theorem Wake.mk'_adm (hinf : InfAdm α) (fl : Floats α) (data : Text) (p : Wake α) (hp : Wake.mk' fl data = .ok p) : p.Adm := by
  have h := Wake.reset_adm hinf fl Wake.infs data
  rw [Wake.mk'] at hp
  rcases hr : (Wake.infs : Wake α).reset fl data with ⟨q, e | _⟩
  · rw [hr] at hp; cases hp
  · rw [hr] at hp h; cases hp; exact h

/-- C40: whatever is done to a record, and whether or not it raises, it never holds inadmissible data. -/
theorem record_admissible (hinf : InfAdm α) (fl : Floats α) (data : Text) (p : Pt α) (hp : Pt.mk' fl data = .ok p) (ops : List (RecordOp α)) :
    (ops.foldl (fun p op => (p.run fl op).1) p).Adm := by
  have h := Pt.mk'_adm hinf fl data p hp
  clear hp
  induction ops generalizing p with
  | nil => exact h
  | cons op ops ih =>
    refine ih _ ?_
    cases op
    · exact Pt.set_adm _ h _ _
    · exact Pt.reset_adm hinf _ _ _

theorem wake_record_admissible (hinf : InfAdm α) (fl : Floats α) (data : Text) (p : Wake α) (hp : Wake.mk' fl data = .ok p)
    (ops : List (RecordOp α)) : (ops.foldl (fun p op => (p.run fl op).1) p).Adm := by
  have h := Wake.mk'_adm hinf fl data p hp
  clear hp
  induction ops generalizing p with
  | nil => exact h
  | cons op ops ih =>
    refine ih _ ?_
    cases op
    · exact Wake.set_adm _ h _ _
    · exact Wake.reset_adm hinf _ _ _

/-- An accepted row of text and its record. -/
theorem mk'_iff (hinf : InfAdm α) (fl : Floats α) (data : Text) (hd : data ≠ []) (q : Pt α) : Pt.mk' fl data = .ok q ↔
    Numbers fl data [q.s, q.x, q.y, q.u, q.deltaD, q.deltaM, q.cf, q.shapeD, q.shapeK, q.mom, q.mass, q.ke] ∧ q.Adm := by
  rw [← row_accepted_iff hinf fl Pt.infs q data hd, Pt.mk']
  rcases hr : (Pt.infs : Pt α).reset fl data with ⟨p, e | _⟩
  · simp
  · simp

theorem wake_mk'_iff (hinf : InfAdm α) (fl : Floats α) (data : Text) (hd : data ≠ []) (q : Wake α) : Wake.mk' fl data = .ok q ↔
    (∃ t, Numbers fl data [q.s, q.x, q.y, q.u, q.deltaD, q.deltaM, t, q.shapeD]) ∧ q.Adm := by
  rw [← wake_row_accepted_iff hinf fl Wake.infs q data hd, Wake.mk']
  rcases hr : (Wake.infs : Wake α).reset fl data with ⟨p, e | _⟩
  · simp
  · simp

end IBL.XFoil
