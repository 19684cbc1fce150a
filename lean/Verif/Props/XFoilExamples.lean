import Verif.Props.XFoilObject

/-! Concrete dump files: witnesses for C43 and C44, and cases that meet the hypotheses of the theorems. -/

set_option linter.unusedSectionVars false

namespace IBL.XFoil
open Spec

/-- A reader of the words used below. -/
noncomputable def exFloat : Floats ℝ := fun w => if w = "1".toList then some 1 else if w = "0".toList then some 0 else if w = "-1".toList then some (-1) else none

def exRow (u : String) : Text := ("1 1 1 " ++ u ++ " 1 1 1 1 1 1 1 1\n").toList

def exFiles (c : Text) : Files := fun _ => .ok c

noncomputable def exPt (u : ℝ) : Pt ℝ := ⟨1, 1, 1, u, 1, 1, 1, 1, 1, 1, 1, 1⟩

section
variable [PySpecial ℝ]

theorem exPt_adm (u : ℝ) : (exPt u).Adm := by
  refine ⟨?_, ?_, ?_, ?_, ?_, ?_⟩ <;> rw [Bool.eq_false_iff] <;> simp [exPt]

theorem exRow_mk (hinf : InfAdm ℝ) (w : String) (u : ℝ) (hs : (exRow w).split = ["1".toList, "1".toList, "1".toList, w.toList, "1".toList,
    "1".toList, "1".toList, "1".toList, "1".toList, "1".toList, "1".toList, "1".toList]) (hne : exRow w ≠ []) (hu : exFloat w.toList = some u) :
    Pt.mk' exFloat (exRow w) = .ok (exPt u) := by
  rw [mk'_iff hinf exFloat _ hne]
  refine ⟨?_, exPt_adm u⟩
  rw [numbers_iff, hs, mapM_some_iff]
  have h1 : exFloat "1".toList = some 1 := by simp [exFloat]
  exact (.cons h1 (.cons h1 (.cons h1 (.cons hu (.cons h1 (.cons h1 (.cons h1 (.cons h1 (.cons h1 (.cons h1 (.cons h1 (.cons h1 .nil))))))))))))

theorem ex_pos (hinf : InfAdm ℝ) : Pt.mk' exFloat (exRow "1") = .ok (exPt 1) :=
  exRow_mk hinf "1" 1 (by decide) (by decide) (by simp [exFloat])

theorem ex_zero (hinf : InfAdm ℝ) : Pt.mk' exFloat (exRow "0") = .ok (exPt 0) :=
  exRow_mk hinf "0" 0 (by decide) (by decide) (by simp [exFloat])

theorem ex_neg (hinf : InfAdm ℝ) : Pt.mk' exFloat (exRow "-1") = .ok (exPt (-1)) :=
  exRow_mk hinf "-1" (-1) (by decide) (by decide) (by simp [exFloat])

theorem ex_sections (a b : String) (h : readlines (exRow a ++ exRow b) = [exRow a, exRow b]) (ha : (exRow a).head? = some '1')
    (hl : (exRow a).length < 80) : Sections (readlines (exRow a ++ exRow b)) [exRow a, exRow b] [] := by
  rw [h]
  refine ⟨⟨[], by simp, .inl ⟨rfl, ?_⟩⟩, by simp, by simp, fun _ => .inr ⟨_, rfl, hl⟩⟩
  rintro l ⟨⟩
  rw [ha]; simp

/-- The two-row file is read. -/
theorem ex_read (hinf : InfAdm ℝ) : ∃ r, Reader.load exFloat (exFiles (exRow "1" ++ exRow "-1")) ['a'] = (r, .ok ()) :=
  wellformed_read hinf exFloat _ ['a'] _ (by simp) rfl [exRow "1", exRow "-1"] [] (ex_sections "1" "-1" (by decide) (by decide) (by decide)) []
    [] (exPt 1) (exPt (-1)) [] (.cons (ex_pos hinf) (.cons (ex_neg hinf) .nil)) .nil (by simp) (by simp [exPt]) (by simp [exPt]) (by simp [exPt]) (by simp)

/-- C43 is false for `x`: both neighbouring rows are at `x = 1`, the stagnation point between them is put at `x = 0`. -/
theorem stagnation_x_wrong (hinf : InfAdm ℝ) : ∃ (fl : Floats ℝ) (fs : Files) (name content : Text) (air : List Text) (a b : Pt ℝ) (r : Reader ℝ),
    Reader.load fl fs name = (r, .ok ()) ∧ fs name = .ok content ∧ Sections (readlines content) air [] ∧ Rows fl air [a, b] ∧ a.x = 1 ∧ b.x = 1 ∧
      0 < a.u ∧ b.u < 0 ∧ ∃ p, r.upperPts.head? = some p ∧ r.lowerPts.head? = some p ∧ p.x = 0 := by
  obtain ⟨r, hr⟩ := ex_read hinf
  have hrows : Rows exFloat [exRow "1", exRow "-1"] [exPt 1, exPt (-1)] := .cons (ex_pos hinf) (.cons (ex_neg hinf) .nil)
  have hsec := ex_sections "1" "-1" (by decide) (by decide) (by decide)
  refine ⟨exFloat, _, ['a'], _, _, exPt 1, exPt (-1), r, hr, rfl, hsec, hrows, rfl, rfl, by simp [exPt], by simp [exPt], ?_⟩
  obtain ⟨content, air, wk, us, ls, ws, hc, hld⟩ := load_ok _ _ _ (by simp) r hr
  cases Except.ok.inj hc
  have hd := dumpData_sections _ _ _ hld.sections
  rw [dumpData_sections _ _ _ hsec] at hd
  obtain ⟨rfl, rfl⟩ : [exRow "1", exRow "-1"] = air ∧ [] = wk := by
    have := Except.ok.inj hd; exact ⟨congrArg Prod.fst this, congrArg Prod.snd this⟩
  cases hld.divided with
  | none a hga hls hr' hu =>
    exfalso
    have e := rows_functional hr' hrows
    have := hu (exPt (-1)) (by rw [e]; simp)
    rw [lt_false] at this
    simp [exPt] at this
    linarith
  | «at» b lr hls hr' hu hb =>
    have e := rows_functional hr' hrows
    rw [hls] at e
    have hb0 : b.u < 0 := by simpa using hb
    obtain ⟨rfl, rfl, rfl⟩ : us = [exPt 1] ∧ b = exPt (-1) ∧ lr = [] := by
      cases us with
      | nil =>
        exfalso
        have := (List.cons.inj e).1
        rw [this] at hb0
        simp [exPt] at hb0
        linarith
      | cons x us =>
        obtain ⟨rfl, e⟩ := List.cons.inj e
        cases us with
        | nil => simp only [List.cons_append, List.nil_append, List.cons.injEq, true_and] at e; exact ⟨rfl, e.1, e.2⟩
        | cons y us => simp at e
    cases hld.placed with
    | shared a rest hus h0 =>
      exfalso
      obtain ⟨rfl, _⟩ := List.cons.inj hus
      simp [exPt] at h0
    | between a b ru rl hus hls' h0 frac hf p0 p hp0 hp hup hlo =>
      obtain ⟨rfl, _⟩ := List.cons.inj hus
      rw [hls] at hls'
      obtain ⟨rfl, _⟩ := List.cons.inj hls'
      rw [frac_real (by simp [exPt]) (by simp [exPt])] at hf
      have hpe := interpolate_ok _ _ _ _ _ hp
      refine ⟨{ p with s := 0 }, by rw [hup]; simp [Pt.at], by rw [hlo]; simp [Pt.at], ?_⟩
      rw [hpe, ← Except.ok.inj hf]
      simp [interpolated, exPt, Pt.flip]
      norm_num

/-- C44: a file with a row of exactly zero velocity that is rejected. -/
theorem zero_velocity_example (hinf : InfAdm ℝ) : ∃ (fl : Floats ℝ) (fs : Files) (name content : Text) (air : List Text) (a b : Pt ℝ),
    fs name = .ok content ∧ Sections (readlines content) air [] ∧ Rows fl air [a, b] ∧ a.u = 0 ∧ b.u < 0 ∧
      (Reader.load fl fs name).2 = .error .valueError :=
  ⟨exFloat, exFiles (exRow "0" ++ exRow "-1"), ['a'], _, [exRow "0", exRow "-1"], exPt 0, exPt (-1), rfl,
    ex_sections "0" "-1" (by decide) (by decide) (by decide), .cons (ex_zero hinf) (.cons (ex_neg hinf) .nil), rfl, by simp [exPt],
    zero_velocity_rejected exFloat _ ['a'] _ (by simp) rfl [exRow "0", exRow "-1"] [] (ex_sections "0" "-1" (by decide) (by decide) (by decide))
      [] [] (exPt 0) (exPt (-1)) (.cons (ex_zero hinf) (.cons (ex_neg hinf) .nil)) (by simp) rfl (by simp [exPt]) (by simp [exPt])⟩

end

/-- The hypothesis on infinity is met by the extended numbers. -/
theorem flt_infAdm : InfAdm (Flt ℝ) := by
  constructor <;> rfl

/-- ... and by the numbers with any positive value for infinity. -/
example : ∃ _ : PySpecial ℝ, InfAdm ℝ := ⟨⟨1, 0⟩, by constructor <;> rw [Bool.eq_false_iff] <;> simp [PySpecial.inf]⟩

end IBL.XFoil
