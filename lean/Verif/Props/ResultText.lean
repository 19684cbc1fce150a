import Verif.Model.ResultText
import Verif.Props.Method

/-!
C117: the printed form of an integration result.
-/

namespace IBL
variable {α : Type}

/-- Python floats and short arrays are printed on one line. -/
def OneLine (fmt : Format α) : Prop := (∀ x, '\n' ∉ fmt.num x) ∧ ∀ l, '\n' ∉ fmt.state l

private theorem splitOnAux_append (w a s : Text) (h : '\n' ∉ a) : splitOnAux '\n' w (a ++ '\n' :: s) = (w ++ a) :: splitOnAux '\n' [] s := by
  induction a generalizing w with
  | nil => simp [splitOnAux]
  | cons c a ih =>
    simp only [List.mem_cons, not_or] at h
    rw [List.cons_append, splitOnAux, if_neg (Ne.symm h.1), ih _ h.2]
    simp

private theorem splitOnAux_last (w a : Text) (h : '\n' ∉ a) : splitOnAux '\n' w a = [w ++ a] := by
  induction a generalizing w with
  | nil => simp [splitOnAux]
  | cons c a ih =>
    simp only [List.mem_cons, not_or] at h
    rw [splitOnAux, if_neg (Ne.symm h.1), ih _ h.2]
    simp

private theorem status_line (s : TermReason) : '\n' ∉ s.text.toList := by cases s <;> decide
private theorem bool_line (b : Bool) : '\n' ∉ boolText b := by cases b <;> decide

private theorem shape (fmt : Format α) (r : IntegrationResult α) : r.str fmt =
    "IntegrationResult:".toList ++ '\n' :: (("    x_end: ".toList ++ fmt.num r.xEnd) ++ '\n' :: (("    f_end: ".toList ++ fmt.state r.fEnd) ++
      '\n' :: (("    status: ".toList ++ r.status.text.toList) ++ '\n' :: (("    message: ".toList ++ r.message.toList) ++
      '\n' :: ("    success: ".toList ++ boolText r.success))))) := by
  have e : "\n".toList = ['\n'] := by decide +kernel
  have e' : "IntegrationResult:\n".toList = "IntegrationResult:".toList ++ ['\n'] := by decide +kernel
  unfold IntegrationResult.str
  rw [e', e]
  generalize "IntegrationResult:".toList = t0
  generalize "    x_end: ".toList = t1
  generalize "    f_end: ".toList = t2
  generalize "    status: ".toList = t3
  generalize "    message: ".toList = t4
  generalize "    success: ".toList = t5
  simp only [List.append_assoc, List.cons_append, List.nil_append]

private theorem label_line {l : Text} (hl : '\n' ∉ l) {t : Text} (ht : '\n' ∉ t) : '\n' ∉ l ++ t := by
  simp [hl, ht]

/-- **C117**, the layout: the lines of the printed form are a title and the five values with their names, if the message is one line. -/
theorem result_lines (fmt : Format α) (hf : OneLine fmt) (r : IntegrationResult α) (hm : '\n' ∉ r.message.toList) :
    (r.str fmt).splitOn '\n' = ["IntegrationResult:".toList, "    x_end: ".toList ++ fmt.num r.xEnd, "    f_end: ".toList ++ fmt.state r.fEnd,
      "    status: ".toList ++ r.status.text.toList, "    message: ".toList ++ r.message.toList, "    success: ".toList ++ boolText r.success] := by
  rw [shape, Text.splitOn, splitOnAux_append _ _ _ (by decide), splitOnAux_append _ _ _ (label_line (by decide) (hf.1 _)),
    splitOnAux_append _ _ _ (label_line (by decide) (hf.2 _)), splitOnAux_append _ _ _ (label_line (by decide) (status_line _)),
    splitOnAux_append _ _ _ (label_line (by decide) hm), splitOnAux_last _ _ (label_line (by decide) (bool_line _))]
  simp

private theorem cut {a b s t : Text} (ha : '\n' ∉ a) (hb : '\n' ∉ b) (h : a ++ '\n' :: s = b ++ '\n' :: t) : a = b ∧ s = t := by
  induction a generalizing b with
  | nil =>
    cases b with
    | nil => simpa using h
    | cons c b => simp only [List.nil_append, List.cons_append, List.cons.injEq] at h; simp [← h.1] at hb
  | cons c a ih =>
    simp only [List.mem_cons, not_or] at ha
    cases b with
    | nil => simp only [List.nil_append, List.cons_append, List.cons.injEq] at h; exact absurd h.1.symm ha.1
    | cons d b =>
      simp only [List.mem_cons, not_or] at hb
      simp only [List.cons_append, List.cons.injEq] at h
      obtain ⟨h1, h2⟩ := ih ha.2 hb.2 h.2
      exact ⟨by rw [h.1, h1], h2⟩

private theorem tail_cut {m1 m2 : Text} {b1 b2 : Bool}
    (h : m1 ++ '\n' :: ("    success: ".toList ++ boolText b1) = m2 ++ '\n' :: ("    success: ".toList ++ boolText b2)) : m1 = m2 ∧ b1 = b2 := by
  have hr := congrArg List.reverse h
  cases b1 <;> cases b2
  · exact ⟨List.append_cancel_right h, rfl⟩
  · exfalso
    simp only [List.reverse_append, List.reverse_cons, List.append_assoc] at hr
    have := congrArg (fun l : Text => l[1]?) hr
    have e1 : (boolText false).reverse = ['e', 's', 'l', 'a', 'F'] := by decide
    have e2 : (boolText true).reverse = ['e', 'u', 'r', 'T'] := by decide
    rw [e1, e2] at this
    simp at this
  · exfalso
    simp only [List.reverse_append, List.reverse_cons, List.append_assoc] at hr
    have := congrArg (fun l : Text => l[1]?) hr
    have e1 : (boolText false).reverse = ['e', 's', 'l', 'a', 'F'] := by decide
    have e2 : (boolText true).reverse = ['e', 'u', 'r', 'T'] := by decide
    rw [e1, e2] at this
    simp at this
  · exact ⟨List.append_cancel_right h, rfl⟩

/-- **C117**: two results that are printed alike have the same status, message (whatever it contains) and success flag, and end locations and states
that are printed alike. -/
theorem result_text_determines (fmt : Format α) (hf : OneLine fmt) (r1 r2 : IntegrationResult α) (h : r1.str fmt = r2.str fmt) :
    fmt.num r1.xEnd = fmt.num r2.xEnd ∧ fmt.state r1.fEnd = fmt.state r2.fEnd ∧ r1.status = r2.status ∧ r1.message = r2.message ∧
      r1.success = r2.success := by
  rw [shape, shape] at h
  obtain ⟨-, h⟩ := cut (by decide) (by decide) h
  obtain ⟨h1, h⟩ := cut (label_line (by decide) (hf.1 _)) (label_line (by decide) (hf.1 _)) h
  obtain ⟨h2, h⟩ := cut (label_line (by decide) (hf.2 _)) (label_line (by decide) (hf.2 _)) h
  obtain ⟨h3, h⟩ := cut (label_line (by decide) (status_line _)) (label_line (by decide) (status_line _)) h
  rw [List.append_assoc, List.append_assoc] at h
  obtain ⟨h4, h5⟩ := tail_cut (List.append_cancel_left h)
  refine ⟨List.append_cancel_left h1, List.append_cancel_left h2, ?_, String.toList_injective h4, h5⟩
  exact (reason_text_injective _ _).1.1 (String.toList_injective (List.append_cancel_left h3))

/-- A case: a run that ended by separation. -/
example : let fmt : Format ℕ := ⟨fun n => List.replicate n '1', fun _ => []⟩
    OneLine fmt ∧ String.ofList ((⟨2, [], .separated, "Separated", true⟩ : IntegrationResult ℕ).str fmt) =
      "IntegrationResult:\n    x_end: 11\n    f_end: \n    status: Separated\n    message: Separated\n    success: True" := by
  refine ⟨⟨fun x => ?_, fun _ => by simp⟩, by decide⟩
  simp [List.mem_replicate]

end IBL
