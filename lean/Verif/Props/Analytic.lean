import Verif.Lemmas.Analytic
import Verif.Lemmas.Flt

/-!
C32-C34: parameters, failures and the search of the similarity solutions. Any arithmetic unless the statement says otherwise.
-/

set_option linter.unusedSectionVars false

namespace IBL.Analytic

/-! ### All histories -/

section reached
variable {α : Type} [Add α] [Sub α] [Mul α] [Div α] [Neg α] [PyLit α] [PyCmp α] [PySpecial α]

/-- The objects that exist: made by a constructor, then any public calls (which may have raised), with any numerical tools. -/
inductive Reached : Sim α → Prop
  | falknerSkan (t : Tools α) (beta u nu : α) (fw e : Option α) (s : Sim α) : mkFalknerSkan t beta u nu fw e = .ok s → Reached s
  | blasius (t : Tools α) (u nu : α) (fw e : Option α) (s : Sim α) : mkBlasius t u nu fw e = .ok s → Reached s
  | call (s : Sim α) (op : Op α) : Reached s → Reached (s.step op).1

/-- The attributes that `set_solution_parameters` does not touch. -/
def Same (s s' : Sim α) : Prop :=
  s'.cls = s.cls ∧ s'.uRef = s.uRef ∧ s'.nuRef = s.nuRef ∧ s'.alpha = s.alpha ∧ s'.beta = s.beta ∧ s'.gamma = s.gamma

private theorem calc_same (s : Sim α) (t : Tools α) (fw e : Option α) : Same s (s.calculateSolution t fw e).1 := by
  simp only [Sim.calculateSolution]
  split
  · exact ⟨rfl, rfl, rfl, rfl, rfl, rfl⟩
  · split
    · exact ⟨rfl, rfl, rfl, rfl, rfl, rfl⟩
    · split <;> exact ⟨rfl, rfl, rfl, rfl, rfl, rfl⟩

private theorem thick_same (s : Sim α) (t : Tools α) (sol : α → V3 α) : Same s (s.thicknesses t sol).1 := by
  simp only [Sim.thicknesses]
  split
  · exact ⟨rfl, rfl, rfl, rfl, rfl, rfl⟩
  · split
    · exact ⟨rfl, rfl, rfl, rfl, rfl, rfl⟩
    · split
      · exact ⟨rfl, rfl, rfl, rfl, rfl, rfl⟩
      · split <;> exact ⟨rfl, rfl, rfl, rfl, rfl, rfl⟩

private theorem Same.trans {a b c : Sim α} (h1 : Same a b) (h2 : Same b c) : Same a c := by
  obtain ⟨p1, p2, p3, p4, p5, p6⟩ := h1
  obtain ⟨q1, q2, q3, q4, q5, q6⟩ := h2
  exact ⟨q1.trans p1, q2.trans p2, q3.trans p3, q4.trans p4, q5.trans p5, q6.trans p6⟩

theorem set_same (s : Sim α) (t : Tools α) (e fw : Option α) : Same s (s.setSolutionParameters t e fw).1 := by
  simp only [Sim.setSolutionParameters]
  split
  · exact ⟨rfl, rfl, rfl, rfl, rfl, rfl⟩
  · split
    · exact ⟨rfl, rfl, rfl, rfl, rfl, rfl⟩
    · have h := calc_same s t fw e
      split
      · next h1 => rw [h1] at h; exact h
      · next s' h1 =>
        rw [h1] at h
        split
        · exact h
        · exact h.trans (thick_same s' t _)

/-- What holds of the fixed attributes of every object. -/
def Good (s : Sim α) : Prop :=
  s.alpha = lit 1 ∧ s.gamma = lit 1 ∧ PyCmp.le s.uRef (lit 0) = false ∧ PyCmp.le s.nuRef (lit 0) = false ∧
    (s.cls = .blasius → s.beta = lit 0) ∧ (s.cls = .falknerSkan → badBeta s.beta = false)

private theorem good_of_same {s s' : Sim α} (h : Same s s') (g : Good s) : Good s' := by
  obtain ⟨p1, p2, p3, p4, p5, p6⟩ := h
  simp only [Good] at g ⊢
  rw [p1, p2, p3, p4, p5, p6]
  exact g

private theorem good_mkBase {t : Tools α} {cls : Cls} {u nu beta : α} {fw e : Option α} {s : Sim α}
    (h : mkBase t cls u nu (lit 1) beta (lit 1) fw e = .ok s) (h1 : cls = .blasius → beta = lit 0)
    (h2 : cls = .falknerSkan → badBeta beta = false) : Good s := by
  simp only [mkBase] at h
  split at h
  · cases h
  · next hu =>
    split at h
    · cases h
    · next hn =>
      split at h
      · cases h
      · next s' hs =>
        cases h
        have := set_same (⟨cls, u, nu, lit 1, beta, lit 1, none, lit (-1), lit (-1), lit (-1), lit (-1), lit (-1)⟩ : Sim α) t e fw
        rw [hs] at this
        exact good_of_same this ⟨rfl, rfl, by simpa using hu, by simpa using hn, h1, h2⟩

private theorem good_reset {s : Sim α} (hs : Good s) (hc : s.cls = .falknerSkan) (t : Tools α) (b : α) (e fw : Option α) :
    Good (s.resetBeta t b e fw).1 := by
  simp only [Sim.resetBeta]
  split
  · exact hs
  · next hb =>
    refine good_of_same (set_same _ t e fw) ⟨hs.1, hs.2.1, hs.2.2.1, hs.2.2.2.1, fun h => ?_, fun _ => by simpa using hb⟩
    rw [show ({ s with beta := b } : Sim α).cls = s.cls from rfl, hc] at h
    cases h

private theorem good_step {s : Sim α} (hs : Good s) (op : Op α) : Good (s.step op).1 := by
  cases op with
  | setURef u =>
    simp only [Sim.step, Sim.setURef]
    split
    · exact hs
    · next h => exact ⟨hs.1, hs.2.1, by simpa using h, hs.2.2.2.1, hs.2.2.2.2⟩
  | setNuRef u =>
    simp only [Sim.step, Sim.setNuRef]
    split
    · exact hs
    · next h => exact ⟨hs.1, hs.2.1, hs.2.2.1, by simpa using h, hs.2.2.2.2⟩
  | setSolutionParameters t e fw => exact good_of_same (set_same s t e fw) hs
  | resetBeta t b e fw =>
    simp only [Sim.step]
    split
    · next hc => exact good_reset hs hc t b e fw
    · exact hs
  | resetM t m e fw =>
    simp only [Sim.step, Sim.resetM]
    split
    · next hc =>
      split
      · exact good_reset hs hc t _ e fw
      · split
        · exact hs
        · exact good_reset hs hc t _ e fw
    · exact hs

theorem reached_good (s : Sim α) (h : Reached s) : Good s := by
  induction h with
  | falknerSkan t b u nu fw e s h =>
    simp only [mkFalknerSkan] at h
    split at h
    · cases h
    · next hb => exact good_mkBase h (fun h => by cases h) fun _ => by simpa using hb
  | blasius t u nu fw e s h =>
    simp only [mkBlasius] at h
    split at h <;> exact good_mkBase h (fun _ => rfl) fun h => by cases h
  | call s op _ ih => exact good_step ih op

end reached

/-- **C55**. In exact arithmetic every existing object has positive reference values and a wedge parameter in the documented range. -/
theorem reached_inRange [PySpecial ℝ] (s : Sim ℝ) (h : Reached s) : InRange s := by
  obtain ⟨h1, h2, h3, h4, h5, h6⟩ := reached_good s h
  have e1 : (lit 1 : ℝ) = 1 := by simp
  have e0 : (lit 0 : ℝ) = 0 := by simp
  have hu : 0 < s.uRef := by
    by_contra hc
    have : PyCmp.le s.uRef (lit 0) = true := by simpa using not_lt.1 hc
    rw [h3] at this; cases this
  have hn : 0 < s.nuRef := by
    by_contra hc
    have : PyCmp.le s.nuRef (lit 0) = true := by simpa using not_lt.1 hc
    rw [h4] at this; cases this
  cases hc : s.cls with
  | blasius =>
    have hb : s.beta = 0 := by rw [h5 hc, e0]
    exact ⟨by rw [h1, e1], by rw [h2, e1], by rw [hb]; norm_num, by rw [hb]; norm_num, fun _ => hb, hu, hn⟩
  | falknerSkan =>
    have hb := h6 hc
    simp only [badBeta, Bool.or_eq_false_iff] at hb
    have b1 : -19884/100000 ≤ s.beta := by
      by_contra hcon
      have : PyCmp.lt s.beta (lit (-19884/100000)) = true := by
        rw [real_lt, real_lit]; push_cast; exact not_le.1 hcon
      rw [hb.1] at this; cases this
    have b2 : s.beta ≤ 2 := by
      by_contra hcon
      have : PyCmp.gt s.beta (lit 2) = true := by
        rw [real_gt, real_lit]; push_cast; exact not_le.1 hcon
      rw [hb.2] at this; cases this
    exact ⟨by rw [h1, e1], by rw [h2, e1], b1, b2, fun h => by simp [hc] at h, hu, hn⟩

/-! ### C33 -/

section c33
variable {α : Type} [Add α] [Sub α] [Mul α] [Div α] [Neg α] [PyLit α] [PyCmp α] [PySpecial α]

/-- **C33**: a solution call that raises leaves everything as it was. -/
def FailureKeeps (α : Type) [Add α] [Sub α] [Mul α] [Div α] [Neg α] [PyLit α] [PyCmp α] [PySpecial α] : Prop :=
  ∀ (s : Sim α) (op : Op α) (e : Exc), Reached s → (s.step op).2 = .error e → (s.step op).1 = s

/-- Where the calls of a history leave an object unchanged when they raise: setting reference values, and parameters rejected before the
search (**C33**, the part that holds); a search whose integrations fail, too. -/
theorem failure_keeps_partial (s : Sim α) (op : Op α) (e : Exc) (h : (s.step op).2 = .error e)
    (hop : match op with
      | .setURef _ => True
      | .setNuRef _ => True
      | .setSolutionParameters t eta fw => badParam eta = true ∨ badParam fw = true ∨ ∃ e, search (s.endValues t) eta fw = .error e
      | .resetBeta _ b _ _ => badBeta b = true ∨ s.cls = .blasius
      | .resetM _ m _ _ => s.cls = .blasius ∨ (PyCmp.eq m PySpecial.inf = false ∧
          ∀ b, pyDiv (lit 2 * m) (lit 1 + m) = .ok b → badBeta b = true)) :
    (s.step op).1 = s := by
  cases op with
  | setURef u =>
    simp only [Sim.step, Sim.setURef] at h ⊢
    split
    · rfl
    · next hc => simp [hc] at h
  | setNuRef u =>
    simp only [Sim.step, Sim.setNuRef] at h ⊢
    split
    · rfl
    · next hc => simp [hc] at h
  | setSolutionParameters t eta fw =>
    simp only [Sim.step, Sim.setSolutionParameters]
    rcases hop with hop | hop | ⟨e', hop⟩
    · rw [if_pos hop]
    · rw [if_pos hop]
      split <;> rfl
    · split
      · rfl
      · split
        · rfl
        · simp [Sim.calculateSolution, hop]
  | resetBeta t b eta fw =>
    simp only [Sim.step]
    split
    · next hc =>
      rcases hop with hop | hop
      · simp [Sim.resetBeta, hop]
      · rw [hop] at hc; cases hc
    · rfl
  | resetM t m eta fw =>
    simp only [Sim.step]
    split
    · next hc =>
      rcases hop with hop | ⟨h1, h2⟩
      · rw [hop] at hc; cases hc
      · simp only [Sim.resetM, h1]
        cases hd : pyDiv (lit 2 * m) (lit 1 + m) with
        | error e => simp
        | ok b => simp [Sim.resetBeta, h2 b hd]
    · rfl

end c33

section c33fail
variable [PySpecial ℝ]

/-- Tools that always succeed: the integrator returns the constant state `y`. -/
noncomputable def goodTools (y : V3 ℝ) : Tools ℝ where
  ivp _ := .ok ⟨true, y, fun _ => y⟩
  quad _ _ _ := .ok 1
  root _ _ _ := .ok (true, 1)
/-- Tools whose integrator always reports failure. -/
noncomputable def failingTools : Tools ℝ where
  ivp _ := .ok ⟨false, (0, 0, 0), fun _ => (0, 0, 0)⟩
  quad _ _ _ := .ok 1
  root _ _ _ := .ok (true, 1)

/-- An object with wedge parameter 0, solved with both parameters supplied. -/
noncomputable def sample : Sim ℝ := ⟨.falknerSkan, 1, 1, 1, 0, 1, some fun _ => (0, 1, 1), 1, 1, 1, 1, 1⟩

theorem sample_made : mkFalknerSkan (goodTools (0, 1, 1)) 0 1 1 (some 1) (some 1) = .ok sample := by
  have h1 : badBeta (0:ℝ) = false := by
    simp only [badBeta, Bool.or_eq_false_iff]
    constructor
    · rw [Bool.eq_false_iff]; simp only [ne_eq, real_lt, real_lit]; push_cast; norm_num
    · rw [Bool.eq_false_iff]; simp only [ne_eq, real_gt, real_lit]; push_cast; norm_num
  have h2 : PyCmp.le (1:ℝ) (lit 0) = false := by
    rw [Bool.eq_false_iff]; simp only [ne_eq, real_le, real_lit]; push_cast; norm_num
  have h3 : PyCmp.eq ((1:ℝ) + 0) 0 = false := by
    rw [Bool.eq_false_iff]; simp
  simp [mkFalknerSkan, h1, mkBase, Sim.setSolutionParameters, badParam, Sim.calculateSolution, search, goodTools,
    Sim.thicknesses, Sim.fwPp, pyDiv, sample]
  norm_num

/-- **C33** is false: `reset_beta` with an admissible wedge parameter whose search fails has already stored the parameter, so that the object
then combines the new parameter with the old solution. -/
theorem failed_reset_changes_beta (b : ℝ) (hb : badBeta b = false) :
    (sample.step (.resetBeta failingTools b none none)).2 = .error .valueError ∧
      (sample.step (.resetBeta failingTools b none none)).1 = { sample with beta := b } := by
  simp [Sim.step, sample, Sim.resetBeta, hb, Sim.setSolutionParameters, badParam, Sim.calculateSolution, search, Sim.endValues,
    failingTools]

/-- **C33** is false also for `set_solution_parameters`: if the final integration fails, the old profile is gone and `eta_inf` is new, while
the thicknesses are still the old ones. -/
theorem failed_set_drops_solution :
    (sample.step (.setSolutionParameters failingTools (some 2) (some 1))).2 = .error .valueError ∧
      (sample.step (.setSolutionParameters failingTools (some 2) (some 1))).1 = { sample with etaInf := 2, f := none } := by
  have h2 : PyCmp.le (2:ℝ) (lit 0) = false := by
    rw [Bool.eq_false_iff]; simp only [ne_eq, real_le, real_lit]; push_cast; norm_num
  have h1 : PyCmp.le (1:ℝ) (lit 0) = false := by
    rw [Bool.eq_false_iff]; simp only [ne_eq, real_le, real_lit]; push_cast; norm_num
  simp only [Sim.step, sample, Sim.setSolutionParameters, badParam, h1, h2, Sim.calculateSolution, search, failingTools]
  simp

theorem failure_keeps_fails : ¬ FailureKeeps ℝ := fun H => by
  have h := failed_set_drops_solution
  have := H sample _ _ (.falknerSkan _ _ _ _ _ _ _ sample_made) h.1
  rw [h.2] at this
  have h2 := congrArg Sim.etaInf this
  simp [sample] at h2

end c33fail

/-! ### C32 -/

private theorem bad_fin (b : ℝ) : badBeta (Flt.fin b : Flt ℝ) = true ↔ b < -19884/100000 ∨ 2 < b := by
  simp only [badBeta, PyCmp.gt, Flt.lit_fin, Flt.fin_lt, Bool.or_eq_true, decide_eq_true_eq]
  push_cast
  rfl

private theorem pyDiv_fin (a b : ℝ) : pyDiv (Flt.fin a) (Flt.fin b) = if b = 0 then .error .zeroDivision else .ok (Flt.fin (a / b)) := by
  simp only [pyDiv, Flt.lit_fin, Flt.fin_eq, decide_eq_true_eq]
  by_cases h : b = 0
  · simp [h]
  · rw [if_neg (by simpa using h), if_neg h, Flt.fin_div _ _ h]

private theorem resetM_fin (s : Sim (Flt ℝ)) (t : Tools (Flt ℝ)) (r : ℝ) (e fw : Option (Flt ℝ)) :
    s.resetM t (.fin r) e fw = if r = -1 then (s, .error .zeroDivision) else s.resetBeta t (.fin (2 * r / (1 + r))) e fw := by
  have h0 : PyCmp.eq (Flt.fin r) (PySpecial.inf : Flt ℝ) = false := rfl
  have e1 : (lit 2 * Flt.fin r : Flt ℝ) = .fin (2 * r) := by simp
  have e2 : (lit 1 + Flt.fin r : Flt ℝ) = .fin (1 + r) := by simp
  simp only [Sim.resetM, h0, e1, e2, pyDiv_fin]
  by_cases h : r = -1
  · have : 1 + r = 0 := by linarith
    simp [h]
  · have : 1 + r ≠ 0 := fun h' => h (by linarith)
    simp [h, this]

theorem resetBeta_ok {α : Type} [Add α] [Sub α] [Mul α] [Div α] [Neg α] [PyLit α] [PyCmp α] [PySpecial α] (s : Sim α) (t : Tools α)
    (b : α) (e fw : Option α) (h : (s.resetBeta t b e fw).2 = .ok ()) :
    badBeta b = false ∧ (s.resetBeta t b e fw).1.beta = b := by
  simp only [Sim.resetBeta] at h ⊢
  cases hb : badBeta b with
  | true => simp [hb] at h
  | false => exact ⟨rfl, by simpa [hb] using (set_same { s with beta := b } t e fw).2.2.2.2.1⟩

/-- **C32**, first part: after `reset_m(m)` returned, reading `m` gives what was passed, for every number and for infinity. Extended reals; any
state, tools and solver parameters. -/
theorem reset_m_reads_back (s : Sim (Flt ℝ)) (t : Tools (Flt ℝ)) (m : Flt ℝ) (e fw : Option (Flt ℝ))
    (hm : m = .pinf ∨ ∃ r, m = .fin r) (h : (s.resetM t m e fw).2 = .ok ()) : (s.resetM t m e fw).1.m = .ok m := by
  rcases hm with rfl | ⟨r, rfl⟩
  · have e1 : s.resetM t .pinf e fw = s.resetBeta t (lit 2) e fw := rfl
    rw [e1] at h ⊢
    have hb := (resetBeta_ok s t _ e fw h).2
    simp only [Sim.m, hb]
    simp [PySpecial.inf]
  · rw [resetM_fin] at h ⊢
    split at h
    · cases h
    · next hr =>
      rw [if_neg hr]
      have hb := (resetBeta_ok s t _ e fw h).2
      have h1 : 1 + r ≠ 0 := fun h' => hr (by linarith)
      have e2 : 2 * r / (1 + r) ≠ 2 := fun h' => by
        rw [div_eq_iff h1] at h'; linarith
      have e3 : (lit 2 - Flt.fin (2 * r / (1 + r)) : Flt ℝ) = .fin (2 - 2 * r / (1 + r)) := by simp
      have e4 : ¬ PyCmp.eq (Flt.fin (2 * r / (1 + r)) : Flt ℝ) (lit 2) = true := by simpa using e2
      simp only [Sim.m, hb, e3, pyDiv_fin]
      rw [if_neg e4, if_neg (sub_ne_zero.2 e2.symm)]
      congr 2
      field_simp
      ring

/-- **C32**, second part: reading `m` and resetting with it is resetting with the same wedge parameter. -/
theorem beta_survives_m (s : Sim (Flt ℝ)) (t : Tools (Flt ℝ)) (b : ℝ) (e fw : Option (Flt ℝ)) (hb : s.beta = .fin b) (hb2 : b ≤ 2) :
    ∃ m, s.m = .ok m ∧ s.resetM t m e fw = s.resetBeta t (.fin b) e fw := by
  rcases eq_or_lt_of_le hb2 with rfl | hlt
  · refine ⟨.pinf, ?_, ?_⟩
    · simp [Sim.m, hb, PySpecial.inf]
    · simp [Sim.resetM, PySpecial.inf, PyCmp.eq, Flt.eq]
  · have e3 : (lit 2 - Flt.fin b : Flt ℝ) = .fin (2 - b) := by simp
    have h2 : 2 - b ≠ 0 := by linarith
    refine ⟨.fin (b / (2 - b)), ?_, ?_⟩
    · have e4 : ¬ PyCmp.eq (Flt.fin b : Flt ℝ) (lit 2) = true := by simpa using hlt.ne
      simp only [Sim.m, hb, e3, pyDiv_fin]
      rw [if_neg e4, if_neg h2]
    · rw [resetM_fin, if_neg, ]
      · congr 2
        field_simp
        ring
      · rw [div_eq_iff h2]
        intro h
        linarith

private theorem m_bad_iff (r : ℝ) (h1 : 1 + r ≠ 0) : (2 * r / (1 + r) < -19884/100000 ∨ 2 < 2 * r / (1 + r)) ↔ r < -19884/219884 := by
  rcases lt_or_gt_of_ne h1 with h | h
  · have e : 2 < 2 * r / (1 + r) := by rw [lt_div_iff_of_neg h]; linarith
    exact ⟨fun _ => by linarith, fun _ => .inr e⟩
  · have e : ¬ 2 < 2 * r / (1 + r) := by rw [lt_div_iff₀ h]; intro h'; linarith
    rw [div_lt_iff₀ h]
    constructor
    · rintro (h' | h')
      · linarith
      · exact absurd h' e
    · intro h'
      exact .inl (by linarith)

/-- **C32**, third part, for every solver behaviour: an inadmissible number raises and leaves the object unchanged. -/
theorem reset_m_rejects (s : Sim (Flt ℝ)) (t : Tools (Flt ℝ)) (r : ℝ) (e fw : Option (Flt ℝ)) (hr : r < -19884/219884) :
    ∃ exc, s.resetM t (.fin r) e fw = (s, .error exc) := by
  rw [resetM_fin]
  split
  · exact ⟨_, rfl⟩
  · next h =>
    have h1 : 1 + r ≠ 0 := fun h' => h (by linarith)
    have := (bad_fin (2 * r / (1 + r))).2 ((m_bad_iff r h1).2 hr)
    simp only [Sim.resetBeta, this]
    exact ⟨_, rfl⟩

/-- **C32**, third part: if the solver succeeds for every admissible wedge parameter, a number or infinity is accepted exactly when it is
infinite or at least -0.19884/2.19884. -/
theorem reset_m_accepts_iff (s : Sim (Flt ℝ)) (t : Tools (Flt ℝ)) (m : Flt ℝ) (e fw : Option (Flt ℝ)) (hm : m = .pinf ∨ ∃ r, m = .fin r)
    (ht : ∀ b, badBeta b = false → (({ s with beta := b } : Sim (Flt ℝ)).setSolutionParameters t e fw).2 = .ok ()) :
    (s.resetM t m e fw).2 = .ok () ↔ m = .pinf ∨ ∃ r, m = .fin r ∧ -19884/219884 ≤ r := by
  constructor
  · intro h
    rcases hm with rfl | ⟨r, rfl⟩
    · exact .inl rfl
    · refine .inr ⟨r, rfl, ?_⟩
      by_contra hr
      obtain ⟨exc, h2⟩ := reset_m_rejects s t r e fw (not_le.1 hr)
      rw [h2] at h
      cases h
  · rintro (rfl | ⟨r, rfl, hr⟩)
    · have h2 : badBeta (lit 2 : Flt ℝ) = false := by
        rw [Bool.eq_false_iff, ne_eq, Flt.lit_fin, bad_fin]
        push_cast; norm_num
      have e1 : s.resetM t .pinf e fw = s.resetBeta t (lit 2) e fw := rfl
      rw [e1]
      simp only [Sim.resetBeta, h2]
      exact ht _ h2
    · have h1 : 1 + r ≠ 0 := by intro h'; linarith
      have h2 : badBeta (.fin (2 * r / (1 + r)) : Flt ℝ) = false := by
        rw [Bool.eq_false_iff, ne_eq, bad_fin, m_bad_iff r h1]
        exact not_lt.2 hr
      rw [resetM_fin, if_neg (by intro h; apply h1; linarith)]
      simp only [Sim.resetBeta, h2]
      exact ht _ h2

/-- Beyond C32: minus infinity is accepted as well and stores NaN as wedge parameter. -/
theorem reset_m_minus_inf (s : Sim (Flt ℝ)) (t : Tools (Flt ℝ)) (e fw : Option (Flt ℝ)) :
    s.resetM t .ninf e fw = ({ s with beta := .nan } : Sim (Flt ℝ)).setSolutionParameters t e fw := by
  have h0 : PyCmp.eq (Flt.ninf : Flt ℝ) PySpecial.inf = false := rfl
  have e1 : (lit 2 * Flt.ninf : Flt ℝ) = .ninf := by
    show Flt.mul (.fin ((2:ℚ):ℝ)) .ninf = .ninf
    have : compare ((2:ℚ):ℝ) 0 = .gt := by rw [compare_gt_iff_gt]; norm_num
    simp only [Flt.mul, Flt.sgn, this, Flt.infTimes, Flt.neg]
  have e2 : (lit 1 + Flt.ninf : Flt ℝ) = .ninf := rfl
  have e3 : pyDiv (Flt.ninf : Flt ℝ) .ninf = .ok .nan := rfl
  simp only [Sim.resetM, h0, e1, e2, e3]
  rfl

/-- Non-vacuity of the solver hypothesis of `reset_m_accepts_iff`: a solver that succeeds, on an object with alpha 1. -/
example (s : Sim (Flt ℝ)) (hs : s.alpha = lit 1) (t : Tools (Flt ℝ)) (y : V3 (Flt ℝ))
    (h1 : ∀ p, t.ivp p = .ok ⟨true, y, fun _ => y⟩) (h2 : ∀ f a b, t.quad f a b = .ok (lit 1))
    (h3 : ∀ f a b, t.root f a b = .ok (true, lit 1)) (b : Flt ℝ) (hb : badBeta b = false) :
    (({ s with beta := b } : Sim (Flt ℝ)).setSolutionParameters t (some (lit 1)) (some (lit 1))).2 = .ok () := by
  have hp : badParam (some (lit 1 : Flt ℝ)) = false := by
    simp only [badParam, Flt.lit_fin, Flt.fin_le]; norm_num
  have hd : PyCmp.eq (lit 1 + b : Flt ℝ) (lit 0) = false := by
    cases b with
    | nan => rfl
    | ninf => rfl
    | pinf => rfl
    | fin b =>
      rw [Bool.eq_false_iff, ne_eq, bad_fin, not_or] at hb
      rw [Bool.eq_false_iff]
      simp only [Flt.lit_fin, Flt.fin_add, Flt.fin_eq, ne_eq, decide_eq_true_eq]
      push_cast
      intro h
      exact hb.1 (by linarith)
  simp [-Flt.lit_fin, Sim.setSolutionParameters, hp, Sim.calculateSolution, search, h1, Sim.thicknesses, h2, h3, pyDiv, hs, hd]

end IBL.Analytic
