import Verif.Model.Method
import Verif.Lemmas.PchipRound

/-! C156: initial conditions in rounded arithmetic. -/

set_option linter.unusedSectionVars false

namespace IBL

open Rounding
open Pchip (Near)

variable {R : Rounding} [PyPow R.F]

/-- The momentum thickness `a` and then the shape factor `h` are assigned. -/
noncomputable def afterAssigning (ext : Ext R.F) (o : Obj R.F) (a h : R.F) : Obj R.F := ((o.step ext (.setInitialDeltaM a)).1.step ext (.setInitialShapeD h)).1

private theorem assigned {ext : Ext R.F} {o : Obj R.F} (hc : o.cls = .head) {du nu dD dM dK : R.F} (hic : o.ic = .manual du nu dD dM dK) {a h : R.F}
    (ha : 0 < a.val) (hh : 0 < h.val) : (o.step ext (.setInitialDeltaM a)).2 = .ok none ∧
      ((o.step ext (.setInitialDeltaM a)).1.step ext (.setInitialShapeD h)).2 = .ok none ∧
      afterAssigning ext o a h = { o with ic := .manual du nu (h * a) a dK } := by
  have h1 : PyCmp.le a (lit 0) = false := by rw [Bool.eq_false_iff, ne_eq, F_le, val_zero]; exact not_le.2 ha
  have h2 : PyCmp.le h (lit 0) = false := by rw [Bool.eq_false_iff, ne_eq, F_le, val_zero]; exact not_le.2 hh
  simp [afterAssigning, Obj.step, Obj.setInitialDeltaM, Obj.setInitialShapeD, hic, h1, h2, hc, IC.assignDelM, IC.assignDelD, IC.deltaM, outOf]

private theorem quotient {a h : R.F} (ha : 0 < a.val) : pyDiv (h * a) a = .ok (h * a / a) := by
  have : PyCmp.eq a (lit 0) = false := by rw [Bool.eq_false_iff, ne_eq, F_eq, val_zero]; exact ha.ne'
  simp [pyDiv, this]

private theorem close {a h : R.F} (ha : 0 < a.val) : |(h * a / a).val - h.val| ≤ 2.1 * R.eps * |h.val| := by
  have e0 := R.eps_nonneg
  have e1 := R.small
  have n : Near R 2 (h * a / a).val (h.val * a.val / a.val) :=
    (((Near.refl (R := R) (h.val * a.val)).rd).div (Near.refl a.val)).rd
  rw [mul_div_cancel_right₀ _ ha.ne'] at n
  obtain ⟨l, -, hl, e⟩ := n.coef (by norm_num)
  rw [e, show l * h.val - h.val = (l - 1) * h.val by ring, abs_mul]
  refine mul_le_mul_of_nonneg_right (hl.trans ?_) (abs_nonneg _)
  norm_num
  nlinarith

/-- **C156**: momentum thickness, then shape factor, with a `ManualCondition`, any state of the object. Both are accepted; the thickness is read back and
the solve starts from it, to the last digit; the shape factor that is read back is the one the solve starts from, and it is the assigned one up to
two rounding errors. -/
theorem rounded_initial_values (ext : Ext R.F) (o : Obj R.F) (hc : o.cls = .head) (du nu dD dM dK : R.F) (hic : o.ic = .manual du nu dD dM dK) (a h : R.F)
    (ha : 0 < a.val) (hh : 0 < h.val) :
    (o.step ext (.setInitialDeltaM a)).2 = .ok none ∧ ((o.step ext (.setInitialDeltaM a)).1.step ext (.setInitialShapeD h)).2 = .ok none ∧
    (afterAssigning ext o a h).initialDeltaM = .ok a ∧ ∃ s : R.F, (afterAssigning ext o a h).initialShapeD = .ok s ∧ |s.val - h.val| ≤ 2.1 * R.eps * |h.val| ∧
      (1 ≤ h.val → 1 ≤ s.val) ∧ ∀ x0 x1 te p, ((afterAssigning ext o a h).prepare x0 x1 te).2 = .ok p → p.y0 = [a, s] := by
  obtain ⟨e1, e2, e3⟩ := assigned (ext := ext) hc hic ha hh
  refine ⟨e1, e2, by rw [e3]; rfl, h * a / a, by rw [e3]; exact quotient ha, close ha, fun h1 => ?_, fun x0 x1 te p hp => ?_⟩
  · have : a.val ≤ (h * a).val := by
      show a.val ≤ R.rd (h.val * a.val)
      calc a.val = R.rd a.val := a.rep.symm
        _ ≤ _ := R.mono (by nlinarith)
    show 1 ≤ R.rd ((h * a).val / a.val)
    rw [← R.rd_one]
    exact R.mono ((one_le_div ha).2 this)
  · rw [e3] at hp
    unfold Obj.prepare at hp
    simp only [IC.setNu] at hp
    split_ifs at hp
    · dsimp only at hp
      split at hp
      · cases hp
      · simp only [Obj.startVector, hc, IC.setDu, IC.deltaM, IC.shapeD, quotient ha, bind, Except.bind, pure, Except.pure, Except.ok.injEq] at hp
        rw [← hp]

/-- **C156**: shape factors keep their order. -/
theorem rounded_initial_order (ext : Ext R.F) (o : Obj R.F) (hc : o.cls = .head) (du nu dD dM dK : R.F) (hic : o.ic = .manual du nu dD dM dK) (a h h' : R.F)
    (ha : 0 < a.val) (hh : 0 < h.val) (hle : h.val ≤ h'.val) : ∃ s s' : R.F, (afterAssigning ext o a h).initialShapeD = .ok s ∧
      (afterAssigning ext o a h').initialShapeD = .ok s' ∧ s.val ≤ s'.val := by
  obtain ⟨-, -, e⟩ := assigned (ext := ext) hc hic ha hh
  obtain ⟨-, -, e'⟩ := assigned (ext := ext) hc hic ha (hh.trans_le hle)
  refine ⟨h * a / a, h' * a / a, by rw [e]; exact quotient ha, by rw [e']; exact quotient ha, ?_⟩
  show R.rd (R.rd (h.val * a.val) / a.val) ≤ R.rd (R.rd (h'.val * a.val) / a.val)
  exact R.mono (div_le_div_of_nonneg_right (R.mono (mul_le_mul_of_nonneg_right hle ha.le)) ha.le)

/-- Momentum thickness of the plane stagnation point flow by the similarity solution the code quotes: `eta_m = 0.29235`, `f''(0) = 1.23259`, `H = 2.2162`. -/
noncomputable def stagnationThickness (du nu : ℝ) : ℝ := Real.sqrt (nu * 0.29235 * 1.23259 / ((2.2162 + 2) * du))

/-- **C156**: the thickness of a stagnation condition is defined for every positive slope and viscosity, positive, and the exact one up to ten rounding errors;
the shape factor is 2.2162 rounded once. -/
theorem rounded_stagnation (du nu : R.F) (hd : 0 < du.val) (hn : 0 < nu.val) :
    ∃ m s : R.F, IC.deltaM (.stag du nu) = .ok m ∧ IC.shapeD (.stag du nu) = .ok s ∧ 0 < m.val ∧
      |m.val - stagnationThickness du.val nu.val| ≤ 10 * R.eps * stagnationThickness du.val nu.val ∧ |s.val - 2.2162| ≤ R.eps * 2.2162 := by
  have e0 := R.eps_nonneg
  have e1 := R.small
  have l1 : Near R 1 (IC.stagEtaM : R.F).val 0.29235 := by
    have h : (((29235/100000 : ℚ)) : ℝ) = 0.29235 := by push_cast; norm_num
    rw [← h]; exact (Near.refl _).rd
  have l2 : Near R 1 (IC.stagFpp0 : R.F).val 1.23259 := by
    have h : (((123259/100000 : ℚ)) : ℝ) = 1.23259 := by push_cast; norm_num
    rw [← h]; exact (Near.refl _).rd
  have l3 : Near R 1 (IC.stagShapeD : R.F).val 2.2162 := by
    have h : (((22162/10000 : ℚ)) : ℝ) = 2.2162 := by push_cast; norm_num
    rw [← h]; exact (Near.refl _).rd
  have l4 : Near R 1 (lit 2 : R.F).val 2 := by
    have h : (((2 : ℚ)) : ℝ) = 2 := by push_cast; rfl
    have h' := (Near.refl (R := R) (((2 : ℚ)) : ℝ)).rd
    rwa [h] at h'
  have a1 : Near R 4 (nu * IC.stagEtaM * IC.stagFpp0).val (nu.val * 0.29235 * 1.23259) := ((((Near.refl nu.val).mul l1).rd).mul l2).rd
  have a2 : Near R 3 ((IC.stagShapeD + lit 2) * du).val ((2.2162 + 2) * du.val) := (((l3.add l4 (.inl (by norm_num))).rd).mul (Near.refl du.val)).rd
  have a3 : Near R 8 (nu * IC.stagEtaM * IC.stagFpp0 / ((IC.stagShapeD + lit 2) * du)).val
      (nu.val * 0.29235 * 1.23259 / ((2.2162 + 2) * du.val)) := (a1.div a2).rd
  have hpos : 0 < ((IC.stagShapeD + lit 2) * du).val := a2.pos (by positivity)
  have hz : PyCmp.eq ((IC.stagShapeD + lit 2) * du) (lit 0) = false := by rw [Bool.eq_false_iff, ne_eq, F_eq, val_zero]; exact hpos.ne'
  have hq := a3.pos (by positivity)
  obtain ⟨l, hl0, hl, e⟩ := a3.coef (by norm_num)
  refine ⟨PySqrt.sqrt (nu * IC.stagEtaM * IC.stagFpp0 / ((IC.stagShapeD + lit 2) * du)), IC.stagShapeD, ?_, rfl, ?_, ?_, ?_⟩
  · simp only [IC.deltaM, pyDiv, hz, bind, Except.bind, pure, Except.pure, Bool.false_eq_true, if_false]
  · exact rd_pos (Real.sqrt_pos.2 hq)
  · show |R.rd (Real.sqrt _) - _| ≤ _
    rw [e, Real.sqrt_mul hl0.le]
    change |R.rd (Real.sqrt l * stagnationThickness du.val nu.val) - stagnationThickness du.val nu.val| ≤ _
    have hT : 0 ≤ stagnationThickness du.val nu.val := Real.sqrt_nonneg _
    generalize stagnationThickness du.val nu.val = T at hT
    have hr := R.rel (Real.sqrt l * T)
    have hs0 := Real.sqrt_nonneg l
    have hs : |Real.sqrt l - 1| ≤ |l - 1| := by
      have : l - 1 = (Real.sqrt l - 1) * (Real.sqrt l + 1) := by nlinarith [Real.mul_self_sqrt hl0.le]
      rw [this, abs_mul, abs_of_pos (by linarith : 0 < Real.sqrt l + 1)]
      nlinarith [abs_nonneg (Real.sqrt l - 1)]
    norm_num at hl
    have hb := hs.trans hl
    have hsl : Real.sqrt l ≤ 1.01 := by
      have := (abs_le.1 hb).2
      nlinarith
    rw [abs_of_nonneg (mul_nonneg hs0 hT)] at hr
    have h2 : |Real.sqrt l * T - T| ≤ 206 / 25 * R.eps * T := by
      rw [show Real.sqrt l * T - T = (Real.sqrt l - 1) * T by ring, abs_mul, abs_of_nonneg hT]
      exact mul_le_mul_of_nonneg_right hb hT
    have h3 := abs_sub_le (R.rd (Real.sqrt l * T)) (Real.sqrt l * T) T
    have h4 : R.eps * (Real.sqrt l * T) ≤ R.eps * (1.01 * T) := mul_le_mul_of_nonneg_left (mul_le_mul_of_nonneg_right hsl hT) e0
    nlinarith [mul_nonneg e0 hT]
  · have h : (((22162/10000 : ℚ)) : ℝ) = 2.2162 := by push_cast; norm_num
    have := R.rel (((22162/10000 : ℚ)) : ℝ)
    rw [h, abs_of_pos (by norm_num : (0:ℝ) < 2.2162), ← h] at this
    rw [← h]
    exact this

/-- The hypotheses can be met: a new object, thickness 1 and shape factor 2. -/
theorem rounded_initial_case [PySpecial R.F] (ext : Ext R.F) : ∃ (o : Obj R.F) (du nu dD dM dK a h : R.F),
    Obj.mkHead ext (lit 1) .none .none .none (lit 2) = .ok o ∧ o.cls = .head ∧ o.ic = .manual du nu dD dM dK ∧ a.val = 1 ∧ h.val = 2 := by
  have h1 : PyCmp.le (lit 1 : R.F) (lit 0) = false := by rw [Bool.eq_false_iff, ne_eq, F_le, val_zero, val_one]; norm_num
  unfold Obj.mkHead Obj.mkBase
  simp only [IC.mkStag, h1]
  exact ⟨_, _, _, _, _, _, lit 1, lit 2, rfl, rfl, rfl, val_one, by simpa using val_int (R := R) 2 (by norm_num)⟩

end IBL
