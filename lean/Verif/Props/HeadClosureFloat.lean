import Verif.Model.Method
import Verif.Props.SkinFrictionFloat

/-! C158: the closure relations and the right hand side of Head's method in rounded arithmetic. -/

set_option linter.unusedSectionVars false

namespace IBL.Head

open Rounding

variable {R : Rounding} [PyPow R.F]

private theorem lit_pos {q : ℚ} (h : 0 < q) : 0 < (lit q : R.F).val := rd_pos (by exact_mod_cast h)

private theorem lit_le {p q : ℚ} (h : p ≤ q) : (lit p : R.F).val ≤ (lit q : R.F).val := R.mono (by exact_mod_cast h)

/-- Literals far enough apart stay apart. -/
private theorem lit_lt (he : R.eps ≤ 1/10^5) {p q : ℚ} (h0 : 0 < p) (h : p * (1 + 1/10^5) < q * (1 - 1/10^5)) : (lit p : R.F).val < (lit q : R.F).val := by
  have e0 := R.eps_nonneg
  have p0 : (0:ℝ) < p := by exact_mod_cast h0
  have h' : (p:ℝ) * (1 + 1/10^5) < q * (1 - 1/10^5) := by
    have := (Rat.cast_lt (K := ℝ)).2 h
    push_cast at this
    exact this
  have q0 : (0:ℝ) < q := by nlinarith
  have a := (rd_bounds (R := R) p0.le).2
  have b := (rd_bounds (R := R) q0.le).1
  rw [val_lit, val_lit]
  nlinarith

private theorem lit_add_le (q : ℚ) {y : ℝ} (hy : 0 ≤ y) : (lit q : R.F).val ≤ R.rd ((lit q : R.F).val + y) := by
  have h : (lit q : R.F).val = R.rd (lit q : R.F).val := by rw [val_lit, R.idem]
  calc (lit q : R.F).val = R.rd (lit q : R.F).val := h
    _ ≤ _ := R.mono (by linarith)

private theorem clamp_gt (he : R.eps ≤ 1/10^5) (h : R.F) : (lit (11/10) : R.F).val < (clampShape h).val := by
  unfold clampShape
  by_cases c : h.val ≤ (lit (11/10) : R.F).val
  · rw [if_pos ((F_le _ _).2 c)]; exact lit_lt he (by norm_num) (by norm_num)
  · rw [if_neg (fun k => c ((F_le _ _).1 k))]; exact not_le.1 c

private theorem clamp_id (h : R.F) (hh : (lit (11/10) : R.F).val < h.val) : clampShape h = h := by
  unfold clampShape
  rw [if_neg (fun k => absurd ((F_le _ _).1 k) (not_le.2 hh))]

private theorem low_pos (E : Elementary R) (h : R.F) (hh : (lit (11/10) : R.F).val < h.val) (p : R.F) : 0 < (PyPow.pow (h - lit (11/10)) p).val :=
  E.pow_pos _ _ (rd_pos (sub_pos.2 hh))

private theorem high_pos (E : Elementary R) (h : R.F) (hh : (lit (11/10) : R.F).val < h.val) (p : R.F) : 0 < (PyPow.pow (h - lit (6778/10000)) p).val :=
  E.pow_pos _ _ (rd_pos (sub_pos.2 ((lit_le (by norm_num)).trans_lt hh)))

private theorem h1_cases (h : R.F) : ((clampShape h).val ≤ (lit (16/10) : R.F).val ∧ h1 h = h1Low (clampShape h)) ∨
    ((lit (16/10) : R.F).val < (clampShape h).val ∧ h1 h = h1High (clampShape h)) := by
  unfold h1
  by_cases c : (clampShape h).val ≤ (lit (16/10) : R.F).val
  · exact Or.inl ⟨c, if_pos ((F_le _ _).2 c)⟩
  · refine Or.inr ⟨not_le.1 c, ?_⟩
    simp only []
    rw [if_neg (fun k => c ((F_le _ _).1 k)), if_pos ((F_gt _ _).2 (not_le.1 c))]

/-! ### Entrainment shape factor -/

/-- **C158**, the entrainment shape factor is at least 3.3 for every shape factor. -/
theorem rounded_h1_ge (E : Elementary R) (he : R.eps ≤ 1/10^5) (h : R.F) : (lit (33/10) : R.F).val ≤ (h1 h).val := by
  have c := clamp_gt he h
  rcases h1_cases h with ⟨-, k⟩ | ⟨-, k⟩
  · rw [k]; exact lit_add_le _ (rd_pos (div_pos (lit_pos (by norm_num)) (low_pos E _ c _))).le
  · rw [k]
    exact (lit_le (by norm_num [dHigh])).trans (lit_add_le _ (rd_pos (div_pos (lit_pos (by norm_num)) (high_pos E _ c _))).le)

/-- **C158**, the entrainment shape factor does not increase with the shape factor on either side of 1.6. -/
theorem rounded_h1_anti (E : Elementary R) (h h' : R.F) (h0 : (lit (11/10) : R.F).val < h.val) (hh : h.val ≤ h'.val)
    (side : h'.val ≤ (lit (16/10) : R.F).val ∨ (lit (16/10) : R.F).val < h.val) : (h1 h').val ≤ (h1 h).val := by
  have h0' := h0.trans_le hh
  have a := h1_cases h
  have b := h1_cases h'
  rw [clamp_id h h0] at a
  rw [clamp_id h' h0'] at b
  rcases side with s | s
  · rcases a with ⟨-, a⟩ | ⟨k, -⟩
    · rcases b with ⟨-, b⟩ | ⟨k, -⟩
      · rw [a, b]
        refine R.mono (add_le_add_right (R.mono (div_le_div_of_nonneg_left (lit_pos (by norm_num)).le (low_pos E _ h0 _) ?_)) _)
        exact E.pow_mono _ _ _ (rd_nonneg (sub_nonneg.2 h0.le)) (R.mono (sub_le_sub_right hh _)) (lit_pos (by norm_num)).le
      · linarith
    · linarith
  · rcases a with ⟨k, -⟩ | ⟨-, a⟩
    · linarith
    · rcases b with ⟨k, -⟩ | ⟨-, b⟩
      · linarith
      · rw [a, b]
        refine R.mono (add_le_add_right (R.mono (div_le_div_of_nonneg_left (lit_pos (by norm_num)).le (high_pos E _ h0 _) ?_)) _)
        exact E.pow_mono _ _ _ (rd_nonneg (sub_nonneg.2 ((lit_le (by norm_num)).trans h0.le))) (R.mono (sub_le_sub_right hh _)) (lit_pos (by norm_num)).le

/-- **C158**, its derivative is negative for every shape factor. -/
theorem rounded_h1p_neg (E : Elementary R) (he : R.eps ≤ 1/10^5) (h : R.F) : (h1p h).val < 0 := by
  have c := clamp_gt he h
  have neg : ∀ (a b d : R.F), 0 < a.val → 0 < b.val → 0 < d.val → (-a * b / d).val < 0 := by
    intro a b d ha hb hd
    refine rd_neg (div_neg_of_neg_of_pos (rd_neg (mul_neg_of_neg_of_pos ?_ hb)) hd)
    show -a.val < 0
    linarith
  unfold h1p
  by_cases k : (clampShape h).val ≤ (lit (16/10) : R.F).val
  · simp only []
    rw [if_pos ((F_le _ _).2 k)]
    exact neg _ _ _ (lit_pos (by norm_num)) (lit_pos (by norm_num)) (low_pos E _ c _)
  · simp only []
    rw [if_neg (fun l => k ((F_le _ _).1 l)), if_pos ((F_gt _ _).2 (not_le.1 k))]
    exact neg _ _ _ (lit_pos (by norm_num)) (lit_pos (by norm_num)) (high_pos E _ c _)

/-! ### Entrainment velocity -/

private theorem three : (lit 3 : R.F).val = 3 := by simpa using val_int (R := R) 3 (by norm_num)

/-- **C158**, the entrainment velocity is positive for every entrainment shape factor. -/
theorem rounded_entrainment_pos (E : Elementary R) (he : R.eps ≤ 1/10^5) (e : R.F) : 0 < (entrainment e).val := by
  unfold entrainment
  have key : ∀ x : R.F, (lit 3 : R.F).val < x.val → 0 < (lit (306/10000) / PyPow.pow (x - lit 3) (lit (6169/10000)) : R.F).val :=
    fun x hx => rd_pos (div_pos (lit_pos (by norm_num)) (E.pow_pos _ _ (rd_pos (sub_pos.2 hx))))
  by_cases c : e.val ≤ (lit 3 : R.F).val
  · simp only []
    rw [if_pos ((F_le _ _).2 c)]
    exact key _ (lit_lt he (by norm_num) (by norm_num))
  · simp only []
    rw [if_neg (fun l => c ((F_le _ _).1 l))]
    exact key _ (not_le.1 c)

/-- **C158**, the entrainment velocity does not increase with the entrainment shape factor above 3. -/
theorem rounded_entrainment_anti (E : Elementary R) (e e' : R.F) (h0 : 3 < e.val) (hh : e.val ≤ e'.val) : (entrainment e').val ≤ (entrainment e).val := by
  have t := three (R := R)
  have c : ∀ x : R.F, 3 < x.val → entrainment x = lit (306/10000) / PyPow.pow (x - lit 3) (lit (6169/10000)) := by
    intro x hx
    unfold entrainment
    simp only []
    rw [if_neg (fun l => absurd ((F_le _ _).1 l) (by rw [t]; exact not_le.2 hx))]
  have p : 0 < (e - lit 3 : R.F).val := rd_pos (by rw [t]; linarith)
  rw [c e h0, c e' (h0.trans_le hh)]
  exact R.mono (div_le_div_of_nonneg_left (lit_pos (by norm_num)).le (E.pow_pos _ _ p)
    (E.pow_mono _ _ _ p.le (R.mono (sub_le_sub_right hh _)) (lit_pos (by norm_num)).le))

/-! ### Shape factor from entrainment shape factor -/

/-- **C158**, converting back gives at least 0.6778 for every number, and at least 1.1 for entrainment shape factors above that of 1.6. -/
theorem rounded_hOf_ge (E : Elementary R) (he : R.eps ≤ 1/10^5) (e : R.F) : (lit (6778/10000) : R.F).val ≤ (hOf e).val ∧
    ((lit dHigh : R.F).val < e.val → (h1 (lit (16/10) : R.F)).val < e.val → (lit (11/10) : R.F).val ≤ (hOf e).val) := by
  have hb := rounded_h1_ge E he (lit (16/10))
  have key : ∀ x : R.F, (lit dHigh : R.F).val < x.val → ∀ y : R.F,
      y = (if PyCmp.le x (h1 (lit (16/10) : R.F)) then hOfLow x else if PyCmp.gt x (h1 (lit (16/10) : R.F)) then hOfHigh x else lit 0) →
      (lit (6778/10000) : R.F).val ≤ y.val ∧ ((h1 (lit (16/10) : R.F)).val < x.val → (lit (11/10) : R.F).val ≤ y.val) := by
    intro x hx y hy
    by_cases c : x.val ≤ (h1 (lit (16/10) : R.F)).val
    · rw [if_pos ((F_le _ _).2 c)] at hy
      subst hy
      exact ⟨lit_add_le _ (E.pow_nonneg _ _ (rd_nonneg (div_nonneg (lit_pos (by norm_num)).le (rd_nonneg (sub_nonneg.2 hx.le))))), fun k => absurd c (not_le.2 k)⟩
    · rw [if_neg (fun l => c ((F_le _ _).1 l)), if_pos ((F_gt _ _).2 (not_le.1 c))] at hy
      subst hy
      have g : (lit (11/10) : R.F).val ≤ (hOfHigh x).val :=
        lit_add_le _ (E.pow_nonneg _ _ (rd_nonneg (div_nonneg (lit_pos (by norm_num)).le (rd_nonneg (sub_nonneg.2 (hb.trans (not_le.1 c).le))))))
      exact ⟨(lit_le (by norm_num)).trans g, fun _ => g⟩
  by_cases c : e.val ≤ (lit dHigh : R.F).val
  · refine ⟨(key (lit (3323/1000)) (lit_lt he (by norm_num [dHigh]) (by norm_num [dHigh])) (hOf e) ?_).1, fun k => absurd c (not_le.2 k)⟩
    unfold hOf
    simp only []
    rw [if_pos ((F_le _ _).2 c)]
  · have := key e (not_le.1 c) (hOf e) (by
      unfold hOf
      simp only []
      rw [if_neg (fun l => c ((F_le _ _).1 l))])
    exact ⟨this.1, fun _ => this.2⟩

/-! ### Right hand side -/

private theorem floor_pos (u : R.F) : 0 < (floorScalar u).val := by
  unfold floorScalar
  have p : 0 < (lit (1/1000) : R.F).val := lit_pos (by norm_num)
  by_cases c : u.val < (lit (1/1000) : R.F).val
  · rw [if_pos ((F_gt _ _).2 c)]; exact p
  · rw [if_neg (fun l => c ((F_gt _ _).1 l))]; exact p.trans_le (not_lt.1 c)

private theorem odeClamp_ge (h : R.F) : (lit (111/100) : R.F).val ≤ (odeClamp h).val := by
  unfold odeClamp
  by_cases c : h.val < (lit (111/100) : R.F).val
  · rw [if_pos ((F_lt _ _).2 c)]
  · rw [if_neg (fun l => c ((F_lt _ _).1 l))]; exact not_lt.1 c

/-- **C158**, the right hand side never divides by zero: with the replacements made by `_ode_impl`, the velocity, the Reynolds number and the skin
friction are positive and the divisor of the second rate is negative. -/
theorem rounded_rates_defined (E : Elementary R) (he : R.eps ≤ 1/10^5) (nu u dm h : R.F) (hnu : 0 < nu.val) (hdm : 0 < dm.val) :
    0 < (floorScalar u).val ∧ 0 < (floorScalar u * dm / nu : R.F).val ∧ 0 < (ludwiegTillman (floorScalar u * dm / nu) (odeClamp h)).val ∧
    (h1p (odeClamp h) * floorScalar u * dm : R.F).val < 0 := by
  have hu := floor_pos u
  have hre : 0 < (floorScalar u * dm / nu : R.F).val := rd_pos (div_pos (rd_pos (mul_pos hu hdm)) hnu)
  exact ⟨hu, hre, rounded_ludwieg_tillman_pos E _ _ hre, rd_neg (mul_neg_of_neg_of_pos (rd_neg (mul_neg_of_neg_of_pos (rounded_h1p_neg E he _) hu)) hdm)⟩

/-- **C158**, the momentum thickness grows wherever the flow is not accelerated. -/
theorem rounded_thickness_grows (E : Elementary R) (nu u du dm h : R.F) (hnu : 0 < nu.val) (hdm : 0 < dm.val) (hdu : du.val ≤ 0) :
    0 < (rates nu (floorScalar u) du dm (odeClamp h)).1.val := by
  have hu := floor_pos u
  have hre : 0 < (floorScalar u * dm / nu : R.F).val := rd_pos (div_pos (rd_pos (mul_pos hu hdm)) hnu)
  have cf := rounded_ludwieg_tillman_pos E _ (odeClamp h) hre
  have hH : 0 < (odeClamp h).val := (lit_pos (by norm_num)).trans_le (odeClamp_ge h)
  have h2 : 0 < (lit 2 + odeClamp h : R.F).val := rd_pos (add_pos (lit_pos (by norm_num)) hH)
  have a : 0 < (lit (1/2) * ludwiegTillman (floorScalar u * dm / nu) (odeClamp h) : R.F).val := rd_pos (mul_pos (lit_pos (by norm_num)) cf)
  have b : (dm * (lit 2 + odeClamp h) * du / floorScalar u : R.F).val ≤ 0 :=
    rd_nonpos (div_nonpos_of_nonpos_of_nonneg (rd_nonpos (mul_nonpos_of_nonneg_of_nonpos (rd_pos (mul_pos hdm h2)).le hdu)) hu.le)
  exact rd_pos (by linarith)

/-- **C158**, the stronger the acceleration, the slower the momentum thickness grows. -/
theorem rounded_thickness_order (nu u du du' dm h : R.F) (hdm : 0 < dm.val) (hdu : du.val ≤ du'.val) :
    (rates nu (floorScalar u) du' dm (odeClamp h)).1.val ≤ (rates nu (floorScalar u) du dm (odeClamp h)).1.val := by
  have hu := floor_pos u
  have hH : 0 < (odeClamp h).val := (lit_pos (by norm_num)).trans_le (odeClamp_ge h)
  have h2 : 0 < (lit 2 + odeClamp h : R.F).val := rd_pos (add_pos (lit_pos (by norm_num)) hH)
  exact R.mono (sub_le_sub_left (R.mono (div_le_div_of_nonneg_right (R.mono (mul_le_mul_of_nonneg_left hdu (rd_pos (mul_pos hdm h2)).le)) hu.le)) _)

/-- **C158**, for the object: wherever velocity and slope can be evaluated the right hand side handed to the integrator is a pair of numbers, and the first
is positive if the flow is not accelerated there. -/
theorem rounded_head_rhs (E : Elementary R) (o : Obj R.F) (x u du dm h : R.F) (hu : o.vel.uE x = .ok u) (hd : o.vel.duE x = .ok du)
    (hnu : 0 < o.nu.val) (hdm : 0 < dm.val) : ∃ a b, o.headRhs x dm h = .ok (a, b) ∧ (du.val ≤ 0 → 0 < a.val) := by
  refine ⟨_, (rates o.nu (floorScalar u) du dm (odeClamp h)).2, ?_, fun k => rounded_thickness_grows E o.nu u du dm h hnu hdm k⟩
  simp only [Obj.headRhs, hu, hd, bind, Except.bind, pure, Except.pure]

/-- The hypotheses can be met: double precision, correctly rounded library functions, shape factors 1.25 and 1.5, entrainment shape factors 4 and 5,
viscosity and thickness 1, decelerated flow. -/
theorem rounded_closure_case : ∃ (R : Rounding) (_ : PyPow R.F) (h h' e e' one du : R.F), Elementary R ∧ R.eps ≤ 1/10^5 ∧
    (lit (11/10) : R.F).val < h.val ∧ h.val < h'.val ∧ h'.val ≤ (lit (16/10) : R.F).val ∧ 3 < e.val ∧ e.val < e'.val ∧ 0 < one.val ∧ du.val < 0 := by
  obtain ⟨R, hR⟩ : ∃ R : Rounding, R.eps = (1/2) ^ 53 := ⟨Rounding.binary 53 (by norm_num), rfl⟩
  have he : R.eps ≤ 1/10^5 := by rw [hR]; norm_num
  let inst : PyPow R.F := ⟨fun x p => R.round (x.val ^ p.val), fun x => R.round (Real.exp x.val), fun x => R.round (Real.logb 10 x.val)⟩
  refine ⟨R, inst, lit (5/4), lit (3/2), lit 4, lit 5, lit 1, -lit 1, elementary_correct, he, lit_lt he (by norm_num) (by norm_num), lit_lt he (by norm_num) (by norm_num),
    lit_le (by norm_num), ?_, lit_lt he (by norm_num) (by norm_num), lit_pos (by norm_num), ?_⟩
  · rw [← three (R := R)]; exact lit_lt he (by norm_num) (by norm_num)
  · rw [val_neg, val_one]; norm_num

end IBL.Head
