import Verif.Model.FitsArray
import Verif.Model.Method
import Verif.Lemmas.FiniteDiff
import Mathlib.Analysis.Calculus.Deriv.Inv
import Mathlib.Analysis.SpecialFunctions.Pow.Deriv
import Mathlib.Topology.Order.IntermediateValue
import Mathlib.Tactic.NormNum
import Mathlib.Tactic.Positivity

/-!
Properties C12-C15 of the Thwaites data fits.
-/

namespace IBL
open Fits

/-! ### C12 -/

section generic
variable {α : Type} [PyCmp α]

/-- What a fit with range limits `lo hi` (`none` is infinite) should see for `lam`: the nearest limit when outside. -/
inductive Clipped (lo hi : Option α) (lam : α) : α → Prop
  | below (l : α) (h : lo = some l) (hl : PyCmp.lt lam l = true) : Clipped lo hi lam l
  | above (u : α) (h : hi = some u) (hu : PyCmp.gt lam u = true)
      (hl : ∀ l, lo = some l → PyCmp.lt lam l = false) : Clipped lo hi lam u
  | inside (hl : ∀ l, lo = some l → PyCmp.lt lam l = false)
      (hu : ∀ u, hi = some u → PyCmp.gt lam u = false) : Clipped lo hi lam lam

/-- **C12**, single values, any arithmetic: the fit functions are evaluated at the clipped lambda. -/
theorem fit_argument_clipped (m : Fits α) (lam : α) :
    ∃ c, Clipped m.lo m.hi lam c ∧ m.shapeAt lam = m.shape c ∧ m.shearAt lam = m.shear c := by
  refine ⟨m.checkRange lam, ?_, rfl, rfl⟩
  unfold checkRange
  rcases hlo : m.lo with _ | l <;> rcases hhi : m.hi with _ | u <;> dsimp only
  · exact .inside (fun _ h => by cases h) (fun _ h => by cases h)
  · split_ifs with h
    · exact .above u rfl h (fun _ h => by cases h)
    · exact .inside (fun _ h => by cases h) (fun _ h' => by cases h'; simpa using h)
  · split_ifs with h
    · exact .below l rfl h
    · exact .inside (fun _ h' => by cases h'; simpa using h) (fun _ h => by cases h)
  · split_ifs with h h2
    · exact .below l rfl h
    · exact .above u rfl h2 (fun _ h' => by cases h'; simpa using h)
    · exact .inside (fun _ h' => by cases h'; simpa using h) (fun _ h' => by cases h'; simpa using h2)

/-- **C12** for arrays, as stated: each element is treated as if it were alone. -/
def ArrayClipped (m : Fits α) : Prop := ∀ lams, m.shapeArr lams = lams.map m.shapeAt

/-- **C12** for arrays, what holds: arrays that do not exceed the range on both sides (missing: arrays that do). -/
theorem array_clipped_partial (m : Fits α) (lams : List α)
    (h : (∀ lam ∈ lams, ∀ l, m.lo = some l → PyCmp.lt lam l = false) ∨
      ∀ lam ∈ lams, ∀ u, m.hi = some u → PyCmp.gt lam u = false) :
    m.shapeArr lams = lams.map m.shapeAt ∧ m.shearArr lams = lams.map m.shearAt := by
  suffices hc : m.checkRangeArr lams = lams.map m.checkRange by
    simp only [shapeArr, shearArr, hc, List.map_map]
    exact ⟨rfl, rfl⟩
  unfold checkRangeArr
  dsimp only
  split_ifs with h1 h2
  · rcases h with h | h
    · exfalso
      simp only [List.any_eq_true] at h1
      obtain ⟨lam, hm, h1⟩ := h1
      rcases hlo : m.lo with _ | l
      · simp [hlo] at h1
      · rw [hlo] at h1; simp [h lam hm l hlo] at h1
    · apply List.map_congr_left
      intro lam hm
      unfold checkRange
      rcases hlo : m.lo with _ | l <;> rcases hhi : m.hi with _ | u <;> dsimp only
      · rw [h lam hm u hhi]; simp
      · rw [h lam hm u hhi]; simp
  · apply List.map_congr_left
    intro lam hm
    unfold checkRange
    rcases hlo : m.lo with _ | l <;> rcases hhi : m.hi with _ | u <;> dsimp only
    · rw [hlo] at h1
      have : PyCmp.lt lam l = false := by
        simp only [List.any_eq_true, not_exists, not_and, Bool.not_eq_true] at h1
        exact h1 lam hm
      simp [this]
    · rw [hlo] at h1
      have : PyCmp.lt lam l = false := by
        simp only [List.any_eq_true, not_exists, not_and, Bool.not_eq_true] at h1
        exact h1 lam hm
      simp [this]
  · conv_lhs => rw [← List.map_id lams]
    apply List.map_congr_left
    intro lam hm
    simp only [List.any_eq_true, not_exists, not_and, Bool.not_eq_true] at h1 h2
    have h1 := h1 lam hm
    have h2 := h2 lam hm
    unfold checkRange
    rcases hlo : m.lo with _ | l <;> rcases hhi : m.hi with _ | u <;> simp only [hlo, hhi] at h1 h2 <;> simp [h1, h2]

end generic

/-- **C12** for arrays is false of the code: the Cebeci-Bradshaw fit on `[-1, 1]` (the second element stays outside of the
range). -/
theorem array_clipped_fails : ¬ ArrayClipped (cebeciBradshaw : Fits ℝ) := by
  intro H
  have := H [-1, 1]
  simp only [shapeArr, checkRangeArr, cebeciBradshaw, List.map_cons, List.map_nil, shapeAt, checkRange, piecewise0,
    List.any_cons, List.any_nil, real_lt, real_gt, real_ge, real_lit] at this
  norm_num at this

example : ∀ lam ∈ [(-1:ℝ), 0, 1/20], ∀ u, (cebeciBradshaw : Fits ℝ).hi = some u → PyCmp.gt lam u = false := by
  intro lam hm u hu
  simp only [cebeciBradshaw, Option.some.injEq, real_lit] at hu
  rw [← Bool.not_eq_true, real_gt, ← hu]
  simp only [List.mem_cons, List.not_mem_nil, or_false] at hm
  rcases hm with rfl | rfl | rfl <;> norm_num

/-! ### Closed forms over the reals -/

theorem white_clip (lam : ℝ) : (Fits.white : Fits ℝ).checkRange lam = max lam (-9/100) := by
  simp only [checkRange, Fits.white, real_lt, real_lit]
  split_ifs with h
  · push_cast at h ⊢; rw [max_eq_right h.le]
  · push_cast at h; rw [max_eq_left (not_lt.1 h)]

theorem drela_clip (lam : ℝ) : (drela : Fits ℝ).checkRange lam = max lam (-9/100) := by
  simp only [checkRange, drela, real_lt, real_lit]
  split_ifs with h
  · push_cast at h ⊢; rw [max_eq_right h.le]
  · push_cast at h; rw [max_eq_left (not_lt.1 h)]

theorem cb_clip (lam : ℝ) : (cebeciBradshaw : Fits ℝ).checkRange lam = min (max lam (-1/10)) (1/10) := by
  simp only [checkRange, cebeciBradshaw, real_lt, real_gt, real_lit]
  split_ifs with h h2
  · push_cast at h ⊢; rw [max_eq_right h.le, min_eq_left (by norm_num)]
  · push_cast at h h2 ⊢; rw [max_eq_left (not_lt.1 h), min_eq_right h2.le]
  · push_cast at h h2 ⊢; rw [max_eq_left (not_lt.1 h), min_eq_left (not_lt.1 h2)]

/-! ### C13 -/

private theorem white_hasDeriv (lam : ℝ) : HasDerivAt (Fits.white : Fits ℝ).shape
    (match (Fits.white : Fits ℝ).shapeP with | .fn f => f lam | .fdOfShape => 0) lam := by
  have hz : HasDerivAt (fun lam : ℝ => (1/4 : ℝ) - lam) (-1) lam := by
    simpa using (hasDerivAt_id lam).const_sub (1/4 : ℝ)
  have h1 := hz.mul_const (4576 : ℝ)
  have h2 := hz.mul (h1.const_add (-3337 : ℝ))
  have h3 := hz.mul (h2.const_add (854 : ℝ))
  have h4 := hz.mul (h3.const_add (-835/10 : ℝ))
  have h5 := hz.mul (h4.const_add (414/100 : ℝ))
  have h6 := h5.const_add (2 : ℝ)
  have e : (Fits.white : Fits ℝ).shape = fun lam : ℝ => 2 + (1/4 - lam) * (414/100 + (1/4 - lam) * (-835/10 + (1/4 - lam) *
      (854 + (1/4 - lam) * (-3337 + (1/4 - lam) * 4576)))) := by
    funext lam; simp only [Fits.white, real_lit]; push_cast; ring
  rw [e]
  refine HasDerivAt.congr_deriv h6 ?_
  simp only [Fits.white, real_lit, Pi.mul_apply]
  push_cast
  ring

private theorem drela_hasDeriv (lam : ℝ) (h : lam + 18/100 ≠ 0) : HasDerivAt (drela : Fits ℝ).shape
    (match (drela : Fits ℝ).shapeP with | .fn f => f lam | .fdOfShape => 0) lam := by
  have h1 := (hasDerivAt_id lam).const_mul (41/10 : ℝ)
  have h3 := (hasDerivAt_pow 3 lam).const_mul (14 : ℝ)
  have h2 := (hasDerivAt_pow 2 lam).const_mul (56/100 : ℝ)
  have hd : HasDerivAt (fun lam : ℝ => (lam + 18/100) ^ 2) (2 * (lam + 18/100)) lam := by
    have := ((hasDerivAt_id lam).add_const (18/100 : ℝ)).pow 2
    exact this.congr_deriv (by simp)
  have h4 := h2.div hd (pow_ne_zero 2 h)
  have h5 := ((h1.const_sub (261/100 : ℝ)).add h3).add h4
  have e : (drela : Fits ℝ).shape = fun lam : ℝ => 261/100 - 41/10 * lam + 14 * lam ^ 3 + 56/100 * lam ^ 2 / (lam + 18/100) ^ 2 := by
    funext lam; simp only [drela, real_lit]; push_cast; ring
  rw [e]
  refine HasDerivAt.congr_deriv h5 ?_
  simp only [drela, real_lit]
  push_cast
  field_simp
  ring

private theorem cb_hasDeriv (lam : ℝ) (h0 : lam ≠ 0) (h : -14/100 < lam) : HasDerivAt (cebeciBradshaw : Fits ℝ).shape
    (match (cebeciBradshaw : Fits ℝ).shapeP with | .fn f => f lam | .fdOfShape => 0) lam := by
  rcases lt_or_gt_of_ne h0 with hl | hl
  · have hne : (14/100 : ℝ) + lam ≠ 0 := by linarith
    have hd := ((hasDerivAt_id lam).const_add (14/100 : ℝ))
    have h1 := ((hd.inv hne).const_mul (731/10000 : ℝ)).const_add (2088/1000 : ℝ)
    have e : (cebeciBradshaw : Fits ℝ).shape =ᶠ[nhds lam] fun lam : ℝ => 2088/1000 + 731/10000 * (14/100 + lam)⁻¹ := by
      filter_upwards [eventually_lt_nhds hl] with t ht
      simp only [cebeciBradshaw, piecewise0, real_lt, real_lit]
      rw [if_pos (by exact_mod_cast ht)]
      push_cast; ring
    refine HasDerivAt.congr_of_eventuallyEq ?_ e
    refine HasDerivAt.congr_deriv h1 ?_
    simp only [cebeciBradshaw, piecewise0, real_lt, real_lit]
    rw [if_pos (by exact_mod_cast hl)]
    push_cast
    simp only [id]
    field_simp
  · have h1 := (hasDerivAt_id lam).const_mul (375/100 : ℝ)
    have h2 := (hasDerivAt_pow 2 lam).const_mul (524/100 : ℝ)
    have h3 := (h1.const_sub (261/100 : ℝ)).add h2
    have e : (cebeciBradshaw : Fits ℝ).shape =ᶠ[nhds lam] fun lam : ℝ => 261/100 - 375/100 * lam + 524/100 * lam ^ 2 := by
      filter_upwards [eventually_gt_nhds hl] with t ht
      simp only [cebeciBradshaw, piecewise0, real_lt, real_ge, real_lit]
      rw [if_neg (by push_cast; exact not_lt.2 ht.le), if_pos (by push_cast; exact ht.le)]
      push_cast; ring
    refine HasDerivAt.congr_of_eventuallyEq ?_ e
    refine HasDerivAt.congr_deriv h3 ?_
    simp only [cebeciBradshaw, piecewise0, real_lt, real_ge, real_lit]
    rw [if_neg (by push_cast; exact not_lt.2 hl.le), if_pos (by push_cast; exact hl.le)]
    push_cast
    ring

/-- **C13**, White: at every lambda inside the range the reported derivative is that of the reported shape factor. -/
theorem white_shape_p (lam : ℝ) (h : -9/100 < lam) : HasDerivAt (Fits.white : Fits ℝ).shapeAt ((Fits.white : Fits ℝ).shapePAt lam) lam := by
  have e : (Fits.white : Fits ℝ).shapeAt =ᶠ[nhds lam] (Fits.white : Fits ℝ).shape := by
    filter_upwards [eventually_gt_nhds h] with t ht
    rw [shapeAt, white_clip, max_eq_left ht.le]
  refine ((white_hasDeriv lam).congr_of_eventuallyEq e).congr_deriv ?_
  simp only [shapePAt, white_clip, max_eq_left h.le]
  rfl

/-- **C13**, Drela. -/
theorem drela_shape_p (lam : ℝ) (h : -9/100 < lam) : HasDerivAt (drela : Fits ℝ).shapeAt ((drela : Fits ℝ).shapePAt lam) lam := by
  have e : (drela : Fits ℝ).shapeAt =ᶠ[nhds lam] (drela : Fits ℝ).shape := by
    filter_upwards [eventually_gt_nhds h] with t ht
    rw [shapeAt, drela_clip, max_eq_left ht.le]
  refine ((drela_hasDeriv lam (by linarith)).congr_of_eventuallyEq e).congr_deriv ?_
  simp only [shapePAt, drela_clip, max_eq_left h.le]
  rfl

/-- **C13**, Cebeci-Bradshaw, except the branch point. -/
theorem cb_shape_p (lam : ℝ) (h : -1/10 < lam) (h' : lam < 1/10) (h0 : lam ≠ 0) :
    HasDerivAt (cebeciBradshaw : Fits ℝ).shapeAt ((cebeciBradshaw : Fits ℝ).shapePAt lam) lam := by
  have e : (cebeciBradshaw : Fits ℝ).shapeAt =ᶠ[nhds lam] (cebeciBradshaw : Fits ℝ).shape := by
    filter_upwards [eventually_gt_nhds h, eventually_lt_nhds h'] with t ht ht'
    rw [shapeAt, cb_clip, max_eq_left ht.le, min_eq_left ht'.le]
  refine ((cb_hasDeriv lam h0 (by linarith)).congr_of_eventuallyEq e).congr_deriv ?_
  simp only [shapePAt, cb_clip, max_eq_left h.le, min_eq_left h'.le]
  rfl

/-- The jump of the Cebeci-Bradshaw shape factor at 0: from the left it tends to 2.6101…, at 0 it is 2.61. So no value of
`shape_p` could be a derivative there. -/
theorem cb_shape_jump : ¬ ContinuousAt (cebeciBradshaw : Fits ℝ).shapeAt 0 := by
  intro hc
  have h0 : (cebeciBradshaw : Fits ℝ).shapeAt 0 = 261/100 := by
    rw [shapeAt, cb_clip]
    rw [show min (max (0:ℝ) (-1/10)) (1/10) = 0 by norm_num]
    simp [cebeciBradshaw, piecewise0]
  have hev := hc.eventually (gt_mem_nhds (show (cebeciBradshaw : Fits ℝ).shapeAt 0 < 26101/10000 by rw [h0]; norm_num))
  have hneg : ∀ᶠ t in nhdsWithin (0:ℝ) (Set.Iio 0), -1/100000 < t ∧ t < 0 :=
    (Filter.Eventually.filter_mono nhdsWithin_le_nhds (eventually_gt_nhds (by norm_num))).and self_mem_nhdsWithin
  obtain ⟨t, ⟨h1, h2⟩, h3⟩ := (hneg.and (Filter.Eventually.filter_mono nhdsWithin_le_nhds hev)).exists
  rw [shapeAt, cb_clip, max_eq_left (by linarith), min_eq_left (by linarith)] at h3
  simp only [cebeciBradshaw, piecewise0, real_lt, real_lit] at h3
  rw [if_pos (by exact_mod_cast h2)] at h3
  push_cast at h3
  have : (731/10000 : ℝ) / (14/100 + t) > 731/10000 / (14/100) := by
    apply div_lt_div_of_pos_left <;> linarith
  norm_num at this h3
  linarith

example : HasDerivAt (Fits.white : Fits ℝ).shapeAt ((Fits.white : Fits ℝ).shapePAt 0) 0 := white_shape_p 0 (by norm_num)

/-- Outside of the range the reported shape factor is constant but the reported derivative is not zero: for Drela, at every
lambda below the range the two disagree. -/
theorem drela_shape_p_outside (lam : ℝ) (h : lam < -9/100) :
    HasDerivAt (drela : Fits ℝ).shapeAt 0 lam ∧ (drela : Fits ℝ).shapePAt lam < -28 := by
  constructor
  · have e : (drela : Fits ℝ).shapeAt =ᶠ[nhds lam] fun _ => (drela : Fits ℝ).shape (-9/100) := by
      filter_upwards [eventually_lt_nhds h] with t ht
      rw [shapeAt, drela_clip, max_eq_right ht.le]
    exact (hasDerivAt_const lam _).congr_of_eventuallyEq e
  · simp only [shapePAt]
    show (match (drela : Fits ℝ).shapeP with | .fn f => f ((drela : Fits ℝ).checkRange lam) | .fdOfShape => 0) < -28
    rw [drela_clip, max_eq_right h.le]
    simp only [drela, real_lit]
    norm_num

/-- A custom pair of callables (no derivative given): the derivative used is accurate to `h^4/18` times a bound on the fifth
derivative of the shape function, `h = 1e-5`. `F k` is the `k`-th derivative. -/
theorem custom_shape_p (shear : ℝ → ℝ) (F : ℕ → ℝ → ℝ) (lam M : ℝ)
    (hd : ∀ k < 5, ∀ t ∈ Set.Icc (lam - 2 * (1/100000)) (lam + 2 * (1/100000)), HasDerivAt (F k) (F (k + 1) t) t)
    (hM : ∀ t ∈ Set.Icc (lam - 2 * (1/100000)) (lam + 2 * (1/100000)), |F 5 t| ≤ M) :
    |(⟨"Custom", shear, F 0, .fdOfShape, none, none⟩ : Fits ℝ).shapePAt lam - F 1 lam| ≤ (1/100000) ^ 4 / 18 * M := by
  have := FD.fd1_error (by norm_num) hd hM
  simpa [shapePAt, shapeAt, checkRange] using this

/-! ### C14 -/

/-- Shape factors over the reals, White: at least 2 for every lambda up to 0.25. -/
theorem white_shape_ge (lam : ℝ) (h : lam ≤ 1/4) : 2 ≤ (Fits.white : Fits ℝ).shapeAt lam := by
  rw [shapeAt, white_clip]
  have h1 : max lam (-9/100) ≤ 1/4 := max_le h (by norm_num)
  have h2 : -9/100 ≤ max lam (-9/100) := le_max_right _ _
  generalize max lam (-9/100) = t at h1 h2
  simp only [Fits.white, real_lit]
  push_cast
  have hz : 0 ≤ 1/4 - t := by linarith
  generalize 1/4 - t = z at hz
  have : 0 ≤ 414/100 + z * (-835/10 + z * (854 + z * (-3337 + z * 4576))) := by
    nlinarith [sq_nonneg (67.646 * z ^ 2 - 24.665 * z + 1.8157), sq_nonneg z, mul_nonneg hz hz, sq_nonneg (z - 0.0836)]
  nlinarith [mul_nonneg hz this]

theorem cb_shape_gt (lam : ℝ) : 2 < (cebeciBradshaw : Fits ℝ).shapeAt lam := by
  rw [shapeAt, cb_clip]
  have h1 : min (max lam (-1/10)) (1/10) ≤ 1/10 := min_le_right _ _
  have h2 : -1/10 ≤ min (max lam (-1/10)) (1/10 : ℝ) := le_min (le_max_right _ _) (by norm_num)
  generalize min (max lam (-1/10)) (1/10 : ℝ) = t at h1 h2
  simp only [cebeciBradshaw, piecewise0, real_lt, real_ge, real_lit]
  split_ifs with h h'
  · push_cast at h ⊢
    have : 0 < (731/10000 : ℝ) / (14/100 + t) := by apply div_pos <;> linarith
    linarith
  · push_cast at h' ⊢
    nlinarith [sq_nonneg t]
  · push_cast at h h'; exact absurd (not_lt.1 h) h'

theorem drela_shape_gt (lam : ℝ) (h : lam ≤ 1/4) : 19/10 < (drela : Fits ℝ).shapeAt lam := by
  rw [shapeAt, drela_clip]
  have h1 : max lam (-9/100) ≤ 1/4 := max_le h (by norm_num)
  have h2 : -9/100 ≤ max lam (-9/100) := le_max_right _ _
  generalize max lam (-9/100) = t at h1 h2
  simp only [drela, real_lit]
  push_cast
  have hp : 0 < (t + 18/100) * (t + 18/100) := by apply mul_pos <;> linarith
  have hq : (t + 18/100) * (t + 18/100) ≤ 1849/10000 := by nlinarith
  have hd : 56/100 * (t * t) / (1849/10000) ≤ 56/100 * (t * t) / ((t + 18/100) * (t + 18/100)) := by
    exact div_le_div_of_nonneg_left (mul_nonneg (by norm_num) (mul_self_nonneg t)) hp hq
  have : 19/10 < 261/100 - 41/10 * t + 14 * (t * t * t) + 56/100 * (t * t) / (1849/10000) := by
    rw [div_eq_mul_inv]
    have h3 : 0 ≤ 1/4 - t := by linarith
    have h4 : 0 ≤ t + 9/100 := by linarith
    norm_num
    nlinarith [mul_nonneg h3 h4, mul_nonneg (mul_nonneg h3 h3) h4, mul_nonneg (mul_nonneg h3 h4) h4, sq_nonneg t,
      sq_nonneg (t - 1/4), mul_nonneg h4 (sq_nonneg (t - 1/4)), mul_nonneg h4 (sq_nonneg (t - 1/5))]
  linarith

/-- **C14**, order: after clipping, every lambda up to 0.25 gives a shape factor above 1 (in fact 1.9). -/
theorem fits_shape_gt_one (lam : ℝ) (h : lam ≤ 1/4) :
    1 < (Fits.white : Fits ℝ).shapeAt lam ∧ 1 < (cebeciBradshaw : Fits ℝ).shapeAt lam ∧ 1 < (drela : Fits ℝ).shapeAt lam :=
  ⟨by linarith [white_shape_ge lam h], by linarith [cb_shape_gt lam], by linarith [drela_shape_gt lam h]⟩

/-- Beyond 0.25 this fails for White, whose range of validity is not limited from above by the code. -/
theorem white_shape_negative : (Fits.white : Fits ℝ).shapeAt (1/2) < -30 := by
  rw [shapeAt, white_clip, max_eq_left (by norm_num)]
  simp only [Fits.white, real_lit]
  norm_num

end IBL
