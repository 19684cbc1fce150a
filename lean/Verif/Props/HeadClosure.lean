import Mathlib.Analysis.SpecialFunctions.Pow.Deriv
import Mathlib.Topology.Order.IntermediateValue
import Verif.Lemmas.HeadClosure

/-!
C20, C21, C22: the entrainment relation H1(H) of Head's method (`_shape_entrainment`), its inverse (`_shape_d`) and its derivative
(`_shape_entrainment_p`), over the reals. The two branches of the relation do not meet exactly at the branch point 1.6: the upper one
starts about 6e-16 above the end of the lower one. Claims about all shape factors are therefore false in a window of width 1e-15.
-/

namespace IBL.Head

/-! ### C20 -/

/-- **C20**: the entrainment shape factor strictly decreases with the shape factor. -/
def EntrainmentDecreasing : Prop := ∀ a b : ℝ, 11/10 < a → a < b → h1 b < h1 a

/-- **C20** is false: just above 1.6 the value is larger than at 1.6. -/
theorem entrainment_not_decreasing : ¬ EntrainmentDecreasing := by
  intro H
  have hc := high_continuous (16/10) (by norm_num)
  have hev : ∀ᶠ h in nhds (16/10 : ℝ), h1Low (16/10 : ℝ) < h1High h :=
    hc.eventually_const_lt (by linarith [low_at_lt, high_at_gt])
  obtain ⟨ε, hε, hb⟩ := Metric.eventually_nhds_iff.1 hev
  have hlt := hb (y := 16/10 + ε/2) (by rw [Real.dist_eq, add_sub_cancel_left, abs_of_pos (by linarith)]; linarith)
  have := H (16/10) (16/10 + ε/2) (by norm_num) (by linarith)
  rw [h1_high (by linarith), h1_low (by norm_num) (by norm_num)] at this
  linarith

/-- So a value of H1 does not determine H: some value is attained on both sides of the branch point. -/
theorem entrainment_not_injective : ∃ a b : ℝ, 11/10 < a ∧ a < 16/10 ∧ 16/10 < b ∧ h1 a = h1 b := by
  have hl : ContinuousOn (fun h : ℝ => h1Low h) (Set.Icc (16/10 - 1/10^15) (16/10)) := by
    have : ContinuousOn (fun h : ℝ => 33/10 + 8234/10000 / (h - 11/10) ^ (1287/1000 : ℝ)) (Set.Icc (16/10 - 1/10^15) (16/10)) := by
      intro h hh
      have h0 : 0 < h - 11/10 := by have := hh.1; norm_num at this ⊢; linarith
      refine ContinuousAt.continuousWithinAt (continuousAt_const.add (continuousAt_const.div ?_ (by positivity)))
      exact ContinuousAt.rpow_const (by fun_prop) (Or.inl h0.ne')
    simpa only [h1Low_real] using this
  have hh : ContinuousOn (fun h : ℝ => h1High h) (Set.Icc (16/10) (16/10 + 1/10^15)) := fun h hh =>
    (high_continuous h (by have := hh.1; linarith)).continuousWithinAt
  obtain ⟨a, ha, hav⟩ := intermediate_value_Icc' (by norm_num) hl
    (show (530926152031629765/10^17 : ℝ) ∈ Set.Icc (h1Low (16/10 : ℝ)) (h1Low (16/10 - 1/10^15 : ℝ)) from
      ⟨by linarith [low_at_lt], by linarith [low_left_gt]⟩)
  obtain ⟨b, hb, hbv⟩ := intermediate_value_Icc' (by norm_num) hh
    (show (530926152031629765/10^17 : ℝ) ∈ Set.Icc (h1High (16/10 + 1/10^15 : ℝ)) (h1High (16/10 : ℝ)) from
      ⟨by linarith [high_right_lt], by linarith [high_at_gt]⟩)
  dsimp only at hav hbv
  have ha1 : 11/10 < a := by have := ha.1; norm_num at this; linarith
  have ha2 : a < 16/10 := by
    refine lt_of_le_of_ne ha.2 fun h => ?_
    rw [h] at hav; linarith [low_at_lt]
  have hb1 : 16/10 < b := by
    refine lt_of_le_of_ne hb.1 fun h => ?_
    rw [← h] at hbv; linarith [high_at_gt]
  exact ⟨a, b, ha1, ha2, hb1, by rw [h1_low ha1 ha2.le, h1_high hb1, hav, hbv]⟩

/-- **C20**, what holds: strictly decreasing for all pairs of shape factors above 1.1 on the same side of the branch point 1.6, and
across it as soon as the larger one exceeds it by 1e-15. Missing: pairs with the larger one between 1.6 and 1.6 + 1e-15. -/
theorem entrainment_decreasing_partial (a b : ℝ) (ha : 11/10 < a) (hab : a < b)
    (hb : b ≤ 16/10 ∨ 16/10 < a ∨ 16/10 + 1/10^15 ≤ b) : h1 b < h1 a := by
  rcases le_or_gt a (16/10) with h1' | h1'
  · rcases le_or_gt b (16/10) with h2' | h2'
    · rw [h1_low ha h1', h1_low (by linarith) h2']; exact low_anti ha hab
    · have hb' : 16/10 + 1/10^15 ≤ b := by
        rcases hb with h | h | h
        · linarith
        · linarith
        · exact h
      rw [h1_low ha h1', h1_high h2']
      have e1 : h1High b ≤ h1High (16/10 + 1/10^15 : ℝ) := by
        rcases eq_or_lt_of_le hb' with h | h
        · rw [h]
        · exact (high_anti (by norm_num) h).le
      have e2 : h1Low (16/10 : ℝ) ≤ h1Low a := by
        rcases eq_or_lt_of_le h1' with h | h
        · rw [h]
        · exact (low_anti ha h).le
      linarith [high_right_lt, low_at_gt]
  · rw [h1_high h1', h1_high (by linarith)]; exact high_anti (by linarith) hab

/-- Across the branch point H1 never increases by more than 1e-15. -/
theorem entrainment_almost_decreasing (a b : ℝ) (ha : 11/10 < a) (hab : a < b) : h1 b < h1 a + 1/10^15 := by
  by_cases hb : b ≤ 16/10 ∨ 16/10 < a ∨ 16/10 + 1/10^15 ≤ b
  · have := entrainment_decreasing_partial a b ha hab hb
    linarith [show (0:ℝ) < 1/10^15 by norm_num]
  · simp only [not_or, not_le, not_lt] at hb
    rw [h1_low ha hb.2.1, h1_high hb.1]
    have e1 : h1High b < h1High (16/10 : ℝ) := high_anti (by norm_num) hb.1
    have e2 : h1Low (16/10 : ℝ) ≤ h1Low a := by
      rcases eq_or_lt_of_le hb.2.1 with h | h
      · rw [h]
      · exact (low_anti ha h).le
    have := low_at_gt
    have := high_at_lt
    norm_num at *
    linarith

/-! ### C21 -/

/-- **C21**: the two conversions are inverse to each other. -/
def ConversionsInverse : Prop := ∀ h : ℝ, 11/10 < h → hOf (h1 h) = h

private theorem brk_gt_d : (332254659218600974/10^17 : ℝ) < h1Low (16/10 : ℝ) := by linarith [low_at_gt]

/-- **C21** is false: 1.6 itself comes back larger. -/
theorem roundtrip_fails_at_branch : 16/10 < hOf (h1 (16/10 : ℝ)) := by
  rw [h1_low (by norm_num) (by norm_num), hOf_real _ brk_gt_d, if_pos (le_refl _)]
  have := hOfLow_anti brk_gt_d (show h1Low (16/10 : ℝ) < h1High (16/10 : ℝ) by linarith [low_at_lt, high_at_gt])
  rwa [hOfLow_high _ (by norm_num)] at this

theorem conversions_not_inverse : ¬ ConversionsInverse := fun H => by
  have h1 := roundtrip_fails_at_branch
  rw [H (16/10) (by norm_num)] at h1
  exact lt_irrefl _ h1

/-- **C21**, what holds: converting to H1 and back returns the shape factor, for every shape factor above 1.1 except possibly those from
1.6 to 1.6 + 1e-15. -/
theorem roundtrip_partial (h : ℝ) (hh : 11/10 < h) (hx : h < 16/10 ∨ 16/10 + 1/10^15 ≤ h) : hOf (h1 h) = h := by
  rcases hx with hx | hx
  · rw [h1_low hh hx.le]
    have h2 := low_anti hh hx
    rw [hOf_real _ (lt_trans brk_gt_d h2), if_neg (not_le.2 h2), hOfHigh_low h hh]
  · have hx' : 16/10 < h := by norm_num at hx; linarith
    rw [h1_high hx', hOf_real _ (high_gt_d h (by linarith)), if_pos, hOfLow_high h (by linarith)]
    have e1 : h1High h ≤ h1High (16/10 + 1/10^15 : ℝ) := by
      rcases eq_or_lt_of_le hx with h | h
      · rw [h]
      · exact (high_anti (by norm_num) h).le
    linarith [high_right_lt, low_at_gt]

/-- **C21**, for all shape factors above 1.1 without exception: the error of the round trip is below 3e-15. -/
theorem roundtrip_close (h : ℝ) (hh : 11/10 < h) : |hOf (h1 h) - h| < 3/10^15 := by
  by_cases hx : h < 16/10 ∨ 16/10 + 1/10^15 ≤ h
  · rw [roundtrip_partial h hh hx]; norm_num
  · simp only [not_or, not_le, not_lt] at hx
    rcases eq_or_lt_of_le hx.1 with h1' | h1'
    · have h2 := roundtrip_fails_at_branch
      rw [← h1']
      rw [h1_low (by norm_num) (by norm_num), hOf_real _ brk_gt_d, if_pos (le_refl _)] at h2 ⊢
      have h3 := hOfLow_anti (high_gt_d (16/10 + 1/10^15) (by norm_num))
        (show h1High (16/10 + 1/10^15 : ℝ) < h1Low (16/10 : ℝ) by linarith [low_at_gt, high_right_lt])
      rw [hOfLow_high _ (by norm_num)] at h3
      rw [abs_of_pos (by linarith)]
      norm_num at h3 ⊢
      linarith
    · rw [h1_high h1', hOf_real _ (high_gt_d h (by linarith))]
      split_ifs with hb
      · rw [hOfLow_high h (by linarith)]; norm_num
      · have hb := not_le.1 hb
        have u : hOfHigh (h1High h) < 16/10 := by
          have := hOfHigh_anti (by linarith [low_at_gt]) hb
          rwa [hOfHigh_low _ (by norm_num)] at this
        have l : 16/10 - 1/10^15 < hOfHigh (h1High h) := by
          have hlt : h1High h < h1Low (16/10 - 1/10^15 : ℝ) :=
            lt_trans (high_anti (by norm_num) h1') (by linarith [high_at_lt, low_left_gt])
          have := hOfHigh_anti (by linarith [low_at_gt]) hlt
          rwa [hOfHigh_low _ (by norm_num)] at this
        have hx2 := hx.2
        rw [abs_sub_lt_iff]
        norm_num at *
        constructor <;> linarith

/-! ### C22 -/

theorem h1p_low {h : ℝ} (h1 : 11/10 < h) (h2 : h ≤ 16/10) :
    h1p h = -(8234/10000) * (1287/1000) / (h - 11/10) ^ (1287/1000 + 1 : ℝ) := by
  have e : clampShape h = h := by
    simp only [clampShape, real_le, real_lit]
    exact if_neg (by push_cast; linarith)
  simp only [h1p, e, real_le, real_lit, real_pow]
  rw [if_pos (by push_cast; linarith)]
  push_cast; norm_num

theorem h1p_high {h : ℝ} (h1 : 16/10 < h) :
    h1p h = -(15501/10000) * (3064/1000) / (h - 6778/10000) ^ (3064/1000 + 1 : ℝ) := by
  have e : clampShape h = h := by
    simp only [clampShape, real_le, real_lit]
    exact if_neg (by push_cast; linarith)
  simp only [h1p, e, real_le, real_gt, real_lit, real_pow]
  rw [if_neg (by push_cast; linarith), if_pos (by push_cast; linarith)]
  push_cast; norm_num

/-- The derivative of `d + a / (h - b)^c`. -/
private theorem deriv_branch (a b c d h : ℝ) (hb : b < h) :
    HasDerivAt (fun h : ℝ => d + a / (h - b) ^ c) (-a * c / (h - b) ^ (c + 1)) h := by
  have h0 : 0 < h - b := by linarith
  have hp : (0:ℝ) < (h - b) ^ c := Real.rpow_pos_of_pos h0 c
  have h1 : HasDerivAt (fun h : ℝ => (h - b) ^ c) (1 * c * (h - b) ^ (c - 1)) h :=
    ((hasDerivAt_id h).sub_const b).rpow_const (Or.inl h0.ne')
  have h2 := ((hasDerivAt_const h a).div h1 hp.ne').const_add d
  refine h2.congr_deriv ?_
  rw [Real.rpow_sub_one h0.ne', Real.rpow_add_one h0.ne']
  field_simp
  ring

/-- **C22**: the derivative used by the integration is the derivative of the entrainment relation at every shape factor above 1.1 other
than 1.6, where the relation jumps. -/
theorem entrainment_derivative (h : ℝ) (hh : 11/10 < h) (hne : h ≠ 16/10) : HasDerivAt (fun h : ℝ => h1 h) (h1p h) h := by
  rcases lt_or_gt_of_ne hne with hlt | hgt
  · have hev : (fun h : ℝ => h1 h) =ᶠ[nhds h] fun h => 33/10 + 8234/10000 / (h - 11/10) ^ (1287/1000 : ℝ) := by
      filter_upwards [Ioo_mem_nhds hh hlt] with t ht
      rw [h1_low ht.1 ht.2.le, h1Low_real]
    rw [h1p_low hh hlt.le]
    exact (deriv_branch _ _ _ _ h hh).congr_of_eventuallyEq hev
  · have hev : (fun h : ℝ => h1 h) =ᶠ[nhds h] fun h => 332254659218600974/10^17 + 15501/10000 / (h - 6778/10000) ^ (3064/1000 : ℝ) := by
      filter_upwards [Ioi_mem_nhds hgt] with t ht
      rw [h1_high ht, h1High_real]
    rw [h1p_high hgt]
    exact (deriv_branch _ _ _ _ h (by linarith)).congr_of_eventuallyEq hev

/-- The derivative is negative for every shape factor, so the division by it in the shape factor rate is a division by a nonzero number. -/
theorem entrainment_derivative_neg (h : ℝ) : h1p h < 0 := by
  have hc : 11/10 < clampShape h := by
    simp only [clampShape, real_le, real_lit]
    split_ifs with h1
    · push_cast; norm_num
    · push_cast at h1; linarith
  have e : h1p h = h1p (clampShape h) := by
    have : clampShape (clampShape h) = clampShape h := by
      conv_lhs => rw [clampShape]
      simp only [real_le, real_lit]
      exact if_neg (by push_cast; linarith)
    simp only [h1p, this]
  rw [e]
  generalize clampShape h = t at hc
  rcases le_or_gt t (16/10) with h2 | h2
  · rw [h1p_low hc h2]
    have : 0 < t - 11/10 := by linarith
    apply div_neg_of_neg_of_pos (by norm_num) (by positivity)
  · rw [h1p_high h2]
    have : 0 < t - 6778/10000 := by linarith
    apply div_neg_of_neg_of_pos (by norm_num) (by positivity)

/-- Examples: H = 1.4 and H = 2 are covered by all of the above. -/
example : hOf (h1 (14/10 : ℝ)) = 14/10 ∧ hOf (h1 (2 : ℝ)) = 2 ∧ h1 (2 : ℝ) < h1 (14/10 : ℝ) ∧
    HasDerivAt (fun h : ℝ => h1 h) (h1p 2) 2 :=
  ⟨roundtrip_partial _ (by norm_num) (Or.inl (by norm_num)), roundtrip_partial _ (by norm_num) (Or.inr (by norm_num)),
    entrainment_decreasing_partial _ _ (by norm_num) (by norm_num) (Or.inr (Or.inr (by norm_num))),
    entrainment_derivative _ (by norm_num) (by norm_num)⟩

end IBL.Head
