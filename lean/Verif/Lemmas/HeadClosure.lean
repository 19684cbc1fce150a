import Mathlib.Analysis.SpecialFunctions.Pow.Continuity
import Verif.Model.Head

/-! Bounds for the two branches of Head's entrainment relation around the branch point 1.6. -/

namespace IBL.Head

set_option exponentiation.threshold 20000

theorem rpow_lt_of_pow_lt {x r : ℝ} (hx : 0 ≤ x) (hr : 0 ≤ r) {p q : ℕ} (hq : 0 < q) (h : x ^ p < r ^ q) :
    x ^ ((p : ℝ) / q) < r := by
  have hq' : (q : ℝ) ≠ 0 := by exact_mod_cast hq.ne'
  have h1 : x ^ ((p : ℝ) / q) = (x ^ p) ^ ((1 : ℝ) / q) := by
    rw [← Real.rpow_natCast x p, ← Real.rpow_mul hx]; ring_nf
  have h2 : r = (r ^ q) ^ ((1 : ℝ) / q) := by
    rw [← Real.rpow_natCast r q, ← Real.rpow_mul hr, mul_one_div, div_self hq', Real.rpow_one]
  rw [h1, h2]
  exact Real.rpow_lt_rpow (by positivity) h (by positivity)

theorem lt_rpow_of_lt_pow {x r : ℝ} (hx : 0 ≤ x) (hr : 0 ≤ r) {p q : ℕ} (hq : 0 < q) (h : r ^ q < x ^ p) :
    r < x ^ ((p : ℝ) / q) := by
  have hq' : (q : ℝ) ≠ 0 := by exact_mod_cast hq.ne'
  have h1 : x ^ ((p : ℝ) / q) = (x ^ p) ^ ((1 : ℝ) / q) := by
    rw [← Real.rpow_natCast x p, ← Real.rpow_mul hx]; ring_nf
  have h2 : r = (r ^ q) ^ ((1 : ℝ) / q) := by
    rw [← Real.rpow_natCast r q, ← Real.rpow_mul hr, mul_one_div, div_self hq', Real.rpow_one]
  rw [h1, h2]
  exact Real.rpow_lt_rpow (by positivity) h (by positivity)


private theorem p1 : (4098023038187585607/10^19 : ℝ) < (5/10 : ℝ) ^ (1287/1000 : ℝ) := by
  have h := lt_rpow_of_lt_pow (x := 5/10) (r := 4098023038187585607/10^19) (p := 1287) (q := 1000) (by norm_num) (by norm_num)
    (by norm_num) (by norm_num)
  push_cast at h
  exact h
private theorem p2 : (5/10 : ℝ) ^ (1287/1000 : ℝ) < 4098023038187585608/10^19 := by
  have h := rpow_lt_of_pow_lt (x := 5/10) (r := 4098023038187585608/10^19) (p := 1287) (q := 1000) (by norm_num) (by norm_num)
    (by norm_num) (by norm_num)
  push_cast at h
  exact h
private theorem p3 : (5/10 - 1/10^15 : ℝ) ^ (1287/1000 : ℝ) < 4098023038187575059/10^19 := by
  have h := rpow_lt_of_pow_lt (x := 5/10 - 1/10^15) (r := 4098023038187575059/10^19) (p := 1287) (q := 1000) (by norm_num)
    (by norm_num) (by norm_num) (by norm_num)
  push_cast at h
  exact h
private theorem p4 : (7802327239060967496/10^19 : ℝ) < (9222/10^4 : ℝ) ^ (383/125 : ℝ) := by
  have h := lt_rpow_of_lt_pow (x := 9222/10^4) (r := 7802327239060967496/10^19) (p := 383) (q := 125) (by norm_num)
    (by norm_num) (by norm_num) (by norm_num)
  push_cast at h
  exact h
private theorem p5 : (9222/10^4 : ℝ) ^ (383/125 : ℝ) < 7802327239060967497/10^19 := by
  have h := rpow_lt_of_pow_lt (x := 9222/10^4) (r := 7802327239060967497/10^19) (p := 383) (q := 125) (by norm_num)
    (by norm_num) (by norm_num) (by norm_num)
  push_cast at h
  exact h
private theorem p6 : (7802327239060993419/10^19 : ℝ) < (9222/10^4 + 1/10^15 : ℝ) ^ (383/125 : ℝ) := by
  have h := lt_rpow_of_lt_pow (x := 9222/10^4 + 1/10^15) (r := 7802327239060993419/10^19) (p := 383) (q := 125) (by norm_num)
    (by norm_num) (by norm_num) (by norm_num)
  push_cast at h
  exact h

/-! ### The branches over the reals -/

theorem h1Low_real (h : ℝ) : h1Low h = 33/10 + 8234/10000 / (h - 11/10) ^ (1287/1000 : ℝ) := by
  simp only [h1Low, real_lit, real_pow]; push_cast; norm_num
theorem h1High_real (h : ℝ) : h1High h = 332254659218600974/10^17 + 15501/10000 / (h - 6778/10000) ^ (3064/1000 : ℝ) := by
  simp only [h1High, dHigh, real_lit, real_pow]; push_cast; norm_num

theorem low_anti {a b : ℝ} (ha : 11/10 < a) (hab : a < b) : h1Low b < h1Low a := by
  rw [h1Low_real, h1Low_real]
  have h0 : 0 < a - 11/10 := by linarith
  have := Real.rpow_lt_rpow h0.le (show a - 11/10 < b - 11/10 by linarith) (show (0:ℝ) < 1287/1000 by norm_num)
  have := div_lt_div_of_pos_left (show (0:ℝ) < 8234/10000 by norm_num) (by positivity) this
  linarith
theorem high_anti {a b : ℝ} (ha : 6778/10000 < a) (hab : a < b) : h1High b < h1High a := by
  rw [h1High_real, h1High_real]
  have h0 : 0 < a - 6778/10000 := by linarith
  have := Real.rpow_lt_rpow h0.le (show a - 6778/10000 < b - 6778/10000 by linarith) (show (0:ℝ) < 3064/1000 by norm_num)
  have := div_lt_div_of_pos_left (show (0:ℝ) < 15501/10000 by norm_num) (by positivity) this
  linarith

theorem low_at_gt : 53092615203162973/10^16 < h1Low (16/10 : ℝ) := by
  rw [h1Low_real, show (16/10 - 11/10 : ℝ) = 5/10 by norm_num]
  have h := p2
  have h0 : (0:ℝ) < (5/10 : ℝ) ^ (1287/1000 : ℝ) := by positivity
  have : (53092615203162973/10^16 - 33/10 : ℝ) < 8234/10000 / (5/10 : ℝ) ^ (1287/1000 : ℝ) := by
    rw [lt_div_iff₀ h0]
    refine lt_of_lt_of_le (mul_lt_mul_of_pos_left h (by norm_num)) (by norm_num)
  linarith
theorem low_at_lt : h1Low (16/10 : ℝ) < 53092615203162974/10^16 := by
  rw [h1Low_real, show (16/10 - 11/10 : ℝ) = 5/10 by norm_num]
  have h := p1
  have h0 : (0:ℝ) < (5/10 : ℝ) ^ (1287/1000 : ℝ) := by positivity
  have : 8234/10000 / (5/10 : ℝ) ^ (1287/1000 : ℝ) < (53092615203162974/10^16 - 33/10 : ℝ) := by
    rw [div_lt_iff₀ h0]
    refine lt_of_le_of_lt (by norm_num) (mul_lt_mul_of_pos_left h (by norm_num))
  linarith
theorem low_left_gt : 53092615203163024/10^16 < h1Low (16/10 - 1/10^15 : ℝ) := by
  rw [h1Low_real, show (16/10 - 1/10^15 - 11/10 : ℝ) = 5/10 - 1/10^15 by norm_num]
  have h := p3
  have h00 : (0:ℝ) < 5/10 - 1/10^15 := by norm_num
  have h0 : (0:ℝ) < (5/10 - 1/10^15 : ℝ) ^ (1287/1000 : ℝ) := by positivity
  have : (53092615203163024/10^16 - 33/10 : ℝ) < 8234/10000 / (5/10 - 1/10^15 : ℝ) ^ (1287/1000 : ℝ) := by
    rw [lt_div_iff₀ h0]
    refine lt_of_lt_of_le (mul_lt_mul_of_pos_left h (by norm_num)) (by norm_num)
  linarith
theorem high_at_gt : 53092615203162979/10^16 < h1High (16/10 : ℝ) := by
  rw [h1High_real, show (16/10 - 6778/10000 : ℝ) = 9222/10^4 by norm_num, show (3064/1000 : ℝ) = 383/125 by norm_num]
  have h := p5
  have h0 : (0:ℝ) < (9222/10^4 : ℝ) ^ (383/125 : ℝ) := by positivity
  have : (53092615203162979/10^16 - 332254659218600974/10^17 : ℝ) < 15501/10000 / (9222/10^4 : ℝ) ^ (383/125 : ℝ) := by
    rw [lt_div_iff₀ h0]
    refine lt_of_lt_of_le (mul_lt_mul_of_pos_left h (by norm_num)) (by norm_num)
  linarith
theorem high_at_lt : h1High (16/10 : ℝ) < 53092615203162980/10^16 := by
  rw [h1High_real, show (16/10 - 6778/10000 : ℝ) = 9222/10^4 by norm_num, show (3064/1000 : ℝ) = 383/125 by norm_num]
  have h := p4
  have h0 : (0:ℝ) < (9222/10^4 : ℝ) ^ (383/125 : ℝ) := by positivity
  have : 15501/10000 / (9222/10^4 : ℝ) ^ (383/125 : ℝ) < (53092615203162980/10^16 - 332254659218600974/10^17 : ℝ) := by
    rw [div_lt_iff₀ h0]
    refine lt_of_le_of_lt (by norm_num) (mul_lt_mul_of_pos_left h (by norm_num))
  linarith
theorem high_right_lt : h1High (16/10 + 1/10^15 : ℝ) < 53092615203162920/10^16 := by
  rw [h1High_real, show (16/10 + 1/10^15 - 6778/10000 : ℝ) = 9222/10^4 + 1/10^15 by norm_num,
    show (3064/1000 : ℝ) = 383/125 by norm_num]
  have h := p6
  have h0 : (0:ℝ) < (9222/10^4 + 1/10^15 : ℝ) ^ (383/125 : ℝ) := by positivity
  have : 15501/10000 / (9222/10^4 + 1/10^15 : ℝ) ^ (383/125 : ℝ) < (53092615203162920/10^16 - 332254659218600974/10^17 : ℝ) := by
    rw [div_lt_iff₀ h0]
    refine lt_of_le_of_lt (by norm_num) (mul_lt_mul_of_pos_left h (by norm_num))
  linarith

/-! ### The whole relation -/

theorem h1_low {h : ℝ} (h1 : 11/10 < h) (h2 : h ≤ 16/10) : Head.h1 h = h1Low h := by
  have e : clampShape h = h := by
    simp only [clampShape, real_le, real_lit]
    exact if_neg (by push_cast; linarith)
  simp only [Head.h1, e, real_le, real_lit]
  exact if_pos (by push_cast; linarith)

theorem h1_high {h : ℝ} (h1 : 16/10 < h) : Head.h1 h = h1High h := by
  have e : clampShape h = h := by
    simp only [clampShape, real_le, real_lit]
    exact if_neg (by push_cast; linarith)
  simp only [Head.h1, e, real_le, real_gt, real_lit]
  rw [if_neg (by push_cast; linarith), if_pos (by push_cast; linarith)]

theorem high_gt_d (h : ℝ) (hh : 6778/10000 < h) : 332254659218600974/10^17 < h1High h := by
  rw [h1High_real]
  have h0 : 0 < h - 6778/10000 := by linarith
  have : 0 < 15501/10000 / (h - 6778/10000) ^ (3064/1000 : ℝ) := by positivity
  linarith

theorem high_continuous (h : ℝ) (hh : 6778/10000 < h) : ContinuousAt (fun h : ℝ => h1High h) h := by
  have : ContinuousAt (fun h : ℝ => 332254659218600974/10^17 + 15501/10000 / (h - 6778/10000) ^ (3064/1000 : ℝ)) h := by
    have h0 : 0 < h - 6778/10000 := by linarith
    refine continuousAt_const.add (continuousAt_const.div ?_ (by positivity))
    exact ContinuousAt.rpow_const (by fun_prop) (Or.inl h0.ne')
  simpa only [h1High_real] using this

/-- The inverse branches undo the branches. -/
theorem hOfHigh_low (h : ℝ) (hh : 11/10 < h) : hOfHigh (h1Low h) = h := by
  have h0 : 0 < h - 11/10 := by linarith
  have hp : (0:ℝ) < (h - 11/10) ^ (1287/1000 : ℝ) := by positivity
  rw [h1Low_real]
  simp only [hOfHigh, real_lit, real_pow]
  push_cast
  rw [add_sub_cancel_left, div_div_cancel₀ (by norm_num), ← Real.rpow_mul h0.le]
  norm_num
theorem hOfLow_high (h : ℝ) (hh : 6778/10000 < h) : hOfLow (h1High h) = h := by
  have h0 : 0 < h - 6778/10000 := by linarith
  have hp : (0:ℝ) < (h - 6778/10000) ^ (3064/1000 : ℝ) := by positivity
  have e := h1High_real h
  simp only [hOfLow, real_lit, real_pow]
  have : h1High h - ((dHigh : ℚ) : ℝ) = 15501/10000 / (h - 6778/10000) ^ (3064/1000 : ℝ) := by
    rw [e, dHigh]; push_cast; norm_num
  rw [this]
  push_cast
  rw [div_div_cancel₀ (by norm_num), ← Real.rpow_mul h0.le]
  norm_num

theorem hOfLow_anti {a b : ℝ} (ha : 332254659218600974/10^17 < a) (hab : a < b) : hOfLow b < hOfLow a := by
  simp only [hOfLow, real_lit, real_pow, dHigh]
  have h0 : 0 < a - 332254659218600974/10^17 := by linarith
  have h1 : (15501/10000 : ℝ) / (b - 332254659218600974/10^17) < 15501/10000 / (a - 332254659218600974/10^17) :=
    div_lt_div_of_pos_left (by norm_num) h0 (by linarith)
  have h2 : (0:ℝ) ≤ 15501/10000 / (b - 332254659218600974/10^17) := div_nonneg (by norm_num) (by linarith)
  have := Real.rpow_lt_rpow h2 h1 (show (0:ℝ) < 1/(3064/1000) by norm_num)
  push_cast
  norm_num at this ⊢
  linarith
theorem hOfHigh_anti {a b : ℝ} (ha : 33/10 < a) (hab : a < b) : hOfHigh b < hOfHigh a := by
  simp only [hOfHigh, real_lit, real_pow]
  have h0 : 0 < a - 33/10 := by linarith
  have h1 : (8234/10000 : ℝ) / (b - 33/10) < 8234/10000 / (a - 33/10) :=
    div_lt_div_of_pos_left (by norm_num) h0 (by linarith)
  have h2 : (0:ℝ) ≤ 8234/10000 / (b - 33/10) := div_nonneg (by norm_num) (by linarith)
  have := Real.rpow_lt_rpow h2 h1 (show (0:ℝ) < 1/(1287/1000) by norm_num)
  push_cast
  norm_num at this ⊢
  linarith

theorem hOf_real (e : ℝ) (he : 332254659218600974/10^17 < e) :
    hOf e = if e ≤ h1Low (16/10 : ℝ) then hOfLow e else hOfHigh e := by
  have hb : Head.h1 (lit (16/10) : ℝ) = h1Low (16/10 : ℝ) := by
    rw [real_lit, ← h1_low (h := 16/10) (by norm_num) (by norm_num)]; norm_num
  have hc : ¬ e ≤ ((dHigh : ℚ) : ℝ) := by
    rw [dHigh]; push_cast; norm_num at he ⊢; linarith
  simp only [hOf]
  rw [hb]
  simp only [real_le, real_gt, real_lit, if_neg hc]
  split_ifs with h1 h2
  · rfl
  · rfl
  · exact absurd (not_le.1 h1) h2

end IBL.Head
