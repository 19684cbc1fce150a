import Verif.Props.XFoilExamples
import Verif.Round

/-! C42, C43 and C58 in arithmetic with rounding; C87. -/

set_option linter.unusedSectionVars false

namespace IBL.XFoil
open Rounding

variable {R : Rounding} [PySpecial R.F]

theorem F_lt_false {a b : R.F} : PyCmp.lt a b = false ↔ b.val ≤ a.val := by rw [Bool.eq_false_iff, Ne, F_lt, not_lt]
theorem F_le_false {a b : R.F} : PyCmp.le a b = false ↔ b.val < a.val := by rw [Bool.eq_false_iff, Ne, F_le, not_le]

/-- C42 with rounding: arc length starts at exactly zero on both surfaces and in the wake, and does not decrease along them if it does not decrease
in the file. -/
theorem arc_length_rounded (fl : Floats R.F) (fs : Files) (name : Text) (hn : name ≠ []) (r : Reader R.F) (h : Reader.load fl fs name = (r, .ok ())) :
    (∃ p, r.upperPts.head? = some p ∧ p.s.val = 0) ∧ (∃ p, r.lowerPts.head? = some p ∧ p.s.val = 0) ∧ (∀ w, r.wake.head? = some w → w.s.val = 0) ∧
      ∃ content air wk ps ws, fs name = .ok content ∧ Sections (readlines content) air wk ∧ Rows fl air ps ∧ WakeRows fl wk ws ∧
        ((ps.map fun p => p.s.val).Pairwise (· ≤ ·) → (r.upperPts.map fun p => p.s.val).Pairwise (· ≤ ·) ∧
          (r.lowerPts.map fun p => p.s.val).Pairwise (· ≤ ·)) ∧
        ((ws.map fun w => w.s.val).Pairwise (· ≤ ·) → (r.wake.map fun w => w.s.val).Pairwise (· ≤ ·)) := by
  obtain ⟨content, air, wk, us, ls, ws, hc, hld⟩ := load_ok fl fs name hn r h
  have hwake0 : ∀ w, r.wake.head? = some w → w.s.val = 0 := by
    intro w hw
    cases hws : ws with
    | nil => rw [hld.noWake hws] at hw; cases hw
    | cons v rest =>
      rw [(hld.wake v rest hws).1, hws] at hw
      cases hw; simp [Wake.at, R.rd_zero]
  have hwakeS : (ws.map fun w => w.s.val).Pairwise (· ≤ ·) → (r.wake.map fun w => w.s.val).Pairwise (· ≤ ·) := by
    intro hp
    cases hws : ws with
    | nil => rw [hld.noWake hws]; simp
    | cons v rest =>
      rw [(hld.wake v rest hws).1]
      rw [List.pairwise_map] at hp ⊢
      rw [List.pairwise_map]
      exact hp.imp fun {a b} hab => by simp only [Wake.at, val_sub]; exact R.mono (by linarith)
  have shiftU : ∀ (σ : R.F) (l : List (Pt R.F)), (l.map fun p => p.s.val).Pairwise (· ≤ ·) →
      ((l.reverse.map (Pt.at (σ - ·))).map fun p => p.s.val).Pairwise (· ≤ ·) := by
    intro σ l hl
    rw [List.map_map, List.pairwise_map, List.pairwise_reverse]
    rw [List.pairwise_map] at hl
    exact hl.imp fun {a b} hab => by simp only [Function.comp, Pt.at, val_sub]; exact R.mono (by linarith)
  have shiftL : ∀ (σ : R.F) (l : List (Pt R.F)), (l.map fun p => p.s.val).Pairwise (· ≤ ·) →
      (((l.map Pt.flip).map (Pt.at (· - σ))).map fun p => p.s.val).Pairwise (· ≤ ·) := by
    intro σ l hl
    rw [List.map_map, List.map_map, List.pairwise_map]
    rw [List.pairwise_map] at hl
    exact hl.imp fun {a b} hab => by simp only [Function.comp, Pt.at, Pt.flip, val_sub]; exact R.mono (by linarith)
  obtain ⟨ps, hrows, hsplit⟩ : ∃ ps, Rows fl air ps ∧ ((ps.map fun p => p.s.val).Pairwise (· ≤ ·) →
      (us.map fun p => p.s.val).Pairwise (· ≤ ·) ∧ (ls.map fun p => p.s.val).Pairwise (· ≤ ·)) := by
    cases hld.divided with
    | «at» b lr hls hrows hu hb =>
      refine ⟨_, hrows, fun hp => ?_⟩
      rw [List.map_append, List.pairwise_append] at hp
      exact ⟨hp.1, hp.2.1⟩
    | none a hga hls hrows hu => exact ⟨_, hrows, fun hp => ⟨hp, by rw [hls]; simp⟩⟩
  cases hld.placed with
  | shared a rest hus h0 hup hlo cu ca cl =>
    have ha : a.s.val = 0 := by
      have hmem : a ∈ us := by rw [← List.mem_reverse, hus]; simp
      obtain ⟨row, _, hrow⟩ := hld.divided.mem hmem
      have h1 := F_lt_false.1 ca
      have h2 := F_lt_false.1 (mk'_s hrow)
      simp only [val_zero, val_sub, sub_self, R.rd_zero, zero_sub, R.neg, a.s.rep] at h1 h2
      linarith
    have e0 : ∀ s : R.F, s.val = 0 → (a.s - s - a.s).val = 0 := by
      intro s hs
      simp [ha, hs, R.rd_zero]
    refine ⟨⟨_, by rw [hup]; rfl, e0 _ ha⟩, ⟨_, by rw [hlo]; rfl, e0 _ ha⟩, hwake0, content, air, wk, ps, ws, hc,
      hld.sections, hrows, hld.wakeRows, fun hp => ?_, hwakeS⟩
    obtain ⟨p1, p2⟩ := hsplit hp
    have e : a.at (fun s => a.s - s - a.s) = a.at (a.s - ·) := by
      simp only [Pt.at]
      congr 1
      ext
      simp [ha, R.rd_zero]
    constructor
    · rw [hup, e, ← List.map_cons (f := Pt.at (a.s - ·)), ← hus]; exact shiftU _ _ p1
    · rw [hlo, List.map_cons, List.pairwise_cons]
      refine ⟨?_, shiftL _ _ p2⟩
      intro x hx
      rw [List.map_map, List.map_map] at hx
      obtain ⟨q, hq, rfl⟩ := List.mem_map.1 hx
      have := cl q hq
      rw [F_lt_false, val_zero] at this
      show (a.s - a.s - a.s).val ≤ (q.s - a.s).val
      rw [e0 _ ha]; exact this
  | between a b ru rl hus hls h0 frac hf p0 p hp0 hp hup hlo cu cl =>
    have e0 : (p.s - p.s).val = 0 := by simp [R.rd_zero]
    refine ⟨⟨_, by rw [hup]; rfl, e0⟩, ⟨_, by rw [hlo]; rfl, e0⟩, hwake0, content, air, wk, ps, ws, hc,
      hld.sections, hrows, hld.wakeRows, fun hps => ?_, hwakeS⟩
    obtain ⟨p1, p2⟩ := hsplit hps
    constructor
    · rw [hup, List.map_cons, List.map_cons, List.pairwise_cons]
      refine ⟨?_, shiftU _ _ p1⟩
      intro x hx
      rw [List.map_map] at hx
      obtain ⟨q, hq, rfl⟩ := List.mem_map.1 hx
      have := cu q (List.mem_cons_of_mem _ (List.mem_reverse.1 hq))
      rw [F_lt_false, val_zero] at this
      show (p.s - p.s).val ≤ (p.s - q.s).val
      rw [e0]; exact this
    · rw [hlo, List.map_cons, List.map_cons, List.pairwise_cons]
      refine ⟨?_, shiftL _ _ p2⟩
      intro x hx
      rw [List.map_map, List.map_map] at hx
      obtain ⟨q, hq, rfl⟩ := List.mem_map.1 hx
      have := cl q (List.mem_cons_of_mem _ hq)
      rw [F_lt_false, val_zero] at this
      show (p.s - p.s).val ≤ (q.s - p.s).val
      rw [e0]; exact this

/-! ### The stagnation point -/

/-- The computed fraction has a relative error of about two roundings, and lies between zero and one. -/
theorem frac_bounds {ua ub : ℝ} (hr : R.rd ua = ua) (ha : 0 < ua) (hb : 0 < ub) :
    (1 - 2 * R.eps) * (ua / (ua + ub)) ≤ R.rd (ua / R.rd (ua + ub)) ∧ R.rd (ua / R.rd (ua + ub)) ≤ (1 + 2.01 * R.eps) * (ua / (ua + ub)) ∧
      0 < R.rd (ua / R.rd (ua + ub)) ∧ R.rd (ua / R.rd (ua + ub)) ≤ 1 := by
  have e0 := R.eps_nonneg
  have e1 := R.small
  have hs : 0 < ua + ub := by linarith
  obtain ⟨s1, s2⟩ := rd_bounds (R := R) hs.le
  have hs' : 0 < R.rd (ua + ub) := rd_pos hs
  set S := R.rd (ua + ub) with hS
  have hq : 0 < ua / S := div_pos ha hs'
  obtain ⟨q1, q2⟩ := rd_bounds (R := R) hq.le
  set t := ua / (ua + ub) with ht
  have ht0 : 0 < t := div_pos ha hs
  have htS : t * (ua + ub) = ua := div_mul_cancel₀ _ hs.ne'
  refine ⟨?_, ?_, rd_pos hq, ?_⟩
  · refine le_trans ?_ q1
    have h1 : t * (1 - R.eps) ≤ ua / S := by
      rw [le_div_iff₀ hs']
      have : t * (1 - R.eps) * S ≤ t * (1 - R.eps) * ((1 + R.eps) * (ua + ub)) := mul_le_mul_of_nonneg_left s2 (by nlinarith)
      have h2 : t * (1 - R.eps) * ((1 + R.eps) * (ua + ub)) = ua * (1 - R.eps ^ 2) := by linear_combination (1 - R.eps ^ 2) * htS
      nlinarith [sq_nonneg R.eps]
    nlinarith [sq_nonneg R.eps]
  · refine q2.trans ?_
    have h1 : ua / S ≤ t * (1 + 1.005 * R.eps) := by
      rw [div_le_iff₀ hs']
      have : t * (1 + 1.005 * R.eps) * ((1 - R.eps) * (ua + ub)) ≤ t * (1 + 1.005 * R.eps) * S := mul_le_mul_of_nonneg_left s1 (by nlinarith)
      have h2 : t * (1 + 1.005 * R.eps) * ((1 - R.eps) * (ua + ub)) = ua * ((1 + 1.005 * R.eps) * (1 - R.eps)) := by linear_combination ((1 + 1.005 * R.eps) * (1 - R.eps)) * htS
      have h3 : 1 ≤ (1 + 1.005 * R.eps) * (1 - R.eps) := by nlinarith
      nlinarith
    have h2 : (1 + R.eps) * (ua / S) ≤ (1 + R.eps) * (t * (1 + 1.005 * R.eps)) := mul_le_mul_of_nonneg_left h1 (by linarith)
    have h3 : (1 + R.eps) * (1 + 1.005 * R.eps) ≤ 1 + 2.01 * R.eps := by nlinarith
    nlinarith
  · rw [← R.rd_one]
    refine R.mono ?_
    rw [div_le_one hs', hS, ← hr]
    exact (by rw [hr]; calc ua = R.rd ua := hr.symm
      _ ≤ R.rd (ua + ub) := R.mono (by linarith))

/-- Two relative errors, one after the other. -/
theorem rd_bounds' {x y k m : ℝ} (hy : 0 ≤ y) (h1 : k * x ≤ y) (h2 : y ≤ m * x) :
    (1 - R.eps) * (k * x) ≤ R.rd y ∧ R.rd y ≤ (1 + R.eps) * (m * x) := by
  obtain ⟨b1, b2⟩ := rd_bounds (R := R) hy
  have e0 := R.eps_nonneg
  have e1 := R.small
  exact ⟨(mul_le_mul_of_nonneg_left h1 (by linarith)).trans b1, b2.trans (mul_le_mul_of_nonneg_left h2 (by linarith))⟩

/-- The weighted mean computed for the stagnation point. -/
theorem stagnation_s_bounds {f a b M : ℝ} (h0 : 0 ≤ f) (h1 : f ≤ 1) (ha : 0 ≤ a) (hb : 0 ≤ b) (haM : a ≤ M) (hbM : b ≤ M) :
    |R.rd (R.rd (f * b) + R.rd (R.rd (1 - f) * a)) - (a + f * (b - a))| ≤ 3.01 * R.eps * M := by
  have e0 := R.eps_nonneg
  have e1 := R.small
  have hg0 : 0 ≤ 1 - f := by linarith
  obtain ⟨x1, x2⟩ := rd_bounds (R := R) (mul_nonneg h0 hb)
  obtain ⟨y1, y2⟩ := rd_bounds (R := R) hg0
  have hg : 0 ≤ R.rd (1 - f) := rd_nonneg hg0
  have p2 : 0 ≤ (1 - f) * a := mul_nonneg hg0 ha
  have p1 : 0 ≤ f * b := mul_nonneg h0 hb
  obtain ⟨z1, z2⟩ := rd_bounds' (R := R) (x := (1 - f) * a) (k := 1 - R.eps) (m := 1 + R.eps) (mul_nonneg hg ha)
    (by rw [← mul_assoc]; exact mul_le_mul_of_nonneg_right y1 ha) (by rw [← mul_assoc]; exact mul_le_mul_of_nonneg_right y2 ha)
  have hsum : 0 ≤ R.rd (f * b) + R.rd (R.rd (1 - f) * a) := add_nonneg (rd_nonneg p1) (rd_nonneg (mul_nonneg hg ha))
  have hq1 : f * b + (1 - f) * a ≤ M := by nlinarith
  obtain ⟨w1, w2⟩ := rd_bounds' (R := R) (x := f * b + (1 - f) * a) (k := (1 - R.eps) ^ 2) (m := (1 + R.eps) ^ 2) hsum
    (by have : 0 ≤ R.eps * (1 - R.eps) * (f * b) := mul_nonneg (mul_nonneg e0 (by linarith)) p1
        linear_combination x1 + z1 + this)
    (by have : 0 ≤ R.eps * (1 + R.eps) * (f * b) := mul_nonneg (mul_nonneg e0 (by linarith)) p1
        linear_combination x2 + z2 + this)
  have hq0 : 0 ≤ f * b + (1 - f) * a := add_nonneg p1 p2
  have hqq : a + f * (b - a) = f * b + (1 - f) * a := by ring
  rw [hqq]
  generalize R.rd (R.rd (f * b) + R.rd (R.rd (1 - f) * a)) = W at *
  generalize f * b + (1 - f) * a = q at *
  generalize R.eps = ε at *
  have c1 : 1 - 3.01 * ε ≤ (1 - ε) * (1 - ε) ^ 2 := by nlinarith [mul_nonneg e0 e0, mul_nonneg (mul_nonneg e0 e0) (by linarith : 0 ≤ 1 - ε)]
  have c2 : (1 + ε) * (1 + ε) ^ 2 ≤ 1 + 3.01 * ε := by
    have k1 : ε * ε ≤ ε * (1 / 1000) := mul_le_mul_of_nonneg_left e1 e0
    have k2 : ε * ε * ε ≤ ε * (1 / 1000) * 1 := mul_le_mul k1 (by linarith) e0 (by positivity)
    nlinarith
  have d1 := mul_le_mul_of_nonneg_right c1 hq0
  have d2 := mul_le_mul_of_nonneg_right c2 hq0
  have d3 := mul_le_mul_of_nonneg_left hq1 e0
  rw [abs_le]
  constructor
  · linear_combination d1 + w1 + 3.01 * d3
  · linear_combination d2 + w2 + 3.01 * d3

/-- A weighted mean of non-negative numbers, with a positive first number, is positive also when computed with rounding. -/
theorem mean_nonneg {f x y : ℝ} (h0 : 0 ≤ f) (h1 : f ≤ 1) (hx : 0 ≤ x) (hy : 0 ≤ y) : 0 ≤ R.rd (R.rd (f * x) + R.rd (R.rd (1 - f) * y)) :=
  rd_nonneg (add_nonneg (rd_nonneg (mul_nonneg h0 hx)) (rd_nonneg (mul_nonneg (rd_nonneg (sub_nonneg.2 h1)) hy)))

theorem mean_pos {f x y : ℝ} (h0 : 0 < f) (h1 : f ≤ 1) (hx : 0 < x) (hy : 0 ≤ y) : 0 < R.rd (R.rd (f * x) + R.rd (R.rd (1 - f) * y)) :=
  rd_pos (add_pos_of_pos_of_nonneg (rd_pos (mul_pos h0 hx)) (rd_nonneg (mul_nonneg (rd_nonneg (sub_nonneg.2 h1)) hy)))

theorem flip_u (b : Pt R.F) : b.flip.u.val = -b.u.val := by
  have h : R.rd ((-1 : ℚ) : ℝ) = -1 := by
    have := R.neg 1
    rw [R.rd_one] at this
    rw [← this]; push_cast; rfl
  simp only [Pt.flip, val_mul, val_lit, h]
  rw [mul_neg_one, R.neg, b.u.rep]

/-- The hypothesis of C41 (`rows_kept`, `points_counted`) on cancellation holds with rounding. -/
theorem cancels_rounded (v : R.F) : PyCmp.eq (v + v * lit (-1)) (lit 0) = true := by
  have h : R.rd ((-1 : ℚ) : ℝ) = -1 := by
    have := R.neg 1
    rw [R.rd_one] at this
    rw [← this]; push_cast; rfl
  rw [F_eq, val_zero, val_add, val_mul, val_lit, h, mul_neg_one, R.neg, v.rep, add_neg_cancel, R.rd_zero]

/-- The fraction computed for the stagnation point. -/
theorem frac_rounded {a b : Pt R.F} (ha : 0 < a.u.val) (hb : b.u.val < 0) :
    pyDiv a.u (a.u + b.flip.u) = .ok (a.u / (a.u + b.flip.u)) ∧
      (a.u / (a.u + b.flip.u)).val = R.rd (a.u.val / R.rd (a.u.val + -b.u.val)) := by
  have hv : (a.u + b.flip.u).val = R.rd (a.u.val + -b.u.val) := by rw [val_add, flip_u]
  refine ⟨?_, by rw [val_div, hv]⟩
  have : (a.u + b.flip.u).val ≠ 0 := by rw [hv]; exact (rd_pos (by linarith)).ne'
  rw [pyDiv, if_neg]
  rw [F_eq, val_zero]
  exact this

/-- The stagnation point is between its neighbours if the distances from them are not of the order of the rounding errors. -/
theorem stagnation_between {ua ub a b : ℝ} (hr : R.rd ua = ua) (ha : 0 < ua) (hb : 0 < ub) (h0 : 0 ≤ a) (hab : a ≤ b)
    (h1 : 6 * R.eps * b * (ua + ub) ≤ ua * (b - a)) (h2 : 6 * R.eps * b * (ua + ub) ≤ ub * (b - a)) :
    a ≤ R.rd (R.rd (R.rd (ua / R.rd (ua + ub)) * b) + R.rd (R.rd (1 - R.rd (ua / R.rd (ua + ub))) * a)) ∧
      R.rd (R.rd (R.rd (ua / R.rd (ua + ub)) * b) + R.rd (R.rd (1 - R.rd (ua / R.rd (ua + ub))) * a)) ≤ b := by
  obtain ⟨f1, f2, f3, f4⟩ := frac_bounds (R := R) hr ha hb
  have hs := stagnation_s_bounds (R := R) f3.le f4 h0 (h0.trans hab) hab le_rfl
  rw [abs_le] at hs
  obtain ⟨s1, s2⟩ := hs
  have e0 := R.eps_nonneg
  have e1 := R.small
  have hS : 0 < ua + ub := by linarith
  have g1 : 6 * R.eps * b ≤ ua / (ua + ub) * (b - a) := by
    rw [div_mul_eq_mul_div, le_div_iff₀ hS]; exact h1
  have g2 : 6 * R.eps * b ≤ (1 - ua / (ua + ub)) * (b - a) := by
    have : 1 - ua / (ua + ub) = ub / (ua + ub) := by field_simp; ring
    rw [this, div_mul_eq_mul_div, le_div_iff₀ hS]; exact h2
  have t0 : 0 < ua / (ua + ub) := div_pos ha hS
  have t1 : ua / (ua + ub) ≤ 1 := (div_le_one hS).2 (by linarith)
  have hd : 0 ≤ b - a := by linarith
  have hb0 : 0 ≤ b := h0.trans hab
  generalize R.rd (R.rd (R.rd (ua / R.rd (ua + ub)) * b) + R.rd (R.rd (1 - R.rd (ua / R.rd (ua + ub))) * a)) = W at *
  generalize R.rd (ua / R.rd (ua + ub)) = f at *
  generalize ua / (ua + ub) = t at *
  generalize R.eps = ε at *
  have k1 := mul_le_mul_of_nonneg_right f1 hd
  have k2 := mul_le_mul_of_nonneg_right f2 hd
  have eb : 0 ≤ ε * b := mul_nonneg e0 hb0
  constructor
  · have : (1 - 2 * ε) * (6 * ε * b) ≤ (1 - 2 * ε) * (t * (b - a)) := mul_le_mul_of_nonneg_left g1 (by linarith)
    have h3 : ε * (ε * b) ≤ 1 / 1000 * (ε * b) := mul_le_mul_of_nonneg_right e1 eb
    linarith
  · have h3 : ε * (t * (b - a)) ≤ ε * (1 * b) := mul_le_mul_of_nonneg_left (mul_le_mul t1 (by linarith) hd (by norm_num)) e0
    linarith

/-- C87 (C58 with rounding): a dump file is read if its rows are admissible, the velocity is positive before some place and negative from there on at
least at the first row, arc length does not decrease in the airfoil and in the wake, and the two rows next to the stagnation point are separated by
more than a few rounding errors. -/
theorem wellformed_read_rounded_partial (hinf : InfAdm R.F) (fl : Floats R.F) (fs : Files) (name content : Text) (hn : name ≠ []) (hc : fs name = .ok content)
    (air wk : List Text) (hs : Sections (readlines content) air wk) (us ls : List (Pt R.F)) (a b : Pt R.F) (ws : List (Wake R.F))
    (hrows : Rows fl air (us ++ a :: b :: ls)) (hw : WakeRows fl wk ws) (hu : ∀ p ∈ us, 0 ≤ p.u.val) (ha : 0 < a.u.val) (hb : b.u.val < 0)
    (hmono : ((us ++ a :: b :: ls).map fun p => p.s.val).Pairwise (· ≤ ·)) (hwm : (ws.map fun w => w.s.val).Pairwise (· ≤ ·))
    (hsepa : 6 * R.eps * b.s.val * (a.u.val - b.u.val) ≤ a.u.val * (b.s.val - a.s.val))
    (hsepb : 6 * R.eps * b.s.val * (a.u.val - b.u.val) ≤ -b.u.val * (b.s.val - a.s.val)) :
    ∃ r, Reader.load fl fs name = (r, .ok ()) := by
  obtain ⟨hfr, hfv⟩ := frac_rounded ha hb
  obtain ⟨f1, f2, f3, f4⟩ := frac_bounds (R := R) a.u.rep ha (neg_pos.2 hb)
  have hall : ∀ p ∈ us ++ a :: b :: ls, p.Adm := by
    intro p hp
    obtain ⟨row, _, h⟩ := rows_mem hrows hp
    exact Pt.mk'_adm hinf fl row p h
  have haA := hall a (by simp)
  have hbA := hall b (by simp)
  have le0 : ∀ {x : R.F}, PyCmp.lt x (lit 0) = false ↔ 0 ≤ x.val := by intro x; rw [F_lt_false, val_zero]
  have lt0 : ∀ {x : R.F}, PyCmp.le x (lit 0) = false ↔ 0 < x.val := by intro x; rw [F_le_false, val_zero]
  have hcle : ∀ x y : R.F, 0 ≤ x.val → 0 ≤ y.val →
      0 ≤ (a.u / (a.u + b.flip.u) * x + (lit 1 - a.u / (a.u + b.flip.u)) * y).val := by
    intro x y hx hy
    rw [val_add, val_mul, val_mul, val_sub, val_one, hfv]
    exact mean_nonneg f3.le f4 hx hy
  have hclt : ∀ x y : R.F, 0 < x.val → 0 < y.val →
      0 < (a.u / (a.u + b.flip.u) * x + (lit 1 - a.u / (a.u + b.flip.u)) * y).val := by
    intro x y hx hy
    rw [val_add, val_mul, val_mul, val_sub, val_one, hfv]
    exact mean_pos f3 f4 hx hy.le
  rw [List.pairwise_map, List.pairwise_append] at hmono
  obtain ⟨m1, m2, m3⟩ := hmono
  rw [List.pairwise_cons] at m2
  obtain ⟨m2, m4⟩ := m2
  rw [List.pairwise_cons] at m4
  have hab : a.s.val ≤ b.s.val := m2 b (by simp)
  have hbetween := stagnation_between (R := R) a.u.rep ha (neg_pos.2 hb) (le0.1 haA.s) hab (by linarith) (by linarith)
  have hsv : (interpolated a b.flip (a.u / (a.u + b.flip.u))).s.val =
      R.rd (R.rd (R.rd (a.u.val / R.rd (a.u.val + -b.u.val)) * b.s.val) + R.rd (R.rd (1 - R.rd (a.u.val / R.rd (a.u.val + -b.u.val))) * a.s.val)) := by
    rw [← hfv]; simp only [interpolated, Pt.flip, val_add, val_mul, val_sub, val_one]
  rw [← hsv] at hbetween
  obtain ⟨hsa, hsb⟩ := hbetween
  have hadm : (interpolated a b.flip (a.u / (a.u + b.flip.u))).Adm := by
    refine ⟨?_, ?_, ?_, ?_, ?_, ?_⟩
    · rw [le0]; exact (le0.1 haA.s).trans hsa
    · rw [le0]; exact hcle _ _ (le0.1 hbA.deltaD) (le0.1 haA.deltaD)
    · rw [le0]; exact hcle _ _ (le0.1 hbA.deltaM) (le0.1 haA.deltaM)
    · rw [le0]; exact hcle _ _ (le0.1 hbA.cf) (le0.1 haA.cf)
    · rw [lt0]; exact hclt _ _ (lt0.1 hbA.shapeD) (lt0.1 haA.shapeD)
    · rw [lt0]; exact hclt _ _ (lt0.1 hbA.shapeK) (lt0.1 haA.shapeK)
  obtain ⟨airU, airL, rfl, hU, hL⟩ : ∃ x y, air = x ++ y ∧ Rows fl x (us ++ [a]) ∧ Rows fl y (b :: ls) := by
    rw [show us ++ a :: b :: ls = (us ++ [a]) ++ (b :: ls) by simp] at hrows
    refine ⟨air.take (us ++ [a]).length, air.drop (us ++ [a]).length, (List.take_append_drop _ _).symm, ?_, ?_⟩
    · have := List.forall₂_take (us ++ [a]).length hrows
      rwa [List.take_left] at this
    · have := rows_drop hrows (us ++ [a]).length
      rwa [List.drop_left] at this
  have sub0 : ∀ {x y : R.F}, x.val ≤ y.val → 0 ≤ (y - x).val := fun h => rd_nonneg (sub_nonneg.2 h)
  refine load_forward hn hc (dumpData_sections _ _ _ hs) hU hL ?_ (by simpa [R.rd_zero] using hb) ?_ hfr (p0 := Pt.infs) ?_
    (interpolate_forward _ _ _ _ hadm) ?_ ?_ hw ?_
  · intro q hq
    rw [le0]
    rcases List.mem_append.1 hq with hq | hq
    · exact hu q hq
    · rw [List.mem_singleton.1 hq]; exact ha.le
  · rw [Bool.eq_false_iff]; simpa [R.rd_zero] using ha.ne'
  · rw [Pt.mk', row_empty hinf]
  · intro q hq
    rw [le0]
    refine sub0 ?_
    rcases List.mem_cons.1 hq with rfl | hq
    · exact le_rfl
    · rcases List.mem_append.1 hq with hq | hq
      · exact (m3 q hq a (by simp)).trans hsa
      · rw [List.mem_singleton.1 hq]; exact hsa
  · intro q hq
    rw [le0]
    refine sub0 ?_
    rcases List.mem_cons.1 hq with rfl | hq
    · exact le_rfl
    · rcases List.mem_cons.1 hq with rfl | hq
      · exact hsb
      · exact hsb.trans (m4.1 q hq)
  · rintro w rest rfl v hv
    rw [le0]
    refine sub0 ?_
    rw [List.pairwise_map, List.pairwise_cons] at hwm
    rcases List.mem_cons.1 hv with rfl | hv
    · exact le_rfl
    · exact hwm.1 v hv

/-! ### The edge velocity of the stagnation point -/

theorem stagnation_u_bound {ua ub : ℝ} (hr : R.rd ua = ua) (ha : 0 < ua) (hb : 0 < ub) :
    |R.rd (R.rd (-R.rd (ua / R.rd (ua + ub)) * ub) + R.rd (R.rd (1 - R.rd (ua / R.rd (ua + ub))) * ua))| ≤ 8 * R.eps * ua := by
  obtain ⟨f1, f2, f3, f4⟩ := frac_bounds (R := R) hr ha hb
  have e0 := R.eps_nonneg
  have e1 := R.small
  have hS : 0 < ua + ub := by linarith
  have t0 : 0 < ua / (ua + ub) := div_pos ha hS
  have t1 : ua / (ua + ub) ≤ 1 := (div_le_one hS).2 (by linarith)
  have tw : ua / (ua + ub) * ub = (1 - ua / (ua + ub)) * ua := by field_simp; ring
  generalize R.rd (ua / R.rd (ua + ub)) = f at *
  generalize ua / (ua + ub) = t at *
  have hg0 : 0 ≤ 1 - f := by linarith
  rw [neg_mul, R.neg]
  obtain ⟨x1, x2⟩ := rd_bounds' (R := R) (x := t * ub) (k := 1 - 2 * R.eps) (m := 1 + 2.01 * R.eps) (mul_nonneg f3.le hb.le)
    (by rw [← mul_assoc]; exact mul_le_mul_of_nonneg_right f1 hb.le) (by rw [← mul_assoc]; exact mul_le_mul_of_nonneg_right f2 hb.le)
  obtain ⟨y1, y2⟩ := rd_bounds (R := R) hg0
  obtain ⟨z1, z2⟩ := rd_bounds' (R := R) (x := (1 - f) * ua) (k := 1 - R.eps) (m := 1 + R.eps) (mul_nonneg (rd_nonneg hg0) ha.le)
    (by rw [← mul_assoc]; exact mul_le_mul_of_nonneg_right y1 ha.le) (by rw [← mul_assoc]; exact mul_le_mul_of_nonneg_right y2 ha.le)
  have hD := R.rel (-R.rd (f * ub) + R.rd (R.rd (1 - f) * ua))
  generalize R.rd (f * ub) = X at *
  generalize R.rd (R.rd (1 - f) * ua) = Z at *
  rw [tw] at x1 x2
  -- everything in units of `ua`
  have w0 : 0 ≤ (1 - t) * ua := mul_nonneg (by linarith) ha.le
  have hta : 0 ≤ t * ua := mul_nonneg t0.le ha.le
  have hsum : (1 - t) * ua + t * ua = ua := by ring
  have g1 : (1 - f) * ua ≤ (1 - t) * ua + 2 * R.eps * (t * ua) := by
    have := mul_le_mul_of_nonneg_right f1 ha.le
    linear_combination this
  have g2 : (1 - t) * ua - 2.01 * R.eps * (t * ua) ≤ (1 - f) * ua := by
    have := mul_le_mul_of_nonneg_right f2 ha.le
    linear_combination this
  have hfu : 0 ≤ (1 - f) * ua := mul_nonneg hg0 ha.le
  generalize R.rd (-X + Z) = W at *
  generalize (1 - t) * ua = w at *
  generalize t * ua = v at *
  generalize (1 - f) * ua = g at *
  generalize R.eps = ε at *
  have ee : ε * ε ≤ 1 / 1000 * ε := mul_le_mul_of_nonneg_right e1 e0
  have c2 : (1 + ε) * (1 + 2.01 * ε) ≤ 1 + 3.02 * ε := by nlinarith
  have c1 : 1 - 3 * ε ≤ (1 - ε) * (1 - 2 * ε) := by nlinarith
  have d2 : (1 + ε) * (1 + ε) ≤ 1 + 2.01 * ε := by nlinarith
  have d1 : 1 - 2 * ε ≤ (1 - ε) * (1 - ε) := by nlinarith
  have X1 : (1 - 3 * ε) * w ≤ X := le_trans (by rw [← mul_assoc]; exact mul_le_mul_of_nonneg_right c1 w0) x1
  have X2 : X ≤ (1 + 3.02 * ε) * w := x2.trans (by rw [← mul_assoc]; exact mul_le_mul_of_nonneg_right c2 w0)
  have Z1 : (1 - 2 * ε) * g ≤ Z := le_trans (by rw [← mul_assoc]; exact mul_le_mul_of_nonneg_right d1 hfu) z1
  have Z2 : Z ≤ (1 + 2.01 * ε) * g := z2.trans (by rw [← mul_assoc]; exact mul_le_mul_of_nonneg_right d2 hfu)
  have G1 : (1 - 2 * ε) * (w - 2.01 * ε * v) ≤ (1 - 2 * ε) * g := mul_le_mul_of_nonneg_left g2 (by linarith)
  have G2 : (1 + 2.01 * ε) * g ≤ (1 + 2.01 * ε) * (w + 2 * ε * v) := mul_le_mul_of_nonneg_left g1 (by linarith)
  have ev : 0 ≤ ε * v := mul_nonneg e0 hta
  have ew : 0 ≤ ε * w := mul_nonneg e0 w0
  have eev : ε * (ε * v) ≤ 1 / 1000 * (ε * v) := mul_le_mul_of_nonneg_right e1 ev
  have eev0 : 0 ≤ ε * (ε * v) := mul_nonneg e0 ev
  have hX : |-X + Z| ≤ 5.1 * ε * w + 2.1 * ε * v := by
    rw [abs_le]
    constructor
    · linarith
    · linarith
  have hua : ua = w + v := hsum.symm
  have hW : |W| ≤ (1 + ε) * |-X + Z| := by
    have h1 := abs_sub_abs_le_abs_sub W (-X + Z)
    linarith
  have hW2 : (1 + ε) * |-X + Z| ≤ (1 + 1 / 1000) * (5.1 * ε * w + 2.1 * ε * v) :=
    mul_le_mul (by linarith) hX (abs_nonneg _) (by norm_num)
  rw [hua]
  linarith

/-- A weighted mean with the computed fraction, against the exact one. -/
theorem mean_close {ua ub a b M : ℝ} (hr : R.rd ua = ua) (ha : 0 < ua) (hb : 0 < ub) (h0 : 0 ≤ a) (h1 : 0 ≤ b) (haM : a ≤ M) (hbM : b ≤ M) :
    |R.rd (R.rd (R.rd (ua / R.rd (ua + ub)) * b) + R.rd (R.rd (1 - R.rd (ua / R.rd (ua + ub))) * a)) -
      ((1 - ua / (ua + ub)) * a + ua / (ua + ub) * b)| ≤ 6 * R.eps * M := by
  obtain ⟨f1, f2, f3, f4⟩ := frac_bounds (R := R) hr ha hb
  have hs := stagnation_s_bounds (R := R) f3.le f4 h0 h1 haM hbM
  have e0 := R.eps_nonneg
  have hS : 0 < ua + ub := by linarith
  have t0 : 0 < ua / (ua + ub) := div_pos ha hS
  have t1 : ua / (ua + ub) ≤ 1 := (div_le_one hS).2 (by linarith)
  generalize R.rd (R.rd (R.rd (ua / R.rd (ua + ub)) * b) + R.rd (R.rd (1 - R.rd (ua / R.rd (ua + ub))) * a)) = W at *
  generalize R.rd (ua / R.rd (ua + ub)) = f at *
  generalize ua / (ua + ub) = t at *
  have hf : |f - t| ≤ 2.01 * R.eps := by
    have : R.eps * t ≤ R.eps * 1 := mul_le_mul_of_nonneg_left t1 e0
    have h0 : 0 ≤ R.eps * t := mul_nonneg e0 t0.le
    rw [abs_le]; constructor <;> linarith
  have hd : |b - a| ≤ M := by rw [abs_le]; constructor <;> linarith
  have hM : 0 ≤ M := h0.trans haM
  have e : W - ((1 - t) * a + t * b) = (W - (a + f * (b - a))) + (f - t) * (b - a) := by ring
  rw [e]
  refine (abs_add_le _ _).trans ?_
  rw [abs_mul]
  have := mul_le_mul hf hd (abs_nonneg _) (by positivity)
  have : 0 ≤ R.eps * M := mul_nonneg e0 hM
  linarith

/-- `p` is within six relative rounding errors of the point on the straight line between `a` and `b` at the fraction `t`, in everything that has a sign
and is not counted from the stagnation point. -/
structure CloseTo (t : ℝ) (a b p : Pt R.F) : Prop where
  deltaD : |p.deltaD.val - ((1 - t) * a.deltaD.val + t * b.deltaD.val)| ≤ 6 * R.eps * max a.deltaD.val b.deltaD.val
  deltaM : |p.deltaM.val - ((1 - t) * a.deltaM.val + t * b.deltaM.val)| ≤ 6 * R.eps * max a.deltaM.val b.deltaM.val
  cf : |p.cf.val - ((1 - t) * a.cf.val + t * b.cf.val)| ≤ 6 * R.eps * max a.cf.val b.cf.val
  shapeD : |p.shapeD.val - ((1 - t) * a.shapeD.val + t * b.shapeD.val)| ≤ 6 * R.eps * max a.shapeD.val b.shapeD.val
  shapeK : |p.shapeK.val - ((1 - t) * a.shapeK.val + t * b.shapeK.val)| ≤ 6 * R.eps * max a.shapeK.val b.shapeK.val

/-- C43 with rounding: unless a row with zero velocity is used, the first point of both surfaces has an edge velocity that is zero up to eight relative
rounding errors of the last positive one, and thicknesses, friction and shape factors within six relative rounding errors of the interpolated ones. -/
theorem stagnation_rounded (hinf : InfAdm R.F) (fl : Floats R.F) (fs : Files) (name : Text) (hn : name ≠ []) (r : Reader R.F)
    (h : Reader.load fl fs name = (r, .ok ())) :
    ∃ content air wk ps, fs name = .ok content ∧ Sections (readlines content) air wk ∧ Rows fl air ps ∧
      ((∃ a ∈ ps, a.u.val = 0 ∧ ∀ q, r.upperPts.head? = some q ∨ r.lowerPts.head? = some q → q.SameButS a) ∨
      ∃ us ls a b, ps = us ++ a :: b :: ls ∧ 0 < a.u.val ∧ b.u.val < 0 ∧
        ∀ q, r.upperPts.head? = some q ∨ r.lowerPts.head? = some q →
          |q.u.val| ≤ 8 * R.eps * a.u.val ∧ CloseTo (a.u.val / (a.u.val - b.u.val)) a b q) := by
  obtain ⟨content, air, wk, us, ls, ws, hc, hld⟩ := load_ok fl fs name hn r h
  cases hld.placed with
  | shared a rest hus h0 hup hlo cu ca cl =>
    have hmem : a ∈ us := by rw [← List.mem_reverse, hus]; simp
    obtain ⟨ps, hrows, hps⟩ : ∃ ps, Rows fl air ps ∧ a ∈ ps := by
      cases hld.divided with
      | «at» b lr hls hrows hu hb => exact ⟨_, hrows, List.mem_append_left _ hmem⟩
      | none a' hga hls hrows hu => exact ⟨_, hrows, hmem⟩
    refine ⟨content, air, wk, ps, hc, hld.sections, hrows, .inl ⟨a, hps, by simpa [R.rd_zero] using h0, ?_⟩⟩
    rintro q (hq | hq)
    · rw [hup] at hq; cases hq; rfl
    · rw [hlo] at hq; cases hq; rfl
  | between a b ru rl hus hls h0 frac hf p0 p hp0 hp hup hlo cu cl =>
    have hne : a.u.val ≠ 0 := by
      intro e
      rw [Bool.eq_false_iff] at h0
      exact h0 (by simpa [R.rd_zero] using e)
    have hmem : a ∈ us := by rw [← List.mem_reverse, hus]; simp
    have husa : us = ru.reverse ++ [a] := by rw [← List.reverse_reverse us, hus]; simp
    have hpe := interpolate_ok _ _ _ _ _ hp
    cases hld.divided with
    | «at» b' lr hls' hrows hu hb =>
      rw [hls] at hls'
      obtain ⟨rfl, rfl⟩ := List.cons.inj hls'
      have hb0 : b.u.val < 0 := by simpa [R.rd_zero] using hb
      have ha0 : 0 < a.u.val := by
        have := F_lt_false.1 (hu a hmem)
        rw [val_zero] at this
        exact lt_of_le_of_ne this hne.symm
      obtain ⟨hfr, hfv⟩ := frac_rounded ha0 hb0
      rw [hfr] at hf
      cases Except.ok.inj hf
      refine ⟨content, air, wk, _, hc, hld.sections, hrows, .inr ⟨ru.reverse, rl, a, b, by rw [husa, hls]; simp, ha0, hb0, ?_⟩⟩
      have hadm : ∀ q ∈ us ++ ls, q.Adm := by
        intro q hq
        obtain ⟨row, _, hr⟩ := rows_mem hrows hq
        exact Pt.mk'_adm hinf fl row q hr
      have haA := hadm a (List.mem_append_left _ hmem)
      have hbA := hadm b (List.mem_append_right _ (by rw [hls]; simp))
      have le0 : ∀ {x : R.F}, PyCmp.lt x (lit 0) = false ↔ 0 ≤ x.val := by intro x; rw [F_lt_false, val_zero]
      have lt0 : ∀ {x : R.F}, PyCmp.le x (lit 0) = false ↔ 0 < x.val := by intro x; rw [F_le_false, val_zero]
      have hmean : ∀ x y : R.F, 0 ≤ x.val → 0 ≤ y.val →
          |(a.u / (a.u + b.flip.u) * x + (lit 1 - a.u / (a.u + b.flip.u)) * y).val -
            ((1 - a.u.val / (a.u.val - b.u.val)) * y.val + a.u.val / (a.u.val - b.u.val) * x.val)| ≤ 6 * R.eps * max y.val x.val := by
        intro x y hx hy
        rw [val_add, val_mul, val_mul, val_sub, val_one, hfv, sub_eq_add_neg a.u.val]
        exact mean_close a.u.rep ha0 (neg_pos.2 hb0) hy hx (le_max_left _ _) (le_max_right _ _)
      have key : ∀ q : Pt R.F, q.SameButS p → |q.u.val| ≤ 8 * R.eps * a.u.val ∧ CloseTo (a.u.val / (a.u.val - b.u.val)) a b q := by
        intro q hq
        have hq' : q = { p with s := q.s } := hq
        rw [hq', hpe]
        refine ⟨?_, hmean _ _ (le0.1 hbA.deltaD) (le0.1 haA.deltaD), hmean _ _ (le0.1 hbA.deltaM) (le0.1 haA.deltaM),
          hmean _ _ (le0.1 hbA.cf) (le0.1 haA.cf), hmean _ _ (lt0.1 hbA.shapeD).le (lt0.1 haA.shapeD).le,
          hmean _ _ (lt0.1 hbA.shapeK).le (lt0.1 haA.shapeK).le⟩
        show |(PyCmp.abs (-(a.u / (a.u + b.flip.u)) * b.flip.u + (lit 1 - a.u / (a.u + b.flip.u)) * a.u)).val| ≤ _
        rw [val_abs, abs_abs, val_add, val_mul, val_mul, val_sub, val_neg, val_one, hfv, flip_u]
        exact stagnation_u_bound a.u.rep ha0 (neg_pos.2 hb0)
      rintro q (hq | hq)
      · rw [hup] at hq; cases hq; exact key _ rfl
      · rw [hlo] at hq; cases hq; exact key _ rfl
    | none a' hga hls' hrows hu =>
      exfalso
      rw [hls] at hls'
      obtain ⟨rfl, rfl⟩ := List.cons.inj hls'
      rw [husa, List.getLast?_append] at hga
      simp at hga
      subst hga
      have : (a.u + a.flip.u).val = 0 := by rw [val_add, flip_u]; simp [R.rd_zero]
      rw [pyDiv, if_pos (by rw [F_eq, val_zero]; exact this)] at hf
      cases hf

/-! ### How far apart the rows must be -/

/-- With the precision of python's floats the last hypotheses of `wellformed_read_rounded_partial` hold for the rows of a dump with five decimals, as XFoil
writes it: velocities and distance of at least 0.000009 and numbers up to 100. -/
theorem separated_by_digits {a b : Pt R.F} (heps : R.eps ≤ (1/2) ^ 53) (hs : b.s.val ≤ 100) (hua : a.u.val ≤ 100) (hub : -100 ≤ b.u.val)
    (hd : 9 / 10 ^ 6 ≤ b.s.val - a.s.val) (ha : 9 / 10 ^ 6 ≤ a.u.val) (hb : b.u.val ≤ -(9 / 10 ^ 6)) (hs0 : 0 ≤ a.s.val) :
    6 * R.eps * b.s.val * (a.u.val - b.u.val) ≤ a.u.val * (b.s.val - a.s.val) ∧
      6 * R.eps * b.s.val * (a.u.val - b.u.val) ≤ -b.u.val * (b.s.val - a.s.val) := by
  have e0 := R.eps_nonneg
  have hsb : 0 ≤ b.s.val := by
    have : (0:ℝ) ≤ 9 / 10 ^ 6 := by norm_num
    linarith
  have h1 : 6 * R.eps * b.s.val * (a.u.val - b.u.val) ≤ 6 * (1/2) ^ 53 * 100 * 200 := by
    refine mul_le_mul (mul_le_mul (by linarith) hs hsb (by positivity)) (by linarith) ?_ (by positivity)
    norm_num at ha hb; linarith
  have h2 : (6:ℝ) * (1/2) ^ 53 * 100 * 200 ≤ 9 / 10 ^ 6 * (9 / 10 ^ 6) := by norm_num
  have h3 : (9 / 10 ^ 6 : ℝ) * (9 / 10 ^ 6) ≤ a.u.val * (b.s.val - a.s.val) := mul_le_mul ha hd (by norm_num) (le_trans (by norm_num) ha)
  have h4 : (9 / 10 ^ 6 : ℝ) * (9 / 10 ^ 6) ≤ -b.u.val * (b.s.val - a.s.val) := by
    refine mul_le_mul (by linarith) hd (by norm_num) (le_trans (by norm_num) (by linarith : (9 / 10 ^ 6 : ℝ) ≤ _))
  exact ⟨h1.trans (h2.trans h3), h1.trans (h2.trans h4)⟩

/-- With velocities 1 and -5 at the arc length 11 the stagnation point is put at the next number above 11. -/
theorem double_stagnation : double.rd (double.rd (double.rd (1 / double.rd (1 + 5)) * 11) + double.rd (double.rd (1 - double.rd (1 / double.rd (1 + 5))) * 11)) =
    11 + 1 / 2 ^ 49 := by
  have e0 : double.rd (1 + 5) = 6 := by
    have := double.int 6 (by norm_num)
    norm_num at this ⊢; exact this
  have e1 : double.rd (1 / 6) = 6004799503160661 / 2 ^ 55 := by
    rw [double_eval (-3) 6004799503160661 (by norm_num) (by norm_num) (by norm_num)]; norm_num
  have e2 : double.rd (6004799503160661 / 2 ^ 55 * 11) = 8256599316845909 / 2 ^ 52 := by
    rw [double_eval 0 8256599316845909 (by norm_num) (by norm_num) (by norm_num [abs_lt])]; norm_num
  have e3 : double.rd (1 - 6004799503160661 / 2 ^ 55) = 7505999378950827 / 2 ^ 53 := by
    rw [double_eval (-1) 7505999378950827 (by norm_num) (by norm_num) (by norm_num [abs_lt])]; norm_num
  have e4 : double.rd (7505999378950827 / 2 ^ 53 * 11) = 5160374573028694 / 2 ^ 49 := by
    rw [double_eval 3 5160374573028694 (by norm_num) (by norm_num) (by norm_num [abs_lt])]; norm_num
  have e5 : double.rd (8256599316845909 / 2 ^ 52 + 5160374573028694 / 2 ^ 49) = 6192449487634433 / 2 ^ 49 := by
    rw [double_eval 3 6192449487634433 (by norm_num) (by norm_num) (by norm_num [abs_lt])]; norm_num
  rw [e0, e1, e2, e3, e4, e5]
  norm_num

/-- C58 is false with rounding: two rows next to the stagnation point at the same arc length, otherwise well-formed, and the load raises ValueError. -/
theorem equal_arc_length_rejected [PySpecial double.F] (hinf : InfAdm double.F) (fl : Floats double.F) (fs : Files) (name content : Text) (hn : name ≠ [])
    (hc : fs name = .ok content) (air wk : List Text) (hs : Sections (readlines content) air wk) (us ls : List (Pt double.F)) (a b : Pt double.F)
    (hrows : Rows fl air (us ++ a :: b :: ls)) (hu : ∀ p ∈ us, 0 ≤ p.u.val) (ha : a.u.val = 1) (hb : b.u.val = -5) (hsa : a.s.val = 11)
    (hsb : b.s.val = 11) : (Reader.load fl fs name).2 = .error .valueError := by
  have ha0 : 0 < a.u.val := by rw [ha]; norm_num
  have hb0 : b.u.val < 0 := by rw [hb]; norm_num
  obtain ⟨hfr, hfv⟩ := frac_rounded ha0 hb0
  obtain ⟨f1, f2, f3, f4⟩ := frac_bounds (R := double) a.u.rep ha0 (neg_pos.2 hb0)
  have hall : ∀ p ∈ us ++ a :: b :: ls, p.Adm := by
    intro p hp
    obtain ⟨row, _, h⟩ := rows_mem hrows hp
    exact Pt.mk'_adm hinf fl row p h
  have haA := hall a (by simp)
  have hbA := hall b (by simp)
  have le0 : ∀ {x : double.F}, PyCmp.lt x (lit 0) = false ↔ 0 ≤ x.val := by intro x; rw [F_lt_false, val_zero]
  have lt0 : ∀ {x : double.F}, PyCmp.le x (lit 0) = false ↔ 0 < x.val := by intro x; rw [F_le_false, val_zero]
  have hcle : ∀ x y : double.F, 0 ≤ x.val → 0 ≤ y.val →
      0 ≤ (a.u / (a.u + b.flip.u) * x + (lit 1 - a.u / (a.u + b.flip.u)) * y).val := by
    intro x y hx hy
    rw [val_add, val_mul, val_mul, val_sub, val_one, hfv]
    exact mean_nonneg f3.le f4 hx hy
  have hclt : ∀ x y : double.F, 0 < x.val → 0 < y.val →
      0 < (a.u / (a.u + b.flip.u) * x + (lit 1 - a.u / (a.u + b.flip.u)) * y).val := by
    intro x y hx hy
    rw [val_add, val_mul, val_mul, val_sub, val_one, hfv]
    exact mean_pos f3 f4 hx hy.le
  have hadm : (interpolated a b.flip (a.u / (a.u + b.flip.u))).Adm :=
    ⟨le0.2 (hcle _ _ (le0.1 hbA.s) (le0.1 haA.s)), le0.2 (hcle _ _ (le0.1 hbA.deltaD) (le0.1 haA.deltaD)),
      le0.2 (hcle _ _ (le0.1 hbA.deltaM) (le0.1 haA.deltaM)), le0.2 (hcle _ _ (le0.1 hbA.cf) (le0.1 haA.cf)),
      lt0.2 (hclt _ _ (lt0.1 hbA.shapeD) (lt0.1 haA.shapeD)), lt0.2 (hclt _ _ (lt0.1 hbA.shapeK) (lt0.1 haA.shapeK))⟩
  have hsv : (interpolated a b.flip (a.u / (a.u + b.flip.u))).s.val = 11 + 1 / 2 ^ 49 := by
    rw [← double_stagnation]
    have : (a.u / (a.u + b.flip.u)).val = double.rd (1 / double.rd (1 + 5)) := by rw [hfv, ha, hb, neg_neg]
    rw [← this]
    simp only [interpolated, Pt.flip, val_add, val_mul, val_sub, val_one, hsa, hsb]
  obtain ⟨airU, airL, rfl, hU, hL⟩ : ∃ x y, air = x ++ y ∧ Rows fl x (us ++ [a]) ∧ Rows fl y (b :: ls) := by
    rw [show us ++ a :: b :: ls = (us ++ [a]) ++ (b :: ls) by simp] at hrows
    refine ⟨air.take (us ++ [a]).length, air.drop (us ++ [a]).length, (List.take_append_drop _ _).symm, ?_, ?_⟩
    · have := List.forall₂_take (us ++ [a]).length hrows
      rwa [List.take_left] at this
    · have := rows_drop hrows (us ++ [a]).length
      rwa [List.drop_left] at this
  refine load_between_error hn hc (dumpData_sections _ _ _ hs) hU hL ?_ (by simpa [double.rd_zero] using hb0) ?_ hfr (p0 := Pt.infs) ?_
    (interpolate_forward _ _ _ _ hadm) ?_
  · intro q hq
    rw [le0]
    rcases List.mem_append.1 hq with hq | hq
    · exact hu q hq
    · rw [List.mem_singleton.1 hq]; exact ha0.le
  · rw [Bool.eq_false_iff]; simpa [double.rd_zero] using ha0.ne'
  · rw [Pt.mk', row_empty hinf]
  · rw [F_lt, val_sub, hsv, hsb, val_zero]
    refine rd_neg ?_
    norm_num

/-! ### Concrete files -/

/-- A reader of the words used below. -/
noncomputable def exFloatR (R : Rounding) : Floats R.F := fun w =>
  if w = "1".toList then some (lit 1) else if w = "2".toList then some (lit 2) else if w = "11".toList then some (lit 11)
  else if w = "-5".toList then some (lit (-5)) else none

def exRowR (s u : String) : Text := (s ++ " 1 1 " ++ u ++ " 1 1 1 1 1 1 1 1\n").toList

noncomputable def exPtR (R : Rounding) (s u : R.F) : Pt R.F :=
  ⟨s, lit 1, lit 1, u, lit 1, lit 1, lit 1, lit 1, lit 1, lit 1, lit 1, lit 1⟩

theorem exRowR_mk (hinf : InfAdm R.F) (v w : String) (s u : R.F) (h0 : 0 ≤ s.val) (hs : (exRowR v w).split = [v.toList, "1".toList, "1".toList, w.toList,
    "1".toList, "1".toList, "1".toList, "1".toList, "1".toList, "1".toList, "1".toList, "1".toList]) (hne : exRowR v w ≠ [])
    (hv : exFloatR R v.toList = some s) (hu : exFloatR R w.toList = some u) : Pt.mk' (exFloatR R) (exRowR v w) = .ok (exPtR R s u) := by
  rw [mk'_iff hinf _ _ hne]
  refine ⟨?_, ?_⟩
  · rw [numbers_iff, hs, mapM_some_iff]
    have h1 : exFloatR R "1".toList = some (lit 1) := by simp [exFloatR]
    exact (.cons hv (.cons h1 (.cons h1 (.cons hu (.cons h1 (.cons h1 (.cons h1 (.cons h1 (.cons h1 (.cons h1 (.cons h1 (.cons h1 .nil))))))))))))
  · refine ⟨by rw [F_lt_false, val_zero]; exact h0, ?_, ?_, ?_, ?_, ?_⟩ <;> rw [Bool.eq_false_iff] <;> simp [exPtR, R.rd_zero, R.rd_one]

theorem exR_sections (a b : Text) (h : readlines (a ++ b) = [a, b]) (ha : ∀ c, a.head? = some c → c ≠ '#')
    (hl : a.length < 80) : Sections (readlines (a ++ b)) [a, b] [] := by
  rw [h]
  refine ⟨⟨[], by simp, .inl ⟨rfl, ?_⟩⟩, by simp, by simp, fun _ => .inr ⟨_, rfl, hl⟩⟩
  rintro l ⟨⟩ e
  exact ha _ e rfl

theorem lit_val {R : Rounding} (n : ℤ) (h : |n| ≤ 1000) : (lit (n : ℚ) : R.F).val = n := val_int n h

/-- The file that is rejected. -/
theorem equal_arc_length_example [PySpecial double.F] (hinf : InfAdm double.F) :
    (Reader.load (exFloatR double) (exFiles (exRowR "11" "1" ++ exRowR "11" "-5")) ['a']).2 = .error .valueError := by
  have h11 : (lit 11 : double.F).val = 11 := by simpa using lit_val (R := double) 11 (by norm_num)
  have h5 : (lit (-5) : double.F).val = -5 := by simpa using lit_val (R := double) (-5) (by norm_num)
  have r1 := exRowR_mk (R := double) hinf "11" "1" (lit 11) (lit 1) (by rw [h11]; norm_num) (by decide) (by decide) (by simp [exFloatR]) (by simp [exFloatR])
  have r2 := exRowR_mk (R := double) hinf "11" "-5" (lit 11) (lit (-5)) (by rw [h11]; norm_num) (by decide) (by decide) (by simp [exFloatR]) (by simp [exFloatR])
  exact equal_arc_length_rejected hinf (exFloatR double) _ ['a'] _ (by simp) rfl [exRowR "11" "1", exRowR "11" "-5"] []
    (exR_sections _ _ (by decide) (by decide) (by decide)) [] [] (exPtR double (lit 11) (lit 1)) (exPtR double (lit 11) (lit (-5)))
    (.cons r1 (.cons r2 .nil)) (by simp) val_one h5 h11 h11

/-- With the first row at arc length 1 the file is read, whatever the rounding. -/
theorem wellformed_rounded_example (hinf : InfAdm R.F) :
    ∃ r, Reader.load (exFloatR R) (exFiles (exRowR "1" "1" ++ exRowR "11" "-5")) ['a'] = (r, .ok ()) := by
  have h11 : (lit 11 : R.F).val = 11 := by simpa using lit_val (R := R) 11 (by norm_num)
  have h5 : (lit (-5) : R.F).val = -5 := by simpa using lit_val (R := R) (-5) (by norm_num)
  have r1 := exRowR_mk (R := R) hinf "1" "1" (lit 1) (lit 1) (by rw [val_one]; norm_num) (by decide) (by decide) (by simp [exFloatR]) (by simp [exFloatR])
  have r2 := exRowR_mk (R := R) hinf "11" "-5" (lit 11) (lit (-5)) (by rw [h11]; norm_num) (by decide) (by decide) (by simp [exFloatR]) (by simp [exFloatR])
  have e1 := R.small
  refine wellformed_read_rounded_partial hinf (exFloatR R) _ ['a'] _ (by simp) rfl [exRowR "1" "1", exRowR "11" "-5"] []
    (exR_sections _ _ (by decide) (by decide) (by decide)) [] [] (exPtR R (lit 1) (lit 1)) (exPtR R (lit 11) (lit (-5))) []
    (.cons r1 (.cons r2 .nil)) .nil (by simp) ?_ ?_ ?_ (by simp) ?_ ?_
  · show 0 < (lit 1 : R.F).val
    rw [val_one]; norm_num
  · show (lit (-5) : R.F).val < 0
    rw [h5]; norm_num
  · simp only [exPtR, List.nil_append, List.map_cons, List.map_nil, h11, val_one]
    simp
  · simp only [exPtR, h11, h5, val_one]; linarith
  · simp only [exPtR, h11, h5, val_one]; linarith

/-- The hypothesis on infinity can be met. -/
example : ∃ _ : PySpecial R.F, InfAdm R.F := ⟨⟨lit 1, lit 0⟩, by
  constructor
  · rw [F_lt_false, val_zero]; show 0 ≤ (lit 1 : R.F).val; rw [val_one]; norm_num
  · rw [F_le_false, val_zero]; show 0 < (lit 1 : R.F).val; rw [val_one]; norm_num⟩

end IBL.XFoil
