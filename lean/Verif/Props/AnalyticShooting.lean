import Mathlib.Analysis.SpecialFunctions.Pow.Deriv
import Verif.Lemmas.Secant
import Verif.Props.AnalyticBlasius

/-! C34 for the Blasius equation: with a supplied `eta_inf` the search for `f''(0)` converges. Exact arithmetic, exact integrator. -/

set_option linter.unusedSectionVars false

namespace IBL.Analytic
open Set IBL.Secant

variable [PySpecial ℝ]

/-! ### The inner loop is the secant iteration -/

section loop
variable {g d : ℝ → ℝ} (hg : Shoot g d) {solve : ℝ → Except Exc (ℝ × ℝ)} (hs : ∀ w v, 0 < w → solve w = .ok v → v.1 = g w)
  {r : ℝ} (hr0 : 0 < r) (hr : g r = 1)

/-- The loop ended because its tolerance is met. -/
private def Met (g : ℝ → ℝ) (i : Inner ℝ) : Prop := i.converged = true ∧ 0 < i.curr ∧ |1 - g i.curr| < 1/100000000

include hs in
private theorem inner_step {n : ℕ} {i i' : Inner ℝ} (h : innerLoop solve (n + 1) i = .ok i') (hc : 0 < i.curr) (hne : i.prev ≠ i.curr)
    (hf : i.f1Prev = g i.prev) :
    Met g i' ∨ (1/100000000 ≤ |1 - g i.curr| ∧ ∃ i1 : Inner ℝ, i1.prev = i.curr ∧ i1.curr = next g i.prev i.curr ∧ i1.f1Prev = g i.curr ∧
      innerLoop solve n i1 = .ok i') := by
  rw [innerLoop] at h
  split at h
  · cases h
  · next f1 f2 hsol =>
    have hv : f1 = g i.curr := hs _ _ hc hsol
    have he : PyCmp.eq i.prev i.curr = false := by rw [Bool.eq_false_iff]; simpa using hne
    have hiff : PyCmp.lt (PyCmp.abs (lit 1 - f1)) (lit (1/100000000)) = true ↔ |1 - g i.curr| < 1/100000000 := by
      rw [real_lt, real_abs, real_lit, real_lit, hv]
      push_cast
      rfl
    simp only [he, Bool.false_or] at h
    split at h
    · next hsm =>
      simp only [Except.ok.injEq] at h
      rw [← h]
      exact .inl ⟨rfl, hc, hiff.1 hsm⟩
    · next hsm =>
      refine .inr ⟨not_lt.1 fun hl => hsm (hiff.2 hl), _, rfl, ?_, ?_, h⟩
      · simp only [next, hv, hf, real_lit]; push_cast; rfl
      · exact hv

private theorem ne_root {c : ℝ} (h : 1/100000000 ≤ |1 - g c|) (hr : g r = 1) : c ≠ r := fun e => by
  rw [e, hr] at h
  norm_num at h

include hg hs hr0 hr

/-- From a pair that encloses the solution. -/
private theorem enclosed {U : ℝ} (hU : g U ≤ 5/2) (m n : ℕ) {i i' : Inner ℝ} (h : innerLoop solve (3 * m + n + 1) i = .ok i')
    (hp : U / 10 ≤ i.prev) (hpr : i.prev ≤ r) (hrc : r ≤ i.curr) (hcU : i.curr ≤ U) (hlt : i.prev < i.curr) (hf : i.f1Prev = g i.prev)
    (hsm : 10 / U * ((49/100) ^ m * (i.curr - r)) < 1/100000000) : Met g i' := by
  have hU0 : 0 < U := hr0.trans_le (hrc.trans hcU)
  have hU10 : 0 < U / 10 := by positivity
  have kk : ∀ a b : ℝ, U / 10 ≤ a → b ≤ U → (46/100 : ℝ) ^ 3 * b ≤ a := fun a b ha hb => by
    have : (46/100 : ℝ) ^ 3 * b ≤ 46/100 ^ 3 * 46 ^ 2 * U := by norm_num; linarith
    norm_num at this ⊢
    linarith
  induction m generalizing i with
  | zero =>
    simp only [Nat.mul_zero, Nat.zero_add, pow_zero, one_mul] at h hsm
    rcases inner_step hs h (hr0.trans_le hrc) hlt.ne hf with h1 | ⟨h1, -⟩
    · exact h1
    · exfalso
      have h2 := (hg.slope hr0 hrc).2
      have h3 := hg.le hr0 hrc
      have h4 := hg.upper r hr0
      rw [hr] at h2 h3 h4
      have h5 : 1 - g i.curr ≤ 0 := by linarith
      rw [abs_of_nonpos h5] at h1
      have h6 : d r ≤ 10 / U := by
        rw [le_div_iff₀ hU0]
        have h7 := hg.dpos hr0
        have : d r * (U / 10) ≤ d r * r := by gcongr; linarith
        linarith
      have h8 : d r * (i.curr - r) ≤ 10 / U * (i.curr - r) := by gcongr
      linarith
  | succ m ih =>
    rw [show 3 * (m + 1) + n + 1 = (3 * m + n + 1 + 1 + 1) + 1 by ring] at h
    rcases inner_step hs h (hr0.trans_le hrc) hlt.ne hf with h1 | ⟨h1, i1, p1, c1, f1, h2⟩
    · exact h1
    have ncr := ne_root h1 hr
    have hrc' : r < i.curr := lt_of_le_of_ne hrc ncr.symm
    obtain ⟨a1, a2, a3⟩ := hg.between (hU10.trans_le hp) hpr hrc hlt hr (k := 46/100) (by norm_num) (kk _ _ hp hcU)
    rw [← c1] at a1 a2 a3
    have a4 : i1.curr < i.curr := by nlinarith
    rcases inner_step hs h2 (hr0.trans_le a1) (by rw [p1]; exact a4.ne') (by rw [f1, p1]) with h3 | ⟨h3, i2, p2, c2, f2, h4⟩
    · exact h3
    have n1 := ne_root h3 hr
    have hr1 : r < i1.curr := lt_of_le_of_ne a1 n1.symm
    rw [p1, next_comm (hg.lt (hr0.trans_le a1) a4).ne'] at c2
    obtain ⟨b1, b2⟩ := hg.above hr0 a1 a4 hcU hU hr
    rw [← c2] at b1 b2
    have b3 : i2.curr < i1.curr := b2.trans_lt hr1
    rcases inner_step hs h4 (hU10.trans_le b1) (by rw [p2]; exact b3.ne') (by rw [f2, p2]) with h5 | ⟨h5, i3, p3, c3, f3, h6⟩
    · exact h5
    have n2 := ne_root h5 hr
    have hr2 : i2.curr < r := lt_of_le_of_ne b2 n2
    rw [p2, next_comm (hg.lt (hU10.trans_le b1) b3).ne'] at c3
    obtain ⟨e1, e2, e3⟩ := hg.between (hU10.trans_le b1) b2 a1 b3 hr (k := 46/100) (by norm_num) (kk _ _ b1 (a2.trans hcU))
    rw [← c3] at e1 e2 e3
    refine ih h6 (by rw [p3]; exact b1) (by rw [p3]; exact b2) e1 (e2.trans (a2.trans hcU)) (by rw [p3]; exact hr2.trans_le e1)
      (by rw [f3, p3]) (lt_of_le_of_lt ?_ hsm)
    rw [pow_succ, mul_assoc ((49/100 : ℝ) ^ m)]
    gcongr
    nlinarith

/-- From a pair below the solution. -/
private theorem approach {k : ℝ} (hk : 0 ≤ k) (hk1 : k ≤ 1) (m n : ℕ) {i i' : Inner ℝ} (h : innerLoop solve (m + n) i = .ok i') (hp : 1 ≤ i.prev)
    (hlt : i.prev < i.curr) (hcr : i.curr ≤ r) (hf : i.f1Prev = g i.prev) (hk3 : k ^ 3 * r ≤ i.prev) :
    Met g i' ∨ ∃ i1 : Inner ℝ, i.prev ≤ i1.prev ∧ i.curr ≤ i1.curr ∧ i1.prev < i1.curr ∧ i1.curr ≤ r ∧ i1.f1Prev = g i1.prev ∧
      r - i1.curr ≤ (1 - 2/3 * k) ^ m * (r - i.curr) ∧ (0 < m → r - i1.prev ≤ (1 - 2/3 * k) ^ (m - 1) * (r - i.curr)) ∧ innerLoop solve n i1 = .ok i' := by
  induction m generalizing i with
  | zero =>
    simp only [Nat.zero_add] at h
    exact .inr ⟨i, le_rfl, le_rfl, hlt, hcr, hf, by simp, fun h => absurd h (by simp), h⟩
  | succ m ih =>
    have q0 : 0 ≤ 1 - 2/3 * k := by linarith
    have q1 : 1 - 2/3 * k ≤ 1 := by linarith
    rw [show m + 1 + n = (m + n) + 1 by ring] at h
    have hp0 : 0 < i.prev := by linarith
    rcases inner_step hs h (hp0.trans hlt) hlt.ne hf with h1 | ⟨h1, i1, p1, c1, f1, h2⟩
    · exact .inl h1
    have ncr := lt_of_le_of_ne hcr (ne_root h1 hr)
    obtain ⟨a1, a2, a3⟩ := hg.below hp0 hlt hcr hr hk hk3
    have a0 : i.curr < next g i.prev i.curr := by
      simp only [next]
      have t1 : 0 < g i.curr - g i.prev := sub_pos.2 (hg.lt hp0 hlt)
      have t2 : 0 < 1 - g i.curr := by have := hg.lt (hp0.trans hlt) ncr; linarith
      have t3 : 0 < i.curr - i.prev := sub_pos.2 hlt
      have : 0 < (1 - g i.curr) * (i.curr - i.prev) / (g i.curr - g i.prev) := by positivity
      linarith
    rw [← c1] at a0 a1 a2 a3
    rcases ih h2 (by rw [p1]; linarith) (by rw [p1]; exact a0) a2 (by rw [f1, p1]) (by rw [p1]; linarith) with h3 | ⟨i2, b1, b2, b3, b4, b5, b6, b7, b8⟩
    · exact .inl h3
    · refine .inr ⟨i2, by linarith, a1.trans b2, b3, b4, b5, b6.trans ?_, fun _ => ?_, b8⟩
      · rw [pow_succ, mul_assoc]
        gcongr
      · rcases Nat.eq_zero_or_pos m with hm | hm
        · subst hm
          simp only [Nat.zero_add, Nat.sub_self, pow_zero, one_mul]
          linarith
        · obtain ⟨m, rfl⟩ : ∃ j, m = j + 1 := ⟨m - 1, by omega⟩
          refine (b7 hm).trans ?_
          simp only [Nat.add_sub_cancel]
          rw [pow_succ, mul_assoc]
          gcongr

/-- The inner loop, started as the code starts it, meets its tolerance. -/
private theorem inner_good (hU : g (101/100) ≤ 5/2) (hmax : r ≤ 100000) {i' : Inner ℝ} {f2 : ℝ}
    (h : innerLoop solve 100 ⟨1, 101/100, g 1, f2, false⟩ = .ok i') : Met g i' := by
  rcases le_or_gt r (101/100) with hrU | hrU
  · rcases lt_or_ge r 1 with h1 | h1
    · -- both above
      rcases inner_step hs (n := 99) h (by norm_num) (by norm_num) rfl with k1 | ⟨k1, i1, p1, c1, f1, k2⟩
      · exact k1
      simp only at p1 c1 f1 k1
      obtain ⟨a1, a2⟩ := hg.above hr0 h1.le (b := 101/100) (by norm_num) le_rfl hU hr
      rw [← c1] at a1 a2
      have hlt : i1.curr < 101/100 := by linarith
      have hc0 : 0 < i1.curr := lt_of_lt_of_le (by norm_num) a1
      rcases inner_step hs (n := 98) k2 hc0 (by rw [p1]; exact hlt.ne') (by rw [f1, p1]) with k3 | ⟨k3, i2, p2, c2, f2, k4⟩
      · exact k3
      have hlt2 := lt_of_le_of_ne a2 (ne_root k3 hr)
      rw [p1, next_comm (hg.lt hc0 hlt).ne'] at c2
      obtain ⟨b1, b2, b3⟩ := hg.between hc0 a2 hrU hlt hr (k := 46/100) (by norm_num) (by norm_num at a1 ⊢; linarith)
      rw [← c2] at b1 b2 b3
      refine enclosed hg hs hr0 hr hU 32 1 k4 (by rw [p2]; exact a1) (by rw [p2]; exact a2) b1 b2 (by rw [p2]; exact hlt2.trans_le b1)
        (by rw [f2, p2]) ?_
      have : i2.curr - r ≤ 1 := by linarith
      calc 10 / (101/100) * ((49/100) ^ 32 * (i2.curr - r)) ≤ 10 / (101/100) * ((49/100) ^ 32 * 1) := by gcongr
        _ < 1/100000000 := by norm_num
    · -- enclosed
      refine enclosed hg hs hr0 hr hU 33 0 h (by norm_num) h1 hrU le_rfl (by norm_num) rfl ?_
      simp only
      have : 101/100 - r ≤ 1 := by linarith
      calc 10 / (101/100) * ((49/100) ^ 33 * (101/100 - r)) ≤ 10 / (101/100) * ((49/100) ^ 33 * 1) := by gcongr
        _ < 1/100000000 := by norm_num
  · -- both below
    rcases approach hg hs hr0 hr (k := 1/47) (by norm_num) (by norm_num) 13 87 h le_rfl (by norm_num) hrU.le rfl (by norm_num; linarith)
      with k1 | ⟨i1, a1, a2, a3, a4, a5, a6, a7, a8⟩
    · exact k1
    have hp1 := a7 (by norm_num)
    simp only at hp1 a1 a2
    have hq : r - i1.prev ≤ 7/8 * r := by
      refine hp1.trans ?_
      calc (1 - 2/3 * (1/47) : ℝ) ^ (13 - 1) * (r - 101/100) ≤ 7/8 * (r - 101/100) := by
            have : 0 ≤ r - 101/100 := by linarith
            gcongr
            norm_num
        _ ≤ 7/8 * r := by linarith
    rcases approach hg hs hr0 hr (k := 1/2) (by norm_num) (by norm_num) 86 1 a8 a1 a3 a4 a5 (by norm_num; linarith)
      with k1 | ⟨i2, b1, b2, b3, b4, b5, b6, -, b8⟩
    · exact k1
    have hc1 : 1 ≤ i2.curr := by linarith
    rcases inner_step hs b8 (by linarith) b3.ne b5 with k2 | ⟨k2, -⟩
    · exact k2
    · exfalso
      have h2 := (hg.slope (by linarith : 0 < i2.curr) b4).2
      have h3 := hg.le (by linarith : 0 < i2.curr) b4
      have h4 := hg.upper i2.curr (by linarith)
      rw [hr] at h2 h3
      rw [abs_of_nonneg (by linarith)] at k2
      have hd := hg.dpos (by linarith : 0 < i2.curr)
      have h5 : d i2.curr ≤ 1 := by nlinarith
      have h6 : d i2.curr * (r - i2.curr) ≤ 1 * (r - i2.curr) := by gcongr
      have h7 : r - i2.curr ≤ (1 - 2/3 * (1/2) : ℝ) ^ 86 * 100000 := b6.trans (by gcongr; linarith)
      have h8 : (1 - 2/3 * (1/2) : ℝ) ^ 86 * 100000 < 1/100000000 := by norm_num
      linarith

/-- The loop stays at positive arguments, so it never fails if the integrator does not. -/
private theorem inner_total (hU : g (101/100) ≤ 5/2) (ht : ∀ w, 0 < w → ∃ v, solve w = .ok v) (f2 : ℝ) :
    ∃ i' : Inner ℝ, innerLoop solve 100 ⟨1, 101/100, g 1, f2, false⟩ = .ok i' ∧ 0 < i'.curr := by
  let U : ℝ := 101/100
  suffices H : ∀ (n : ℕ) (i : Inner ℝ), i.f1Prev = g i.prev → 
      ((1 ≤ i.prev ∧ i.prev < i.curr ∧ i.curr ≤ r) ∨ (U / 10 ≤ i.curr ∧ i.curr ≤ r ∧ r ≤ i.prev ∧ i.prev ≤ U ∧ i.curr < i.prev) ∨
       (U / 10 ≤ i.prev ∧ i.prev ≤ r ∧ r ≤ i.curr ∧ i.curr ≤ U ∧ i.prev < i.curr) ∨ (r ≤ i.curr ∧ r ≤ i.prev ∧ i.curr ≠ i.prev ∧ i.curr ≤ U ∧ i.prev ≤ U)) →
      ∃ i', innerLoop solve n i = .ok i' ∧ 0 < i'.curr by
    refine H 100 _ rfl ?_
    simp only [U]
    rcases le_or_gt r (101/100) with h | h
    · rcases le_or_gt r 1 with h1 | h1
      · exact .inr (.inr (.inr ⟨h, h1, by norm_num, le_rfl, by norm_num⟩))
      · exact .inr (.inr (.inl ⟨by norm_num, h1.le, h, le_rfl, by norm_num⟩))
    · exact .inl ⟨le_rfl, by norm_num, h.le⟩
  have hU10 : 0 < U / 10 := by norm_num [U]
  intro n
  induction n with
  | zero =>
    intro i _ hi
    refine ⟨i, rfl, ?_⟩
    rcases hi with h | h | h | h <;> linarith
  | succ n ih =>
    intro i hf hi
    have kk : ∀ a b : ℝ, U / 10 ≤ a → b ≤ U → (46/100 : ℝ) ^ 3 * b ≤ a := fun a b ha hb => by
      simp only [U] at ha hb
      norm_num
      linarith
    have hc : 0 < i.curr := by
      rcases hi with h | h | h | h
      · linarith
      · linarith
      · linarith
      · linarith
    obtain ⟨v, hv⟩ := ht _ hc
    have hv1 := hs _ _ hc hv
    have hne : i.prev ≠ i.curr := by
      rcases hi with h | h | h | h
      · exact h.2.1.ne
      · exact h.2.2.2.2.ne'
      · exact h.2.2.2.2.ne
      · exact h.2.2.1.symm
    have he : PyCmp.eq i.prev i.curr = false := by rw [Bool.eq_false_iff]; simpa using hne
    rw [innerLoop, hv]
    simp only [he, Bool.false_or]
    split
    · exact ⟨_, rfl, hc⟩
    · next hsm =>
      have hnr : i.curr ≠ r := fun e => hsm (by
        rw [real_lt, real_abs, real_lit, real_lit, hv1, e, hr]
        norm_num)
      have hnx : i.curr + (lit 1 - v.1) * (i.curr - i.prev) / (v.1 - i.f1Prev) = next g i.prev i.curr := by
        simp only [next, hv1, hf, real_lit]; push_cast; rfl
      refine ih _ hv1 ?_
      simp only [hnx]
      rcases hi with ⟨h1, h2, h3⟩ | ⟨h1, h2, h3, h4, h5⟩ | ⟨h1, h2, h3, h4, h5⟩ | ⟨h1, h2, h3, h4, h5⟩
      · left
        have h3' := lt_of_le_of_ne h3 hnr
        obtain ⟨a1, a2, -⟩ := hg.below (by linarith) h2 h3 hr (k := 0) le_rfl (by norm_num; linarith)
        refine ⟨by linarith, lt_of_le_of_ne a1 fun e => ?_, a2⟩
        have t1 : 0 < g i.curr - g i.prev := sub_pos.2 (hg.lt (by linarith) h2)
        have t2 : 0 < 1 - g i.curr := by have := hg.lt hc h3'; linarith
        have t3 : 0 < i.curr - i.prev := sub_pos.2 h2
        have : 0 < (1 - g i.curr) * (i.curr - i.prev) / (g i.curr - g i.prev) := by positivity
        simp only [next] at e
        linarith
      · right; right; left
        have h2' := lt_of_le_of_ne h2 hnr
        rw [next_comm (hg.lt hc h5).ne']
        obtain ⟨a1, a2, -⟩ := hg.between hc h2 h3 h5 hr (k := 46/100) (by norm_num) (kk _ _ h1 h4)
        exact ⟨h1, h2, a1, a2.trans h4, h2'.trans_le a1⟩
      · right; right; right
        have h3' := lt_of_le_of_ne h3 hnr.symm
        obtain ⟨a1, a2, a3⟩ := hg.between (hU10.trans_le h1) h2 h3 h5 hr (k := 46/100) (by norm_num) (kk _ _ h1 h4)
        exact ⟨a1, h3, by nlinarith, a2.trans h4, h4⟩
      · right; left
        have h1' := lt_of_le_of_ne h1 hnr.symm
        rcases lt_or_gt_of_ne h3 with h | h
        · rw [next_comm (hg.lt hc h).ne']
          obtain ⟨a1, a2⟩ := hg.above hr0 h1 h h5 hU hr
          exact ⟨a1, a2, h1, h4, a2.trans_lt h1'⟩
        · obtain ⟨a1, a2⟩ := hg.above hr0 h2 h h4 hU hr
          exact ⟨a1, a2, h1, h4, a2.trans_lt h1'⟩

end loop

/-! ### The end value of the Blasius solution as a function of `f''(0)` -/

section slope
variable {F : ℝ → V3 ℝ} (h0 : F 0 = (0, 0, 1)) (hF : ∀ L > 0, ExactOn 1 0 F L)
include h0 hF

private theorem curv_pos {e : ℝ} (he : 0 ≤ e) : 0 < (F e).2.2 := slope_pos one_pos h0 hF he

private theorem f_nonneg {e : ℝ} (he : 0 ≤ e) : 0 ≤ (F e).1 := by
  rcases eq_or_lt_of_le he with h | h
  · rw [← h, h0]
  · exact (f_pos one_pos h0 hF h).le

private theorem curv_anti {a b : ℝ} (ha : 0 ≤ a) (hab : a ≤ b) : (F b).2.2 ≤ (F a).2.2 := by
  refine (slope_decay one_pos h0 hF ha hab).trans ?_
  have h1 : Real.exp (-((F a).1 * (b - a))) ≤ 1 := by
    rw [Real.exp_le_one_iff]
    have := mul_nonneg (f_nonneg h0 hF ha) (sub_nonneg.2 hab)
    linarith
  have := curv_pos h0 hF ha
  nlinarith

private theorem curv_le_one {e : ℝ} (he : 0 ≤ e) : (F e).2.2 ≤ 1 := by
  have := curv_anti h0 hF le_rfl he
  simpa [h0] using this

omit h0 in
/-- Comparison of a component with a function of no smaller derivative. -/
private theorem compare {u u' v v' : ℝ → ℝ} {b : ℝ} (hb : 0 ≤ b) (hu : ContinuousOn u (Icc 0 b)) (hv : ContinuousOn v (Icc 0 b))
    (du : ∀ e ∈ Ioo 0 b, HasDerivAt u (u' e) e) (dv : ∀ e ∈ Ioo 0 b, HasDerivAt v (v' e) e) (hle : ∀ e ∈ Ioo 0 b, u' e ≤ v' e) (h0' : u 0 ≤ v 0) :
    u b ≤ v b := by
  have hm : MonotoneOn (fun e => v e - u e) (Icc 0 b) := by
    refine monotoneOn_of_hasDerivWithinAt_nonneg (convex_Icc 0 b) (hv.sub hu)
      (fun t ht => ((dv t (by rwa [interior_Icc] at ht)).sub (du t (by rwa [interior_Icc] at ht))).hasDerivWithinAt) fun t ht => ?_
    rw [interior_Icc] at ht
    exact sub_nonneg.2 (hle t ht)
  have := hm (left_mem_Icc.2 hb) (right_mem_Icc.2 hb) hb
  simp only at this
  linarith

private theorem f1_le {e : ℝ} (he : 0 ≤ e) : (F e).2.1 ≤ e := by
  rcases eq_or_lt_of_le he with h | h
  · rw [← h, h0]
  · exact compare hF (v := fun e => e) he (hF e h).c1 continuousOn_id (hF e h).d1 (fun t _ => hasDerivAt_id t) (fun t ht => curv_le_one h0 hF ht.1.le) (by simp [h0])

private theorem f0_le {e : ℝ} (he : 0 ≤ e) : (F e).1 ≤ e ^ 2 / 2 := by
  rcases eq_or_lt_of_le he with h | h
  · rw [← h, h0]; simp
  · refine compare hF (v := fun e => e ^ 2 / 2) (v' := fun e => e) he (hF e h).c0 (by fun_prop) (hF e h).d0
      (fun t _ => (((hasDerivAt_id t).pow 2).div_const 2).congr_deriv (by simp)) (fun t ht => f1_le h0 hF ht.1.le) (by simp [h0])

private theorem curv_ge {e : ℝ} (he : 0 ≤ e) : 1 - e ^ 3 / 6 ≤ (F e).2.2 := by
  rcases eq_or_lt_of_le he with h | h
  · rw [← h, h0]; simp
  · refine compare hF (u := fun e => 1 - e ^ 3 / 6) (u' := fun e => -(e ^ 2 / 2)) he (by fun_prop) (hF e h).c2
      (fun t _ => (((((hasDerivAt_id t).pow 3).div_const 6)).const_sub 1).congr_deriv (by simp; ring)) (hF e h).d2 (fun t ht => ?_) (by simp [h0])
    have h1 := f0_le h0 hF ht.1.le
    have h2 := curv_le_one h0 hF ht.1.le
    have h3 := curv_pos h0 hF ht.1.le
    have h4 := f_nonneg h0 hF ht.1.le
    nlinarith

private theorem f1_ge {e : ℝ} (he : 0 ≤ e) : e - e ^ 4 / 24 ≤ (F e).2.1 := by
  rcases eq_or_lt_of_le he with h | h
  · rw [← h, h0]; simp
  · exact compare hF (u := fun e => e - e ^ 4 / 24) (u' := fun e => 1 - e ^ 3 / 6) he (by fun_prop) (hF e h).c1
      (fun t _ => ((hasDerivAt_id t).sub (((hasDerivAt_id t).pow 4).div_const 24)).congr_deriv (by simp; ring)) (hF e h).d1
      (fun t ht => curv_ge h0 hF ht.1.le) (by simp [h0])

private theorem f0_ge {e : ℝ} (he : 0 ≤ e) : e ^ 2 / 2 - e ^ 5 / 120 ≤ (F e).1 := by
  rcases eq_or_lt_of_le he with h | h
  · rw [← h, h0]; simp
  · exact compare hF (u := fun e => e ^ 2 / 2 - e ^ 5 / 120) (u' := fun e => e - e ^ 4 / 24) he (by fun_prop) (hF e h).c0
      (fun t _ => ((((hasDerivAt_id t).pow 2).div_const 2).sub (((hasDerivAt_id t).pow 5).div_const 120)).congr_deriv (by simp; ring)) (hF e h).d0
      (fun t ht => f1_ge h0 hF ht.1.le) (by simp [h0])

private theorem f1_mono {a b : ℝ} (ha : 0 ≤ a) (hab : a ≤ b) : (F a).2.1 ≤ (F b).2.1 := by
  rcases eq_or_lt_of_le hab with h | h
  · rw [h]
  · have hx := hF b (by linarith)
    have hm : MonotoneOn (fun e => (F e).2.1) (Icc 0 b) := by
      refine monotoneOn_of_hasDerivWithinAt_nonneg (convex_Icc 0 b) hx.c1 (fun t ht => (hx.d1 t (by rwa [interior_Icc] at ht)).hasDerivWithinAt) fun t ht => ?_
      rw [interior_Icc] at ht
      exact (curv_pos h0 hF ht.1.le).le
    exact hm ⟨ha, hab⟩ ⟨by linarith, le_rfl⟩ hab

/-- `f'` stays below 2.44 for the solution with `f''(0) = 1`. -/
private theorem f1_bound {e : ℝ} (he : 0 ≤ e) : (F e).2.1 ≤ 2.44 := by
  rcases le_or_gt e 1.6 with h | h
  · have := f1_le h0 hF he
    norm_num at h ⊢
    linarith
  · have hx := hF (e + 1) (by linarith)
    have hfa : (1.192 : ℝ) ≤ (F 1.6).1 := by
      have := f0_ge h0 hF (e := 1.6) (by norm_num)
      norm_num at this ⊢
      linarith
    have hm : AntitoneOn (fun e => (F 1.6).1 * (F e).2.1 + (F e).2.2) (Icc 1.6 e) := by
      have hsub : Icc 1.6 e ⊆ Icc 0 (e + 1) := Icc_subset_Icc (by norm_num) (by linarith)
      refine antitoneOn_of_hasDerivWithinAt_nonpos (convex_Icc _ _) ((continuousOn_const.mul (hx.c1.mono hsub)).add (hx.c2.mono hsub))
        (f' := fun t => (F 1.6).1 * (F t).2.2 + (-(1 * (F t).1 * (F t).2.2) - 0 * (1 - (F t).2.1 ^ 2))) (fun t ht => ?_) fun t ht => ?_
      · rw [interior_Icc] at ht
        have ht' : t ∈ Ioo 0 (e + 1) := ⟨lt_trans (by norm_num) ht.1, by linarith [ht.2]⟩
        exact (((hx.d1 t ht').const_mul _).add (hx.d2 t ht')).hasDerivWithinAt
      · rw [interior_Icc] at ht
        have ht0 : (0:ℝ) ≤ t := le_trans (by norm_num) ht.1.le
        have h1 := f_mono one_pos h0 hF (show (1.6:ℝ) ∈ Ici 0 by norm_num) (show t ∈ Ici 0 from ht0) ht.1.le
        have h2 := curv_pos h0 hF ht0
        simp only at h1 ⊢
        nlinarith
    have := hm (left_mem_Icc.2 h.le) (right_mem_Icc.2 h.le) h.le
    simp only at this
    have h1 := f1_le h0 hF (e := 1.6) (by norm_num)
    have h2 := curv_le_one h0 hF (e := 1.6) (by norm_num)
    have h3 := curv_pos h0 hF he
    have h4 : (F 1.6).1 * (F e).2.1 ≤ (F 1.6).1 * 1.6 + 1 := by nlinarith
    by_contra hc
    rw [not_le] at hc
    norm_num at *
    nlinarith

private theorem f1_pos {e : ℝ} (he : 0 < e) : 0 < (F e).2.1 := by
  have h1 := f1_ge h0 hF (e := min e 1) (le_min he.le zero_le_one)
  have h2 := f1_mono h0 hF (a := min e 1) (le_min he.le zero_le_one) (min_le_left _ _)
  have h3 : 0 < min e 1 := lt_min he one_pos
  have h4 : (min e 1) ^ 4 ≤ min e 1 := by
    calc (min e 1) ^ 4 ≤ (min e 1) ^ 1 := pow_le_pow_of_le_one h3.le (min_le_right _ _) (by norm_num)
      _ = min e 1 := pow_one _
  linarith

/-- `f'` is at least `f''` times the distance from the wall. -/
private theorem curv_le_mean {e : ℝ} (he : 0 ≤ e) : e * (F e).2.2 ≤ (F e).2.1 := by
  rcases eq_or_lt_of_le he with h | h
  · rw [← h, h0]; simp
  · refine compare hF (u := fun e => e * (F e).2.2) (u' := fun e => 1 * (F e).2.2 + e * (-(1 * (F e).1 * (F e).2.2) - 0 * (1 - (F e).2.1 ^ 2))) he
      (continuousOn_id.mul (hF e h).c2) (hF e h).c1 (fun t ht => (hasDerivAt_id t).mul ((hF e h).d2 t ht)) (hF e h).d1 (fun t ht => ?_) (by simp [h0])
    have := mul_nonneg ht.1.le (mul_nonneg (f_nonneg h0 hF ht.1.le) (curv_pos h0 hF ht.1.le).le)
    nlinarith

/-- `f'/eta` decreases. -/
private theorem mean_anti {a b : ℝ} (ha : 0 < a) (hab : a ≤ b) : (F b).2.1 / b ≤ (F a).2.1 / a := by
  have hx := hF (b + 1) (by linarith)
  have hd : ∀ t ∈ Icc a b, HasDerivAt (fun e => (F e).2.1 / e) (((F t).2.2 * t - (F t).2.1 * 1) / t ^ 2) t := fun t ht =>
    (hx.d1 t ⟨ha.trans_le ht.1, by linarith [ht.2]⟩).div (hasDerivAt_id t) (ha.trans_le ht.1).ne'
  have hm : AntitoneOn (fun e => (F e).2.1 / e) (Icc a b) := by
    refine antitoneOn_of_hasDerivWithinAt_nonpos (convex_Icc _ _) (fun t ht => (hd t ht).continuousAt.continuousWithinAt)
      (fun t ht => (hd t (interior_subset ht)).hasDerivWithinAt) fun t ht => ?_
    have ht' := interior_subset ht
    have := curv_le_mean h0 hF (ha.le.trans ht'.1)
    exact div_nonpos_of_nonpos_of_nonneg (by linarith) (by positivity)
  exact hm (left_mem_Icc.2 hab) (right_mem_Icc.2 hab) hab

end slope

section similar
variable {F : ℝ → V3 ℝ} (h0 : F 0 = (0, 0, 1)) (hF : ∀ L > 0, ExactOn 1 0 F L)

/-- The Blasius solution with `f''(0) = w`, made from the one with `f''(0) = 1`. -/
private noncomputable def stretched (F : ℝ → V3 ℝ) (w : ℝ) : ℝ → V3 ℝ := fun e =>
  (w ^ (1/3 : ℝ) * (F (w ^ (1/3 : ℝ) * e)).1, (w ^ (1/3 : ℝ)) ^ 2 * (F (w ^ (1/3 : ℝ) * e)).2.1, (w ^ (1/3 : ℝ)) ^ 3 * (F (w ^ (1/3 : ℝ) * e)).2.2)

omit [PySpecial ℝ] in
private theorem cube {w : ℝ} (hw : 0 < w) : (w ^ (1/3 : ℝ)) ^ 3 = w := by
  rw [← Real.rpow_natCast, ← Real.rpow_mul hw.le]
  norm_num

include h0 in
private theorem stretched_zero {w : ℝ} (hw : 0 < w) : stretched F w 0 = (0, 0, w) := by
  simp only [stretched, mul_zero, h0, mul_one, cube hw]

include hF in
private theorem stretched_exact {w : ℝ} (hw : 0 < w) (L : ℝ) (hL : 0 < L) (h0 : F 0 = (0, 0, 1)) : ExactOn 1 0 (stretched F w) L := by
  have hc : 0 < w ^ (1/3 : ℝ) := Real.rpow_pos_of_pos hw _
  unfold stretched
  generalize w ^ (1/3 : ℝ) = c at hc
  have hx := hF (c * L) (by positivity)
  have hm : MapsTo (fun e : ℝ => c * e) (Icc 0 L) (Icc 0 (c * L)) := fun v hv => ⟨mul_nonneg hc.le hv.1, mul_le_mul_of_nonneg_left hv.2 hc.le⟩
  have hi : ∀ e ∈ Ioo 0 L, c * e ∈ Ioo 0 (c * L) := fun v hv => ⟨mul_pos hc hv.1, mul_lt_mul_of_pos_left hv.2 hc⟩
  have hl : ∀ e, HasDerivAt (fun e : ℝ => c * e) c e := fun e => ((hasDerivAt_id e).const_mul c).congr_deriv (mul_one c)
  have hcl : ContinuousOn (fun e : ℝ => c * e) (Icc 0 L) := by fun_prop
  refine ⟨by simp [h0], by simp [h0], continuousOn_const.mul (hx.c0.comp hcl hm), continuousOn_const.mul (hx.c1.comp hcl hm),
    continuousOn_const.mul (hx.c2.comp hcl hm), fun e he => ?_, fun e he => ?_, fun e he => ?_⟩
  · refine (((hx.d0 _ (hi e he)).comp e (hl e)).const_mul c).congr_deriv ?_
    ring
  · refine (((hx.d1 _ (hi e he)).comp e (hl e)).const_mul (c ^ 2)).congr_deriv ?_
    ring
  · refine (((hx.d2 _ (hi e he)).comp e (hl e)).const_mul (c ^ 3)).congr_deriv ?_
    simp only
    ring

include h0 hF in
/-- The end value of `f'` as a function of `f''(0)` has the properties the secant iteration needs. -/
private theorem shoot {eta : ℝ} (he : 0 < eta) : Shoot (fun w => (stretched F w eta).2.1)
    (fun w => eta / 3 * (2 * ((F (w ^ (1/3 : ℝ) * eta)).2.1 / (w ^ (1/3 : ℝ) * eta)) + (F (w ^ (1/3 : ℝ) * eta)).2.2)) where
  pos w hw := by
    have hc : 0 < w ^ (1/3 : ℝ) := Real.rpow_pos_of_pos hw _
    have := f1_pos h0 hF (e := w ^ (1/3 : ℝ) * eta) (by positivity)
    simp only [stretched]
    positivity
  deriv w hw := by
    have hc : 0 < w ^ (1/3 : ℝ) := Real.rpow_pos_of_pos hw _
    have h3 := cube hw
    have hd : HasDerivAt (fun w : ℝ => w ^ (1/3 : ℝ)) (w ^ (1/3 : ℝ) / (3 * w)) w := by
      refine (Real.hasDerivAt_rpow_const (p := 1/3) (.inl hw.ne')).congr_deriv ?_
      rw [Real.rpow_sub_one hw.ne']
      field_simp
    have hp : 0 < w ^ (1/3 : ℝ) * eta := by positivity
    have h1 := (hF (w ^ (1/3 : ℝ) * eta + 1) (by linarith)).d1 _ ⟨hp, by linarith⟩
    have h2 := (hd.pow 2).mul (h1.comp w (hd.mul_const eta))
    simp only [stretched]
    refine h2.congr_deriv ?_
    simp only [Function.comp_apply, Pi.pow_apply]
    generalize (F (w ^ (1/3 : ℝ) * eta)).2.1 = A
    generalize (F (w ^ (1/3 : ℝ) * eta)).2.2 = B
    generalize w ^ (1/3 : ℝ) = c at hc h3
    subst h3
    field_simp
    norm_num
    ring
  anti x y hx hxy := by
    have hc : x ^ (1/3 : ℝ) ≤ y ^ (1/3 : ℝ) := Real.rpow_le_rpow hx.le hxy (by norm_num)
    have hp : 0 < x ^ (1/3 : ℝ) := Real.rpow_pos_of_pos hx _
    have h1 := mean_anti h0 hF (a := x ^ (1/3 : ℝ) * eta) (b := y ^ (1/3 : ℝ) * eta) (by positivity) (by gcongr)
    have h2 := curv_anti h0 hF (a := x ^ (1/3 : ℝ) * eta) (b := y ^ (1/3 : ℝ) * eta) (by positivity) (by gcongr)
    have : 0 ≤ eta / 3 := by positivity
    gcongr
  lower w hw := by
    have hc : 0 < w ^ (1/3 : ℝ) := Real.rpow_pos_of_pos hw _
    have h3 := cube hw
    have h4 := curv_pos h0 hF (e := w ^ (1/3 : ℝ) * eta) (by positivity)
    simp only [stretched]
    generalize (F (w ^ (1/3 : ℝ) * eta)).2.1 = A at *
    generalize (F (w ^ (1/3 : ℝ) * eta)).2.2 = B at *
    generalize w ^ (1/3 : ℝ) = c at hc h3
    subst h3
    have : c ^ 3 * (eta / 3 * (2 * (A / (c * eta)) + B)) = 2/3 * (c ^ 2 * A) + c ^ 3 * eta / 3 * B := by field_simp
    rw [this]
    have : 0 ≤ c ^ 3 * eta / 3 * B := by positivity
    linarith
  upper w hw := by
    have hc : 0 < w ^ (1/3 : ℝ) := Real.rpow_pos_of_pos hw _
    have h3 := cube hw
    have h4 := curv_le_mean h0 hF (e := w ^ (1/3 : ℝ) * eta) (by positivity)
    simp only [stretched]
    generalize (F (w ^ (1/3 : ℝ) * eta)).2.1 = A at *
    generalize (F (w ^ (1/3 : ℝ) * eta)).2.2 = B at *
    generalize w ^ (1/3 : ℝ) = c at hc h3 h4
    subst h3
    have : c ^ 3 * (eta / 3 * (2 * (A / (c * eta)) + B)) = 2/3 * (c ^ 2 * A) + c ^ 2 / 3 * (c * eta * B) := by field_simp
    rw [this]
    have : c ^ 2 / 3 * (c * eta * B) ≤ c ^ 2 / 3 * A := by gcongr
    linarith

include h0 hF in
private theorem start_bound {eta : ℝ} (he : 0 < eta) : (stretched F (101/100) eta).2.1 ≤ 5/2 := by
  have hw : (0:ℝ) < 101/100 := by norm_num
  have hc : 0 < (101/100 : ℝ) ^ (1/3 : ℝ) := Real.rpow_pos_of_pos hw _
  have h3 := cube hw
  have h4 := f1_bound h0 hF (e := (101/100 : ℝ) ^ (1/3 : ℝ) * eta) (by positivity)
  have h4' := (f1_pos h0 hF (e := (101/100 : ℝ) ^ (1/3 : ℝ) * eta) (by positivity)).le
  simp only [stretched]
  generalize (101/100 : ℝ) ^ (1/3 : ℝ) = c at hc h3 h4 h4'
  have h5 : c ≤ 1.01 := by
    by_contra hcon
    rw [not_le] at hcon
    have : (1.01:ℝ) ^ 3 < c ^ 3 := pow_lt_pow_left₀ hcon (by norm_num) (by norm_num)
    rw [h3] at this
    norm_num at this
  have h6 : c ^ 2 * (F (c * eta)).2.1 ≤ 1.01 ^ 2 * 2.44 := by
    gcongr
  norm_num at h6 ⊢
  linarith

include h0 hF in
/-- There is an `f''(0)` for which `f'` reaches 1 at the prescribed `eta_inf`. -/
private theorem root_exists {eta : ℝ} (he : 0 < eta) : ∃ r, 0 < r ∧ (stretched F r eta).2.1 = 1 ∧ r ≤ max 2 (2 / eta) := by
  have hg := shoot h0 hF he
  have hW0 : 0 < max 2 (2 / eta) := lt_max_of_lt_left (by norm_num)
  have lo : (stretched F (1 / (2 * eta)) eta).2.1 ≤ 1 := by
    have hw : 0 < 1 / (2 * eta) := by positivity
    have hc : 0 < (1 / (2 * eta)) ^ (1/3 : ℝ) := Real.rpow_pos_of_pos hw _
    have h3 := cube hw
    have h4 := f1_le h0 hF (e := (1 / (2 * eta)) ^ (1/3 : ℝ) * eta) (by positivity)
    simp only [stretched]
    generalize (1 / (2 * eta)) ^ (1/3 : ℝ) = c at hc h3 h4
    calc c ^ 2 * (F (c * eta)).2.1 ≤ c ^ 2 * (c * eta) := by gcongr
      _ = c ^ 3 * eta := by ring
      _ ≤ 1 := by rw [h3]; field_simp; norm_num
  have hi : 1 ≤ (stretched F (max 2 (2 / eta)) eta).2.1 := by
    have hc : 0 < (max 2 (2 / eta)) ^ (1/3 : ℝ) := Real.rpow_pos_of_pos hW0 _
    have h3 := cube hW0
    have k1 : 2 ≤ max 2 (2 / eta) := le_max_left _ _
    have k2 : 2 / eta ≤ max 2 (2 / eta) := le_max_right _ _
    simp only [stretched]
    rw [← h3] at k1 k2
    generalize (max 2 (2 / eta)) ^ (1/3 : ℝ) = c at hc k1 k2
    have hpos : 0 < c * eta := by positivity
    rcases le_total (c * eta) 1 with h | h
    · have h4 := f1_ge h0 hF hpos.le
      have h5 : (c * eta) ^ 4 ≤ c * eta := by
        calc (c * eta) ^ 4 ≤ (c * eta) ^ 1 := pow_le_pow_of_le_one hpos.le h (by norm_num)
          _ = c * eta := pow_one _
      have h6 : 23/24 * (c * eta) ≤ (F (c * eta)).2.1 := by linarith
      have h7 : 2 ≤ c ^ 3 * eta := by rwa [div_le_iff₀ he] at k2
      calc 1 ≤ 23/24 * (c ^ 3 * eta) := by linarith
        _ = c ^ 2 * (23/24 * (c * eta)) := by ring
        _ ≤ c ^ 2 * (F (c * eta)).2.1 := by gcongr
    · have h4 := f1_ge h0 hF zero_le_one
      have h5 := f1_mono h0 hF zero_le_one h
      have h6 : (23/24 : ℝ) ≤ (F (c * eta)).2.1 := by norm_num at h4; linarith
      have h7 : (1.25:ℝ) ≤ c := by
        by_contra hcon
        rw [not_le] at hcon
        have : c ^ 3 < (1.25:ℝ) ^ 3 := pow_lt_pow_left₀ hcon hc.le (by norm_num)
        norm_num at this
        linarith
      calc (1:ℝ) ≤ 1.25 ^ 2 * (23/24) := by norm_num
        _ ≤ c ^ 2 * (F (c * eta)).2.1 := by gcongr
  have hle : 1 / (2 * eta) ≤ max 2 (2 / eta) := by
    refine le_trans ?_ (le_max_right _ _)
    rw [div_le_div_iff₀ (by positivity) he]
    linarith
  have hcont : ContinuousOn (fun w => (stretched F w eta).2.1) (Icc (1 / (2 * eta)) (max 2 (2 / eta))) := fun w hw =>
    (hg.deriv w (lt_of_lt_of_le (by positivity) hw.1)).continuousAt.continuousWithinAt
  obtain ⟨r, hr, hr1⟩ := intermediate_value_Icc hle hcont ⟨lo, hi⟩
  exact ⟨r, lt_of_lt_of_le (by positivity) hr.1, hr1, hr.2⟩

end similar

/-! ### C34 -/

section objects
variable {s : Sim ℝ} {t : Tools ℝ} {eta : ℝ}

/-- With a supplied `eta_inf` the search is one run of the inner loop. -/
private theorem search_inner {solve : ℝ → ℝ → Except Exc (ℝ × ℝ)} {eta' w : ℝ} {c1 c2 : Bool} (h : search solve (some eta) none = .ok (eta', w, c1, c2)) :
    ∃ (v : ℝ × ℝ) (i : Inner ℝ), solve eta 1 = .ok v ∧ innerLoop (solve eta) 100 ⟨1, 101/100, v.1, 0, false⟩ = .ok i ∧
      eta' = eta ∧ w = i.curr ∧ c2 = i.converged := by
  simp only [search, Option.getD_some, Option.getD_none, Option.isSome_some, Option.isSome_none, if_true] at h
  split at h
  · cases h
  · next f1 f2 hv =>
    have he : PyCmp.eq eta eta = true := by simp
    rw [outerLoop] at h
    simp only [Bool.false_eq_true, if_false, he, Bool.true_or, if_true, real_lit] at h hv
    push_cast at h hv
    simp only [mul_one] at h
    split at h
    · cases h
    · next o ho =>
      split at ho
      · cases ho
      · next i hi =>
        simp only [Except.ok.injEq, Prod.mk.injEq] at h ho
        rw [← ho] at h
        exact ⟨(f1, f2), i, hv, hi, h.1.symm, h.2.1.symm, h.2.2.2.symm⟩

/-- **C34**, Blasius equation with a supplied `eta_inf`: whenever an exact integrator lets the call return, the search for `f''(0)` has converged,
i.e. `f'` at `eta_inf` is 1 up to the tolerance `1e-8` (the loop never ends because the rounds are used up). -/
theorem blasius_fw_search (hr : Reached s) (hb : s.beta = 0) (ht : ExactIvp t) (hmin : 1/50000 ≤ eta)
    (hok : (s.setSolutionParameters t (some eta) none).2 = .ok ()) :
    let s' := (s.setSolutionParameters t (some eta) none).1
    s'.etaInf = eta ∧ 0 < s'.fwPp ∧ ∃ q, s'.fpAt eta = .ok q ∧ |1 - q| < 1/100000000 := by
  intro s'
  have he : 0 < eta := lt_of_lt_of_le (by norm_num) hmin
  have hs := reached_inRange _ hr
  obtain ⟨F, h0, hF⟩ := blasius_global (w := 1) one_pos
  obtain ⟨eta', w, c1, c2, r, h1, h2, h3, -, -, h4, h5, -⟩ := set_ok s t _ _ hok
  obtain ⟨v, i, hv, hi, e1, e2, -⟩ := search_inner h1
  obtain ⟨root, hr0, hr1, hr2⟩ := root_exists h0 hF he
  have hend : ∀ w v, 0 < w → s.endValues t eta w = .ok v → v.1 = (stretched F w eta).2.1 := fun w v hw h => by
    rw [end_values hs hb ht (stretched_zero h0 hw) (fun L hL => stretched_exact hF hw L hL h0) eta v he h]
  rw [show v.1 = (stretched F 1 eta).2.1 from hend _ _ one_pos hv] at hi
  obtain ⟨-, k1, k2⟩ := inner_good (shoot h0 hF he) hend hr0 hr1 (start_bound h0 hF he)
    (hr2.trans (max_le (by norm_num) (by rw [div_le_iff₀ he]; linarith))) hi
  subst e1
  rw [← e2] at k1 k2
  obtain ⟨j1, -, j3⟩ := ht _ r h2 h3 he
  have j4 := plain_exact hs.gamma (w := w) (by simpa using j1) j3
  rw [hs.alpha, hb] at j4
  have j5 := exact_unique he j4 (stretched_exact hF k1 _ he h0) (by simp [j1, stretched_zero h0 k1]) (right_mem_Icc.2 he.le)
  refine ⟨h4, ?_, (stretched F w eta').2.1, ?_, k2⟩
  · simp only [Sim.fwPp, show s'.f = _ from h5, real_lit]
    simpa [j1] using k1
  · simp only [Sim.fpAt, show s'.f = _ from h5]
    rw [← j5]

/-- Non-vacuity: with the ideal integrator the call returns, for every positive `eta_inf`. -/
theorem blasius_fw_search_returns (hr : Reached s) (hb : s.beta = 0) (he : 0 < eta) :
    (s.setSolutionParameters idealTools (some eta) none).2 = .ok () := by
  have hs := reached_inRange _ hr
  obtain ⟨F, h0, hF⟩ := blasius_global (w := 1) one_pos
  have hplain : ∀ w L, 0 < w → 0 < L → SolvesOn s.plainRhs (stretched F w) L := fun w L hw hL =>
    ExactOn.solves hs.gamma hL (by rw [hs.alpha, hb]; exact stretched_exact hF hw L hL h0)
  have hsolve : ∀ w, 0 < w → s.endValues idealTools eta w = .ok (stretched F w eta).2 := fun w hw => by
    have hex : ∃ y : ℝ → V3 ℝ, y 0 = (lit 0, lit 0, w) ∧ SolvesOn (s.scaledRhs eta) y (lit 1) := by
      refine ⟨fun e => stretched F w (eta * e), by simp [stretched_zero h0 hw], fun e he' => ?_⟩
      simp only [real_lit] at he' ⊢
      push_cast at he' ⊢
      have hm : MapsTo (fun e : ℝ => eta * e) (Icc 0 1) (Icc 0 eta) := fun v hv => ⟨mul_nonneg he.le hv.1, by nlinarith [hv.2]⟩
      have h1 := (hplain w eta hw he (eta * e) (hm he')).scomp e ((hasDerivAt_id e).const_mul eta).hasDerivWithinAt hm
      refine h1.congr_deriv ?_
      simp only [Sim.scaledRhs, Sim.plainRhs, Prod.smul_mk, smul_eq_mul]
      refine Prod.ext ?_ (Prod.ext ?_ ?_) <;> · simp only; ring
    obtain ⟨v, hv⟩ : ∃ v, s.endValues idealTools eta w = .ok v := by
      simp only [Sim.endValues, idealTools]
      rw [dif_pos hex]
      exact ⟨_, rfl⟩
    rw [hv, end_values hs hb ideal_exact (stretched_zero h0 hw) (fun L hL => stretched_exact hF hw L hL h0) eta v he hv]
  obtain ⟨root, hr0, hr1, -⟩ := root_exists h0 hF he
  have hend : ∀ w v, 0 < w → s.endValues idealTools eta w = .ok v → v.1 = (stretched F w eta).2.1 := fun w v hw h => by
    rw [hsolve w hw] at h; rw [← Except.ok.inj h]
  obtain ⟨i, hi, hpos⟩ := inner_total (shoot h0 hF he) hend hr0 hr1 (start_bound h0 hF he) (fun w hw => ⟨_, hsolve w hw⟩) 0
  have hsearch : search (s.endValues idealTools) (some eta) none = .ok (eta, i.curr, true, i.converged) := by
    simp only [search, Option.getD_some, Option.getD_none, Option.isSome_some, Option.isSome_none, if_true, real_lit]
    push_cast
    simp only [hsolve 1 one_pos]
    rw [outerLoop]
    simp only [Bool.false_eq_true, if_false, real_lit]
    push_cast
    simp only [mul_one, hi]
    simp
  have hex : ∃ y : ℝ → V3 ℝ, y 0 = (lit 0, lit 0, i.curr) ∧ SolvesOn s.plainRhs y eta :=
    ⟨stretched F i.curr, by simp [stretched_zero h0 hpos], hplain _ _ hpos he⟩
  have hivp : idealTools.ivp ⟨s.plainRhs, eta, (lit 0, lit 0, i.curr)⟩ = .ok ⟨true, hex.choose eta, hex.choose⟩ := dif_pos hex
  have e : ({ s with etaInf := eta } : Sim ℝ).plainRhs = s.plainRhs := rfl
  have hd : s.alpha + s.beta ≠ 0 := by rw [hs.alpha, hb]; norm_num
  have hbad : badParam (some eta) = false := by
    simp only [badParam]
    rw [Bool.eq_false_iff, ne_eq, real_le, real_lit]
    push_cast
    exact not_le.2 he
  have hbad' : badParam (none : Option ℝ) = false := rfl
  simp only [Sim.setSolutionParameters, hbad, hbad', Sim.calculateSolution, hsearch, e, hivp, Sim.thicknesses, pyDiv]
  simp [idealTools, hd]

end objects

end IBL.Analytic
