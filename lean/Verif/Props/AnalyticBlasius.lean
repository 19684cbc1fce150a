import Mathlib.Analysis.Complex.ExponentialBounds
import Verif.Props.AnalyticEquation

/-! C34 for the Blasius equation: with a supplied `f''(0)` the search for `eta_inf` converges. Exact arithmetic, exact integrator. -/

set_option linter.unusedSectionVars false

namespace IBL.Analytic
open Set

variable [PySpecial ℝ]

/-! ### The Blasius solution on `[0, ∞)` -/

theorem ExactOn.restrict {a b L M : ℝ} {y : ℝ → V3 ℝ} (h : ExactOn a b y L) (hM : M ≤ L) : ExactOn a b y M :=
  ⟨h.f0, h.f1, h.c0.mono (Icc_subset_Icc_right hM), h.c1.mono (Icc_subset_Icc_right hM), h.c2.mono (Icc_subset_Icc_right hM),
    fun e he => h.d0 e ⟨he.1, he.2.trans_le hM⟩, fun e he => h.d1 e ⟨he.1, he.2.trans_le hM⟩, fun e he => h.d2 e ⟨he.1, he.2.trans_le hM⟩⟩

theorem ExactOn.congr {a b L : ℝ} {y z : ℝ → V3 ℝ} (h : ExactOn a b y L) (hL : 0 ≤ L) (hz : EqOn z y (Icc 0 L)) : ExactOn a b z L := by
  have nb : ∀ e ∈ Ioo 0 L, z =ᶠ[nhds e] y := fun e he => Filter.mem_of_superset (Icc_mem_nhds he.1 he.2) hz
  have h0 : z 0 = y 0 := hz (left_mem_Icc.2 hL)
  refine ⟨by rw [h0]; exact h.f0, by rw [h0]; exact h.f1, h.c0.congr fun e he => by rw [hz he], h.c1.congr fun e he => by rw [hz he],
    h.c2.congr fun e he => by rw [hz he], fun e he => ?_, fun e he => ?_, fun e he => ?_⟩
  · rw [hz (Ioo_subset_Icc_self he)]
    exact (h.d0 e he).congr_of_eventuallyEq ((nb e he).mono fun v hv => by simp only [hv])
  · rw [hz (Ioo_subset_Icc_self he)]
    exact (h.d1 e he).congr_of_eventuallyEq ((nb e he).mono fun v hv => by simp only [hv])
  · rw [hz (Ioo_subset_Icc_self he)]
    exact (h.d2 e he).congr_of_eventuallyEq ((nb e he).mono fun v hv => by simp only [hv])

/-- The Falkner-Skan equation determines its solution. -/
theorem exact_unique {b L : ℝ} {y z : ℝ → V3 ℝ} (hL : 0 < L) (hy : ExactOn 1 b y L) (hz : ExactOn 1 b z L) (h0 : (y 0).2.2 = (z 0).2.2) :
    EqOn y z (Icc 0 L) := by
  let s : Sim ℝ := ⟨.falknerSkan, 1, 1, 1, b, 1, none, 1, 1, 1, 1, 1⟩
  exact solves_unique (s := s) (ExactOn.solves (s := s) rfl hL hy) (ExactOn.solves (s := s) rfl hL hz)
    (Prod.ext (by rw [hy.f0, hz.f0]) (Prod.ext (by rw [hy.f1, hz.f1]) h0))

/-- For every positive `f''(0)` the Blasius equation has a solution on `[0, ∞)`. -/
theorem blasius_global {w : ℝ} (hw : 0 < w) : ∃ Φ : ℝ → V3 ℝ, Φ 0 = (0, 0, w) ∧ ∀ L > 0, ExactOn 1 0 Φ L := by
  have hex : ∀ n : ℕ, ∃ sol : ℝ → V3 ℝ, ExactOn 1 0 sol (n + 1) ∧ (sol 0).2.2 = w := fun n => blasius_exists hw (by positivity)
  choose Y hY hY0 using hex
  have agree : ∀ (n m : ℕ), n ≤ m → EqOn (Y n) (Y m) (Icc 0 (n + 1)) := fun n m hnm =>
    exact_unique (by positivity) (hY n) ((hY m).restrict (by have : (n:ℝ) ≤ m := by exact_mod_cast hnm
                                                             linarith)) (by rw [hY0, hY0])
  have same : ∀ (n : ℕ) (e : ℝ), 0 ≤ e → e ≤ n + 1 → Y ⌈e⌉₊ e = Y n e := fun n e h0 h1 => by
    have hc : e ≤ ⌈e⌉₊ := Nat.le_ceil e
    rcases le_total ⌈e⌉₊ n with h | h
    · exact agree _ _ h ⟨h0, by linarith⟩
    · exact (agree _ _ h ⟨h0, h1⟩).symm
  refine ⟨fun e => Y ⌈e⌉₊ e, ?_, fun L hL => ?_⟩
  · have := same 0 0 le_rfl (by norm_num)
    simp only [this]
    exact Prod.ext (hY 0).f0 (Prod.ext (hY 0).f1 (hY0 0))
  · have hc : L ≤ ⌈L⌉₊ := Nat.le_ceil L
    exact ((hY ⌈L⌉₊).restrict (by linarith)).congr hL.le fun e he => same _ e he.1 (by linarith [he.2])

/-! ### Decay of the wall slope -/

section decay
variable {w : ℝ} {Φ : ℝ → V3 ℝ} (hw : 0 < w) (h0 : Φ 0 = (0, 0, w)) (hΦ : ∀ L > 0, ExactOn 1 0 Φ L)
include hw h0 hΦ

theorem slope_pos {e : ℝ} (he : 0 ≤ e) : 0 < (Φ e).2.2 :=
  rises_blasius (L := e + 1) (by linarith) (hΦ _ (by linarith)) (by rw [h0]; exact hw) e ⟨he, by linarith⟩

theorem f_pos {e : ℝ} (he : 0 < e) : 0 < (Φ e).1 :=
  (profile_order (L := e + 1) (by linarith) (hΦ _ (by linarith)) fun v hv => slope_pos hw h0 hΦ hv.1).2.2 e ⟨he, by linarith⟩

theorem f_mono : MonotoneOn (fun e => (Φ e).1) (Ici 0) := by
  intro a ha b hb hab
  rcases eq_or_lt_of_le hab with h | h
  · rw [h]
  · have hx := hΦ (b + 1) (by have : (0:ℝ) ≤ b := hb
                              linarith)
    have hm : MonotoneOn (fun e => (Φ e).1) (Icc 0 (b + 1)) := by
      refine monotoneOn_of_hasDerivWithinAt_nonneg (convex_Icc 0 _) hx.c0 (fun t ht => ((hx.d0 t (by rwa [interior_Icc] at ht)).hasDerivWithinAt)) fun t ht => ?_
      rw [interior_Icc] at ht
      have hp := profile_order (L := b + 1) (by linarith [ht.1.trans ht.2]) hx fun v hv => slope_pos hw h0 hΦ hv.1
      exact (hp.2.1 t ⟨ht.1, ht.2.le⟩).le
    exact hm ⟨ha, by linarith⟩ ⟨hb, by linarith⟩ hab

/-- `f''` decays at least like `exp (-f(a) (b - a))`. -/
theorem slope_decay {a b : ℝ} (ha : 0 ≤ a) (hab : a ≤ b) : (Φ b).2.2 ≤ (Φ a).2.2 * Real.exp (-((Φ a).1 * (b - a))) := by
  have hx := hΦ (b + 1) (by linarith)
  have hE : ∀ e, HasDerivAt (fun e => Real.exp ((Φ a).1 * (e - a))) (Real.exp ((Φ a).1 * (e - a)) * ((Φ a).1 * 1)) e := fun e =>
    (((hasDerivAt_id e).sub_const a).const_mul (Φ a).1).exp
  have hm : AntitoneOn (fun e => (Φ e).2.2 * Real.exp ((Φ a).1 * (e - a))) (Icc a b) := by
    refine antitoneOn_of_hasDerivWithinAt_nonpos (convex_Icc a b)
      ((hx.c2.mono (Icc_subset_Icc ha (by linarith))).mul fun e _ => (hE e).continuousAt.continuousWithinAt)
      (fun t ht => (HasDerivAt.mul (hx.d2 t (by rw [interior_Icc] at ht; exact ⟨ha.trans_lt ht.1, by linarith [ht.2]⟩)) (hE t)).hasDerivWithinAt) fun t ht => ?_
    rw [interior_Icc] at ht
    have hp := slope_pos hw h0 hΦ (ha.trans ht.1.le)
    have hf : (Φ a).1 ≤ (Φ t).1 := f_mono hw h0 hΦ ha (ha.trans ht.1.le) ht.1.le
    have he := Real.exp_pos ((Φ a).1 * (t - a))
    have : 0 ≤ ((Φ t).1 - (Φ a).1) * ((Φ t).2.2 * Real.exp ((Φ a).1 * (t - a))) := mul_nonneg (by linarith) (by positivity)
    nlinarith
  have := hm (left_mem_Icc.2 hab) (right_mem_Icc.2 hab) hab
  simp only [sub_self, mul_zero, Real.exp_zero, mul_one] at this
  rw [Real.exp_neg, ← div_eq_mul_inv, le_div_iff₀ (Real.exp_pos _)]
  exact this

/-- `f''` decays at most at the rate `f(b) f''(a)`. -/
theorem slope_drop {a b : ℝ} (ha : 0 ≤ a) (hab : a ≤ b) : (Φ a).2.2 - (Φ b).2.2 ≤ (Φ b).1 * (Φ a).2.2 * (b - a) := by
  have hx := hΦ (b + 1) (by linarith)
  have hm : MonotoneOn (fun e => (Φ e).2.2 + (Φ b).1 * (Φ a).2.2 * e) (Icc a b) := by
    refine monotoneOn_of_hasDerivWithinAt_nonneg (convex_Icc a b)
      ((hx.c2.mono (Icc_subset_Icc ha (by linarith))).add (continuousOn_const.mul continuousOn_id))
      (fun t ht => ((hx.d2 t (by rw [interior_Icc] at ht; exact ⟨ha.trans_lt ht.1, by linarith [ht.2]⟩)).add
        ((hasDerivAt_id t).const_mul ((Φ b).1 * (Φ a).2.2))).hasDerivWithinAt) fun t ht => ?_
    rw [interior_Icc] at ht
    have hp := slope_pos hw h0 hΦ (ha.trans ht.1.le)
    have hpa := slope_pos hw h0 hΦ ha
    have h1 : (Φ t).1 ≤ (Φ b).1 := f_mono hw h0 hΦ (ha.trans ht.1.le) (ha.trans hab) ht.2.le
    have h2 := slope_decay hw h0 hΦ ha ht.1.le
    have hft : 0 ≤ (Φ t).1 := (f_pos hw h0 hΦ (ha.trans_lt ht.1)).le
    have hfa : 0 ≤ (Φ a).1 := by
      rcases eq_or_lt_of_le ha with h | h
      · rw [← h, h0]
      · exact (f_pos hw h0 hΦ h).le
    have h3 : (Φ t).2.2 ≤ (Φ a).2.2 := by
      refine h2.trans ?_
      have : Real.exp (-((Φ a).1 * (t - a))) ≤ 1 := Real.exp_le_one_iff.2 (neg_nonpos.2 (mul_nonneg hfa (by linarith [ht.1])))
      nlinarith
    have : (Φ t).1 * (Φ t).2.2 ≤ (Φ b).1 * (Φ a).2.2 := mul_le_mul h1 h3 hp.le (hft.trans h1)
    simp only [one_mul, zero_mul, sub_zero, mul_one]
    linarith
  have := hm (left_mem_Icc.2 hab) (right_mem_Icc.2 hab) hab
  simp only at this
  nlinarith

private theorem slope_lt {a b : ℝ} (ha : 0 < a) (hab : a < b) : (Φ b).2.2 < (Φ a).2.2 := by
  refine (slope_decay hw h0 hΦ ha.le hab.le).trans_lt ?_
  have hp := slope_pos hw h0 hΦ ha.le
  have : Real.exp (-((Φ a).1 * (b - a))) < 1 := (by rw [← Real.exp_zero]; exact Real.exp_lt_exp.2 (neg_neg_of_pos (mul_pos (f_pos hw h0 hΦ ha) (by linarith))))
  nlinarith

/-- One secant step moves to the right, and the new value of `f''` is smaller by the factor `exp (-r)`, `r` the ratio of the last two values. -/
theorem secant_step {a b : ℝ} (ha : 0 < a) (hab : a < b) :
    b < b + -(Φ b).2.2 * (b - a) / ((Φ b).2.2 - (Φ a).2.2) ∧
    (Φ (b + -(Φ b).2.2 * (b - a) / ((Φ b).2.2 - (Φ a).2.2))).2.2 ≤ (Φ b).2.2 * Real.exp (-((Φ b).2.2 / (Φ a).2.2)) := by
  have hb : 0 < b := ha.trans hab
  have pa := slope_pos hw h0 hΦ ha.le
  have pb := slope_pos hw h0 hΦ hb.le
  have hlt := slope_lt hw h0 hΦ ha hab
  have hf := f_pos hw h0 hΦ hb
  have hdrop := slope_drop hw h0 hΦ ha.le hab.le
  have e : -(Φ b).2.2 * (b - a) / ((Φ b).2.2 - (Φ a).2.2) = (Φ b).2.2 * (b - a) / ((Φ a).2.2 - (Φ b).2.2) := by
    rw [← neg_sub (Φ a).2.2, neg_mul, neg_div_neg_eq]
  rw [e]
  have hd : 0 < (Φ a).2.2 - (Φ b).2.2 := by linarith
  have hstep : 0 < (Φ b).2.2 * (b - a) / ((Φ a).2.2 - (Φ b).2.2) := div_pos (mul_pos pb (by linarith)) hd
  refine ⟨by linarith, (slope_decay hw h0 hΦ hb.le (by linarith)).trans ?_⟩
  refine mul_le_mul_of_nonneg_left (Real.exp_le_exp.2 (neg_le_neg ?_)) pb.le
  rw [add_sub_cancel_left, mul_div_assoc', le_div_iff₀ hd, div_mul_eq_mul_div, div_le_iff₀ pa]
  nlinarith [mul_le_mul_of_nonneg_left hdrop pb.le]

end decay

/-! ### The loop -/

section loop
variable {w : ℝ} {Φ : ℝ → V3 ℝ} {solve : ℝ → ℝ → Except Exc (ℝ × ℝ)} (hw : 0 < w) (h0 : Φ 0 = (0, 0, w)) (hΦ : ∀ L > 0, ExactOn 1 0 Φ L)
  (hs : ∀ a v, 0 < a → solve a w = .ok v → v = (Φ a).2)

/-- The state of the outer loop between two rounds. -/
private structure Inv (w : ℝ) (Φ : ℝ → V3 ℝ) (o : Outer ℝ) : Prop where
  pos : 0 < o.prev
  lt : o.prev < o.curr
  f2 : o.f2Prev = (Φ o.prev).2.2
  fw : o.fwPrev = w

include hw h0 hΦ hs

private theorem one_round {n : ℕ} {o o' : Outer ℝ} (hi : Inv w Φ o) (h : outerLoop solve true (n + 1) o = .ok o') :
    ((Φ o.curr).2.2 < 1/100000000 ∧ o'.curr = o.curr) ∨
    (1/100000000 ≤ (Φ o.curr).2.2 ∧ ∃ o1, Inv w Φ o1 ∧ o1.prev = o.curr ∧
      (Φ o1.curr).2.2 ≤ (Φ o.curr).2.2 * Real.exp (-((Φ o.curr).2.2 / (Φ o.prev).2.2)) ∧ outerLoop solve true n o1 = .ok o') := by
  have hb : 0 < o.curr := hi.pos.trans hi.lt
  have hw2 : PyCmp.eq o.fwPrev o.fwPrev = true := by simp
  have he : PyCmp.eq o.curr o.prev = false := by rw [Bool.eq_false_iff]; simpa using hi.lt.ne'
  rw [outerLoop] at h
  cases hsol : solve o.curr w with
  | error x =>
    rw [innerLoop] at h
    simp only [if_true, hi.fw, hsol] at h
    cases h
  | ok v =>
    have hv := hs _ v hb hsol
    have hin : innerLoop (solve o.curr) 100 ⟨o.fwPrev, if true then o.fwPrev else lit (101/100) * o.fwPrev, o.f1Prev, lit 0, false⟩ =
        .ok ⟨w, w, o.f1Prev, v.2, true⟩ := by
      rw [innerLoop]
      simp only [if_true, hi.fw, hsol]
      rw [if_pos (by simp)]
    rw [hin] at h
    simp only [he, Bool.false_or] at h
    have pb := slope_pos hw h0 hΦ hb.le
    have hiff : PyCmp.lt (PyCmp.abs v.2) (lit (1/100000000)) = true ↔ (Φ o.curr).2.2 < 1/100000000 := by
      rw [real_lt, real_abs, real_lit, hv, abs_of_pos pb]
      push_cast
      rfl
    split at h
    · next hc =>
      simp only [Except.ok.injEq] at h
      exact .inl ⟨hiff.1 hc, by rw [← h]⟩
    · next hc =>
      refine .inr ⟨not_lt.1 fun hl => hc (hiff.2 hl), _, ?_, ?_, ?_, h⟩
      · obtain ⟨h1, -⟩ := secant_step hw h0 hΦ hi.pos hi.lt
        refine ⟨hb, ?_, ?_, rfl⟩
        · simp only [hv, hi.f2]; exact h1
        · simp only [hv]
      · rfl
      · obtain ⟨-, h2⟩ := secant_step hw h0 hΦ hi.pos hi.lt
        simp only [hv, hi.f2]; exact h2

private theorem rounds (m : ℕ) {o o' : Outer ℝ} (hi : Inv w Φ o) (h : outerLoop solve true (2 * m) o = .ok o') :
    ((Φ o'.curr).2.2 < 1/100000000 ∧ o.curr ≤ o'.curr) ∨
    (Inv w Φ o' ∧ (Φ o'.prev).2.2 * Real.exp m ≤ (Φ o.prev).2.2 ∧ (0 < m → 1/100000000 ≤ (Φ o'.prev).2.2)) := by
  induction m generalizing o with
  | zero =>
    simp only [Nat.mul_zero, outerLoop, Except.ok.injEq] at h
    rw [← h]
    exact .inr ⟨hi, by simp, fun h => absurd h (by simp)⟩
  | succ m ih =>
    rw [show 2 * (m + 1) = (2 * m + 1) + 1 by ring] at h
    rcases one_round hw h0 hΦ hs hi h with ⟨h1, h2⟩ | ⟨h1, o1, hi1, e1, h2, h3⟩
    · exact .inl ⟨by rw [h2]; exact h1, by rw [h2]⟩
    · have l1 : o.curr ≤ o1.curr := e1 ▸ hi1.lt.le
      rcases one_round hw h0 hΦ hs hi1 h3 with ⟨h4, h5⟩ | ⟨h4, o2, hi2, e2, h5, h6⟩
      · exact .inl ⟨by rw [h5]; exact h4, by rw [h5]; exact l1⟩
      · have l2 : o.curr ≤ o2.curr := l1.trans (e2 ▸ hi2.lt.le)
        rcases ih hi2 h6 with ⟨h7, h8⟩ | ⟨h7, h8, h9⟩
        · exact .inl ⟨h7, l2.trans h8⟩
        · refine .inr ⟨h7, ?_, fun _ => ?_⟩
          · have pa := slope_pos hw h0 hΦ hi.pos.le
            have pb := slope_pos hw h0 hΦ (hi.pos.trans hi.lt).le
            have k1 : (Φ o2.prev).2.2 ≤ (Φ o.prev).2.2 * Real.exp (-1) := by
              rw [e2]
              refine h2.trans ?_
              have k2 : (Φ o.curr).2.2 / (Φ o.prev).2.2 ≤ Real.exp ((Φ o.curr).2.2 / (Φ o.prev).2.2 - 1) := by
                have := Real.add_one_le_exp ((Φ o.curr).2.2 / (Φ o.prev).2.2 - 1)
                linarith
              have k3 : (Φ o.curr).2.2 / (Φ o.prev).2.2 * Real.exp (-((Φ o.curr).2.2 / (Φ o.prev).2.2)) ≤ Real.exp (-1) := by
                have := mul_le_mul_of_nonneg_right k2 (Real.exp_pos (-((Φ o.curr).2.2 / (Φ o.prev).2.2))).le
                rwa [← Real.exp_add, show (Φ o.curr).2.2 / (Φ o.prev).2.2 - 1 + -((Φ o.curr).2.2 / (Φ o.prev).2.2) = -1 by ring] at this
              have := mul_le_mul_of_nonneg_left k3 pa.le
              rwa [← mul_assoc, mul_div_cancel₀ _ pa.ne'] at this
            have k4 : Real.exp (-1) * Real.exp 1 = 1 := by rw [← Real.exp_add]; simp
            push_cast
            rw [Real.exp_add]
            have p1 := Real.exp_pos 1
            calc (Φ o'.prev).2.2 * (Real.exp m * Real.exp 1) = ((Φ o'.prev).2.2 * Real.exp m) * Real.exp 1 := by ring
              _ ≤ (Φ o2.prev).2.2 * Real.exp 1 := by gcongr
              _ ≤ ((Φ o.prev).2.2 * Real.exp (-1)) * Real.exp 1 := by gcongr
              _ = (Φ o.prev).2.2 := by rw [mul_assoc, k4, mul_one]
          · rcases Nat.eq_zero_or_pos m with hm | hm
            · subst hm
              simp only [Nat.mul_zero, outerLoop, Except.ok.injEq] at h6
              rw [← h6, e2]
              exact h4
            · exact h9 hm

/-- The search for `eta_inf` with a supplied `f''(0)` ends with a small `f''` at the end, and not before `eta_inf = 1`. -/
theorem blasius_search (hmax : w ≤ 10 ^ 13) {eta w' : ℝ} {c1 c2 : Bool} (h : search solve none (some w) = .ok (eta, w', c1, c2)) :
    (Φ eta).2.2 < 1/100000000 ∧ 1 ≤ eta := by
  simp only [search, Option.getD_some, Option.getD_none, Option.isSome_some, Option.isSome_none, real_lit] at h
  push_cast at h
  simp only [Bool.false_eq_true, if_false, mul_one] at h
  split at h
  · cases h
  · next f1 f2 hsol =>
    have hv := hs 1 _ one_pos hsol
    split at h
    · cases h
    · next o ho =>
      simp only [Except.ok.injEq, Prod.mk.injEq] at h
      have hinv : Inv w Φ ⟨1, 101/100, f2, w, 0, f1, false, false⟩ := ⟨one_pos, by norm_num, by simp [← hv], rfl⟩
      rcases rounds hw h0 hΦ hs 50 hinv ho with ⟨h1, h2⟩ | ⟨h1, h2, h3⟩
      · rw [← h.1]
        refine ⟨h1, le_trans ?_ h2⟩
        norm_num
      · exfalso
        have h4 := h3 (by norm_num)
        simp only at h2
        have h5 : (Φ 1).2.2 ≤ w := by
          have := slope_decay hw h0 hΦ le_rfl zero_le_one
          simpa [h0] using this
        have he : (10:ℝ) ^ 21 < Real.exp ((50:ℕ):ℝ) := by
          have e1 : (2.7:ℝ) < Real.exp 1 := by have := Real.exp_one_gt_d9; linarith
          have e2 : Real.exp ((50:ℕ):ℝ) = Real.exp 1 ^ 50 := by rw [← Real.exp_nat_mul]; simp
          rw [e2]
          calc (10:ℝ) ^ 21 < 2.7 ^ 50 := by norm_num
            _ < Real.exp 1 ^ 50 := pow_lt_pow_left₀ e1 (by norm_num) (by norm_num)
        have h6 : (1/100000000 : ℝ) * 10 ^ 21 < (Φ o.prev).2.2 * Real.exp ((50:ℕ):ℝ) :=
          mul_lt_mul' h4 he (by norm_num) (lt_of_lt_of_le (by norm_num) h4)
        norm_num at h6 h2
        linarith

omit hs in
private theorem loop_total (hs : ∀ a, 0 < a → solve a w = .ok (Φ a).2) (n : ℕ) {o : Outer ℝ} (hi : Inv w Φ o) : ∃ o', outerLoop solve true n o = .ok o' := by
  induction n generalizing o with
  | zero => exact ⟨o, rfl⟩
  | succ n ih =>
    have hb : 0 < o.curr := hi.pos.trans hi.lt
    have hin : innerLoop (solve o.curr) 100 ⟨o.fwPrev, if true then o.fwPrev else lit (101/100) * o.fwPrev, o.f1Prev, lit 0, false⟩ =
        .ok ⟨w, w, o.f1Prev, (Φ o.curr).2.2, true⟩ := by
      rw [innerLoop]
      simp only [if_true, hi.fw, hs _ hb]
      rw [if_pos (by simp)]
    rw [outerLoop, hin]
    dsimp only
    split
    · exact ⟨_, rfl⟩
    · refine ih ⟨hb, ?_, rfl, rfl⟩
      simp only [hi.f2]
      exact (secant_step hw h0 hΦ hi.pos hi.lt).1

end loop

/-! ### C34 -/

section objects
variable {s : Sim ℝ} {t : Tools ℝ} {w : ℝ}

/-- With an exact integrator the search sees the end values of the solution. -/
theorem end_values (hs : InRange s) (hb : s.beta = 0) (ht : ExactIvp t) {Φ : ℝ → V3 ℝ} (h0 : Φ 0 = (0, 0, w)) (hΦ : ∀ L > 0, ExactOn 1 0 Φ L)
    (a : ℝ) (v : ℝ × ℝ) (ha : 0 < a) (h : s.endValues t a w = .ok v) : v = (Φ a).2 := by
  simp only [Sim.endValues] at h
  split at h
  · cases h
  · next r hr =>
    split at h
    · next hsu =>
      cases h
      obtain ⟨h1, h2, h3⟩ := ht _ r hr hsu (by simp)
      have h4 := scaled_exact ha (by simpa using h3)
      have h5 := plain_exact hs.gamma (w := w) (by simpa using h1) h4
      rw [hs.alpha, hb] at h5
      have h6 := exact_unique ha h5 (hΦ a ha) (by simp [h1, h0]) (right_mem_Icc.2 ha.le)
      simp only [div_self ha.ne'] at h6
      rw [h2, ← h6]
      simp
    · cases h

/-- **C34**, Blasius equation with a supplied `f''(0)`: whenever an exact integrator lets the call return, the search has converged, i.e. `f''` at
`eta_inf` is below the tolerance `1e-8` (the loop never ends because the rounds are used up). -/
theorem blasius_eta_search (hr : Reached s) (hb : s.beta = 0) (ht : ExactIvp t) (hw : 0 < w) (hmax : w ≤ 10 ^ 13)
    (hok : (s.setSolutionParameters t none (some w)).2 = .ok ()) :
    let s' := (s.setSolutionParameters t none (some w)).1
    1 ≤ s'.etaInf ∧ s'.fwPp = w ∧ ∃ q, s'.fppAt s'.etaInf = .ok q ∧ 0 < q ∧ q < 1/100000000 := by
  intro s'
  have hs := reached_inRange _ hr
  obtain ⟨Φ, h0, hΦ⟩ := blasius_global hw
  obtain ⟨eta, w', c1, c2, r, h1, h2, h3, -, -, h4, h5, -⟩ := set_ok s t _ _ hok
  obtain ⟨k1, k2⟩ := blasius_search hw h0 hΦ (end_values hs hb ht h0 hΦ) hmax h1
  obtain ⟨r', g1, g2⟩ := supplied_fw_kept s t w none (by simp) hok
  rw [h4] at g1
  have hp : 0 < eta := by linarith
  have hr' : r'.success = true := by
    rw [h5] at g2
    have hw' : w' = w := by
      simp only [search, Option.getD_some, Option.getD_none, Option.isSome_some] at h1
      split at h1
      · cases h1
      · split at h1
        · cases h1
        · next o ho =>
          simp only [Except.ok.injEq, Prod.mk.injEq] at h1
          rcases outer_given_fw _ _ _ (by simp) o ho with h5 | h5
          · rw [← h1.2.1, h5]
          · cases h5
    rw [hw', g1] at h2
    cases h2
    exact h3
  obtain ⟨j1, -, j3⟩ := ht _ r' g1 hr' hp
  have j4 := plain_exact hs.gamma (w := w) (by simpa using j1) j3
  rw [hs.alpha, hb] at j4
  have j5 := exact_unique hp j4 (hΦ eta hp) (by simp [j1, h0]) (right_mem_Icc.2 hp.le)
  refine ⟨by rw [show s'.etaInf = eta from h4]; exact k2, ?_, (Φ eta).2.2, ?_, slope_pos hw h0 hΦ hp.le, k1⟩
  · simp only [Sim.fwPp, show s'.f = _ from g2, real_lit]
    simp [j1]
  · simp only [Sim.fppAt, show s'.f = _ from g2, show s'.etaInf = eta from h4]
    rw [← j5]

/-- Non-vacuity: with the ideal integrator the call returns, for every positive `f''(0)`. -/
theorem blasius_eta_search_returns (hr : Reached s) (hb : s.beta = 0) (hw : 0 < w) :
    (s.setSolutionParameters idealTools none (some w)).2 = .ok () := by
  have hs := reached_inRange _ hr
  obtain ⟨Φ, h0, hΦ⟩ := blasius_global hw
  have hplain : ∀ L, 0 < L → SolvesOn s.plainRhs Φ L := fun L hL => ExactOn.solves hs.gamma hL (by rw [hs.alpha, hb]; exact hΦ L hL)
  have hsolve : ∀ a, 0 < a → s.endValues idealTools a w = .ok (Φ a).2 := fun a ha => by
    have hex : ∃ y : ℝ → V3 ℝ, y 0 = (lit 0, lit 0, w) ∧ SolvesOn (s.scaledRhs a) y (lit 1) := by
      refine ⟨fun e => Φ (a * e), by simp [h0], fun e he => ?_⟩
      simp only [real_lit] at he ⊢
      push_cast at he ⊢
      have hm : MapsTo (fun e : ℝ => a * e) (Icc 0 1) (Icc 0 a) := fun v hv => ⟨mul_nonneg ha.le hv.1, by nlinarith [hv.2]⟩
      have h1 := (hplain a ha (a * e) (hm he)).scomp e ((hasDerivAt_id e).const_mul a).hasDerivWithinAt hm
      refine h1.congr_deriv ?_
      simp only [Sim.scaledRhs, Sim.plainRhs, Prod.smul_mk, smul_eq_mul]
      refine Prod.ext ?_ (Prod.ext ?_ ?_) <;> · simp only; ring
    obtain ⟨v, hv⟩ : ∃ v, s.endValues idealTools a w = .ok v := by
      simp only [Sim.endValues, idealTools]
      rw [dif_pos hex]
      exact ⟨_, rfl⟩
    rw [hv, end_values hs hb ideal_exact h0 hΦ a v ha hv]
  obtain ⟨o, ho⟩ := loop_total hw h0 hΦ hsolve 100 (o := ⟨1, 101/100, (Φ 1).2.2, w, 0, (Φ 1).2.1, false, false⟩) ⟨one_pos, by norm_num, rfl, rfl⟩
  have hsearch : search (s.endValues idealTools) none (some w) = .ok (o.curr, o.fwCurr, o.converged, o.fwConverged) := by
    simp only [search, Option.getD_some, Option.getD_none, Option.isSome_some, Option.isSome_none, real_lit]
    push_cast
    simp only [mul_one, hsolve 1 one_pos, Bool.false_eq_true, if_false, ho]
  have hw' : o.fwCurr = w := by
    rcases outer_given_fw _ _ _ (by simp) o ho with h5 | h5
    · exact h5
    · cases h5
  have hpos : 0 < o.curr := by
    rcases rounds hw h0 hΦ (fun a v ha h => by rw [hsolve a ha] at h; exact (Except.ok.inj h).symm) 50 (o := ⟨1, 101/100, (Φ 1).2.2, w, 0, (Φ 1).2.1, false, false⟩)
      ⟨one_pos, by norm_num, rfl, rfl⟩ ho with ⟨-, h⟩ | ⟨h, -⟩
    · exact lt_of_lt_of_le (by norm_num) h
    · exact h.pos.trans h.lt
  have hex : ∃ y : ℝ → V3 ℝ, y 0 = (lit 0, lit 0, w) ∧ SolvesOn s.plainRhs y o.curr := ⟨Φ, by simp [h0], hplain _ hpos⟩
  have hivp : idealTools.ivp ⟨s.plainRhs, o.curr, (lit 0, lit 0, w)⟩ = .ok ⟨true, hex.choose o.curr, hex.choose⟩ := dif_pos hex
  have e : ({ s with etaInf := o.curr } : Sim ℝ).plainRhs = s.plainRhs := rfl
  have hd : s.alpha + s.beta ≠ 0 := by rw [hs.alpha, hb]; norm_num
  have hbad : badParam (some w) = false := by
    simp only [badParam]
    rw [Bool.eq_false_iff, ne_eq, real_le, real_lit]
    push_cast
    exact not_le.2 hw
  have hbad' : badParam (none : Option ℝ) = false := rfl
  simp only [Sim.setSolutionParameters, hbad, hbad', Sim.calculateSolution, hsearch, hw', e, hivp, Sim.thicknesses, pyDiv]
  simp [idealTools, hd]

end objects

end IBL.Analytic
