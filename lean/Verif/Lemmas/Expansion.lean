import Mathlib.Analysis.ODE.Gronwall
import Mathlib.Analysis.Calculus.ContDiff.Basic
import Mathlib.Analysis.Calculus.IteratedDeriv.Lemmas
import Mathlib.Analysis.Calculus.Deriv.Pow
import Mathlib.Analysis.Calculus.MeanValue
import Mathlib.Tactic.Linarith
import Mathlib.Tactic.LinearCombination
import Mathlib.Tactic.FieldSimp
import Mathlib.Tactic.Positivity

/-!
Expansions in powers of a step length with a remainder of fifth order, uniformly in the start of the step; used for the order of RK45.
-/

namespace IBL.Expansion

/-- Start points and step lengths of the steps inside `[x0, x1]`. -/
def Dom (x0 x1 : ℝ) (t h : ℝ) : Prop := x0 ≤ t ∧ 0 ≤ h ∧ t + h ≤ x1

/-- Bounded on all steps inside the interval. -/
def Bd (x0 x1 : ℝ) (f : ℝ → ℝ → ℝ) : Prop := ∃ C, ∀ t h, Dom x0 x1 t h → |f t h| ≤ C

variable {x0 x1 : ℝ}

theorem Bd.nonneg {f : ℝ → ℝ → ℝ} (hf : Bd x0 x1 f) : ∃ C, 0 ≤ C ∧ ∀ t h, Dom x0 x1 t h → |f t h| ≤ C := by
  obtain ⟨C, h⟩ := hf
  exact ⟨max C 0, le_max_right _ _, fun t s d => (h t s d).trans (le_max_left _ _)⟩

theorem Bd.const (c : ℝ) : Bd x0 x1 fun _ _ => c := ⟨|c|, fun _ _ _ => le_refl _⟩

theorem Bd.step : Bd x0 x1 fun _ h => h := ⟨x1 - x0, fun t h d => by
  obtain ⟨h1, h2, h3⟩ := d
  rw [abs_of_nonneg h2]; linarith⟩

theorem Bd.add {f g : ℝ → ℝ → ℝ} (hf : Bd x0 x1 f) (hg : Bd x0 x1 g) : Bd x0 x1 fun t h => f t h + g t h := by
  obtain ⟨C, hC⟩ := hf
  obtain ⟨C', hC'⟩ := hg
  exact ⟨C + C', fun t h d => (abs_add_le _ _).trans (add_le_add (hC t h d) (hC' t h d))⟩

theorem Bd.mul {f g : ℝ → ℝ → ℝ} (hf : Bd x0 x1 f) (hg : Bd x0 x1 g) : Bd x0 x1 fun t h => f t h * g t h := by
  obtain ⟨C, h0, hC⟩ := hf.nonneg
  obtain ⟨C', -, hC'⟩ := hg.nonneg
  exact ⟨C * C', fun t h d => by rw [abs_mul]; exact mul_le_mul (hC t h d) (hC' t h d) (abs_nonneg _) h0⟩

theorem Bd.congr {f g : ℝ → ℝ → ℝ} (hf : Bd x0 x1 f) (h : ∀ t s, Dom x0 x1 t s → g t s = f t s) : Bd x0 x1 g := by
  obtain ⟨C, hC⟩ := hf
  exact ⟨C, fun t s d => by rw [h t s d]; exact hC t s d⟩

theorem Dom.scale {t h c : ℝ} (d : Dom x0 x1 t h) (hc : 0 ≤ c ∧ c ≤ 1) : Dom x0 x1 t (c * h) := by
  obtain ⟨h1, h2, h3⟩ := d
  exact ⟨h1, mul_nonneg hc.1 h2, by nlinarith [mul_nonneg (sub_nonneg.2 hc.2) h2]⟩

theorem Dom.mem {t h : ℝ} (d : Dom x0 x1 t h) : t ∈ Set.Icc x0 x1 ∧ t + h ∈ Set.Icc x0 x1 :=
  ⟨⟨d.1, by linarith [d.2.1, d.2.2]⟩, ⟨by linarith [d.1, d.2.1], d.2.2⟩⟩

theorem Bd.scale {f : ℝ → ℝ → ℝ} (hf : Bd x0 x1 f) {c : ℝ} (hc : 0 ≤ c ∧ c ≤ 1) : Bd x0 x1 fun t h => f t (c * h) := by
  obtain ⟨C, hC⟩ := hf
  exact ⟨C, fun t h d => hC t _ (d.scale hc)⟩

/-- `g t h = c0 t + c1 t * h + ... + c4 t * h ^ 4 + O(h ^ 5)`, uniformly in `t`. -/
structure Ex (x0 x1 : ℝ) (g : ℝ → ℝ → ℝ) (c0 c1 c2 c3 c4 : ℝ → ℝ) : Prop where
  b0 : Bd x0 x1 fun t _ => c0 t
  b1 : Bd x0 x1 fun t _ => c1 t
  b2 : Bd x0 x1 fun t _ => c2 t
  b3 : Bd x0 x1 fun t _ => c3 t
  b4 : Bd x0 x1 fun t _ => c4 t
  rem : ∃ R, Bd x0 x1 R ∧ ∀ t h, Dom x0 x1 t h → g t h = c0 t + c1 t * h + c2 t * h ^ 2 + c3 t * h ^ 3 + c4 t * h ^ 4 + h ^ 5 * R t h

variable {f g : ℝ → ℝ → ℝ} {c0 c1 c2 c3 c4 d0 d1 d2 d3 d4 : ℝ → ℝ}

theorem Ex.base {y : ℝ → ℝ} (hy : Bd x0 x1 fun t _ => y t) : Ex x0 x1 (fun t _ => y t) y (fun _ => 0) (fun _ => 0) (fun _ => 0) (fun _ => 0) :=
  ⟨hy, .const 0, .const 0, .const 0, .const 0, _, .const 0, fun t h _ => by ring⟩

theorem Ex.add (hf : Ex x0 x1 f c0 c1 c2 c3 c4) (hg : Ex x0 x1 g d0 d1 d2 d3 d4) : Ex x0 x1 (fun t h => f t h + g t h)
    (fun t => c0 t + d0 t) (fun t => c1 t + d1 t) (fun t => c2 t + d2 t) (fun t => c3 t + d3 t) (fun t => c4 t + d4 t) := by
  obtain ⟨R, hR, eR⟩ := hf.rem
  obtain ⟨S, hS, eS⟩ := hg.rem
  exact ⟨hf.b0.add hg.b0, hf.b1.add hg.b1, hf.b2.add hg.b2, hf.b3.add hg.b3, hf.b4.add hg.b4, _, hR.add hS, fun t h d => by
    rw [eR t h d, eS t h d]; ring⟩

theorem Ex.smul (r : ℝ) (hf : Ex x0 x1 f c0 c1 c2 c3 c4) : Ex x0 x1 (fun t h => r * f t h)
    (fun t => r * c0 t) (fun t => r * c1 t) (fun t => r * c2 t) (fun t => r * c3 t) (fun t => r * c4 t) := by
  obtain ⟨R, hR, eR⟩ := hf.rem
  exact ⟨(Bd.const r).mul hf.b0, (Bd.const r).mul hf.b1, (Bd.const r).mul hf.b2, (Bd.const r).mul hf.b3, (Bd.const r).mul hf.b4, _,
    (Bd.const r).mul hR, fun t h d => by rw [eR t h d]; ring⟩

theorem Ex.bd (hf : Ex x0 x1 f c0 c1 c2 c3 c4) : Bd x0 x1 f := by
  obtain ⟨R, hR, eR⟩ := hf.rem
  have s : Bd x0 x1 fun _ h => h := .step
  exact ((((((hf.b0.add (hf.b1.mul s)).add (hf.b2.mul (s.mul s))).add (hf.b3.mul (s.mul (s.mul s)))).add
    (hf.b4.mul (s.mul (s.mul (s.mul s))))).add ((s.mul (s.mul (s.mul (s.mul s)))).mul hR))).congr fun t h d => by rw [eR t h d]; ring

/-- The product of an expansion with `h` times another one. -/
theorem Ex.mulStep (hf : Ex x0 x1 f c0 c1 c2 c3 c4) (hg : Ex x0 x1 g d0 d1 d2 d3 d4) : Ex x0 x1 (fun t h => f t h * (h * g t h))
    (fun _ => 0) (fun t => c0 t * d0 t) (fun t => c0 t * d1 t + c1 t * d0 t) (fun t => c0 t * d2 t + c1 t * d1 t + c2 t * d0 t)
    (fun t => c0 t * d3 t + c1 t * d2 t + c2 t * d1 t + c3 t * d0 t) := by
  obtain ⟨R, hR, eR⟩ := hf.rem
  obtain ⟨S, hS, eS⟩ := hg.rem
  have s : Bd x0 x1 fun _ h => h := .step
  refine ⟨.const 0, hf.b0.mul hg.b0, (hf.b0.mul hg.b1).add (hf.b1.mul hg.b0), ((hf.b0.mul hg.b2).add (hf.b1.mul hg.b1)).add (hf.b2.mul hg.b0),
    (((hf.b0.mul hg.b3).add (hf.b1.mul hg.b2)).add (hf.b2.mul hg.b1)).add (hf.b3.mul hg.b0),
    fun t h => c0 t * (d4 t + h * S t h) + c1 t * (d3 t + h * (d4 t + h * S t h)) + c2 t * (d2 t + h * (d3 t + h * (d4 t + h * S t h))) +
      c3 t * (d1 t + h * (d2 t + h * (d3 t + h * (d4 t + h * S t h)))) + (c4 t + h * R t h) * g t h, ?_, fun t h d => ?_⟩
  · have e4 := hg.b4.add (s.mul hS)
    have e3 := hg.b3.add (s.mul e4)
    have e2 := hg.b2.add (s.mul e3)
    have e1 := hg.b1.add (s.mul e2)
    exact ((((hf.b0.mul e4).add (hf.b1.mul e3)).add (hf.b2.mul e2)).add (hf.b3.mul e1)).add ((hf.b4.add (s.mul hR)).mul hg.bd)
  · simp only [eR t h d, eS t h d]
    ring

theorem Ex.congr (hf : Ex x0 x1 f c0 c1 c2 c3 c4) (h : ∀ t s, Dom x0 x1 t s → g t s = f t s) (h0 : ∀ t, d0 t = c0 t) (h1 : ∀ t, d1 t = c1 t)
    (h2 : ∀ t, d2 t = c2 t) (h3 : ∀ t, d3 t = c3 t) (h4 : ∀ t, d4 t = c4 t) : Ex x0 x1 g d0 d1 d2 d3 d4 := by
  obtain rfl : d0 = c0 := funext h0
  obtain rfl : d1 = c1 := funext h1
  obtain rfl : d2 = c2 := funext h2
  obtain rfl : d3 = c3 := funext h3
  obtain rfl : d4 = c4 := funext h4
  obtain ⟨R, hR, eR⟩ := hf.rem
  exact ⟨hf.b0, hf.b1, hf.b2, hf.b3, hf.b4, R, hR, fun t s d => by rw [h t s d, eR t s d]⟩

theorem Ex.scale (hf : Ex x0 x1 f c0 c1 c2 c3 c4) {c : ℝ} (hc : 0 ≤ c ∧ c ≤ 1) : Ex x0 x1 (fun t h => f t (c * h))
    c0 (fun t => c * c1 t) (fun t => c ^ 2 * c2 t) (fun t => c ^ 3 * c3 t) (fun t => c ^ 4 * c4 t) := by
  obtain ⟨R, hR, eR⟩ := hf.rem
  exact ⟨hf.b0, (Bd.const c).mul hf.b1, (Bd.const _).mul hf.b2, (Bd.const _).mul hf.b3, (Bd.const _).mul hf.b4, fun t h => c ^ 5 * R t (c * h),
    (Bd.const _).mul (hR.scale hc), fun t h d => by rw [eR t _ (d.scale hc)]; ring⟩

/-- Two expansions with the same coefficients differ by a bounded multiple of `h ^ 5`. -/
theorem Ex.diff (hf : Ex x0 x1 f c0 c1 c2 c3 c4) (hg : Ex x0 x1 g d0 d1 d2 d3 d4) (h0 : ∀ t, d0 t = c0 t) (h1 : ∀ t, d1 t = c1 t)
    (h2 : ∀ t, d2 t = c2 t) (h3 : ∀ t, d3 t = c3 t) (h4 : ∀ t, d4 t = c4 t) :
    ∃ C, 0 ≤ C ∧ ∀ t h, Dom x0 x1 t h → |f t h - g t h| ≤ C * h ^ 5 := by
  obtain ⟨R, hR, eR⟩ := hf.rem
  obtain ⟨S, hS, eS⟩ := hg.rem
  obtain ⟨C, hC0, hC⟩ := hR.nonneg
  obtain ⟨C', hC0', hC'⟩ := hS.nonneg
  refine ⟨C + C', add_nonneg hC0 hC0', fun t h d => ?_⟩
  rw [eR t h d, eS t h d, h0, h1, h2, h3, h4]
  have : 0 ≤ h ^ 5 := pow_nonneg d.2.1 5
  calc |_| = |h ^ 5 * (R t h - S t h)| := by congr 1; ring
    _ = h ^ 5 * |R t h - S t h| := by rw [abs_mul, abs_of_nonneg this]
    _ ≤ h ^ 5 * (C + C') := mul_le_mul_of_nonneg_left ((abs_sub _ _).trans (add_le_add (hC t h d) (hC' t h d))) this
    _ = _ := mul_comm _ _

/-! ### Taylor's formula -/

/-- Taylor's formula, uniformly on `[x0, x1]`, for a function given with its derivatives. -/
theorem taylor_chain {D : ℕ → ℝ → ℝ} {C : ℝ} (n : ℕ) (hD : ∀ i < n, ∀ x ∈ Set.Icc x0 x1, HasDerivWithinAt (D i) (D (i + 1) x) (Set.Icc x0 x1) x)
    (hC : ∀ x ∈ Set.Icc x0 x1, |D n x| ≤ C) : ∀ t h, Dom x0 x1 t h →
    |D 0 (t + h) - ∑ i ∈ Finset.range n, D i t * h ^ i / (i.factorial : ℝ)| ≤ C * h ^ n := by
  induction n generalizing D with
  | zero => intro t h d; simpa using hC _ d.mem.2
  | succ n ih =>
    intro t h d
    have ih' := ih (D := fun i => D (i + 1)) (fun i hi => hD (i + 1) (by omega)) hC
    have hder : ∀ s ∈ Set.Icc (0:ℝ) h, HasDerivWithinAt (fun s => D 0 (t + s) - ∑ i ∈ Finset.range (n + 1), D i t * s ^ i / (i.factorial : ℝ))
        (D 1 (t + s) - ∑ i ∈ Finset.range n, D (i + 1) t * s ^ i / (i.factorial : ℝ)) (Set.Icc 0 h) s := by
      intro s hs
      refine HasDerivWithinAt.sub ?_ ?_
      · have h1 := hD 0 (by omega) (t + s) ⟨by linarith [d.1, hs.1], by linarith [d.2.2, hs.2]⟩
        have h2 : HasDerivWithinAt (fun s => t + s) 1 (Set.Icc 0 h) s := (hasDerivWithinAt_id s _).const_add t
        have := h1.scomp s h2 (fun z hz => ⟨by linarith [d.1, hz.1], by linarith [d.2.2, hz.2]⟩)
        simpa [Function.comp_def] using this
      · have hsum : HasDerivAt (fun s => ∑ i ∈ Finset.range (n + 1), D i t * s ^ i / (i.factorial : ℝ))
            (∑ i ∈ Finset.range (n + 1), D i t * (i * s ^ (i - 1)) / (i.factorial : ℝ)) s := by
          refine HasDerivAt.fun_sum fun i _ => ?_
          exact ((hasDerivAt_pow i s).const_mul _).div_const _
        refine hsum.hasDerivWithinAt.congr_deriv ?_
        rw [Finset.sum_range_succ']
        simp only [Nat.cast_zero, zero_mul, mul_zero, zero_div, add_zero, Nat.add_sub_cancel]
        refine Finset.sum_congr rfl fun i _ => ?_
        rw [Nat.factorial_succ]
        have : ((i:ℝ) + 1) ≠ 0 := by positivity
        have : (i.factorial : ℝ) ≠ 0 := by positivity
        push_cast
        field_simp
    have key := Convex.norm_image_sub_le_of_norm_hasDerivWithin_le (C := C * h ^ n) hder (fun s hs => by
      have hs' : Dom x0 x1 t s := ⟨d.1, hs.1, by linarith [d.2.2, hs.2]⟩
      refine (ih' t s hs').trans ?_
      have hC0 : 0 ≤ C := (abs_nonneg _).trans (hC _ d.mem.1)
      exact mul_le_mul_of_nonneg_left (pow_le_pow_left₀ hs.1 hs.2 n) hC0) (convex_Icc 0 h) (Set.left_mem_Icc.2 d.2.1)
      (Set.right_mem_Icc.2 d.2.1)
    simp only [Real.norm_eq_abs, sub_zero, abs_of_nonneg d.2.1] at key
    have h0 : D 0 (t + 0) - ∑ i ∈ Finset.range (n + 1), D i t * (0:ℝ) ^ i / (i.factorial : ℝ) = 0 := by
      rw [Finset.sum_range_succ']; simp
    rw [h0, sub_zero] at key
    refine key.trans (le_of_eq ?_)
    ring

/-- A function with five continuous derivatives on the interval has an expansion. -/
theorem Ex.of_contDiffOn (hx : x0 < x1) {u : ℝ → ℝ} (hu : ContDiffOn ℝ 5 u (Set.Icc x0 x1)) :
    ∃ c1 c2 c3 c4, Ex x0 x1 (fun t h => u (t + h)) u c1 c2 c3 c4 := by
  set D : ℕ → ℝ → ℝ := fun i => iteratedDerivWithin i u (Set.Icc x0 x1) with hD
  have hU := uniqueDiffOn_Icc hx
  have hbd : ∀ i ≤ 5, ∃ C, ∀ x ∈ Set.Icc x0 x1, |D i x| ≤ C := fun i hi => by
    have := hu.continuousOn_iteratedDerivWithin (m := i) (by exact_mod_cast hi) hU
    obtain ⟨C, hC⟩ := isCompact_Icc.exists_bound_of_continuousOn this
    exact ⟨C, hC⟩
  have hbd' : ∀ i ≤ 5, ∀ r : ℝ, Bd x0 x1 fun t _ => D i t / r := fun i hi r => by
    obtain ⟨C, hC⟩ := hbd i hi
    exact ⟨C / |r|, fun t h d => by rw [abs_div]; exact div_le_div_of_nonneg_right (hC t d.mem.1) (abs_nonneg _)⟩
  obtain ⟨C, hC⟩ := hbd 5 le_rfl
  have hT := taylor_chain (x0 := x0) (x1 := x1) (D := D) 5 (fun i hi x hx' => by
    have := (hu.differentiableOn_iteratedDerivWithin (m := i) (by exact_mod_cast hi) hU x hx').hasDerivWithinAt
    rwa [← iteratedDerivWithin_succ] at this) hC
  have h0 : D 0 = u := by funext x; simp [hD]
  refine ⟨fun t => D 1 t / 1, fun t => D 2 t / 2, fun t => D 3 t / 6, fun t => D 4 t / 24, ?_, hbd' 1 (by norm_num) _, hbd' 2 (by norm_num) _,
    hbd' 3 (by norm_num) _, hbd' 4 (by norm_num) _, fun t h => (u (t + h) - ∑ i ∈ Finset.range 5, D i t * h ^ i / (i.factorial : ℝ)) / h ^ 5,
    ⟨C, fun t h d => ?_⟩, fun t h d => ?_⟩
  · have := hbd' 0 (by norm_num) 1
    rw [h0] at this; simpa using this
  · have hC0 : 0 ≤ C := (abs_nonneg _).trans (hC _ d.mem.1)
    rcases eq_or_lt_of_le d.2.1 with h' | h'
    · rw [← h']; simpa using hC0
    · rw [abs_div, abs_of_pos (pow_pos h' 5), div_le_iff₀ (pow_pos h' 5)]
      have := hT t h d
      rwa [h0] at this
  · rcases eq_or_lt_of_le d.2.1 with h' | h'
    · rw [← h']; simp
    · have : h ^ 5 ≠ 0 := (pow_pos h' 5).ne'
      rw [mul_div_cancel₀ _ this]
      simp [Finset.sum_range_succ, Nat.factorial, h0]
      ring

/-! ### Exact solutions -/

/-- An exact solution of `y' = a + b y` is expanded by its Taylor polynomial up to a remainder of sixth order. -/
theorem solution_expansion {a b Y a0 a1 a2 a3 a4 b0 b1 b2 b3 b4 : ℝ → ℝ} (ha : Ex x0 x1 (fun t h => a (t + h)) a0 a1 a2 a3 a4)
    (hb : Ex x0 x1 (fun t h => b (t + h)) b0 b1 b2 b3 b4)
    (hY : ∀ x ∈ Set.Icc x0 x1, HasDerivWithinAt Y (a x + b x * Y x) (Set.Icc x0 x1) x) {e1 e2 e3 e4 e5 : ℝ → ℝ}
    (h1 : ∀ t, e1 t = a0 t + b0 t * Y t) (h2 : ∀ t, 2 * e2 t = a1 t + b0 t * e1 t + b1 t * Y t)
    (h3 : ∀ t, 3 * e3 t = a2 t + b0 t * e2 t + b1 t * e1 t + b2 t * Y t)
    (h4 : ∀ t, 4 * e4 t = a3 t + b0 t * e3 t + b1 t * e2 t + b2 t * e1 t + b3 t * Y t)
    (h5 : ∀ t, 5 * e5 t = a4 t + b0 t * e4 t + b1 t * e3 t + b2 t * e2 t + b3 t * e1 t + b4 t * Y t) :
    (Bd x0 x1 fun t _ => Y t) ∧ (Bd x0 x1 fun t _ => e1 t) ∧ (Bd x0 x1 fun t _ => e2 t) ∧ (Bd x0 x1 fun t _ => e3 t) ∧
    (Bd x0 x1 fun t _ => e4 t) ∧ (Bd x0 x1 fun t _ => e5 t) ∧
    ∃ C, 0 ≤ C ∧ ∀ t h, Dom x0 x1 t h →
      |Y (t + h) - (Y t + h * (e1 t + e2 t * h + e3 t * h ^ 2 + e4 t * h ^ 3 + e5 t * h ^ 4))| ≤ C * h ^ 6 := by
  have hcont : ContinuousOn Y (Set.Icc x0 x1) := fun x hx => (hY x hx).continuousWithinAt
  have bY : Bd x0 x1 fun t _ => Y t := by
    obtain ⟨C, hC⟩ := isCompact_Icc.exists_bound_of_continuousOn hcont
    exact ⟨C, fun t h d => hC t d.mem.1⟩
  have div : ∀ {f g : ℝ → ℝ → ℝ} {r : ℝ}, r ≠ 0 → Bd x0 x1 g → (∀ t h, r * f t h = g t h) → Bd x0 x1 f := fun {f g r} hr hg e =>
    ((Bd.const r⁻¹).mul hg).congr fun t h _ => by rw [← e]; field_simp
  have q1 : Bd x0 x1 fun t _ => e1 t := (ha.b0.add (hb.b0.mul bY)).congr fun t _ _ => h1 t
  have q2 : Bd x0 x1 fun t _ => e2 t := div (r := 2) (by norm_num) ((ha.b1.add (hb.b0.mul q1)).add (hb.b1.mul bY)) fun t _ => h2 t
  have q3 : Bd x0 x1 fun t _ => e3 t := div (r := 3) (by norm_num) (((ha.b2.add (hb.b0.mul q2)).add (hb.b1.mul q1)).add (hb.b2.mul bY))
    fun t _ => h3 t
  have q4 : Bd x0 x1 fun t _ => e4 t := div (r := 4) (by norm_num)
    ((((ha.b3.add (hb.b0.mul q3)).add (hb.b1.mul q2)).add (hb.b2.mul q1)).add (hb.b3.mul bY)) fun t _ => h4 t
  have q5 : Bd x0 x1 fun t _ => e5 t := div (r := 5) (by norm_num)
    (((((ha.b4.add (hb.b0.mul q4)).add (hb.b1.mul q3)).add (hb.b2.mul q2)).add (hb.b3.mul q1)).add (hb.b4.mul bY)) fun t _ => h5 t
  refine ⟨bY, q1, q2, q3, q4, q5, ?_⟩
  -- the polynomial fulfils the equation up to a term of fifth order
  have hP : Ex x0 x1 (fun t h => e1 t + e2 t * h + e3 t * h ^ 2 + e4 t * h ^ 3 + e5 t * h ^ 4) e1 e2 e3 e4 e5 :=
    ⟨q1, q2, q3, q4, q5, _, .const 0, fun t h _ => by ring⟩
  have hP' : Ex x0 x1 (fun t h => e1 t + 2 * e2 t * h + 3 * e3 t * h ^ 2 + 4 * e4 t * h ^ 3 + 5 * e5 t * h ^ 4) e1 (fun t => 2 * e2 t)
      (fun t => 3 * e3 t) (fun t => 4 * e4 t) (fun t => 5 * e5 t) :=
    ⟨q1, (Bd.const _).mul q2, (Bd.const _).mul q3, (Bd.const _).mul q4, (Bd.const _).mul q5, _, .const 0, fun t h _ => by ring⟩
  have hbY : Ex x0 x1 (fun t h => b (t + h) * Y t) (fun t => b0 t * Y t) (fun t => b1 t * Y t) (fun t => b2 t * Y t) (fun t => b3 t * Y t)
      (fun t => b4 t * Y t) := by
    obtain ⟨R, hR, eR⟩ := hb.rem
    exact ⟨hb.b0.mul bY, hb.b1.mul bY, hb.b2.mul bY, hb.b3.mul bY, hb.b4.mul bY, _, hR.mul bY, fun t h d => by rw [eR t h d]; ring⟩
  obtain ⟨C, hC0, hC⟩ := ((ha.add hbY).add (hb.mulStep hP)).diff hP' (by intro t; rw [h1]; ring) (by intro t; rw [h2]; ring)
    (by intro t; rw [h3]; ring) (by intro t; rw [h4]; ring) (by intro t; rw [h5]; ring)
  obtain ⟨K, hK0, hK⟩ := hb.bd.nonneg
  refine ⟨C * Real.exp ((K + 1) * (x1 - x0)), by positivity, fun t h d => ?_⟩
  set E : ℝ → ℝ := fun s => Y (t + s) - (Y t + s * (e1 t + e2 t * s + e3 t * s ^ 2 + e4 t * s ^ 3 + e5 t * s ^ 4)) with hE
  have hder : ∀ s ∈ Set.Icc 0 h, HasDerivWithinAt E (a (t + s) + b (t + s) * Y (t + s) -
      (e1 t + 2 * e2 t * s + 3 * e3 t * s ^ 2 + 4 * e4 t * s ^ 3 + 5 * e5 t * s ^ 4)) (Set.Icc 0 h) s := by
    intro s hs
    refine HasDerivWithinAt.sub ?_ ?_
    · have h1 := hY (t + s) ⟨by linarith [d.1, hs.1], by linarith [d.2.2, hs.2]⟩
      have h2 : HasDerivWithinAt (fun s => t + s) 1 (Set.Icc 0 h) s := (hasDerivWithinAt_id s _).const_add t
      have := h1.scomp s h2 (fun z hz => ⟨by linarith [d.1, hz.1], by linarith [d.2.2, hz.2]⟩)
      simpa [Function.comp_def] using this
    · have : HasDerivAt (fun s => Y t + (e1 t * s + e2 t * s ^ 2 + e3 t * s ^ 3 + e4 t * s ^ 4 + e5 t * s ^ 5))
          (e1 t * 1 + e2 t * (2 * s) + e3 t * (3 * s ^ 2) + e4 t * (4 * s ^ 3) + e5 t * (5 * s ^ 4)) s := by
        refine HasDerivAt.const_add _ ?_
        refine ((((((hasDerivAt_id s).const_mul _).add ?_).add ?_).add ?_).add ?_)
        · simpa using (hasDerivAt_pow 2 s).const_mul (e2 t)
        · simpa using (hasDerivAt_pow 3 s).const_mul (e3 t)
        · simpa using (hasDerivAt_pow 4 s).const_mul (e4 t)
        · simpa using (hasDerivAt_pow 5 s).const_mul (e5 t)
      refine (this.hasDerivWithinAt.congr_deriv (by ring)).congr (fun z _ => by ring) (by ring)
  have hg := norm_le_gronwallBound_of_norm_deriv_right_le (f := E) (δ := 0) (K := K + 1) (ε := C * h ^ 5) (a := 0) (b := h)
    (fun s hs => (hder s hs).continuousWithinAt)
    (fun s hs => ((hder s ⟨hs.1, hs.2.le⟩).mono_of_mem_nhdsWithin (Icc_mem_nhdsGE_of_mem hs)))
    (by simp [hE]) (fun s hs => by
      have ds : Dom x0 x1 t s := ⟨d.1, hs.1, by linarith [d.2.2, hs.2]⟩
      have e : a (t + s) + b (t + s) * Y (t + s) - (e1 t + 2 * e2 t * s + 3 * e3 t * s ^ 2 + 4 * e4 t * s ^ 3 + 5 * e5 t * s ^ 4) =
          b (t + s) * E s + (a (t + s) + b (t + s) * Y t + b (t + s) * (s * (e1 t + e2 t * s + e3 t * s ^ 2 + e4 t * s ^ 3 + e5 t * s ^ 4)) -
            (e1 t + 2 * e2 t * s + 3 * e3 t * s ^ 2 + 4 * e4 t * s ^ 3 + 5 * e5 t * s ^ 4)) := by
        simp only [hE]; ring
      rw [e, Real.norm_eq_abs, Real.norm_eq_abs]
      refine (abs_add_le _ _).trans (add_le_add ?_ ?_)
      · rw [abs_mul]
        exact mul_le_mul_of_nonneg_right ((hK t s ds).trans (by linarith)) (abs_nonneg _)
      · exact (hC t s ds).trans (mul_le_mul_of_nonneg_left (pow_le_pow_left₀ hs.1 hs.2.le 5) hC0))
    h ⟨d.2.1, le_refl _⟩
  rw [Real.norm_eq_abs, sub_zero] at hg
  refine hg.trans ?_
  have hK1 : K + 1 ≠ 0 := by positivity
  rw [gronwallBound_of_K_ne_0 hK1]
  simp only [zero_mul, zero_add]
  have h6 : Real.exp ((K + 1) * h) - 1 ≤ (K + 1) * h * Real.exp ((K + 1) * h) := by
    have := Real.add_one_le_exp (-((K + 1) * h))
    have h' : Real.exp (-((K + 1) * h)) * Real.exp ((K + 1) * h) = 1 := by rw [← Real.exp_add]; simp
    nlinarith [Real.exp_pos ((K + 1) * h)]
  have hmono : Real.exp ((K + 1) * h) ≤ Real.exp ((K + 1) * (x1 - x0)) :=
    Real.exp_le_exp.2 (mul_le_mul_of_nonneg_left (by linarith [d.1, d.2.2]) (by positivity))
  calc C * h ^ 5 / (K + 1) * (Real.exp ((K + 1) * h) - 1) ≤ C * h ^ 5 / (K + 1) * ((K + 1) * h * Real.exp ((K + 1) * h)) :=
        mul_le_mul_of_nonneg_left h6 (div_nonneg (mul_nonneg hC0 (pow_nonneg d.2.1 5)) (by positivity))
    _ = C * h ^ 6 * Real.exp ((K + 1) * h) := by field_simp
    _ ≤ C * h ^ 6 * Real.exp ((K + 1) * (x1 - x0)) := mul_le_mul_of_nonneg_left hmono (mul_nonneg hC0 (pow_nonneg d.2.1 6))
    _ = _ := by ring

end IBL.Expansion
