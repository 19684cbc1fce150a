import Verif.Model.Velocity
import Mathlib.Analysis.Calculus.MeanValue
import Mathlib.Analysis.Calculus.Deriv.Pow
import Mathlib.Analysis.Calculus.Deriv.Comp
import Mathlib.Tactic.Linarith
import Mathlib.Tactic.FieldSimp

/-! Error of symmetric difference formulas: repeated use of the mean value inequality. -/

namespace IBL.FD

theorem bound_step {T c : ℝ} {n : ℕ} {p p' : ℝ → ℝ} (hd : ∀ t ∈ Set.Icc 0 T, HasDerivAt p (p' t) t) (h0 : p 0 = 0)
    (hb : ∀ t ∈ Set.Icc 0 T, |p' t| ≤ c * (n + 1) * t ^ n) : ∀ t ∈ Set.Icc 0 T, |p t| ≤ c * t ^ (n + 1) := by
  have hB : ∀ x : ℝ, HasDerivAt (fun t : ℝ => c * t ^ (n + 1)) (c * (n + 1) * x ^ n) x := by
    intro x
    have := (hasDerivAt_pow (n + 1) x).const_mul c
    simpa [mul_assoc] using this
  intro t ht
  have := image_norm_le_of_norm_deriv_right_le_deriv_boundary' (f := p) (f' := p') (a := 0) (b := T)
    (B := fun t => c * t ^ (n + 1)) (B' := fun t => c * (n + 1) * t ^ n)
    (fun x hx => (hd x hx).continuousAt.continuousWithinAt)
    (fun x hx => (hd x ⟨hx.1, hx.2.le⟩).hasDerivWithinAt) (by simp [h0])
    (fun x _ => (hB x).continuousAt.continuousWithinAt) (fun x _ => (hB x).hasDerivWithinAt)
    (fun x hx => by simpa [Real.norm_eq_abs] using hb x ⟨hx.1, hx.2.le⟩) ht
  simpa [Real.norm_eq_abs] using this

private theorem dplus {f f' : ℝ → ℝ} {x T : ℝ} (hd : ∀ t ∈ Set.Icc (x - T) (x + T), HasDerivAt f (f' t) t) :
    ∀ t ∈ Set.Icc 0 T, HasDerivAt (fun t => f (x + t)) (f' (x + t)) t := by
  intro t ht
  have := (hd (x + t) ⟨by linarith [ht.1, ht.2], by linarith [ht.2]⟩).comp t ((hasDerivAt_id t).const_add x)
  exact this.congr_deriv (by simp)

private theorem dminus {f f' : ℝ → ℝ} {x T : ℝ} (hd : ∀ t ∈ Set.Icc (x - T) (x + T), HasDerivAt f (f' t) t) :
    ∀ t ∈ Set.Icc 0 T, HasDerivAt (fun t => f (x - t)) (-f' (x - t)) t := by
  intro t ht
  have := (hd (x - t) ⟨by linarith [ht.1, ht.2], by linarith [ht.1, ht.2]⟩).comp t ((hasDerivAt_id t).const_sub x)
  exact this.congr_deriv (by simp)

private theorem lin (a t : ℝ) : HasDerivAt (fun t => a * t) a t := by
  simpa using (hasDerivAt_id t).const_mul a
private theorem quad (a t : ℝ) : HasDerivAt (fun t => a * t ^ 2) (2 * a * t) t := by
  have := (hasDerivAt_pow 2 t).const_mul a
  exact this.congr_deriv (by push_cast; ring)
private theorem cub (a t : ℝ) : HasDerivAt (fun t => a * t ^ 3) (3 * a * t ^ 2) t := by
  have := (hasDerivAt_pow 3 t).const_mul a
  exact this.congr_deriv (by push_cast; ring)
private theorem quart (a t : ℝ) : HasDerivAt (fun t => a * t ^ 4) (4 * a * t ^ 3) t := by
  have := (hasDerivAt_pow 4 t).const_mul a
  exact this.congr_deriv (by push_cast; ring)

/-- The odd difference `f (x+t) - f (x-t)` is its Taylor polynomial up to `M t^5/60`. -/
theorem odd_bound {F : ℕ → ℝ → ℝ} {x T M : ℝ}
    (hd : ∀ k < 5, ∀ t ∈ Set.Icc (x - T) (x + T), HasDerivAt (F k) (F (k + 1) t) t)
    (hM : ∀ t ∈ Set.Icc (x - T) (x + T), |F 5 t| ≤ M) :
    ∀ t ∈ Set.Icc 0 T, |F 0 (x + t) - F 0 (x - t) - 2 * F 1 x * t - F 3 x / 3 * t ^ 3| ≤ M / 60 * t ^ 5 := by
  have p5 : ∀ t ∈ Set.Icc 0 T, |F 5 (x + t) + F 5 (x - t)| ≤ 2 * M * ((0:ℕ) + 1) * t ^ 0 := by
    intro t ht
    have h1 := hM (x + t) ⟨by linarith [ht.1, ht.2], by linarith [ht.2]⟩
    have h2 := hM (x - t) ⟨by linarith [ht.1, ht.2], by linarith [ht.1, ht.2]⟩
    have := abs_add_le (F 5 (x + t)) (F 5 (x - t))
    simp; linarith
  have p4 := bound_step (p := fun t => F 4 (x + t) - F 4 (x - t)) (fun t ht => by
    have := (dplus (hd 4 (by norm_num)) t ht).sub (dminus (hd 4 (by norm_num)) t ht)
    exact this.congr_deriv (g' := F 5 (x + t) + F 5 (x - t)) (by ring)) (by simp) p5
  have p3 := bound_step (p := fun t => F 3 (x + t) + F 3 (x - t) - 2 * F 3 x) (n := 1) (c := M) (fun t ht => by
    have := ((dplus (hd 3 (by norm_num)) t ht).add (dminus (hd 3 (by norm_num)) t ht)).sub_const (2 * F 3 x)
    exact this.congr_deriv (g' := F 4 (x + t) - F 4 (x - t)) (by ring)) (by simp; ring) (fun t ht => by convert p4 t ht using 1; push_cast; ring)
  have p2 := bound_step (p := fun t => F 2 (x + t) - F 2 (x - t) - 2 * F 3 x * t) (n := 2) (c := M / 3) (fun t ht => by
    have := ((dplus (hd 2 (by norm_num)) t ht).sub (dminus (hd 2 (by norm_num)) t ht)).sub (lin (2 * F 3 x) t)
    exact this.congr_deriv (g' := F 3 (x + t) + F 3 (x - t) - 2 * F 3 x) (by ring)) (by simp) (fun t ht => by convert p3 t ht using 1; push_cast; ring)
  have p1 := bound_step (p := fun t => F 1 (x + t) + F 1 (x - t) - 2 * F 1 x - F 3 x * t ^ 2) (n := 3) (c := M / 12)
    (fun t ht => by
      have := (((dplus (hd 1 (by norm_num)) t ht).add (dminus (hd 1 (by norm_num)) t ht)).sub_const (2 * F 1 x)).sub
        (quad (F 3 x) t)
      exact this.congr_deriv (g' := F 2 (x + t) - F 2 (x - t) - 2 * F 3 x * t) (by ring)) (by simp; ring)
    (fun t ht => by convert p2 t ht using 1; push_cast; ring)
  have p0 := bound_step (p := fun t => F 0 (x + t) - F 0 (x - t) - 2 * F 1 x * t - F 3 x / 3 * t ^ 3) (n := 4) (c := M / 60)
    (fun t ht => by
      have := (((dplus (hd 0 (by norm_num)) t ht).sub (dminus (hd 0 (by norm_num)) t ht)).sub (lin (2 * F 1 x) t)).sub
        (cub (F 3 x / 3) t)
      refine this.congr_deriv (g' := F 1 (x + t) + F 1 (x - t) - 2 * F 1 x - F 3 x * t ^ 2) ?_
      ring) (by simp) (fun t ht => by convert p1 t ht using 1; push_cast; ring)
  exact p0

/-- The even sum `f (x+t) + f (x-t)` is its Taylor polynomial up to `M t^6/360`. -/
theorem even_bound {F : ℕ → ℝ → ℝ} {x T M : ℝ}
    (hd : ∀ k < 6, ∀ t ∈ Set.Icc (x - T) (x + T), HasDerivAt (F k) (F (k + 1) t) t)
    (hM : ∀ t ∈ Set.Icc (x - T) (x + T), |F 6 t| ≤ M) :
    ∀ t ∈ Set.Icc 0 T, |F 0 (x + t) + F 0 (x - t) - 2 * F 0 x - F 2 x * t ^ 2 - F 4 x / 12 * t ^ 4| ≤ M / 360 * t ^ 6 := by
  have p1 := odd_bound (F := fun k => F (k + 1)) (fun k hk => hd (k + 1) (by omega)) hM
  have p0 := bound_step (p := fun t => F 0 (x + t) + F 0 (x - t) - 2 * F 0 x - F 2 x * t ^ 2 - F 4 x / 12 * t ^ 4)
    (n := 5) (c := M / 360)
    (p' := fun t => F (0 + 1) (x + t) - F (0 + 1) (x - t) - 2 * F (1 + 1) x * t - F (3 + 1) x / 3 * t ^ 3)
    (fun t ht => by
      have := ((((dplus (hd 0 (by norm_num)) t ht).add (dminus (hd 0 (by norm_num)) t ht)).sub_const (2 * F 0 x)).sub
        (quad (F 2 x) t)).sub (quart (F 4 x / 12) t)
      refine this.congr_deriv ?_
      norm_num; ring) (by simp; ring) (fun t ht => by convert p1 t ht using 1; push_cast; ring)
  exact p0

/-- Fourth-order accuracy of the first derivative formula. -/
theorem fd1_error {F : ℕ → ℝ → ℝ} {x h M : ℝ} (hh : 0 < h)
    (hd : ∀ k < 5, ∀ t ∈ Set.Icc (x - 2 * h) (x + 2 * h), HasDerivAt (F k) (F (k + 1) t) t)
    (hM : ∀ t ∈ Set.Icc (x - 2 * h) (x + 2 * h), |F 5 t| ≤ M) :
    |fd1Comb (F 0 (x - 2 * h)) (F 0 (x + 2 * h)) (F 0 (x - h)) (F 0 (x + h)) h - F 1 x| ≤ h ^ 4 / 18 * M := by
  have b := odd_bound hd hM
  have b1 := abs_le.1 (b h ⟨hh.le, by linarith⟩)
  have b2 := abs_le.1 (b (2 * h) ⟨by linarith, le_refl _⟩)
  have e : fd1Comb (F 0 (x - 2 * h)) (F 0 (x + 2 * h)) (F 0 (x - h)) (F 0 (x + h)) h - F 1 x =
      (-(F 0 (x + 2 * h) - F 0 (x - 2 * h) - 2 * F 1 x * (2 * h) - F 3 x / 3 * (2 * h) ^ 3) / 12 +
        2 / 3 * (F 0 (x + h) - F 0 (x - h) - 2 * F 1 x * h - F 3 x / 3 * h ^ 3)) / h := by
    simp only [fd1Comb, real_lit]
    push_cast
    field_simp
    ring
  rw [e, abs_div, abs_of_pos hh, div_le_iff₀ hh, abs_le]
  constructor <;> nlinarith [b1.1, b1.2, b2.1, b2.2]

/-- Fourth-order accuracy of the second derivative formula. -/
theorem fd2_error {F : ℕ → ℝ → ℝ} {x h M : ℝ} (hh : 0 < h)
    (hd : ∀ k < 6, ∀ t ∈ Set.Icc (x - 2 * h) (x + 2 * h), HasDerivAt (F k) (F (k + 1) t) t)
    (hM : ∀ t ∈ Set.Icc (x - 2 * h) (x + 2 * h), |F 6 t| ≤ M) :
    |fd2Comb (F 0 (x - 2 * h)) (F 0 (x + 2 * h)) (F 0 x) (F 0 (x - h)) (F 0 (x + h)) h - F 2 x| ≤ h ^ 4 / 54 * M := by
  have b := even_bound hd hM
  have b1 := abs_le.1 (b h ⟨hh.le, by linarith⟩)
  have b2 := abs_le.1 (b (2 * h) ⟨by linarith, le_refl _⟩)
  have hh2 : 0 < h * h := mul_pos hh hh
  have e : fd2Comb (F 0 (x - 2 * h)) (F 0 (x + 2 * h)) (F 0 x) (F 0 (x - h)) (F 0 (x + h)) h - F 2 x =
      (-(F 0 (x + 2 * h) + F 0 (x - 2 * h) - 2 * F 0 x - F 2 x * (2 * h) ^ 2 - F 4 x / 12 * (2 * h) ^ 4) / 12 +
        4 / 3 * (F 0 (x + h) + F 0 (x - h) - 2 * F 0 x - F 2 x * h ^ 2 - F 4 x / 12 * h ^ 4)) / (h * h) := by
    simp only [fd2Comb, real_lit]
    push_cast
    field_simp
    ring
  rw [e, abs_div, abs_of_pos hh2, div_le_iff₀ hh2, abs_le]
  constructor <;> nlinarith [b1.1, b1.2, b2.1, b2.2]

end IBL.FD
