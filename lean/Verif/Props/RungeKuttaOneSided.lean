import Verif.Props.RungeKuttaConverges

/-!
C139: RK45 converges for scalar equations whose right hand side is only continuous, if it is one-sided Lipschitz continuous along the exact solution.
-/

namespace IBL
open SolveIvp RungeKutta

/-! ### Specification -/

/-- The scalar function `φ` solves `y' = F(x, y)` on `[x0, x1]`. Up to the distance `ρ` from `φ`, the right hand side `F` is continuous, and the slope of a state above
(below) `φ` exceeds (falls below) that of `φ` by at most `L` times the distance. -/
structure OneSidedPath (f : ℝ → List ℝ → Except Exc (List ℝ)) (F : ℝ → ℝ → ℝ) (φ : ℝ → ℝ) (x0 x1 L ρ : ℝ) : Prop where
  value : ∀ t ∈ Set.Icc x0 x1, ∀ y, |y - φ t| ≤ ρ → f t [y] = .ok [F t y]
  solves : ∀ t ∈ Set.Icc x0 x1, HasDerivWithinAt φ (F t (φ t)) (Set.Icc x0 x1) t
  cont : ContinuousOn (fun q : ℝ × ℝ => F q.1 q.2) {q | q.1 ∈ Set.Icc x0 x1 ∧ |q.2 - φ q.1| ≤ ρ}
  side : ∀ t ∈ Set.Icc x0 x1, ∀ y, |y - φ t| ≤ ρ → (y - φ t) * (F t y - F t (φ t)) ≤ L * (y - φ t) ^ 2

/-! ### One step -/

section
variable {f : ℝ → List ℝ → Except Exc (List ℝ)} {F : ℝ → ℝ → ℝ} {φ : ℝ → ℝ} {x0 x1 L ρ M : ℝ}

private theorem path_change (P : OneSidedPath f F φ x0 x1 L ρ) (hρ : 0 ≤ ρ) (hM : ∀ t ∈ Set.Icc x0 x1, ∀ y, |y - φ t| ≤ ρ → |F t y| ≤ M) {t r : ℝ} (ht : x0 ≤ t)
    (hr : 0 ≤ r) (h1 : t + r ≤ x1) : |φ (t + r) - φ t| ≤ M * r := by
  have := (convex_Icc x0 x1).norm_image_sub_le_of_norm_hasDerivWithin_le (f := φ) (f' := fun s => F s (φ s)) (C := M)
    (x := t) (y := t + r) P.solves (fun s hs => hM s hs _ (by simpa using hρ)) ⟨ht, by linarith⟩ ⟨by linarith, h1⟩
  simpa [Real.norm_eq_abs, abs_of_nonneg hr] using this

private theorem path_tangent (P : OneSidedPath f F φ x0 x1 L ρ) {t r η : ℝ} (ht : x0 ≤ t)
    (hr : 0 ≤ r) (h1 : t + r ≤ x1) (hη : ∀ s ∈ Set.Icc t (t + r), |F s (φ s) - F t (φ t)| ≤ η) : |φ (t + r) - φ t - r * F t (φ t)| ≤ η * r := by
  have sub : Set.Icc t (t + r) ⊆ Set.Icc x0 x1 := Set.Icc_subset_Icc ht h1
  have := (convex_Icc t (t + r)).norm_image_sub_le_of_norm_hasDerivWithin_le (f := fun s => φ s - s * F t (φ t))
    (f' := fun s => F s (φ s) - F t (φ t)) (C := η) (x := t) (y := t + r)
    (fun s hs => (((P.solves s (sub hs)).mono sub).sub ((hasDerivWithinAt_id s _).mul_const _)).congr_deriv (by simp))
    (fun s hs => by rw [Real.norm_eq_abs]; exact hη s hs) ⟨le_rfl, by linarith⟩ ⟨by linarith, le_rfl⟩
  rw [Real.norm_eq_abs, Real.norm_eq_abs, add_sub_cancel_left, abs_of_nonneg hr] at this
  refine le_trans (le_of_eq ?_) this
  congr 1; ring

/-- The slopes of a step are values of `F` near its start. -/
private theorem stages (P : OneSidedPath f F φ x0 x1 L ρ) (hρ : 0 ≤ ρ) (hM : ∀ t ∈ Set.Icc x0 x1, ∀ y, |y - φ t| ≤ ρ → |F t y| ≤ M)
    {t h e y : ℝ} {yN : List ℝ} {k : Fin 7 → List ℝ} (ht : x0 ≤ t) (hh : 0 ≤ h) (h1 : t + h ≤ x1) (he : |y - φ t| ≤ e) (hr : e + 26 * M * h ≤ ρ)
    (dp : DormandPrince f t h [y] yN k) (i : Fin 7) :
    ∃ s w, s ∈ Set.Icc x0 x1 ∧ |s - t| ≤ h ∧ |w - y| ≤ 25 * M * h ∧ |w - φ s| ≤ ρ ∧ k i = [F s w] := by
  have hM0 : 0 ≤ M := (abs_nonneg _).trans (hM t ⟨ht, by linarith⟩ (φ t) (by simpa using hρ))
  have next : ∀ {θ : ℝ} {v : List ℝ}, 0 ≤ θ → θ ≤ 1 → (∃ w, f (t + θ * h) w = .ok v ∧ w.length = 1 ∧ ∃ c, w.getD 0 0 = y + h * c ∧ |c| ≤ 25 * M) →
      ∃ s w, s ∈ Set.Icc x0 x1 ∧ |s - t| ≤ h ∧ |w - y| ≤ 25 * M * h ∧ |w - φ s| ≤ ρ ∧ v = [F s w] := by
    rintro θ v hθ hθ1 ⟨w, w1, w2, c, c1, c2⟩
    obtain ⟨w, rfl⟩ := List.length_eq_one_iff.1 w2
    replace c1 : w = y + h * c := c1
    have hθh : 0 ≤ θ * h := mul_nonneg hθ hh
    have hθh1 : θ * h ≤ h := mul_le_of_le_one_left hh hθ1
    have mem : t + θ * h ∈ Set.Icc x0 x1 := ⟨by linarith, by linarith⟩
    have a1 : |w - y| ≤ 25 * M * h := by
      rw [c1, add_sub_cancel_left, abs_mul, abs_of_nonneg hh]
      linarith [mul_le_mul_of_nonneg_left c2 hh]
    have a2 : |w - φ (t + θ * h)| ≤ ρ := by
      have b1 := abs_le.1 (path_change P hρ hM ht hθh (by linarith))
      have b2 := abs_le.1 a1
      have b3 := abs_le.1 he
      have b4 := mul_le_mul_of_nonneg_left hθh1 hM0
      rw [abs_le]; constructor <;> linarith [b1.1, b1.2, b2.1, b2.2, b3.1, b3.2]
    refine ⟨t + θ * h, w, mem, by rw [add_sub_cancel_left, abs_of_nonneg hθh]; exact hθh1, a1, a2, ?_⟩
    rw [P.value _ mem _ a2] at w1
    exact (Except.ok.inj w1).symm
  have bd : ∀ {v : List ℝ}, (∃ s w, s ∈ Set.Icc x0 x1 ∧ |s - t| ≤ h ∧ |w - y| ≤ 25 * M * h ∧ |w - φ s| ≤ ρ ∧ v = [F s w]) →
      -M ≤ v.getD 0 0 ∧ v.getD 0 0 ≤ M := by
    rintro v ⟨s, w, m, -, -, a, rfl⟩
    exact abs_le.1 (hM s m w a)
  have s1 := next (θ := 0) (v := k 0) le_rfl zero_le_one ⟨[y], by rw [zero_mul, add_zero]; exact dp.k1, rfl, 0, by simp, by simpa using hM0⟩
  have b0 := bd s1
  have s2 := next (θ := 1/5) (v := k 1) (by norm_num) (by norm_num) (by
    obtain ⟨w, w1, w2, w3⟩ := dp.k2
    refine ⟨w, by rw [← w1]; congr 1; ring, w2, _, w3 0, ?_⟩
    rw [abs_le]; constructor <;> linarith [b0.1, b0.2])
  have b1 := bd s2
  have s3 := next (θ := 3/10) (v := k 2) (by norm_num) (by norm_num) (by
    obtain ⟨w, w1, w2, w3⟩ := dp.k3
    refine ⟨w, w1, w2, _, w3 0, ?_⟩
    rw [abs_le]; constructor <;> linarith [b0.1, b0.2, b1.1, b1.2])
  have b2 := bd s3
  have s4 := next (θ := 4/5) (v := k 3) (by norm_num) (by norm_num) (by
    obtain ⟨w, w1, w2, w3⟩ := dp.k4
    refine ⟨w, w1, w2, _, w3 0, ?_⟩
    rw [abs_le]; constructor <;> linarith [b0.1, b0.2, b1.1, b1.2, b2.1, b2.2])
  have b3 := bd s4
  have s5 := next (θ := 8/9) (v := k 4) (by norm_num) (by norm_num) (by
    obtain ⟨w, w1, w2, w3⟩ := dp.k5
    refine ⟨w, w1, w2, _, w3 0, ?_⟩
    rw [abs_le]; constructor <;> linarith [b0.1, b0.2, b1.1, b1.2, b2.1, b2.2, b3.1, b3.2])
  have b4 := bd s5
  have s6 := next (θ := 1) (v := k 5) (by norm_num) (by norm_num) (by
    obtain ⟨w, w1, w2, w3⟩ := dp.k6
    refine ⟨w, by rw [one_mul]; exact w1, w2, _, w3 0, ?_⟩
    rw [abs_le]; constructor <;> linarith [b0.1, b0.2, b1.1, b1.2, b2.1, b2.2, b3.1, b3.2, b4.1, b4.2])
  have b5 := bd s6
  have s7 := next (θ := 1) (v := k 6) (by norm_num) (by norm_num) (by
    refine ⟨yN, by rw [one_mul]; exact dp.k7, dp.size.1, _, dp.new 0, ?_⟩
    rw [abs_le]; constructor <;> linarith [b0.1, b0.2, b2.1, b2.2, b3.1, b3.2, b4.1, b4.2, b5.1, b5.2])
  fin_cases i
  exacts [s1, s2, s3, s4, s5, s6, s7]

/-- The interpolant of a step with slopes up to `M`. -/
private theorem interpolant_bound {h s M : ℝ} {k : Fin 7 → List ℝ} (hh : 0 ≤ h) (hs : 0 ≤ s) (hs1 : s ≤ 1) (sl : ∀ i, |(k i).getD 0 0| ≤ M) :
    |dpInterpolant h s k 0| ≤ 99 * M * h := by
  have p2 : s ^ 2 ∈ Set.Icc (0:ℝ) 1 := ⟨by positivity, pow_le_one₀ hs hs1⟩
  have p3 : s ^ 3 ∈ Set.Icc (0:ℝ) 1 := ⟨by positivity, pow_le_one₀ hs hs1⟩
  have p4 : s ^ 4 ∈ Set.Icc (0:ℝ) 1 := ⟨by positivity, pow_le_one₀ hs hs1⟩
  have w : ∀ {a b c : ℝ} {v : List ℝ} (C : ℝ), |a| + |b| + |c| ≤ C → |v.getD 0 0| ≤ M → |(a * s ^ 2 + b * s ^ 3 + c * s ^ 4) * v.getD 0 0| ≤ C * M :=
    fun {a b c v} C hC hv => by
      rw [abs_mul]
      refine mul_le_mul (le_trans ?_ hC) hv (abs_nonneg _) ((by positivity : (0:ℝ) ≤ |a| + |b| + |c|).trans hC)
      refine (abs_add_three _ _ _).trans ?_
      simp only [abs_mul, abs_of_nonneg p2.1, abs_of_nonneg p3.1, abs_of_nonneg p4.1]
      nlinarith [mul_le_mul_of_nonneg_left p2.2 (abs_nonneg a), mul_le_mul_of_nonneg_left p3.2 (abs_nonneg b), mul_le_mul_of_nonneg_left p4.2 (abs_nonneg c)]
  have id : dpInterpolant h s k 0 = h * (s * (k 0).getD 0 0
      + (-8048581381/2820520608 * s ^ 2 + 8663915743/2820520608 * s ^ 3 + -12715105075/11282082432 * s ^ 4) * (k 0).getD 0 0
      + (131558114200/32700410799 * s ^ 2 + -68118460800/10900136933 * s ^ 3 + 87487479700/32700410799 * s ^ 4) * (k 2).getD 0 0
      + (-1754552775/470086768 * s ^ 2 + 14199869525/1410260304 * s ^ 3 + -10690763975/1880347072 * s ^ 4) * (k 3).getD 0 0
      + (127303824393/49829197408 * s ^ 2 + -318862633887/49829197408 * s ^ 3 + 701980252875/199316789632 * s ^ 4) * (k 4).getD 0 0
      + (-282668133/205662961 * s ^ 2 + 2019193451/616988883 * s ^ 3 + -1453857185/822651844 * s ^ 4) * (k 5).getD 0 0
      + (40617522/29380423 * s ^ 2 + -110615467/29380423 * s ^ 3 + 69997945/29380423 * s ^ 4) * (k 6).getD 0 0) := by
    unfold dpInterpolant
    ring
  have v0 := abs_le.1 (w (a := -8048581381/2820520608) (b := 8663915743/2820520608) (c := -12715105075/11282082432) 8 (by norm_num [abs_of_pos, abs_of_neg]) (sl 0))
  have v2 := abs_le.1 (w (a := 131558114200/32700410799) (b := -68118460800/10900136933) (c := 87487479700/32700410799) 14 (by norm_num [abs_of_pos, abs_of_neg]) (sl 2))
  have v3 := abs_le.1 (w (a := -1754552775/470086768) (b := 14199869525/1410260304) (c := -10690763975/1880347072) 20 (by norm_num [abs_of_pos, abs_of_neg]) (sl 3))
  have v4 := abs_le.1 (w (a := 127303824393/49829197408) (b := -318862633887/49829197408) (c := 701980252875/199316789632) 13 (by norm_num [abs_of_pos, abs_of_neg]) (sl 4))
  have v5 := abs_le.1 (w (a := -282668133/205662961) (b := 2019193451/616988883) (c := -1453857185/822651844) 7 (by norm_num [abs_of_pos, abs_of_neg]) (sl 5))
  have v6 := abs_le.1 (w (a := 40617522/29380423) (b := -110615467/29380423) (c := 69997945/29380423) 8 (by norm_num [abs_of_pos, abs_of_neg]) (sl 6))
  have hM0 : 0 ≤ M := (abs_nonneg _).trans (sl 0)
  have v1 : |s * (k 0).getD 0 0| ≤ 1 * M := by
    rw [abs_mul, abs_of_nonneg hs]; exact mul_le_mul hs1 (sl 0) (abs_nonneg _) zero_le_one
  have v1 := abs_le.1 v1
  rw [id, abs_mul, abs_of_nonneg hh, mul_comm]
  refine mul_le_mul_of_nonneg_right ?_ hh
  rw [abs_le]
  constructor <;> linarith [v0.1, v0.2, v1.1, v1.2, v2.1, v2.2, v3.1, v3.2, v4.1, v4.2, v5.1, v5.2, v6.1, v6.2]

/-- The square of the error at the end of a step. -/
private theorem step_error (P : OneSidedPath f F φ x0 x1 L ρ) (hρ : 0 ≤ ρ) (hM : ∀ t ∈ Set.Icc x0 x1, ∀ y, |y - φ t| ≤ ρ → |F t y| ≤ M)
    {t h e y η θ : ℝ} {yN : List ℝ} {k : Fin 7 → List ℝ} (ht : x0 ≤ t) (hh : 0 ≤ h) (h1 : t + h ≤ x1) (he : |y - φ t| ≤ e) (hr : e + 26 * M * h ≤ ρ)
    (hη : ∀ s ∈ Set.Icc x0 x1, ∀ t ∈ Set.Icc x0 x1, ∀ y z, |y - φ s| ≤ ρ → |z - φ t| ≤ ρ → |s - t| ≤ θ → |y - z| ≤ θ → |F s y - F t z| ≤ η)
    (hθ : h ≤ θ) (hθ' : 25 * M * h ≤ θ) (hη0 : 0 ≤ η) (dp : DormandPrince f t h [y] yN k) :
    (yN.getD 0 0 - φ (t + h)) ^ 2 ≤ (1 + 2 * L * h) * (y - φ t) ^ 2 + h * (4 * M ^ 2 * h + 6 * η * (ρ + 2 * M * h) + 9 * η ^ 2 * h) := by
  have mt : t ∈ Set.Icc x0 x1 := ⟨ht, by linarith⟩
  have hM0 : 0 ≤ M := (abs_nonneg _).trans (hM t mt (φ t) (by simpa using hρ))
  have hMh : 0 ≤ M * h := mul_nonneg hM0 hh
  have hy : |y - φ t| ≤ ρ := he.trans (by linarith)
  have hφ : |φ t - φ t| ≤ ρ := by simpa using hρ
  have sl : ∀ i, |(k i).getD 0 0 - F t y| ≤ η := fun i => by
    obtain ⟨s, w, m, a1, a2, a3, a4⟩ := stages P hρ hM ht hh h1 he hr dp i
    rw [a4]
    exact hη s m t mt w y a3 hy (a1.trans hθ) (a2.trans hθ')
  have tan := abs_le.1 (path_tangent P ht hh h1 (η := η) fun s hs => by
    refine hη s ⟨ht.trans hs.1, hs.2.trans h1⟩ t mt _ _ (by simpa using hρ) hφ ?_ ?_
    · rw [abs_of_nonneg (by linarith [hs.1])]; linarith [hs.2]
    · have := path_change P hρ hM ht (show 0 ≤ s - t by linarith [hs.1]) (by linarith [hs.2])
      rw [add_sub_cancel] at this
      have h2 := mul_le_mul_of_nonneg_left (show s - t ≤ h by linarith [hs.2]) hM0
      linarith)
  obtain ⟨d, hd⟩ : ∃ d, d = y - φ t := ⟨_, rfl⟩
  obtain ⟨G, hG⟩ : ∃ G, G = F t y - F t (φ t) := ⟨_, rfl⟩
  have side := P.side t mt y hy
  rw [← hd, ← hG] at side
  have G2 : |G| ≤ 2 * M := by
    have b1 := abs_le.1 (hM t mt y hy)
    have b2 := abs_le.1 (hM t mt _ hφ)
    rw [hG, abs_le]; constructor <;> linarith [b1.1, b1.2, b2.1, b2.2]
  have near : |yN.getD 0 0 - φ (t + h) - (d + h * G)| ≤ 3 * η * h := by
    have k0 := abs_le.1 (sl 0); have k2 := abs_le.1 (sl 2); have k3 := abs_le.1 (sl 3); have k4 := abs_le.1 (sl 4); have k5 := abs_le.1 (sl 5)
    rw [dp.new 0]
    have c : |35/384 * (k 0).getD 0 0 + 500/1113 * (k 2).getD 0 0 + 125/192 * (k 3).getD 0 0 - 2187/6784 * (k 4).getD 0 0
        + 11/84 * (k 5).getD 0 0 - F t y| ≤ 2 * η := by
      rw [abs_le]; constructor <;> linarith [k0.1, k0.2, k2.1, k2.2, k3.1, k3.2, k4.1, k4.2, k5.1, k5.2]
    have c' := abs_le.1 (show |h * (35/384 * (k 0).getD 0 0 + 500/1113 * (k 2).getD 0 0 + 125/192 * (k 3).getD 0 0 - 2187/6784 * (k 4).getD 0 0
        + 11/84 * (k 5).getD 0 0 - F t y)| ≤ h * (2 * η) by rw [abs_mul, abs_of_nonneg hh]; exact mul_le_mul_of_nonneg_left c hh)
    rw [hd, hG, List.getD_cons_zero, abs_le]
    constructor <;> linarith [c'.1, c'.2, tan.1, tan.2]
  have sq : (d + h * G) ^ 2 ≤ (1 + 2 * L * h) * d ^ 2 + 4 * M ^ 2 * h ^ 2 := by
    have g2 : G ^ 2 ≤ 4 * M ^ 2 := by
      have := sq_le_sq' (abs_le.1 G2).1 (abs_le.1 G2).2
      linarith
    have a1 := mul_le_mul_of_nonneg_left side hh
    have a2 := mul_le_mul_of_nonneg_left g2 (sq_nonneg h)
    nlinarith
  have bd : |d + h * G| ≤ ρ + 2 * M * h := by
    rw [← hd] at hy
    refine (abs_add_le _ _).trans (add_le_add hy ?_)
    rw [abs_mul, abs_of_nonneg hh]
    linarith [mul_le_mul_of_nonneg_left G2 hh]
  generalize yN.getD 0 0 - φ (t + h) = d' at near
  rw [← hd]
  generalize d + h * G = z at near sq bd
  have hηh : 0 ≤ η * h := mul_nonneg hη0 hh
  have fin : d' ^ 2 ≤ z ^ 2 + 2 * (3 * η * h) * (ρ + 2 * M * h) + (3 * η * h) ^ 2 := by
    obtain ⟨x, hx⟩ : ∃ x, d' = z + x := ⟨d' - z, by ring⟩
    rw [hx, add_sub_cancel_left] at near
    have a1 : x ^ 2 ≤ (3 * η * h) ^ 2 := sq_le_sq' (abs_le.1 near).1 (abs_le.1 near).2
    have a2 : z * x ≤ (ρ + 2 * M * h) * (3 * η * h) := by
      refine (le_abs_self _).trans ?_
      rw [abs_mul]
      exact mul_le_mul bd near (abs_nonneg _) ((abs_nonneg _).trans bd)
    rw [hx]
    nlinarith
  linarith

/-! ### All steps -/

private theorem errors_add_up (P : OneSidedPath f F φ x0 x1 L ρ) (hρ : 0 ≤ ρ) (hL : 0 ≤ L) (hM : ∀ t ∈ Set.Icc x0 x1, ∀ y, |y - φ t| ≤ ρ → |F t y| ≤ M)
    {h e η θ κ ε atol rtol : ℝ}
    (hη : ∀ s ∈ Set.Icc x0 x1, ∀ t ∈ Set.Icc x0 x1, ∀ y z, |y - φ s| ≤ ρ → |z - φ t| ≤ ρ → |s - t| ≤ θ → |y - z| ≤ θ → |F s y - F t z| ≤ η) (hη0 : 0 ≤ η)
    (he0 : 0 ≤ e) (hr : e + 26 * M * h ≤ ρ) (hθ : h ≤ θ) (hθ' : 25 * M * h ≤ θ) (hκ0 : 0 ≤ κ)
    (hκ : 4 * M ^ 2 * h + 6 * η * (ρ + 2 * M * h) + 9 * η ^ 2 * h ≤ κ) (hκe : Real.exp (2 * L * (x1 - x0)) * (κ * (x1 - x0)) ≤ e ^ 2) (hε : e + 100 * M * h ≤ ε) :
    ∀ (l : List (Step ℝ)) (t y : ℝ), DpSteps f atol rtol (t, [y]) l → (∀ s ∈ l, s.t ≤ x1) → x0 ≤ t → t ≤ x1 → StepsAtMost h t l →
      (y - φ t) ^ 2 ≤ Real.exp (2 * L * (t - x0)) * (κ * (t - x0)) → StaysWithin (fun x => [φ x]) 1 ε t l
  | [], _, _, _, _, _, _, _, _ => trivial
  | s :: l, t, y, ⟨h1, _, _, ⟨k, dp, _, hd⟩, h5⟩, hx1, ht0, ht1, ⟨m1, m2⟩, hy => by
    have hs1 := hx1 s (by simp)
    change t < s.t at h1
    change DormandPrince f t (s.t - t) [y] s.y k at dp
    have hpos : 0 < s.t - t := by linarith
    obtain ⟨r, hr'⟩ : ∃ r, r = s.t - t := ⟨_, rfl⟩
    change ∀ q, (s.dense (t + q * (s.t - t))).length = 1 ∧ ∀ j, (s.dense (t + q * (s.t - t))).getD j 0 = [y].getD j 0 + dpInterpolant (s.t - t) q k j at hd
    rw [← hr'] at hpos m1 dp hd
    have hst : s.t = t + r := by rw [hr']; ring
    have mt : t ∈ Set.Icc x0 x1 := ⟨ht0, ht1⟩
    have hM0 : 0 ≤ M := (abs_nonneg _).trans (hM t mt (φ t) (by simpa using hρ))
    have hMr : M * r ≤ M * h := mul_le_mul_of_nonneg_left m1 hM0
    have hX : 0 ≤ x1 - x0 := by linarith
    have hye : |y - φ t| ≤ e := by
      refine abs_le_of_sq_le_sq (hy.trans (le_trans ?_ hκe)) he0
      exact mul_le_mul (Real.exp_le_exp.2 (mul_le_mul_of_nonneg_left (by linarith) (by positivity))) (mul_le_mul_of_nonneg_left (by linarith) hκ0)
        (mul_nonneg hκ0 (by linarith)) (Real.exp_pos _).le
    have hr1 : e + 26 * M * r ≤ ρ := by linarith
    have sl : ∀ i, |(k i).getD 0 0| ≤ M := fun i => by
      obtain ⟨s, w, m, -, -, a3, a4⟩ := stages P hρ hM ht0 hpos.le (by linarith) hye hr1 dp i
      rw [a4]
      exact hM s m w a3
    refine ⟨fun x hx => ?_, ?_⟩
    · obtain ⟨q, hq0, hq1, rfl⟩ : ∃ q, 0 ≤ q ∧ q ≤ 1 ∧ x = t + q * r :=
        ⟨(x - t) / r, div_nonneg (by linarith [hx.1]) hpos.le, (div_le_one hpos).2 (by linarith [hx.2]), by field_simp; ring⟩
      refine ⟨(hd q).1, fun j => ?_⟩
      rcases j with _ | j
      · rw [(hd q).2 0]
        simp only [List.getD_cons_zero]
        have hqr : q * r ≤ r := mul_le_of_le_one_left hpos.le hq1
        have b1 := abs_le.1 (interpolant_bound hpos.le hq0 hq1 sl)
        have b2 := abs_le.1 (path_change P hρ hM ht0 (mul_nonneg hq0 hpos.le) (by linarith))
        have b3 := abs_le.1 hye
        have b4 := mul_le_mul_of_nonneg_left hqr hM0
        rw [abs_le]; constructor <;> linarith [b1.1, b1.2, b2.1, b2.2, b3.1, b3.2]
      · have := (hd q).1
        obtain ⟨w, hw⟩ := List.length_eq_one_iff.1 this
        rw [hw]
        simp only [List.getD_cons_succ, List.getD_nil, sub_self, abs_zero]
        have : 0 ≤ M * h := mul_nonneg hM0 (hpos.le.trans m1)
        linarith
    · obtain ⟨w, hw⟩ := List.length_eq_one_iff.1 (dp.size.1 : s.y.length = 1)
      have hpt : s.pt = (s.t, [w]) := by rw [← hw]; rfl
      rw [hpt] at h5
      refine errors_add_up P hρ hL hM hη hη0 he0 hr hθ hθ' hκ0 hκ hκe hε l s.t w h5 (fun q hq => hx1 q (by simp [hq])) (by linarith) hs1 m2 ?_
      have b0 := step_error P hρ hM ht0 hpos.le (by linarith) hye hr1 hη (m1.trans hθ) (by linarith) hη0 dp
      rw [hw, List.getD_cons_zero, ← hst] at b0
      refine b0.trans ?_
      have c1 : 4 * M ^ 2 * r + 6 * η * (ρ + 2 * M * r) + 9 * η ^ 2 * r ≤ κ := by
        refine le_trans ?_ hκ
        have := mul_le_mul_of_nonneg_left m1 (show 0 ≤ 4 * M ^ 2 by positivity)
        have := mul_le_mul_of_nonneg_left m1 (show 0 ≤ 9 * η ^ 2 by positivity)
        have := mul_le_mul_of_nonneg_left hMr (show 0 ≤ 12 * η by positivity)
        linarith
      have c2 := mul_le_mul_of_nonneg_left c1 hpos.le
      have hexp : Real.exp (2 * L * (s.t - x0)) = Real.exp (2 * L * r) * Real.exp (2 * L * (t - x0)) := by
        rw [← Real.exp_add, hst]; congr 1; ring
      have c3 : (1 + 2 * L * r) * (y - φ t) ^ 2 ≤ Real.exp (2 * L * (s.t - x0)) * (κ * (t - x0)) := by
        rw [hexp, mul_assoc (Real.exp (2 * L * r))]
        exact mul_le_mul (by linarith [Real.add_one_le_exp (2 * L * r)]) hy (sq_nonneg _) (Real.exp_pos _).le
      have c4 : r * κ ≤ Real.exp (2 * L * (s.t - x0)) * (κ * r) := by
        rw [mul_comm r κ]
        exact le_mul_of_one_le_left (mul_nonneg hκ0 hpos.le) (Real.one_le_exp (mul_nonneg (by positivity) (by linarith)))
      have c5 : Real.exp (2 * L * (s.t - x0)) * (κ * (s.t - x0)) = Real.exp (2 * L * (s.t - x0)) * (κ * (t - x0)) + Real.exp (2 * L * (s.t - x0)) * (κ * r) := by
        rw [hr']; ring
      rw [c5]
      linarith

end

open Filter Topology in
private theorem small {K c : ℝ} (hc : 0 < c) : ∀ᶠ δ in 𝓝[>] (0:ℝ), K * δ < c := by
  have : Tendsto (fun δ : ℝ => K * δ) (𝓝[>] 0) (𝓝 (K * 0)) := (tendsto_const_nhds.mul tendsto_id).mono_left nhdsWithin_le_nhds
  rw [mul_zero] at this
  exact this.eventually (gt_mem_nhds hc)

set_option maxHeartbeats 1000000 in
/-- **C139**, the steps: the right hand side is continuous near the solution `φ` and one-sided Lipschitz continuous along it. However small `ε`, every state that RK45
computes up to `x1`, at the accepted points and in between, is within `ε` of `φ` if the steps are short enough. And if the numbers are dense enough RK45 does not give up. -/
theorem rk45_approaches {f : ℝ → List ℝ → Except Exc (List ℝ)} {F : ℝ → ℝ → ℝ} {φ : ℝ → ℝ} {x0 x1 L ρ : ℝ} (P : OneSidedPath f F φ x0 x1 L ρ) (hρ : 0 < ρ)
    (hx : x0 < x1) : Approaches f (fun x => [φ x]) 1 x0 x1 := by
  replace P : OneSidedPath f F φ x0 x1 |L| ρ := ⟨P.value, P.solves, P.cont, fun t ht y hy =>
    (P.side t ht y hy).trans (mul_le_mul_of_nonneg_right (le_abs_self L) (sq_nonneg _))⟩
  have hL := abs_nonneg L
  generalize |L| = L at P hL
  -- the tube is compact
  obtain ⟨T, hT⟩ : ∃ T : Set (ℝ × ℝ), T = {q | q.1 ∈ Set.Icc x0 x1 ∧ |q.2 - φ q.1| ≤ ρ} := ⟨_, rfl⟩
  have hφ : ContinuousOn φ (Set.Icc x0 x1) := fun t ht => (P.solves t ht).continuousWithinAt
  have hTc : IsCompact T := by
    have : T = (fun q : ℝ × ℝ => (q.1, φ q.1 + q.2)) '' (Set.Icc x0 x1 ×ˢ Set.Icc (-ρ) ρ) := by
      ext ⟨t, y⟩
      rw [hT]
      simp only [Set.mem_ofPred_eq, Set.mem_image, Set.mem_prod, Prod.mk.injEq, Prod.exists]
      constructor
      · rintro ⟨h1, h2⟩
        exact ⟨t, y - φ t, ⟨h1, abs_le.1 h2⟩, rfl, by ring⟩
      · rintro ⟨a, b, ⟨h1, h2⟩, rfl, rfl⟩
        exact ⟨h1, by rw [add_sub_cancel_left]; exact abs_le.2 h2⟩
    rw [this]
    refine (isCompact_Icc.prod isCompact_Icc).image_of_continuousOn (continuousOn_fst.prodMk (ContinuousOn.add ?_ continuousOn_snd))
    exact hφ.comp continuousOn_fst fun q hq => hq.1
  have hcont := P.cont
  rw [← hT] at hcont
  have mem : ∀ {t y : ℝ}, t ∈ Set.Icc x0 x1 → |y - φ t| ≤ ρ → (t, y) ∈ T := fun h1 h2 => by rw [hT]; exact ⟨h1, h2⟩
  obtain ⟨M, hM1, hM⟩ : ∃ M, 1 ≤ M ∧ ∀ t ∈ Set.Icc x0 x1, ∀ y, |y - φ t| ≤ ρ → |F t y| ≤ M := by
    obtain ⟨M, hM⟩ := hTc.exists_bound_of_continuousOn hcont
    exact ⟨max 1 M, le_max_left _ _, fun t ht y hy => (hM (t, y) (mem ht hy)).trans (le_max_right _ _)⟩
  have hM0 : 0 ≤ M := by linarith
  have unif : ∀ η, 0 < η → ∃ θ, 0 < θ ∧ ∀ s ∈ Set.Icc x0 x1, ∀ t ∈ Set.Icc x0 x1, ∀ y z, |y - φ s| ≤ ρ → |z - φ t| ≤ ρ → |s - t| ≤ θ → |y - z| ≤ θ →
      |F s y - F t z| ≤ η := fun η hη => by
    obtain ⟨θ, hθ, H⟩ := Metric.uniformContinuousOn_iff.1 (hTc.uniformContinuousOn_of_continuous hcont) η hη
    refine ⟨θ / 2, by positivity, fun s hs t ht y z hy hz h1 h2 => ?_⟩
    have := H (s, y) (mem hs hy) (t, z) (mem ht hz) (by
      rw [Prod.dist_eq, Real.dist_eq, Real.dist_eq]
      exact (max_le h1 h2).trans_lt (by linarith))
    rw [Real.dist_eq] at this
    exact this.le
  intro ε A hε hA
  obtain ⟨e, he⟩ : ∃ e, e = min ε ρ / 2 := ⟨_, rfl⟩
  have he0 : 0 < e := by rw [he]; exact half_pos (lt_min hε hρ)
  have heε : e ≤ ε / 2 := by rw [he]; linarith [min_le_left ε ρ]
  have heρ : e ≤ ρ / 2 := by rw [he]; linarith [min_le_right ε ρ]
  have hX : 0 < x1 - x0 := by linarith
  obtain ⟨κ, hκ⟩ : ∃ κ, κ = e ^ 2 / (Real.exp (2 * L * (x1 - x0)) * (x1 - x0)) := ⟨_, rfl⟩
  have hden : 0 < Real.exp (2 * L * (x1 - x0)) * (x1 - x0) := mul_pos (Real.exp_pos _) hX
  have hκ0 : 0 < κ := by rw [hκ]; positivity
  have hκe : Real.exp (2 * L * (x1 - x0)) * (κ * (x1 - x0)) = e ^ 2 := by
    rw [hκ]
    field_simp
  obtain ⟨η, hη0, hη1, hη2⟩ : ∃ η, 0 < η ∧ η ≤ 1 ∧ (6 * ρ + 12 * M) * η ≤ κ / 2 := by
    have hd : 0 < 6 * ρ + 12 * M := by positivity
    refine ⟨min 1 (κ / 2 / (6 * ρ + 12 * M)), lt_min one_pos (by positivity), min_le_left _ _, ?_⟩
    calc _ ≤ (6 * ρ + 12 * M) * (κ / 2 / (6 * ρ + 12 * M)) := mul_le_mul_of_nonneg_left (min_le_right _ _) hd.le
      _ = _ := by field_simp
  obtain ⟨θ, hθ0, hθ⟩ := unif η hη0
  obtain ⟨δ, hδ0, d1, d2, d3, d4, d5, d6⟩ : ∃ δ, 0 < δ ∧ 1 * δ < 1 ∧ (4 * M ^ 2 + 9) * δ < κ / 2 ∧ 25 * M * δ < θ ∧ 1400 * M * δ < ρ / 2 ∧ 100 * M * δ < ε / 2 ∧ 50 * M * δ < A :=
    (Filter.Eventually.and (show ∀ᶠ δ in nhdsWithin (0:ℝ) (Set.Ioi 0), 0 < δ from self_mem_nhdsWithin) ((small one_pos).and ((small (half_pos hκ0)).and ((small hθ0).and ((small (half_pos hρ)).and ((small (half_pos hε)).and (small hA))))))).exists
  refine ⟨δ, hδ0, fun p gap m r h hf h0 h1 hy hg R hh => ?_⟩
  have hx01 : p.x0 < p.x1 := by rw [h0]; exact h1
  have hyne : p.y0 ≠ [] := by rw [hy]; simp
  obtain ⟨c1, c2, -, -⟩ := rk45_steps hg R hx01 hyne
  rw [hf, h0, hy] at c1
  have le : ∀ {K : ℝ}, 0 ≤ K → K * h ≤ K * δ := fun hK => mul_le_mul_of_nonneg_left hh hK
  have hMM : 0 ≤ M * δ := by positivity
  have main : ∀ e', e ≤ e' → ∀ l l', r.steps = l ++ l' → (∀ s ∈ l, s.t ≤ x1) → StepsAtMost h x0 l → StaysWithin (fun x => [φ x]) 1 (e' + 100 * M * δ) x0 l := by
    intro e' he' l l' hll hlx hmax
    rw [hll] at c1
    replace c1 := c1.take
    rcases l with _ | ⟨s, l⟩
    · trivial
    · have hh0 : 0 ≤ h := by
        have := c1.1; have := hmax.1
        linarith
      refine errors_add_up P hρ.le hL hM hθ hη0.le he0.le (h := h) (κ := κ) ?_ ?_ ?_ hκ0.le ?_ hκe.le ?_ (s :: l) x0 (φ x0) c1 hlx le_rfl hx.le hmax (by simp)
      · linarith [le (K := 26 * M) (by positivity)]
      · nlinarith
      · linarith [le (K := 25 * M) (by positivity)]
      · have a1 := le (K := 4 * M ^ 2 + 9) (by positivity)
        have a2 : η * (M * h) ≤ η * M := mul_le_mul_of_nonneg_left (mul_le_of_le_one_right hM0 (by linarith)) hη0.le
        have a3 : η ^ 2 * h ≤ h := mul_le_of_le_one_left hh0 (pow_le_one₀ hη0.le hη1)
        nlinarith
      · linarith [le (K := 100 * M) (by positivity)]
  refine ⟨fun l l' k1 k2 k3 => (main e le_rfl l l' k1 k2 k3).weaken (by linarith) _ _, fun hmax ha hgap msg hfail => ?_⟩
  obtain ⟨q, q0, q1, q2, yN, k, dp, q3⟩ := rk45_failure hg R hx01 hyne msg hfail
  rw [h0, hy] at q1 q2 dp q3
  by_contra hno
  have hax : (lastPt (x0, [φ x0]) r.steps).1 + q ≤ x1 := not_lt.1 fun h => hno ⟨q, q2, q1, h⟩
  have stay := main e le_rfl r.steps [] (by simp) (fun s hs => by linarith [c1.le_last.2 s hs]) hmax
  clear hno
  obtain ⟨l1, l2, l3⟩ := StaysWithin.last (x0 := x0) r.steps (x0, [φ x0]) c1 stay le_rfl rfl (fun j => by
    rw [sub_self, abs_zero]; positivity)
  rw [hf] at dp
  generalize lastPt (x0, [φ x0]) r.steps = a at q1 q2 dp q3 l1 l2 l3 hax
  obtain ⟨t, y⟩ := a
  obtain ⟨y, rfl⟩ := List.length_eq_one_iff.1 l2
  have hga := hgap t ⟨l1, by change t + q ≤ x1 at hax; linarith⟩
  change q < 50 * gap t 1 at q2
  change t + q ≤ x1 at hax
  change x0 ≤ t at l1
  have hq : q < 50 * δ := by linarith
  have hMq : M * q ≤ M * (50 * δ) := mul_le_mul_of_nonneg_left hq.le hM0
  have hye : |y - φ t| ≤ e + 100 * M * δ := l3 0
  have sl : ∀ i, |(k i).getD 0 0| ≤ M := fun i => by
    obtain ⟨s, w, m, -, -, a3, a4⟩ := stages P hρ.le hM l1 q0.le hax hye (by linarith) dp i
    rw [a4]
    exact hM s m w a3
  refine absurd q3 (not_le.2 ?_)
  have hatol : 0 < p.atol := hA.trans_le ha
  have hr : 0 ≤ effectiveRtol p.rtol := le_max_of_le_right (by norm_num)
  have hs : p.atol ≤ p.atol + effectiveRtol p.rtol * max |y| |yN.getD 0 0| := by
    have := mul_nonneg hr (le_max_of_le_left (abs_nonneg y) : 0 ≤ max |y| |yN.getD 0 0|)
    linarith
  have hd : |dpError q k 0| ≤ q * M := by
    unfold dpError
    rw [abs_mul, abs_of_pos q0]
    refine mul_le_mul_of_nonneg_left ?_ q0.le
    have k0 := abs_le.1 (sl 0); have k2 := abs_le.1 (sl 2); have k3 := abs_le.1 (sl 3); have k4 := abs_le.1 (sl 4)
    have k5 := abs_le.1 (sl 5); have k6 := abs_le.1 (sl 6)
    rw [abs_le]; constructor <;> linarith [k0.1, k0.2, k2.1, k2.2, k3.1, k3.2, k4.1, k4.2, k5.1, k5.2, k6.1, k6.2]
  simp only [List.length_singleton, Finset.sum_range_one, List.getD_cons_zero, Nat.cast_one]
  rw [sq_lt_one_iff_abs_lt_one, abs_div, abs_of_pos (hatol.trans_le hs), div_lt_one (hatol.trans_le hs)]
  linarith

end IBL
