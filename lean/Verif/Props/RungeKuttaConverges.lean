import Verif.Props.RungeKuttaOrder
import Verif.Props.RungeKuttaSuccess

/-!
C135: RK45 converges for every equation whose right hand side is Lipschitz continuous near the exact solution.
-/

namespace IBL
open SolveIvp RungeKutta

/-! ### Specification -/

/-- `φ` solves `y' = f(x, y)` on `[x0, x1]`; its slope `g` changes by at most `D` per unit length, and the slope at states that are not more than `ρ` away from
`φ` differs from that of `φ` by at most `L` times the distance. -/
structure SmoothPath (f : ℝ → List ℝ → Except Exc (List ℝ)) (φ g : ℝ → List ℝ) (n : ℕ) (x0 x1 D L ρ : ℝ) : Prop where
  size : ∀ t ∈ Set.Icc x0 x1, (φ t).length = n
  slope : ∀ t ∈ Set.Icc x0 x1, f t (φ t) = .ok (g t)
  solves : ∀ t ∈ Set.Icc x0 x1, ∀ j, HasDerivWithinAt (fun s => (φ s).getD j 0) ((g t).getD j 0) (Set.Icc x0 x1) t
  steady : ∀ s ∈ Set.Icc x0 x1, ∀ t ∈ Set.Icc x0 x1, ∀ j, |(g s).getD j 0 - (g t).getD j 0| ≤ D * |s - t|
  near : ∀ t ∈ Set.Icc x0 x1, ∀ y v δ, y.length = n → δ ≤ ρ → (∀ j, |y.getD j 0 - (φ t).getD j 0| ≤ δ) → f t y = .ok v →
    ∀ j, |v.getD j 0 - (g t).getD j 0| ≤ L * δ

/-- Along all steps the interpolants are within `e` of `φ`, component by component. -/
def StaysWithin (φ : ℝ → List ℝ) (n : ℕ) (e : ℝ) : ℝ → List (Step ℝ) → Prop
  | _, [] => True
  | t, s :: l => (∀ x ∈ Set.Icc t s.t, (s.dense x).length = n ∧ ∀ j, |(s.dense x).getD j 0 - (φ x).getD j 0| ≤ e) ∧ StaysWithin φ n e s.t l

/-- Steps of RK45 from the initial value of `φ` stay as close to `φ` as a constant times the longest of them, up to `x1` and as soon as they are all short enough;
and RK45 does not give up, unless it is about to pass `x1`, if the distance of adjacent floats is small enough. -/
def Tracks (f : ℝ → List ℝ → Except Exc (List ℝ)) (φ : ℝ → List ℝ) (n : ℕ) (x0 x1 : ℝ) : Prop :=
    ∃ C, 0 < C ∧ ∀ (p : IvpProblem ℝ) (gap : ℝ → ℝ → ℝ) (m : ℝ) (r : Run ℝ) (h : ℝ), p.rhs = f → p.x0 = x0 → x0 < p.x1 → p.y0 = φ x0 →
      Spaced gap m → Runs gap p r → C * h ≤ 1 →
      (∀ l l', r.steps = l ++ l' → (∀ s ∈ l, s.t ≤ x1) → StepsAtMost h x0 l → StaysWithin φ n (C * h) x0 l) ∧
      (StepsAtMost h x0 r.steps → 0 < p.atol → (∀ t ∈ Set.Icc x0 x1, C * gap t 1 ≤ min 1 p.atol) → ∀ msg, r.ending = .failed msg →
        ∃ q, q < 50 * gap (lastPt (x0, φ x0) r.steps).1 1 ∧ (lastPt (x0, φ x0) r.steps).1 + q ≤ p.x1 ∧ x1 < (lastPt (x0, φ x0) r.steps).1 + q)

/-- Steps of RK45 from the initial value of `φ` stay as close to `φ` as one likes, up to `x1` and if they are all short enough; and RK45 does not give up, unless it is
about to pass `x1`, if the distance of adjacent floats is small enough. -/
def Approaches (f : ℝ → List ℝ → Except Exc (List ℝ)) (φ : ℝ → List ℝ) (n : ℕ) (x0 x1 : ℝ) : Prop :=
    ∀ ε A, 0 < ε → 0 < A → ∃ δ, 0 < δ ∧ ∀ (p : IvpProblem ℝ) (gap : ℝ → ℝ → ℝ) (m : ℝ) (r : Run ℝ) (h : ℝ), p.rhs = f → p.x0 = x0 → x0 < p.x1 → p.y0 = φ x0 →
      Spaced gap m → Runs gap p r → h ≤ δ →
      (∀ l l', r.steps = l ++ l' → (∀ s ∈ l, s.t ≤ x1) → StepsAtMost h x0 l → StaysWithin φ n ε x0 l) ∧
      (StepsAtMost h x0 r.steps → A ≤ p.atol → (∀ t ∈ Set.Icc x0 x1, gap t 1 ≤ δ) → ∀ msg, r.ending = .failed msg →
        ∃ q, q < 50 * gap (lastPt (x0, φ x0) r.steps).1 1 ∧ (lastPt (x0, φ x0) r.steps).1 + q ≤ p.x1 ∧ x1 < (lastPt (x0, φ x0) r.steps).1 + q)

/-! ### One step -/

section
variable {f : ℝ → List ℝ → Except Exc (List ℝ)} {φ g : ℝ → List ℝ} {n : ℕ} {x0 x1 D L ρ M : ℝ}

theorem SmoothPath.change (P : SmoothPath f φ g n x0 x1 D L ρ) (hM : ∀ t ∈ Set.Icc x0 x1, ∀ j, |(g t).getD j 0| ≤ M) {t r : ℝ} (ht : x0 ≤ t) (hr : 0 ≤ r)
    (h1 : t + r ≤ x1) (j : ℕ) : |(φ (t + r)).getD j 0 - (φ t).getD j 0| ≤ M * r := by
  have := (convex_Icc x0 x1).norm_image_sub_le_of_norm_hasDerivWithin_le (f := fun s => (φ s).getD j 0) (f' := fun s => (g s).getD j 0) (C := M)
    (x := t) (y := t + r) (fun s hs => P.solves s hs j) (fun s hs => hM s hs j) ⟨ht, by linarith⟩ ⟨by linarith, h1⟩
  simpa [Real.norm_eq_abs, abs_of_nonneg hr] using this

private theorem path_tangent (P : SmoothPath f φ g n x0 x1 D L ρ) (hD : 0 ≤ D) {t r : ℝ} (ht : x0 ≤ t) (hr : 0 ≤ r) (h1 : t + r ≤ x1) (j : ℕ) :
    |(φ (t + r)).getD j 0 - (φ t).getD j 0 - r * (g t).getD j 0| ≤ D * r * r := by
  have sub : Set.Icc t (t + r) ⊆ Set.Icc x0 x1 := Set.Icc_subset_Icc ht h1
  have := (convex_Icc t (t + r)).norm_image_sub_le_of_norm_hasDerivWithin_le (f := fun s => (φ s).getD j 0 - s * (g t).getD j 0)
    (f' := fun s => (g s).getD j 0 - (g t).getD j 0) (C := D * r) (x := t) (y := t + r)
    (fun s hs => (((P.solves s (sub hs) j).mono sub).sub ((hasDerivWithinAt_id s _).mul_const _)).congr_deriv (by simp))
    (fun s hs => by
      rw [Real.norm_eq_abs]
      refine (P.steady s (sub hs) t ⟨ht, by linarith⟩ j).trans (mul_le_mul_of_nonneg_left ?_ hD)
      rw [abs_of_nonneg (by linarith [hs.1])]; linarith [hs.2]) ⟨le_rfl, by linarith⟩ ⟨by linarith, le_rfl⟩
  rw [Real.norm_eq_abs, Real.norm_eq_abs, add_sub_cancel_left, abs_of_nonneg hr] at this
  refine le_trans (le_of_eq ?_) this
  congr 1; ring

/-- A slope evaluated at a state close to the path. -/
private theorem stage_close (P : SmoothPath f φ g n x0 x1 D L ρ) (hM : ∀ t ∈ Set.Icc x0 x1, ∀ j, |(g t).getD j 0| ≤ M) (hM0 : 0 ≤ M) (hL : 0 ≤ L) (hD : 0 ≤ D)
    {t h e G θ : ℝ} {y w k : List ℝ} (ht : x0 ≤ t) (hh : 0 ≤ h) (h1 : t + h ≤ x1) (he : ∀ j, |y.getD j 0 - (φ t).getD j 0| ≤ e) (hn : w.length = n)
    (hG : 1 ≤ G) (hθ : 0 ≤ θ) (hθ1 : θ ≤ 1) (hρ : (26 + 25 * L * (x1 - x0)) * G * (e + h * M) ≤ ρ)
    (hw : ∀ j, |w.getD j 0 - y.getD j 0| ≤ h * (25 * (M + L * (G * (e + h * M))))) (hk : f (t + θ * h) w = .ok k) (j : ℕ) :
    |k.getD j 0 - (g t).getD j 0| ≤ D * h + L * ((26 + 25 * L * (x1 - x0)) * G * (e + h * M)) ∧
      |k.getD j 0| ≤ M + L * ((26 + 25 * L * (x1 - x0)) * G * (e + h * M)) := by
  have hθh : 0 ≤ θ * h := mul_nonneg hθ hh
  have hθh1 : θ * h ≤ h := mul_le_of_le_one_left hh hθ1
  have he0 : 0 ≤ e := (abs_nonneg _).trans (he 0)
  have hhx : h ≤ x1 - x0 := by linarith
  have hB : 0 ≤ e + h * M := by positivity
  have hGB : e + h * M ≤ G * (e + h * M) := le_mul_of_one_le_left hB hG
  have mem : t + θ * h ∈ Set.Icc x0 x1 := ⟨by linarith, by linarith⟩
  have dist : ∀ j, |w.getD j 0 - (φ (t + θ * h)).getD j 0| ≤ (26 + 25 * L * (x1 - x0)) * G * (e + h * M) := fun j => by
    have a1 := SmoothPath.change P hM ht hθh (by linarith) j
    have a2 := hw j
    have a3 := he j
    have a4 : M * (θ * h) ≤ M * h := mul_le_mul_of_nonneg_left hθh1 hM0
    have a5 : h * (L * (G * (e + h * M))) ≤ (x1 - x0) * (L * (G * (e + h * M))) := mul_le_mul_of_nonneg_right hhx (by positivity)
    have a6 : 0 ≤ h * M := by positivity
    rw [abs_le] at a1 a2 a3 ⊢
    constructor <;> nlinarith [a1.1, a1.2, a2.1, a2.2, a3.1, a3.2]
  have h2 := P.near _ mem w k _ hn hρ dist hk j
  have h3 := P.steady _ mem t ⟨ht, by linarith⟩ j
  rw [add_sub_cancel_left, abs_of_nonneg hθh] at h3
  have h4 := hM _ mem j
  have h5 := mul_le_mul_of_nonneg_left hθh1 hD
  rw [abs_le] at h2 h3 h4
  constructor <;> rw [abs_le] <;> constructor <;> linarith [h2.1, h2.2, h3.1, h3.2, h4.1, h4.2]

private theorem slopes_close (P : SmoothPath f φ g n x0 x1 D L ρ) (hM : ∀ t ∈ Set.Icc x0 x1, ∀ j, |(g t).getD j 0| ≤ M) (hM0 : 0 ≤ M) (hL : 0 ≤ L) (hD : 0 ≤ D)
    {t h e : ℝ} {y yN : List ℝ} {k : Fin 7 → List ℝ} (ht : x0 ≤ t) (hh : 0 ≤ h) (h1 : t + h ≤ x1) (hn : y.length = n)
    (he : ∀ j, |y.getD j 0 - (φ t).getD j 0| ≤ e) (hρ : (26 + 25 * L * (x1 - x0)) ^ 7 * (e + h * M) ≤ ρ) (dp : DormandPrince f t h y yN k) (i : Fin 7) (j : ℕ) :
    |(k i).getD j 0 - (g t).getD j 0| ≤ D * h + L * ((26 + 25 * L * (x1 - x0)) ^ 7 * (e + h * M)) := by
  have he0 : 0 ≤ e := (abs_nonneg _).trans (he 0)
  have hB : 0 ≤ e + h * M := by positivity
  have hX : 0 ≤ x1 - x0 := by linarith
  have sc := fun {G θ : ℝ} {w k : List ℝ} => stage_close P hM hM0 hL hD (G := G) (θ := θ) (w := w) (k := k) ht hh h1 he
  obtain ⟨K, hK⟩ : ∃ K, K = 26 + 25 * L * (x1 - x0) := ⟨_, rfl⟩
  have hK1 : 1 ≤ K := by rw [hK]; nlinarith [mul_nonneg hL hX]
  rw [← hK] at hρ ⊢
  simp only [← hK] at sc
  generalize hBe : e + h * M = B at *
  -- powers of K
  have mono : ∀ a b : ℕ, a ≤ b → L * (K ^ a * B) ≤ L * (K ^ b * B) := fun a b hab =>
    mul_le_mul_of_nonneg_left (mul_le_mul_of_nonneg_right (pow_le_pow_right₀ hK1 hab) hB) hL
  have ok : ∀ a : ℕ, a < 7 → K * K ^ a * B ≤ ρ := fun a ha => by
    rw [← pow_succ']
    exact (mul_le_mul_of_nonneg_right (pow_le_pow_right₀ hK1 ha) hB).trans hρ
  have one : ∀ a : ℕ, 1 ≤ K ^ a := fun a => one_le_pow₀ hK1
  -- the first slope
  have s1 : ∀ j, |(k 0).getD j 0 - (g t).getD j 0| ≤ D * h + L * (K ^ 1 * B) ∧ |(k 0).getD j 0| ≤ M + L * (K ^ 1 * B) := fun j => by
    have := sc (G := K ^ 0) (θ := 0) (w := y) (k := k 0) hn (one 0) le_rfl zero_le_one (ok 0 (by norm_num)) (fun j => by
      rw [sub_self, abs_zero]; positivity) (by rw [zero_mul, add_zero]; exact dp.k1) j
    rwa [← pow_succ'] at this
  have up : ∀ {v : List ℝ} {a b : ℕ}, a ≤ b → (∀ j, |v.getD j 0 - (g t).getD j 0| ≤ D * h + L * (K ^ a * B) ∧ |v.getD j 0| ≤ M + L * (K ^ a * B)) →
      ∀ j, |v.getD j 0 - (g t).getD j 0| ≤ D * h + L * (K ^ b * B) ∧ |v.getD j 0| ≤ M + L * (K ^ b * B) := fun hab hv j =>
    ⟨(hv j).1.trans (by linarith [mono _ _ hab]), (hv j).2.trans (by linarith [mono _ _ hab])⟩
  have next : ∀ {a : ℕ} (b : ℕ) {θ : ℝ} {v : List ℝ}, b = a + 1 → a < 7 → 0 ≤ θ → θ ≤ 1 → (∃ w, f (t + θ * h) w = .ok v ∧ w.length = y.length ∧
      ∀ j, ∃ c, w.getD j 0 = y.getD j 0 + h * c ∧ |c| ≤ 25 * (M + L * (K ^ a * B))) →
      ∀ j, |v.getD j 0 - (g t).getD j 0| ≤ D * h + L * (K ^ b * B) ∧ |v.getD j 0| ≤ M + L * (K ^ b * B) := by
    rintro a _ θ v rfl ha hθ hθ1 ⟨w, w1, w2, w3⟩ j
    have := sc (G := K ^ a) (θ := θ) (w := w) (k := v) (w2.trans hn) (one a) hθ hθ1 (ok a ha) (fun j => by
      obtain ⟨c, c1, c2⟩ := w3 j
      rw [c1, add_sub_cancel_left, abs_mul, abs_of_nonneg hh]
      exact mul_le_mul_of_nonneg_left c2 hh) w1 j
    rwa [← pow_succ'] at this
  have s2 := next (a := 1) 2 (θ := 1/5) (v := k 1) rfl (by norm_num) (by norm_num) (by norm_num) (by
    obtain ⟨w, w1, w2, w3⟩ := dp.k2
    refine ⟨w, by rw [← w1]; congr 1; ring, w2, fun j => ⟨_, w3 j, ?_⟩⟩
    have b0 := abs_le.1 (s1 j).2
    rw [abs_le]; constructor <;> linarith [b0.1, b0.2])
  have s3 := next (a := 2) 3 (θ := 3/10) (v := k 2) rfl (by norm_num) (by norm_num) (by norm_num) (by
    obtain ⟨w, w1, w2, w3⟩ := dp.k3
    refine ⟨w, w1, w2, fun j => ⟨_, w3 j, ?_⟩⟩
    have b0 := abs_le.1 (up (b := 2) (by norm_num) s1 j).2
    have b1 := abs_le.1 (s2 j).2
    rw [abs_le]; constructor <;> linarith [b0.1, b0.2, b1.1, b1.2])
  have s4 := next (a := 3) 4 (θ := 4/5) (v := k 3) rfl (by norm_num) (by norm_num) (by norm_num) (by
    obtain ⟨w, w1, w2, w3⟩ := dp.k4
    refine ⟨w, w1, w2, fun j => ⟨_, w3 j, ?_⟩⟩
    have b0 := abs_le.1 (up (b := 3) (by norm_num) s1 j).2
    have b1 := abs_le.1 (up (b := 3) (by norm_num) s2 j).2
    have b2 := abs_le.1 (s3 j).2
    rw [abs_le]; constructor <;> linarith [b0.1, b0.2, b1.1, b1.2, b2.1, b2.2])
  have s5 := next (a := 4) 5 (θ := 8/9) (v := k 4) rfl (by norm_num) (by norm_num) (by norm_num) (by
    obtain ⟨w, w1, w2, w3⟩ := dp.k5
    refine ⟨w, w1, w2, fun j => ⟨_, w3 j, ?_⟩⟩
    have b0 := abs_le.1 (up (b := 4) (by norm_num) s1 j).2
    have b1 := abs_le.1 (up (b := 4) (by norm_num) s2 j).2
    have b2 := abs_le.1 (up (b := 4) (by norm_num) s3 j).2
    have b3 := abs_le.1 (s4 j).2
    rw [abs_le]; constructor <;> linarith [b0.1, b0.2, b1.1, b1.2, b2.1, b2.2, b3.1, b3.2])
  have s6 := next (a := 5) 6 (θ := 1) (v := k 5) rfl (by norm_num) (by norm_num) (by norm_num) (by
    obtain ⟨w, w1, w2, w3⟩ := dp.k6
    refine ⟨w, by rw [one_mul]; exact w1, w2, fun j => ⟨_, w3 j, ?_⟩⟩
    have b0 := abs_le.1 (up (b := 5) (by norm_num) s1 j).2
    have b1 := abs_le.1 (up (b := 5) (by norm_num) s2 j).2
    have b2 := abs_le.1 (up (b := 5) (by norm_num) s3 j).2
    have b3 := abs_le.1 (up (b := 5) (by norm_num) s4 j).2
    have b4 := abs_le.1 (s5 j).2
    rw [abs_le]; constructor <;> linarith [b0.1, b0.2, b1.1, b1.2, b2.1, b2.2, b3.1, b3.2, b4.1, b4.2])
  have s7 := next (a := 6) 7 (θ := 1) (v := k 6) rfl (by norm_num) (by norm_num) (by norm_num) (by
    refine ⟨yN, by rw [one_mul]; exact dp.k7, dp.size.1, fun j => ⟨_, dp.new j, ?_⟩⟩
    have b0 := abs_le.1 (up (b := 6) (by norm_num) s1 j).2
    have b2 := abs_le.1 (up (b := 6) (by norm_num) s3 j).2
    have b3 := abs_le.1 (up (b := 6) (by norm_num) s4 j).2
    have b4 := abs_le.1 (up (b := 6) (by norm_num) s5 j).2
    have b5 := abs_le.1 (s6 j).2
    rw [abs_le]; constructor <;> linarith [b0.1, b0.2, b2.1, b2.2, b3.1, b3.2, b4.1, b4.2, b5.1, b5.2])
  fin_cases i
  exacts [(up (b := 7) (by norm_num) s1 j).1, (up (b := 7) (by norm_num) s2 j).1, (up (b := 7) (by norm_num) s3 j).1, (up (b := 7) (by norm_num) s4 j).1,
    (up (b := 7) (by norm_num) s5 j).1, (up (b := 7) (by norm_num) s6 j).1, (s7 j).1]

set_option maxHeartbeats 2000000 in
/-- The error at the end of a step and along its interpolant. -/
theorem SmoothPath.step_error (P : SmoothPath f φ g n x0 x1 D L ρ) (hM : ∀ t ∈ Set.Icc x0 x1, ∀ j, |(g t).getD j 0| ≤ M) (hM0 : 0 ≤ M) (hL : 0 ≤ L) (hD : 0 ≤ D)
    {t h e Γ : ℝ} {y yN : List ℝ} {k : Fin 7 → List ℝ} (ht : x0 ≤ t) (hh : 0 ≤ h) (h1 : t + h ≤ x1) (hn : y.length = n)
    (he : ∀ j, |y.getD j 0 - (φ t).getD j 0| ≤ e) (hΓ : Γ = (26 + 25 * L * (x1 - x0)) ^ 7) (hρ : Γ * (e + h * M) ≤ ρ) (dp : DormandPrince f t h y yN k) (j : ℕ) :
    |yN.getD j 0 - (φ (t + h)).getD j 0| ≤ e + h * (2 * (D * h + L * (Γ * (e + h * M)))) + D * h * h ∧
      ∀ s, 0 ≤ s → s ≤ 1 → |y.getD j 0 + dpInterpolant h s k j - (φ (t + s * h)).getD j 0| ≤ e + h * (100 * (D * h + L * (Γ * (e + h * M)))) + D * h * h := by
  rw [hΓ] at hρ
  have sl := fun i => slopes_close P hM hM0 hL hD ht hh h1 hn he hρ dp i j
  rw [← hΓ] at sl
  generalize D * h + L * (Γ * (e + h * M)) = κ at sl
  have k0 := abs_le.1 (sl 0); have k2 := abs_le.1 (sl 2); have k3 := abs_le.1 (sl 3); have k4 := abs_le.1 (sl 4)
  have k5 := abs_le.1 (sl 5); have k6 := abs_le.1 (sl 6)
  have he' := abs_le.1 (he j)
  constructor
  · have t1 := abs_le.1 (path_tangent P hD ht hh h1 j)
    rw [dp.new j]
    have c : |35/384 * (k 0).getD j 0 + 500/1113 * (k 2).getD j 0 + 125/192 * (k 3).getD j 0 - 2187/6784 * (k 4).getD j 0
        + 11/84 * (k 5).getD j 0 - (g t).getD j 0| ≤ 2 * κ := by
      rw [abs_le]; constructor <;> linarith [k0.1, k0.2, k2.1, k2.2, k3.1, k3.2, k4.1, k4.2, k5.1, k5.2]
    have c' := abs_le.1 (show |h * (35/384 * (k 0).getD j 0 + 500/1113 * (k 2).getD j 0 + 125/192 * (k 3).getD j 0 - 2187/6784 * (k 4).getD j 0
        + 11/84 * (k 5).getD j 0 - (g t).getD j 0)| ≤ h * (2 * κ) by rw [abs_mul, abs_of_nonneg hh]; exact mul_le_mul_of_nonneg_left c hh)
    rw [abs_le]; constructor <;> linarith [c'.1, c'.2, t1.1, t1.2, he'.1, he'.2]
  · intro s hs hs1
    have hsh : s * h ≤ h := mul_le_of_le_one_left hh hs1
    have t1 := abs_le.1 (path_tangent P hD ht (mul_nonneg hs hh) (by linarith) j)
    have t2 : D * (s * h) * (s * h) ≤ D * h * h := mul_le_mul (mul_le_mul_of_nonneg_left hsh hD) hsh (mul_nonneg hs hh) (mul_nonneg hD hh)
    have p2 : s ^ 2 ∈ Set.Icc (0:ℝ) 1 := ⟨by positivity, pow_le_one₀ hs hs1⟩
    have p3 : s ^ 3 ∈ Set.Icc (0:ℝ) 1 := ⟨by positivity, pow_le_one₀ hs hs1⟩
    have p4 : s ^ 4 ∈ Set.Icc (0:ℝ) 1 := ⟨by positivity, pow_le_one₀ hs hs1⟩
    have κ0 : 0 ≤ κ := (abs_nonneg _).trans (sl 0)
    have w : ∀ {a b c : ℝ} {v : List ℝ} (C : ℝ), |a| + |b| + |c| ≤ C → |v.getD j 0 - (g t).getD j 0| ≤ κ →
        |(a * s ^ 2 + b * s ^ 3 + c * s ^ 4) * (v.getD j 0 - (g t).getD j 0)| ≤ C * κ := fun {a b c v} C hC hv => by
      rw [abs_mul]
      refine mul_le_mul (le_trans ?_ hC) hv (abs_nonneg _) ((by positivity : (0:ℝ) ≤ |a| + |b| + |c|).trans hC)
      refine (abs_add_three _ _ _).trans ?_
      simp only [abs_mul, abs_of_nonneg p2.1, abs_of_nonneg p3.1, abs_of_nonneg p4.1]
      nlinarith [mul_le_mul_of_nonneg_left p2.2 (abs_nonneg a), mul_le_mul_of_nonneg_left p3.2 (abs_nonneg b), mul_le_mul_of_nonneg_left p4.2 (abs_nonneg c)]
    have id : dpInterpolant h s k j - s * h * (g t).getD j 0 = h * (s * ((k 0).getD j 0 - (g t).getD j 0)
        + (-8048581381/2820520608 * s ^ 2 + 8663915743/2820520608 * s ^ 3 + -12715105075/11282082432 * s ^ 4) * ((k 0).getD j 0 - (g t).getD j 0)
        + (131558114200/32700410799 * s ^ 2 + -68118460800/10900136933 * s ^ 3 + 87487479700/32700410799 * s ^ 4) * ((k 2).getD j 0 - (g t).getD j 0)
        + (-1754552775/470086768 * s ^ 2 + 14199869525/1410260304 * s ^ 3 + -10690763975/1880347072 * s ^ 4) * ((k 3).getD j 0 - (g t).getD j 0)
        + (127303824393/49829197408 * s ^ 2 + -318862633887/49829197408 * s ^ 3 + 701980252875/199316789632 * s ^ 4) * ((k 4).getD j 0 - (g t).getD j 0)
        + (-282668133/205662961 * s ^ 2 + 2019193451/616988883 * s ^ 3 + -1453857185/822651844 * s ^ 4) * ((k 5).getD j 0 - (g t).getD j 0)
        + (40617522/29380423 * s ^ 2 + -110615467/29380423 * s ^ 3 + 69997945/29380423 * s ^ 4) * ((k 6).getD j 0 - (g t).getD j 0)) := by
      unfold dpInterpolant
      ring
    have v0 := abs_le.1 (w (a := -8048581381/2820520608) (b := 8663915743/2820520608) (c := -12715105075/11282082432) 8 (by norm_num [abs_of_pos, abs_of_neg]) (sl 0))
    have v2 := abs_le.1 (w (a := 131558114200/32700410799) (b := -68118460800/10900136933) (c := 87487479700/32700410799) 14 (by norm_num [abs_of_pos, abs_of_neg]) (sl 2))
    have v3 := abs_le.1 (w (a := -1754552775/470086768) (b := 14199869525/1410260304) (c := -10690763975/1880347072) 20 (by norm_num [abs_of_pos, abs_of_neg]) (sl 3))
    have v4 := abs_le.1 (w (a := 127303824393/49829197408) (b := -318862633887/49829197408) (c := 701980252875/199316789632) 13 (by norm_num [abs_of_pos, abs_of_neg]) (sl 4))
    have v5 := abs_le.1 (w (a := -282668133/205662961) (b := 2019193451/616988883) (c := -1453857185/822651844) 7 (by norm_num [abs_of_pos, abs_of_neg]) (sl 5))
    have v6 := abs_le.1 (w (a := 40617522/29380423) (b := -110615467/29380423) (c := 69997945/29380423) 8 (by norm_num [abs_of_pos, abs_of_neg]) (sl 6))
    have v1 : |s * ((k 0).getD j 0 - (g t).getD j 0)| ≤ 1 * κ := by
      rw [abs_mul, abs_of_nonneg hs]; exact mul_le_mul hs1 (sl 0) (abs_nonneg _) zero_le_one
    have v1 := abs_le.1 v1
    have c' : |dpInterpolant h s k j - s * h * (g t).getD j 0| ≤ h * (100 * κ) := by
      rw [id, abs_mul, abs_of_nonneg hh]
      refine mul_le_mul_of_nonneg_left ?_ hh
      rw [abs_le]
      constructor <;> linarith [v0.1, v0.2, v1.1, v1.2, v2.1, v2.2, v3.1, v3.2, v4.1, v4.2, v5.1, v5.2, v6.1, v6.2]
    have c' := abs_le.1 c'
    rw [abs_le]; constructor <;> linarith [c'.1, c'.2, t1.1, t1.2, he'.1, he'.2]

/-! ### All steps -/

private theorem errors_add_up (P : SmoothPath f φ g n x0 x1 D L ρ) (hM : ∀ t ∈ Set.Icc x0 x1, ∀ j, |(g t).getD j 0| ≤ M) (hM0 : 0 ≤ M) (hL : 0 ≤ L) (hD : 0 ≤ D)
    {h Γ Λ Q C E atol rtol : ℝ} (hΓ : Γ = (26 + 25 * L * (x1 - x0)) ^ 7) (hΓ0 : 0 ≤ Γ) (hΛ : Λ = 2 * L * Γ) (hQ : Q = 3 * D + 2 * L * Γ * M)
    (hC : C = Real.exp (Λ * (x1 - x0)) * (Q * (x1 - x0))) (hρ : Γ * (C + M) * h ≤ ρ)
    (hE : E = C + 100 * (x1 - x0) * (D + L * Γ * (C + M)) + D * (x1 - x0)) :
    ∀ (l : List (Step ℝ)) (a : ℝ × List ℝ), DpSteps f atol rtol a l → (∀ s ∈ l, s.t ≤ x1) → x0 ≤ a.1 → a.1 ≤ x1 → a.2.length = n → StepsAtMost h a.1 l →
      (∀ j, |a.2.getD j 0 - (φ a.1).getD j 0| ≤ Real.exp (Λ * (a.1 - x0)) * (Q * h * (a.1 - x0))) → StaysWithin φ n (E * h) a.1 l
  | [], _, _, _, _, _, _, _, _ => trivial
  | s :: l, a, ⟨h1, _, _, ⟨k, dp, _, hd⟩, h5⟩, hx1, ht0, ht1, hn, ⟨m1, m2⟩, hy => by
    have hs1 := hx1 s (by simp)
    have hpos : 0 < s.t - a.1 := by linarith
    have hh : 0 < h := hpos.trans_le m1
    have hX : 0 ≤ x1 - x0 := by linarith
    have hΛ0 : 0 ≤ Λ := by rw [hΛ]; positivity
    have hQ0 : 0 ≤ Q := by rw [hQ]; positivity
    have hC0 : 0 ≤ C := by rw [hC]; positivity
    obtain ⟨e, he⟩ : ∃ e, e = Real.exp (Λ * (a.1 - x0)) * (Q * h * (a.1 - x0)) := ⟨_, rfl⟩
    rw [← he] at hy
    have he0 : 0 ≤ e := (abs_nonneg _).trans (hy 0)
    have heC : e ≤ C * h := by
      rw [he, hC]
      calc _ ≤ Real.exp (Λ * (x1 - x0)) * (Q * h * (x1 - x0)) := mul_le_mul (Real.exp_le_exp.2 (mul_le_mul_of_nonneg_left (by linarith) hΛ0))
            (mul_le_mul_of_nonneg_left (by linarith) (by positivity)) (mul_nonneg (by positivity) (by linarith)) (Real.exp_pos _).le
        _ = _ := by ring
    obtain ⟨r, hr⟩ : ∃ r, r = s.t - a.1 := ⟨_, rfl⟩
    rw [← hr] at hpos m1 dp hd
    have hst : s.t = a.1 + r := by rw [hr]; ring
    have hrM : e + r * M ≤ (C + M) * h := by
      have := mul_le_mul_of_nonneg_right m1 hM0
      linarith
    have hB0 : 0 ≤ e + r * M := by positivity
    have err := SmoothPath.step_error P hM hM0 hL hD ht0 hpos.le (by linarith) hn hy hΓ
      ((mul_le_mul_of_nonneg_left hrM hΓ0).trans (by rw [← mul_assoc]; exact hρ)) dp
    have hrX : r ≤ x1 - x0 := by linarith
    have hLΓ : 0 ≤ L * Γ := mul_nonneg hL hΓ0
    refine ⟨fun x hx => ?_, ?_⟩
    · obtain ⟨q, hq0, hq1, rfl⟩ : ∃ q, 0 ≤ q ∧ q ≤ 1 ∧ x = a.1 + q * r :=
        ⟨(x - a.1) / r, div_nonneg (by linarith [hx.1]) hpos.le, (div_le_one hpos).2 (by linarith [hx.2]), by field_simp; ring⟩
      refine ⟨(hd q).1.trans hn, fun j => ?_⟩
      rw [(hd q).2 j]
      refine ((err j).2 q hq0 hq1).trans ?_
      have b1 : D * r + L * (Γ * (e + r * M)) ≤ (D + L * Γ * (C + M)) * h := by
        have := mul_le_mul_of_nonneg_left hrM hLΓ
        have := mul_le_mul_of_nonneg_left m1 hD
        nlinarith
      have b2 : r * (100 * (D * r + L * (Γ * (e + r * M)))) ≤ (x1 - x0) * (100 * ((D + L * Γ * (C + M)) * h)) :=
        mul_le_mul hrX (mul_le_mul_of_nonneg_left b1 (by norm_num)) (by positivity) hX
      have b3 : D * r * r ≤ D * (x1 - x0) * h := mul_le_mul (mul_le_mul_of_nonneg_left hrX hD) m1 hpos.le (by positivity)
      rw [hE]
      linarith
    · refine errors_add_up P hM hM0 hL hD hΓ hΓ0 hΛ hQ hC hρ hE l s.pt h5 (fun q hq => hx1 q (by simp [hq])) (by show x0 ≤ s.t; linarith) hs1
        (dp.size.1.trans hn) m2 fun j => ?_
      have b0 := (err j).1
      rw [← hst] at b0
      refine b0.trans ?_
      show _ ≤ Real.exp (Λ * (s.t - x0)) * (Q * h * (s.t - x0))
      have b1 : e + r * (2 * (D * r + L * (Γ * (e + r * M)))) + D * r * r = (1 + Λ * r) * e + Q * r * r := by rw [hΛ, hQ]; ring
      have b2 : (1 + Λ * r) * e ≤ Real.exp (Λ * (s.t - x0)) * (Q * h * (a.1 - x0)) := by
        calc _ ≤ Real.exp (Λ * r) * e := mul_le_mul_of_nonneg_right (by linarith [Real.add_one_le_exp (Λ * r)]) he0
          _ = _ := by rw [he, ← mul_assoc, ← Real.exp_add, hst]; congr 2; ring
      have b3 : Q * r * r ≤ Real.exp (Λ * (s.t - x0)) * (Q * h * r) := by
        calc Q * r * r ≤ Q * h * r := mul_le_mul_of_nonneg_right (mul_le_mul_of_nonneg_left m1 hQ0) hpos.le
          _ ≤ _ := le_mul_of_one_le_left (by positivity) (Real.one_le_exp (mul_nonneg hΛ0 (by linarith)))
      rw [b1]
      have b4 : Real.exp (Λ * (s.t - x0)) * (Q * h * (s.t - x0)) =
          Real.exp (Λ * (s.t - x0)) * (Q * h * (a.1 - x0)) + Real.exp (Λ * (s.t - x0)) * (Q * h * r) := by rw [hr]; ring
      rw [b4]
      linarith

theorem StaysWithin.last {f : ℝ → List ℝ → Except Exc (List ℝ)} {φ : ℝ → List ℝ} {n : ℕ} {e x0 atol rtol : ℝ} : ∀ (l : List (Step ℝ)) (a : ℝ × List ℝ),
    DpSteps f atol rtol a l → StaysWithin φ n e a.1 l → x0 ≤ a.1 → a.2.length = n → (∀ j, |a.2.getD j 0 - (φ a.1).getD j 0| ≤ e) →
    x0 ≤ (lastPt a l).1 ∧ (lastPt a l).2.length = n ∧ ∀ j, |(lastPt a l).2.getD j 0 - (φ (lastPt a l).1).getD j 0| ≤ e
  | [], _, _, _, h0, h1, h2 => ⟨h0, h1, h2⟩
  | s :: l, a, ⟨h1, _, h3, _, h5⟩, ⟨w1, w2⟩, h0, _, _ => by
    have := w1 s.t ⟨h1.le, le_rfl⟩
    rw [h3] at this
    exact StaysWithin.last l s.pt h5 w2 (h0.trans h1.le) this.1 this.2

theorem StaysWithin.weaken {φ : ℝ → List ℝ} {n : ℕ} {a b : ℝ} (hab : a ≤ b) : ∀ (l : List (Step ℝ)) (t : ℝ), StaysWithin φ n a t l → StaysWithin φ n b t l
  | [], _, _ => trivial
  | _ :: l, _, ⟨k1, k2⟩ => ⟨fun x hx => ⟨(k1 x hx).1, fun j => ((k1 x hx).2 j).trans hab⟩, weaken hab l _ k2⟩

end

set_option maxHeartbeats 1000000 in
/-- **C135**, the steps: along a solution `φ` with slope of bounded change, near which the right hand side is Lipschitz continuous, every state that RK45
computes on the way to `x1'`, at the accepted points and in between, is within `C h` of the solution if no step is longer than `h` and `C h` is not larger
than 1. And if the numbers are so dense that `C` times their spacing exceeds neither 1 nor the absolute tolerance, RK45 does not give up. `C` depends on the
solution, the constants and the interval only. -/
theorem rk45_converges {f : ℝ → List ℝ → Except Exc (List ℝ)} {φ g : ℝ → List ℝ} {n : ℕ} {x0 x1 D L ρ : ℝ} (P : SmoothPath f φ g n x0 x1 D L ρ) (hρ : 0 < ρ)
    (hx : x0 < x1) (hn : n ≠ 0) : Tracks f φ n x0 x1 := by
  replace P : SmoothPath f φ g n x0 x1 |D| |L| ρ := ⟨P.size, P.slope, P.solves,
    fun s hs t ht j => (P.steady s hs t ht j).trans (mul_le_mul_of_nonneg_right (le_abs_self D) (abs_nonneg _)),
    fun t ht y v δ k1 k2 k3 k4 j => (P.near t ht y v δ k1 k2 k3 k4 j).trans (mul_le_mul_of_nonneg_right (le_abs_self L) ((abs_nonneg _).trans (k3 0)))⟩
  have hD := abs_nonneg D
  have hL := abs_nonneg L
  generalize |D| = D at P hD
  generalize |L| = L at P hL
  obtain ⟨Y, hY⟩ : ∃ Y, ∀ j, |(g x0).getD j 0| ≤ Y := by
    refine ⟨((g x0).map fun v => |v|).sum, fun j => ?_⟩
    rcases lt_or_ge j (g x0).length with hj | hj
    · rw [List.getD_eq_getElem?_getD, List.getElem?_eq_getElem hj, Option.getD_some]
      exact List.single_le_sum (by simp) _ (List.mem_map_of_mem (List.getElem_mem hj))
    · rw [List.getD_eq_getElem?_getD, List.getElem?_eq_none hj]
      simp only [Option.getD_none, abs_zero]
      exact List.sum_nonneg (by simp)
  have hY0 := (abs_nonneg _).trans (hY 0)
  have hX : 0 < x1 - x0 := by linarith
  obtain ⟨M, hM⟩ : ∃ M, M = Y + D * (x1 - x0) := ⟨_, rfl⟩
  have hM0 : 0 ≤ M := by rw [hM]; positivity
  obtain ⟨Γ, hΓ⟩ : ∃ Γ, Γ = (26 + 25 * L * (x1 - x0)) ^ 7 := ⟨_, rfl⟩
  have hΓ0 : 0 ≤ Γ := by rw [hΓ]; positivity
  obtain ⟨C, hC⟩ : ∃ C, C = Real.exp (2 * L * Γ * (x1 - x0)) * ((3 * D + 2 * L * Γ * M) * (x1 - x0)) := ⟨_, rfl⟩
  have hC0 : 0 ≤ C := by rw [hC]; positivity
  obtain ⟨E, hE⟩ : ∃ E, E = C + 100 * (x1 - x0) * (D + L * Γ * (C + M)) + D * (x1 - x0) := ⟨_, rfl⟩
  have hE0 : 0 ≤ E := by rw [hE]; positivity
  obtain ⟨B, hB⟩ : ∃ B, B = M + D * (x1 - x0) + L * ρ := ⟨_, rfl⟩
  have hB0 : 0 ≤ B := by rw [hB]; positivity
  obtain ⟨T, hT⟩ : ∃ T, T = E + Γ * (C + M) / ρ + 2 * Γ * E / ρ + 100 * Γ * M / ρ + 50 * (B + 1) := ⟨_, rfl⟩
  have t1 : 0 ≤ Γ * (C + M) / ρ := by positivity
  have t2 : 0 ≤ 2 * Γ * E / ρ := by positivity
  have t3 : 0 ≤ 100 * Γ * M / ρ := by positivity
  refine ⟨T, by rw [hT]; positivity, fun p gap m r h hf h0 h1 hy hg R hCh => ?_⟩
  have hMb : ∀ t ∈ Set.Icc x0 x1, ∀ j, |(g t).getD j 0| ≤ M := fun t ht j => by
    have a1 := abs_le.1 (P.steady t ht x0 ⟨le_rfl, hx.le⟩ j)
    have a2 := abs_le.1 (hY j)
    rw [abs_of_nonneg (by linarith [ht.1])] at a1
    have a3 := mul_le_mul_of_nonneg_left (show t - x0 ≤ x1 - x0 by linarith [ht.2]) hD
    rw [hM, abs_le]
    constructor <;> linarith [a1.1, a1.2, a2.1, a2.2]
  have hlen : (φ x0).length = n := P.size x0 ⟨le_rfl, hx.le⟩
  have hx01 : p.x0 < p.x1 := by rw [h0]; exact h1
  have hyne : p.y0 ≠ [] := by
    intro h
    rw [hy] at h; rw [h] at hlen; exact hn hlen.symm
  obtain ⟨c1, c2, -, -⟩ := rk45_steps hg R hx01 hyne
  rw [hf, h0, hy] at c1
  -- the errors, with a bound that is also good if there are no steps
  have main : ∀ l l', r.steps = l ++ l' → (∀ s ∈ l, s.t ≤ x1) → StepsAtMost h x0 l →
      ∃ e, 0 ≤ e ∧ 2 * Γ * e ≤ ρ ∧ StaysWithin φ n e x0 l ∧ StaysWithin φ n (T * h) x0 l := by
    intro l l' hll hlx hmax
    rw [hll] at c1
    replace c1 := c1.take
    rcases l with _ | ⟨s, l⟩
    · exact ⟨0, le_rfl, by simpa using hρ.le, trivial, trivial⟩
    · clear hll
      have hh : 0 ≤ h := by
        have := c1.1; have := hmax.1
        linarith
      have b1 : Γ * (C + M) / ρ * h ≤ 1 := by
        refine le_trans (mul_le_mul_of_nonneg_right ?_ hh) hCh
        rw [hT]; linarith
      have b2 : 2 * Γ * E / ρ * h ≤ 1 := by
        refine le_trans (mul_le_mul_of_nonneg_right ?_ hh) hCh
        rw [hT]; linarith
      rw [div_mul_eq_mul_div, div_le_one hρ] at b1 b2
      have key := errors_add_up P hMb hM0 hL hD (h := h) hΓ hΓ0 rfl rfl hC b1 hE (s :: l) (x0, φ x0) c1
        hlx le_rfl hx.le hlen hmax (fun j => by simp)
      exact ⟨E * h, by positivity, by linarith, key, key.weaken (mul_le_mul_of_nonneg_right (by rw [hT]; linarith) hh) _ _⟩
  refine ⟨fun l l' h1 h2 h3 => (main l l' h1 h2 h3).choose_spec.2.2.2, fun hmax ha hgap msg hfail => ?_⟩
  obtain ⟨q, q0, q1, q2, yN, k, dp, q3⟩ := rk45_failure hg R hx01 hyne msg hfail
  rw [h0, hy] at q1 q2 dp q3
  by_contra hno
  have hax : (lastPt (x0, φ x0) r.steps).1 + q ≤ x1 := not_lt.1 fun h => hno ⟨q, q2, q1, h⟩
  obtain ⟨e, he0, hE', stay, -⟩ := main r.steps [] (by simp) (fun s hs => by linarith [c1.le_last.2 s hs]) hmax
  clear hno
  obtain ⟨l1, l2, l3⟩ := StaysWithin.last (x0 := x0) r.steps (x0, φ x0) c1 stay le_rfl hlen (fun j => by simpa using he0)
  rw [hf] at dp
  generalize lastPt (x0, φ x0) r.steps = a at q1 q2 dp q3 l1 l2 l3 hax
  have hga := hgap a.1 ⟨l1, by linarith⟩
  have hgpos : 0 ≤ gap a.1 1 := hg.1.le.trans (hg.2 _ _)
  have g1 : 100 * Γ * M / ρ * gap a.1 1 ≤ 1 := le_trans (mul_le_mul_of_nonneg_right (by rw [hT]; linarith) hgpos) (hga.trans (min_le_left _ _))
  have g2 : 50 * (B + 1) * gap a.1 1 ≤ p.atol := le_trans (mul_le_mul_of_nonneg_right (by rw [hT]; linarith) hgpos) (hga.trans (min_le_right _ _))
  rw [div_mul_eq_mul_div, div_le_one hρ] at g1
  have tube : Γ * (e + q * M) ≤ ρ := by
    have := mul_le_mul_of_nonneg_left q2.le (mul_nonneg hΓ0 hM0)
    linarith
  have sl := fun i j => slopes_close P hMb hM0 hL hD l1 q0.le hax l2 l3 (by rw [← hΓ]; exact tube) dp i j
  rw [← hΓ] at sl
  have ma : a.1 ∈ Set.Icc x0 x1 := ⟨l1, by linarith⟩
  have kb : ∀ i j, |(k i).getD j 0| ≤ B := fun i j => by
    have u1 := abs_le.1 (sl i j)
    have u2 := abs_le.1 (hMb a.1 ma j)
    have u3 := mul_le_mul_of_nonneg_left tube hL
    have u4 := mul_le_mul_of_nonneg_left (show q ≤ x1 - x0 by linarith) hD
    rw [abs_le, hB]; constructor <;> linarith [u1.1, u1.2, u2.1, u2.2]
  refine absurd q3 (not_le.2 ?_)
  have hlen' : a.2.length ≠ 0 := by rw [l2]; exact hn
  calc _ < ∑ j ∈ Finset.range a.2.length, (1:ℝ) := Finset.sum_lt_sum_of_nonempty (Finset.nonempty_range_iff.2 hlen') fun j _ => by
        rw [sq_lt_one_iff_abs_lt_one, abs_div]
        have hr : 0 ≤ effectiveRtol p.rtol := le_max_of_le_right (by norm_num)
        have hs : p.atol ≤ p.atol + effectiveRtol p.rtol * max |a.2.getD j 0| |yN.getD j 0| := by
          have := mul_nonneg hr (le_max_of_le_left (abs_nonneg (a.2.getD j 0)) : 0 ≤ max |a.2.getD j 0| |yN.getD j 0|)
          linarith
        rw [abs_of_pos (ha.trans_le hs), div_lt_one (ha.trans_le hs)]
        refine lt_of_lt_of_le ?_ hs
        have hd : |dpError q k j| ≤ q * B := by
          unfold dpError
          rw [abs_mul, abs_of_pos q0]
          refine mul_le_mul_of_nonneg_left ?_ q0.le
          have k0 := abs_le.1 (kb 0 j); have k2 := abs_le.1 (kb 2 j); have k3 := abs_le.1 (kb 3 j); have k4 := abs_le.1 (kb 4 j)
          have k5 := abs_le.1 (kb 5 j); have k6 := abs_le.1 (kb 6 j)
          rw [abs_le]; constructor <;> linarith [k0.1, k0.2, k2.1, k2.2, k3.1, k3.2, k4.1, k4.2, k5.1, k5.2, k6.1, k6.2]
        have := mul_le_mul_of_nonneg_right q2.le hB0
        linarith
    _ = _ := by simp

/-- The weaker of the two notions of convergence. -/
theorem Tracks.approaches {f : ℝ → List ℝ → Except Exc (List ℝ)} {φ : ℝ → List ℝ} {n : ℕ} {x0 x1 : ℝ} (T : Tracks f φ n x0 x1) : Approaches f φ n x0 x1 := by
  obtain ⟨C, hC, H⟩ := T
  intro ε A hε hA
  have hB : 0 < min 1 (min ε A) := lt_min one_pos (lt_min hε hA)
  refine ⟨min 1 (min ε A) / C, by positivity, fun p gap m r h h1 h2 h3 h4 h5 h6 hh => ?_⟩
  have hCh : C * h ≤ min 1 (min ε A) := by rw [mul_comm]; exact (le_div_iff₀ hC).1 hh
  obtain ⟨k1, k2⟩ := H p gap m r h h1 h2 h3 h4 h5 h6 (hCh.trans (min_le_left _ _))
  refine ⟨fun l l' a b c => (k1 l l' a b c).weaken (hCh.trans ((min_le_right _ _).trans (min_le_left _ _))) _ _, fun a b c => k2 a (hA.trans_le b) fun t ht => ?_⟩
  have := c t ht
  rw [le_div_iff₀ hC, mul_comm] at this
  exact this.trans (le_min (min_le_left _ _) (((min_le_right _ _).trans (min_le_right _ _)).trans b))

end IBL
