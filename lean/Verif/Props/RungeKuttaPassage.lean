import Verif.Props.RungeKuttaConverges

/-!
C137: RK45 converges through a jump of the right hand side that the solution passes.
-/

namespace IBL
open SolveIvp RungeKutta

/-! ### Specification -/

/-- The right hand side `f` is `fA` where component `i` of the state has not passed the level `c` (in the direction of the sign `s`) and `fB` where it has. `φ`
solves the equation for `fA` from `x0` to `xs` and for `fB` from `xs` to `x1`; it passes the level at `xs`, with at least the rate `κ`. Near `φ`, slopes do not
exceed `M`; near its passage, every slope of component `i` is between `lo` and `4 lo`. -/
structure Passage (f fA fB : ℝ → List ℝ → Except Exc (List ℝ)) (φ gA gB : ℝ → List ℝ) (n i : ℕ) (c s x0 xs x1 D L ρ M κ lo : ℝ) : Prop where
  before : SmoothPath fA φ gA n x0 xs D L ρ
  behind : SmoothPath fB φ gB n xs x1 D L ρ
  slopeA : ∀ t ∈ Set.Icc x0 xs, ∀ j, |(gA t).getD j 0| ≤ M
  slopeB : ∀ t ∈ Set.Icc xs x1, ∀ j, |(gB t).getD j 0| ≤ M
  here : ∀ t y, y.length = n → s * (y.getD i 0 - c) < 0 → f t y = fA t y
  there : ∀ t y, y.length = n → 0 < s * (y.getD i 0 - c) → f t y = fB t y
  levelA : ∀ t ∈ Set.Icc x0 xs, s * ((φ t).getD i 0 - c) ≤ -(κ * (xs - t))
  levelB : ∀ t ∈ Set.Icc xs x1, κ * (t - xs) ≤ s * ((φ t).getD i 0 - c)
  bounded : ∀ t ∈ Set.Icc x0 x1, ∀ y v, y.length = n → (∀ j, |y.getD j 0 - (φ t).getD j 0| ≤ ρ) → f t y = .ok v → ∀ j, |v.getD j 0| ≤ M
  speed : ∀ t ∈ Set.Icc x0 x1, |t - xs| ≤ ρ → ∀ y v, y.length = n → (∀ j, |y.getD j 0 - (φ t).getD j 0| ≤ ρ) → f t y = .ok v →
    lo ≤ s * v.getD i 0 ∧ s * v.getD i 0 ≤ 4 * lo
  sign : |s| = 1
  pos : 0 < lo ∧ 0 < κ ∧ 0 < ρ ∧ 0 ≤ M ∧ 0 ≤ D ∧ 0 ≤ L
  order : x0 < xs ∧ xs < x1

/-! ### One step -/

/-- A step for `f` is one for `f'` if they agree as far as the stages go. -/
theorem DormandPrince.transfer {f f' : ℝ → List ℝ → Except Exc (List ℝ)} {t h M : ℝ} {y yN : List ℝ} {k : Fin 7 → List ℝ} (dp : DormandPrince f t h y yN k)
    (hh : 0 ≤ h) (hk : ∀ m j, |(k m).getD j 0| ≤ M) (H : ∀ t' w, w.length = y.length → (∀ j, |w.getD j 0 - y.getD j 0| ≤ h * (25 * M)) → f t' w = f' t' w) :
    DormandPrince f' t h y yN k := by
  have hM : 0 ≤ M := (abs_nonneg _).trans (hk 0 0)
  have go : ∀ {t' : ℝ} {w : List ℝ}, w.length = y.length → (∀ j, ∃ c, w.getD j 0 = y.getD j 0 + h * c ∧ |c| ≤ 25 * M) → f t' w = f' t' w := fun hw hc =>
    H _ _ hw fun j => by
      obtain ⟨c, c1, c2⟩ := hc j
      rw [c1, add_sub_cancel_left, abs_mul, abs_of_nonneg hh]
      exact mul_le_mul_of_nonneg_left c2 hh
  have b := fun m j => abs_le.1 (hk m j)
  obtain ⟨w2, p2, q2, r2⟩ := dp.k2
  obtain ⟨w3, p3, q3, r3⟩ := dp.k3
  obtain ⟨w4, p4, q4, r4⟩ := dp.k4
  obtain ⟨w5, p5, q5, r5⟩ := dp.k5
  obtain ⟨w6, p6, q6, r6⟩ := dp.k6
  refine ⟨dp.size, ?_, ⟨w2, ?_, q2, r2⟩, ⟨w3, ?_, q3, r3⟩, ⟨w4, ?_, q4, r4⟩, ⟨w5, ?_, q5, r5⟩, ⟨w6, ?_, q6, r6⟩, ?_, dp.new⟩
  · rw [← go (t' := t) (w := y) rfl fun j => ⟨0, by simp, by simpa using hM⟩]; exact dp.k1
  · rw [← go q2 fun j => ⟨_, r2 j, by rw [abs_le]; constructor <;> linarith [(b 0 j).1, (b 0 j).2]⟩]; exact p2
  · rw [← go q3 fun j => ⟨_, r3 j, by rw [abs_le]; constructor <;> linarith [(b 0 j).1, (b 0 j).2, (b 1 j).1, (b 1 j).2]⟩]; exact p3
  · rw [← go q4 fun j => ⟨_, r4 j, by rw [abs_le]; constructor <;> linarith [(b 0 j).1, (b 0 j).2, (b 1 j).1, (b 1 j).2, (b 2 j).1, (b 2 j).2]⟩]; exact p4
  · rw [← go q5 fun j => ⟨_, r5 j, by
      rw [abs_le]; constructor <;> linarith [(b 0 j).1, (b 0 j).2, (b 1 j).1, (b 1 j).2, (b 2 j).1, (b 2 j).2, (b 3 j).1, (b 3 j).2]⟩]; exact p5
  · rw [← go q6 fun j => ⟨_, r6 j, by
      rw [abs_le]
      constructor <;> linarith [(b 0 j).1, (b 0 j).2, (b 1 j).1, (b 1 j).2, (b 2 j).1, (b 2 j).2, (b 3 j).1, (b 3 j).2, (b 4 j).1, (b 4 j).2]⟩]; exact p6
  · rw [← go dp.size.1 fun j => ⟨_, dp.new j, by
      rw [abs_le]
      constructor <;> linarith [(b 0 j).1, (b 0 j).2, (b 5 j).1, (b 5 j).2, (b 2 j).1, (b 2 j).2, (b 3 j).1, (b 3 j).2, (b 4 j).1, (b 4 j).2]⟩]; exact dp.k7

/-- How far a step goes. -/
private theorem new_le {f : ℝ → List ℝ → Except Exc (List ℝ)} {t h M : ℝ} {y yN : List ℝ} {k : Fin 7 → List ℝ} (dp : DormandPrince f t h y yN k)
    (hh : 0 ≤ h) (hk : ∀ m j, |(k m).getD j 0| ≤ M) (j : ℕ) : |yN.getD j 0 - y.getD j 0| ≤ 2 * M * h := by
  have b := fun m => abs_le.1 (hk m j)
  rw [dp.new j, add_sub_cancel_left, abs_mul, abs_of_nonneg hh, mul_comm]
  refine mul_le_mul_of_nonneg_right ?_ hh
  rw [abs_le]; constructor <;> linarith [(b 0).1, (b 0).2, (b 5).1, (b 5).2, (b 2).1, (b 2).2, (b 3).1, (b 3).2, (b 4).1, (b 4).2]

private theorem interpolant_le {h s M : ℝ} {k : Fin 7 → List ℝ} (hh : 0 ≤ h) (hk : ∀ m j, |(k m).getD j 0| ≤ M) (hs : 0 ≤ s) (hs1 : s ≤ 1) (j : ℕ) :
    |dpInterpolant h s k j| ≤ 100 * M * h := by
  have hM : 0 ≤ M := (abs_nonneg _).trans (hk 0 0)
  have p2 : s ^ 2 ∈ Set.Icc (0:ℝ) 1 := ⟨by positivity, pow_le_one₀ hs hs1⟩
  have p3 : s ^ 3 ∈ Set.Icc (0:ℝ) 1 := ⟨by positivity, pow_le_one₀ hs hs1⟩
  have p4 : s ^ 4 ∈ Set.Icc (0:ℝ) 1 := ⟨by positivity, pow_le_one₀ hs hs1⟩
  have w : ∀ {a b c : ℝ} {v : List ℝ} (C : ℝ), |a| + |b| + |c| ≤ C → |v.getD j 0| ≤ M →
      |(a * s ^ 2 + b * s ^ 3 + c * s ^ 4) * v.getD j 0| ≤ C * M := fun {a b c v} C hC hv => by
    rw [abs_mul]
    refine mul_le_mul (le_trans ?_ hC) hv (abs_nonneg _) ((by positivity : (0:ℝ) ≤ |a| + |b| + |c|).trans hC)
    refine (abs_add_three _ _ _).trans ?_
    simp only [abs_mul, abs_of_nonneg p2.1, abs_of_nonneg p3.1, abs_of_nonneg p4.1]
    nlinarith [mul_le_mul_of_nonneg_left p2.2 (abs_nonneg a), mul_le_mul_of_nonneg_left p3.2 (abs_nonneg b), mul_le_mul_of_nonneg_left p4.2 (abs_nonneg c)]
  have v0 := abs_le.1 (w (a := -8048581381/2820520608) (b := 8663915743/2820520608) (c := -12715105075/11282082432) 8 (by norm_num [abs_of_pos, abs_of_neg]) (hk 0 j))
  have v2 := abs_le.1 (w (a := 131558114200/32700410799) (b := -68118460800/10900136933) (c := 87487479700/32700410799) 14 (by norm_num [abs_of_pos, abs_of_neg]) (hk 2 j))
  have v3 := abs_le.1 (w (a := -1754552775/470086768) (b := 14199869525/1410260304) (c := -10690763975/1880347072) 20 (by norm_num [abs_of_pos, abs_of_neg]) (hk 3 j))
  have v4 := abs_le.1 (w (a := 127303824393/49829197408) (b := -318862633887/49829197408) (c := 701980252875/199316789632) 13 (by norm_num [abs_of_pos, abs_of_neg]) (hk 4 j))
  have v5 := abs_le.1 (w (a := -282668133/205662961) (b := 2019193451/616988883) (c := -1453857185/822651844) 7 (by norm_num [abs_of_pos, abs_of_neg]) (hk 5 j))
  have v6 := abs_le.1 (w (a := 40617522/29380423) (b := -110615467/29380423) (c := 69997945/29380423) 8 (by norm_num [abs_of_pos, abs_of_neg]) (hk 6 j))
  have v1 : |s * (k 0).getD j 0| ≤ 1 * M := by
    rw [abs_mul, abs_of_nonneg hs]; exact mul_le_mul hs1 (hk 0 j) (abs_nonneg _) zero_le_one
  have v1 := abs_le.1 v1
  unfold dpInterpolant
  rw [abs_mul, abs_of_nonneg hh, mul_comm]
  refine mul_le_mul_of_nonneg_right ?_ hh
  rw [abs_le]
  constructor <;> linarith [v0.1, v0.2, v1.1, v1.2, v2.1, v2.2, v3.1, v3.2, v4.1, v4.2, v5.1, v5.2, v6.1, v6.2]

/-- How the error grows in a step along a smooth path. -/
private theorem grow {f : ℝ → List ℝ → Except Exc (List ℝ)} {φ g : ℝ → List ℝ} {n : ℕ} {z0 z1 D L ρ M : ℝ} (P : SmoothPath f φ g n z0 z1 D L ρ)
    (hM : ∀ t ∈ Set.Icc z0 z1, ∀ j, |(g t).getD j 0| ≤ M) (hM0 : 0 ≤ M) (hL : 0 ≤ L) (hD : 0 ≤ D)
    {h e0 Γ Λ Q C E : ℝ} (hΓ : Γ = (26 + 25 * L * (z1 - z0)) ^ 7) (hΓ0 : 0 ≤ Γ) (hΛ : Λ = 2 * L * Γ) (hQ : Q = 3 * D + 2 * L * Γ * M) (he0 : 0 ≤ e0)
    (hC : C = Real.exp (Λ * (z1 - z0)) * (e0 + Q * (z1 - z0))) (hρ : Γ * (C + M) * h ≤ ρ)
    (hE : E = C + 100 * (z1 - z0) * (D + L * Γ * (C + M)) + D * (z1 - z0)) {t r : ℝ} {y yN : List ℝ} {k : Fin 7 → List ℝ} (ht : z0 ≤ t) (hr : 0 < r) (m1 : r ≤ h)
    (h1 : t + r ≤ z1) (hn : y.length = n) (hy : ∀ j, |y.getD j 0 - (φ t).getD j 0| ≤ Real.exp (Λ * (t - z0)) * (e0 + Q * (t - z0)) * h)
    (dp : DormandPrince f t r y yN k) (j : ℕ) :
    |y.getD j 0 - (φ t).getD j 0| ≤ C * h ∧
    |yN.getD j 0 - (φ (t + r)).getD j 0| ≤ Real.exp (Λ * (t + r - z0)) * (e0 + Q * (t + r - z0)) * h ∧
      ∀ q, 0 ≤ q → q ≤ 1 → |y.getD j 0 + dpInterpolant r q k j - (φ (t + q * r)).getD j 0| ≤ E * h := by
  have hh : 0 < h := hr.trans_le m1
  have hX : 0 ≤ z1 - z0 := by linarith
  have hΛ0 : 0 ≤ Λ := by rw [hΛ]; positivity
  have hQ0 : 0 ≤ Q := by rw [hQ]; positivity
  have hC0 : 0 ≤ C := by rw [hC]; positivity
  have htz : 0 ≤ t - z0 := by linarith
  obtain ⟨e, he⟩ : ∃ e, e = Real.exp (Λ * (t - z0)) * (e0 + Q * (t - z0)) * h := ⟨_, rfl⟩
  rw [← he] at hy
  have he0' : 0 ≤ e := (abs_nonneg _).trans (hy 0)
  have heC : e ≤ C * h := by
    rw [he, hC]
    refine mul_le_mul_of_nonneg_right ?_ hh.le
    exact mul_le_mul (Real.exp_le_exp.2 (mul_le_mul_of_nonneg_left (by linarith) hΛ0)) (by linarith [mul_le_mul_of_nonneg_left (show t - z0 ≤ z1 - z0 by linarith) hQ0])
      (by positivity) (Real.exp_pos _).le
  have hrM : e + r * M ≤ (C + M) * h := by
    have := mul_le_mul_of_nonneg_right m1 hM0
    linarith
  have hB0 : 0 ≤ e + r * M := by positivity
  have err := P.step_error hM hM0 hL hD ht hr.le h1 hn hy hΓ
    ((mul_le_mul_of_nonneg_left hrM hΓ0).trans (by rw [← mul_assoc]; exact hρ)) dp j
  have hrX : r ≤ z1 - z0 := by linarith
  have hLΓ : 0 ≤ L * Γ := mul_nonneg hL hΓ0
  refine ⟨(hy j).trans heC, err.1.trans ?_, fun q hq0 hq1 => (err.2 q hq0 hq1).trans ?_⟩
  · have b1 : e + r * (2 * (D * r + L * (Γ * (e + r * M)))) + D * r * r = (1 + Λ * r) * e + Q * r * r := by rw [hΛ, hQ]; ring
    have b2 : (1 + Λ * r) * e ≤ Real.exp (Λ * (t + r - z0)) * (e0 + Q * (t - z0)) * h := by
      calc _ ≤ Real.exp (Λ * r) * e := mul_le_mul_of_nonneg_right (by linarith [Real.add_one_le_exp (Λ * r)]) he0'
        _ = _ := by
          rw [he, ← mul_assoc, ← mul_assoc, ← Real.exp_add]; congr 3; ring
    have b3 : Q * r * r ≤ Real.exp (Λ * (t + r - z0)) * (Q * r) * h := by
      calc Q * r * r ≤ Q * r * h := mul_le_mul_of_nonneg_left m1 (by positivity)
        _ ≤ Real.exp (Λ * (t + r - z0)) * (Q * r * h) := le_mul_of_one_le_left (by positivity) (Real.one_le_exp (mul_nonneg hΛ0 (by linarith)))
        _ = _ := by ring
    have b4 : Real.exp (Λ * (t + r - z0)) * (e0 + Q * (t + r - z0)) * h =
        Real.exp (Λ * (t + r - z0)) * (e0 + Q * (t - z0)) * h + Real.exp (Λ * (t + r - z0)) * (Q * r) * h := by ring
    rw [b1, b4]
    linarith
  · have b1 : D * r + L * (Γ * (e + r * M)) ≤ (D + L * Γ * (C + M)) * h := by
      have := mul_le_mul_of_nonneg_left hrM hLΓ
      have := mul_le_mul_of_nonneg_left m1 hD
      nlinarith
    have b2 : r * (100 * (D * r + L * (Γ * (e + r * M)))) ≤ (z1 - z0) * (100 * ((D + L * Γ * (C + M)) * h)) :=
      mul_le_mul hrX (mul_le_mul_of_nonneg_left b1 (by norm_num)) (by positivity) hX
    have b3 : D * r * r ≤ D * (z1 - z0) * h := mul_le_mul (mul_le_mul_of_nonneg_left hrX hD) m1 hr.le (by positivity)
    rw [hE]
    linarith

section
variable {f fA fB : ℝ → List ℝ → Except Exc (List ℝ)} {φ gA gB : ℝ → List ℝ} {n i : ℕ} {c s x0 xs x1 D L ρ M κ lo : ℝ}

theorem Passage.change (P : Passage f fA fB φ gA gB n i c s x0 xs x1 D L ρ M κ lo) {t r : ℝ} (ht : x0 ≤ t) (hr : 0 ≤ r) (h1 : t + r ≤ x1) (j : ℕ) :
    |(φ (t + r)).getD j 0 - (φ t).getD j 0| ≤ M * r := by
  rcases le_total (t + r) xs with a | a
  · exact P.before.change P.slopeA ht hr a j
  · rcases le_total xs t with b | b
    · exact P.behind.change P.slopeB b hr h1 j
    · have k1 := P.before.change P.slopeA (t := t) (r := xs - t) ht (by linarith) (by linarith) j
      have k2 := P.behind.change P.slopeB (t := xs) (r := t + r - xs) le_rfl (by linarith) (by linarith) j
      rw [add_sub_cancel] at k1 k2
      rw [abs_le] at k1 k2 ⊢
      constructor <;> linarith [k1.1, k1.2, k2.1, k2.2]

theorem Passage.stages (P : Passage f fA fB φ gA gB n i c s x0 xs x1 D L ρ M κ lo) {t h e : ℝ} {y yN : List ℝ} {k : Fin 7 → List ℝ}
    (dp : DormandPrince f t h y yN k) (ht : x0 ≤ t) (hh : 0 ≤ h) (h1 : t + h ≤ x1) (hn : y.length = n) (he : ∀ j, |y.getD j 0 - (φ t).getD j 0| ≤ e)
    (hρ : e + 26 * M * h ≤ ρ) (m : Fin 7) : (∀ j, |(k m).getD j 0| ≤ M) ∧
      ∃ θ w, 0 ≤ θ ∧ θ ≤ 1 ∧ w.length = n ∧ f (t + θ * h) w = .ok (k m) ∧ ∀ j, |w.getD j 0 - (φ (t + θ * h)).getD j 0| ≤ ρ := by
  have hM := P.pos.2.2.2.1
  have next : ∀ {θ : ℝ} {v : List ℝ}, 0 ≤ θ → θ ≤ 1 → (∃ w, f (t + θ * h) w = .ok v ∧ w.length = y.length ∧
      ∀ j, ∃ c, w.getD j 0 = y.getD j 0 + h * c ∧ |c| ≤ 25 * M) → (∀ j, |v.getD j 0| ≤ M) ∧
      ∃ θ w, 0 ≤ θ ∧ θ ≤ 1 ∧ w.length = n ∧ f (t + θ * h) w = .ok v ∧ ∀ j, |w.getD j 0 - (φ (t + θ * h)).getD j 0| ≤ ρ := by
    rintro θ v hθ hθ1 ⟨w, w1, w2, w3⟩
    have hθh : 0 ≤ θ * h := mul_nonneg hθ hh
    have hθh1 : θ * h ≤ h := mul_le_of_le_one_left hh hθ1
    have near : ∀ j, |w.getD j 0 - (φ (t + θ * h)).getD j 0| ≤ ρ := fun j => by
      obtain ⟨c, c1, c2⟩ := w3 j
      have a1 := abs_le.1 (P.change ht hθh (by linarith) j)
      have a2 : |h * c| ≤ h * (25 * M) := by rw [abs_mul, abs_of_nonneg hh]; exact mul_le_mul_of_nonneg_left c2 hh
      have a2 := abs_le.1 a2
      have a3 := abs_le.1 (he j)
      have a4 := mul_le_mul_of_nonneg_left hθh1 hM
      rw [c1, abs_le]
      constructor <;> linarith [a1.1, a1.2, a2.1, a2.2, a3.1, a3.2]
    exact ⟨P.bounded _ ⟨by linarith, by linarith⟩ w v (w2.trans hn) near w1, θ, w, hθ, hθ1, w2.trans hn, w1, near⟩
  have s1 := next (θ := 0) (v := k 0) le_rfl zero_le_one ⟨y, by rw [zero_mul, add_zero]; exact dp.k1, rfl, fun j => ⟨0, by simp, by simpa using hM⟩⟩
  have b0 := fun j => abs_le.1 (s1.1 j)
  have s2 := next (θ := 1/5) (v := k 1) (by norm_num) (by norm_num) (by
    obtain ⟨w, w1, w2, w3⟩ := dp.k2
    refine ⟨w, by rw [← w1]; congr 1; ring, w2, fun j => ⟨_, w3 j, ?_⟩⟩
    rw [abs_le]; constructor <;> linarith [(b0 j).1, (b0 j).2])
  have b1 := fun j => abs_le.1 (s2.1 j)
  have s3 := next (θ := 3/10) (v := k 2) (by norm_num) (by norm_num) (by
    obtain ⟨w, w1, w2, w3⟩ := dp.k3
    refine ⟨w, w1, w2, fun j => ⟨_, w3 j, ?_⟩⟩
    rw [abs_le]; constructor <;> linarith [(b0 j).1, (b0 j).2, (b1 j).1, (b1 j).2])
  have b2 := fun j => abs_le.1 (s3.1 j)
  have s4 := next (θ := 4/5) (v := k 3) (by norm_num) (by norm_num) (by
    obtain ⟨w, w1, w2, w3⟩ := dp.k4
    refine ⟨w, w1, w2, fun j => ⟨_, w3 j, ?_⟩⟩
    rw [abs_le]; constructor <;> linarith [(b0 j).1, (b0 j).2, (b1 j).1, (b1 j).2, (b2 j).1, (b2 j).2])
  have b3 := fun j => abs_le.1 (s4.1 j)
  have s5 := next (θ := 8/9) (v := k 4) (by norm_num) (by norm_num) (by
    obtain ⟨w, w1, w2, w3⟩ := dp.k5
    refine ⟨w, w1, w2, fun j => ⟨_, w3 j, ?_⟩⟩
    rw [abs_le]; constructor <;> linarith [(b0 j).1, (b0 j).2, (b1 j).1, (b1 j).2, (b2 j).1, (b2 j).2, (b3 j).1, (b3 j).2])
  have b4 := fun j => abs_le.1 (s5.1 j)
  have s6 := next (θ := 1) (v := k 5) (by norm_num) (by norm_num) (by
    obtain ⟨w, w1, w2, w3⟩ := dp.k6
    refine ⟨w, by rw [one_mul]; exact w1, w2, fun j => ⟨_, w3 j, ?_⟩⟩
    rw [abs_le]; constructor <;> linarith [(b0 j).1, (b0 j).2, (b1 j).1, (b1 j).2, (b2 j).1, (b2 j).2, (b3 j).1, (b3 j).2, (b4 j).1, (b4 j).2])
  have b5 := fun j => abs_le.1 (s6.1 j)
  have s7 := next (θ := 1) (v := k 6) (by norm_num) (by norm_num) (by
    refine ⟨yN, by rw [one_mul]; exact dp.k7, dp.size.1, fun j => ⟨_, dp.new j, ?_⟩⟩
    rw [abs_le]; constructor <;> linarith [(b0 j).1, (b0 j).2, (b2 j).1, (b2 j).2, (b3 j).1, (b3 j).2, (b4 j).1, (b4 j).2, (b5 j).1, (b5 j).2])
  fin_cases m
  exacts [s1, s2, s3, s4, s5, s6, s7]

/-- Near the passage every step brings component `i` forward. -/
theorem Passage.advance (P : Passage f fA fB φ gA gB n i c s x0 xs x1 D L ρ M κ lo) {t h e : ℝ} {y yN : List ℝ} {k : Fin 7 → List ℝ}
    (dp : DormandPrince f t h y yN k) (ht : x0 ≤ t) (hh : 0 ≤ h) (h1 : t + h ≤ x1) (hn : y.length = n) (he : ∀ j, |y.getD j 0 - (φ t).getD j 0| ≤ e)
    (hρ : e + 26 * M * h ≤ ρ) (hz : |t - xs| + h ≤ ρ) : s * (y.getD i 0 - c) + lo / 40 * h ≤ s * (yN.getD i 0 - c) := by
  have sp : ∀ m, lo ≤ s * (k m).getD i 0 ∧ s * (k m).getD i 0 ≤ 4 * lo := fun m => by
    obtain ⟨-, θ, w, w1, w2, w3, w4, w5⟩ := P.stages dp ht hh h1 hn he hρ m
    have a1 : 0 ≤ θ * h := mul_nonneg w1 hh
    have a2 : θ * h ≤ h := mul_le_of_le_one_left hh w2
    refine P.speed _ ⟨by linarith, by linarith⟩ ?_ w _ w3 w5 w4
    have := abs_le.1 (show |t - xs| ≤ ρ - h by linarith)
    rw [abs_le]; constructor <;> linarith [this.1, this.2]
  have hlo := P.pos.1
  have k1 : lo / 40 ≤ s * (35/384 * (k 0).getD i 0 + 500/1113 * (k 2).getD i 0 + 125/192 * (k 3).getD i 0 - 2187/6784 * (k 4).getD i 0 + 11/84 * (k 5).getD i 0) := by
    have : s * (35/384 * (k 0).getD i 0 + 500/1113 * (k 2).getD i 0 + 125/192 * (k 3).getD i 0 - 2187/6784 * (k 4).getD i 0 + 11/84 * (k 5).getD i 0) =
      35/384 * (s * (k 0).getD i 0) + 500/1113 * (s * (k 2).getD i 0) + 125/192 * (s * (k 3).getD i 0) - 2187/6784 * (s * (k 4).getD i 0) +
        11/84 * (s * (k 5).getD i 0) := by ring
    rw [this]
    linarith [(sp 0).1, (sp 2).1, (sp 3).1, (sp 4).2, (sp 5).1]
  rw [dp.new i]
  have := mul_le_mul_of_nonneg_right k1 hh
  linarith

/-! ### Behind the passage -/

private theorem level_change {s c a b e : ℝ} (hs : |s| = 1) (h : |a - b| ≤ e) : s * (b - c) - e ≤ s * (a - c) := by
  have : |s * (a - b)| ≤ e := by rw [abs_mul, hs, one_mul]; exact h
  have := (abs_le.1 this).1
  linarith

private theorem phase3 (P : Passage f fA fB φ gA gB n i c s x0 xs x1 D L ρ M κ lo)
    {h e0 Γ Λ Q C E atol rtol : ℝ} (hΓ : Γ = (26 + 25 * L * (x1 - xs)) ^ 7) (hΛ : Λ = 2 * L * Γ) (hQ : Q = 3 * D + 2 * L * Γ * M) (he0 : 0 ≤ e0)
    (hC : C = Real.exp (Λ * (x1 - xs)) * (e0 + Q * (x1 - xs))) (hρ : Γ * (C + M) * h ≤ ρ)
    (hE : E = C + 100 * (x1 - xs) * (D + L * Γ * (C + M)) + D * (x1 - xs)) (small1 : (C + 26 * M) * h ≤ ρ) (small2 : h ≤ ρ / 2)
    (small3 : (25 * M + C) * h < κ * (ρ / 2)) :
    ∀ (l : List (Step ℝ)) (a : ℝ × List ℝ), DpSteps f atol rtol a l → (∀ s ∈ l, s.t ≤ x1) → xs ≤ a.1 → a.2.length = n → StepsAtMost h a.1 l →
      25 * M * h < s * (a.2.getD i 0 - c) →
      (∀ j, |a.2.getD j 0 - (φ a.1).getD j 0| ≤ Real.exp (Λ * (a.1 - xs)) * (e0 + Q * (a.1 - xs)) * h) → StaysWithin φ n (E * h) a.1 l
  | [], _, _, _, _, _, _, _, _ => trivial
  | s' :: l, a, ⟨h1, _, _, ⟨k, dp, _, hd⟩, h5⟩, hx1, ht0, hn, ⟨m1, m2⟩, hlev, hy => by
    obtain ⟨hlo, hκ, hρ0, hM, hD, hL⟩ := P.pos
    have hs1 := hx1 s' (by simp)
    obtain ⟨r, hr⟩ : ∃ r, r = s'.t - a.1 := ⟨_, rfl⟩
    have hpos : 0 < r := by linarith
    rw [← hr] at m1 dp hd
    have hst : s'.t = a.1 + r := by rw [hr]; ring
    have hh : 0 < h := hpos.trans_le m1
    have hX : 0 ≤ x1 - xs := by linarith [P.order.2]
    have hΓ0 : 0 ≤ Γ := by rw [hΓ]; positivity
    have hΛ0 : 0 ≤ Λ := by rw [hΛ]; positivity
    have hQ0 : 0 ≤ Q := by rw [hQ]; positivity
    have hyC : ∀ j, |a.2.getD j 0 - (φ a.1).getD j 0| ≤ C * h := fun j => by
      refine (hy j).trans (mul_le_mul_of_nonneg_right ?_ hh.le)
      have : 0 ≤ a.1 - xs := by linarith
      rw [hC]
      exact mul_le_mul (Real.exp_le_exp.2 (mul_le_mul_of_nonneg_left (by linarith) hΛ0))
        (by linarith [mul_le_mul_of_nonneg_left (show a.1 - xs ≤ x1 - xs by linarith) hQ0]) (by positivity) (Real.exp_pos _).le
    have hstage : C * h + 26 * M * r ≤ ρ := by
      have := mul_le_mul_of_nonneg_left m1 (show 0 ≤ 26 * M by positivity)
      linarith
    have ht : x0 ≤ a.1 := by linarith [P.order.1]
    have hk := fun m => (P.stages dp ht hpos.le (by linarith) hn hyC hstage m).1
    have hrM : r * (25 * M) ≤ 25 * M * h := by
      have := mul_le_mul_of_nonneg_left m1 (show 0 ≤ 25 * M by positivity)
      linarith
    have dpB : DormandPrince fB a.1 r a.2 s'.y k := dp.transfer hpos.le hk fun t' w hw hc =>
      P.there t' w (hw.trans hn) (by linarith [level_change (c := c) P.sign (hc i)])
    have G := grow P.behind P.slopeB hM hL hD hΓ hΓ0 hΛ hQ he0 hC hρ hE ht0 hpos m1 (by linarith) hn hy dpB
    refine ⟨fun x hx => ?_, phase3 P hΓ hΛ hQ he0 hC hρ hE small1 small2 small3 l s'.pt h5 (fun q hq => hx1 q (by simp [hq])) (by show xs ≤ s'.t; linarith)
      (dp.size.1.trans hn) m2 ?_ fun j => ?_⟩
    · obtain ⟨q, hq0, hq1, rfl⟩ : ∃ q, 0 ≤ q ∧ q ≤ 1 ∧ x = a.1 + q * r :=
        ⟨(x - a.1) / r, div_nonneg (by linarith [hx.1]) hpos.le, (div_le_one hpos).2 (by linarith [hx.2]), by field_simp; ring⟩
      refine ⟨(hd q).1.trans hn, fun j => ?_⟩
      rw [(hd q).2 j]
      exact (G j).2.2 q hq0 hq1
    · show 25 * M * h < s * (s'.y.getD i 0 - c)
      rcases le_or_gt (a.1 - xs) (ρ / 2) with hz | hz
      · have := P.advance dp ht hpos.le (by linarith) hn hyC hstage (by rw [abs_of_nonneg (by linarith)]; linarith)
        have := mul_pos (show 0 < lo / 40 by linarith) hpos
        linarith
      · have b1 := P.levelB s'.t ⟨by linarith, hs1⟩
        have b2 := mul_le_mul_of_nonneg_left (show ρ / 2 ≤ s'.t - xs by linarith) hκ.le
        have b3 : |s'.y.getD i 0 - (φ s'.t).getD i 0| ≤ C * h := by
          rw [hst]
          refine (G i).2.1.trans (mul_le_mul_of_nonneg_right ?_ hh.le)
          have : 0 ≤ a.1 + r - xs := by linarith
          rw [hC]
          exact mul_le_mul (Real.exp_le_exp.2 (mul_le_mul_of_nonneg_left (by linarith) hΛ0))
            (by linarith [mul_le_mul_of_nonneg_left (show a.1 + r - xs ≤ x1 - xs by linarith) hQ0]) (by positivity) (Real.exp_pos _).le
        linarith [level_change (c := c) P.sign b3]
    · show |s'.y.getD j 0 - (φ s'.t).getD j 0| ≤ Real.exp (Λ * (s'.t - xs)) * (e0 + Q * (s'.t - xs)) * h
      rw [hst]
      exact (G j).2.1

/-! ### During the passage -/

private theorem phase2 (P : Passage f fA fB φ gA gB n i c s x0 xs x1 D L ρ M κ lo)
    {h e0 S T0 T1 F atol rtol τ : ℝ} (hT1 : T1 = T0 + 40 * (S + 25 * M) / lo) (hT0 : 0 ≤ T0) (hS : 0 ≤ S) (hF : e0 + 3 * M * T1 + 101 * M ≤ F)
    (small1 : (e0 + 3 * M * (T1 + 1) + 26 * M) * h ≤ ρ) (small2 : (T0 + T1 + 1) * h ≤ ρ) (hτ : x0 ≤ τ) (hτ0 : |τ - xs| ≤ T0 * h)
    (next : ∀ (l : List (Step ℝ)) (a : ℝ × List ℝ), DpSteps f atol rtol a l → (∀ s ∈ l, s.t ≤ x1) → xs ≤ a.1 → a.2.length = n → StepsAtMost h a.1 l →
      25 * M * h < s * (a.2.getD i 0 - c) → (∀ j, |a.2.getD j 0 - (φ a.1).getD j 0| ≤ (e0 + 3 * M * (T1 + 1)) * h) → StaysWithin φ n (F * h) a.1 l) :
    ∀ (l : List (Step ℝ)) (a : ℝ × List ℝ), DpSteps f atol rtol a l → (∀ s ∈ l, s.t ≤ x1) → τ ≤ a.1 → a.2.length = n → StepsAtMost h a.1 l →
      -(S * h) + lo / 40 * (a.1 - τ) ≤ s * (a.2.getD i 0 - c) → a.1 - τ ≤ (T1 + 1) * h →
      (∀ j, |a.2.getD j 0 - (φ a.1).getD j 0| ≤ e0 * h + 3 * M * (a.1 - τ)) → StaysWithin φ n (F * h) a.1 l
  | [], _, _, _, _, _, _, _, _, _ => trivial
  | s' :: l, a, ⟨h1, h2, h3, ⟨k, dp, h4, hd⟩, h5⟩, hx1, ht0, hn, ⟨m1, m2⟩, hlev, hfar, hy => by
    obtain ⟨hlo, hκ, hρ0, hM, hD, hL⟩ := P.pos
    by_cases hsw : xs ≤ a.1 ∧ 25 * M * h < s * (a.2.getD i 0 - c)
    · refine next (s' :: l) a ⟨h1, h2, h3, ⟨k, dp, h4, hd⟩, h5⟩ hx1 hsw.1 hn ⟨m1, m2⟩ hsw.2 fun j => (hy j).trans ?_
      have := mul_le_mul_of_nonneg_left hfar (show 0 ≤ 3 * M by positivity)
      linarith
    have hs1 := hx1 s' (by simp)
    obtain ⟨r, hr⟩ : ∃ r, r = s'.t - a.1 := ⟨_, rfl⟩
    have hpos : 0 < r := by linarith
    rw [← hr] at m1 dp hd
    have hst : s'.t = a.1 + r := by rw [hr]; ring
    have hh : 0 < h := hpos.trans_le m1
    have hfar1 : a.1 - τ ≤ T1 * h := by
      have q1 : 0 ≤ 40 * (S + 25 * M) / lo * h := by positivity
      rw [hT1]
      rcases not_and_or.1 hsw with q | q
      · have := (abs_le.1 hτ0).1
        linarith
      · have q2 : lo / 40 * (a.1 - τ) ≤ (S + 25 * M) * h := by linarith
        have q3 : a.1 - τ ≤ 40 * (S + 25 * M) / lo * h := by
          rw [div_mul_eq_mul_div, le_div_iff₀ hlo]; linarith
        have := mul_nonneg hT0 hh.le
        linarith
    have hye : ∀ j, |a.2.getD j 0 - (φ a.1).getD j 0| ≤ (e0 + 3 * M * T1) * h := fun j => (hy j).trans (by
      have := mul_le_mul_of_nonneg_left hfar1 (show 0 ≤ 3 * M by positivity)
      linarith)
    have hMr : M * r ≤ M * h := mul_le_mul_of_nonneg_left m1 hM
    have hMh : 0 ≤ M * h := mul_nonneg hM hh.le
    have hstage : (e0 + 3 * M * T1) * h + 26 * M * r ≤ ρ := by linarith
    have ht : x0 ≤ a.1 := by linarith
    have hk := fun m => (P.stages dp ht hpos.le (by linarith) hn hye hstage m).1
    have adv := P.advance dp ht hpos.le (by linarith) hn hye hstage (by
      have q1 := abs_le.1 hτ0
      have : |a.1 - xs| ≤ (T0 + T1) * h := by
        have : 0 ≤ T1 * h := by linarith
        rw [abs_le]; constructor <;> linarith [q1.1, q1.2]
      linarith)
    refine ⟨fun x hx => ?_, phase2 P hT1 hT0 hS hF small1 small2 hτ hτ0 next l s'.pt h5 (fun q hq => hx1 q (by simp [hq])) (by show τ ≤ s'.t; linarith)
      (dp.size.1.trans hn) m2 ?_ (by show s'.t - τ ≤ _; linarith) fun j => ?_⟩
    · obtain ⟨q, hq0, hq1, rfl⟩ : ∃ q, 0 ≤ q ∧ q ≤ 1 ∧ x = a.1 + q * r :=
        ⟨(x - a.1) / r, div_nonneg (by linarith [hx.1]) hpos.le, (div_le_one hpos).2 (by linarith [hx.2]), by field_simp; ring⟩
      refine ⟨(hd q).1.trans hn, fun j => ?_⟩
      rw [(hd q).2 j]
      have hqr : q * r ≤ r := mul_le_of_le_one_left hpos.le hq1
      have q1 := abs_le.1 (interpolant_le hpos.le hk hq0 hq1 j)
      have q2 := abs_le.1 (hye j)
      have q3 := abs_le.1 (P.change ht (mul_nonneg hq0 hpos.le) (by linarith) j)
      have q4 := mul_le_mul_of_nonneg_left hqr hM
      have q5 := mul_le_mul_of_nonneg_right hF hh.le
      rw [abs_le]; constructor <;> linarith [q1.1, q1.2, q2.1, q2.2, q3.1, q3.2]
    · show -(S * h) + lo / 40 * (s'.t - τ) ≤ s * (s'.y.getD i 0 - c)
      rw [hst]
      linarith
    · show |s'.y.getD j 0 - (φ s'.t).getD j 0| ≤ e0 * h + 3 * M * (s'.t - τ)
      have q1 := abs_le.1 (new_le dp hpos.le hk j)
      have q2 := abs_le.1 (hy j)
      have q3 := abs_le.1 (P.change ht hpos.le (by linarith) j)
      rw [hst, abs_le]; constructor <;> linarith [q1.1, q1.2, q2.1, q2.2, q3.1, q3.2]

/-! ### Before the passage -/

private theorem phase1 (P : Passage f fA fB φ gA gB n i c s x0 xs x1 D L ρ M κ lo)
    {h S T0 Γ Λ Q C E F atol rtol : ℝ} (hΓ : Γ = (26 + 25 * L * (xs - x0)) ^ 7) (hΛ : Λ = 2 * L * Γ) (hQ : Q = 3 * D + 2 * L * Γ * M)
    (hC : C = Real.exp (Λ * (xs - x0)) * (0 + Q * (xs - x0))) (hρ : Γ * (C + M) * h ≤ ρ)
    (hE : E = C + 100 * (xs - x0) * (D + L * Γ * (C + M)) + D * (xs - x0)) (hF : E ≤ F) (small1 : (C + 26 * M) * h ≤ ρ)
    (hS : S = 26 * M + C) (hT0 : T0 = (25 * M + C) / κ + 1)
    (next : ∀ (l : List (Step ℝ)) (a : ℝ × List ℝ), DpSteps f atol rtol a l → (∀ s ∈ l, s.t ≤ x1) → x0 ≤ a.1 → |a.1 - xs| ≤ T0 * h → a.2.length = n →
      StepsAtMost h a.1 l → -(S * h) ≤ s * (a.2.getD i 0 - c) → (∀ j, |a.2.getD j 0 - (φ a.1).getD j 0| ≤ C * h) → StaysWithin φ n (F * h) a.1 l) :
    ∀ (l : List (Step ℝ)) (a : ℝ × List ℝ), DpSteps f atol rtol a l → (∀ s ∈ l, s.t ≤ x1) → x0 ≤ a.1 → a.1 ≤ xs → a.2.length = n → StepsAtMost h a.1 l →
      (∀ j, |a.2.getD j 0 - (φ a.1).getD j 0| ≤ Real.exp (Λ * (a.1 - x0)) * (0 + Q * (a.1 - x0)) * h) → StaysWithin φ n (F * h) a.1 l
  | [], _, _, _, _, _, _, _, _ => trivial
  | s' :: l, a, ⟨h1, h2, h3, ⟨k, dp, h4, hd⟩, h5⟩, hx1, ht0, hts, hn, ⟨m1, m2⟩, hy => by
    obtain ⟨hlo, hκ, hρ0, hM, hD, hL⟩ := P.pos
    have hs1 := hx1 s' (by simp)
    have hh : 0 < h := by linarith
    have hX : 0 ≤ xs - x0 := by linarith [P.order.1]
    have hΓ0 : 0 ≤ Γ := by rw [hΓ]; positivity
    have hΛ0 : 0 ≤ Λ := by rw [hΛ]; positivity
    have hQ0 : 0 ≤ Q := by rw [hQ]; positivity
    have hC0 : 0 ≤ C := by rw [hC]; positivity
    have hyC : ∀ j, |a.2.getD j 0 - (φ a.1).getD j 0| ≤ C * h := fun j => by
      refine (hy j).trans (mul_le_mul_of_nonneg_right ?_ hh.le)
      have : 0 ≤ a.1 - x0 := by linarith
      rw [hC]
      exact mul_le_mul (Real.exp_le_exp.2 (mul_le_mul_of_nonneg_left (by linarith) hΛ0))
        (by linarith [mul_le_mul_of_nonneg_left (show a.1 - x0 ≤ xs - x0 by linarith) hQ0]) (by positivity) (Real.exp_pos _).le
    have hMh : 0 ≤ M * h := mul_nonneg hM hh.le
    have hCh : 0 ≤ C * h := mul_nonneg hC0 hh.le
    have lev := P.levelA a.1 ⟨ht0, hts⟩
    by_cases hsw : s * (a.2.getD i 0 - c) < -(25 * M * h) ∧ s'.t ≤ xs
    · obtain ⟨r, hr⟩ : ∃ r, r = s'.t - a.1 := ⟨_, rfl⟩
      have hpos : 0 < r := by linarith
      rw [← hr] at m1 dp hd
      have hst : s'.t = a.1 + r := by rw [hr]; ring
      have hMr : M * r ≤ M * h := mul_le_mul_of_nonneg_left m1 hM
      have hstage : C * h + 26 * M * r ≤ ρ := by linarith
      have hk := fun m => (P.stages dp ht0 hpos.le (by linarith) hn hyC hstage m).1
      have dpA : DormandPrince fA a.1 r a.2 s'.y k := dp.transfer hpos.le hk fun t' w hw hc =>
        P.here t' w (hw.trans hn) (by
          have := level_change (c := c) P.sign (show |a.2.getD i 0 - w.getD i 0| ≤ r * (25 * M) by rw [abs_sub_comm]; exact hc i)
          linarith [hsw.1])
      have G := grow P.before P.slopeA hM hL hD hΓ hΓ0 hΛ hQ le_rfl hC hρ hE ht0 hpos m1 (by linarith [hsw.2]) hn hy dpA
      refine ⟨fun x hx => ?_, phase1 P hΓ hΛ hQ hC hρ hE hF small1 hS hT0 next l s'.pt h5 (fun q hq => hx1 q (by simp [hq])) (by show x0 ≤ s'.t; linarith)
        hsw.2 (dp.size.1.trans hn) m2 fun j => ?_⟩
      · obtain ⟨q, hq0, hq1, rfl⟩ : ∃ q, 0 ≤ q ∧ q ≤ 1 ∧ x = a.1 + q * r :=
          ⟨(x - a.1) / r, div_nonneg (by linarith [hx.1]) hpos.le, (div_le_one hpos).2 (by linarith [hx.2]), by field_simp; ring⟩
        refine ⟨(hd q).1.trans hn, fun j => ?_⟩
        rw [(hd q).2 j]
        exact ((G j).2.2 q hq0 hq1).trans (mul_le_mul_of_nonneg_right hF hh.le)
      · show |s'.y.getD j 0 - (φ s'.t).getD j 0| ≤ Real.exp (Λ * (s'.t - x0)) * (0 + Q * (s'.t - x0)) * h
        rw [hst]
        exact (G j).2.1
    · have hTh : T0 * h = (25 * M + C) / κ * h + h := by rw [hT0]; ring
      have hQh : 0 ≤ (25 * M + C) / κ * h := by positivity
      have hSh : S * h = 26 * (M * h) + C * h := by rw [hS]; ring
      have both : xs - a.1 ≤ T0 * h ∧ -(S * h) ≤ s * (a.2.getD i 0 - c) := by
        rcases not_and_or.1 hsw with q | q
        · refine ⟨?_, by linarith⟩
          have u1 := level_change (c := c) P.sign (show |(φ a.1).getD i 0 - a.2.getD i 0| ≤ C * h by rw [abs_sub_comm]; exact hyC i)
          have u2 : κ * (xs - a.1) ≤ (25 * M + C) * h := by linarith
          have u3 : xs - a.1 ≤ (25 * M + C) / κ * h := by rw [div_mul_eq_mul_div, le_div_iff₀ hκ]; linarith
          linarith
        · refine ⟨by linarith, ?_⟩
          have u1 := level_change (c := c) P.sign (hyC i)
          have u2 := P.change (t := a.1) (r := xs - a.1) ht0 (by linarith) (by linarith [P.order.2]) i
          rw [add_sub_cancel, abs_sub_comm] at u2
          have u3 := level_change (c := c) P.sign u2
          have u4 := P.levelB xs ⟨le_rfl, P.order.2.le⟩
          have u5 := mul_le_mul_of_nonneg_left (show xs - a.1 ≤ h by linarith) hM
          rw [sub_self, mul_zero] at u4
          linarith
      exact next (s' :: l) a ⟨h1, h2, h3, ⟨k, dp, h4, hd⟩, h5⟩ hx1 ht0 (by rw [abs_sub_comm, abs_of_nonneg (by linarith)]; exact both.1) hn ⟨m1, m2⟩ both.2 hyC

end

/-! ### All steps -/

set_option maxHeartbeats 1000000 in
/-- **C137**, the steps: along a solution that passes a jump of the right hand side, and is smooth before and behind, every state that RK45 computes is within
a constant times the longest step of the solution. The constant depends on the solution, the other constants and the interval only. -/
theorem rk45_passes {f fA fB : ℝ → List ℝ → Except Exc (List ℝ)} {φ gA gB : ℝ → List ℝ} {n i : ℕ} {c s x0 xs x1 D L ρ M κ lo : ℝ}
    (P : Passage f fA fB φ gA gB n i c s x0 xs x1 D L ρ M κ lo) (hn : n ≠ 0) : Tracks f φ n x0 x1 := by
  obtain ⟨hlo, hκ, hρ, hM, hD, hL⟩ := P.pos
  have hxA : 0 < xs - x0 := by linarith [P.order.1]
  have hxB : 0 < x1 - xs := by linarith [P.order.2]
  obtain ⟨ΓA, hΓA⟩ : ∃ Γ, Γ = (26 + 25 * L * (xs - x0)) ^ 7 := ⟨_, rfl⟩
  have hΓA0 : 0 ≤ ΓA := by rw [hΓA]; positivity
  obtain ⟨CA, hCA⟩ : ∃ C, C = Real.exp (2 * L * ΓA * (xs - x0)) * (0 + (3 * D + 2 * L * ΓA * M) * (xs - x0)) := ⟨_, rfl⟩
  have hCA0 : 0 ≤ CA := by rw [hCA]; positivity
  obtain ⟨EA, hEA⟩ : ∃ E, E = CA + 100 * (xs - x0) * (D + L * ΓA * (CA + M)) + D * (xs - x0) := ⟨_, rfl⟩
  have hEA0 : 0 ≤ EA := by rw [hEA]; positivity
  obtain ⟨S, hS⟩ : ∃ S, S = 26 * M + CA := ⟨_, rfl⟩
  have hS0 : 0 ≤ S := by rw [hS]; positivity
  obtain ⟨T0, hT0⟩ : ∃ T, T = (25 * M + CA) / κ + 1 := ⟨_, rfl⟩
  have hT00 : 0 ≤ T0 := by rw [hT0]; positivity
  obtain ⟨T1, hT1⟩ : ∃ T, T = T0 + 40 * (S + 25 * M) / lo := ⟨_, rfl⟩
  have hT10 : 0 ≤ T1 := by rw [hT1]; positivity
  obtain ⟨e0, he0⟩ : ∃ e, e = CA + 3 * M * (T1 + 1) := ⟨_, rfl⟩
  have he00 : 0 ≤ e0 := by rw [he0]; positivity
  obtain ⟨ΓB, hΓB⟩ : ∃ Γ, Γ = (26 + 25 * L * (x1 - xs)) ^ 7 := ⟨_, rfl⟩
  have hΓB0 : 0 ≤ ΓB := by rw [hΓB]; positivity
  obtain ⟨CB, hCB⟩ : ∃ C, C = Real.exp (2 * L * ΓB * (x1 - xs)) * (e0 + (3 * D + 2 * L * ΓB * M) * (x1 - xs)) := ⟨_, rfl⟩
  have hCB0 : 0 ≤ CB := by rw [hCB]; positivity
  obtain ⟨EB, hEB⟩ : ∃ E, E = CB + 100 * (x1 - xs) * (D + L * ΓB * (CB + M)) + D * (x1 - xs) := ⟨_, rfl⟩
  have hEB0 : 0 ≤ EB := by rw [hEB]; positivity
  obtain ⟨F, hF⟩ : ∃ F, F = EA + EB + e0 + 101 * M := ⟨_, rfl⟩
  have hF0 : 0 ≤ F := by rw [hF]; positivity
  obtain ⟨V, hV⟩ : ∃ V, V = ΓA * (CA + M) + ΓB * (CB + M) + (CA + 26 * M) + (CB + 26 * M) + (e0 + 26 * M) + 2 + (T0 + T1 + 1) + 2 * F + 2600 * M := ⟨_, rfl⟩
  have v1 : 0 ≤ ΓA * (CA + M) := by positivity
  have v2 : 0 ≤ ΓB * (CB + M) := by positivity
  have hV0 : 0 ≤ V := by rw [hV]; positivity
  obtain ⟨T, hT⟩ : ∃ T, T = F + V / ρ + 4 * (25 * M + CB) / (κ * ρ) + 50 * (M + 1) := ⟨_, rfl⟩
  have t1 : 0 ≤ V / ρ := by positivity
  have t2 : 0 ≤ 4 * (25 * M + CB) / (κ * ρ) := by positivity
  refine ⟨T, by rw [hT]; positivity, fun p gap m r h hf h0 h1 hy hg R hCh => ?_⟩
  have hlen : (φ x0).length = n := P.before.size x0 ⟨le_rfl, P.order.1.le⟩
  have hx01 : p.x0 < p.x1 := by rw [h0]; exact h1
  have hyne : p.y0 ≠ [] := by
    intro h
    rw [hy] at h; rw [h] at hlen; exact hn hlen.symm
  obtain ⟨c1, c2, -, -⟩ := rk45_steps hg R hx01 hyne
  rw [hf, h0, hy] at c1
  have main : ∀ l l', r.steps = l ++ l' → (∀ s ∈ l, s.t ≤ x1) → StepsAtMost h x0 l →
      ∃ e, 0 ≤ e ∧ 2 * e ≤ ρ ∧ StaysWithin φ n e x0 l ∧ StaysWithin φ n (T * h) x0 l := by
    intro l l' hll hlx hmax
    rw [hll] at c1
    replace c1 := c1.take
    rcases l with _ | ⟨s', l⟩
    · exact ⟨0, le_rfl, by simpa using hρ.le, trivial, trivial⟩
    · clear hll
      have hh : 0 < h := by
        have := c1.1; have := hmax.1
        linarith
      have b1 : V / ρ * h ≤ 1 := by
        refine le_trans (mul_le_mul_of_nonneg_right ?_ hh.le) hCh
        rw [hT]; linarith
      have b2 : 4 * (25 * M + CB) / (κ * ρ) * h ≤ 1 := by
        refine le_trans (mul_le_mul_of_nonneg_right ?_ hh.le) hCh
        rw [hT]; linarith
      rw [div_mul_eq_mul_div, div_le_one (by positivity)] at b1 b2
      have small : ∀ {v : ℝ}, v ≤ V → v * h ≤ ρ := fun hv => (mul_le_mul_of_nonneg_right hv hh.le).trans b1
      have key := phase1 P (h := h) (F := F) (S := S) (T0 := T0) hΓA rfl rfl hCA (small (by linarith)) hEA (by linarith) (small (by linarith)) hS hT0
        (fun l a d1 d2 d3 d4 d5 d6 d7 d8 => phase2 P (h := h) (e0 := CA) (τ := a.1) hT1 hT00 hS0 (by rw [hF, he0]; linarith) (by
            rw [← he0]; exact small (by linarith)) (small (by linarith)) d3 d4
          (fun l b q1 q2 q3 q4 q5 q6 q7 => (phase3 P (h := h) hΓB rfl rfl he00 hCB (small (by linarith)) hEB (small (by linarith))
            (by have := small (v := 2) (by linarith); linarith) (by have := mul_pos hκ hρ; linarith) l b q1 q2 q3 q4 q5 q6 fun j => (q7 j).trans (by
              rw [← he0]
              refine mul_le_mul_of_nonneg_right ?_ hh.le
              have w1 : 0 ≤ b.1 - xs := by linarith
              have w2 : 0 ≤ (3 * D + 2 * L * ΓB * M) * (b.1 - xs) := by positivity
              calc e0 ≤ e0 + (3 * D + 2 * L * ΓB * M) * (b.1 - xs) := by linarith
                _ ≤ _ := le_mul_of_one_le_left (by positivity) (Real.one_le_exp (by positivity)))).weaken
                  (mul_le_mul_of_nonneg_right (by linarith) hh.le) _ _)
          l a d1 d2 le_rfl d5 d6 (by simpa using d7) (by rw [sub_self]; positivity) (fun j => by simpa using d8 j))
        (s' :: l) (x0, φ x0) c1 hlx le_rfl P.order.1.le hlen hmax (fun j => by simp)
      exact ⟨F * h, by positivity, by have := small (v := 2 * F) (by linarith); linarith, key,
        key.weaken (mul_le_mul_of_nonneg_right (by rw [hT]; linarith) hh.le) _ _⟩
  refine ⟨fun l l' h1 h2 h3 => (main l l' h1 h2 h3).choose_spec.2.2.2, fun hmax ha hgap msg hfail => ?_⟩
  obtain ⟨q, q0, q1, q2, yN, k, dp, q3⟩ := rk45_failure hg R hx01 hyne msg hfail
  rw [h0, hy] at q1 q2 dp q3
  by_contra hno
  have hax : (lastPt (x0, φ x0) r.steps).1 + q ≤ x1 := not_lt.1 fun h => hno ⟨q, q2, q1, h⟩
  obtain ⟨e, hE0, hE', stay, -⟩ := main r.steps [] (by simp) (fun s hs => by linarith [c1.le_last.2 s hs]) hmax
  clear hno
  obtain ⟨l1, l2, l3⟩ := StaysWithin.last (x0 := x0) r.steps (x0, φ x0) c1 stay le_rfl hlen (fun j => by simpa using hE0)
  rw [hf] at dp
  generalize lastPt (x0, φ x0) r.steps = a at q1 q2 dp q3 l1 l2 l3 hax
  have hga := hgap a.1 ⟨l1, by linarith⟩
  have hgpos : 0 ≤ gap a.1 1 := hg.1.le.trans (hg.2 _ _)
  have g1 : V / ρ * gap a.1 1 ≤ 1 := le_trans (mul_le_mul_of_nonneg_right (by rw [hT]; linarith) hgpos) (hga.trans (min_le_left _ _))
  have g2 : 50 * (M + 1) * gap a.1 1 ≤ p.atol := le_trans (mul_le_mul_of_nonneg_right (by rw [hT]; linarith) hgpos) (hga.trans (min_le_right _ _))
  rw [div_mul_eq_mul_div, div_le_one hρ] at g1
  have kb : ∀ i j, |(k i).getD j 0| ≤ M := fun i => (P.stages dp l1 q0.le hax l2 l3 (by
    have u1 := mul_le_mul_of_nonneg_left q2.le (show 0 ≤ 26 * M by positivity)
    have u2 : 2600 * M * gap a.1 1 ≤ ρ := (mul_le_mul_of_nonneg_right (by linarith) hgpos).trans g1
    linarith) i).1
  refine absurd q3 (not_le.2 ?_)
  have hlen' : a.2.length ≠ 0 := by rw [l2]; exact hn
  calc _ < ∑ j ∈ Finset.range a.2.length, (1:ℝ) := Finset.sum_lt_sum_of_nonempty (Finset.nonempty_range_iff.2 hlen') fun j _ => by
        rw [sq_lt_one_iff_abs_lt_one, abs_div]
        have hr : 0 ≤ effectiveRtol p.rtol := le_max_of_le_right (by norm_num)
        have hs : p.atol ≤ p.atol + effectiveRtol p.rtol * max |a.2.getD j 0| |yN.getD j 0| := by
          have := mul_nonneg hr (le_max_of_le_left (abs_nonneg (a.2.getD j 0)) : 0 ≤ max |a.2.getD j 0| |yN.getD j 0|)
          linarith
        rw [abs_of_pos (ha.trans_le hs), div_lt_one (ha.trans_le hs)]
        refine lt_of_lt_of_le ?_ hs
        have hd : |dpError q k j| ≤ q * M := by
          unfold dpError
          rw [abs_mul, abs_of_pos q0]
          refine mul_le_mul_of_nonneg_left ?_ q0.le
          have k0 := abs_le.1 (kb 0 j); have k2 := abs_le.1 (kb 2 j); have k3 := abs_le.1 (kb 3 j); have k4 := abs_le.1 (kb 4 j)
          have k5 := abs_le.1 (kb 5 j); have k6 := abs_le.1 (kb 6 j)
          rw [abs_le]; constructor <;> linarith [k0.1, k0.2, k2.1, k2.2, k3.1, k3.2, k4.1, k4.2, k5.1, k5.2, k6.1, k6.2]
        have := mul_le_mul_of_nonneg_right q2.le hM
        linarith
    _ = _ := by simp

end IBL
