import Verif.Props.FitsSpline
import Verif.Props.RungeKutta

/-!
C134: RK45 gives up only where a step of less than fifty spacings of the numbers misses the tolerances; Thwaites' methods never get there if the
velocity is bounded away from zero, its gradient is bounded, and the numbers are dense enough, and take a number of steps that is bounded whatever their spacing.
-/

namespace IBL
open SolveIvp RungeKutta Fits

/-! ### Specification -/

/-- A step of Dormand and Prince from the point `a`, of length `h`, whose estimated error does not meet the tolerances. -/
def MissesTolerance (p : IvpProblem ℝ) (a : ℝ × List ℝ) (h : ℝ) : Prop :=
  ∃ yNew k, DormandPrince p.rhs a.1 h a.2 yNew k ∧
    (a.2.length : ℝ) ≤ ∑ j ∈ Finset.range a.2.length,
      (dpError h k j / (p.atol + effectiveRtol p.rtol * max |a.2.getD j 0| |yNew.getD j 0|)) ^ 2

/-- A right hand side that grows at most linearly with the state: `|f(t, y)| <= L (1 + |y|)` in the maximum norm, for `t` between `x0` and `x1`. -/
def LinearGrowth (f : ℝ → List ℝ → Except Exc (List ℝ)) (n : ℕ) (x0 x1 L : ℝ) : Prop :=
  ∀ t ∈ Set.Icc x0 x1, ∀ y v, y.length = n → f t y = .ok v → ∀ Y, (∀ j, |y.getD j 0| ≤ Y) → ∀ j, |v.getD j 0| ≤ L * (1 + Y)

/-! ### Why a run fails -/

private theorem tries_small {p : IvpProblem ℝ} {m : ℝ} {s : St ℝ} {rej : Bool} {h : ℝ} (T : Tries p m s rej h .tooSmall) (hh : m ≤ h) :
    ∃ h' q, m ≤ h' ∧ trial p s h' = .ok q ∧ 1 ≤ q.err ∧ |q.h| * (1/5) < m := by
  generalize ho : Outcome.tooSmall (α := ℝ) = o at T
  induction T with
  | small h1 => simp only [real_lt] at h1; linarith
  | raised => cases ho
  | accept => cases ho
  | @reject rej h q o h1 h2 h3 _ ih =>
    have he : 1 ≤ q.err := by
      by_contra hn
      rw [(by simpa using hn : PyCmp.lt q.err (lit 1) = true)] at h3
      cases h3
    rcases lt_or_ge (|q.h| * pyMax (lit (1/5)) (control q.err)) m with hc | hc
    · refine ⟨h, q, hh, h2, he, lt_of_le_of_lt (mul_le_mul_of_nonneg_left ?_ (abs_nonneg _)) hc⟩
      unfold pyMax
      split_ifs with hg
      · simp only [PyCmp.gt, real_lt, real_lit] at hg
        push_cast at hg; exact hg.le
      · simp
    · exact ih hc ho

private theorem steps_failed {gap : ℝ → ℝ → ℝ} {m : ℝ} (hg : Spaced gap m) {p : IvpProblem ℝ} {s : St ℝ} {r : Run ℝ} (S : Steps gap p s r)
    (dir : direction p = 1) : s.t < p.x1 → s.y.length ≠ 0 → p.rhs s.t s.y = .ok s.f → s.f.length = s.y.length → ∀ msg, r.ending = .failed msg →
    ∃ h, 0 < h ∧ (lastPt (s.t, s.y) r.steps).1 + h ≤ p.x1 ∧ h < 50 * gap (lastPt (s.t, s.y) r.steps).1 1 ∧
      MissesTolerance p (lastPt (s.t, s.y) r.steps) h := by
  have hm : ∀ t, 0 < minStep gap p t := fun t => lt_of_lt_of_le (by linarith [hg.1]) (minStep_ge hg p t)
  induction S with
  | trivial => intro _ _ _ _ msg h; cases h
  | raised => intro _ _ _ _ msg h; cases h
  | last => intro _ _ _ _ msg h; cases h
  | @small s hne _ T =>
    intro hb _ hf hsz msg _
    obtain ⟨h', q, h1, h2, h3, h4⟩ := tries_small T (by
      unfold firstTry
      split_ifs with hl
      · exact le_refl _
      · simpa using hl)
    have h0 : 0 < h' := (hm _).trans_le h1
    obtain ⟨a1, a2, -⟩ := trial_abs h0 (by rw [dir]; linarith) h2
    obtain ⟨q1, q2, q3, -⟩ := trial_ok h2
    rw [dir, one_mul] at a1 a2
    rw [dir, one_mul, one_mul] at q2
    obtain ⟨k, dp, hK⟩ := rkStep_textbook hf hsz q3
    have hs := (error_small hne dp hK h2).not.1 (not_lt.2 h3)
    rw [a1, q1] at h4
    rw [q1] at a2 q2
    refine ⟨q.t - s.t, a2, ?_, ?_, q.y, k, dp, not_lt.1 hs⟩
    · show s.t + _ ≤ _
      have : q.t - s.t ≤ p.x1 - s.t := by rw [q2]; exact min_le_right _ _
      linarith
    · show _ < 50 * gap s.t 1
      simp only [minStep, dir, real_lit] at h4
      push_cast at h4
      linarith
  | @more s s' st run hne _ T c _ ih =>
    intro hb _ hf hsz msg he
    obtain ⟨h', q, rej', h1, h2, h3, rfl, rfl⟩ := tries_accepted T
    obtain ⟨-, -, q3, -⟩ := trial_ok h2
    obtain ⟨r1, r2, -, r4, -⟩ := rkStep_ok rfl hsz q3
    have c' : ¬ PyCmp.ge (direction p * (q.t - p.x1)) (lit 0) = true := by rw [c]; simp
    rw [real_ge, dir, real_lit] at c'
    push_cast at c'
    refine ih (by show q.t < _; linarith) (by show q.y.length ≠ 0; rw [r1]; exact hne) ?_ (by show q.f.length = q.y.length; rw [r1, r2]) msg he
    show p.rhs q.t q.y = .ok q.f
    rw [← r4]; congr 1; ring

private theorem forward {p : IvpProblem ℝ} (h : p.x0 < p.x1) : direction p = 1 := by
  rcases direction_spec p with h' | h'
  · exact h'.1
  · linarith [h'.2]

/-- **C134**, the cause of a failure: integrating downstream, RK45 gives up only at a point from which a step shorter than fifty spacings of the
numbers misses the tolerances. -/
theorem rk45_failure {gap : ℝ → ℝ → ℝ} {m : ℝ} (hg : Spaced gap m) {p : IvpProblem ℝ} {r : Run ℝ} (R : Runs gap p r) (hx : p.x0 < p.x1)
    (hy : p.y0 ≠ []) (msg : String) (hf : r.ending = .failed msg) :
    ∃ h, 0 < h ∧ (lastPt (p.x0, p.y0) r.steps).1 + h ≤ p.x1 ∧ h < 50 * gap (lastPt (p.x0, p.y0) r.steps).1 1 ∧
      MissesTolerance p (lastPt (p.x0, p.y0) r.steps) h := by
  cases R with
  | raised => cases hf
  | run hs S =>
    obtain ⟨h1, h2, h3, h4⟩ := start_state hs
    have := steps_failed hg S (forward hx) (by rw [h1]; exact hx) (by rw [h2]; simpa using hy) (by rw [h1, h2]; exact h3) (by rw [h2]; exact h4)
      msg hf
    rwa [h1, h2] at this

/-! ### Bounds -/

private theorem stage_bound {f : ℝ → List ℝ → Except Exc (List ℝ)} {n : ℕ} {x0 x1 L : ℝ} (G : LinearGrowth f n x0 x1 L) {t h Y M : ℝ}
    {y w v : List ℝ} (ht : t ∈ Set.Icc x0 x1) (h0 : 0 ≤ h) (hh : h ≤ x1 - x0) (hY : 0 ≤ Y) (hy : ∀ j, |y.getD j 0| ≤ Y) (hM : 0 ≤ M)
    (hw : f t w = .ok v) (hn : w.length = n) (c : ℕ → ℝ) (hc : ∀ j, w.getD j 0 = y.getD j 0 + h * c j) (hb : ∀ j, |c j| ≤ 25 * (M * (1 + Y))) :
    ∀ j, |v.getD j 0| ≤ (L * (1 + 25 * (x1 - x0) * M) + M) * (1 + Y) := fun j => by
  have hw' : ∀ j, |w.getD j 0| ≤ Y + (x1 - x0) * (25 * (M * (1 + Y))) := fun j => by
    rw [hc j]
    refine (abs_add_le _ _).trans (add_le_add (hy j) ?_)
    rw [abs_mul, abs_of_nonneg h0]
    exact mul_le_mul hh (hb j) (abs_nonneg _) (h0.trans hh)
  refine (G t ht w v hn hw _ hw' j).trans ?_
  have : L * (1 + (Y + (x1 - x0) * (25 * (M * (1 + Y))))) = L * (1 + 25 * (x1 - x0) * M) * (1 + Y) := by ring
  rw [this, add_mul]
  have : 0 ≤ M * (1 + Y) := mul_nonneg hM (by linarith)
  linarith

private theorem slopes_bounded {f : ℝ → List ℝ → Except Exc (List ℝ)} {n : ℕ} {x0 x1 L : ℝ} (G : LinearGrowth f n x0 x1 L) (hL : 0 ≤ L)
    (hx : x0 ≤ x1) : ∃ M, 0 ≤ M ∧ ∀ (t h Y : ℝ) (y yN : List ℝ) (k : Fin 7 → List ℝ), x0 ≤ t → 0 ≤ h → t + h ≤ x1 → y.length = n → 0 ≤ Y →
      (∀ j, |y.getD j 0| ≤ Y) → DormandPrince f t h y yN k → ∀ i j, |(k i).getD j 0| ≤ M * (1 + Y) := by
  have up : ∀ M, 0 ≤ M → ∃ M', 0 ≤ M' ∧ M ≤ M' ∧ L * (1 + 25 * (x1 - x0) * M) + M = M' := fun M hM => by
    have : 0 ≤ L * (1 + 25 * (x1 - x0) * M) := mul_nonneg hL (by nlinarith [mul_nonneg (sub_nonneg.2 hx) hM])
    exact ⟨_, by linarith, by linarith, rfl⟩
  have m1 : 0 ≤ L := hL
  obtain ⟨M2, m2, l2, u2⟩ := up _ m1
  obtain ⟨M3, m3, l3, u3⟩ := up _ m2
  obtain ⟨M4, m4, l4, u4⟩ := up _ m3
  obtain ⟨M5, m5, l5, u5⟩ := up _ m4
  obtain ⟨M6, m6, l6, u6⟩ := up _ m5
  obtain ⟨M7, m7, l7, u7⟩ := up _ m6
  refine ⟨M7, m7, fun t h Y y yN k ht h0 hth hn hY hy dp => ?_⟩
  have hZ : 0 ≤ 1 + Y := by linarith
  have hh : h ≤ x1 - x0 := by linarith
  have hin : ∀ q : ℝ, 0 ≤ q → q ≤ 1 → t + q * h ∈ Set.Icc x0 x1 := fun q q0 q1 => ⟨by nlinarith [mul_nonneg q0 h0], by nlinarith⟩
  have lift : ∀ {M M' : ℝ} {x : ℝ}, M ≤ M' → |x| ≤ M * (1 + Y) → |x| ≤ M' * (1 + Y) := fun h1 h2 => h2.trans (mul_le_mul_of_nonneg_right h1 hZ)
  have b1 : ∀ j, |(k 0).getD j 0| ≤ L * (1 + Y) := fun j => G t ⟨ht, by linarith⟩ y _ hn dp.k1 Y hy j
  obtain ⟨w2, e2, n2, c2⟩ := dp.k2
  have b2 := stage_bound G (by have := hin (1/5) (by norm_num) (by norm_num); rwa [show 1/5 * h = h/5 by ring] at this) h0 hh hY hy m1 e2
    (n2.trans hn) _ c2 (fun j => by have := abs_le.1 (b1 j); rw [abs_le]; constructor <;> nlinarith [abs_nonneg ((k 0).getD j 0), b1 j])
  rw [u2] at b2
  obtain ⟨w3, e3, n3, c3⟩ := dp.k3
  have b3 := stage_bound G (hin _ (by norm_num) (by norm_num)) h0 hh hY hy m2 e3 (n3.trans hn) _ c3 (fun j => by
    have h1 := abs_le.1 (lift l2 (b1 j)); have h2 := abs_le.1 (b2 j); have := mul_nonneg m2 hZ
    rw [abs_le]; constructor <;> linarith [h1.1, h1.2, h2.1, h2.2])
  rw [u3] at b3
  obtain ⟨w4, e4, n4, c4⟩ := dp.k4
  have b4 := stage_bound G (hin _ (by norm_num) (by norm_num)) h0 hh hY hy m3 e4 (n4.trans hn) _ c4 (fun j => by
    have h1 := abs_le.1 (lift (l2.trans l3) (b1 j)); have h2 := abs_le.1 (lift l3 (b2 j)); have h3 := abs_le.1 (b3 j); have := mul_nonneg m3 hZ
    rw [abs_le]; constructor <;> linarith [h1.1, h1.2, h2.1, h2.2, h3.1, h3.2])
  rw [u4] at b4
  obtain ⟨w5, e5, n5, c5⟩ := dp.k5
  have b5 := stage_bound G (hin _ (by norm_num) (by norm_num)) h0 hh hY hy m4 e5 (n5.trans hn) _ c5 (fun j => by
    have h1 := abs_le.1 (lift ((l2.trans l3).trans l4) (b1 j)); have h2 := abs_le.1 (lift (l3.trans l4) (b2 j))
    have h3 := abs_le.1 (lift l4 (b3 j)); have h4 := abs_le.1 (b4 j); have := mul_nonneg m4 hZ
    rw [abs_le]; constructor <;> linarith [h1.1, h1.2, h2.1, h2.2, h3.1, h3.2, h4.1, h4.2])
  rw [u5] at b5
  obtain ⟨w6, e6, n6, c6⟩ := dp.k6
  have b6 := stage_bound G (by have := hin 1 (by norm_num) le_rfl; rwa [one_mul] at this) h0 hh hY hy m5 e6 (n6.trans hn) _ c6 (fun j => by
    have h1 := abs_le.1 (lift (((l2.trans l3).trans l4).trans l5) (b1 j)); have h2 := abs_le.1 (lift ((l3.trans l4).trans l5) (b2 j))
    have h3 := abs_le.1 (lift (l4.trans l5) (b3 j)); have h4 := abs_le.1 (lift l5 (b4 j)); have h5 := abs_le.1 (b5 j)
    have := mul_nonneg m5 hZ
    rw [abs_le]; constructor <;> linarith [h1.1, h1.2, h2.1, h2.2, h3.1, h3.2, h4.1, h4.2, h5.1, h5.2])
  rw [u6] at b6
  have b7 := stage_bound G (by have := hin 1 (by norm_num) le_rfl; rwa [one_mul] at this) h0 hh hY hy m6 dp.k7 (dp.size.1.trans hn) _ dp.new
    (fun j => by
      have h1 := abs_le.1 (lift ((((l2.trans l3).trans l4).trans l5).trans l6) (b1 j)); have h3 := abs_le.1 (lift ((l4.trans l5).trans l6) (b3 j))
      have h4 := abs_le.1 (lift (l5.trans l6) (b4 j)); have h5 := abs_le.1 (lift l6 (b5 j)); have h6 := abs_le.1 (b6 j)
      have := mul_nonneg m6 hZ
      rw [abs_le]; constructor <;> linarith [h1.1, h1.2, h3.1, h3.2, h4.1, h4.2, h5.1, h5.2, h6.1, h6.2])
  rw [u7] at b7
  intro i j
  fin_cases i
  · exact lift (((((l2.trans l3).trans l4).trans l5).trans l6).trans l7) (b1 j)
  · exact lift ((((l3.trans l4).trans l5).trans l6).trans l7) (b2 j)
  · exact lift (((l4.trans l5).trans l6).trans l7) (b3 j)
  · exact lift ((l5.trans l6).trans l7) (b4 j)
  · exact lift (l6.trans l7) (b5 j)
  · exact lift l7 (b6 j)
  · exact b7 j

/-- Bounds for the slopes of every step. -/
private def Slopes (f : ℝ → List ℝ → Except Exc (List ℝ)) (n : ℕ) (x0 x1 M : ℝ) : Prop :=
  ∀ (t h Y : ℝ) (y yN : List ℝ) (k : Fin 7 → List ℝ), x0 ≤ t → 0 ≤ h → t + h ≤ x1 → y.length = n → 0 ≤ Y → (∀ j, |y.getD j 0| ≤ Y) →
    DormandPrince f t h y yN k → ∀ i j, |(k i).getD j 0| ≤ M * (1 + Y)

/-- A state that has not grown faster than exponentially. -/
private def Bounded (x0 M Z t : ℝ) (y : List ℝ) : Prop := ∀ j, 1 + |y.getD j 0| ≤ Z * Real.exp (2 * M * (t - x0))

private theorem step_bounded {f : ℝ → List ℝ → Except Exc (List ℝ)} {n : ℕ} {x0 x1 M Z t h : ℝ} {y yN : List ℝ} {k : Fin 7 → List ℝ} (hM : 0 ≤ M)
    (hZ : 1 ≤ Z) (hb : Slopes f n x0 x1 M) (h0 : x0 ≤ t) (hh : 0 < h) (h1 : t + h ≤ x1) (hn : y.length = n) (hj : Bounded x0 M Z t y)
    (dp : DormandPrince f t h y yN k) : Bounded x0 M Z (t + h) yN ∧ ∀ j, |dpError h k j| ≤ h * (M * (Z * Real.exp (2 * M * (x1 - x0)))) := by
  unfold Bounded at hj ⊢
  set E := Z * Real.exp (2 * M * (t - x0)) with hE
  have hE1 : 1 ≤ E := by
    have : 1 ≤ Real.exp (2 * M * (t - x0)) := Real.one_le_exp (mul_nonneg (by linarith) (by linarith))
    nlinarith
  have hk := hb t h (E - 1) y yN k h0 hh.le h1 hn (by linarith) (fun j => by linarith [hj j]) dp
  rw [show 1 + (E - 1) = E by ring] at hk
  have hME : 0 ≤ M * E := mul_nonneg hM (by linarith)
  refine ⟨fun j => ?_, fun j => ?_⟩
  · have hc : |35/384 * (k 0).getD j 0 + 500/1113 * (k 2).getD j 0 + 125/192 * (k 3).getD j 0 - 2187/6784 * (k 4).getD j 0
        + 11/84 * (k 5).getD j 0| ≤ 2 * (M * E) := by
      have k0 := abs_le.1 (hk 0 j); have k2 := abs_le.1 (hk 2 j); have k3 := abs_le.1 (hk 3 j); have k4 := abs_le.1 (hk 4 j)
      have k5 := abs_le.1 (hk 5 j)
      rw [abs_le]; constructor <;> linarith [k0.1, k0.2, k2.1, k2.2, k3.1, k3.2, k4.1, k4.2, k5.1, k5.2]
    have h6 : |yN.getD j 0| ≤ |y.getD j 0| + h * (2 * (M * E)) := by
      rw [dp.new j]
      refine (abs_add_le _ _).trans (add_le_add le_rfl ?_)
      rw [abs_mul, abs_of_pos hh]
      exact mul_le_mul_of_nonneg_left hc hh.le
    have h7 : E * (1 + 2 * M * h) ≤ Z * Real.exp (2 * M * (t + h - x0)) := by
      have : Z * Real.exp (2 * M * (t + h - x0)) = E * Real.exp (2 * M * h) := by
        rw [hE, mul_assoc Z, ← Real.exp_add]; congr 2; ring
      rw [this]
      exact mul_le_mul_of_nonneg_left (by linarith [Real.add_one_le_exp (2 * M * h)]) (by linarith)
    calc 1 + |yN.getD j 0| ≤ E + h * (2 * (M * E)) := by linarith [hj j]
      _ = E * (1 + 2 * M * h) := by ring
      _ ≤ _ := h7
  · unfold dpError
    rw [abs_mul, abs_of_pos hh]
    refine mul_le_mul_of_nonneg_left (le_trans (b := M * E) ?_ ?_) hh.le
    · have k0 := abs_le.1 (hk 0 j); have k2 := abs_le.1 (hk 2 j); have k3 := abs_le.1 (hk 3 j); have k4 := abs_le.1 (hk 4 j)
      have k5 := abs_le.1 (hk 5 j); have k6 := abs_le.1 (hk 6 j)
      rw [abs_le]; constructor <;> linarith [k0.1, k0.2, k2.1, k2.2, k3.1, k3.2, k4.1, k4.2, k5.1, k5.2, k6.1, k6.2]
    · refine mul_le_mul_of_nonneg_left (mul_le_mul_of_nonneg_left (Real.exp_le_exp.2 ?_) (by linarith)) hM
      exact mul_le_mul_of_nonneg_left (by linarith) (by linarith)

private theorem states_bounded {f : ℝ → List ℝ → Except Exc (List ℝ)} {n : ℕ} {x0 x1 M Z atol rtol : ℝ} (hM : 0 ≤ M) (hZ : 1 ≤ Z)
    (hb : Slopes f n x0 x1 M) : ∀ (l : List (Step ℝ)) (a : ℝ × List ℝ), DpSteps f atol rtol a l → x0 ≤ a.1 → a.2.length = n →
      (∀ s ∈ l, s.t ≤ x1) → Bounded x0 M Z a.1 a.2 →
      x0 ≤ (lastPt a l).1 ∧ (lastPt a l).2.length = n ∧ Bounded x0 M Z (lastPt a l).1 (lastPt a l).2
  | [], a, _, h0, hn, _, hj => ⟨h0, hn, hj⟩
  | s :: l, a, ⟨h1, _, _, ⟨k, dp, _⟩, h5⟩, h0, hn, hl, hj => by
    have hs := hl s (by simp)
    have := (step_bounded hM hZ hb h0 (by linarith : 0 < s.t - a.1) (by linarith) hn hj dp).1
    rw [show a.1 + (s.t - a.1) = s.t by ring] at this
    exact states_bounded hM hZ hb l s.pt h5 (by show x0 ≤ s.t; linarith) (dp.size.1.trans hn) (fun q hq => hl q (by simp [hq])) this

/-- The error estimate of a step, in units of the tolerance, is at most proportional to its length. -/
private theorem bounds_exist {p : IvpProblem ℝ} {L : ℝ} (G : LinearGrowth p.rhs p.y0.length p.x0 p.x1 L) (ha : 0 < p.atol) (hx : p.x0 < p.x1) :
    ∃ M Z κ, 0 ≤ M ∧ 1 ≤ Z ∧ 0 < κ ∧ Slopes p.rhs p.y0.length p.x0 p.x1 M ∧ Bounded p.x0 M Z p.x0 p.y0 ∧
      ∀ (t h : ℝ) (y yN : List ℝ) (k : Fin 7 → List ℝ), p.x0 ≤ t → 0 < h → t + h ≤ p.x1 → y.length = p.y0.length → Bounded p.x0 M Z t y →
        DormandPrince p.rhs t h y yN k → ∀ j, |dpError h k j / (p.atol + effectiveRtol p.rtol * max |y.getD j 0| |yN.getD j 0|)| ≤ κ * h := by
  have G' : LinearGrowth p.rhs p.y0.length p.x0 p.x1 |L| := fun t ht y v hn hv Y hY j =>
    (G t ht y v hn hv Y hY j).trans (mul_le_mul_of_nonneg_right (le_abs_self L) (by linarith [(abs_nonneg _).trans (hY 0)]))
  obtain ⟨M, hM, hb⟩ := slopes_bounded G' (abs_nonneg L) hx.le
  obtain ⟨Y, hY⟩ : ∃ Y, ∀ j, |p.y0.getD j 0| ≤ Y := by
    refine ⟨(p.y0.map fun v => |v|).sum, fun j => ?_⟩
    rcases lt_or_ge j p.y0.length with hj | hj
    · rw [List.getD_eq_getElem?_getD, List.getElem?_eq_getElem hj, Option.getD_some]
      exact List.single_le_sum (by simp) _ (List.mem_map_of_mem (List.getElem_mem hj))
    · rw [List.getD_eq_getElem?_getD, List.getElem?_eq_none hj]
      simp only [Option.getD_none, abs_zero]
      exact List.sum_nonneg (by simp)
  have hY0 := (abs_nonneg _).trans (hY 0)
  have hZ : 1 ≤ 1 + Y := by linarith
  set N := M * ((1 + Y) * Real.exp (2 * M * (p.x1 - p.x0))) with hN
  have hN0 : 0 ≤ N := by positivity
  refine ⟨M, 1 + Y, (N + 1) / p.atol, hM, hZ, by positivity, hb, fun j => by simpa using hY j, fun t h y yN k h0 hh h1 hn hj dp j => ?_⟩
  have he := (step_bounded hM hZ hb h0 hh h1 hn hj dp).2 j
  have hr : 0 ≤ effectiveRtol p.rtol := le_max_of_le_right (by norm_num)
  have hs : p.atol ≤ p.atol + effectiveRtol p.rtol * max |y.getD j 0| |yN.getD j 0| := by
    have := mul_nonneg hr (le_max_of_le_left (abs_nonneg (y.getD j 0)) : 0 ≤ max |y.getD j 0| |yN.getD j 0|)
    linarith
  rw [abs_div, abs_of_pos (ha.trans_le hs), div_mul_eq_mul_div]
  exact div_le_div₀ (by positivity) (by rw [← hN] at he; nlinarith) ha hs

/-- **C134**, success: a right hand side that grows at most linearly, a positive absolute tolerance, numbers that are dense enough. Integrating
downstream RK45 does not give up. -/
theorem rk45_succeeds {p : IvpProblem ℝ} {L : ℝ} (G : LinearGrowth p.rhs p.y0.length p.x0 p.x1 L) (ha : 0 < p.atol) (hx : p.x0 < p.x1)
    (hy : p.y0 ≠ []) :
    ∃ g, 0 < g ∧ ∀ (gap : ℝ → ℝ → ℝ) (m : ℝ) (r : Run ℝ), Spaced gap m → (∀ t ∈ Set.Icc p.x0 p.x1, gap t 1 ≤ g) → Runs gap p r →
      ∀ msg, r.ending ≠ .failed msg := by
  obtain ⟨M, Z, κ, hM, hZ, hκ, hb, hstart, herr⟩ := bounds_exist G ha hx
  refine ⟨1 / (50 * κ), by positivity, fun gap m r hg hgap R msg hf => ?_⟩
  obtain ⟨h, h0, h1, h2, yN, k, dp, h3⟩ := rk45_failure hg R hx hy msg hf
  obtain ⟨c1, c2, -, -⟩ := rk45_steps hg R hx hy
  obtain ⟨b1, b2, b3⟩ := states_bounded hM hZ hb r.steps (p.x0, p.y0) c1 le_rfl rfl (fun s hs => (c2 s hs).2.1) hstart
  generalize lastPt (p.x0, p.y0) r.steps = a at h1 h2 dp h3 b1 b2 b3
  have hg' := hgap a.1 ⟨b1, by linarith⟩
  rw [le_div_iff₀ (by positivity)] at hg'
  have hsmall : κ * h < 1 := by nlinarith
  have hlen : a.2.length ≠ 0 := by rw [b2]; simpa using hy
  refine absurd h3 (not_le.2 ?_)
  calc _ < ∑ j ∈ Finset.range a.2.length, (1:ℝ) := Finset.sum_lt_sum_of_nonempty (Finset.nonempty_range_iff.2 hlen) fun j _ => by
        rw [sq_lt_one_iff_abs_lt_one]
        exact (herr a.1 h a.2 yN k b1 h0 h1 b2 b3 dp j).trans_lt hsmall
    _ = _ := by simp

/-! ### How many steps -/

private theorem growth_ge {err : ℝ} (rej : Bool) (h0 : 0 ≤ err) (h1 : err < 1) : 9/10 ≤ growth rej err ∧ (err ≤ 1/32 → 1 ≤ growth rej err) := by
  have key : ∀ c : ℝ, c ≤ 1 → (err = 0 ∨ c ≤ RungeKutta.control err) → c ≤ growth rej err := fun c hc hcc => by
    have hf : c ≤ (if PyCmp.eq err (lit 0) then (lit 10 : ℝ) else pyMin (lit 10) (RungeKutta.control err)) := by
      by_cases he : err = 0
      · simp [he]; linarith
      · have : ¬ PyCmp.eq err (lit 0 : ℝ) = true := by simpa using he
        rw [if_neg this]
        unfold pyMin
        split_ifs
        · exact hcc.resolve_left he
        · simp only [real_lit]; push_cast; linarith
    unfold growth
    simp only
    generalize (if PyCmp.eq err (lit 0) then (lit 10 : ℝ) else pyMin (lit 10) (RungeKutta.control err)) = x at hf
    cases rej
    · exact hf
    · rw [if_pos rfl]
      unfold pyMin
      split_ifs
      · exact hf
      · simpa using hc
  have hpow : 0 < err → ∀ b : ℝ, 0 < b → err ≤ b → b ^ (-(1/5) : ℝ) ≤ err ^ (-(1/5) : ℝ) := fun hp b hb hle =>
    Real.rpow_le_rpow_of_nonpos hp hle (by norm_num)
  have hctl : RungeKutta.control err = 9/10 * err ^ (-(1/5) : ℝ) := by simp only [RungeKutta.control, real_lit, real_pow]; push_cast; rfl
  refine ⟨key _ (by norm_num) ?_, fun hs => key _ le_rfl ?_⟩
  · rcases h0.eq_or_lt with h | h
    · exact .inl h.symm
    · right
      have := hpow h 1 one_pos h1.le
      rw [Real.one_rpow] at this
      rw [hctl]; linarith
  · rcases h0.eq_or_lt with h | h
    · exact .inl h.symm
    · right
      have := hpow h (1/32) (by norm_num) hs
      rw [show (1/32 : ℝ) ^ (-(1/5) : ℝ) = 2 by
        rw [show (1/32 : ℝ) = 2 ^ (-5 : ℝ) by rw [Real.rpow_neg (by norm_num)]; norm_num, ← Real.rpow_mul (by norm_num)]; norm_num] at this
      rw [hctl]; linarith

private theorem pyMin_pos {a b : ℝ} (ha : 0 < a) (hb : 0 < b) : 0 < pyMin a b := by unfold pyMin; split_ifs <;> assumption

private theorem initialStep_pos {p : IvpProblem ℝ} (hx : p.x0 < p.x1) (hy : p.y0 ≠ []) {f : List ℝ} {h : ℝ} (e : initialStep p f = .ok h) : 0 < h := by
  have hlen : 0 < |p.x1 - p.x0| := abs_pos.2 (by linarith)
  unfold initialStep at e
  simp only at e
  rw [if_neg (by simp [hy, sub_eq_zero, hx.ne'])] at e
  split at e
  · cases e
  · next f1 _ =>
    cases e
    generalize RungeKutta.norm (vdiv p.y0 (p.y0.map fun u => p.atol + PyCmp.abs u * relTol p)) = d0
    generalize RungeKutta.norm (vdiv f (p.y0.map fun u => p.atol + PyCmp.abs u * relTol p)) = d1
    have h0 : 0 < pyMin (if (PyCmp.lt d0 (lit (1/100000)) || PyCmp.lt d1 (lit (1/100000))) = true then lit (1/1000000) else lit (1/100) * d0 / d1)
        (PyCmp.abs (p.x1 - p.x0)) := by
      refine pyMin_pos ?_ hlen
      split_ifs with hc
      · norm_num
      · simp only [Bool.or_eq_true, real_lt, real_lit, not_or, not_lt] at hc
        push_cast at hc
        have a0 : 0 < d0 := by linarith [hc.1]
        have a1 : 0 < d1 := by linarith [hc.2]
        simp only [real_lit]
        push_cast
        positivity
    generalize pyMin (if (PyCmp.lt d0 (lit (1/100000)) || PyCmp.lt d1 (lit (1/100000))) = true then lit (1/1000000) else lit (1/100) * d0 / d1)
        (PyCmp.abs (p.x1 - p.x0)) = hh at h0
    generalize RungeKutta.norm _ / hh = d2
    refine pyMin_pos (pyMin_pos (by simpa using h0) ?_) hlen
    split_ifs with hc
    · unfold pyMax
      split_ifs
      · simp only [real_lit]; push_cast; positivity
      · norm_num
    · have hm : 0 < pyMax d1 d2 := by
        unfold pyMax
        simp only [Bool.and_eq_true, real_le, real_lit, not_and_or, not_le, PyCmp.gt, real_lt] at hc ⊢
        push_cast at hc
        have t : (0:ℝ) < 1 / 10 ^ 15 := by positivity
        split_ifs with hg
        · rcases hc with h | h <;> linarith
        · rcases hc with h | h <;> linarith
      simp only [real_pow, real_lit]
      push_cast
      exact Real.rpow_pos_of_pos (by positivity) _

private theorem rms_le {n : ℕ} (hn : n ≠ 0) {x : ℕ → ℝ} {B : ℝ} (hB : 0 ≤ B) (h : ∀ j, |x j| ≤ B) :
    Real.sqrt (∑ j ∈ Finset.range n, x j ^ 2) / Real.sqrt n ≤ B := by
  have hn' : (0:ℝ) < n := by exact_mod_cast Nat.pos_of_ne_zero hn
  rw [div_le_iff₀ (Real.sqrt_pos.2 hn'), mul_comm]
  refine Real.sqrt_le_iff.2 ⟨mul_nonneg (Real.sqrt_nonneg _) hB, ?_⟩
  rw [mul_pow, Real.sq_sqrt hn'.le]
  calc ∑ j ∈ Finset.range n, x j ^ 2 ≤ ∑ j ∈ Finset.range n, B ^ 2 := Finset.sum_le_sum fun j _ => by
        rw [← sq_abs]; exact pow_le_pow_left₀ (abs_nonneg _) (h j) 2
    _ = n * B ^ 2 := by simp

/-- What holds between two steps of a run downstream. -/
private structure Between (p : IvpProblem ℝ) (M Z c : ℝ) (s : St ℝ) : Prop where
  after : p.x0 ≤ s.t
  before : s.t < p.x1
  size : s.y.length = p.y0.length
  slope : p.rhs s.t s.y = .ok s.f
  slopes : s.f.length = s.y.length
  bound : Bounded p.x0 M Z s.t s.y
  step : c ≤ s.hAbs

private theorem trial_error {p : IvpProblem ℝ} {M Z κ c : ℝ} {s : St ℝ} (hy : p.y0 ≠ []) (hκ : 0 < κ) (dir : direction p = 1)
    (herr : ∀ (t h : ℝ) (y yN : List ℝ) (k : Fin 7 → List ℝ), p.x0 ≤ t → 0 < h → t + h ≤ p.x1 → y.length = p.y0.length → Bounded p.x0 M Z t y →
        DormandPrince p.rhs t h y yN k → ∀ j, |dpError h k j / (p.atol + effectiveRtol p.rtol * max |y.getD j 0| |yN.getD j 0|)| ≤ κ * h)
    (I : Between p M Z c s) {h : ℝ} (hh : 0 < h) {q : Trial ℝ} (e : trial p s h = .ok q) :
    0 < q.h ∧ |q.h| = q.h ∧ q.h = q.t - s.t ∧ q.h = min h (p.x1 - s.t) ∧ 0 ≤ q.err ∧ q.err ≤ κ * q.h ∧
      ∃ k, DormandPrince p.rhs s.t (q.t - s.t) s.y q.y k := by
  obtain ⟨a1, a2, -⟩ := trial_abs hh (by rw [dir]; linarith [I.before]) e
  obtain ⟨q1, q2, q3, q4⟩ := trial_ok e
  rw [dir, one_mul] at a1 a2
  rw [dir, one_mul, one_mul] at q2
  obtain ⟨k, dp, hK⟩ := rkStep_textbook I.slope I.slopes q3
  have hle : q.h ≤ p.x1 - s.t := by rw [q2]; exact min_le_right _ _
  refine ⟨a2, a1, q1, q2, by rw [q4]; exact RungeKutta.norm_nonneg _, ?_, k, dp⟩
  rw [error_value dp hK e]
  rw [q1] at a2 hle ⊢
  refine rms_le (by rw [I.size]; simpa using hy) (by positivity) fun j => ?_
  exact herr s.t (q.t - s.t) s.y q.y k I.after a2 (by linarith) I.size I.bound dp j

private theorem tries_long {p : IvpProblem ℝ} {M Z κ c m : ℝ} {s s' : St ℝ} {st : Step ℝ} {rej : Bool} {h : ℝ} (hy : p.y0 ≠ []) (hκ : 0 < κ)
    (dir : direction p = 1)
    (herr : ∀ (t h : ℝ) (y yN : List ℝ) (k : Fin 7 → List ℝ), p.x0 ≤ t → 0 < h → t + h ≤ p.x1 → y.length = p.y0.length → Bounded p.x0 M Z t y →
        DormandPrince p.rhs t h y yN k → ∀ j, |dpError h k j / (p.atol + effectiveRtol p.rtol * max |y.getD j 0| |yN.getD j 0|)| ≤ κ * h)
    (I : Between p M Z c s) (hc0 : 0 < c) (hc : c ≤ 1 / (160 * κ)) (T : Tries p m s rej h (.accepted s' st)) (hh : c ≤ h) :
    ∃ h' q rej', c ≤ h' ∧ trial p s h' = .ok q ∧ q.err < 1 ∧ s' = ⟨q.t, q.y, q.f, |q.h| * growth rej' q.err⟩ ∧
      st = ⟨q.t, q.y, denseOutput s.t q.t s.y q.K⟩ := by
  generalize ho : Outcome.accepted s' st = o at T
  induction T with
  | small => cases ho
  | raised => cases ho
  | @accept rej h q h1 h2 h3 =>
    cases ho
    exact ⟨h, q, rej, hh, h2, by simpa using h3, rfl, rfl⟩
  | @reject rej h q o h1 h2 h3 _ ih =>
    have he : 1 ≤ q.err := by
      by_contra hn
      rw [(by simpa using hn : PyCmp.lt q.err (lit 1) = true)] at h3
      cases h3
    obtain ⟨t1, t2, -, -, -, t6, -⟩ := trial_error hy hκ dir herr I (hc0.trans_le hh) h2
    refine ih ?_ ho
    have hge : (1/5 : ℝ) ≤ pyMax (lit (1/5)) (RungeKutta.control q.err) := by
      unfold pyMax
      split_ifs with hg
      · simp only [PyCmp.gt, real_lt, real_lit] at hg
        push_cast at hg; exact hg.le
      · simp
    show c ≤ |q.h| * _
    rw [t2]
    have hq : 1 / κ ≤ q.h := by rw [div_le_iff₀ hκ]; linarith
    calc c ≤ 1 / (160 * κ) := hc
      _ = 1 / κ * (1/160) := by field_simp
      _ ≤ q.h * (1/5) := mul_le_mul hq (by norm_num) (by norm_num) t1.le
      _ ≤ _ := mul_le_mul_of_nonneg_left hge t1.le

private theorem steps_count {gap : ℝ → ℝ → ℝ} {p : IvpProblem ℝ} {M Z κ c : ℝ} (hM : 0 ≤ M) (hZ : 1 ≤ Z)
    (hb : Slopes p.rhs p.y0.length p.x0 p.x1 M) (hy : p.y0 ≠ []) (hκ : 0 < κ)
    (dir : direction p = 1)
    (herr : ∀ (t h : ℝ) (y yN : List ℝ) (k : Fin 7 → List ℝ), p.x0 ≤ t → 0 < h → t + h ≤ p.x1 → y.length = p.y0.length → Bounded p.x0 M Z t y →
        DormandPrince p.rhs t h y yN k → ∀ j, |dpError h k j / (p.atol + effectiveRtol p.rtol * max |y.getD j 0| |yN.getD j 0|)| ≤ κ * h)
    (hc0 : 0 < c) (hc : c ≤ 1 / (160 * κ)) {s : St ℝ} {r : Run ℝ} (S : Steps gap p s r) (I : Between p M Z c s) :
    c * ((r.steps.length : ℝ) - 1) ≤ p.x1 - s.t := by
  have first : ∀ s : St ℝ, c ≤ s.hAbs → c ≤ firstTry (minStep gap p s.t) s.hAbs := fun s h => by
    unfold firstTry
    split_ifs with hl
    · simp only [real_lt] at hl; linarith
    · exact h
  induction S with
  | trivial => simp; linarith [I.before]
  | small => simp; linarith [I.before]
  | raised => simp; linarith [I.before]
  | last => simp; linarith [I.before]
  | @more s s' st run _ _ T e _ ih =>
    obtain ⟨h', q, rej', h1, h2, h3, rfl, rfl⟩ := tries_long hy hκ dir herr I hc0 hc T (first _ I.step)
    obtain ⟨t1, t2, t3, t4, t5, t6, k, dp⟩ := trial_error hy hκ dir herr I (hc0.trans_le h1) h2
    obtain ⟨-, -, q3, -⟩ := trial_ok h2
    obtain ⟨r1, r2, -, r4, -⟩ := rkStep_ok rfl I.slopes q3
    have e' : ¬ PyCmp.ge (direction p * (q.t - p.x1)) (lit 0) = true := by rw [e]; simp
    rw [real_ge, dir, real_lit] at e'
    push_cast at e'
    have hlt : q.t < p.x1 := by linarith
    have hq : q.h = h' := by
      rcases min_choice h' (p.x1 - s.t) with h | h <;> rw [h] at t4
      · exact t4
      · linarith
    have hbd := (step_bounded hM hZ hb I.after (by linarith : 0 < q.t - s.t) (by linarith) I.size I.bound dp).1
    rw [show s.t + (q.t - s.t) = q.t by ring] at hbd
    have hstep : c ≤ |q.h| * growth rej' q.err := by
      rw [t2]
      obtain ⟨g1, g2⟩ := growth_ge rej' t5 h3
      rcases le_or_gt q.h (1 / (32 * κ)) with hs | hs
      · have : q.err ≤ 1/32 := by
          rw [le_div_iff₀ (by positivity)] at hs
          linarith
        have := g2 this
        rw [hq] at t1 ⊢
        nlinarith
      · have : 1 / (160 * κ) = 1 / (32 * κ) * (1/5) := by field_simp; norm_num
        rw [this] at hc
        nlinarith
    have := ih ⟨by show p.x0 ≤ q.t; linarith [I.after], hlt, by show q.y.length = _; rw [r1]; exact I.size, by
      show p.rhs q.t q.y = .ok q.f
      rw [← r4]; congr 1; ring, by show q.f.length = q.y.length; rw [r1, r2], hbd, hstep⟩
    replace this : c * ((run.steps.length : ℝ) - 1) ≤ p.x1 - q.t := this
    show c * (((_ :: run.steps).length : ℝ) - 1) ≤ _
    rw [List.length_cons]
    push_cast
    have : c ≤ q.t - s.t := by rw [← t3, hq]; exact h1
    nlinarith

/-- **C134**, effort: with a right hand side that grows at most linearly and a positive absolute tolerance, the number of steps downstream is bounded,
whatever the spacing of the numbers. -/
theorem rk45_step_count {p : IvpProblem ℝ} {L : ℝ} (G : LinearGrowth p.rhs p.y0.length p.x0 p.x1 L) (ha : 0 < p.atol) (hx : p.x0 < p.x1)
    (hy : p.y0 ≠ []) : ∃ N : ℕ, ∀ (gap : ℝ → ℝ → ℝ) (r : Run ℝ), Runs gap p r → r.steps.length ≤ N := by
  obtain ⟨M, Z, κ, hM, hZ, hκ, hb, hstart, herr⟩ := bounds_exist G ha hx
  rcases hs : start p with e | s
  · refine ⟨0, fun gap r R => ?_⟩
    cases R with
    | raised => simp
    | run h => rw [hs] at h; cases h
  · obtain ⟨h1, h2, h3, h4⟩ := start_state hs
    have hpos : 0 < s.hAbs := by
      unfold start at hs
      split_ifs at hs
      split at hs
      · cases hs
      · split at hs
        · cases hs
        · next he => cases hs; exact initialStep_pos hx hy he
    set c := min s.hAbs (1 / (160 * κ)) with hc
    have hc0 : 0 < c := lt_min hpos (by positivity)
    obtain ⟨N, hN⟩ := exists_nat_ge ((p.x1 - p.x0) / c + 1)
    refine ⟨N, fun gap r R => ?_⟩
    cases R with
    | raised => simp
    | run h S =>
      rw [hs] at h
      cases h
      have := steps_count hM hZ hb hy hκ (forward hx) herr hc0 (min_le_right _ _) S ⟨by rw [h1], by rw [h1]; exact hx, by rw [h2],
        by rw [h1, h2]; exact h3, by rw [h2]; exact h4, by rw [h1, h2]; exact hstart, min_le_left _ _⟩
      rw [h1] at this
      have h5 : (r.steps.length : ℝ) - 1 ≤ (p.x1 - p.x0) / c := by rw [le_div_iff₀ hc0]; linarith
      have : (r.steps.length : ℝ) ≤ N := by linarith
      exact_mod_cast this

/-! ### Thwaites' methods -/

/-- Fits whose wall shear and shape factor are bounded. -/
def BoundedFits (m : Fits ℝ) : Prop := ∃ B, ∀ lam, |m.shearAt lam| ≤ B ∧ |m.shapeAt lam| ≤ B

/-- The velocity between `x0` and `x1` is bounded away from zero (up to the 0.001 that the method adds) and its gradient is bounded. -/
def GentleFlow (vel : VelState ℝ) (x0 x1 : ℝ) : Prop :=
  ∃ c D, 0 < c ∧ ∀ t ∈ Set.Icc x0 x1, ∃ u d, vel.uE t = .ok u ∧ vel.duE t = .ok d ∧ c ≤ 1/1000 + u ∧ |d| ≤ D

private theorem thwaites_growth {o : Obj ℝ} {x0 x1 : ℝ} (hc : o.cls.isThwaites = true) (hf : o.cls = .thwaitesNonlinear → ∃ m, o.fits = some m ∧ BoundedFits m)
    (hv : GentleFlow o.vel x0 x1) : ∃ L, LinearGrowth o.rhs 1 x0 x1 L := by
  obtain ⟨c, D, hc0, hv⟩ := hv
  have key : ∀ A : ℝ, 0 ≤ A → (∀ F d, |d| ≤ D → ∀ t, o.vel.duE t = .ok d → ∀ v, o.calcF t F = .ok v → |v| ≤ A * (1 + |F|)) →
      LinearGrowth o.rhs 1 x0 x1 (A / c) := fun A hA hA' t ht y v hn hr Y hY j => by
    obtain ⟨u, d, hu, hd, hcu, hdD⟩ := hv t ht
    match y, hn with
    | [F], _ =>
      have e : o.rhs t [F] = (o.calcF t F).map fun q => [q / (1/1000 + u)] := by
        rcases h : o.cls with _ | _ | _ <;> rw [h] at hc
        · simp [Obj.rhs, h, Obj.thwaitesRhs, hu, bind, Except.bind, pure, Except.pure, Except.map]
          rcases o.calcF t F with _ | _ <;> simp
        · simp [Obj.rhs, h, Obj.thwaitesRhs, hu, bind, Except.bind, pure, Except.pure, Except.map]
          rcases o.calcF t F with _ | _ <;> simp
        · cases hc
      rw [e] at hr
      rcases hq : o.calcF t F with _ | q <;> rw [hq] at hr
      · cases hr
      · cases hr
        have h1 := hA' F d hdD t hd q hq
        have h2 : |F| ≤ Y := by simpa using hY 0
        have hY0 : 0 ≤ Y := (abs_nonneg _).trans h2
        rcases j with _ | j
        · show |q / (1/1000 + u)| ≤ _
          rw [abs_div, abs_of_pos (hc0.trans_le hcu), div_mul_eq_mul_div]
          exact div_le_div₀ (mul_nonneg hA (by linarith)) (h1.trans (mul_le_mul_of_nonneg_left (by linarith) hA)) hc0 hcu
        · simp only [List.getD_cons_succ, List.getD_nil, abs_zero]
          exact mul_nonneg (div_nonneg hA hc0.le) (by linarith)
  have hD : 0 ≤ |D| := abs_nonneg D
  rcases h : o.cls with _ | _ | _
  · refine ⟨_, key (45/100 + 6 * |D|) (by linarith) fun F d hd t hdu v hv => ?_⟩
    simp only [Obj.calcF, h, Obj.calcLambda, hdu, bind, Except.bind, pure, Except.pure, real_lit, Except.ok.injEq] at hv
    rw [← hv]
    push_cast
    have hl : |F * d| ≤ |F| * |D| := by rw [abs_mul]; exact mul_le_mul_of_nonneg_left (hd.trans (le_abs_self D)) (abs_nonneg _)
    have := abs_le.1 hl
    have h3 := abs_nonneg F
    have h4 := mul_nonneg h3 hD
    rw [abs_le]
    constructor <;> nlinarith
  · obtain ⟨m, hm, B, hB⟩ := hf h
    have hB0 : 0 ≤ B := (abs_nonneg _).trans (hB 0).1
    refine ⟨_, key (2 * B + 2 * |D| * (B + 2)) (by positivity) fun F d hd t hdu v hv => ?_⟩
    simp only [Obj.calcF, h, hm, Obj.calcLambda, hdu, bind, Except.bind, pure, Except.pure, Except.ok.injEq] at hv
    rw [← hv, Fits.fAt]
    simp only [real_lit]
    push_cast
    have hl : |F * d| ≤ |F| * |D| := by rw [abs_mul]; exact mul_le_mul_of_nonneg_left (hd.trans (le_abs_self D)) (abs_nonneg _)
    obtain ⟨h1, h2⟩ := hB (F * d)
    have h3 := abs_nonneg F
    have h4 : |m.shapeAt (F * d) + 2| ≤ B + 2 := (abs_add_le _ _).trans (by rw [abs_two]; linarith)
    have h5 : |F * d * (m.shapeAt (F * d) + 2)| ≤ |F| * |D| * (B + 2) := by
      rw [abs_mul]; exact mul_le_mul hl h4 (abs_nonneg _) (mul_nonneg h3 hD)
    rw [abs_mul, abs_two]
    have h6 := abs_sub (m.shearAt (F * d)) (F * d * (m.shapeAt (F * d) + 2))
    have h7 := mul_nonneg h3 hB0
    have h8 := mul_nonneg hD (by linarith : 0 ≤ B + 2)
    nlinarith
  · rw [h] at hc; cases hc

/-- **C134** for `solve`: Thwaites' methods (the nonlinear one with bounded fits) in a flow whose velocity is bounded away from zero and whose gradient
is bounded. If the numbers are dense enough a run that returns is successful: it reached the end, or was ended by an event. -/
theorem thwaites_solve_succeeds {o : Obj ℝ} {x0 x1 : ℝ} (te : TermArg ℝ) (hc : o.cls.isThwaites = true)
    (hf : o.cls = .thwaitesNonlinear → ∃ m, o.fits = some m ∧ BoundedFits m) (hv : GentleFlow o.vel x0 x1) (hx : x0 < x1) :
    ∃ g, 0 < g ∧ ∀ (gap : ℝ → ℝ → ℝ) (m : ℝ) (stepper : Stepper ℝ) (root : RootFinder ℝ) (o'' : Obj ℝ) (r : IntegrationResult ℝ), Spaced gap m →
      (∀ t ∈ Set.Icc x0 x1, gap t 1 ≤ g) → (∀ p, Runs gap p (stepper p)) → o.solve x0 x1 te (ivp o.eventValue stepper root) = (o'', .ok r) →
      r.success = true ∧ ((r.status = .reachedEnd ∧ r.xEnd = x1) ∨ ∃ e ∈ o.events ++ te.toList, r.status = e.info.1) := by
  rcases hp : o.prepare x0 x1 te with ⟨o', e | p⟩
  · refine ⟨1, one_pos, fun gap m stepper root o'' r _ _ _ hs => ?_⟩
    unfold Obj.solve at hs
    rw [hp] at hs
    cases hs
  · obtain ⟨h1, h2, h3, h4, h5, h6, h7, h8, h9⟩ := prepare_problem hp
    have hn : p.y0.length = 1 := by
      rw [h5]
      rcases h : o.cls with _ | _ | _ <;> rw [h] at hc <;> first | rfl | cases hc
    have hy : p.y0 ≠ [] := by intro h; rw [h] at hn; cases hn
    obtain ⟨L, hL⟩ := thwaites_growth (o := o') (x0 := x0) (x1 := x1) (by rw [h2]; exact hc) (by rw [h2, h4]; exact hf) (by rw [h3]; exact hv)
    obtain ⟨g, g0, hg⟩ := rk45_succeeds (p := p) (L := L) (by rw [h1, hn, h7, h8]; exact hL) (by rw [h9]; norm_num) (by rw [h7, h8]; exact hx) hy
    refine ⟨g, g0, fun gap m stepper root o'' r hsp hgap hst hs => ?_⟩
    have hnf := hg gap m (stepper p) hsp (by rw [h7, h8]; exact hgap) (hst p)
    cases solve_outcome o.eventValue stepper root hp (by rw [hs]) with
    | failed msg _ he => exact absurd he (hnf msg)
    | reached _ he hs' hxe hok =>
      obtain ⟨-, -, c3, -⟩ := rk45_steps hsp (hst p) (by rw [h7, h8]; exact hx) hy
      obtain ⟨st, l1, l2⟩ := c3.1 he
      refine ⟨hok, .inl ⟨hs', ?_⟩⟩
      obtain ⟨pre, e⟩ := List.getLast?_eq_some_iff.1 l1
      have last : ∀ (pre : List (Step ℝ)) (a : ℝ × List ℝ), lastPt a (pre ++ [st]) = st.pt := fun pre => by
        induction pre with
        | nil => intro a; rfl
        | cons q pre ih => intro a; exact ih _
      rw [hxe, e, last, ← h8]
      exact l2
    | stopped pre rest s i e' _ _ hi _ hst' _ hok =>
      refine ⟨hok, .inr ⟨e', ?_, hst'⟩⟩
      rw [← h6]
      exact List.mem_of_getElem? hi

/-- **C134**, effort of `solve` under the same conditions: the number of steps of the integrator is bounded, whatever the spacing of the numbers. -/
theorem thwaites_step_count {o o' : Obj ℝ} {x0 x1 : ℝ} {te : TermArg ℝ} {p : IvpProblem ℝ} (hc : o.cls.isThwaites = true)
    (hf : o.cls = .thwaitesNonlinear → ∃ m, o.fits = some m ∧ BoundedFits m) (hv : GentleFlow o.vel x0 x1) (hx : x0 < x1)
    (hp : o.prepare x0 x1 te = (o', .ok p)) : ∃ N : ℕ, ∀ (gap : ℝ → ℝ → ℝ) (r : Run ℝ), Runs gap p r → r.steps.length ≤ N := by
  obtain ⟨h1, h2, h3, h4, h5, h6, h7, h8, h9⟩ := prepare_problem hp
  have hn : p.y0.length = 1 := by
    rw [h5]
    rcases h : o.cls with _ | _ | _ <;> rw [h] at hc <;> first | rfl | cases hc
  have hy : p.y0 ≠ [] := by intro h; rw [h] at hn; cases hn
  obtain ⟨L, hL⟩ := thwaites_growth (o := o') (x0 := x0) (x1 := x1) (by rw [h2]; exact hc) (by rw [h2, h4]; exact hf) (by rw [h3]; exact hv)
  exact rk45_step_count (by rw [h1, hn, h7, h8]; exact hL) (by rw [h9]; norm_num) (by rw [h7, h8]; exact hx) hy

/-! ### Bounded fits -/

theorem boundedFits_spline {cs : CubicSpline ℝ} (hcs : TableSplines cs) : BoundedFits (Fits.spline cs) := by
  obtain ⟨K, hK, h⟩ := spline_lipschitz hcs
  refine ⟨|(Fits.spline cs).shearAt 0| + |(Fits.spline cs).shapeAt 0| + K, fun lam => ?_⟩
  have e : ∀ lam, max (-9/100 : ℝ) (min (max (-9/100) (min lam (1/4))) (1/4)) = max (-9/100) (min lam (1/4)) := fun lam => by
    rw [min_eq_left (max_le (by norm_num) (min_le_right _ _)), max_eq_right (le_max_left _ _)]
  have e1 : (Fits.spline cs).shearAt lam = (Fits.spline cs).shearAt (max (-9/100) (min lam (1/4))) := by
    simp only [Fits.shearAt, spline_clip, e]
  have e2 : (Fits.spline cs).shapeAt lam = (Fits.spline cs).shapeAt (max (-9/100) (min lam (1/4))) := by
    simp only [Fits.shapeAt, spline_clip, e]
  rw [e1, e2]
  have hr : |max (-9/100 : ℝ) (min lam (1/4)) - 0| ≤ 1 := by
    rw [sub_zero, abs_le]
    exact ⟨le_trans (by norm_num) (le_max_left _ _), max_le (by norm_num) ((min_le_right _ _).trans (by norm_num))⟩
  obtain ⟨a1, a2⟩ := h 0 (max (-9/100) (min lam (1/4)))
  have hK1 := mul_le_mul_of_nonneg_left hr hK
  have b1 := abs_sub_abs_le_abs_sub ((Fits.spline cs).shearAt (max (-9/100) (min lam (1/4)))) ((Fits.spline cs).shearAt 0)
  have b2 := abs_sub_abs_le_abs_sub ((Fits.spline cs).shapeAt (max (-9/100) (min lam (1/4)))) ((Fits.spline cs).shapeAt 0)
  have c1 := abs_nonneg ((Fits.spline cs).shearAt 0)
  have c2 := abs_nonneg ((Fits.spline cs).shapeAt 0)
  constructor <;> linarith

theorem boundedFits_cb : BoundedFits (Fits.cebeciBradshaw : Fits ℝ) := by
  refine ⟨5, fun lam => ?_⟩
  simp only [Fits.shearAt, Fits.shapeAt, cb_clip]
  have h1 : -1/10 ≤ min (max lam (-1/10)) (1/10) := le_min (le_max_right _ _) (by norm_num)
  have h2 : min (max lam (-1/10)) (1/10 : ℝ) ≤ 1/10 := min_le_right _ _
  generalize min (max lam (-1/10)) (1/10 : ℝ) = t at h1 h2
  have d1 : 0 < 107/1000 + t := by linarith
  have d2 : 0 < 14/100 + t := by linarith
  rcases lt_or_ge t 0 with ht | ht
  · simp only [Fits.cebeciBradshaw, Fits.piecewise0, real_lt, real_lit]
    rw [if_pos (by exact_mod_cast ht), if_pos (by exact_mod_cast ht)]
    push_cast
    have f1 : 18/1000 * t / (107/1000 + t) ≤ 0 := div_nonpos_of_nonpos_of_nonneg (by linarith) d1.le
    have f2 : -1 ≤ 18/1000 * t / (107/1000 + t) := by rw [le_div_iff₀ d1]; linarith
    have f3 : 0 ≤ 731/10000 / (14/100 + t) := by positivity
    have f4 : 731/10000 / (14/100 + t) ≤ 2 := by rw [div_le_iff₀ d2]; linarith
    constructor <;> rw [abs_le] <;> constructor <;> linarith
  · have ht1 : ¬ t < ((0:ℚ) : ℝ) := by push_cast; linarith
    have ht2 : t ≥ ((0:ℚ) : ℝ) := by push_cast; linarith
    simp only [Fits.cebeciBradshaw, Fits.piecewise0, real_lt, real_ge, real_lit, if_neg ht1, if_pos ht2]
    push_cast
    constructor <;> rw [abs_le] <;> constructor <;> nlinarith

/-! ### Concrete cases -/

/-- The hypotheses of `rk45_failure` are met: with the right hand side 0 up to `x = 0` and 1 behind, start value 0 and no absolute tolerance, every step from 0
misses the tolerance. -/
theorem rk45_failure_case : ∃ (p : IvpProblem ℝ) (gap : ℝ → ℝ → ℝ) (m : ℝ) (r : Run ℝ) (msg : String), Spaced gap m ∧ Runs gap p r ∧ p.x0 < p.x1 ∧
    p.y0 ≠ [] ∧ r.ending = .failed msg := by
  let p : IvpProblem ℝ := ⟨fun t _ => .ok [if t ≤ 0 then 0 else 1], 0, 1, [0], 1/100000000, 0, []⟩
  have hg := rk45_example.1
  obtain ⟨r, ⟨R, -⟩, -⟩ := rk45_ends hg p
  obtain ⟨c1, c2, c3, -⟩ := rk45_steps hg R (show (0:ℝ) < 1 by norm_num) (show [(0:ℝ)] ≠ [] by simp)
  obtain ⟨n1, -⟩ := rk45_no_exception (p := p) (fun t y _ => ⟨_, rfl, rfl⟩) (le_refl (0:ℝ)) R
  have hsteps : r.steps = [] := by
    rcases hl : r.steps with _ | ⟨s, l⟩
    · rfl
    · rw [hl] at c1
      obtain ⟨h1, -, -, ⟨k, dp, he, -⟩, -⟩ := c1
      exfalso
      have h1 : (0:ℝ) < s.t := h1
      have hk0 : k 0 = [0] := by have := Except.ok.inj dp.k1; simpa [p] using this.symm
      have one : ∀ t w v, 0 < t → p.rhs t w = .ok v → v = [1] := fun t w v ht hv => by
        have := Except.ok.inj hv
        rw [← this, if_neg (not_le.2 ht)]
      have hk : ∀ i : Fin 7, i ≠ 0 → k i = [1] := fun i hi => by
        obtain ⟨w2, e2, -⟩ := dp.k2
        obtain ⟨w3, e3, -⟩ := dp.k3
        obtain ⟨w4, e4, -⟩ := dp.k4
        obtain ⟨w5, e5, -⟩ := dp.k5
        obtain ⟨w6, e6, -⟩ := dp.k6
        have z : (p.x0 : ℝ) = 0 := rfl
        fin_cases i
        · exact absurd rfl hi
        all_goals first
          | exact one _ _ _ (by show 0 < _; simp only [z]; linarith) e2
          | exact one _ _ _ (by show 0 < _; simp only [z]; linarith) e3
          | exact one _ _ _ (by show 0 < _; simp only [z]; linarith) e4
          | exact one _ _ _ (by show 0 < _; simp only [z]; linarith) e5
          | exact one _ _ _ (by show 0 < _; simp only [z]; linarith) e6
          | exact one _ _ _ (by show 0 < _; simp only [z]; linarith) dp.k7
      have hn := dp.new 0
      have e : dpError (s.t - 0) k 0 = s.t * (71/57600) := by
        unfold dpError
        rw [hk0, hk 2 (by decide), hk 3 (by decide), hk 4 (by decide), hk 5 (by decide), hk 6 (by decide)]
        simp only [List.getD_cons_zero]
        ring
      rw [hk0, hk 2 (by decide), hk 3 (by decide), hk 4 (by decide), hk 5 (by decide)] at hn
      simp only [List.getD_cons_zero, p] at hn
      replace hn : s.y.getD 0 0 = s.t * (349/384) := by rw [hn]; ring
      have hr : effectiveRtol (1/100000000) = 1/100000000 := max_eq_left (by norm_num)
      simp only [p, List.length_singleton, Finset.sum_range_one, List.getD_cons_zero, abs_zero, hr, hn, Nat.cast_one, e, zero_add] at he
      rw [max_eq_right (abs_nonneg _), abs_of_pos (by linarith : 0 < s.t * (349/384)), sq_lt_one_iff_abs_lt_one] at he
      have : s.t * (71/57600) / (1/100000000 * (s.t * (349/384))) = 71/57600 * 100000000 / (349/384) := by field_simp
      rw [this] at he
      norm_num [abs_lt] at he
  rcases he : r.ending with _ | msg | e
  · obtain ⟨st, hst, -⟩ := c3.1 he
    rw [hsteps] at hst
    cases hst
  · exact ⟨p, _, _, r, msg, hg, R, by norm_num [p], by simp [p], he⟩
  · exact absurd he (n1 e)

/-- The hypotheses of `thwaites_solve_succeeds` are met, for every `g`: the flow `u_e = 1 - x` on [0, 1], whose layer separates, with numbers spaced by `g`. -/
theorem thwaites_success_case : GentleFlow SepWit.thw.vel 0 1 ∧ ∀ g, 0 < g →
    ∃ (stepper : Stepper ℝ) (root : RootFinder ℝ) (o'' : Obj ℝ) (r : IntegrationResult ℝ), Spaced (fun _ _ => g) g ∧
      (∀ p, Runs (fun _ _ => g) p (stepper p)) ∧ SepWit.thw.solve 0 1 .none (ivp SepWit.thw.eventValue stepper root) = (o'', .ok r) := by
  refine ⟨⟨1/1000, 1, by norm_num, fun t ht => ⟨1 - t, -1, rfl, by simp [SepWit.thw, VelState.duE, VelState.rawDu, callOpt, Vel.call],
    by linarith [ht.2], by norm_num⟩⟩, fun g hg => ?_⟩
  obtain ⟨-, E, -, ev, -, p, hp, -⟩ := rk45_example
  obtain ⟨root, -, htot⟩ := bracketRoot_exists
  have sp : Spaced (fun _ _ => g) g := ⟨hg, fun _ _ => le_refl _⟩
  obtain ⟨stepper, hst, h⟩ := rk45_solve_returns E 0 1 .none ev htot sp
  rcases h with ⟨e, h1, -⟩ | ⟨p', r, h1, h2⟩
  · rw [hp] at h1; cases h1
  · exact ⟨stepper, root, _, r, sp, hst, Prod.ext rfl h2⟩

end IBL
