import Mathlib.MeasureTheory.Integral.DominatedConvergence
import Verif.Props.ThwaitesExists

/-!
C83 for White's fits, whose wall shear has an infinite slope at separation: the solution is the limit of solutions for fits that are cut off before it.
-/

namespace IBL
open Fits Filter MeasureTheory

/-- The right hand sides at two states of the same location. -/
private theorem one_sided_mul {f : ℝ → ℝ} {C D L p q d : ℝ} (hC : 0 ≤ C) (hL : 0 ≤ L)
    (hpos : ∀ l1 l2, 0 ≤ l1 → l1 ≤ l2 → l2 ≤ C * D → f l2 - f l1 ≤ L * (l2 - l1))
    (hneg : ∀ l1 l2, -(C * D) ≤ l1 → l1 ≤ l2 → l2 ≤ 0 → f l1 - f l2 ≤ L * (l2 - l1)) (hd : |d| ≤ D) (hp : p ∈ Set.Icc 0 C) (hq : q ∈ Set.Icc 0 C) :
    (p - q) * (f (p * d) - f (q * d)) ≤ L * D * (p - q) ^ 2 := by
  have main : ∀ p q : ℝ, 0 ≤ p → p ≤ q → q ≤ C → f (q * d) - f (p * d) ≤ L * D * (q - p) := by
    intro p q p0 pq qC
    have hab := abs_le.1 hd
    rcases le_total 0 d with hd | hd
    · have := hpos (p * d) (q * d) (mul_nonneg p0 hd) (mul_le_mul_of_nonneg_right pq hd) (mul_le_mul qC hab.2 hd hC)
      have h2 : L * (q * d - p * d) ≤ L * D * (q - p) := by
        have := mul_le_mul_of_nonneg_left (mul_le_mul_of_nonneg_left hab.2 (sub_nonneg.2 pq)) hL
        linarith
      exact this.trans h2
    · have := hneg (q * d) (p * d) (by nlinarith [mul_le_mul qC (show -d ≤ D by linarith) (by linarith) hC])
        (mul_le_mul_of_nonpos_right pq hd) (mul_nonpos_of_nonneg_of_nonpos p0 hd)
      have h2 : L * (p * d - q * d) ≤ L * D * (q - p) := by
        have := mul_le_mul_of_nonneg_left (mul_le_mul_of_nonneg_left (show -d ≤ D by linarith) (sub_nonneg.2 pq)) hL
        linarith
      exact this.trans h2
  rcases le_total q p with h | h
  · have := mul_le_mul_of_nonneg_left (main q p hq.1 h hp.2) (sub_nonneg.2 h)
    nlinarith
  · have := mul_le_mul_of_nonneg_left (main p q hp.1 h hq.2) (sub_nonneg.2 h)
    nlinarith

/-- Existence for a right hand side that is a uniform limit of Lipschitz continuous ones. -/
private theorem exists_limit {f : ℝ → ℝ} {g : ℕ → ℝ → ℝ} {e : ℕ → ℝ} {u du : ℝ → ℝ} {a b F0 A : ℝ} (hcont : Continuous f)
    (hside : ∀ B, 0 ≤ B → ∃ L, 0 ≤ L ∧ (∀ l1 l2, 0 ≤ l1 → l1 ≤ l2 → l2 ≤ B → f l2 - f l1 ≤ L * (l2 - l1)) ∧
      ∀ l1 l2, -B ≤ l1 → l1 ≤ l2 → l2 ≤ 0 → f l1 - f l2 ≤ L * (l2 - l1))
    (happ : ∀ n l, |g n l - f l| ≤ e n) (he : Tendsto e atTop (nhds 0)) (hanti : Antitone e)
    (hlips : ∀ n B, 0 ≤ B → LipOn (g n) (-B) B) (hA : 0 ≤ A) (hgrow : ∀ n l, g n l ≤ A * (1 + |l|))
    (hpos : ∀ n, ∀ l ≤ 1/25, 0 < g n l) (hu : ContinuousOn u (Set.Icc a b)) (hdu : ContinuousOn du (Set.Icc a b))
    (hu0 : ∀ x ∈ Set.Icc a b, -(1/1000) < u x) (hab : a ≤ b) (h0 : 0 < F0) :
    ∃ y : ℝ → ℝ, y a = F0 ∧ ∀ t ∈ Set.Icc a b, HasDerivAt y (f (y t * du t) / (1/1000 + u t)) t ∧ 0 < y t := by
  obtain ⟨w0, D, hw0, hD, hw, hd⟩ := flow_bounds hu hdu hu0 hab
  choose y hya hy using fun n => exists_lip (hlips n) hA (hgrow n) (hpos n) hu hdu hw0 hw hD hd hab h0
  obtain ⟨C, hC⟩ : ∃ C, C = (F0 + 1) * Real.exp ((A * (1 + D) / w0 + 1) * (b - a)) := ⟨_, rfl⟩
  obtain ⟨k, hk⟩ : ∃ k, k = min F0 (1 / (25 * D)) := ⟨_, rfl⟩
  have hkp : 0 < k := by rw [hk]; exact lt_min h0 (by positivity)
  have hCp : 0 < C := by rw [hC]; positivity
  simp only [← hC, ← hk] at hy
  obtain ⟨L, hL, hp, hn⟩ := hside (C * D) (by positivity)
  have he0 : ∀ n, 0 ≤ e n := fun n => (abs_nonneg _).trans (happ n 0)
  have hw' : ∀ t ∈ Set.Icc a b, 0 < 1/1000 + u t := fun t ht => hw0.trans_le (hw t ht)
  -- the approximations are close to each other
  obtain ⟨c, hc⟩ : ∃ c, c = (b - a) / w0 * Real.exp (L * D / w0 * (b - a)) := ⟨_, rfl⟩
  have hc0 : 0 ≤ c := by
    have := sub_nonneg.2 hab
    rw [hc]; positivity
  have hclose : ∀ n m, ∀ t ∈ Set.Icc a b, |y n t - y m t| ≤ (e n + e m) * c := by
    intro n m t ht
    have hg := one_sided_gronwall (E := fun t => y n t - y m t)
      (E' := fun t => g n (y n t * du t) / (1/1000 + u t) - g m (y m t * du t) / (1/1000 + u t)) (a := a) (b := b) (M := L * D / w0)
      (eps := (e n + e m) / w0) (by positivity) (div_nonneg (add_nonneg (he0 n) (he0 m)) hw0.le)
      (fun t ht => (hy n t ht).1.sub (hy m t ht).1) (fun t ht => ?_) t ht
    · simp only [hya, sub_self, abs_zero, zero_add] at hg
      refine hg.trans ?_
      have e1 : (e n + e m) * c = (e n + e m) / w0 * (b - a) * Real.exp (L * D / w0 * (b - a)) := by rw [hc]; ring
      rw [e1]
      have h1 : 0 ≤ (e n + e m) / w0 := div_nonneg (add_nonneg (he0 n) (he0 m)) hw0.le
      refine mul_le_mul (mul_le_mul_of_nonneg_left (by linarith [ht.2]) h1) (Real.exp_le_exp.2 (mul_le_mul_of_nonneg_left
        (by linarith [ht.2]) (by positivity))) (Real.exp_pos _).le (mul_nonneg h1 (by linarith))
    · have hwt := hw' t ht
      have b1 : y n t ∈ Set.Icc 0 C := ⟨hkp.le.trans (hy n t ht).2.1, (hy n t ht).2.2⟩
      have b2 : y m t ∈ Set.Icc 0 C := ⟨hkp.le.trans (hy m t ht).2.1, (hy m t ht).2.2⟩
      have h1 := one_sided_mul hCp.le hL hp hn (hd t ht) b1 b2
      have h2 : |(g n (y n t * du t) - f (y n t * du t)) - (g m (y m t * du t) - f (y m t * du t))| ≤ e n + e m :=
        (abs_sub _ _).trans (add_le_add (happ n _) (happ m _))
      have h3 : (y n t - y m t) * ((g n (y n t * du t) - f (y n t * du t)) - (g m (y m t * du t) - f (y m t * du t))) ≤ (e n + e m) * |y n t - y m t| := by
        refine (le_abs_self _).trans ?_
        rw [abs_mul, mul_comm]
        exact mul_le_mul_of_nonneg_right h2 (abs_nonneg _)
      have e1 : (y n t - y m t) * (g n (y n t * du t) / (1/1000 + u t) - g m (y m t * du t) / (1/1000 + u t)) =
          ((y n t - y m t) * (f (y n t * du t) - f (y m t * du t)) +
            (y n t - y m t) * ((g n (y n t * du t) - f (y n t * du t)) - (g m (y m t * du t) - f (y m t * du t)))) / (1/1000 + u t) := by
        ring
      change (y n t - y m t) * (g n (y n t * du t) / (1/1000 + u t) - g m (y m t * du t) / (1/1000 + u t)) ≤ _
      rw [e1]
      have h4 := add_le_add h1 h3
      refine (div_le_div_of_nonneg_right h4 hwt.le).trans ?_
      have h5 : 0 ≤ L * D * (y n t - y m t) ^ 2 + (e n + e m) * |y n t - y m t| := by
        have := he0 n; have := he0 m; positivity
      refine (div_le_div_of_nonneg_left h5 hw0 (hw t ht)).trans (le_of_eq ?_)
      ring
  -- the limit
  have hlim : ∀ t, ∃ l, t ∈ Set.Icc a b → Tendsto (fun n => y n t) atTop (nhds l) := by
    intro t
    by_cases ht : t ∈ Set.Icc a b
    · have : CauchySeq fun n => y n t := by
        refine cauchySeq_of_le_tendsto_0 (fun N => (e N + e N) * c) (fun n m N h1 h2 => ?_) ?_
        · rw [Real.dist_eq]
          exact (hclose n m t ht).trans (mul_le_mul_of_nonneg_right (add_le_add (hanti h1) (hanti h2)) hc0)
        · simpa using (he.add he).mul_const c
      obtain ⟨l, hl⟩ := cauchySeq_tendsto_of_complete this
      exact ⟨l, fun _ => hl⟩
    · exact ⟨0, fun h => absurd h ht⟩
  choose Y hY using hlim
  have hYe : ∀ n, ∀ t ∈ Set.Icc a b, |y n t - Y t| ≤ (e n + e n) * c := fun n t ht => by
    have h1 : Tendsto (fun m => |y n t - y m t|) atTop (nhds |y n t - Y t|) := ((hY t ht).const_sub _).abs
    refine le_of_tendsto h1 ?_
    filter_upwards [eventually_ge_atTop n] with m hm
    exact (hclose n m t ht).trans (mul_le_mul_of_nonneg_right (add_le_add le_rfl (hanti hm)) hc0)
  have hyc : ∀ n, ContinuousOn (y n) (Set.Icc a b) := fun n t ht => (hy n t ht).1.continuousAt.continuousWithinAt
  have hYc : ContinuousOn Y (Set.Icc a b) := by
    have hun : TendstoUniformlyOn y Y atTop (Set.Icc a b) := by
      rw [Metric.tendstoUniformlyOn_iff]
      intro η hη
      have h1 : Tendsto (fun n => (e n + e n) * c) atTop (nhds 0) := by simpa using (he.add he).mul_const c
      filter_upwards [h1.eventually_lt_const hη] with n hn t ht
      rw [dist_comm, Real.dist_eq]
      exact (hYe n t ht).trans_lt hn
    exact hun.continuousOn (Frequently.of_forall hyc)
  have hYa : Y a = F0 := tendsto_nhds_unique (hY a ⟨le_rfl, hab⟩) (by simp only [hya]; exact tendsto_const_nhds)
  have hYk : ∀ t ∈ Set.Icc a b, k ≤ Y t := fun t ht => ge_of_tendsto (hY t ht) (Eventually.of_forall fun n => (hy n t ht).2.1)
  -- its equation
  have hcl : ∀ h : ℝ → ℝ, Continuous h → ∀ z : ℝ → ℝ, ContinuousOn z (Set.Icc a b) →
      ContinuousOn (fun s => h (z s * du s) / (1/1000 + u s)) (Set.Icc a b) := fun h hh z hz =>
    (hh.comp_continuousOn (hz.mul hdu)).div (continuousOn_const.add hu) fun t ht => (hw' t ht).ne'
  have hgc : ∀ n, Continuous (g n) := fun n => by
    refine continuous_iff_continuousAt.2 fun x => ?_
    obtain ⟨K, hK, H⟩ := hlips n (|x| + 1) (by positivity)
    have : ContinuousOn (g n) (Set.Icc (-(|x| + 1)) (|x| + 1)) := by
      refine LipschitzOnWith.continuousOn (K := ⟨K, hK⟩) (LipschitzOnWith.of_dist_le_mul fun p hp q hq => ?_)
      rw [Real.dist_eq, Real.dist_eq]; exact H p hp q hq
    exact this.continuousAt (Icc_mem_nhds (by linarith [neg_abs_le x]) (by linarith [le_abs_self x]))
  let φ : ℝ → ℝ := fun s => f (Y (clamp a b s) * du (clamp a b s)) / (1/1000 + u (clamp a b s))
  have hφ : Continuous φ := (hcl f hcont Y hYc).comp_continuous (clamp_cont a b) (clamp_mem hab)
  have hφe : ∀ s ∈ Set.Icc a b, φ s = f (Y s * du s) / (1/1000 + u s) := fun s hs => by simp only [φ, clamp_of_mem hs]
  let F : ℝ → ℝ := fun t => F0 + ∫ s in a..t, φ s
  have hFd : ∀ t, HasDerivAt F (φ t) t := fun t => (hφ.integral_hasStrictDerivAt a t).hasDerivAt.const_add F0
  have hFY : ∀ t ∈ Set.Icc a b, F t = Y t := by
    intro t ht
    have hsub : Set.uIcc a t ⊆ Set.Icc a b := by rw [Set.uIcc_of_le ht.1]; exact Set.Icc_subset_Icc_right ht.2
    have h1 : ∀ n, y n t = F0 + ∫ s in a..t, g n (y n s * du s) / (1/1000 + u s) := fun n => by
      rw [intervalIntegral.integral_eq_sub_of_hasDerivAt (fun s hs => (hy n s (hsub hs)).1)
        ((hcl _ (hgc n) _ (hyc n)).mono hsub).intervalIntegrable, hya]
      ring
    have h2 : Tendsto (fun n => ∫ s in a..t, g n (y n s * du s) / (1/1000 + u s)) atTop (nhds (∫ s in a..t, φ s)) := by
      have hsub' : Set.uIoc a t ⊆ Set.Icc a b := Set.uIoc_subset_uIcc.trans hsub
      obtain ⟨N, hN⟩ := (isCompact_Icc (a := -(C * D)) (b := C * D)).exists_bound_of_continuousOn hcont.continuousOn
      refine intervalIntegral.tendsto_integral_filter_of_dominated_convergence (fun _ => (N + e 0) / w0) (Eventually.of_forall fun n => ?_)
        (Eventually.of_forall fun n => Eventually.of_forall fun s hs => ?_) intervalIntegrable_const (Eventually.of_forall fun s hs => ?_)
      · exact ((hcl _ (hgc n) _ (hyc n)).mono hsub').aestronglyMeasurable measurableSet_uIoc
      · have hs' := hsub' hs
        have hl : y n s * du s ∈ Set.Icc (-(C * D)) (C * D) := by
          refine abs_le.1 ?_
          rw [abs_mul, abs_of_pos (hkp.trans_le (hy n s hs').2.1)]
          exact mul_le_mul (hy n s hs').2.2 (hd s hs') (abs_nonneg _) hCp.le
        have h3 := hN _ hl
        have h4 := happ n (y n s * du s)
        have h5 := hanti (Nat.zero_le n)
        rw [Real.norm_eq_abs] at h3 ⊢
        rw [abs_div, abs_of_pos (hw' s hs')]
        have h6 : |g n (y n s * du s)| ≤ N + e 0 := by
          have := abs_add_le (g n (y n s * du s) - f (y n s * du s)) (f (y n s * du s))
          rw [sub_add_cancel] at this
          linarith
        exact div_le_div₀ ((abs_nonneg _).trans h6) h6 hw0 (hw s hs')
      · have hs' := hsub' hs
        rw [hφe s hs']
        refine Tendsto.div_const ?_ _
        have h3 : Tendsto (fun n => f (y n s * du s)) atTop (nhds (f (Y s * du s))) :=
          (hcont.tendsto _).comp ((hY s hs').mul_const _)
        have h4 : Tendsto (fun n => g n (y n s * du s) - f (y n s * du s)) atTop (nhds 0) :=
          squeeze_zero_norm (fun n => by rw [Real.norm_eq_abs]; exact happ n _) he
        simpa using h4.add h3
    have h3 : Tendsto (fun n => y n t) atTop (nhds (F t)) := by
      simp only [h1]
      exact h2.const_add F0
    exact tendsto_nhds_unique h3 (hY t ht)
  refine ⟨F, by simp [F], fun t ht => ⟨?_, ?_⟩⟩
  · rw [hFY t ht, ← hφe t ht]; exact hFd t
  · rw [hFY t ht]; exact hkp.trans_le (hYk t ht)

/-! ### White's fits -/

/-- The right hand side with White's fits, held fixed above `lambda = 0.3`, and with the wall shear cut off at a distance `d` from separation. -/
private noncomputable def whiteCut (d lam : ℝ) : ℝ :=
  2 * ((max (min lam (3/10)) (-9/100 + d) + 9/100) ^ (62/100 : ℝ) - min lam (3/10) * ((Fits.white : Fits ℝ).shapeAt (min lam (3/10)) + 2))

private theorem whiteCut_zero (lam : ℝ) : whiteCut 0 lam = (Fits.white : Fits ℝ).fAt (min lam (3/10)) := by
  rw [whiteCut, fAt, shearAt, white_clip]
  simp only [Fits.white, real_lit, real_pow]
  push_cast
  rw [add_zero]

private theorem min_lip (x y : ℝ) : |min x (3/10) - min y (3/10)| ≤ |x - y| := (abs_min_sub_min_le_max _ _ _ _).trans (by simp)

private theorem white_shape_smooth (p q : ℝ) : LipOn (Fits.white : Fits ℝ).shape p q := smooth_lip (by
  simp only [Fits.white, real_lit]
  fun_prop)

private theorem white_shapeAt (lam : ℝ) : (Fits.white : Fits ℝ).shapeAt (min lam (3/10)) = (Fits.white : Fits ℝ).shape (min (max lam (-9/100)) (3/10)) := by
  rw [shapeAt, white_clip, max_min_distrib_right]
  norm_num

private theorem lip_mul {h k : ℝ → ℝ} {p q : ℝ} (hpq : p ≤ q) (hh : LipOn h p q) (hk : LipOn k p q) : LipOn (fun x => h x * k x) p q := by
  have bound : ∀ {h : ℝ → ℝ}, LipOn h p q → ∃ M, 0 ≤ M ∧ ∀ x ∈ Set.Icc p q, |h x| ≤ M := fun {h} ⟨K, hK, H⟩ => by
    refine ⟨|h p| + K * (q - p), by have := sub_nonneg.2 hpq; positivity, fun x hx => ?_⟩
    have h1 := H x hx p ⟨le_rfl, hpq⟩
    rw [abs_of_nonneg (sub_nonneg.2 hx.1)] at h1
    have h2 := abs_add_le (h x - h p) (h p)
    rw [sub_add_cancel] at h2
    have h3 := mul_le_mul_of_nonneg_left (show x - p ≤ q - p by linarith [hx.2]) hK
    linarith
  obtain ⟨M, hM, bh⟩ := bound hh
  obtain ⟨N, hN, bk⟩ := bound hk
  obtain ⟨K, hK, H⟩ := hh
  obtain ⟨J, hJ, G⟩ := hk
  refine ⟨M * J + N * K, by positivity, fun x hx y hy => ?_⟩
  have e : h x * k x - h y * k y = h x * (k x - k y) + k y * (h x - h y) := by ring
  change |h x * k x - h y * k y| ≤ _
  rw [e]
  refine (abs_add_le _ _).trans ?_
  rw [abs_mul, abs_mul]
  have h1 := mul_le_mul (bh x hx) (G x hx y hy) (abs_nonneg _) hM
  have h2 := mul_le_mul (bk y hy) (H x hx y hy) (abs_nonneg _) hN
  nlinarith

private theorem whiteCut_lip (d : ℝ) (hd : 0 < d) (hd1 : d ≤ 1/100) (B : ℝ) (hB : 0 ≤ B) : LipOn (whiteCut d) (-B) B := by
  have h1 : LipOn (fun lam => (max (min lam (3/10)) (-9/100 + d) + 9/100) ^ (62/100 : ℝ)) (-B) B := by
    refine LipOn.comp (h := fun t : ℝ => (t + 9/100) ^ (62/100 : ℝ)) (p := -9/100 + d) (q := 3/10) (smooth_lip fun x hx => ?_) (fun x _ => ?_) fun x y => ?_
    · have h0 : x + 9/100 ≠ 0 := by have := hx.1; linarith
      exact (((contDiff_id.add contDiff_const).contDiffAt (x := x)).rpow_const_of_ne h0).contDiffWithinAt
    · exact ⟨le_max_right _ _, max_le (min_le_right _ _) (by linarith)⟩
    · exact (abs_max_sub_max_le_abs _ _ _).trans (min_lip x y)
  have h2 : LipOn (fun lam => min lam (3/10)) (-B) B := ⟨1, by norm_num, fun x _ y _ => by rw [one_mul]; exact min_lip x y⟩
  have h3 : LipOn (fun lam => (Fits.white : Fits ℝ).shapeAt (min lam (3/10)) + 2) (-B) B := by
    obtain ⟨K, hK, H⟩ := LipOn.comp (c := fun x : ℝ => min (max x (-9/100)) (3/10)) (p' := -B) (q' := B) (white_shape_smooth (-9/100) (3/10))
      (fun x _ => ⟨le_min (le_max_right _ _) (by norm_num), min_le_right _ _⟩) (lip_clip _ _)
    refine ⟨K, hK, fun x hx y hy => ?_⟩
    simp only [white_shapeAt, add_sub_add_right_eq_sub]
    exact H x hx y hy
  obtain ⟨K, hK, H⟩ := h1
  obtain ⟨J, hJ, G⟩ := lip_mul (by linarith) h2 h3
  refine ⟨2 * (K + J), by positivity, fun x hx y hy => ?_⟩
  have a1 := H x hx y hy
  have a2 := G x hx y hy
  simp only [whiteCut]
  rw [← mul_sub, abs_mul, abs_of_pos (by norm_num : (0:ℝ) < 2), sub_sub_sub_comm]
  have := (abs_sub _ _).trans (add_le_add a1 a2)
  linarith

private theorem whiteCut_near (d : ℝ) (hd : 0 ≤ d) (hd1 : d ≤ 1/100) (lam : ℝ) :
    whiteCut 0 lam ≤ whiteCut d lam ∧ whiteCut d lam ≤ whiteCut 0 lam + 2 * d ^ (62/100 : ℝ) := by
  obtain ⟨t, ht⟩ : ∃ t, t = min lam (3/10) := ⟨_, rfl⟩
  simp only [whiteCut, ← ht, add_zero]
  have h0 : -9/100 ≤ max t (-9/100 : ℝ) := le_max_right _ _
  have h1 : max t (-9/100 : ℝ) ≤ max t (-9/100 + d) := max_le_max le_rfl (by linarith)
  have h2 : max t (-9/100 + d) ≤ max t (-9/100) + d := max_le (by linarith [le_max_left t (-9/100 : ℝ)]) (by linarith)
  have h3 := Real.rpow_le_rpow (show (0:ℝ) ≤ max t (-9/100) + 9/100 by linarith) (show max t (-9/100) + 9/100 ≤ max t (-9/100 + d) + 9/100 by linarith)
    (show (0:ℝ) ≤ 62/100 by norm_num)
  have h4 := Real.rpow_le_rpow (show (0:ℝ) ≤ max t (-9/100 + d) + 9/100 by linarith)
    (show max t (-9/100 + d) + 9/100 ≤ (max t (-9/100) + 9/100) + d by linarith) (show (0:ℝ) ≤ 62/100 by norm_num)
  have h5 := Real.rpow_add_le_add_rpow (p := (62/100 : ℝ)) (show (0:ℝ) ≤ max t (-9/100) + 9/100 by linarith) hd (by norm_num) (by norm_num)
  exact ⟨by linarith, by linarith⟩

private theorem white_continuous : Continuous (whiteCut 0) := by
  unfold whiteCut
  simp only [white_shapeAt]
  have h1 : Continuous (Fits.white : Fits ℝ).shape := by
    simp only [Fits.white, real_lit]
    fun_prop
  have h2 : Continuous fun lam : ℝ => (max (min lam (3/10)) (-9/100 + 0) + 9/100) ^ (62/100 : ℝ) :=
    Continuous.rpow_const (by fun_prop) fun x => .inr (by norm_num)
  fun_prop

private theorem whiteCut_grows : ∃ A, 0 ≤ A ∧ ∀ d lam, 0 ≤ d → d ≤ 1/100 → whiteCut d lam ≤ A * (1 + |lam|) := by
  have h1 : Continuous (Fits.white : Fits ℝ).shape := by
    simp only [Fits.white, real_lit]
    fun_prop
  obtain ⟨M, hM⟩ := (isCompact_Icc (a := (-9/100 : ℝ)) (b := 3/10)).exists_bound_of_continuousOn h1.continuousOn
  have hM0 : 0 ≤ M := (norm_nonneg _).trans (hM 0 ⟨by norm_num, by norm_num⟩)
  refine ⟨2 * (1 + (M + 2)), by positivity, fun d lam hd hd1 => ?_⟩
  have h2 := hM (min (max lam (-9/100)) (3/10)) ⟨le_min (le_max_right _ _) (by norm_num), min_le_right _ _⟩
  rw [Real.norm_eq_abs, ← white_shapeAt] at h2
  obtain ⟨s, hs⟩ : ∃ s, s = (Fits.white : Fits ℝ).shapeAt (min lam (3/10)) := ⟨_, rfl⟩
  simp only [whiteCut, ← hs] at h2 ⊢
  have h3 : (max (min lam (3/10)) (-9/100 + d) + 9/100) ^ (62/100 : ℝ) ≤ 1 :=
    Real.rpow_le_one (by linarith [le_max_right (min lam (3/10)) (-9/100 + d)])
      (by have : max (min lam (3/10)) (-9/100 + d) ≤ 3/10 := max_le (min_le_right _ _) (by linarith)
          linarith) (by norm_num)
  have h4 : |min lam (3/10)| ≤ 1 + |lam| := by
    refine abs_le.2 ⟨le_min (by linarith [neg_abs_le lam]) (by linarith [abs_nonneg lam]), (min_le_left _ _).trans (by linarith [le_abs_self lam])⟩
  have h5 : |min lam (3/10) * (s + 2)| ≤ (1 + |lam|) * (M + 2) := by
    rw [abs_mul]
    refine mul_le_mul h4 ((abs_add_le _ _).trans ?_) (abs_nonneg _) (by positivity)
    rw [abs_of_pos (by norm_num : (0:ℝ) < 2)]
    linarith
  have h6 := neg_abs_le (min lam (3/10) * (s + 2))
  have h7 := abs_nonneg lam
  nlinarith

/-- Between 0.2 and 0.3 the right hand side with White's fits is negative. -/
private theorem white_f_neg (lam : ℝ) (h1 : 1/5 ≤ lam) (h2 : lam ≤ 3/10) : (Fits.white : Fits ℝ).fAt lam ≤ 0 := by
  rw [fAt, shearAt, shapeAt, white_clip, max_eq_left (by linarith)]
  simp only [Fits.white, real_lit, real_pow]
  push_cast
  have h3 : (lam + 9/100 : ℝ) ^ (62/100 : ℝ) ≤ 56/100 := by
    have h4 : (lam + 9/100 : ℝ) ^ (62/100 : ℝ) ≤ (39/100 : ℝ) ^ (62/100 : ℝ) := Real.rpow_le_rpow (by linarith) (by linarith) (by norm_num)
    refine h4.trans ?_
    have h5 : ((39/100 : ℝ) ^ (62/100 : ℝ)) ^ (50 : ℝ) ≤ (56/100 : ℝ) ^ (50 : ℝ) := by
      rw [← Real.rpow_mul (by norm_num)]
      norm_num
    exact (Real.rpow_le_rpow_iff (by positivity) (by norm_num) (by norm_num)).1 h5
  obtain ⟨z, hz⟩ : ∃ z, z = 1/4 - lam := ⟨_, rfl⟩
  rw [← hz]
  have z1 : |z| ≤ 1/20 := abs_le.2 ⟨by linarith, by linarith⟩
  have h6 : 1 ≤ 2 + z * (414/100 + z * (-835/10 + z * (854 + z * (-3337 + z * 4576)))) := by
    have p2 : |z| ^ 2 ≤ (1/20) ^ 2 := pow_le_pow_left₀ (abs_nonneg z) z1 2
    have p3 : |z| ^ 3 ≤ (1/20) ^ 3 := pow_le_pow_left₀ (abs_nonneg z) z1 3
    have p4 : |z| ^ 4 ≤ (1/20) ^ 4 := pow_le_pow_left₀ (abs_nonneg z) z1 4
    have p5 : |z| ^ 5 ≤ (1/20) ^ 5 := pow_le_pow_left₀ (abs_nonneg z) z1 5
    rw [← abs_pow] at p2 p3 p4 p5
    have q1 := abs_le.1 z1
    have q2 := abs_le.1 p2
    have q3 := abs_le.1 p3
    have q4 := abs_le.1 p4
    have q5 := abs_le.1 p5
    have e : 2 + z * (414/100 + z * (-835/10 + z * (854 + z * (-3337 + z * 4576)))) =
      2 + 414/100 * z - 835/10 * z ^ 2 + 854 * z ^ 3 - 3337 * z ^ 4 + 4576 * z ^ 5 := by ring
    rw [e]
    linarith [q1.1, q2.2, q3.1, q4.2, q5.1]
  nlinarith

/-- **C83**, White's fits: from every positive start value with `lambda < 0.3` the equation of the nonlinear method has a positive solution that ends where
the flow ends or where `lambda` reaches 0.3, and nowhere before. In particular nothing stops it at separation, where the slope of the wall shear of these
fits is infinite. -/
theorem thwaites_white_until (o : Obj ℝ) (u du : ℝ → ℝ) (a b F0 : ℝ) (hc : o.cls = .thwaitesNonlinear) (hf : o.fits = some Fits.white)
    (huE : ∀ t, o.vel.uE t = .ok (u t)) (hduE : ∀ t, o.vel.duE t = .ok (du t)) (hu : ContinuousOn u (Set.Icc a b))
    (hdu : ContinuousOn du (Set.Icc a b)) (hu0 : ∀ x ∈ Set.Icc a b, -(1/1000) < u x) (hab : a < b) (h0 : 0 < F0) (hl : F0 * du a < 3/10) :
    ∃ c ∈ Set.Ioc a b, ∃ F : ℝ → ℝ, F a = F0 ∧ (∀ x ∈ Set.Icc a c, SatisfiesOde o F x) ∧ (∀ x ∈ Set.Icc a c, 0 < F x) ∧
      (∀ x ∈ Set.Ico a c, F x * du x < 3/10) ∧ (c = b ∨ F c * du c = 3/10) := by
  obtain ⟨A, hA, hgrow⟩ := whiteCut_grows
  let d : ℕ → ℝ := fun n => 1 / (100 * ((n:ℝ) + 1))
  have hd : ∀ n, 0 < d n := fun n => by positivity
  have hd1 : ∀ n, d n ≤ 1/100 := fun n => by
    have : (0:ℝ) ≤ n := Nat.cast_nonneg n
    exact div_le_div_of_nonneg_left (by norm_num) (by norm_num) (by linarith)
  have hda : Antitone d := fun n m h => by
    have : (n:ℝ) ≤ m := Nat.cast_le.2 h
    exact div_le_div_of_nonneg_left (by norm_num) (by positivity) (by linarith)
  have hdt : Tendsto d atTop (nhds 0) := by
    have h1 := (tendsto_one_div_add_atTop_nhds_zero_nat (𝕜 := ℝ)).const_mul (1/100)
    rw [mul_zero] at h1
    refine h1.congr fun n => ?_
    simp only [d]
    field_simp
  obtain ⟨F, hFa, hF⟩ := exists_limit (f := whiteCut 0) (g := fun n => whiteCut (d n)) (e := fun n => 2 * d n ^ (62/100 : ℝ)) (F0 := F0) white_continuous
    (fun B hB => by
      obtain ⟨L, hL, h1, h2⟩ := builtin_oneSided (.inl rfl : BuiltIn Fits.white) B hB
      have mono : ∀ l1 l2 : ℝ, l1 ≤ l2 → min l2 (3/10) - min l1 (3/10) ≤ l2 - l1 := fun l1 l2 h => by
        have := (le_abs_self _).trans (min_lip l2 l1)
        rwa [abs_of_nonneg (sub_nonneg.2 h)] at this
      refine ⟨L, hL, fun l1 l2 a1 a2 a3 => ?_, fun l1 l2 a1 a2 a3 => ?_⟩
      · rw [whiteCut_zero, whiteCut_zero]
        exact (h1 _ _ (le_min a1 (by norm_num)) (min_le_min_right _ a2) ((min_le_left _ _).trans a3)).trans
          (mul_le_mul_of_nonneg_left (mono l1 l2 a2) hL)
      · rw [whiteCut_zero, whiteCut_zero, min_eq_left (by linarith), min_eq_left (by linarith)]
        exact h2 l1 l2 a1 a2 a3)
    (fun n l => by
      obtain ⟨h1, h2⟩ := whiteCut_near (d n) (hd n).le (hd1 n) l
      rw [abs_of_nonneg (by linarith)]
      linarith)
    (by
      have h1 : Tendsto (fun n => d n ^ (62/100 : ℝ)) atTop (nhds (0 ^ (62/100 : ℝ))) := hdt.rpow_const (.inr (by norm_num))
      rw [Real.zero_rpow (by norm_num)] at h1
      simpa using h1.const_mul 2)
    (fun n m h => mul_le_mul_of_nonneg_left (Real.rpow_le_rpow (hd m).le (hda h) (by norm_num)) (by norm_num))
    (fun n B hB => whiteCut_lip (d n) (hd n) (hd1 n) B hB) hA (fun n l => hgrow (d n) l (hd n).le (hd1 n))
    (fun n l hl => by
      have h1 := builtin_f_pos (.inl rfl : BuiltIn Fits.white) l hl
      have h2 := (whiteCut_near (d n) (hd n).le (hd1 n) l).1
      rw [whiteCut_zero, min_eq_left (by linarith)] at h2
      exact h1.trans_le h2) hu hdu hu0 hab.le h0
  have hFc : ContinuousOn F (Set.Icc a b) := fun t ht => (hF t ht).1.continuousAt.continuousWithinAt
  have sol : ∀ t ∈ Set.Icc a b, F t * du t ≤ 3/10 → SatisfiesOde o F t := fun t ht h => by
    refine ⟨_, nonlinear_rhs hc hf huE hduE t (F t), ?_⟩
    have h1 := (hF t ht).1
    rwa [whiteCut_zero, min_eq_left h] at h1
  by_cases hex : ∃ t ∈ Set.Icc a b, 3/10 ≤ F t * du t
  · let S : Set ℝ := {t ∈ Set.Icc a b | 3/10 ≤ F t * du t}
    have hS : IsClosed S := isClosed_Icc.isClosed_le continuousOn_const (hFc.mul hdu)
    have hne : S.Nonempty := hex
    have hbd : BddBelow S := ⟨a, fun t ht => ht.1.1⟩
    have hm := hS.csInf_mem hne hbd
    obtain ⟨c, hcdef⟩ : ∃ c, c = sInf S := ⟨_, rfl⟩
    rw [← hcdef] at hm
    have hbefore : ∀ x ∈ Set.Ico a c, F x * du x < 3/10 := fun x hx => by
      by_contra hcon
      have := csInf_le hbd (show x ∈ S from ⟨⟨hx.1, hx.2.le.trans hm.1.2⟩, not_lt.1 hcon⟩)
      rw [← hcdef] at this
      exact absurd hx.2 (not_lt.2 this)
    have hac : a < c := lt_of_le_of_ne hm.1.1 fun h => by
      have := hm.2
      rw [← h, hFa] at this
      linarith
    have heq : F c * du c = 3/10 := by
      refine le_antisymm ?_ hm.2
      have hcc : ContinuousWithinAt (fun t => F t * du t) (Set.Icc a b) c := (hFc.mul hdu) c hm.1
      have hcc' : ContinuousWithinAt (fun t => F t * du t) (Set.Ico a c) c := hcc.mono fun t ht => ⟨ht.1, ht.2.le.trans hm.1.2⟩
      have : (nhdsWithin c (Set.Ico a c)).NeBot := by
        rw [← mem_closure_iff_nhdsWithin_neBot, closure_Ico hac.ne]
        exact ⟨hac.le, le_rfl⟩
      refine le_of_tendsto hcc' ?_
      filter_upwards [self_mem_nhdsWithin] with t ht using (hbefore t ht).le
    refine ⟨c, ⟨hac, hm.1.2⟩, F, hFa, fun x hx => ?_, fun x hx => (hF x ⟨hx.1, hx.2.trans hm.1.2⟩).2, hbefore, .inr heq⟩
    refine sol x ⟨hx.1, hx.2.trans hm.1.2⟩ ?_
    rcases hx.2.eq_or_lt with rfl | h
    · exact heq.le
    · exact (hbefore x ⟨hx.1, h⟩).le
  · push Not at hex
    exact ⟨b, ⟨hab, le_rfl⟩, F, hFa, fun x hx => sol x hx (hex x hx).le, fun x hx => (hF x hx).2, fun x hx => hex x ⟨hx.1, hx.2.le⟩, .inl rfl⟩

/-- **C83**, White's fits: in a flow that is nowhere accelerated, and in a flow whose velocity gradient nowhere increases (as behind a stagnation point) from
`lambda < 0.3`, the equation has a positive solution over the whole interval. -/
theorem thwaites_white_exists_partial (o : Obj ℝ) (u du : ℝ → ℝ) (a b F0 : ℝ) (hc : o.cls = .thwaitesNonlinear) (hf : o.fits = some Fits.white)
    (huE : ∀ t, o.vel.uE t = .ok (u t)) (hduE : ∀ t, o.vel.duE t = .ok (du t)) (hu : ContinuousOn u (Set.Icc a b))
    (hdu : ContinuousOn du (Set.Icc a b)) (hu0 : ∀ x ∈ Set.Icc a b, -(1/1000) < u x) (hab : a < b) (h0 : 0 < F0)
    (hflow : (∀ x ∈ Set.Icc a b, du x ≤ 0) ∨ (AntitoneOn du (Set.Icc a b) ∧ F0 * du a < 3/10)) :
    ∃ F : ℝ → ℝ, F a = F0 ∧ (∀ x ∈ Set.Icc a b, SatisfiesOde o F x) ∧ ∀ x ∈ Set.Icc a b, 0 < F x := by
  have hl : F0 * du a < 3/10 := by
    rcases hflow with h | h
    · have := mul_nonpos_of_nonneg_of_nonpos h0.le (h a ⟨le_rfl, hab.le⟩)
      linarith
    · exact h.2
  obtain ⟨c, hcm, F, hFa, hode, hpos, hbefore, hend⟩ := thwaites_white_until o u du a b F0 hc hf huE hduE hu hdu hu0 hab h0 hl
  rcases hend with rfl | hend
  · exact ⟨F, hFa, hode, hpos⟩
  exfalso
  have hsub : Set.Icc a c ⊆ Set.Icc a b := Set.Icc_subset_Icc_right hcm.2
  rcases hflow with h | ⟨hanti, -⟩
  · have := mul_nonpos_of_nonneg_of_nonpos (hpos c ⟨hcm.1.le, le_rfl⟩).le (h c ⟨hcm.1.le, hcm.2⟩)
    linarith
  obtain ⟨m, hm⟩ : ∃ m, m = max (F0 * du a) (1/5) := ⟨_, rfl⟩
  have hm3 : m < 3/10 := by rw [hm]; exact max_lt hl (by norm_num)
  have hder : ∀ t ∈ Set.Icc a c, HasDerivAt F ((Fits.white : Fits ℝ).fAt (F t * du t) / (1/1000 + u t)) t := fun t ht => by
    obtain ⟨r, hr, hd⟩ := hode t ht
    rw [nonlinear_rhs hc hf huE hduE] at hr
    simp only [Except.ok.injEq, List.cons.injEq, and_true] at hr
    rwa [hr]
  have hFc : ContinuousOn F (Set.Icc a c) := fun t ht => (hder t ht).continuousAt.continuousWithinAt
  -- the last place with `lambda ≤ m`
  let S : Set ℝ := {t ∈ Set.Icc a c | F t * du t ≤ m}
  have hS : IsClosed S := isClosed_Icc.isClosed_le (hFc.mul (hdu.mono hsub)) continuousOn_const
  have hne : S.Nonempty := ⟨a, ⟨le_rfl, hcm.1.le⟩, by rw [hFa, hm]; exact le_max_left _ _⟩
  have hbd : BddAbove S := ⟨c, fun t ht => ht.1.2⟩
  have hs := hS.csSup_mem hne hbd
  obtain ⟨s, hsdef⟩ : ∃ s, s = sSup S := ⟨_, rfl⟩
  rw [← hsdef] at hs
  have hafter : ∀ t ∈ Set.Ioc s c, m ≤ F t * du t := fun t ht => by
    by_contra hcon
    have := le_csSup hbd (show t ∈ S from ⟨⟨hs.1.1.trans ht.1.le, ht.2⟩, (not_le.1 hcon).le⟩)
    rw [← hsdef] at this
    exact absurd ht.1 (not_lt.2 this)
  have hle : ∀ t ∈ Set.Icc a c, F t * du t ≤ 3/10 := fun t ht => by
    rcases ht.2.eq_or_lt with rfl | h
    · exact hend.le
    · exact (hbefore t ⟨ht.1, h⟩).le
  have hF : AntitoneOn F (Set.Icc s c) := by
    have hsc : Set.Icc s c ⊆ Set.Icc a c := Set.Icc_subset_Icc_left hs.1.1
    refine antitoneOn_of_hasDerivWithinAt_nonpos (convex_Icc s c) (hFc.mono hsc) (fun t ht => (hder t (hsc (interior_subset ht))).hasDerivWithinAt)
      fun t ht => ?_
    rw [interior_Icc] at ht
    have htc := hsc ⟨ht.1.le, ht.2.le⟩
    refine div_nonpos_of_nonpos_of_nonneg (white_f_neg _ ?_ (hle t htc)) (by have := hu0 t (hsub htc); linarith)
    exact (by rw [hm]; exact le_max_right _ _ : (1/5 : ℝ) ≤ m).trans (hafter t ⟨ht.1, ht.2.le⟩)
  have h1 := hF ⟨le_rfl, hs.1.2⟩ ⟨hs.1.2, le_rfl⟩ hs.1.2
  have h2 := hanti (hsub hs.1) ⟨hcm.1.le, hcm.2⟩ hs.1.2
  have h3 := hpos c ⟨hcm.1.le, le_rfl⟩
  have h4 : 0 < du c := by
    by_contra hcon
    have := mul_nonpos_of_nonneg_of_nonpos h3.le (not_lt.1 hcon)
    linarith
  have h5 : F c * du c ≤ F s * du s := mul_le_mul h1 h2 h4.le (h3.le.trans h1)
  have := hs.2
  linarith

/-- Non-vacuity: the flow `u_e = 1 - x` up to and beyond separation, and the stagnation flow `u_e = x`. -/
example : ∃ (o1 o2 : Obj ℝ) (u1 u2 d1 d2 : ℝ → ℝ), o1.cls = .thwaitesNonlinear ∧ o1.fits = some Fits.white ∧ (∀ t, o1.vel.uE t = .ok (u1 t)) ∧
    (∀ t, o1.vel.duE t = .ok (d1 t)) ∧ o2.cls = .thwaitesNonlinear ∧ o2.fits = some Fits.white ∧ (∀ t, o2.vel.uE t = .ok (u2 t)) ∧
    (∀ t, o2.vel.duE t = .ok (d2 t)) ∧ Continuous u1 ∧ Continuous d1 ∧ Continuous u2 ∧ Continuous d2 ∧
    (∀ x ∈ Set.Icc (0:ℝ) 1, -(1/1000) < u1 x ∧ d1 x ≤ 0 ∧ -(1/1000) < u2 x) ∧ Antitone d2 ∧ 1/10 * d2 0 < 3/10 := by
  let o : (ℝ → ℝ) → (ℝ → ℝ) → Obj ℝ := fun u d => ⟨.thwaitesNonlinear, 1, ⟨some (.fn fun x => .ok (u x)), some (.fn fun x => .ok (d x)), none⟩,
    .manual 0 1 1 1 1, [], none, some Fits.white⟩
  refine ⟨o (fun x => 1 - x) fun _ => -1, o (fun x => x) fun _ => 1, fun x => 1 - x, fun x => x, fun _ => -1, fun _ => 1, rfl, rfl, fun t => ?_,
    fun t => ?_, rfl, rfl, fun t => ?_, fun t => ?_, by fun_prop, by fun_prop, by fun_prop, by fun_prop, fun x hx => ⟨?_, by norm_num, ?_⟩,
    antitone_const, by norm_num⟩
  · simp [o, VelState.uE, VelState.rawU, callOpt, Vel.call]
  · simp [o, VelState.duE, VelState.rawDu, callOpt, Vel.call]
  · simp [o, VelState.uE, VelState.rawU, callOpt, Vel.call]
  · simp [o, VelState.duE, VelState.rawDu, callOpt, Vel.call]
  · have := hx.2; linarith
  · have := hx.1; linarith

end IBL
