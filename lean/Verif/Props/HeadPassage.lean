import Verif.Props.RungeKuttaPassage
import Verif.Props.SeparationConverges

/-!
C137, continued: the results and the verdicts of Head's method converge for layers whose shape factor passes 1.6.
-/

namespace IBL
open SolveIvp RungeKutta Set Filter Topology HeadBranch

/-! ### Specification -/

/-- A layer of Head's method on `[x0, x1]` whose shape factor passes 1.6 at `xs`, where the right hand side of the method jumps: continuous functions that satisfy
the equation with the exception of finitely many points; the thickness is positive; the shape factor is on one side of 1.6 before `xs` and on the other side
behind; its slope has a limit from either side, not zero, and neither limit is four times as large as the other. -/
structure HeadPasses (o : Obj ℝ) (d h : ℝ → ℝ) (x0 xs x1 : ℝ) : Prop where
  order : x0 < xs ∧ xs < x1
  dCont : ContinuousOn d (Icc x0 x1)
  hCont : ContinuousOn h (Icc x0 x1)
  ode : ∃ X : Set ℝ, X.Finite ∧ ∀ x ∈ Icc x0 x1, x ∉ X → HeadOde o d h x
  pos : ∀ x ∈ Icc x0 x1, 0 < d x
  level : h xs = 16/10
  way : ∃ s rA rB, |s| = 1 ∧ (∀ x ∈ Ico x0 xs, s * (h x - 16/10) < 0) ∧ (∀ x ∈ Ioc xs x1, 0 < s * (h x - 16/10)) ∧ HasDerivWithinAt h rA (Iic xs) xs ∧
    HasDerivWithinAt h rB (Ici xs) xs ∧ 0 < s * rA ∧ 0 < s * rB ∧ s * rA < 4 * (s * rB) ∧ s * rB < 4 * (s * rA)

/-! ### Calculus -/

private theorem fill_right {f g : ℝ → ℝ} {a b t : ℝ} {X : Set ℝ} (hX : X.Finite) (hf : ContinuousOn f (Icc a b)) (hg : ContinuousOn g (Icc a b))
    (hd : ∀ t ∈ Icc a b, t ∉ X → HasDerivAt f (g t) t) (ht : t ∈ Ico a b) : HasDerivWithinAt f (g t) (Ici t) t := by
  have htm : t ∈ Icc a b := ⟨ht.1, ht.2.le⟩
  have near : ∀ᶠ x in 𝓝[>] t, x ∈ Ioo t b ∧ x ∉ X := by
    have h1 : ∀ᶠ x in 𝓝 t, x ∉ X \ {t} := (hX.subset sdiff_subset).isClosed.isOpen_compl.mem_nhds (by simp)
    filter_upwards [Ioo_mem_nhdsGT ht.2, h1.filter_mono nhdsWithin_le_nhds] with x hx hn
    exact ⟨hx, fun h => hn ⟨h, hx.1.ne'⟩⟩
  have sub : ∀ x, x ∈ Ioo t b → x ∈ Icc a b := fun x hx => ⟨ht.1.trans hx.1.le, hx.2.le⟩
  refine hasDerivWithinAt_Ici_of_tendsto_deriv (s := {x | x ∈ Ioo t b ∧ x ∉ X}) (fun x hx => (hd x (sub x hx.1) hx.2).differentiableAt.differentiableWithinAt)
    ((hf t htm).mono fun x hx => sub x hx.1) near ?_
  have h2 : Tendsto g (𝓝[>] t) (𝓝 (g t)) := (hg t htm).tendsto.mono_left (nhdsWithin_le_of_mem (mem_of_superset (Ioo_mem_nhdsGT ht.2) sub))
  refine h2.congr' ?_
  filter_upwards [near] with x hx
  exact (hd x (sub x hx.1) hx.2).deriv.symm

private theorem fill_left {f g : ℝ → ℝ} {a b t : ℝ} {X : Set ℝ} (hX : X.Finite) (hf : ContinuousOn f (Icc a b)) (hg : ContinuousOn g (Icc a b))
    (hd : ∀ t ∈ Icc a b, t ∉ X → HasDerivAt f (g t) t) (ht : t ∈ Ioc a b) : HasDerivWithinAt f (g t) (Iic t) t := by
  have htm : t ∈ Icc a b := ⟨ht.1.le, ht.2⟩
  have near : ∀ᶠ x in 𝓝[<] t, x ∈ Ioo a t ∧ x ∉ X := by
    have h1 : ∀ᶠ x in 𝓝 t, x ∉ X \ {t} := (hX.subset sdiff_subset).isClosed.isOpen_compl.mem_nhds (by simp)
    filter_upwards [Ioo_mem_nhdsLT ht.1, h1.filter_mono nhdsWithin_le_nhds] with x hx hn
    exact ⟨hx, fun h => hn ⟨h, hx.2.ne⟩⟩
  have sub : ∀ x, x ∈ Ioo a t → x ∈ Icc a b := fun x hx => ⟨hx.1.le, hx.2.le.trans ht.2⟩
  refine hasDerivWithinAt_Iic_of_tendsto_deriv (s := {x | x ∈ Ioo a t ∧ x ∉ X}) (fun x hx => (hd x (sub x hx.1) hx.2).differentiableAt.differentiableWithinAt)
    ((hf t htm).mono fun x hx => sub x hx.1) near ?_
  have h2 : Tendsto g (𝓝[<] t) (𝓝 (g t)) := (hg t htm).tendsto.mono_left (nhdsWithin_le_of_mem (mem_of_superset (Ioo_mem_nhdsLT ht.1) sub))
  refine h2.congr' ?_
  filter_upwards [near] with x hx
  exact (hd x (sub x hx.1) hx.2).deriv.symm

/-- A slope that is known off a finite set and continuous is the slope everywhere. -/
private theorem fill {f g : ℝ → ℝ} {a b t : ℝ} {X : Set ℝ} (hX : X.Finite) (hab : a < b) (hf : ContinuousOn f (Icc a b)) (hg : ContinuousOn g (Icc a b))
    (hd : ∀ t ∈ Icc a b, t ∉ X → HasDerivAt f (g t) t) (ht : t ∈ Icc a b) : HasDerivWithinAt f (g t) (Icc a b) t := by
  rcases eq_or_lt_of_le ht.1 with rfl | h1
  · exact (fill_right hX hf hg hd ⟨le_rfl, hab⟩).mono fun x hx => hx.1
  rcases eq_or_lt_of_le ht.2 with rfl | h2
  · exact (fill_left hX hf hg hd ⟨hab, le_rfl⟩).mono fun x hx => hx.2
  · exact ((fill_left hX hf hg hd ⟨h1, ht.2⟩).union (fill_right hX hf hg hd ⟨ht.1, h2⟩)).mono fun x _ => le_total x t

private theorem level_before {f : ℝ → ℝ} {a b r : ℝ} (hf : ContinuousOn f (Icc a b)) (hab : a < b) (h0 : f b = 0) (hneg : ∀ t ∈ Ico a b, f t < 0)
    (hd : HasDerivWithinAt f r (Icc a b) b) (hr : 0 < r) : ∃ κ, 0 < κ ∧ ∀ t ∈ Icc a b, f t ≤ -(κ * (b - t)) := by
  obtain ⟨ε, hε, near⟩ := Metric.mem_nhdsWithin_iff.1 ((hasDerivWithinAt_iff_tendsto_slope.1 hd).eventually (lt_mem_nhds (show r / 2 < r by linarith)))
  obtain ⟨m, hm, far⟩ : ∃ m, 0 < m ∧ ∀ t ∈ Icc a (b - ε / 2), f t ≤ -m := by
    rcases (Icc a (b - ε / 2)).eq_empty_or_nonempty with h | h
    · exact ⟨1, one_pos, fun t ht => by rw [h] at ht; exact absurd ht (notMem_empty t)⟩
    · obtain ⟨z, hz, hmax⟩ := isCompact_Icc.exists_isMaxOn h (hf.mono (Icc_subset_Icc le_rfl (by linarith)))
      exact ⟨_, neg_pos.2 (hneg z ⟨hz.1, by linarith [hz.2]⟩), fun t ht => by rw [neg_neg]; exact hmax ht⟩
  have hba : 0 < b - a := by linarith
  refine ⟨min (r / 2) (m / (b - a)), lt_min (by linarith) (by positivity), fun t ht => ?_⟩
  have hbt : 0 ≤ b - t := by linarith [ht.2]
  rcases eq_or_lt_of_le ht.2 with rfl | hlt
  · rw [h0]; simp
  rcases le_or_gt t (b - ε / 2) with hf' | hn
  · have k1 := far t ⟨ht.1, hf'⟩
    have k2 : min (r / 2) (m / (b - a)) * (b - t) ≤ m / (b - a) * (b - a) := mul_le_mul (min_le_right _ _) (by linarith [ht.1]) hbt (by positivity)
    rw [div_mul_cancel₀ _ hba.ne'] at k2
    linarith
  · have k1 : r / 2 < slope f b t := near ⟨by rw [Metric.mem_ball, Real.dist_eq, abs_lt]; constructor <;> linarith, ht, hlt.ne⟩
    rw [slope_def_field, h0, sub_zero, lt_div_iff_of_neg (by linarith)] at k1
    have k2 := mul_le_mul_of_nonneg_right (min_le_left (r / 2) (m / (b - a))) hbt
    linarith

private theorem level_behind {f : ℝ → ℝ} {a b r : ℝ} (hf : ContinuousOn f (Icc a b)) (hab : a < b) (h0 : f a = 0) (hpos : ∀ t ∈ Ioc a b, 0 < f t)
    (hd : HasDerivWithinAt f r (Icc a b) a) (hr : 0 < r) : ∃ κ, 0 < κ ∧ ∀ t ∈ Icc a b, κ * (t - a) ≤ f t := by
  obtain ⟨ε, hε, near⟩ := Metric.mem_nhdsWithin_iff.1 ((hasDerivWithinAt_iff_tendsto_slope.1 hd).eventually (lt_mem_nhds (show r / 2 < r by linarith)))
  obtain ⟨m, hm, far⟩ : ∃ m, 0 < m ∧ ∀ t ∈ Icc (a + ε / 2) b, m ≤ f t := by
    rcases (Icc (a + ε / 2) b).eq_empty_or_nonempty with h | h
    · exact ⟨1, one_pos, fun t ht => by rw [h] at ht; exact absurd ht (notMem_empty t)⟩
    · obtain ⟨z, hz, hmin⟩ := isCompact_Icc.exists_isMinOn h (hf.mono (Icc_subset_Icc (by linarith) le_rfl))
      exact ⟨_, hpos z ⟨by linarith [hz.1], hz.2⟩, fun t ht => hmin ht⟩
  have hba : 0 < b - a := by linarith
  refine ⟨min (r / 2) (m / (b - a)), lt_min (by linarith) (by positivity), fun t ht => ?_⟩
  have hbt : 0 ≤ t - a := by linarith [ht.1]
  rcases eq_or_lt_of_le ht.1 with rfl | hlt
  · rw [h0]; simp
  rcases le_or_gt (a + ε / 2) t with hf' | hn
  · have k1 := far t ⟨hf', ht.2⟩
    have k2 : min (r / 2) (m / (b - a)) * (t - a) ≤ m / (b - a) * (b - a) := mul_le_mul (min_le_right _ _) (by linarith [ht.2]) hbt (by positivity)
    rw [div_mul_cancel₀ _ hba.ne'] at k2
    linarith
  · have k1 : r / 2 < slope f a t := near ⟨by rw [Metric.mem_ball, Real.dist_eq, abs_lt]; constructor <;> linarith, ht, hlt.ne'⟩
    rw [slope_def_field, h0, sub_zero, lt_div_iff₀ (by linarith)] at k1
    have k2 := mul_le_mul_of_nonneg_right (min_le_left (r / 2) (m / (b - a))) hbt
    linarith

/-! ### One branch -/

/-- The right hand side with one formula for H1. -/
noncomputable def branchRhs (Φ : ℝ × ℝ × ℝ × ℝ → ℝ × ℝ) (u du : ℝ → ℝ) : ℝ → List ℝ → Except Exc (List ℝ) := fun t y =>
  .ok [(Φ (U u t, du t, y.getD 0 0, max (y.getD 1 0) (111/100))).1, (Φ (U u t, du t, y.getD 0 0, max (y.getD 1 0) (111/100))).2]

private theorem tail (a b : ℝ) (j : ℕ) : [a, b].getD (j + 1 + 1) 0 = 0 := by simp

private theorem lip_close {Φ : ℝ × ℝ × ℝ × ℝ → ℝ × ℝ} {S : Set (ℝ × ℝ × ℝ × ℝ)} {K : NNReal} (hΦ : LipschitzOnWith K Φ S) {P P' : ℝ × ℝ × ℝ × ℝ} {e : ℝ}
    (hP : P ∈ S) (hP' : P' ∈ S) (h1 : |P.1 - P'.1| ≤ e) (h2 : |P.2.1 - P'.2.1| ≤ e) (h3 : |P.2.2.1 - P'.2.2.1| ≤ e) (h4 : |P.2.2.2 - P'.2.2.2| ≤ e) :
    |(Φ P).1 - (Φ P').1| ≤ K * e ∧ |(Φ P).2 - (Φ P').2| ≤ K * e := by
  have := hΦ.dist_le_mul _ hP _ hP'
  rw [Prod.dist_eq, Prod.dist_eq, Prod.dist_eq, Prod.dist_eq] at this
  simp only [Real.dist_eq] at this
  have b := this.trans (mul_le_mul_of_nonneg_left (max_le h1 (max_le h2 (max_le h3 h4))) (NNReal.coe_nonneg K))
  exact ⟨(le_max_left _ _).trans b, (le_max_right _ _).trans b⟩

private theorem mvt {z0 z1 : ℝ} {f f' : ℝ → ℝ} {c : ℝ} (hf : ∀ t ∈ Icc z0 z1, HasDerivWithinAt f (f' t) (Icc z0 z1) t) (hb : ∀ t ∈ Icc z0 z1, |f' t| ≤ c) :
    ∀ s ∈ Icc z0 z1, ∀ t ∈ Icc z0 z1, |f s - f t| ≤ c * |s - t| := fun s hs t ht => by
  have := (convex_Icc z0 z1).norm_image_sub_le_of_norm_hasDerivWithin_le hf hb ht hs
  simpa [Real.norm_eq_abs] using this

private theorem branch_path {Φ : ℝ × ℝ × ℝ × ℝ → ℝ × ℝ} {S : Set (ℝ × ℝ × ℝ × ℝ)} {K : NNReal} {B V Λ ρ z0 z1 : ℝ} {u du d h : ℝ → ℝ}
    (hΦ : LipschitzOnWith K Φ S) (hΦB : ∀ P ∈ S, ‖Φ P‖ ≤ B) (hV0 : 0 ≤ V) (hΛ0 : 0 ≤ Λ) (hB0 : 0 ≤ B) (hρ0 : 0 ≤ ρ)
    (lu : ∀ s ∈ Icc z0 z1, ∀ t ∈ Icc z0 z1, |u s - u t| ≤ V * |s - t|) (hΛ : ∀ s ∈ Icc z0 z1, ∀ t ∈ Icc z0 z1, |du s - du t| ≤ Λ * |s - t|)
    (inBox : ∀ x ∈ Icc z0 z1, ∀ p q, |p - d x| ≤ ρ → |q - h x| ≤ ρ → (U u x, du x, p, max q (111/100)) ∈ S)
    (der : ∀ t ∈ Icc z0 z1, HasDerivWithinAt d (Φ (P u du d h t)).1 (Icc z0 z1) t ∧ HasDerivWithinAt h (Φ (P u du d h t)).2 (Icc z0 z1) t) :
    SmoothPath (branchRhs Φ u du) (fun t => [d t, h t]) (fun t => [(Φ (P u du d h t)).1, (Φ (P u du d h t)).2]) 2 z0 z1 (K * (V + Λ + B)) K ρ := by
  have inPath : ∀ t ∈ Icc z0 z1, P u du d h t ∈ S := fun t ht => inBox t ht _ _ (by simpa using hρ0) (by simpa using hρ0)
  have bd : ∀ t ∈ Icc z0 z1, |(Φ (P u du d h t)).1| ≤ B ∧ |(Φ (P u du d h t)).2| ≤ B := fun t ht =>
    ⟨(norm_fst_le _).trans (hΦB _ (inPath t ht)), (norm_snd_le _).trans (hΦB _ (inPath t ht))⟩
  have ld := mvt (fun t ht => (der t ht).1) fun t ht => (bd t ht).1
  have lh := mvt (fun t ht => (der t ht).2) fun t ht => (bd t ht).2
  refine ⟨fun t ht => rfl, fun t ht => rfl, fun t ht j => ?_, fun s hs t ht j => ?_, fun t ht y v δ hy hδ hd hv j => ?_⟩
  · rcases j with _ | _ | j
    · exact (der t ht).1
    · exact (der t ht).2
    · simp only [tail]; exact hasDerivWithinAt_const _ _ _
  · have n0 := abs_nonneg (s - t)
    have e1 := mul_nonneg hV0 n0
    have e2 := mul_nonneg hΛ0 n0
    have e3 := mul_nonneg hB0 n0
    have key := lip_close hΦ (e := (V + Λ + B) * |s - t|) (inPath s hs) (inPath t ht)
      ((abs_max_sub_max_le_abs _ _ _).trans ((lu s hs t ht).trans (by linarith)))
      ((hΛ s hs t ht).trans (by linarith)) ((ld s hs t ht).trans (by linarith)) ((abs_max_sub_max_le_abs _ _ _).trans ((lh s hs t ht).trans (by linarith)))
    rw [← mul_assoc] at key
    rcases j with _ | _ | j
    · exact key.1
    · exact key.2
    · simp only [tail, sub_self, abs_zero]; positivity
  · obtain ⟨p, q, rfl⟩ := List.length_eq_two.1 hy
    have d0 : |p - d t| ≤ δ := hd 0
    have d1 : |q - h t| ≤ δ := hd 1
    have hδ0 : 0 ≤ δ := (abs_nonneg _).trans d0
    cases hv
    have key := lip_close hΦ (e := δ) (inBox t ht p q (d0.trans hδ) (d1.trans hδ)) (inPath t ht) (by simpa [P] using hδ0) (by simpa [P] using hδ0) d0
      ((abs_max_sub_max_le_abs _ _ _).trans d1)
    rcases j with _ | _ | j
    · exact key.1
    · exact key.2
    · simp only [tail, sub_self, abs_zero]; positivity

/-! ### The passage -/

set_option maxHeartbeats 1000000 in
theorem HeadPasses.tracks {o : Obj ℝ} {u du d h : ℝ → ℝ} {x0 xs x1 : ℝ} (H : HeadPasses o d h x0 xs x1) (hc : o.cls = .head) (hnu : 0 < o.nu)
    (huE : ∀ t, o.vel.uE t = .ok (u t)) (hduE : ∀ t, o.vel.duE t = .ok (du t))
    (hu : ∀ x ∈ Icc x0 x1, HasDerivWithinAt u (du x) (Icc x0 x1) x) (hdu : LipOn du x0 x1) : Tracks o.rhs (fun t => [d t, h t]) 2 x0 x1 := by
  obtain ⟨X, hX, ode⟩ := H.ode
  obtain ⟨s, rA, rB, hs, sideA, sideB, dA, dB, pA, pB, rAB, rBA⟩ := H.way
  obtain ⟨hxA, hxB⟩ := H.order
  have hx : x0 < x1 := hxA.trans hxB
  have hhc := H.hCont
  have hdc := H.dCont
  have huc : ContinuousOn u (Icc x0 x1) := fun x hx => (hu x hx).continuousWithinAt
  have hduc := hdu.continuousOn
  obtain ⟨Λ, hΛ0, hΛ⟩ := hdu
  have ne := nonempty_Icc.2 hx.le
  obtain ⟨z, hz, hzm⟩ := isCompact_Icc.exists_isMinOn ne hdc
  obtain ⟨Rd, hRd⟩ := isCompact_Icc.exists_bound_of_continuousOn hdc
  obtain ⟨Rh, hRh⟩ := isCompact_Icc.exists_bound_of_continuousOn hhc
  obtain ⟨W, hW⟩ := isCompact_Icc.exists_bound_of_continuousOn huc
  obtain ⟨V, hV⟩ := isCompact_Icc.exists_bound_of_continuousOn hduc
  simp only [Real.norm_eq_abs] at hRd hRh hW hV
  have hV0 : 0 ≤ V := (abs_nonneg _).trans (hV x0 ⟨le_rfl, hx.le⟩)
  have hdz := H.pos z hz
  obtain ⟨K, B, hB0, hKL, hKH, hB⟩ := headBox_rates o.nu (max W (1/1000)) V (d z / 2) (Rd + d z / 2) (max (Rh + d z / 2) (111/100)) hnu (by linarith)
  obtain ⟨S, hS⟩ : ∃ S, S = headBox (max W (1/1000)) V (d z / 2) (Rd + d z / 2) (max (Rh + d z / 2) (111/100)) := ⟨_, rfl⟩
  have inBox : ∀ x ∈ Icc x0 x1, ∀ p q, |p - d x| ≤ d z / 2 → |q - h x| ≤ d z / 2 → (U u x, du x, p, max q (111/100)) ∈ S := by
    intro x hx p q hp hq
    have a1 := abs_le.1 hp
    have a2 := abs_le.1 hq
    have a3 : d z ≤ d x := hzm hx
    rw [hS]
    exact ⟨⟨le_max_right _ _, max_le_max ((le_abs_self _).trans (hW x hx)) le_rfl⟩, abs_le.1 (hV x hx),
      ⟨by show d z / 2 ≤ p; linarith [a1.1], by show p ≤ Rd + d z / 2; linarith [a1.2, (le_abs_self _).trans (hRd x hx)]⟩,
      le_max_right _ _, max_le_max (by linarith [a2.2, (le_abs_self _).trans (hRh x hx)]) le_rfl⟩
  rw [← hS] at hKL hKH hB
  have low : ∀ t p q, q ≤ 16/10 → Head.rates o.nu (Head.floorScalar (u t)) (du t) p (Head.odeClamp q) = VL o.nu (U u t, du t, p, max q (111/100)) :=
    fun t p q hq => rates_P_low (u := u) (du := du) (dm := fun _ => p) (h := fun _ => q) (t := t) hq
  have high : ∀ t p q, 16/10 < q → Head.rates o.nu (Head.floorScalar (u t)) (du t) p (Head.odeClamp q) = VH o.nu (U u t, du t, p, max q (111/100)) :=
    fun t p q hq => rates_P_high (u := u) (du := du) (dm := fun _ => p) (h := fun _ => q) (t := t) hq
  -- the formulas before and behind
  obtain ⟨ΦA, ΦB, hΦA, hΦB, bA, bB, eA, eB, either⟩ : ∃ ΦA ΦB : ℝ × ℝ × ℝ × ℝ → ℝ × ℝ, LipschitzOnWith K ΦA S ∧ LipschitzOnWith K ΦB S ∧
      (∀ P ∈ S, ‖ΦA P‖ ≤ B) ∧ (∀ P ∈ S, ‖ΦB P‖ ≤ B) ∧
      (∀ t p q, s * (q - 16/10) < 0 → Head.rates o.nu (Head.floorScalar (u t)) (du t) p (Head.odeClamp q) = ΦA (U u t, du t, p, max q (111/100))) ∧
      (∀ t p q, 0 < s * (q - 16/10) → Head.rates o.nu (Head.floorScalar (u t)) (du t) p (Head.odeClamp q) = ΦB (U u t, du t, p, max q (111/100))) ∧
      ∀ t p q, Head.rates o.nu (Head.floorScalar (u t)) (du t) p (Head.odeClamp q) = ΦA (U u t, du t, p, max q (111/100)) ∨
        Head.rates o.nu (Head.floorScalar (u t)) (du t) p (Head.odeClamp q) = ΦB (U u t, du t, p, max q (111/100)) := by
    rcases (abs_eq zero_le_one).1 hs with rfl | rfl
    · refine ⟨_, _, hKL, hKH, fun P hP => (hB P hP).1, fun P hP => (hB P hP).2, fun t p q hq => low t p q (by linarith), fun t p q hq => high t p q (by linarith),
        fun t p q => (le_or_gt q (16/10)).imp (low t p q) (high t p q)⟩
    · refine ⟨_, _, hKH, hKL, fun P hP => (hB P hP).2, fun P hP => (hB P hP).1, fun t p q hq => high t p q (by linarith), fun t p q hq => low t p q (by linarith),
        fun t p q => (lt_or_ge (16/10) q).imp (high t p q) (low t p q)⟩
  have rhs : ∀ t p q, o.rhs t [p, q] = .ok [(Head.rates o.nu (Head.floorScalar (u t)) (du t) p (Head.odeClamp q)).1,
      (Head.rates o.nu (Head.floorScalar (u t)) (du t) p (Head.odeClamp q)).2] := fun t p q => by
    simp [Obj.rhs, hc, Obj.headRhs, huE, hduE, Bind.bind, Except.bind, Pure.pure, Except.pure]
  have inPath : ∀ t ∈ Icc x0 x1, P u du d h t ∈ S := fun t ht => inBox t ht _ _ (by rw [sub_self, abs_zero]; linarith) (by rw [sub_self, abs_zero]; linarith)
  have cP : ContinuousOn (P u du d h) (Icc x0 x1) := (huc.sup continuousOn_const).prodMk (hduc.prodMk (hdc.prodMk (hhc.sup continuousOn_const)))
  have subA : Icc x0 xs ⊆ Icc x0 x1 := Icc_subset_Icc le_rfl hxB.le
  have subB : Icc xs x1 ⊆ Icc x0 x1 := Icc_subset_Icc hxA.le le_rfl
  have cA : ContinuousOn (fun t => ΦA (P u du d h t)) (Icc x0 x1) := hΦA.continuousOn.comp cP inPath
  have cB : ContinuousOn (fun t => ΦB (P u du d h t)) (Icc x0 x1) := hΦB.continuousOn.comp cP inPath
  have fin : (X ∪ {xs}).Finite := hX.union (finite_singleton xs)
  have derA : ∀ t ∈ Icc x0 xs, t ∉ X ∪ {xs} → HasDerivAt d (ΦA (P u du d h t)).1 t ∧ HasDerivAt h (ΦA (P u du d h t)).2 t := fun t ht hn => by
    simp only [mem_union, mem_singleton_iff, not_or] at hn
    have := (ode t (subA ht) hn.1).derivs hc huE hduE
    rw [eA t _ _ (sideA t ⟨ht.1, lt_of_le_of_ne ht.2 hn.2⟩)] at this
    exact this
  have derB : ∀ t ∈ Icc xs x1, t ∉ X ∪ {xs} → HasDerivAt d (ΦB (P u du d h t)).1 t ∧ HasDerivAt h (ΦB (P u du d h t)).2 t := fun t ht hn => by
    simp only [mem_union, mem_singleton_iff, not_or] at hn
    have := (ode t (subB ht) hn.1).derivs hc huE hduE
    rw [eB t _ _ (sideB t ⟨lt_of_le_of_ne ht.1 (Ne.symm hn.2), ht.2⟩)] at this
    exact this
  have dA1 : ∀ t ∈ Icc x0 xs, HasDerivWithinAt d (ΦA (P u du d h t)).1 (Icc x0 xs) t ∧ HasDerivWithinAt h (ΦA (P u du d h t)).2 (Icc x0 xs) t := fun t ht =>
    ⟨fill fin hxA (hdc.mono subA) ((continuous_fst.comp_continuousOn cA).mono subA) (fun t ht hn => (derA t ht hn).1) ht,
     fill fin hxA (hhc.mono subA) ((continuous_snd.comp_continuousOn cA).mono subA) (fun t ht hn => (derA t ht hn).2) ht⟩
  have dB1 : ∀ t ∈ Icc xs x1, HasDerivWithinAt d (ΦB (P u du d h t)).1 (Icc xs x1) t ∧ HasDerivWithinAt h (ΦB (P u du d h t)).2 (Icc xs x1) t := fun t ht =>
    ⟨fill fin hxB (hdc.mono subB) ((continuous_fst.comp_continuousOn cB).mono subB) (fun t ht hn => (derB t ht hn).1) ht,
     fill fin hxB (hhc.mono subB) ((continuous_snd.comp_continuousOn cB).mono subB) (fun t ht hn => (derB t ht hn).2) ht⟩
  have mA : xs ∈ Icc x0 xs := ⟨hxA.le, le_rfl⟩
  have mB : xs ∈ Icc xs x1 := ⟨le_rfl, hxB.le⟩
  have ra : (ΦA (P u du d h xs)).2 = rA := (uniqueDiffOn_Icc hxA xs mA).eq_deriv _ (dA1 xs mA).2 (dA.mono fun x hx => hx.2)
  have rb : (ΦB (P u du d h xs)).2 = rB := (uniqueDiffOn_Icc hxB xs mB).eq_deriv _ (dB1 xs mB).2 (dB.mono fun x hx => hx.1)
  -- the rates of passage
  obtain ⟨κ1, hκ1, lev1⟩ := level_before (f := fun t => s * (h t - 16/10)) (r := s * rA) ((continuousOn_const.mul (hhc.sub continuousOn_const)).mono subA) hxA
    (by rw [H.level]; simp) sideA (by rw [← ra]; exact ((dA1 xs mA).2.sub_const _).const_mul s) pA
  obtain ⟨κ2, hκ2, lev2⟩ := level_behind (f := fun t => s * (h t - 16/10)) (r := s * rB) ((continuousOn_const.mul (hhc.sub continuousOn_const)).mono subB) hxB
    (by rw [H.level]; simp) sideB (by rw [← rb]; exact ((dB1 xs mB).2.sub_const _).const_mul s) pB
  obtain ⟨a, ha⟩ : ∃ a, a = min (s * rA) (s * rB) := ⟨_, rfl⟩
  obtain ⟨b, hb⟩ : ∃ b, b = max (s * rA) (s * rB) := ⟨_, rfl⟩
  have ha0 : 0 < a := by rw [ha]; exact lt_min pA pB
  have hb0 : 0 < b := by rw [hb]; exact lt_max_of_lt_left pA
  have hab : b < 4 * a := by
    rcases le_total (s * rA) (s * rB) with q | q
    · rw [ha, hb, min_eq_left q, max_eq_right q]; exact rBA
    · rw [ha, hb, min_eq_right q, max_eq_left q]; exact rAB
  obtain ⟨η, hη⟩ : ∃ η, η = (4 * a - b) / 5 := ⟨_, rfl⟩
  have hη0 : 0 < η := by rw [hη]; linarith
  have hK0 : (0:ℝ) ≤ K := K.2
  obtain ⟨ρ, hρ⟩ : ∃ ρ, ρ = min (d z / 2) (η / (K * (V + Λ + B + 1) + 1)) := ⟨_, rfl⟩
  have hd1 : 0 < (K:ℝ) * (V + Λ + B + 1) + 1 := by positivity
  have hρ0 : 0 < ρ := by rw [hρ]; exact lt_min (by linarith) (by positivity)
  have hρ1 : ρ ≤ d z / 2 := by rw [hρ]; exact min_le_left _ _
  have hρ2 : K * ((V + Λ + B + 1) * ρ) ≤ η := by
    have : ρ ≤ η / (K * (V + Λ + B + 1) + 1) := by rw [hρ]; exact min_le_right _ _
    rw [le_div_iff₀ hd1] at this
    linarith
  have lu := mvt hu hV
  have path1 := branch_path (ρ := ρ) hΦA bA hV0 hΛ0 hB0 hρ0.le (fun s hs t ht => lu s (subA hs) t (subA ht)) (fun s hs t ht => hΛ s (subA hs) t (subA ht))
    (fun x hx p q hp hq => inBox x (subA hx) p q (hp.trans hρ1) (hq.trans hρ1)) dA1
  have path2 := branch_path (ρ := ρ) hΦB bB hV0 hΛ0 hB0 hρ0.le (fun s hs t ht => lu s (subB hs) t (subB ht)) (fun s hs t ht => hΛ s (subB hs) t (subB ht))
    (fun x hx p q hp hq => inBox x (subB hx) p q (hp.trans hρ1) (hq.trans hρ1)) dB1
  have bdA : ∀ t ∈ Icc x0 x1, |(ΦA (P u du d h t)).1| ≤ B ∧ |(ΦA (P u du d h t)).2| ≤ B := fun t ht =>
    ⟨(norm_fst_le _).trans (bA _ (inPath t ht)), (norm_snd_le _).trans (bA _ (inPath t ht))⟩
  have bdB : ∀ t ∈ Icc x0 x1, |(ΦB (P u du d h t)).1| ≤ B ∧ |(ΦB (P u du d h t)).2| ≤ B := fun t ht =>
    ⟨(norm_fst_le _).trans (bB _ (inPath t ht)), (norm_snd_le _).trans (bB _ (inPath t ht))⟩
  -- how far the layer gets near the passage
  have movedA : ∀ t ∈ Icc x0 xs, |d t - d xs| ≤ B * |t - xs| ∧ |h t - h xs| ≤ B * |t - xs| := fun t ht =>
    ⟨mvt (fun t ht => (dA1 t ht).1) (fun t ht => (bdA t (subA ht)).1) t ht xs mA, mvt (fun t ht => (dA1 t ht).2) (fun t ht => (bdA t (subA ht)).2) t ht xs mA⟩
  have movedB : ∀ t ∈ Icc xs x1, |d t - d xs| ≤ B * |t - xs| ∧ |h t - h xs| ≤ B * |t - xs| := fun t ht =>
    ⟨mvt (fun t ht => (dB1 t ht).1) (fun t ht => (bdB t (subB ht)).1) t ht xs mB, mvt (fun t ht => (dB1 t ht).2) (fun t ht => (bdB t (subB ht)).2) t ht xs mB⟩
  have moved : ∀ t ∈ Icc x0 x1, |d t - d xs| ≤ B * |t - xs| ∧ |h t - h xs| ≤ B * |t - xs| := fun t ht =>
    (le_total t xs).elim (fun q => movedA t ⟨ht.1, q⟩) fun q => movedB t ⟨q, ht.2⟩
  have mx : xs ∈ Icc x0 x1 := ⟨hxA.le, hxB.le⟩
  have speed : ∀ {Φ : ℝ × ℝ × ℝ × ℝ → ℝ × ℝ} {r : ℝ}, LipschitzOnWith K Φ S → (Φ (P u du d h xs)).2 = r → a ≤ s * r → s * r ≤ b → ∀ t ∈ Icc x0 x1, |t - xs| ≤ ρ →
      ∀ p q, |p - d t| ≤ ρ → |q - h t| ≤ ρ → a - η ≤ s * (Φ (U u t, du t, p, max q (111/100))).2 ∧ s * (Φ (U u t, du t, p, max q (111/100))).2 ≤ 4 * (a - η) := by
    intro Φ r hΦ hr h1 h2 t ht htx p q hp hq
    obtain ⟨m1, m2⟩ := moved t ht
    have e1 := mul_le_mul_of_nonneg_left htx hV0
    have e2 := mul_le_mul_of_nonneg_left htx hΛ0
    have e3 := mul_le_mul_of_nonneg_left htx hB0
    have f1 := mul_nonneg hV0 hρ0.le
    have f2 := mul_nonneg hΛ0 hρ0.le
    have f3 := mul_nonneg hB0 hρ0.le
    have key := (lip_close hΦ (e := (V + Λ + B + 1) * ρ) (inBox t ht p q (hp.trans hρ1) (hq.trans hρ1)) (inPath xs mx)
      ((abs_max_sub_max_le_abs _ _ _).trans ((lu t ht xs mx).trans (by linarith))) ((hΛ t ht xs mx).trans (by linarith))
      (show |p - d xs| ≤ _ from (abs_sub_le _ (d t) _).trans (by linarith)) ((abs_max_sub_max_le_abs _ _ _).trans ((abs_sub_le _ (h t) _).trans (by linarith)))).2.trans hρ2
    rw [hr] at key
    have key' : |s * (Φ (U u t, du t, p, max q (111/100))).2 - s * r| ≤ η := by rw [← mul_sub, abs_mul, hs, one_mul]; exact key
    have := abs_le.1 key'
    constructor <;> linarith [this.1, this.2]
  have raA : a ≤ s * rA ∧ s * rA ≤ b := ⟨by rw [ha]; exact min_le_left _ _, by rw [hb]; exact le_max_left _ _⟩
  have raB : a ≤ s * rB ∧ s * rB ≤ b := ⟨by rw [ha]; exact min_le_right _ _, by rw [hb]; exact le_max_right _ _⟩
  have big : ∀ {Φ : ℝ × ℝ × ℝ × ℝ → ℝ × ℝ} {Q : ℝ × ℝ × ℝ × ℝ}, ‖Φ Q‖ ≤ B → ∀ j, |[(Φ Q).1, (Φ Q).2].getD j 0| ≤ B := fun h j => by
    rcases j with _ | _ | j
    · exact (norm_fst_le _).trans h
    · exact (norm_snd_le _).trans h
    · rw [tail, abs_zero]; exact hB0
  refine rk45_passes (f := o.rhs) (fA := branchRhs ΦA u du) (fB := branchRhs ΦB u du) (i := 1) (c := 16/10) (s := s) (xs := xs) (M := B) (κ := min κ1 κ2) (lo := a - η)
    ⟨path1, path2, fun t ht => big (bA _ (inPath t (subA ht))), fun t ht => big (bB _ (inPath t (subB ht))), fun t y hy hl => ?_, fun t y hy hl => ?_, fun t ht => ?_,
      fun t ht => ?_, fun t ht y v hy hn hv => ?_, fun t ht htx y v hy hn hv => ?_, hs, ⟨by linarith, lt_min hκ1 hκ2, hρ0, hB0, by positivity, hK0⟩, hxA, hxB⟩ two_ne_zero
  · obtain ⟨p, q, rfl⟩ := List.length_eq_two.1 hy
    rw [rhs, eA t p q hl]; rfl
  · obtain ⟨p, q, rfl⟩ := List.length_eq_two.1 hy
    rw [rhs, eB t p q hl]; rfl
  · refine (lev1 t ht).trans (neg_le_neg (mul_le_mul_of_nonneg_right (min_le_left _ _) (by linarith [ht.2])))
  · exact (mul_le_mul_of_nonneg_right (min_le_right _ _) (by linarith [ht.1])).trans (lev2 t ht)
  · obtain ⟨p, q, rfl⟩ := List.length_eq_two.1 hy
    rw [rhs] at hv
    cases hv
    have mem := inBox t ht p q ((hn 0).trans hρ1) ((hn 1).trans hρ1)
    rcases either t p q with e | e <;> rw [e]
    · exact big (bA _ mem)
    · exact big (bB _ mem)
  · obtain ⟨p, q, rfl⟩ := List.length_eq_two.1 hy
    rw [rhs] at hv
    cases hv
    rcases either t p q with e | e <;> rw [e]
    · exact speed hΦA ra raA.1 raA.2 t ht htx p q (hn 0) (hn 1)
    · exact speed hΦB rb raB.1 raB.2 t ht htx p q (hn 0) (hn 1)

/-- **C137** for Head's method: a layer whose shape factor passes 1.6, in a flow whose velocity gradient is Lipschitz continuous. The momentum thickness and the
shape factor that `solve` stores converge to it. -/
theorem head_passes_converges {o : Obj ℝ} {u du d h : ℝ → ℝ} {x0 xs x1 : ℝ} (H : HeadPasses o d h x0 xs x1) (hc : o.cls = .head) (hnu : 0 < o.nu)
    (huE : ∀ t, o.vel.uE t = .ok (u t)) (hduE : ∀ t, o.vel.duE t = .ok (du t))
    (hu : ∀ x ∈ Icc x0 x1, HasDerivWithinAt u (du x) (Icc x0 x1) x) (hdu : LipOn du x0 x1) :
    SolveConverges o x0 x1 [d x0, h x0] fun o'' x e => ∃ d' h', o''.deltaM x = .ok d' ∧ o''.shapeD x = .ok h' ∧ |d' - d x| ≤ e ∧ |h' - h x| ≤ e := by
  refine ((H.tracks hc hnu huE hduE hu hdu).solve_converges rfl two_ne_zero).imp le_rfl fun s x e ⟨q1, q2, mx, w, w1, w2, w3⟩ => ?_
  obtain ⟨p, q, rfl⟩ := List.length_eq_two.1 w2
  rw [one_mul]
  refine ⟨(abs_nonneg _).trans (w3 0), p, q, ?_, ?_, w3 0, w3 1⟩
  · simp only [Obj.deltaM, q1, hc, Obj.comp, w1, Bind.bind, Except.bind, Pure.pure, Except.pure, List.getElem?_cons_zero]
  · simp only [Obj.shapeD, q1, hc, Obj.comp, w1, Bind.bind, Except.bind, Pure.pure, Except.pure, List.getElem?_cons_zero, List.getElem?_cons_succ]

/-- **C137**, verdicts: for such a layer the separation point converges, and so does the verdict that it stays attached. -/
theorem head_passes_separation {o : Obj ℝ} {u du d h : ℝ → ℝ} {x0 xb x1 crit : ℝ} (H : HeadPasses o d h x0 xb x1) (hc : o.cls = .head) (hnu : 0 < o.nu)
    (hev : o.events = [.sepHead crit]) (huE : ∀ t, o.vel.uE t = .ok (u t)) (hduE : ∀ t, o.vel.duE t = .ok (du t))
    (hu : ∀ x ∈ Icc x0 x1, HasDerivWithinAt u (du x) (Icc x0 x1) x) (hdu : LipOn du x0 x1) :
    (∀ xs x2, x0 < xs → x2 ∈ Ioc xs x1 → (∀ x ∈ Ico x0 xs, h x < crit) → (∀ x ∈ Ioc xs x2, crit < h x) → SeparationConverges o x0 x1 [d x0, h x0] xs) ∧
    ((∀ x ∈ Icc x0 x1, h x < crit) → AttachedConverges o x0 x1 [d x0, h x0]) := by
  have T := H.tracks hc hnu huE hduE hu hdu
  have M := head_margin o crit d h x0 x1
  have hκ : ContinuousOn (fun x => crit - [d x, h x].getD 1 0) (Icc x0 x1) := continuousOn_const.sub H.hCont
  exact ⟨fun xs x2 h1 h2 up down => T.approaches.separation_converges rfl two_ne_zero hev M hκ h1 h2 (fun x hx => sub_pos.2 (up x hx)) fun x hx => sub_neg.2 (down x hx),
    fun up => T.approaches.attached_converges rfl two_ne_zero hev M hκ (H.order.1.trans H.order.2) fun x hx => sub_pos.2 (up x hx)⟩

/-! ### Decelerated flow -/

private theorem Ep_E (a b c d x : ℝ) (hb : b < x) : Ep a b c x = -(c * (E a b c d x - d) / (x - b)) := by
  have h0 : 0 < x - b := by linarith
  unfold Ep E
  rw [Real.rpow_add_one h0.ne', add_sub_cancel_left]
  have := (Real.rpow_pos_of_pos h0 c).ne'
  field_simp

/-- Under persistent deceleration the two slopes at 1.6 are positive and not very different. -/
theorem passage_rates {nu v w m : ℝ} (hn : 0 < nu) (hv : 0 < v) (hm : 0 < m) (hdec : v / 100 ≤ -(m * w)) :
    0 < (VL nu (v, w, m, 16/10)).2 ∧ 0 < (VH nu (v, w, m, 16/10)).2 ∧ (VL nu (v, w, m, 16/10)).2 < 4 * (VH nu (v, w, m, 16/10)).2 ∧
      (VH nu (v, w, m, 16/10)).2 < 4 * (VL nu (v, w, m, 16/10)).2 := by
  have pL := (low_rate hn hv hm hdec (show (111/100:ℝ) ≤ 16/10 by norm_num) le_rfl).2
  have pH := (high_rate hn hv hm hdec (le_refl (16/10:ℝ))).1
  obtain ⟨eL, eH, e1, e2, h1, h2, h3⟩ := at_branch
  have kL := h1_rate (d := 33/10) (nu := nu) (w := w) EpL_neg hv hm
  have kH := h1_rate (d := 332254659218600974/10^17) (nu := nu) (w := w) EpH_neg hv hm
  have nL : 306/10000 / (eL - 3) ^ (6169/10000 : ℝ) < 43/1000 := ent_lt' eL (by linarith)
  have nH : 306/10000 / (eH - 3) ^ (6169/10000 : ℝ) < 43/1000 := ent_lt' eH (by linarith)
  have gL : 0 < 306/10000 / (eL - 3) ^ (6169/10000 : ℝ) := div_pos (by norm_num) (Real.rpow_pos_of_pos (by linarith) _)
  have gH : 0 < 306/10000 / (eH - 3) ^ (6169/10000 : ℝ) := div_pos (by norm_num) (Real.rpow_pos_of_pos (by linarith) _)
  have dL := Ep_E (8234/10000) (11/10) (1287/1000) (33/10) (16/10) (by norm_num)
  have dH := Ep_E (15501/10000) (6778/10000) (3064/1000) (332254659218600974/10^17) (16/10) (by norm_num)
  rw [e1] at dL kL
  rw [e2] at dH kH
  change Ep _ _ _ _ * (VL nu (v, w, m, 16/10)).2 = 306/10000 / (eL - 3) ^ (6169/10000 : ℝ) / m - _ + _ at kL
  change Ep _ _ _ _ * (VH nu (v, w, m, 16/10)).2 = 306/10000 / (eH - 3) ^ (6169/10000 : ℝ) / m - _ + _ at kH
  have cpos := cf_pos (x := 16/10) hn hv hm
  generalize (VL nu (v, w, m, 16/10)).2 = rL at *
  generalize (VH nu (v, w, m, 16/10)).2 = rH at *
  generalize cf nu v m (16/10) = k at *
  generalize (306/10000 / (eL - 3) ^ (6169/10000 : ℝ) : ℝ) = n1 at *
  generalize (306/10000 / (eH - 3) ^ (6169/10000 : ℝ) : ℝ) = n2 at *
  generalize Ep (8234/10000) (11/10) (1287/1000) (16/10) = EL at *
  generalize Ep (15501/10000) (6778/10000) (3064/1000) (16/10) = EH at *
  obtain ⟨T, hT⟩ : ∃ T, T = k / 2 - 26/10 * (m * w) / v := ⟨_, rfl⟩
  have hT0 : 26/1000 ≤ T := by
    have : 26/1000 ≤ -(26/10 * (m * w)) / v := by rw [le_div_iff₀ hv]; linarith
    rw [neg_div] at this
    linarith
  have qL : m * (-EL) * rL = eL * T - n1 := by
    have : m * (EL * rL) = n1 - eL * T := by rw [kL, hT]; field_simp; ring
    linarith
  have qH : m * (-EH) * rH = eH * T - n2 := by
    have : m * (EH * rH) = n2 - eH * T := by rw [kH, hT]; field_simp; ring
    linarith
  have bL : 51/10 < -EL ∧ -EL < 52/10 := by rw [dL]; norm_num; constructor <;> linarith
  have bH : 65/10 < -EH ∧ -EH < 67/10 := by rw [dH]; norm_num; constructor <;> linarith
  generalize -EL = A at *
  generalize -EH = B at *
  have hT1 : 0 < T := by linarith
  have hA : 0 < A := by linarith [bL.1]
  have hB : 0 < B := by linarith [bH.1]
  have l1 : eL * T ≤ 531/100 * T := mul_le_mul_of_nonneg_right (by linarith) hT1.le
  have l2 : eH * T ≤ 531/100 * T := mul_le_mul_of_nonneg_right (by linarith) hT1.le
  have l3 : 53/10 * T ≤ eL * T := mul_le_mul_of_nonneg_right (by linarith) hT1.le
  have l4 : 53/10 * T ≤ eH * T := mul_le_mul_of_nonneg_right (by linarith) hT1.le
  have x1 : m * A * rL ≤ 531/100 * T := by linarith
  have x2 : m * B * rH ≤ 531/100 * T := by linarith
  have x3 : 36/10 * T ≤ m * A * rL := by linarith
  have x4 : 36/10 * T ≤ m * B * rH := by linarith
  have mA : 0 < m * rL := mul_pos hm pL
  have mB : 0 < m * rH := mul_pos hm pH
  have y1 : m * rL * (51/10) ≤ m * A * rL := by have := mul_le_mul_of_nonneg_left bL.1.le mA.le; linarith
  have y2 : m * rH * (65/10) ≤ m * B * rH := by have := mul_le_mul_of_nonneg_left bH.1.le mB.le; linarith
  have y3 : m * A * rL ≤ m * rL * (52/10) := by have := mul_le_mul_of_nonneg_left bL.2.le mA.le; linarith
  have y4 : m * B * rH ≤ m * rH * (67/10) := by have := mul_le_mul_of_nonneg_left bH.2.le mB.le; linarith
  refine ⟨pL, pH, ?_, ?_⟩
  · refine lt_of_mul_lt_mul_left (a := m) ?_ hm.le
    linarith
  · refine lt_of_mul_lt_mul_left (a := m) ?_ hm.le
    linarith

/-- A layer in a persistently decelerated flow whose shape factor starts below 1.6 and ends above passes 1.6 in this way, once. -/
theorem head_slows_passes {o : Obj ℝ} {u du d h : ℝ → ℝ} {a b : ℝ} (hc : o.cls = .head) (hn : 0 < o.nu) (huE : ∀ t, o.vel.uE t = .ok (u t))
    (hduE : ∀ t, o.vel.duE t = .ok (du t)) (cu : ContinuousOn u (Icc a b)) (cdu : ContinuousOn du (Icc a b)) (hab : a < b)
    (hu : ∀ x ∈ Icc a b, 1/1000 ≤ u x) (hdec : ∀ x ∈ Icc a b, u x / 100 ≤ -(d a * du x)) (cd : ContinuousOn d (Icc a b)) (ch : ContinuousOn h (Icc a b))
    (ode : ∃ X : Set ℝ, X.Finite ∧ ∀ x ∈ Icc a b, x ∉ X → HeadOde o d h x) (hm : 0 < d a) (ha : h a < 16/10) (hb : 16/10 < h b) :
    StrictMonoOn h (Icc a b) ∧ ∃ xs, HeadPasses o d h a xs b := by
  obtain ⟨X, fin, ode⟩ := ode
  have F : Flow o u du a b := ⟨hc, huE, hduE, hn, cu, cdu⟩
  have S := F.sol fin cd ch ode hm
  have hs : Slows u du (d a) a b := ⟨hu, hdec⟩
  have mono := S.strict hs
  obtain ⟨xs, mx, lev⟩ := intermediate_value_Icc hab.le ch ⟨ha.le, hb.le⟩
  have hax : a < xs := lt_of_le_of_ne mx.1 fun e => by rw [← e] at lev; exact ha.ne lev
  have hxb : xs < b := lt_of_le_of_ne mx.2 fun e => by rw [e] at lev; exact hb.ne' lev
  have sub1 : Icc a xs ⊆ Icc a b := Icc_subset_Icc_right mx.2
  have sub2 : Icc xs b ⊆ Icc a b := Icc_subset_Icc_left mx.1
  have cL : ContinuousOn (fun t => (VL o.nu (P u du d h t)).2) (Icc a b) := fun t ht =>
    (continuous_snd.continuousAt.comp (S.vl ht).continuousAt).comp_continuousWithinAt (S.cP t ht)
  have cH : ContinuousOn (fun t => (VH o.nu (P u du d h t)).2) (Icc a b) := fun t ht =>
    (continuous_snd.continuousAt.comp (S.vh ht).continuousAt).comp_continuousWithinAt (S.cP t ht)
  have below : ∀ x ∈ Ico a xs, h x < 16/10 := fun x hx => lev ▸ mono ⟨hx.1, hx.2.le.trans mx.2⟩ mx hx.2
  have above : ∀ x ∈ Ioc xs b, 16/10 < h x := fun x hx => lev ▸ mono mx ⟨mx.1.trans hx.1.le, hx.2⟩ hx.1
  obtain ⟨e, hv, hd⟩ := S.slows hs xs mx
  obtain ⟨r1, r2, r3, r4⟩ := passage_rates hn (e ▸ hv) (S.pos xs mx) (e ▸ hd)
  rw [← P_eq lev] at r1 r2 r3 r4
  have dL := fill_left fin (ch.mono sub1) (cL.mono sub1) (fun t ht hx => S.low t (sub1 ht) hx ((eq_or_lt_of_le ht.2).elim (fun q => by rw [q, lev])
    fun q => (below t ⟨ht.1, q⟩).le)) (t := xs) ⟨hax, le_rfl⟩
  have dH := fill_right (X := X ∪ {xs}) (fin.union (finite_singleton _)) (ch.mono sub2) (cH.mono sub2) (fun t ht hx => by
    simp only [mem_union, mem_singleton_iff, not_or] at hx
    exact S.high t (sub2 ht) hx.1 (above t ⟨lt_of_le_of_ne ht.1 (Ne.symm hx.2), ht.2⟩)) (t := xs) ⟨le_rfl, hxb⟩
  exact ⟨mono, xs, ⟨hax, hxb⟩, cd, ch, ⟨X, fin, ode⟩, S.pos, lev, 1, _, _, abs_one, fun x hx => by linarith [below x hx], fun x hx => by linarith [above x hx],
    dL, dH, by rwa [one_mul], by rwa [one_mul], by simpa only [one_mul] using r3, by simpa only [one_mul] using r4⟩

/-- **C137**, a class of flows: `u_e` falls at least as in a persistently decelerated flow, to a quarter of its value; the shape factor starts between 1.3 and 1.6
and the critical value is above 1.6. Then there is a layer, solution of the equation of the method up to some point behind the one where its shape factor reaches
the critical value, and it is the layer to which `solve` converges: the momentum thickness, the shape factor and the reported separation point, whatever end the
calls name. -/
theorem head_slows_converges {o : Obj ℝ} {u du : ℝ → ℝ} {a b m0 h0 crit : ℝ} (hc : o.cls = .head) (hn : 0 < o.nu) (huE : ∀ t, o.vel.uE t = .ok (u t))
    (hduE : ∀ t, o.vel.duE t = .ok (du t)) (hslope : ∀ x ∈ Icc a b, HasDerivAt u (du x) x) (hdu : LipOn du a b) (hab : a < b)
    (hm : 0 < m0) (hh : 13/10 ≤ h0) (hh' : h0 < 16/10) (hcrit : 16/10 < crit) (hev : o.events = [.sepHead crit])
    (hu : ∀ x ∈ Icc a b, 1/1000 ≤ u x) (hdec : ∀ x ∈ Icc a b, u x / 100 ≤ -(m0 * du x)) (hq : u b ≤ u a / 4) :
    ∃ xs x2 d h, xs ∈ Ioo a x2 ∧ x2 ∈ Ioc a b ∧ d a = m0 ∧ h a = h0 ∧ HeadSolutionOn { o with sol := some fun t => [d t, h t] } u du d h a x2 ∧ h xs = crit ∧
      u a / 4 < u xs ∧ SeparationConverges o a x2 [m0, h0] xs ∧
      SolveConverges o a x2 [m0, h0] fun o'' x e => ∃ d' h', o''.deltaM x = .ok d' ∧ o''.shapeD x = .ok h' ∧ |d' - d x| ≤ e ∧ |h' - h x| ≤ e := by
  have cdu : ContinuousOn du (Icc a b) := hdu.continuousOn
  obtain ⟨x2, hx2, d, h, e1, e2, S, pos, -, hend⟩ := head_until_separation o u du a b m0 h0 (crit + 1) hc hn huE hduE hslope cdu hab hm (by linarith)
  have sub : Icc a x2 ⊆ Icc a b := Icc_subset_Icc_right hx2.2
  obtain ⟨X, T⟩ := S.toSol hn (cdu.mono sub) (by rw [e1]; exact hm)
  have hs : Slows u du (d a) a x2 := ⟨fun x hx => hu x (sub hx), fun x hx => by rw [e1]; exact hdec x (sub hx)⟩
  have quarter := T.quarter hs (fun x hx => hslope x (sub hx)) (by rw [e2]; exact hh)
  have top : h x2 = crit + 1 := hend.resolve_left fun e => by
    have := quarter x2 ⟨hx2.1.le, le_rfl⟩
    rw [e] at this
    linarith
  obtain ⟨mono, xb, H⟩ := head_slows_passes (d := d) (h := h) hc hn huE hduE T.cu (cdu.mono sub) hx2.1 hs.vel hs.dec S.dmCont S.hCont S.ode (by rw [e1]; exact hm)
    (by rw [e2]; exact hh') (by rw [top]; linarith)
  obtain ⟨xs, mx, lev⟩ := intermediate_value_Icc hx2.1.le S.hCont ⟨(by linarith : h a ≤ crit), (by linarith : crit ≤ h x2)⟩
  have hax : a < xs := lt_of_le_of_ne mx.1 fun e => by rw [← e] at lev; linarith
  have hxb : xs < x2 := lt_of_le_of_ne mx.2 fun e => by rw [e] at lev; linarith
  have hu' : ∀ x ∈ Icc a x2, HasDerivWithinAt u (du x) (Icc a x2) x := fun x hx => (hslope x (sub hx)).hasDerivWithinAt
  have lip : LipOn du a x2 := hdu.imp fun _ K => ⟨K.1, fun x hx y hy => K.2 x (sub hx) y (sub hy)⟩
  refine ⟨xs, x2, d, h, ⟨hax, hxb⟩, hx2, e1, e2, S, lev, by linarith [quarter xs mx], ?_, ?_⟩
  · rw [← e1, ← e2]
    exact (head_passes_separation H hc hn hev huE hduE hu' lip).1 xs x2 hax ⟨hxb, le_rfl⟩ (fun x hx => lev ▸ mono ⟨hx.1, hx.2.le.trans mx.2⟩ mx hx.2)
      fun x hx => lev ▸ mono mx ⟨mx.1.trans hx.1.le, hx.2⟩ hx.1
  · rw [← e1, ← e2]
    exact head_passes_converges H hc hn huE hduE hu' lip

/-- The hypotheses of `head_slows_converges` are met: `u_e = 2 - x` on `[0, 1.5]`, viscosity 1, momentum thickness 1/10, shape factor 1.4, critical value 2.4. And there are
calls of `solve` of the kind that it speaks of. -/
theorem head_slows_case : ∃ (o : Obj ℝ) (u du : ℝ → ℝ), o.cls = .head ∧ 0 < o.nu ∧ (∀ t, o.vel.uE t = .ok (u t)) ∧ (∀ t, o.vel.duE t = .ok (du t)) ∧
    (∀ x ∈ Icc (0:ℝ) (3/2), HasDerivAt u (du x) x) ∧ LipOn du 0 (3/2) ∧ o.events = [.sepHead (24/10)] ∧ (∀ x ∈ Icc (0:ℝ) (3/2), 1/1000 ≤ u x) ∧
    (∀ x ∈ Icc (0:ℝ) (3/2), u x / 100 ≤ -(1/10 * du x)) ∧ u (3/2) ≤ u 0 / 4 ∧ Exercised o 0 (3/2) [1/10, 14/10] := by
  let o : Obj ℝ := ⟨.head, 1, ⟨some (.fn fun x => .ok (2 - x)), some (.fn fun _ => .ok (-1)), none⟩, .manual 0 1 (14/100) (1/10) 1, [.sepHead (24/10)], none, none⟩
  have huE : ∀ t, o.vel.uE t = .ok (2 - t) := fun t => by simp [o, VelState.uE, VelState.rawU, callOpt, Vel.call]
  have hduE : ∀ t, o.vel.duE t = .ok (-1) := fun t => by simp [o, VelState.duE, VelState.rawDu, callOpt, Vel.call]
  refine ⟨o, fun x => 2 - x, fun _ => -1, rfl, one_pos, huE, hduE, fun x _ => by simpa using (hasDerivAt_id x).const_sub 2, ⟨0, le_rfl, fun x _ y _ => by simp⟩, rfl,
    fun x hx => by linarith [hx.2], fun x hx => by linarith [hx.1], by norm_num,
    exercised (te := .none) (by norm_num) (by simp) ⟨fun t => ⟨_, huE t⟩, fun t => ⟨_, hduE t⟩, fun hc => by cases hc⟩ ?_ fun x => ?_⟩
  · intro e he
    simp only [o, TermArg.toList, List.append_nil, List.mem_singleton] at he
    subst he
    intro t y hy
    obtain ⟨p, q, rfl⟩ := List.length_eq_two.1 hy
    exact ⟨_, rfl⟩
  · simp [o, Obj.prepare, IC.setNu, VelState.duE, VelState.rawDu, callOpt, Vel.call, IC.setDu, Obj.startVector, IC.deltaM, IC.shapeD, pyDiv, Bind.bind,
      Except.bind, Pure.pure, Except.pure, TermArg.toList]
    norm_num
    exact ⟨_, _, ⟨rfl, rfl⟩, rfl⟩

end IBL
