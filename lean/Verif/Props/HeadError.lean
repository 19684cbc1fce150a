import Mathlib.Analysis.ODE.Gronwall
import Mathlib.Topology.Algebra.MetricSpace.Lipschitz
import Verif.Props.HeadSeparates

/-! C125: Head's method, errors of start values and of the integrator. -/

set_option linter.unusedSectionVars false

namespace IBL
open Set HeadBranch Filter Topology

/-- The functions `dm` and `h` satisfy at `x` the equation that a Head object hands to the integrator up to a residual of at most `eps`. -/
def HeadUpTo (o : Obj ℝ) (eps : ℝ) (dm h : ℝ → ℝ) (x : ℝ) : Prop :=
  ∃ p q p' q', o.rhs x [dm x, h x] = .ok [p, q] ∧ HasDerivAt dm p' x ∧ HasDerivAt h q' x ∧ |p' - p| ≤ eps ∧ |q' - q| ≤ eps

theorem HeadOde.upTo {o : Obj ℝ} {dm h : ℝ → ℝ} {x : ℝ} (H : HeadOde o dm h x) : HeadUpTo o 0 dm h x := by
  obtain ⟨p, q, hr, hp, hq⟩ := H
  exact ⟨p, q, p, q, hr, hp, hq, by simp, by simp⟩

/-- Bounds on velocity, slope, momentum thickness and shape factor. -/
def headBox (W D m0 m1 H : ℝ) : Set (ℝ × ℝ × ℝ × ℝ) := Icc (1/1000) W ×ˢ Icc (-D) D ×ˢ Icc m0 m1 ×ˢ Icc (111/100) H

private theorem box_lipschitz {Φ : ℝ × ℝ × ℝ × ℝ → ℝ × ℝ} {W D m0 m1 H : ℝ} (h : ∀ Q ∈ headBox W D m0 m1 H, ContDiffAt ℝ 1 Φ Q) :
    ∃ K, LipschitzOnWith K Φ (headBox W D m0 m1 H) := by
  refine LocallyLipschitzOn.exists_lipschitzOnWith_of_compact (isCompact_Icc.prod (isCompact_Icc.prod (isCompact_Icc.prod isCompact_Icc))) fun Q hQ => ?_
  obtain ⟨K, T, hT, hL⟩ := (h Q hQ).exists_lipschitzOnWith
  exact ⟨K, T, mem_nhdsWithin_of_mem_nhds hT, hL⟩

private theorem gronwall_le {δ K ε x : ℝ} (hK : 0 ≤ K) (hε : 0 ≤ ε) (hx : 0 ≤ x) : gronwallBound δ K ε x ≤ (δ + ε * x) * Real.exp (K * x) := by
  rcases eq_or_lt_of_le hK with rfl | hK
  · simp [gronwallBound_K0]
  · rw [gronwallBound_of_K_ne_0 hK.ne', add_mul]
    refine add_le_add le_rfl ?_
    have h1 : Real.exp (K * x) - 1 ≤ K * x * Real.exp (K * x) := by
      have := Real.add_one_le_exp (-(K * x))
      have h2 : Real.exp (-(K * x)) * Real.exp (K * x) = 1 := by rw [← Real.exp_add]; simp
      nlinarith [Real.exp_pos (K * x)]
    calc ε / K * (Real.exp (K * x) - 1) ≤ ε / K * (K * x * Real.exp (K * x)) := mul_le_mul_of_nonneg_left h1 (by positivity)
      _ = ε * x * Real.exp (K * x) := by field_simp

/-- The two branches of the right hand side in a box. -/
theorem headBox_rates (nu W D m0 m1 H : ℝ) (hnu : 0 < nu) (hm : 0 < m0) : ∃ (K : NNReal) (B : ℝ), 0 ≤ B ∧
    LipschitzOnWith K (VL nu) (headBox W D m0 m1 H) ∧ LipschitzOnWith K (VH nu) (headBox W D m0 m1 H) ∧
    ∀ Q ∈ headBox W D m0 m1 H, ‖VL nu Q‖ ≤ B ∧ ‖VH nu Q‖ ≤ B := by
  obtain ⟨KL, hKL⟩ := box_lipschitz (Φ := VL nu) (W := W) (D := D) (m0 := m0) (m1 := m1) (H := H) fun Q hQ =>
    VL_contDiff hnu (lt_of_lt_of_le (by norm_num) hQ.1.1) (hm.trans_le hQ.2.2.1.1) hQ.2.2.2.1
  obtain ⟨KH, hKH⟩ := box_lipschitz (Φ := VH nu) (W := W) (D := D) (m0 := m0) (m1 := m1) (H := H) fun Q hQ =>
    VH_contDiff hnu (lt_of_lt_of_le (by norm_num) hQ.1.1) (hm.trans_le hQ.2.2.1.1) hQ.2.2.2.1
  have hc : IsCompact (headBox W D m0 m1 H) := isCompact_Icc.prod (isCompact_Icc.prod (isCompact_Icc.prod isCompact_Icc))
  obtain ⟨B1, hB1⟩ := hc.exists_bound_of_continuousOn hKL.continuousOn
  obtain ⟨B2, hB2⟩ := hc.exists_bound_of_continuousOn hKH.continuousOn
  exact ⟨max KL KH, max 0 (max B1 B2), le_max_left _ _, hKL.weaken (le_max_left _ _), hKH.weaken (le_max_right _ _), fun Q hQ =>
    ⟨(hB1 Q hQ).trans ((le_max_left _ _).trans (le_max_right _ _)), (hB2 Q hQ).trans ((le_max_right _ _).trans (le_max_right _ _))⟩⟩

/-- The flow and its bounds. -/
private structure Bounded (o : Obj ℝ) (u du : ℝ → ℝ) (a b W D : ℝ) : Prop where
  isHead : o.cls = .head
  uE : ∀ t, o.vel.uE t = .ok (u t)
  duE : ∀ t, o.vel.duE t = .ok (du t)
  bound : ∀ x ∈ Icc a b, u x ≤ W ∧ |du x| ≤ D

private theorem Bounded.inBox {o : Obj ℝ} {u du d h : ℝ → ℝ} {a b W D m0 m1 H x : ℝ} (F : Bounded o u du a b W D) (hx : x ∈ Icc a b)
    (hd : d x ∈ Icc m0 m1) (hh : h x ≤ H) : P u du d h x ∈ headBox (max W (1/1000)) D m0 m1 (max H (111/100)) :=
  ⟨⟨le_max_right _ _, max_le_max (F.bound x hx).1 le_rfl⟩, abs_le.1 (F.bound x hx).2, hd, le_max_right _ _, max_le_max hh le_rfl⟩

private theorem Bounded.step {o : Obj ℝ} {u du d h : ℝ → ℝ} {a b W D e x : ℝ} (F : Bounded o u du a b W D) (H : HeadUpTo o e d h x) :
    HasDerivAt (fun t => (d t, h t)) (deriv d x, deriv h x) x ∧
      dist (deriv d x, deriv h x) (Head.rates o.nu (Head.floorScalar (u x)) (du x) (d x) (Head.odeClamp (h x))) ≤ e := by
  obtain ⟨p, q, p', q', hr, hp, hq, k1, k2⟩ := H
  have : o.rhs x [d x, h x] = .ok [(Head.rates o.nu (Head.floorScalar (u x)) (du x) (d x) (Head.odeClamp (h x))).1,
      (Head.rates o.nu (Head.floorScalar (u x)) (du x) (d x) (Head.odeClamp (h x))).2] := by
    simp [Obj.rhs, F.isHead, Obj.headRhs, F.uE, F.duE, Bind.bind, Except.bind, Pure.pure, Except.pure]
  rw [this] at hr
  simp only [Except.ok.injEq, List.cons.injEq, and_true] at hr
  rw [hp.deriv, hq.deriv]
  refine ⟨hp.prodMk hq, ?_⟩
  rw [Prod.dist_eq, Real.dist_eq, Real.dist_eq, hr.1, hr.2]
  exact max_le k1 k2

/-- The distance of two layers. -/
noncomputable def layerDist (d1 h1 d2 h2 : ℝ → ℝ) (x : ℝ) : ℝ := max |d1 x - d2 x| |h1 x - h2 x|

/-- Two layers that follow one branch. -/
private theorem one_branch {o : Obj ℝ} {u du d1 h1 d2 h2 : ℝ → ℝ} {a b e1 e2 W D m0 m1 H : ℝ} {K : NNReal} (F : Bounded o u du a b W D)
    (he1 : 0 ≤ e1) (he2 : 0 ≤ e2) (hb : ∀ x ∈ Icc a b, d1 x ∈ Icc m0 m1 ∧ d2 x ∈ Icc m0 m1 ∧ h1 x ≤ H ∧ h2 x ≤ H)
    (hL : LipschitzOnWith K (VL o.nu) (headBox (max W (1/1000)) D m0 m1 (max H (111/100))))
    (hH : LipschitzOnWith K (VH o.nu) (headBox (max W (1/1000)) D m0 m1 (max H (111/100))))
    (hside : (∀ x ∈ Ico a b, h1 x ≤ 16/10 ∧ h2 x ≤ 16/10) ∨ ∀ x ∈ Ico a b, 16/10 < h1 x ∧ 16/10 < h2 x)
    (c1 : ContinuousOn d1 (Icc a b) ∧ ContinuousOn h1 (Icc a b)) (c2 : ContinuousOn d2 (Icc a b) ∧ ContinuousOn h2 (Icc a b))
    (H1 : ∀ x ∈ Ico a b, HeadUpTo o e1 d1 h1 x) (H2 : ∀ x ∈ Ico a b, HeadUpTo o e2 d2 h2 x) :
    ∀ x ∈ Icc a b, layerDist d1 h1 d2 h2 x ≤ (layerDist d1 h1 d2 h2 a + (e1 + e2) * (x - a)) * Real.exp (K * (x - a)) := by
  obtain ⟨Φ, hΦ, hr⟩ : ∃ Φ : ℝ × ℝ × ℝ × ℝ → ℝ × ℝ, LipschitzOnWith K Φ (headBox (max W (1/1000)) D m0 m1 (max H (111/100))) ∧
      ∀ x ∈ Ico a b, Head.rates o.nu (Head.floorScalar (u x)) (du x) (d1 x) (Head.odeClamp (h1 x)) = Φ (P u du d1 h1 x) ∧
        Head.rates o.nu (Head.floorScalar (u x)) (du x) (d2 x) (Head.odeClamp (h2 x)) = Φ (P u du d2 h2 x) := by
    rcases hside with hs | hs
    · exact ⟨_, hL, fun x hx => ⟨rates_P_low (hs x hx).1, rates_P_low (hs x hx).2⟩⟩
    · exact ⟨_, hH, fun x hx => ⟨rates_P_high (hs x hx).1, rates_P_high (hs x hx).2⟩⟩
  intro x hx
  have key := dist_le_of_approx_trajectories_ODE_of_mem (K := K) (a := a) (b := b) (εf := e1) (εg := e2) (δ := layerDist d1 h1 d2 h2 a)
    (v := fun t p => Φ (U u t, du t, p.1, max p.2 (111/100)))
    (s := fun t => {p | (U u t, du t, p.1, max p.2 (111/100)) ∈ headBox (max W (1/1000)) D m0 m1 (max H (111/100))})
    (f := fun t => (d1 t, h1 t)) (g := fun t => (d2 t, h2 t)) (f' := fun t => (deriv d1 t, deriv h1 t)) (g' := fun t => (deriv d2 t, deriv h2 t))
    (fun t _ => ?_) (c1.1.prodMk c1.2) (fun t ht => (F.step (H1 t ht)).1.hasDerivWithinAt)
    (fun t ht => ?_) (fun t ht => ?_) (c2.1.prodMk c2.2)
    (fun t ht => (F.step (H2 t ht)).1.hasDerivWithinAt) (fun t ht => ?_) (fun t ht => ?_) (by rw [Prod.dist_eq, Real.dist_eq, Real.dist_eq]; rfl) x hx
  · rw [Prod.dist_eq, Real.dist_eq, Real.dist_eq] at key
    exact key.trans (gronwall_le (NNReal.coe_nonneg _) (add_nonneg he1 he2) (sub_nonneg.2 hx.1))
  · refine LipschitzOnWith.of_dist_le_mul fun p hp q hq => (hΦ.dist_le_mul _ hp _ hq).trans ?_
    refine mul_le_mul_of_nonneg_left ?_ (NNReal.coe_nonneg _)
    simp only [Prod.dist_eq, dist_self]
    have h3 : dist (max p.2 (111/100)) (max q.2 (111/100)) ≤ dist p.2 q.2 := by
      rw [Real.dist_eq, Real.dist_eq]
      simpa using abs_max_sub_max_le_max p.2 (111/100) q.2 (111/100)
    exact max_le (le_max_of_le_left dist_nonneg) (max_le (le_max_of_le_left dist_nonneg) (max_le_max le_rfl h3))
  · have := (F.step (H1 t ht)).2
    rwa [(hr t ht).1] at this
  · obtain ⟨k3, k4, k5, k6⟩ := hb t ⟨ht.1, ht.2.le⟩
    exact F.inBox ⟨ht.1, ht.2.le⟩ k3 k5
  · have := (F.step (H2 t ht)).2
    rwa [(hr t ht).2] at this
  · obtain ⟨k3, k4, k5, k6⟩ := hb t ⟨ht.1, ht.2.le⟩
    exact F.inBox ⟨ht.1, ht.2.le⟩ k4 k6

/-- Bounds compose along the wall. -/
private theorem chain {M δ e a z x r s : ℝ} (hM : 0 ≤ M) (he : 0 ≤ e) (h1 : a ≤ z) (h2 : z ≤ x)
    (hr : r ≤ (δ + e * (z - a)) * Real.exp (M * (z - a))) (hs : s ≤ (r + e * (x - z)) * Real.exp (M * (x - z))) :
    s ≤ (δ + e * (x - a)) * Real.exp (M * (x - a)) := by
  have k1 : Real.exp (M * (x - a)) = Real.exp (M * (z - a)) * Real.exp (M * (x - z)) := by rw [← Real.exp_add]; ring_nf
  have k2 : 1 ≤ Real.exp (M * (z - a)) := Real.one_le_exp (mul_nonneg hM (sub_nonneg.2 h1))
  have k3 := Real.exp_pos (M * (x - z))
  have k4 : 0 ≤ e * (x - z) := mul_nonneg he (sub_nonneg.2 h2)
  refine hs.trans ?_
  rw [k1, ← mul_assoc]
  refine mul_le_mul_of_nonneg_right ?_ k3.le
  nlinarith

/-- A layer that satisfies the equation up to a residual, except in finitely many places. -/
structure HeadApprox (o : Obj ℝ) (eps : ℝ) (dm h : ℝ → ℝ) (a b : ℝ) : Prop where
  dmCont : ContinuousOn dm (Icc a b)
  hCont : ContinuousOn h (Icc a b)
  ode : ∃ X : Set ℝ, X.Finite ∧ ∀ x ∈ Icc a b, x ∉ X → HeadUpTo o eps dm h x

theorem HeadApprox.mono {o : Obj ℝ} {e : ℝ} {d h : ℝ → ℝ} {a b a' b' : ℝ} (A : HeadApprox o e d h a b) (ha : a ≤ a') (hb : b' ≤ b) :
    HeadApprox o e d h a' b' := by
  obtain ⟨X, hX, k⟩ := A.ode
  have sub : Icc a' b' ⊆ Icc a b := Icc_subset_Icc ha hb
  exact ⟨A.dmCont.mono sub, A.hCont.mono sub, X, hX, fun x hx => k x (sub hx)⟩

private theorem layerDist_cont {o : Obj ℝ} {e1 e2 : ℝ} {d1 h1 d2 h2 : ℝ → ℝ} {a b : ℝ} (A1 : HeadApprox o e1 d1 h1 a b)
    (A2 : HeadApprox o e2 d2 h2 a b) : ContinuousOn (layerDist d1 h1 d2 h2) (Icc a b) :=
  ContinuousOn.sup (A1.dmCont.sub A2.dmCont).abs (A1.hCont.sub A2.hCont).abs

/-- The same on an open interval with finitely many exceptions. -/
private theorem one_branch_off {o : Obj ℝ} {u du d1 h1 d2 h2 : ℝ → ℝ} {e1 e2 W D m0 m1 H : ℝ} {K : NNReal}
    (he1 : 0 ≤ e1) (he2 : 0 ≤ e2)
    (hL : LipschitzOnWith K (VL o.nu) (headBox (max W (1/1000)) D m0 m1 (max H (111/100))))
    (hH : LipschitzOnWith K (VH o.nu) (headBox (max W (1/1000)) D m0 m1 (max H (111/100)))) (X : Finset ℝ) :
    ∀ a b, a ≤ b → Bounded o u du a b W D → (∀ x ∈ Icc a b, d1 x ∈ Icc m0 m1 ∧ d2 x ∈ Icc m0 m1 ∧ h1 x ≤ H ∧ h2 x ≤ H) →
    ((∀ x ∈ Ioo a b, h1 x ≤ 16/10 ∧ h2 x ≤ 16/10) ∨ ∀ x ∈ Ioo a b, 16/10 < h1 x ∧ 16/10 < h2 x) →
    ContinuousOn d1 (Icc a b) ∧ ContinuousOn h1 (Icc a b) → ContinuousOn d2 (Icc a b) ∧ ContinuousOn h2 (Icc a b) →
    (∀ x ∈ Ioo a b, x ∉ X → HeadUpTo o e1 d1 h1 x ∧ HeadUpTo o e2 d2 h2 x) →
    layerDist d1 h1 d2 h2 b ≤ (layerDist d1 h1 d2 h2 a + (e1 + e2) * (b - a)) * Real.exp (K * (b - a)) := by
  induction X using Finset.induction_on with
  | empty =>
    intro a b hab F hb hside c1 c2 HH
    rcases hab.eq_or_lt with rfl | hab
    · simp
    have hev : ∀ᶠ y in 𝓝[>] a, layerDist d1 h1 d2 h2 b ≤ (layerDist d1 h1 d2 h2 y + (e1 + e2) * (b - y)) * Real.exp (K * (b - y)) := by
      filter_upwards [Ioo_mem_nhdsGT hab] with y hy
      have sub : Icc y b ⊆ Icc a b := Icc_subset_Icc_left hy.1.le
      have sub' : Ico y b ⊆ Ioo a b := fun t ht => ⟨hy.1.trans_le ht.1, ht.2⟩
      exact one_branch (a := y) (b := b) ⟨F.isHead, F.uE, F.duE, fun x hx => F.bound x (sub hx)⟩ he1 he2 (fun x hx => hb x (sub hx)) hL hH
        (hside.imp (fun k x hx => k x (sub' hx)) fun k x hx => k x (sub' hx)) ⟨c1.1.mono sub, c1.2.mono sub⟩ ⟨c2.1.mono sub, c2.2.mono sub⟩
        (fun x hx => (HH x (sub' hx) (by simp)).1) (fun x hx => (HH x (sub' hx) (by simp)).2) b ⟨hy.2.le, le_rfl⟩
    have hc : ContinuousOn (layerDist d1 h1 d2 h2) (Icc a b) := ContinuousOn.sup (c1.1.sub c2.1).abs (c1.2.sub c2.2).abs
    have ht : Tendsto (fun y => (layerDist d1 h1 d2 h2 y + (e1 + e2) * (b - y)) * Real.exp (K * (b - y))) (𝓝[>] a)
        (𝓝 ((layerDist d1 h1 d2 h2 a + (e1 + e2) * (b - a)) * Real.exp (K * (b - a)))) := by
      have k1 : Tendsto (layerDist d1 h1 d2 h2) (𝓝[>] a) (𝓝 (layerDist d1 h1 d2 h2 a)) := by
        have := hc a ⟨le_rfl, hab.le⟩
        exact this.tendsto.mono_left (by rw [nhdsWithin_Icc_eq_nhdsGE hab]; exact nhdsWithin_mono _ Ioi_subset_Ici_self)
      have k2 : Tendsto (fun y : ℝ => (e1 + e2) * (b - y)) (𝓝[>] a) (𝓝 ((e1 + e2) * (b - a))) :=
        tendsto_nhdsWithin_of_tendsto_nhds (Continuous.tendsto (by fun_prop) a)
      have k3 : Tendsto (fun y : ℝ => Real.exp (K * (b - y))) (𝓝[>] a) (𝓝 (Real.exp (K * (b - a)))) :=
        tendsto_nhdsWithin_of_tendsto_nhds (Continuous.tendsto (by fun_prop) a)
      exact (k1.add k2).mul k3
    exact ge_of_tendsto ht hev
  | insert z X hz ih =>
    intro a b hab F hb hside c1 c2 HH
    by_cases hm : z ∈ Ioo a b
    · have s1 : Icc a z ⊆ Icc a b := Icc_subset_Icc_right hm.2.le
      have s2 : Icc z b ⊆ Icc a b := Icc_subset_Icc_left hm.1.le
      have t1 : Ioo a z ⊆ Ioo a b := Ioo_subset_Ioo_right hm.2.le
      have t2 : Ioo z b ⊆ Ioo a b := Ioo_subset_Ioo_left hm.1.le
      have r1 := ih a z hm.1.le ⟨F.isHead, F.uE, F.duE, fun x hx => F.bound x (s1 hx)⟩ (fun x hx => hb x (s1 hx))
        (hside.imp (fun k x hx => k x (t1 hx)) fun k x hx => k x (t1 hx)) ⟨c1.1.mono s1, c1.2.mono s1⟩ ⟨c2.1.mono s1, c2.2.mono s1⟩
        (fun x hx hn => HH x (t1 hx) (by simp [hn, hx.2.ne]))
      have r2 := ih z b hm.2.le ⟨F.isHead, F.uE, F.duE, fun x hx => F.bound x (s2 hx)⟩ (fun x hx => hb x (s2 hx))
        (hside.imp (fun k x hx => k x (t2 hx)) fun k x hx => k x (t2 hx)) ⟨c1.1.mono s2, c1.2.mono s2⟩ ⟨c2.1.mono s2, c2.2.mono s2⟩
        (fun x hx hn => HH x (t2 hx) (by simp [hn, hx.1.ne']))
      exact chain (NNReal.coe_nonneg _) (add_nonneg he1 he2) hm.1.le hm.2.le r1 r2
    · exact ih a b hab F hb hside c1 c2 fun x hx hn => HH x hx (by
        simp only [Finset.mem_insert, hn, or_false]
        rintro rfl
        exact hm hx)

/-- For two layers as defined above. -/
private theorem same_side {o : Obj ℝ} {u du d1 h1 d2 h2 : ℝ → ℝ} {a b e1 e2 W D m0 m1 H : ℝ} {K : NNReal} (F : Bounded o u du a b W D)
    (he1 : 0 ≤ e1) (he2 : 0 ≤ e2) (hb : ∀ x ∈ Icc a b, d1 x ∈ Icc m0 m1 ∧ d2 x ∈ Icc m0 m1 ∧ h1 x ≤ H ∧ h2 x ≤ H)
    (hL : LipschitzOnWith K (VL o.nu) (headBox (max W (1/1000)) D m0 m1 (max H (111/100))))
    (hH : LipschitzOnWith K (VH o.nu) (headBox (max W (1/1000)) D m0 m1 (max H (111/100))))
    (A1 : HeadApprox o e1 d1 h1 a b) (A2 : HeadApprox o e2 d2 h2 a b) {p q : ℝ} (hp : a ≤ p) (hpq : p ≤ q) (hq : q ≤ b)
    (hside : (∀ x ∈ Ioo p q, h1 x ≤ 16/10 ∧ h2 x ≤ 16/10) ∨ ∀ x ∈ Ioo p q, 16/10 < h1 x ∧ 16/10 < h2 x) :
    layerDist d1 h1 d2 h2 q ≤ (layerDist d1 h1 d2 h2 p + (e1 + e2) * (q - p)) * Real.exp (K * (q - p)) := by
  have B1 := A1.mono hp hq
  have B2 := A2.mono hp hq
  obtain ⟨X1, f1, k1⟩ := B1.ode
  obtain ⟨X2, f2, k2⟩ := B2.ode
  have sub : Icc p q ⊆ Icc a b := Icc_subset_Icc hp hq
  refine one_branch_off he1 he2 hL hH (f1.union f2).toFinset p q hpq ⟨F.isHead, F.uE, F.duE, fun x hx => F.bound x (sub hx)⟩
    (fun x hx => hb x (sub hx)) hside ⟨B1.dmCont, B1.hCont⟩ ⟨B2.dmCont, B2.hCont⟩ fun x hx hn => ?_
  simp only [Finite.mem_toFinset, mem_union, not_or] at hn
  exact ⟨k1 x ⟨hx.1.le, hx.2.le⟩ hn.1, k2 x ⟨hx.1.le, hx.2.le⟩ hn.2⟩

/-- **C125**: for each viscosity and bounds on velocity, slope, momentum thickness and shape factor there is a rate `M` such that two layers which respect
the bounds in the same flow, are both below or both above the shape factor 1.6 (where the equation jumps), and satisfy the equation up to residuals `e1`
and `e2`, differ no more than their starts and residuals allow. -/
theorem head_error (nu W D m0 m1 H : ℝ) (hnu : 0 < nu) (hm : 0 < m0) :
    ∃ M, 0 ≤ M ∧ ∀ (o : Obj ℝ) (u du d1 h1 d2 h2 : ℝ → ℝ) (a b e1 e2 : ℝ), o.cls = .head → o.nu = nu →
      (∀ t, o.vel.uE t = .ok (u t)) → (∀ t, o.vel.duE t = .ok (du t)) → 0 ≤ e1 → 0 ≤ e2 →
      (∀ x ∈ Icc a b, u x ≤ W ∧ |du x| ≤ D ∧ d1 x ∈ Icc m0 m1 ∧ d2 x ∈ Icc m0 m1 ∧ h1 x ≤ H ∧ h2 x ≤ H) →
      ((∀ x ∈ Icc a b, h1 x ≤ 16/10 ∧ h2 x ≤ 16/10) ∨ ∀ x ∈ Icc a b, 16/10 < h1 x ∧ 16/10 < h2 x) →
      HeadApprox o e1 d1 h1 a b → HeadApprox o e2 d2 h2 a b →
      ∀ x ∈ Icc a b, max |d1 x - d2 x| |h1 x - h2 x| ≤
        (max |d1 a - d2 a| |h1 a - h2 a| + (e1 + e2) * (x - a)) * Real.exp (M * (x - a)) := by
  obtain ⟨K, B, -, hL, hH, -⟩ := headBox_rates nu (max W (1/1000)) D m0 m1 (max H (111/100)) hnu hm
  refine ⟨K, NNReal.coe_nonneg _, fun o u du d1 h1 d2 h2 a b e1 e2 hc hn huE hduE he1 he2 hb hside A1 A2 x hx => ?_⟩
  subst hn
  have sub : Ioo a x ⊆ Icc a b := fun t ht => ⟨ht.1.le, ht.2.le.trans hx.2⟩
  exact same_side ⟨hc, huE, hduE, fun x hx => ⟨(hb x hx).1, (hb x hx).2.1⟩⟩ he1 he2 (fun x hx => (hb x hx).2.2) hL hH A1 A2 le_rfl hx.1 hx.2
    (hside.imp (fun k t ht => k t (sub ht)) fun k t ht => k t (sub ht))

/-! ### Through the jump -/

/-- The slope of the shape factor has a positive lower bound where the flow slows down enough. -/
private theorem least_rise (nu W D m0 m1 H : ℝ) (hnu : 0 < nu) (hm : 0 < m0) : ∃ s, 0 < s ∧ ∀ Q ∈ headBox W D m0 m1 H, Q.1 / 100 ≤ -(Q.2.2.1 * Q.2.1) →
    (Q.2.2.2 ≤ 16/10 → s ≤ (VL nu Q).2) ∧ (16/10 ≤ Q.2.2.2 → s ≤ (VH nu Q).2) := by
  obtain ⟨K, B, -, hL, hH, -⟩ := headBox_rates nu W D m0 m1 H hnu hm
  have hc : IsCompact (headBox W D m0 m1 H) := isCompact_Icc.prod (isCompact_Icc.prod (isCompact_Icc.prod isCompact_Icc))
  have c1 : IsClosed {Q : ℝ × ℝ × ℝ × ℝ | Q.1 / 100 ≤ -(Q.2.2.1 * Q.2.1) ∧ Q.2.2.2 ≤ 16/10} := by
    rw [setOf_and]
    exact (isClosed_le (by fun_prop) (by fun_prop)).inter (isClosed_le (by fun_prop) (by fun_prop))
  have c2 : IsClosed {Q : ℝ × ℝ × ℝ × ℝ | Q.1 / 100 ≤ -(Q.2.2.1 * Q.2.1) ∧ 16/10 ≤ Q.2.2.2} := by
    rw [setOf_and]
    exact (isClosed_le (by fun_prop) (by fun_prop)).inter (isClosed_le (by fun_prop) (by fun_prop))
  obtain ⟨s1, p1, q1⟩ := (hc.inter_right c1).exists_forall_le' (f := fun Q => (VL nu Q).2) (a := 0)
    ((continuous_snd.comp_continuousOn hL.continuousOn).mono inter_subset_left) fun Q hQ =>
      (low_rate hnu (lt_of_lt_of_le (by norm_num) hQ.1.1.1) (hm.trans_le hQ.1.2.2.1.1) hQ.2.1 hQ.1.2.2.2.1 hQ.2.2).2
  obtain ⟨s2, p2, q2⟩ := (hc.inter_right c2).exists_forall_le' (f := fun Q => (VH nu Q).2) (a := 0)
    ((continuous_snd.comp_continuousOn hH.continuousOn).mono inter_subset_left) fun Q hQ =>
      (high_rate hnu (lt_of_lt_of_le (by norm_num) hQ.1.1.1) (hm.trans_le hQ.1.2.2.1.1) hQ.2.1 hQ.2.2).1
  exact ⟨min s1 s2, lt_min p1 p2, fun Q hQ hd => ⟨fun hl => (min_le_left _ _).trans (q1 Q ⟨hQ, hd, hl⟩), fun hl => (min_le_right _ _).trans (q2 Q ⟨hQ, hd, hl⟩)⟩⟩

/-- What a layer does in such a flow. -/
private structure Rises (d h : ℝ → ℝ) (a b s L : ℝ) : Prop where
  cont : ContinuousOn d (Icc a b) ∧ ContinuousOn h (Icc a b)
  rise : ∀ x ∈ Icc a b, ∀ y ∈ Icc a b, x ≤ y → s * (y - x) ≤ h y - h x
  lipD : ∀ x ∈ Icc a b, ∀ y ∈ Icc a b, x ≤ y → |d y - d x| ≤ L * (y - x)
  lipH : ∀ x ∈ Icc a b, ∀ y ∈ Icc a b, x ≤ y → |h y - h x| ≤ L * (y - x)

private theorem le_of_slope {f : ℝ → ℝ} {X : Set ℝ} {a b r : ℝ} (hX : X.Finite) (hc : ContinuousOn f (Icc a b))
    (hd : ∀ t ∈ Icc a b, t ∉ X → ∃ q, r < q ∧ HasDerivAt f q t) : ∀ x ∈ Icc a b, ∀ y ∈ Icc a b, x ≤ y → r * (y - x) ≤ f y - f x := by
  have hs := strict_off (f := fun t => f t - r * t) hX (hc.sub (by fun_prop)) fun t ht hn => by
    obtain ⟨q, h1, h2⟩ := hd t ht hn
    exact ⟨q - r, by linarith, (h2.sub ((hasDerivAt_id t).const_mul r)).congr_deriv (by ring)⟩
  intro x hx y hy hxy
  have : f x - r * x ≤ f y - r * y := hs.monotoneOn hx hy hxy
  linarith

private theorem abs_of_slope {f : ℝ → ℝ} {X : Set ℝ} {a b r : ℝ} (hX : X.Finite) (hc : ContinuousOn f (Icc a b))
    (hd : ∀ t ∈ Icc a b, t ∉ X → ∃ q, |q| < r ∧ HasDerivAt f q t) : ∀ x ∈ Icc a b, ∀ y ∈ Icc a b, x ≤ y → |f y - f x| ≤ r * (y - x) := by
  intro x hx y hy hxy
  have k1 := le_of_slope (r := -r) hX hc (fun t ht hn => by
    obtain ⟨q, h1, h2⟩ := hd t ht hn; exact ⟨q, (abs_lt.1 h1).1, h2⟩) x hx y hy hxy
  have k2 := le_of_slope (f := fun t => -f t) (r := -r) hX hc.neg (fun t ht hn => by
    obtain ⟨q, h1, h2⟩ := hd t ht hn; exact ⟨-q, by linarith [(abs_lt.1 h1).2], h2.neg⟩) x hx y hy hxy
  exact abs_le.2 ⟨by linarith, by linarith⟩

private theorem rises {o : Obj ℝ} {u du d h : ℝ → ℝ} {a b e W D m0 m1 H s B : ℝ} (F : Bounded o u du a b W D) (hm : 0 < m0)
    (hb : ∀ x ∈ Icc a b, d x ∈ Icc m0 m1 ∧ h x ≤ H) (hu : ∀ x ∈ Icc a b, 1/1000 ≤ u x) (hdec : ∀ x ∈ Icc a b, u x / 100 ≤ -(m0 * du x))
    (hB : ∀ Q ∈ headBox (max W (1/1000)) D m0 m1 (max H (111/100)), ‖VL o.nu Q‖ ≤ B ∧ ‖VH o.nu Q‖ ≤ B)
    (hs : ∀ Q ∈ headBox (max W (1/1000)) D m0 m1 (max H (111/100)), Q.1 / 100 ≤ -(Q.2.2.1 * Q.2.1) →
      (Q.2.2.2 ≤ 16/10 → s ≤ (VL o.nu Q).2) ∧ (16/10 ≤ Q.2.2.2 → s ≤ (VH o.nu Q).2)) (h0 : 0 < s) (he : e ≤ s / 4) (he1 : e ≤ 1)
    (A : HeadApprox o e d h a b) : Rises d h a b (s / 2) (B + 2) := by
  obtain ⟨X, hX, k⟩ := A.ode
  have key : ∀ t ∈ Icc a b, t ∉ X → ∃ p q, HasDerivAt d p t ∧ HasDerivAt h q t ∧ |p| < B + 2 ∧ |q| < B + 2 ∧ s / 2 < q := by
    intro t ht hn
    obtain ⟨j1, j2⟩ := F.step (k t ht hn)
    have hbox := F.inBox ht (hb t ht).1 (hb t ht).2
    have hsl : (P u du d h t).1 / 100 ≤ -((P u du d h t).2.2.1 * (P u du d h t).2.1) := by
      have e1 : (P u du d h t).1 = u t := max_eq_left (hu t ht)
      rw [e1]
      show u t / 100 ≤ -(d t * du t)
      have h1 := hdec t ht
      have h2 := hu t ht
      have h3 : du t ≤ 0 := by
        by_contra hc
        have := mul_pos hm (not_le.1 hc)
        linarith
      nlinarith [(hb t ht).1.1]
    obtain ⟨R, hR, hR1, hR2⟩ : ∃ R, Head.rates o.nu (Head.floorScalar (u t)) (du t) (d t) (Head.odeClamp (h t)) = R ∧ ‖R‖ ≤ B ∧ s ≤ R.2 := by
      rcases le_or_gt (h t) (16/10) with hl | hl
      · exact ⟨_, rates_P_low hl, (hB _ hbox).1, (hs _ hbox hsl).1 (max_low hl)⟩
      · exact ⟨_, rates_P_high hl, (hB _ hbox).2, (hs _ hbox hsl).2 (max_high hl).le⟩
    rw [hR, Prod.dist_eq, Real.dist_eq, Real.dist_eq] at j2
    have n1 : |R.1| ≤ B := (norm_fst_le R).trans hR1
    have n2 : |R.2| ≤ B := (norm_snd_le R).trans hR1
    have m1 := abs_le.1 ((le_max_left _ _).trans j2)
    have m2 := abs_le.1 ((le_max_right _ _).trans j2)
    simp only at m1 m2
    rw [abs_le] at n1 n2
    refine ⟨_, _, j1.fst, j1.snd, abs_lt.2 ⟨by linarith, by linarith⟩, abs_lt.2 ⟨by linarith, by linarith⟩, by linarith⟩
  refine ⟨⟨A.dmCont, A.hCont⟩, le_of_slope hX A.hCont fun t ht hn => ?_, abs_of_slope hX A.dmCont fun t ht hn => ?_,
    abs_of_slope hX A.hCont fun t ht hn => ?_⟩
  · obtain ⟨p, q, k1, k2, k3, k4, k5⟩ := key t ht hn
    exact ⟨q, k5, k2⟩
  · obtain ⟨p, q, k1, k2, k3, k4, k5⟩ := key t ht hn
    exact ⟨p, k3, k1⟩
  · obtain ⟨p, q, k1, k2, k3, k4, k5⟩ := key t ht hn
    exact ⟨q, k4, k2⟩

/-- The place where a rising shape factor passes 1.6. -/
private theorem Rises.passes {d h : ℝ → ℝ} {a b s L : ℝ} (R : Rises d h a b s L) (hs : 0 < s) (hab : a ≤ b) : ∃ c ∈ Icc a b,
    (∀ x ∈ Icc a b, x < c → h x ≤ 16/10) ∧ (∀ x ∈ Icc a b, c < x → 16/10 < h x) ∧ (a < c → h c ≤ 16/10) ∧ (c < b → 16/10 ≤ h c) := by
  have mono : ∀ x ∈ Icc a b, ∀ y ∈ Icc a b, x < y → h x < h y := fun x hx y hy hxy => by
    have := R.rise x hx y hy hxy.le
    have := mul_pos hs (sub_pos.2 hxy)
    linarith
  have ma : a ∈ Icc a b := ⟨le_rfl, hab⟩
  have mb : b ∈ Icc a b := ⟨hab, le_rfl⟩
  rcases le_or_gt (16/10) (h a) with h1 | h1
  · exact ⟨a, ma, fun x hx hl => absurd hl (not_lt.2 hx.1), fun x hx hl => h1.trans_lt (mono a ma x hx hl), fun k => absurd k (lt_irrefl _), fun _ => h1⟩
  rcases le_or_gt (h b) (16/10) with h2 | h2
  · exact ⟨b, mb, fun x hx hl => ((mono x hx b mb hl).trans_le h2).le, fun x hx hl => absurd hl (not_lt.2 hx.2), fun _ => h2, fun k => absurd k (lt_irrefl _)⟩
  obtain ⟨c, hc, e⟩ := intermediate_value_Icc hab R.cont.2 ⟨h1.le, h2.le⟩
  exact ⟨c, hc, fun x hx hl => ((mono x hx c hc hl).trans_eq e).le, fun x hx hl => e.symm.trans_lt (mono c hc x hx hl), fun _ => e.le, fun _ => e.ge⟩

/-- The first layer passes first. -/
private theorem through {o : Obj ℝ} {u du d1 h1 d2 h2 : ℝ → ℝ} {a b e1 e2 W D m0 m1 H s L : ℝ} {K : NNReal} (F : Bounded o u du a b W D)
    (he1 : 0 ≤ e1) (he2 : 0 ≤ e2) (hb : ∀ x ∈ Icc a b, d1 x ∈ Icc m0 m1 ∧ d2 x ∈ Icc m0 m1 ∧ h1 x ≤ H ∧ h2 x ≤ H)
    (hL : LipschitzOnWith K (VL o.nu) (headBox (max W (1/1000)) D m0 m1 (max H (111/100))))
    (hH : LipschitzOnWith K (VH o.nu) (headBox (max W (1/1000)) D m0 m1 (max H (111/100))))
    (A1 : HeadApprox o e1 d1 h1 a b) (A2 : HeadApprox o e2 d2 h2 a b) (R1 : Rises d1 h1 a b s L) (R2 : Rises d2 h2 a b s L) (hs : 0 < s) (hL0 : 0 ≤ L)
    {c1 c2 : ℝ} (hc1 : c1 ∈ Icc a b) (hc2 : c2 ∈ Icc a b) (hle : c1 ≤ c2)
    (l1 : ∀ x ∈ Icc a b, x < c1 → h1 x ≤ 16/10) (g1 : ∀ x ∈ Icc a b, c1 < x → 16/10 < h1 x) (f1 : c1 < b → 16/10 ≤ h1 c1)
    (l2 : ∀ x ∈ Icc a b, x < c2 → h2 x ≤ 16/10) (g2 : ∀ x ∈ Icc a b, c2 < x → 16/10 < h2 x) (f2 : a < c2 → h2 c2 ≤ 16/10) :
    ∀ x ∈ Icc a b, layerDist d1 h1 d2 h2 x ≤
      ((1 + 2 * L / s) * layerDist d1 h1 d2 h2 a + (1 + 2 * L / s) * (e1 + e2) * (x - a)) * Real.exp (K * (x - a)) := by
  have hC : 1 ≤ 1 + 2 * L / s := by have : 0 ≤ 2 * L / s := by positivity
                                    linarith
  have ma : a ∈ Icc a b := ⟨le_rfl, hc1.1.trans hc1.2⟩
  have nn : ∀ x, 0 ≤ layerDist d1 h1 d2 h2 x := fun x => (abs_nonneg _).trans (le_max_left _ _)
  have he : 0 ≤ e1 + e2 := add_nonneg he1 he2
  -- before the first passage
  have p1 : ∀ x ∈ Icc a b, x ≤ c1 → layerDist d1 h1 d2 h2 x ≤ (layerDist d1 h1 d2 h2 a + (e1 + e2) * (x - a)) * Real.exp (K * (x - a)) := fun x hx hxc =>
    same_side F he1 he2 hb hL hH A1 A2 le_rfl hx.1 hx.2 (.inl fun t ht =>
      ⟨l1 t ⟨ht.1.le, ht.2.le.trans hx.2⟩ (ht.2.trans_le hxc), l2 t ⟨ht.1.le, ht.2.le.trans hx.2⟩ (ht.2.trans_le (hxc.trans hle))⟩)
  -- between the passages
  have p2 : ∀ x ∈ Icc a b, c1 ≤ x → x ≤ c2 → layerDist d1 h1 d2 h2 x ≤ (1 + 2 * L / s) * layerDist d1 h1 d2 h2 c1 := fun x hx k1 k2 => by
    rcases k1.eq_or_lt with rfl | k1
    · exact le_mul_of_one_le_left (nn _) hC
    have k3 : c1 < c2 := k1.trans_le k2
    have r1 := R2.rise c1 hc1 c2 hc2 hle
    have r2 := f1 (k3.trans_le hc2.2)
    have r3 := f2 (hc1.1.trans_lt k3)
    have r4 : h1 c1 - h2 c1 ≤ layerDist d1 h1 d2 h2 c1 := (le_abs_self _).trans (le_max_right _ _)
    have r5 : s * (x - c1) ≤ layerDist d1 h1 d2 h2 c1 := by nlinarith
    have r6 : 2 * L * (x - c1) ≤ 2 * L / s * layerDist d1 h1 d2 h2 c1 := by
      rw [div_mul_eq_mul_div, le_div_iff₀ hs]
      nlinarith
    have q1 : |d1 x - d2 x| ≤ |d1 c1 - d2 c1| + 2 * L * (x - c1) := by
      have i1 := abs_le.1 (R1.lipD c1 hc1 x hx k1.le)
      have i2 := abs_le.1 (R2.lipD c1 hc1 x hx k1.le)
      have i3 := abs_le.1 (le_refl |d1 c1 - d2 c1|)
      exact abs_le.2 ⟨by linarith, by linarith⟩
    have q2 : |h1 x - h2 x| ≤ |h1 c1 - h2 c1| + 2 * L * (x - c1) := by
      have i1 := abs_le.1 (R1.lipH c1 hc1 x hx k1.le)
      have i2 := abs_le.1 (R2.lipH c1 hc1 x hx k1.le)
      have i3 := abs_le.1 (le_refl |h1 c1 - h2 c1|)
      exact abs_le.2 ⟨by linarith, by linarith⟩
    have q3 : |d1 c1 - d2 c1| ≤ layerDist d1 h1 d2 h2 c1 := le_max_left _ _
    have q4 : |h1 c1 - h2 c1| ≤ layerDist d1 h1 d2 h2 c1 := le_max_right _ _
    exact max_le (by linarith) (by linarith)
  -- up to the second passage
  have p3 : ∀ x ∈ Icc a b, x ≤ c2 → layerDist d1 h1 d2 h2 x ≤
      ((1 + 2 * L / s) * layerDist d1 h1 d2 h2 a + (1 + 2 * L / s) * (e1 + e2) * (x - a)) * Real.exp (K * (x - a)) := fun x hx hxc => by
    rcases le_total x c1 with k | k
    · refine (p1 x hx k).trans (mul_le_mul_of_nonneg_right ?_ (Real.exp_pos _).le)
      have := mul_nonneg he (sub_nonneg.2 hx.1)
      nlinarith [nn a]
    · refine (p2 x hx k hxc).trans ((mul_le_mul_of_nonneg_left (p1 c1 hc1 le_rfl) (by linarith)).trans ?_)
      rw [← mul_assoc, mul_add, ← mul_assoc (1 + 2 * L / s)]
      have q1 : Real.exp (K * (c1 - a)) ≤ Real.exp (K * (x - a)) := Real.exp_le_exp.2 (mul_le_mul_of_nonneg_left (by linarith) (NNReal.coe_nonneg _))
      have q2 : (1 + 2 * L / s) * (e1 + e2) * (c1 - a) ≤ (1 + 2 * L / s) * (e1 + e2) * (x - a) :=
        mul_le_mul_of_nonneg_left (by linarith) (mul_nonneg (by linarith) he)
      have q3 : 0 ≤ (1 + 2 * L / s) * (e1 + e2) * (x - a) := mul_nonneg (mul_nonneg (by linarith) he) (sub_nonneg.2 hx.1)
      have q4 : 0 ≤ (1 + 2 * L / s) * layerDist d1 h1 d2 h2 a := mul_nonneg (by linarith) (nn a)
      exact mul_le_mul (by linarith) q1 (Real.exp_pos _).le (by linarith)
  intro x hx
  rcases le_total x c2 with k | k
  · exact p3 x hx k
  · have r := same_side F he1 he2 hb hL hH A1 A2 hc2.1 k hx.2 (.inr fun t ht =>
      ⟨g1 t ⟨hc2.1.trans ht.1.le, ht.2.le.trans hx.2⟩ (hle.trans_lt ht.1), g2 t ⟨hc2.1.trans ht.1.le, ht.2.le.trans hx.2⟩ ht.1⟩)
    refine chain (z := c2) (NNReal.coe_nonneg _) (mul_nonneg (by linarith) he) hc2.1 k (p3 c2 hc2 le_rfl) (r.trans ?_)
    refine mul_le_mul_of_nonneg_right ?_ (Real.exp_pos _).le
    have := mul_nonneg he (sub_nonneg.2 k)
    nlinarith

private theorem layerDist_comm (d1 h1 d2 h2 : ℝ → ℝ) (x : ℝ) : layerDist d1 h1 d2 h2 x = layerDist d2 h2 d1 h1 x := by
  unfold layerDist
  rw [abs_sub_comm, abs_sub_comm (h1 x)]

/-- **C125**: in a flow that slows down persistently (`-delta_m u_e' >= u_e / 100` for the least momentum thickness allowed) the same holds through the
jump at 1.6, with a constant factor, if the residuals are small: there the shape factors rise, with a slope of at least `s`, and pass 1.6 quickly. So the
places where they reach the same value, as that of separation, are close as well. -/
theorem head_error_through (nu W D m0 m1 H : ℝ) (hnu : 0 < nu) (hm : 0 < m0) :
    ∃ M C s, 0 ≤ M ∧ 1 ≤ C ∧ 0 < s ∧ ∀ (o : Obj ℝ) (u du d1 h1 d2 h2 : ℝ → ℝ) (a b e1 e2 : ℝ), o.cls = .head → o.nu = nu →
      (∀ t, o.vel.uE t = .ok (u t)) → (∀ t, o.vel.duE t = .ok (du t)) → 0 ≤ e1 → 0 ≤ e2 → e1 ≤ s → e2 ≤ s →
      (∀ x ∈ Icc a b, u x ≤ W ∧ |du x| ≤ D ∧ d1 x ∈ Icc m0 m1 ∧ d2 x ∈ Icc m0 m1 ∧ h1 x ≤ H ∧ h2 x ≤ H) →
      (∀ x ∈ Icc a b, 1/1000 ≤ u x ∧ u x / 100 ≤ -(m0 * du x)) →
      HeadApprox o e1 d1 h1 a b → HeadApprox o e2 d2 h2 a b →
      (∀ x ∈ Icc a b, max |d1 x - d2 x| |h1 x - h2 x| ≤
        C * (max |d1 a - d2 a| |h1 a - h2 a| + (e1 + e2) * (x - a)) * Real.exp (M * (x - a))) ∧
      ∀ p ∈ Icc a b, ∀ q ∈ Icc a b, h1 p = h2 q → s * |p - q| ≤
        C * (max |d1 a - d2 a| |h1 a - h2 a| + (e1 + e2) * (b - a)) * Real.exp (M * (b - a)) := by
  obtain ⟨K, B, hB0, hL, hH, hB⟩ := headBox_rates nu (max W (1/1000)) D m0 m1 (max H (111/100)) hnu hm
  obtain ⟨s, hs0, hs⟩ := least_rise nu (max W (1/1000)) D m0 m1 (max H (111/100)) hnu hm
  refine ⟨K, 1 + 2 * (B + 2) / (s / 2), min 1 (s / 4), NNReal.coe_nonneg _, ?_, by positivity,
    fun o u du d1 h1 d2 h2 a b e1 e2 hc hn huE hduE he1 he2 hs1 hs2 hb hdec A1 A2 => ?_⟩
  · have : 0 ≤ 2 * (B + 2) / (s / 2) := by positivity
    linarith
  subst hn
  have F : Bounded o u du a b W D := ⟨hc, huE, hduE, fun x hx => ⟨(hb x hx).1, (hb x hx).2.1⟩⟩
  have R1 := rises F hm (fun x hx => ⟨(hb x hx).2.2.1, (hb x hx).2.2.2.2.1⟩) (fun x hx => (hdec x hx).1) (fun x hx => (hdec x hx).2) hB hs hs0
    (hs1.trans (min_le_right _ _)) (hs1.trans (min_le_left _ _)) A1
  have R2 := rises F hm (fun x hx => ⟨(hb x hx).2.2.2.1, (hb x hx).2.2.2.2.2⟩) (fun x hx => (hdec x hx).1) (fun x hx => (hdec x hx).2) hB hs hs0
    (hs2.trans (min_le_right _ _)) (hs2.trans (min_le_left _ _)) A2
  have main : ∀ x ∈ Icc a b, layerDist d1 h1 d2 h2 x ≤
      (1 + 2 * (B + 2) / (s / 2)) * (layerDist d1 h1 d2 h2 a + (e1 + e2) * (x - a)) * Real.exp (K * (x - a)) := fun x hx => by
    have hab := hx.1.trans hx.2
    obtain ⟨c1, m1, l1, g1, f1, f1'⟩ := R1.passes (by linarith) hab
    obtain ⟨c2, m2, l2, g2, f2, f2'⟩ := R2.passes (by linarith) hab
    rcases le_total c1 c2 with hle | hle
    · refine (through F he1 he2 (fun x hx => (hb x hx).2.2) hL hH A1 A2 R1 R2 (by linarith) (by linarith) m1 m2 hle l1 g1 f1' l2 g2 f2 x hx).trans_eq (by ring)
    · rw [layerDist_comm, layerDist_comm d1 h1 d2 h2 a, add_comm e1]
      exact (through F he2 he1 (fun x hx => by obtain ⟨-, -, k1, k2, k3, k4⟩ := hb x hx; exact ⟨k2, k1, k4, k3⟩) hL hH A2 A1 R2 R1 (by linarith)
        (by linarith) m2 m1 hle l2 g2 f2' l1 g1 f1 x hx).trans_eq (by ring)
  refine ⟨main, fun p hp q hq hpq => ?_⟩
  have key : ∀ x ∈ Icc a b, layerDist d1 h1 d2 h2 x ≤
      (1 + 2 * (B + 2) / (s / 2)) * (layerDist d1 h1 d2 h2 a + (e1 + e2) * (b - a)) * Real.exp (K * (b - a)) := fun x hx => by
    have hC : 0 ≤ 2 * (B + 2) / (s / 2) := by positivity
    have hA : 0 ≤ layerDist d1 h1 d2 h2 a := (abs_nonneg _).trans (le_max_left _ _)
    have k1 : (e1 + e2) * (x - a) ≤ (e1 + e2) * (b - a) := mul_le_mul_of_nonneg_left (by linarith [hx.2]) (by linarith)
    have k2 : 0 ≤ (e1 + e2) * (b - a) := mul_nonneg (by linarith) (by linarith [hx.1, hx.2])
    have k3 : Real.exp (K * (x - a)) ≤ Real.exp (K * (b - a)) := Real.exp_le_exp.2 (mul_le_mul_of_nonneg_left (by linarith [hx.2]) (NNReal.coe_nonneg _))
    refine (main x hx).trans (mul_le_mul (mul_le_mul_of_nonneg_left (by linarith) (by linarith)) k3 (Real.exp_pos _).le ?_)
    exact mul_nonneg (by linarith) (by linarith)
  have k0 : min 1 (s / 4) ≤ s / 2 := (min_le_right _ _).trans (by linarith)
  rcases le_total p q with hle | hle
  · have r1 := R1.rise p hp q hq hle
    have r2 : h1 q - h2 q ≤ layerDist d1 h1 d2 h2 q := (le_abs_self _).trans (le_max_right _ _)
    rw [abs_sub_comm, abs_of_nonneg (sub_nonneg.2 hle)]
    refine le_trans ?_ (key q hq)
    have := mul_le_mul_of_nonneg_right k0 (sub_nonneg.2 hle)
    linarith
  · have r1 := R2.rise q hq p hp hle
    have r2 : -(h1 p - h2 p) ≤ layerDist d1 h1 d2 h2 p := (neg_le_abs _).trans (le_max_right _ _)
    rw [abs_of_nonneg (sub_nonneg.2 hle)]
    refine le_trans ?_ (key p hp)
    have := mul_le_mul_of_nonneg_right k0 (sub_nonneg.2 hle)
    linarith

/-- Solutions of another object in the same flow. -/
private theorem HeadSolutionOn.approx {o o' : Obj ℝ} {u du dm h : ℝ → ℝ} {a b : ℝ} (S : HeadSolutionOn o u du dm h a b) (hc : o'.cls = .head)
    (hn : o.nu = o'.nu) (hu : ∀ t, o'.vel.uE t = .ok (u t)) (hdu : ∀ t, o'.vel.duE t = .ok (du t)) : HeadApprox o' 0 dm h a b := by
  obtain ⟨X, hX, k⟩ := S.ode
  refine ⟨S.dmCont, S.hCont, X, hX, fun x hx hn' => ?_⟩
  have : o.rhs x [dm x, h x] = o'.rhs x [dm x, h x] := by
    simp [Obj.rhs, S.isHead, hc, Obj.headRhs, S.uE, S.duE, hu, hdu, hn, Bind.bind, Except.bind, Pure.pure, Except.pure]
  obtain ⟨p, q, hr, hp, hq⟩ := k x hx hn'
  exact HeadOde.upTo ⟨p, q, this ▸ hr, hp, hq⟩

/-- **C125**, for what two objects report: in a flow that slows down persistently, calculated from momentum thicknesses of at least `m0`, the reported
momentum thicknesses and shape factors differ at most by a constant factor times the difference of the start values; so do the places of separation. -/
theorem head_starts (nu W D m0 m1 H : ℝ) (hnu : 0 < nu) (hm : 0 < m0) :
    ∃ M C, 0 ≤ M ∧ 0 ≤ C ∧ ∀ (o1 o2 : Obj ℝ) (u du d1 h1 d2 h2 : ℝ → ℝ) (a b : ℝ), HeadSolutionOn o1 u du d1 h1 a b →
      HeadSolutionOn o2 u du d2 h2 a b → o1.nu = nu → o2.nu = nu → ContinuousOn du (Icc a b) → m0 ≤ d1 a → m0 ≤ d2 a →
      (∀ x ∈ Icc a b, u x ≤ W ∧ |du x| ≤ D ∧ d1 x ≤ m1 ∧ d2 x ≤ m1 ∧ h1 x ≤ H ∧ h2 x ≤ H) →
      (∀ x ∈ Icc a b, 1/1000 ≤ u x ∧ u x / 100 ≤ -(m0 * du x)) →
      (∀ x ∈ Icc a b, ∃ m k m' k', o1.deltaM x = .ok m ∧ o1.shapeD x = .ok k ∧ o2.deltaM x = .ok m' ∧ o2.shapeD x = .ok k' ∧
        max |m - m'| |k - k'| ≤ C * max |d1 a - d2 a| |h1 a - h2 a| * Real.exp (M * (x - a))) ∧
      ∀ crit, ∀ p ∈ Icc a b, ∀ q ∈ Icc a b, o1.eventValue (.sepHead crit) p [d1 p, h1 p] = .ok 0 → o2.eventValue (.sepHead crit) q [d2 q, h2 q] = .ok 0 →
        |p - q| ≤ C * max |d1 a - d2 a| |h1 a - h2 a| * Real.exp (M * (b - a)) := by
  obtain ⟨M, C, s, hM, hC, hs, key⟩ := head_error_through nu W D m0 m1 H hnu hm
  have hC' : C ≤ max C (C / s) := le_max_left _ _
  refine ⟨M, max C (C / s), hM, (zero_le_one.trans hC).trans hC', fun o1 o2 u du d1 h1 d2 h2 a b S1 S2 n1 n2 hdu m1' m2' hb hdec => ?_⟩
  have dmQ : ∀ {o : Obj ℝ} {d h : ℝ → ℝ}, HeadSolutionOn o u du d h a b → ∀ x, o.deltaM x = .ok (d x) := fun S x => by
    simp [Obj.deltaM, S.isHead, Obj.comp, Obj.state, S.sol, Bind.bind, Except.bind, Pure.pure, Except.pure]
  have low : ∀ {o : Obj ℝ} {d h : ℝ → ℝ}, HeadSolutionOn o u du d h a b → o.nu = nu → m0 ≤ d a → ∀ x ∈ Icc a b, m0 ≤ d x := fun S n k x hx => by
    obtain ⟨X, T⟩ := S.toSol (by rw [n]; exact hnu) hdu (hm.trans_le k)
    refine k.trans (T.thicker ⟨fun t ht => (hdec t ht).1, fun t ht => ?_⟩ x hx)
    have i1 := (hdec t ht).1
    have i2 := (hdec t ht).2
    have i3 : du t ≤ 0 := by
      by_contra hc
      have := mul_pos hm (not_le.1 hc)
      linarith
    nlinarith
  obtain ⟨r1, r2⟩ := key o1 u du d1 h1 d2 h2 a b 0 0 S1.isHead n1 S1.uE S1.duE le_rfl le_rfl hs.le hs.le
    (fun x hx => by
      obtain ⟨k1, k2, k3, k4, k5, k6⟩ := hb x hx
      exact ⟨k1, k2, ⟨low S1 n1 m1' x hx, k3⟩, ⟨low S2 n2 m2' x hx, k4⟩, k5, k6⟩) hdec
    (S1.approx S1.isHead rfl S1.uE S1.duE) (S2.approx S1.isHead (n2.trans n1.symm) S1.uE S1.duE)
  simp only [add_zero, zero_mul] at r1 r2
  have hA : 0 ≤ max |d1 a - d2 a| |h1 a - h2 a| := (abs_nonneg _).trans (le_max_left _ _)
  refine ⟨fun x hx => ⟨_, _, _, _, dmQ S1 x, S1.shape x, dmQ S2 x, S2.shape x, (r1 x hx).trans ?_⟩, fun crit p hp q hq e1 e2 => ?_⟩
  · exact mul_le_mul_of_nonneg_right (mul_le_mul_of_nonneg_right hC' hA) (Real.exp_pos _).le
  · have j1 : crit - h1 p = 0 := Except.ok.inj e1
    have j2 : crit - h2 q = 0 := Except.ok.inj e2
    have r := r2 p hp q hq (by linarith)
    have : |p - q| ≤ C / s * max |d1 a - d2 a| |h1 a - h2 a| * Real.exp (M * (b - a)) := by
      rw [div_mul_eq_mul_div, div_mul_eq_mul_div, le_div_iff₀ hs, mul_comm]
      exact r
    exact this.trans (mul_le_mul_of_nonneg_right (mul_le_mul_of_nonneg_right (le_max_right _ _) hA) (Real.exp_pos _).le)

/-- A case: `u_e = 2 - x`, from the momentum thickness 1/10 and the shape factors 1.4 and 1.5, below separation. -/
example : ∃ c > (0 : ℝ), ∃ M C, ∃ d1 h1 d2 h2 : ℝ → ℝ, h1 0 = 14/10 ∧ h2 0 = 15/10 ∧ ∀ x ∈ Icc 0 c, ∃ k k',
    (⟨.head, 1, ⟨some (.fn fun x => .ok (2 - x)), some (.fn fun _ => .ok (-1)), none⟩, .manual 0 1 1 1 1, [], some fun t => [d1 t, h1 t], none⟩ :
      Obj ℝ).shapeD x = .ok k ∧
    (⟨.head, 1, ⟨some (.fn fun x => .ok (2 - x)), some (.fn fun _ => .ok (-1)), none⟩, .manual 0 1 1 1 1, [], some fun t => [d2 t, h2 t], none⟩ :
      Obj ℝ).shapeD x = .ok k' ∧ |k - k'| ≤ C * (1/10) * Real.exp (M * x) := by
  have ex : ∀ h0 : ℝ, 13/10 ≤ h0 → h0 < 24/10 → ∃ c ∈ Ioo (0:ℝ) (3/2), ∃ dm h : ℝ → ℝ, dm 0 = 1/10 ∧ h 0 = h0 ∧ (∀ x ∈ Icc 0 c, h x ≤ 24/10) ∧
      HeadSolutionOn ⟨.head, 1, ⟨some (.fn fun x => .ok (2 - x)), some (.fn fun _ => .ok (-1)), none⟩, .manual 0 1 1 1 1, [],
        some fun t => [dm t, h t], none⟩ (fun x => 2 - x) (fun _ => -1) dm h 0 c := fun h0 k1 k2 => by
    obtain ⟨c, hc, dm, h, e1, e2, S, h1, h2, h3⟩ := head_separates
      ⟨.head, 1, ⟨some (.fn fun x => .ok (2 - x)), some (.fn fun _ => .ok (-1)), none⟩, .manual 0 1 1 1 1, [], none, none⟩
      (fun x => 2 - x) (fun _ => -1) 0 (3/2) (1/10) h0 (24/10) rfl one_pos
      (fun t => by simp [VelState.uE, VelState.rawU, callOpt, Vel.call]) (fun t => by simp [VelState.duE, VelState.rawDu, callOpt, Vel.call])
      (fun x _ => by simpa using (hasDerivAt_id x).const_sub 2) continuousOn_const (by norm_num) (by norm_num) k1 k2
      (fun x hx => by have := hx.2; linarith) (fun x hx => by have := hx.1; norm_num; linarith) (by norm_num)
    refine ⟨c, hc, dm, h, e1, e2, fun x hx => ?_, S⟩
    rcases hx.2.eq_or_lt with rfl | hl
    · have h4 : (24/10 : ℝ) - h x = 0 := Except.ok.inj h2
      linarith
    · obtain ⟨v, i1, i2⟩ := h1 x ⟨hx.1, hl⟩
      have h4 : (24/10 : ℝ) - h x = v := Except.ok.inj i1
      linarith
  obtain ⟨c1, m1, d1, h1, a1, b1, l1, S1⟩ := ex (14/10) (by norm_num) (by norm_num)
  obtain ⟨c2, m2, d2, h2, a2, b2, l2, S2⟩ := ex (15/10) (by norm_num) (by norm_num)
  have hc : 0 < min c1 c2 := lt_min m1.1 m2.1
  have cut : ∀ {o : Obj ℝ} {d h : ℝ → ℝ} {c : ℝ}, HeadSolutionOn o (fun x => 2 - x) (fun _ => -1) d h 0 c → min c1 c2 ≤ c →
      HeadSolutionOn o (fun x => 2 - x) (fun _ => -1) d h 0 (min c1 c2) := fun S k => by
    have sub : Icc 0 (min c1 c2) ⊆ Icc 0 _ := Icc_subset_Icc_right k
    obtain ⟨X, hX, j⟩ := S.ode
    exact ⟨S.isHead, S.sol, S.uE, S.duE, fun x hx => S.slope x (sub hx), S.dmCont.mono sub, S.hCont.mono sub, X, hX, fun x hx => j x (sub hx)⟩
  have T1 := cut S1 (min_le_left _ _)
  have T2 := cut S2 (min_le_right _ _)
  obtain ⟨B1, hB1⟩ := isCompact_Icc.exists_bound_of_continuousOn T1.dmCont
  obtain ⟨B2, hB2⟩ := isCompact_Icc.exists_bound_of_continuousOn T2.dmCont
  obtain ⟨M, C, -, -, key⟩ := head_starts 1 2 1 (1/10) (max B1 B2) (24/10) one_pos (by norm_num)
  obtain ⟨r, -⟩ := key _ _ _ _ d1 h1 d2 h2 0 (min c1 c2) T1 T2 rfl rfl continuousOn_const a1.ge a2.ge
    (fun x hx => ⟨by linarith [hx.1], by norm_num, ((le_abs_self _).trans (hB1 x hx)).trans (le_max_left _ _),
      ((le_abs_self _).trans (hB2 x hx)).trans (le_max_right _ _), l1 x ⟨hx.1, hx.2.trans (min_le_left _ _)⟩, l2 x ⟨hx.1, hx.2.trans (min_le_right _ _)⟩⟩)
    (fun x hx => by
      have : x < 3/2 := hx.2.trans_lt ((min_le_left _ _).trans_lt m1.2)
      have := hx.1
      exact ⟨by linarith, by linarith⟩)
  refine ⟨_, hc, M, C, d1, h1, d2, h2, b1, b2, fun x hx => ?_⟩
  obtain ⟨m, k, m', k', -, i2, -, i4, i5⟩ := r x hx
  refine ⟨k, k', i2, i4, (le_max_right _ _).trans (i5.trans_eq ?_)⟩
  rw [a1, a2, b1, b2, sub_zero]
  norm_num

end IBL
