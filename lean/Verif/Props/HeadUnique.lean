import Mathlib.Analysis.ODE.PicardLindelof
import Mathlib.Analysis.ODE.ExistUnique
import Mathlib.Analysis.Calculus.ContDiff.RCLike
import Mathlib.Analysis.SpecialFunctions.Pow.Deriv
import Verif.Props.HeadLimits

/-!
C95 and C96: the initial value problem posed by Head's method has at most one solution; where it has one.
-/

set_option linter.unusedSectionVars false

namespace IBL
open Set Filter Topology

namespace HeadBranch

/-! ### The two branches of the right hand side as smooth functions of velocity, slope, momentum thickness and shape factor -/

noncomputable def E (a b c d h : ℝ) : ℝ := d + a / (h - b) ^ c
noncomputable def Ep (a b c h : ℝ) : ℝ := -a * c / (h - b) ^ (c + 1)
noncomputable def cf (nu u m h : ℝ) : ℝ := 246/1000 / ((u * m / nu) ^ (268/1000 : ℝ) * Real.exp (Real.log 10 * (678/1000 * h)))
noncomputable def V (a b c d nu : ℝ) (P : ℝ × ℝ × ℝ × ℝ) : ℝ × ℝ :=
  (cf nu P.1 P.2.2.1 P.2.2.2 / 2 - P.2.2.1 * (2 + P.2.2.2) * P.2.1 / P.1,
   (P.1 * (306/10000 / (E a b c d P.2.2.2 - 3) ^ (6169/10000 : ℝ) - E a b c d P.2.2.2 * cf nu P.1 P.2.2.1 P.2.2.2 / 2) +
      (1 + P.2.2.2) * P.2.2.1 * P.2.1 * E a b c d P.2.2.2) / (Ep a b c P.2.2.2 * P.1 * P.2.2.1))

noncomputable def VL (nu : ℝ) : ℝ × ℝ × ℝ × ℝ → ℝ × ℝ := V (8234/10000) (11/10) (1287/1000) (33/10) nu
noncomputable def VH (nu : ℝ) : ℝ × ℝ × ℝ × ℝ → ℝ × ℝ := V (15501/10000) (6778/10000) (3064/1000) (332254659218600974/10^17) nu

theorem V_contDiff {a b c d nu : ℝ} {P : ℝ × ℝ × ℝ × ℝ} (ha : 0 < a) (hc : 0 < c) (hd : 3 < d) (hn : 0 < nu) (hu : 0 < P.1) (hm : 0 < P.2.2.1)
    (hb : b < P.2.2.2) : ContDiffAt ℝ 1 (V a b c d nu) P := by
  have h0 : 0 < P.2.2.2 - b := by linarith
  have h1 : (P.2.2.2 - b) ^ c ≠ 0 := (Real.rpow_pos_of_pos h0 _).ne'
  have h2 : (P.2.2.2 - b) ^ (c + 1) ≠ 0 := (Real.rpow_pos_of_pos h0 _).ne'
  have h3 : P.1 * P.2.2.1 / nu ≠ 0 := by positivity
  have h4 : E a b c d P.2.2.2 - 3 ≠ 0 := by
    unfold E
    have : 0 < a / (P.2.2.2 - b) ^ c := by positivity
    linarith
  have h5 : Ep a b c P.2.2.2 * P.1 * P.2.2.1 ≠ 0 := by
    unfold Ep
    have : a * c / (P.2.2.2 - b) ^ (c + 1) ≠ 0 := by positivity
    rw [neg_mul, neg_div]
    exact mul_ne_zero (mul_ne_zero (neg_ne_zero.2 this) hu.ne') hm.ne'
  have cu : ContDiffAt ℝ 1 (fun P : ℝ × ℝ × ℝ × ℝ => P.1) P := contDiffAt_fst
  have cw : ContDiffAt ℝ 1 (fun P : ℝ × ℝ × ℝ × ℝ => P.2.1) P := contDiffAt_snd.fst
  have cm : ContDiffAt ℝ 1 (fun P : ℝ × ℝ × ℝ × ℝ => P.2.2.1) P := contDiffAt_snd.snd.fst
  have ch : ContDiffAt ℝ 1 (fun P : ℝ × ℝ × ℝ × ℝ => P.2.2.2) P := contDiffAt_snd.snd.snd
  have cE : ContDiffAt ℝ 1 (fun P : ℝ × ℝ × ℝ × ℝ => E a b c d P.2.2.2) P :=
    contDiffAt_const.add (contDiffAt_const.div ((ch.sub contDiffAt_const).rpow_const_of_ne h0.ne') h1)
  have cEp : ContDiffAt ℝ 1 (fun P : ℝ × ℝ × ℝ × ℝ => Ep a b c P.2.2.2) P :=
    contDiffAt_const.div ((ch.sub contDiffAt_const).rpow_const_of_ne h0.ne') h2
  have ccf : ContDiffAt ℝ 1 (fun P : ℝ × ℝ × ℝ × ℝ => cf nu P.1 P.2.2.1 P.2.2.2) P := by
    refine contDiffAt_const.div ((((cu.mul cm).div_const nu).rpow_const_of_ne h3).mul (contDiffAt_const.mul (contDiffAt_const.mul ch)).exp) ?_
    have : 0 < (P.1 * P.2.2.1 / nu) ^ (268/1000 : ℝ) := Real.rpow_pos_of_pos (by positivity) _
    positivity
  refine ContDiffAt.prodMk ?_ ?_
  · exact (ccf.div_const 2).sub (((cm.mul (contDiffAt_const.add ch)).mul cw).div cu hu.ne')
  · refine ContDiffAt.div ?_ ((cEp.mul cu).mul cm) h5
    refine (cu.mul ((contDiffAt_const.div ((cE.sub contDiffAt_const).rpow_const_of_ne h4) ?_).sub ((cE.mul ccf).div_const 2))).add
      (((((contDiffAt_const.add ch).mul cm).mul cw)).mul cE)
    refine (Real.rpow_pos_of_pos ?_ _).ne'
    unfold E
    have : 0 < a / (P.2.2.2 - b) ^ c := by positivity
    linarith

theorem cf_eq (nu u m h : ℝ) : ludwiegTillman (u * m / nu) h = cf nu u m h := by
  simp only [ludwiegTillman, real_lit, real_pow, cf]
  rw [Real.rpow_def_of_pos (show (0:ℝ) < ((10:ℚ):ℝ) by norm_num)]
  push_cast
  rfl

theorem ent_eq {e : ℝ} (h : 3 < e) : Head.entrainment e = 306/10000 / (e - 3) ^ (6169/10000 : ℝ) := by
  simp only [Head.entrainment, real_le, real_lit, real_pow]
  rw [if_neg (by push_cast; linarith)]
  push_cast
  rfl

theorem rates_V {a b c d nu u w m h : ℝ} (hu : 0 < u) (he : Head.h1 h = E a b c d h) (hp : Head.h1p h = Ep a b c h) (h3 : 3 < E a b c d h) :
    Head.rates nu u w m h = V a b c d nu (u, w, m, h) := by
  refine Prod.ext ?_ ?_
  · simp only [Head.rates, V, real_lit, cf_eq]
    push_cast; ring
  · simp only [Head.rates, V, real_lit, cf_eq, he, hp, ent_eq h3]
    push_cast
    congr 1
    field_simp
    ring

theorem rates_low {nu u w m h : ℝ} (hu : 0 < u) (h1 : 11/10 < h) (h2 : h ≤ 16/10) : Head.rates nu u w m h = VL nu (u, w, m, h) := by
  refine rates_V hu (by rw [Head.h1_low h1 h2, Head.h1Low_real]; rfl) (by rw [Head.h1p_low h1 h2]; rfl) ?_
  have : 0 < h - 11/10 := by linarith
  unfold E
  have : (0:ℝ) < 8234/10000 / (h - 11/10) ^ (1287/1000 : ℝ) := by positivity
  linarith

theorem rates_high {nu u w m h : ℝ} (hu : 0 < u) (h1 : 16/10 < h) : Head.rates nu u w m h = VH nu (u, w, m, h) := by
  refine rates_V hu (by rw [Head.h1_high h1, Head.h1High_real]; rfl) (by rw [Head.h1p_high h1]; rfl) ?_
  have : 0 < h - 6778/10000 := by linarith
  unfold E
  have : (0:ℝ) < 15501/10000 / (h - 6778/10000) ^ (3064/1000 : ℝ) := by positivity
  have : (3:ℝ) < 332254659218600974/10^17 := by norm_num
  linarith

theorem VL_contDiff {nu : ℝ} {P : ℝ × ℝ × ℝ × ℝ} (hn : 0 < nu) (hu : 0 < P.1) (hm : 0 < P.2.2.1) (hh : 111/100 ≤ P.2.2.2) :
    ContDiffAt ℝ 1 (VL nu) P :=
  V_contDiff (by norm_num) (by norm_num) (by norm_num) hn hu hm (by linarith)
theorem VH_contDiff {nu : ℝ} {P : ℝ × ℝ × ℝ × ℝ} (hn : 0 < nu) (hu : 0 < P.1) (hm : 0 < P.2.2.1) (hh : 111/100 ≤ P.2.2.2) :
    ContDiffAt ℝ 1 (VH nu) P :=
  V_contDiff (by norm_num) (by norm_num) (by norm_num) hn hu hm (by linarith)

/-- The values of the two branches of H1 at 1.6. -/
theorem at_branch : ∃ eL eH : ℝ, E (8234/10000) (11/10) (1287/1000) (33/10) (16/10) = eL ∧
    E (15501/10000) (6778/10000) (3064/1000) (332254659218600974/10^17) (16/10) = eH ∧ 53/10 < eL ∧ eL < eH ∧ eH < 531/100 := by
  refine ⟨_, _, rfl, rfl, ?_⟩
  have e1 : E (8234/10000) (11/10) (1287/1000) (33/10) (16/10) = Head.h1Low (16/10 : ℝ) := by rw [Head.h1Low_real]; rfl
  have e2 : E (15501/10000) (6778/10000) (3064/1000) (332254659218600974/10^17) (16/10) = Head.h1High (16/10 : ℝ) := by rw [Head.h1High_real]; rfl
  rw [e1, e2]
  have h1 := Head.low_at_gt
  have h2 := Head.low_at_lt
  have h3 := Head.high_at_gt
  have h4 := Head.high_at_lt
  norm_num at h1 h2 h3 h4 ⊢
  exact ⟨by linarith, by linarith, by linarith⟩

theorem ent_anti {x y : ℝ} (hx : 3 < x) (hxy : x ≤ y) :
    306/10000 / (y - 3) ^ (6169/10000 : ℝ) ≤ 306/10000 / (x - 3) ^ (6169/10000 : ℝ) := by
  have h0 : 0 < x - 3 := by linarith
  exact div_le_div_of_nonneg_left (by norm_num) (Real.rpow_pos_of_pos h0 _) (Real.rpow_le_rpow h0.le (by linarith) (by norm_num))

theorem EpL_neg : Ep (8234/10000) (11/10) (1287/1000) (16/10) < 0 := by
  unfold Ep
  have : (0:ℝ) < (16/10 - 11/10) ^ (1287/1000 + 1 : ℝ) := Real.rpow_pos_of_pos (by norm_num) _
  exact div_neg_of_neg_of_pos (by norm_num) this
theorem EpH_neg : Ep (15501/10000) (6778/10000) (3064/1000) (16/10) < 0 := by
  unfold Ep
  have : (0:ℝ) < (16/10 - 6778/10000) ^ (3064/1000 + 1 : ℝ) := Real.rpow_pos_of_pos (by norm_num) _
  exact div_neg_of_neg_of_pos (by norm_num) this

/-- The numerator of the rate of the shape factor at 1.6: the sign is that of `u v - e k`. -/
theorem numer (u w m c e v k : ℝ) (hk : k = u * c / 2 - (1 + 16/10) * m * w) :
    u * (v - e * c / 2) + (1 + 16/10) * m * w * e = u * v - e * k := by rw [hk]; ring

/-- At 1.6 the high branch asks for growth whenever the low branch does not ask for decay. -/
theorem jump {nu u w m : ℝ} (hu : 0 < u) (hm : 0 < m) (h : 0 ≤ (VL nu (u, w, m, 16/10)).2) : 0 < (VH nu (u, w, m, 16/10)).2 := by
  obtain ⟨eL, eH, hL, hH, h1, h2, -⟩ := at_branch
  have hp1 := EpL_neg
  have hp2 := EpH_neg
  simp only [VL, V, hL] at h
  simp only [VH, V, hH]
  have n1 : Ep (8234/10000) (11/10) (1287/1000) (16/10) * u * m < 0 := mul_neg_of_neg_of_pos (mul_neg_of_neg_of_pos hp1 hu) hm
  have n2 : Ep (15501/10000) (6778/10000) (3064/1000) (16/10) * u * m < 0 := mul_neg_of_neg_of_pos (mul_neg_of_neg_of_pos hp2 hu) hm
  have ha := ent_anti (show (3:ℝ) < eL by linarith) h2.le
  have hp : 0 < 306/10000 / (eL - 3) ^ (6169/10000 : ℝ) := by
    have : 0 < eL - 3 := by linarith
    positivity
  rw [numer _ _ _ _ _ _ _ rfl] at h ⊢
  generalize 306/10000 / (eL - 3) ^ (6169/10000 : ℝ) = vL at *
  generalize 306/10000 / (eH - 3) ^ (6169/10000 : ℝ) = vH at *
  generalize u * cf nu u m (16/10) / 2 - (1 + 16/10) * m * w = k at *
  have h' : u * vL - eL * k ≤ 0 := by
    by_contra hc
    exact absurd h (not_le.2 (div_neg_of_pos_of_neg (not_le.1 hc) n1))
  refine div_pos_of_neg_of_neg ?_ n2
  have hkp : 0 < k := by
    have h0 : 0 < u * vL := by positivity
    have : 0 < eL * k := by linarith
    exact pos_of_mul_pos_right this (by linarith)
  have h3 : eL * k < eH * k := mul_lt_mul_of_pos_right h2 hkp
  have h4 : u * vH ≤ u * vL := mul_le_mul_of_nonneg_left ha hu.le
  linarith

/-! ### Local uniqueness for one branch -/

theorem local_unique {Φ : ℝ × ℝ × ℝ × ℝ → ℝ × ℝ} {U w d1 h1 d2 h2 : ℝ → ℝ} {y z : ℝ} (hyz : y < z)
    (hΦ : ContDiffAt ℝ 1 Φ (U y, w y, d1 y, max (h1 y) (111/100))) (hU : ContinuousOn U (Icc y z)) (hw : ContinuousOn w (Icc y z))
    (cd1 : ContinuousOn d1 (Icc y z)) (ch1 : ContinuousOn h1 (Icc y z)) (cd2 : ContinuousOn d2 (Icc y z)) (ch2 : ContinuousOn h2 (Icc y z))
    (e1 : ∀ t ∈ Ico y z, HasDerivWithinAt (fun t => (d1 t, h1 t)) (Φ (U t, w t, d1 t, max (h1 t) (111/100))) (Ici t) t)
    (e2 : ∀ t ∈ Ico y z, HasDerivWithinAt (fun t => (d2 t, h2 t)) (Φ (U t, w t, d2 t, max (h2 t) (111/100))) (Ici t) t)
    (hd : d1 y = d2 y) (hh : h1 y = h2 y) : ∃ z' ∈ Ioc y z, ∀ t ∈ Icc y z', d1 t = d2 t ∧ h1 t = h2 t := by
  obtain ⟨K, T, hT, hL⟩ := hΦ.exists_lipschitzOnWith
  have hy : y ∈ Icc y z := ⟨le_rfl, hyz.le⟩
  have hcl : Continuous fun x : ℝ => max x (111/100) := by fun_prop
  have c1 : ContinuousOn (fun t => (U t, w t, d1 t, max (h1 t) (111/100))) (Icc y z) :=
    hU.prodMk (hw.prodMk (cd1.prodMk (hcl.comp_continuousOn ch1)))
  have c2 : ContinuousOn (fun t => (U t, w t, d2 t, max (h2 t) (111/100))) (Icc y z) :=
    hU.prodMk (hw.prodMk (cd2.prodMk (hcl.comp_continuousOn ch2)))
  have t1 : ∀ᶠ t in 𝓝[≥] y, (U t, w t, d1 t, max (h1 t) (111/100)) ∈ T := by
    rw [← nhdsWithin_Icc_eq_nhdsGE hyz]; exact (c1 y hy) hT
  have t2 : ∀ᶠ t in 𝓝[≥] y, (U t, w t, d2 t, max (h2 t) (111/100)) ∈ T := by
    rw [← nhdsWithin_Icc_eq_nhdsGE hyz]; exact (c2 y hy) (by simp only [← hd, ← hh]; exact hT)
  obtain ⟨z1, hz1, hsub⟩ := mem_nhdsGE_iff_exists_Icc_subset.1 (t1.and t2)
  have hm : min z1 z ≤ z := min_le_right _ _
  have hm1 : min z1 z ≤ z1 := min_le_left _ _
  refine ⟨min z1 z, ⟨lt_min hz1 hyz, hm⟩, ?_⟩
  have key := ODE_solution_unique_of_mem_Icc_right (K := K) (a := y) (b := min z1 z)
    (v := fun t p => Φ (U t, w t, p.1, max p.2 (111/100))) (s := fun t => {p | (U t, w t, p.1, max p.2 (111/100)) ∈ T})
    (f := fun t => (d1 t, h1 t)) (g := fun t => (d2 t, h2 t)) (fun t _ => ?_)
    ((cd1.prodMk ch1).mono (Icc_subset_Icc_right hm)) (fun t ht => e1 t ⟨ht.1, ht.2.trans_le hm⟩)
    (fun t ht => (hsub ⟨ht.1, (ht.2.le.trans hm1)⟩).1)
    ((cd2.prodMk ch2).mono (Icc_subset_Icc_right hm)) (fun t ht => e2 t ⟨ht.1, ht.2.trans_le hm⟩)
    (fun t ht => (hsub ⟨ht.1, (ht.2.le.trans hm1)⟩).2) (by rw [hd, hh])
  · intro t ht
    exact Prod.mk.inj (key ht)
  · refine LipschitzOnWith.of_dist_le_mul fun p hp q hq => (hL.dist_le_mul _ hp _ hq).trans ?_
    refine mul_le_mul_of_nonneg_left ?_ K.2
    simp only [Prod.dist_eq, dist_self]
    have h3 : dist (max p.2 (111/100)) (max q.2 (111/100)) ≤ dist p.2 q.2 := by
      rw [Real.dist_eq, Real.dist_eq]
      have := abs_max_sub_max_le_max p.2 (111/100) q.2 (111/100)
      simpa using this
    refine max_le (le_max_of_le_left dist_nonneg) (max_le (le_max_of_le_left dist_nonneg) (max_le_max le_rfl h3))

/-! ### Which branch a solution follows -/

/-- The velocity used in the equation. -/
noncomputable def U (u : ℝ → ℝ) (t : ℝ) : ℝ := max (u t) (1/1000)
/-- The arguments of the branches along a solution. -/
noncomputable def P (u du dm h : ℝ → ℝ) (t : ℝ) : ℝ × ℝ × ℝ × ℝ := (U u t, du t, dm t, max (h t) (111/100))

/-- A positive solution on an interval with an exceptional set, as needed here. -/
structure Sol (nu : ℝ) (u du dm h : ℝ → ℝ) (a b : ℝ) (E : Set ℝ) : Prop where
  hn : 0 < nu
  fin : E.Finite
  cu : ContinuousOn u (Icc a b)
  cdu : ContinuousOn du (Icc a b)
  cdm : ContinuousOn dm (Icc a b)
  ch : ContinuousOn h (Icc a b)
  pos : ∀ t ∈ Icc a b, 0 < dm t
  mom : ∀ t ∈ Icc a b, t ∉ E → HasDerivAt dm (VL nu (P u du dm h t)).1 t
  low : ∀ t ∈ Icc a b, t ∉ E → h t ≤ 16/10 → HasDerivAt h (VL nu (P u du dm h t)).2 t
  high : ∀ t ∈ Icc a b, t ∉ E → 16/10 < h t → HasDerivAt h (VH nu (P u du dm h t)).2 t

/-- What the state at a point determines: the branch followed to its right. -/
def Follows (pk : ℝ × ℝ × ℝ × ℝ → ℝ × ℝ × ℝ × ℝ → ℝ × ℝ) (u du dm h : ℝ → ℝ) (a b : ℝ) : Prop :=
  ∀ y ∈ Ico a b, ∃ z ∈ Ioc y b, ∀ t ∈ Ico y z,
    HasDerivWithinAt (fun t => (dm t, h t)) (pk (P u du dm h y) (P u du dm h t)) (Ici t) t

theorem U_pos (u : ℝ → ℝ) (t : ℝ) : 0 < U u t := lt_of_lt_of_le (by norm_num) (le_max_right _ _)
theorem V1_eq (nu : ℝ) (Q : ℝ × ℝ × ℝ × ℝ) : (VH nu Q).1 = (VL nu Q).1 := rfl

/-- The rule. -/
noncomputable def pick (nu : ℝ) (Q : ℝ × ℝ × ℝ × ℝ) : ℝ × ℝ × ℝ × ℝ → ℝ × ℝ :=
  open Classical in if 16/10 < Q.2.2.2 ∨ (Q.2.2.2 = 16/10 ∧ 0 < (VL nu Q).2) then VH nu else VL nu

section sol
variable {nu : ℝ} {u du dm h : ℝ → ℝ} {a b : ℝ} {E : Set ℝ}

theorem Sol.cU (S : Sol nu u du dm h a b E) : ContinuousOn (U u) (Icc a b) := ContinuousOn.sup S.cu continuousOn_const
theorem Sol.cP (S : Sol nu u du dm h a b E) : ContinuousOn (P u du dm h) (Icc a b) :=
  S.cU.prodMk (S.cdu.prodMk (S.cdm.prodMk (ContinuousOn.sup S.ch continuousOn_const)))
theorem Sol.vl (S : Sol nu u du dm h a b E) {t : ℝ} (ht : t ∈ Icc a b) : ContDiffAt ℝ 1 (VL nu) (P u du dm h t) :=
  VL_contDiff S.hn (U_pos u t) (S.pos t ht) (le_max_right _ _)
theorem Sol.vh (S : Sol nu u du dm h a b E) {t : ℝ} (ht : t ∈ Icc a b) : ContDiffAt ℝ 1 (VH nu) (P u du dm h t) :=
  VH_contDiff S.hn (U_pos u t) (S.pos t ht) (le_max_right _ _)

/-- Right of every point there are no exceptions for a while. -/
theorem Sol.clear (S : Sol nu u du dm h a b E) (y : ℝ) : ∀ᶠ t in 𝓝[>] y, t ∉ E := by
  have h1 : (E \ {y})ᶜ ∈ 𝓝 y := (S.fin.subset diff_subset).isClosed.isOpen_compl.mem_nhds (by simp)
  filter_upwards [mem_nhdsWithin_of_mem_nhds h1, self_mem_nhdsWithin] with t ht hty hE
  exact ht ⟨hE, ne_of_gt hty⟩

/-- A branch followed right of a point gives the right slope at that point. -/
theorem Sol.right_rate (S : Sol nu u du dm h a b E) {Φ : ℝ × ℝ × ℝ × ℝ → ℝ × ℝ} {y z : ℝ} (hy : y ∈ Icc a b) (hyz : y < z) (hz : z ≤ b)
    (hΦ : ContinuousAt Φ (P u du dm h y)) (hm : ∀ t ∈ Ioc y z, HasDerivAt dm (Φ (P u du dm h t)).1 t)
    (hh : ∀ t ∈ Ioc y z, HasDerivAt h (Φ (P u du dm h t)).2 t) :
    HasDerivWithinAt dm (Φ (P u du dm h y)).1 (Ici y) y ∧ HasDerivWithinAt h (Φ (P u du dm h y)).2 (Ici y) y := by
  have hsub : Ioc y z ⊆ Icc a b := fun t ht => ⟨hy.1.trans ht.1.le, ht.2.trans hz⟩
  have hmem : Ioc y z ∈ 𝓝[>] y := Ioc_mem_nhdsGT hyz
  have h1 : Tendsto (fun t => Φ (P u du dm h t)) (𝓝[>] y) (𝓝 (Φ (P u du dm h y))) := by
    have : Tendsto (P u du dm h) (𝓝[Ioc y z] y) (𝓝 (P u du dm h y)) := (S.cP y hy).mono hsub
    rw [nhdsWithin_Ioc_eq_nhdsGT hyz] at this
    exact hΦ.tendsto.comp this
  constructor
  · refine hasDerivWithinAt_Ici_of_tendsto_deriv (s := Ioc y z) (fun t ht => (hm t ht).differentiableAt.differentiableWithinAt)
      ((S.cdm y hy).mono hsub) hmem (((continuous_fst.tendsto _).comp h1).congr' ?_)
    filter_upwards [hmem] with t ht
    exact (hm t ht).deriv.symm
  · refine hasDerivWithinAt_Ici_of_tendsto_deriv (s := Ioc y z) (fun t ht => (hh t ht).differentiableAt.differentiableWithinAt)
      ((S.ch y hy).mono hsub) hmem (((continuous_snd.tendsto _).comp h1).congr' ?_)
    filter_upwards [hmem] with t ht
    exact (hh t ht).deriv.symm

theorem Sol.follow (S : Sol nu u du dm h a b E) {Φ : ℝ × ℝ × ℝ × ℝ → ℝ × ℝ} {y : ℝ} (hy : y ∈ Ico a b)
    (hΦ : ContinuousAt Φ (P u du dm h y))
    (hev : ∀ᶠ t in 𝓝[>] y, HasDerivAt dm (Φ (P u du dm h t)).1 t ∧ HasDerivAt h (Φ (P u du dm h t)).2 t) :
    ∃ z ∈ Ioc y b, ∀ t ∈ Ico y z, HasDerivWithinAt (fun t => (dm t, h t)) (Φ (P u du dm h t)) (Ici t) t := by
  obtain ⟨z, hz, hsub⟩ := mem_nhdsGT_iff_exists_Ioc_subset.1 hev
  have hzb : y < min z b := lt_min hz hy.2
  refine ⟨min z b, ⟨hzb, min_le_right _ _⟩, fun t ht => ?_⟩
  have hs : ∀ t ∈ Ioc y (min z b), HasDerivAt dm (Φ (P u du dm h t)).1 t ∧ HasDerivAt h (Φ (P u du dm h t)).2 t :=
    fun t ht => hsub ⟨ht.1, ht.2.trans (min_le_left _ _)⟩
  rcases eq_or_lt_of_le ht.1 with rfl | hlt
  · obtain ⟨h1, h2⟩ := S.right_rate ⟨hy.1, hy.2.le⟩ hzb (min_le_right _ _) hΦ (fun t ht => (hs t ht).1) fun t ht => (hs t ht).2
    exact h1.prodMk h2
  · obtain ⟨h1, h2⟩ := hs t ⟨hlt, ht.2.le⟩
    exact (h1.prodMk h2).hasDerivWithinAt

theorem Sol.inside (S : Sol nu u du dm h a b E) {y : ℝ} (hy : y ∈ Ico a b) : ∀ᶠ t in 𝓝[>] y, t ∈ Icc a b ∧ t ∉ E := by
  filter_upwards [Ioc_mem_nhdsGT hy.2, S.clear y] with t ht hE
  exact ⟨⟨hy.1.trans ht.1.le, ht.2⟩, hE⟩

theorem Sol.follow_low (S : Sol nu u du dm h a b E) {y : ℝ} (hy : y ∈ Ico a b) (hev : ∀ᶠ t in 𝓝[>] y, h t ≤ 16/10) :
    ∃ z ∈ Ioc y b, ∀ t ∈ Ico y z, HasDerivWithinAt (fun t => (dm t, h t)) (VL nu (P u du dm h t)) (Ici t) t := by
  refine S.follow hy (S.vl ⟨hy.1, hy.2.le⟩).continuousAt ?_
  filter_upwards [S.inside hy, hev] with t ht hl
  exact ⟨S.mom t ht.1 ht.2, S.low t ht.1 ht.2 hl⟩

theorem Sol.follow_high (S : Sol nu u du dm h a b E) {y : ℝ} (hy : y ∈ Ico a b) (hev : ∀ᶠ t in 𝓝[>] y, 16/10 < h t) :
    ∃ z ∈ Ioc y b, ∀ t ∈ Ico y z, HasDerivWithinAt (fun t => (dm t, h t)) (VH nu (P u du dm h t)) (Ici t) t := by
  refine S.follow hy (S.vh ⟨hy.1, hy.2.le⟩).continuousAt ?_
  filter_upwards [S.inside hy, hev] with t ht hl
  exact ⟨S.mom t ht.1 ht.2, S.high t ht.1 ht.2 hl⟩

theorem rises {r y : ℝ} (hd : HasDerivAt h r y) (hr : 0 < r) : ∀ᶠ t in 𝓝[>] y, h y < h t := by
  have h1 := hasDerivAt_iff_tendsto_slope.1 hd
  have h2 : ∀ᶠ t in 𝓝[≠] y, 0 < slope h y t := h1.eventually_const_lt hr
  have h3 : ∀ᶠ t in 𝓝[>] y, 0 < slope h y t := h2.filter_mono (nhdsWithin_mono _ fun t ht => (ne_of_gt ht))
  filter_upwards [h3, self_mem_nhdsWithin] with t ht hty
  rw [slope_def_field] at ht
  have : 0 < t - y := sub_pos.2 hty
  have := (div_pos_iff_of_pos_right this).1 ht
  linarith

theorem falls {r y : ℝ} (hd : HasDerivAt h r y) (hr : r < 0) : ∀ᶠ t in 𝓝[>] y, h t < h y := by
  filter_upwards [rises hd.neg (by linarith)] with t ht
  simp only [Pi.neg_apply] at ht
  linarith

theorem max_high {x : ℝ} (hx : 16/10 < x) : 16/10 < max x (111/100) := lt_of_lt_of_le hx (le_max_left _ _)
theorem max_eq_iff (x : ℝ) : max x (111/100) = 16/10 ↔ x = 16/10 := by
  constructor
  · intro e
    rcases max_choice x (111/100) with h1 | h1 <;> rw [h1] at e
    · exact e
    · norm_num at e
  · intro e; rw [e]; norm_num
theorem max_low {x : ℝ} (hx : x ≤ 16/10) : max x (111/100) ≤ 16/10 := max_le hx (by norm_num)

theorem P_eq {y : ℝ} (heq : h y = 16/10) : P u du dm h y = (U u y, du y, dm y, 16/10) := by simp only [P, (max_eq_iff _).2 heq]

theorem pick_high {y : ℝ} (hy : 16/10 < h y ∨ (h y = 16/10 ∧ 0 < (VL nu (P u du dm h y)).2)) : pick nu (P u du dm h y) = VH nu := by
  unfold pick
  refine if_pos ?_
  rcases hy with h1 | ⟨h1, h2⟩
  · exact .inl (max_high h1)
  · exact .inr ⟨(max_eq_iff _).2 h1, h2⟩

theorem pick_low {y : ℝ} (hy : h y < 16/10 ∨ (h y = 16/10 ∧ (VL nu (P u du dm h y)).2 ≤ 0)) : pick nu (P u du dm h y) = VL nu := by
  unfold pick
  refine if_neg ?_
  rintro (h1 | ⟨h1, h2⟩)
  · refine absurd (max_low ?_) (not_le.2 h1)
    rcases hy with h2 | h2
    · exact h2.le
    · exact h2.1.le
  · have e := (max_eq_iff _).1 h1
    rcases hy with h3 | h3
    · exact absurd e h3.ne
    · exact absurd h2 (not_lt.2 h3.2)

/-- Away from 1.6 there is no choice. -/
theorem Sol.away (S : Sol nu u du dm h a b E) {y : ℝ} (hy : y ∈ Ico a b) (hne : h y ≠ 16/10) :
    ∃ z ∈ Ioc y b, ∀ t ∈ Ico y z, HasDerivWithinAt (fun t => (dm t, h t)) (pick nu (P u du dm h y) (P u du dm h t)) (Ici t) t := by
  have cright : ContinuousWithinAt h (Ioi y) y := by
    refine ContinuousWithinAt.mono (t := Ici y) ?_ Ioi_subset_Ici_self
    rw [← continuousWithinAt_Icc_iff_Ici hy.2]
    exact (S.ch y ⟨hy.1, hy.2.le⟩).mono (Icc_subset_Icc_left hy.1)
  rcases lt_or_gt_of_ne hne with hlt | hgt
  · rw [pick_low (.inl hlt)]
    exact S.follow_low hy ((cright.eventually_lt_const hlt).mono fun t ht => ht.le)
  · rw [pick_high (.inl hgt)]
    exact S.follow_high hy (cright.eventually_const_lt hgt)

/-- Solutions without exceptional points. -/
theorem Sol.next (S : Sol nu u du dm h a b ∅) : Follows (pick nu) u du dm h a b := by
  intro y hy
  by_cases heq : h y = 16/10
  swap
  · exact S.away hy heq
  have hy' : y ∈ Icc a b := ⟨hy.1, hy.2.le⟩
  have hQ : P u du dm h y = (U u y, du y, dm y, 16/10) := P_eq heq
  have hlow := S.low y hy' (notMem_empty _) heq.le
  rcases lt_trichotomy (VL nu (P u du dm h y)).2 0 with hr | hr | hr
  · rw [pick_low (.inr ⟨heq, hr.le⟩)]
    refine S.follow_low hy ?_
    filter_upwards [falls hlow hr] with t ht
    linarith
  · rw [pick_low (.inr ⟨heq, hr.le⟩)]
    refine S.follow_low hy ?_
    -- no excursion above 1.6
    let g : ℝ → ℝ := fun t => (VL nu (U u t, du t, dm t, 16/10)).2 - (VH nu (U u t, du t, dm t, 16/10)).2
    have hg0 : g y ≠ 0 := by
      have h1 : (VL nu (U u y, du y, dm y, 16/10)).2 = 0 := by rw [← hQ]; exact hr
      have h2 := jump (U_pos u y) (S.pos y hy') h1.ge
      simp only [g, h1, zero_sub, ne_eq, neg_eq_zero]
      exact h2.ne'
    have hgc : ContinuousWithinAt g (Ici y) y := by
      rw [← continuousWithinAt_Icc_iff_Ici hy.2]
      have hsub : Icc y b ⊆ Icc a b := Icc_subset_Icc_left hy.1
      have c1 : ContinuousWithinAt (fun t => (U u t, du t, dm t, (16/10 : ℝ))) (Icc y b) y :=
        ((S.cU y hy').mono hsub).prodMk (((S.cdu y hy').mono hsub).prodMk (((S.cdm y hy').mono hsub).prodMk continuousWithinAt_const))
      have k1 : ContinuousAt (VL nu) (U u y, du y, dm y, (16/10 : ℝ)) :=
        (VL_contDiff S.hn (U_pos u y) (S.pos y hy') (by norm_num)).continuousAt
      have k2 : ContinuousAt (VH nu) (U u y, du y, dm y, (16/10 : ℝ)) :=
        (VH_contDiff S.hn (U_pos u y) (S.pos y hy') (by norm_num)).continuousAt
      exact (ContinuousAt.comp_continuousWithinAt (f := fun t => (U u t, du t, dm t, (16/10 : ℝ))) k1 c1).snd.sub
        (ContinuousAt.comp_continuousWithinAt (f := fun t => (U u t, du t, dm t, (16/10 : ℝ))) k2 c1).snd
    obtain ⟨z, hz, hsub⟩ := mem_nhdsGE_iff_exists_Icc_subset.1 (hgc.eventually_ne hg0)
    have hzb : y < min z b := lt_min hz hy.2
    filter_upwards [Ioc_mem_nhdsGT hzb] with s hs
    by_contra hcon
    rw [not_le] at hcon
    have hsb : s ≤ b := hs.2.trans (min_le_right _ _)
    have hsI : Icc y s ⊆ Icc a b := fun t ht => ⟨hy.1.trans ht.1, ht.2.trans hsb⟩
    have hcomp : IsCompact (Icc y s ∩ h ⁻¹' Iic (16/10)) :=
      isCompact_Icc.of_isClosed_subset ((S.ch.mono hsI).preimage_isClosed_of_isClosed isClosed_Icc isClosed_Iic) inter_subset_left
    obtain ⟨y', hy1, hy2⟩ := hcomp.exists_isGreatest ⟨y, ⟨le_rfl, hs.1.le⟩, heq.le⟩
    have hy's : y' < s := by
      rcases eq_or_lt_of_le hy1.1.2 with e | e
      · exfalso; have := hy1.2; rw [e] at this; exact absurd hcon (not_lt.2 this)
      · exact e
    have habove : ∀ t ∈ Ioc y' s, 16/10 < h t := fun t ht => by
      by_contra hc
      have := hy2 ⟨⟨hy1.1.1.trans ht.1.le, ht.2⟩, not_lt.1 hc⟩
      exact absurd ht.1 (not_lt.2 this)
    have hy'I : y' ∈ Icc a b := hsI hy1.1
    have hin : ∀ t ∈ Ioc y' s, t ∈ Icc a b := fun t ht => hsI ⟨hy1.1.1.trans ht.1.le, ht.2⟩
    have heq' : h y' = 16/10 := by
      refine le_antisymm hy1.2 ?_
      have c1 : Tendsto h (𝓝[>] y') (𝓝 (h y')) := by
        have : Tendsto h (𝓝[Ioc y' s] y') (𝓝 (h y')) := (S.ch y' hy'I).mono hin
        rwa [nhdsWithin_Ioc_eq_nhdsGT hy's] at this
      refine ge_of_tendsto c1 ?_
      filter_upwards [Ioc_mem_nhdsGT hy's] with t ht
      exact (habove t ht).le
    have r1 := (S.right_rate (Φ := VH nu) hy'I hy's hsb (S.vh hy'I).continuousAt (fun t ht => S.mom t (hin t ht) (notMem_empty _))
      fun t ht => S.high t (hin t ht) (notMem_empty _) (habove t ht)).2
    have r2 := (S.low y' hy'I (notMem_empty _) heq'.le).hasDerivWithinAt (s := Ici y')
    have heqd := (uniqueDiffOn_Ici y' y' self_mem_Ici).eq_deriv _ r2 r1
    rw [P_eq heq'] at heqd
    refine (hsub ⟨hy1.1.1, hy1.1.2.trans (hs.2.trans (min_le_left _ _))⟩ : g y' ≠ 0) ?_
    simp only [g, heqd, sub_self]
  · rw [pick_high (.inr ⟨heq, hr⟩)]
    refine S.follow_high hy ?_
    filter_upwards [rises hlow hr] with t ht
    linarith

/-- At 1.6 the two branches ask for the same direction. -/
def Same (nu : ℝ) (Q : ℝ × ℝ × ℝ × ℝ) : Prop := (0 < (VL nu Q).2 ∧ 0 < (VH nu Q).2) ∨ ((VL nu Q).2 < 0 ∧ (VH nu Q).2 < 0)

theorem Sol.rate_near (S : Sol nu u du dm h a b E) {y : ℝ} (hy : y ∈ Ico a b) :
    Tendsto (fun t => (VL nu (P u du dm h t)).2) (𝓝[>] y) (𝓝 (VL nu (P u du dm h y)).2) ∧
    Tendsto (fun t => (VH nu (P u du dm h t)).2) (𝓝[>] y) (𝓝 (VH nu (P u du dm h y)).2) := by
  have hy' : y ∈ Icc a b := ⟨hy.1, hy.2.le⟩
  have h1 : Tendsto (P u du dm h) (𝓝[>] y) (𝓝 (P u du dm h y)) := by
    have : Tendsto (P u du dm h) (𝓝[Ioc y b] y) (𝓝 (P u du dm h y)) := (S.cP y hy').mono fun t ht => ⟨hy.1.trans ht.1.le, ht.2⟩
    rwa [nhdsWithin_Ioc_eq_nhdsGT hy.2] at this
  exact ⟨(continuous_snd.tendsto _).comp ((S.vl hy').continuousAt.tendsto.comp h1),
    (continuous_snd.tendsto _).comp ((S.vh hy').continuousAt.tendsto.comp h1)⟩

/-- Solutions with exceptional points. -/
theorem Sol.next_off (S : Sol nu u du dm h a b E) (hs : ∀ y ∈ Ico a b, h y = 16/10 → Same nu (P u du dm h y)) :
    Follows (pick nu) u du dm h a b := by
  intro y hy
  by_cases heq : h y = 16/10
  swap
  · exact S.away hy heq
  obtain ⟨tl, th⟩ := S.rate_near hy
  have cy : ∀ z ≤ b, ContinuousOn h (Icc y z) := fun z hz => S.ch.mono (Icc_subset_Icc hy.1 hz)
  rcases hs y hy heq with ⟨h1, h2⟩ | ⟨h1, h2⟩
  · rw [pick_high (.inr ⟨heq, h1⟩)]
    refine S.follow_high hy ?_
    obtain ⟨z, hz, hsub⟩ := mem_nhdsGT_iff_exists_Ioc_subset.1 ((S.inside hy).and ((tl.eventually_const_lt h1).and (th.eventually_const_lt h2)))
    have hmono : StrictMonoOn h (Icc y z) := by
      have hzb : z ≤ b := (hsub ⟨hz, le_refl z⟩).1.1.2
      refine strictMonoOn_of_deriv_pos (convex_Icc y z) (cy z hzb) fun t ht => ?_
      rw [interior_Icc] at ht
      obtain ⟨⟨k1, k2⟩, k3, k4⟩ := hsub ⟨ht.1, ht.2.le⟩
      rcases le_or_gt (h t) (16/10) with hl | hl
      · rw [(S.low t k1 k2 hl).deriv]; exact k3
      · rw [(S.high t k1 k2 hl).deriv]; exact k4
    filter_upwards [Ioc_mem_nhdsGT hz] with t ht
    have := hmono ⟨le_refl _, hz.le⟩ ⟨ht.1.le, ht.2⟩ ht.1
    linarith
  · rw [pick_low (.inr ⟨heq, h1.le⟩)]
    refine S.follow_low hy ?_
    obtain ⟨z, hz, hsub⟩ := mem_nhdsGT_iff_exists_Ioc_subset.1 ((S.inside hy).and ((tl.eventually_lt_const h1).and (th.eventually_lt_const h2)))
    have hmono : StrictAntiOn h (Icc y z) := by
      have hzb : z ≤ b := (hsub ⟨hz, le_refl z⟩).1.1.2
      refine strictAntiOn_of_deriv_neg (convex_Icc y z) (cy z hzb) fun t ht => ?_
      rw [interior_Icc] at ht
      obtain ⟨⟨k1, k2⟩, k3, k4⟩ := hsub ⟨ht.1, ht.2.le⟩
      rcases le_or_gt (h t) (16/10) with hl | hl
      · rw [(S.low t k1 k2 hl).deriv]; exact k3
      · rw [(S.high t k1 k2 hl).deriv]; exact k4
    filter_upwards [Ioc_mem_nhdsGT hz] with t ht
    have := hmono ⟨le_refl _, hz.le⟩ ⟨ht.1.le, ht.2⟩ ht.1
    linarith

end sol

theorem pick_contDiff {nu : ℝ} {Q Q' : ℝ × ℝ × ℝ × ℝ} (hn : 0 < nu) (hu : 0 < Q.1) (hm : 0 < Q.2.2.1) (hh : 111/100 ≤ Q.2.2.2) :
    ContDiffAt ℝ 1 (pick nu Q') Q := by
  unfold pick
  split_ifs
  · exact VH_contDiff hn hu hm hh
  · exact VL_contDiff hn hu hm hh

theorem unique {nu : ℝ} {u du d1 h1 d2 h2 : ℝ → ℝ} {a b : ℝ} {E1 E2 : Set ℝ} (S1 : Sol nu u du d1 h1 a b E1)
    (S2 : Sol nu u du d2 h2 a b E2) (N1 : Follows (pick nu) u du d1 h1 a b) (N2 : Follows (pick nu) u du d2 h2 a b)
    (hd : d1 a = d2 a) (hh : h1 a = h2 a) : ∀ x ∈ Icc a b, d1 x = d2 x ∧ h1 x = h2 x := by
  intro x hx
  have hclosed : IsClosed ({t | d1 t = d2 t ∧ h1 t = h2 t} ∩ Icc a b) := by
    have e : {t | d1 t = d2 t ∧ h1 t = h2 t} ∩ Icc a b = Icc a b ∩ (fun t => ((d1 t - d2 t), (h1 t - h2 t))) ⁻¹' {(0, 0)} := by
      ext t
      simp only [mem_inter_iff, mem_setOf_eq, mem_preimage, mem_singleton_iff, Prod.mk.injEq, sub_eq_zero]
      tauto
    rw [e]
    exact ((S1.cdm.sub S2.cdm).prodMk (S1.ch.sub S2.ch)).preimage_isClosed_of_isClosed isClosed_Icc isClosed_singleton
  refine hclosed.Icc_subset_of_forall_exists_gt ⟨hd, hh⟩ (fun y hy z hz => ?_) hx
  obtain ⟨⟨e1, e2⟩, hyI⟩ := hy
  obtain ⟨z1, hz1, k1⟩ := N1 y hyI
  obtain ⟨z2, hz2, k2⟩ := N2 y hyI
  have hPe : P u du d1 h1 y = P u du d2 h2 y := by simp only [P, e1, e2]
  have hm : y < min z1 z2 := lt_min hz1.1 hz2.1
  have hsub : Icc y (min z1 z2) ⊆ Icc a b := fun t ht => ⟨hyI.1.trans ht.1, ht.2.trans ((min_le_left _ _).trans hz1.2)⟩
  obtain ⟨z', hz', hag⟩ := local_unique (Φ := pick nu (P u du d1 h1 y)) (U := U u) (w := du) (d1 := d1) (h1 := h1) (d2 := d2) (h2 := h2) hm
    (pick_contDiff S1.hn (U_pos u y) (S1.pos y ⟨hyI.1, hyI.2.le⟩) (le_max_right _ _))
    (S1.cU.mono hsub) (S1.cdu.mono hsub) (S1.cdm.mono hsub) (S1.ch.mono hsub) (S2.cdm.mono hsub) (S2.ch.mono hsub)
    (fun t ht => k1 t ⟨ht.1, ht.2.trans_le (min_le_left _ _)⟩)
    (fun t ht => by rw [hPe]; exact k2 t ⟨ht.1, ht.2.trans_le (min_le_right _ _)⟩) e1 e2
  have hlt : y < min z z' := lt_min hz hz'.1
  exact ⟨min z z', hag _ ⟨hlt.le, min_le_right _ _⟩, hlt, min_le_left _ _⟩

/-! ### From the equation handed to the integrator to the branches and back -/

theorem floor_U (u : ℝ → ℝ) (t : ℝ) : Head.floorScalar (u t) = U u t := by
  simp only [Head.floorScalar, real_gt, real_lit, U]
  split_ifs with h
  · push_cast at h ⊢; rw [max_eq_right (le_of_lt h)]
  · push_cast at h; rw [max_eq_left (not_lt.1 h)]

theorem clamp_max (h : ℝ) : Head.odeClamp h = max h (111/100) := by
  simp only [Head.odeClamp, real_lt, real_lit]
  split_ifs with hc
  · push_cast at hc ⊢; rw [max_eq_right hc.le]
  · push_cast at hc; rw [max_eq_left (not_lt.1 hc)]

theorem rates_P_low {nu : ℝ} {u du dm h : ℝ → ℝ} {t : ℝ} (hl : h t ≤ 16/10) :
    Head.rates nu (Head.floorScalar (u t)) (du t) (dm t) (Head.odeClamp (h t)) = VL nu (P u du dm h t) := by
  rw [floor_U, clamp_max]
  exact rates_low (U_pos u t) (lt_of_lt_of_le (by norm_num) (le_max_right _ _)) (max_low hl)

theorem rates_P_high {nu : ℝ} {u du dm h : ℝ → ℝ} {t : ℝ} (hl : 16/10 < h t) :
    Head.rates nu (Head.floorScalar (u t)) (du t) (dm t) (Head.odeClamp (h t)) = VH nu (P u du dm h t) := by
  rw [floor_U, clamp_max]
  exact rates_high (U_pos u t) (max_high hl)

/-- What is fixed about the object. -/
structure Flow (o : Obj ℝ) (u du : ℝ → ℝ) (a b : ℝ) : Prop where
  isHead : o.cls = .head
  uE : ∀ t, o.vel.uE t = .ok (u t)
  duE : ∀ t, o.vel.duE t = .ok (du t)
  nu : 0 < o.nu
  cu : ContinuousOn u (Icc a b)
  cdu : ContinuousOn du (Icc a b)

theorem Flow.rhs {o : Obj ℝ} {u du dm h : ℝ → ℝ} {a b t : ℝ} (F : Flow o u du a b) : o.rhs t [dm t, h t] = .ok
    [(Head.rates o.nu (Head.floorScalar (u t)) (du t) (dm t) (Head.odeClamp (h t))).1,
     (Head.rates o.nu (Head.floorScalar (u t)) (du t) (dm t) (Head.odeClamp (h t))).2] := by
  simp [Obj.rhs, F.isHead, Obj.headRhs, F.uE, F.duE, Bind.bind, Except.bind, Pure.pure, Except.pure]

theorem Flow.sol {o : Obj ℝ} {u du dm h : ℝ → ℝ} {a b : ℝ} {E : Set ℝ} (F : Flow o u du a b) (hE : E.Finite)
    (cdm : ContinuousOn dm (Icc a b)) (ch : ContinuousOn h (Icc a b)) (hode : ∀ t ∈ Icc a b, t ∉ E → HeadOde o dm h t) (h0 : 0 < dm a) :
    Sol o.nu u du dm h a b E := by
  have hd := fun t ht hn => (hode t ht hn).derivs F.isHead F.uE F.duE
  obtain ⟨D, hD⟩ : ∃ D, ∀ x ∈ Icc a b, du x ≤ D := by
    obtain ⟨D, hD⟩ := isCompact_Icc.exists_bound_of_continuousOn F.cdu
    exact ⟨D, fun x hx => (le_abs_self _).trans (hD x hx)⟩
  refine ⟨F.nu, hE, F.cu, F.cdu, cdm, ch, head_positive F.nu hE (fun t ht hn => (hd t ht hn).1) cdm ch hD h0, fun t ht hn => ?_,
    fun t ht hn hl => ?_, fun t ht hn hl => ?_⟩
  · have := (hd t ht hn).1
    rcases le_or_gt (h t) (16/10) with hl | hl
    · rwa [rates_P_low hl] at this
    · rw [rates_P_high hl] at this; exact this
  · have := (hd t ht hn).2; rwa [rates_P_low hl] at this
  · have := (hd t ht hn).2; rwa [rates_P_high hl] at this

/-! ### Existence for one branch -/

noncomputable def cl (p q x : ℝ) : ℝ := max p (min x q)
theorem cl_mem {p q : ℝ} (h : p ≤ q) (x : ℝ) : cl p q x ∈ Icc p q := ⟨le_max_left _ _, max_le h (min_le_right _ _)⟩
theorem cl_of_mem {p q x : ℝ} (h : x ∈ Icc p q) : cl p q x = x := by rw [cl, min_eq_left h.2, max_eq_right h.1]
theorem cl_cont (p q : ℝ) : Continuous (cl p q) := by unfold cl; fun_prop

theorem local_exists {Φ : ℝ × ℝ × ℝ × ℝ → ℝ × ℝ} {u du : ℝ → ℝ} {a b m0 h0 : ℝ} (hab : a < b) (hu : ContinuousOn u (Icc a b))
    (hdu : ContinuousOn du (Icc a b)) (hΦ : ContDiffAt ℝ 1 Φ (U u a, du a, m0, max h0 (111/100))) :
    ∃ c ∈ Ioc a b, ∃ dm h : ℝ → ℝ, dm a = m0 ∧ h a = h0 ∧
      ∀ t ∈ Icc a c, HasDerivAt dm (Φ (P u du dm h t)).1 t ∧ HasDerivAt h (Φ (P u du dm h t)).2 t := by
  obtain ⟨K, T, hT, hL⟩ := hΦ.exists_lipschitzOnWith
  obtain ⟨M, hM0, hM⟩ : ∃ M : ℝ, 0 < M ∧ ∀ᶠ Q in 𝓝 (U u a, du a, m0, max h0 (111/100)), ‖Φ Q‖ ≤ M :=
    ⟨‖Φ (U u a, du a, m0, max h0 (111/100))‖ + 1, by positivity,
      (hΦ.continuousAt.norm.eventually_lt_const (lt_add_one _)).mono fun Q hQ => hQ.le⟩
  let A : ℝ × (ℝ × ℝ) → ℝ × ℝ × ℝ × ℝ := fun q => (U u (cl a b q.1), du (cl a b q.1), q.2.1, max q.2.2 (111/100))
  have cu : Continuous fun t => u (cl a b t) := hu.comp_continuous (cl_cont a b) (cl_mem hab.le)
  have cd : Continuous fun t => du (cl a b t) := hdu.comp_continuous (cl_cont a b) (cl_mem hab.le)
  have hA : Continuous A := by
    have h1 : Continuous fun t => U u (cl a b t) := cu.max continuous_const
    exact (h1.comp continuous_fst).prodMk ((cd.comp continuous_fst).prodMk (by fun_prop))
  have hA0 : A (a, (m0, h0)) = (U u a, du a, m0, max h0 (111/100)) := by
    simp only [A, cl_of_mem (show a ∈ Icc a b from ⟨le_rfl, hab.le⟩)]
  have hev : ∀ᶠ q in 𝓝 (a, (m0, h0)), A q ∈ T ∧ ‖Φ (A q)‖ ≤ M := by
    have h1 : Tendsto A (𝓝 (a, (m0, h0))) (𝓝 (U u a, du a, m0, max h0 (111/100))) := by rw [← hA0]; exact hA.tendsto _
    exact h1.eventually ((show ∀ᶠ Q in 𝓝 (U u a, du a, m0, max h0 (111/100)), Q ∈ T from hT).and hM)
  obtain ⟨r, hr, hball⟩ := Metric.nhds_basis_closedBall.eventually_iff.1 hev
  have hin : ∀ t p, |t - a| ≤ r → p ∈ Metric.closedBall (m0, h0) r → A (t, p) ∈ T ∧ ‖Φ (A (t, p))‖ ≤ M := fun t p ht hp =>
    hball (by
      rw [Metric.mem_closedBall] at hp ⊢
      rw [Prod.dist_eq, max_le_iff]
      exact ⟨by rw [Real.dist_eq]; exact ht, hp⟩)
  obtain ⟨η, hη⟩ : ∃ η, η = min r (r / M) := ⟨_, rfl⟩
  have hη0 : 0 < η := by rw [hη]; exact lt_min hr (div_pos hr hM0)
  have hηr : η ≤ r := by rw [hη]; exact min_le_left _ _
  have hηM : M * η ≤ r := by
    have : η ≤ r / M := by rw [hη]; exact min_le_right _ _
    have := mul_le_mul_of_nonneg_left this hM0.le
    rwa [mul_div_cancel₀ _ hM0.ne'] at this
  have pl : IsPicardLindelof (fun t p => Φ (A (t, p))) (tmin := a - η) (tmax := a + η) ⟨a, by linarith, by linarith⟩ (m0, h0)
      ⟨r, hr.le⟩ 0 ⟨M, hM0.le⟩ K := by
    refine ⟨fun t ht => LipschitzOnWith.of_dist_le_mul fun p hp q hq => ?_, fun p hp => ?_, fun t ht p hp => ?_, ?_⟩
    · have ht' : |t - a| ≤ r := abs_le.2 ⟨by linarith [ht.1], by linarith [ht.2]⟩
      refine (hL.dist_le_mul _ (hin t p ht' hp).1 _ (hin t q ht' hq).1).trans (mul_le_mul_of_nonneg_left ?_ K.2)
      simp only [A, Prod.dist_eq, dist_self]
      have h3 : dist (max p.2 (111/100)) (max q.2 (111/100)) ≤ dist p.2 q.2 := by
        rw [Real.dist_eq, Real.dist_eq]
        have := abs_max_sub_max_le_max p.2 (111/100) q.2 (111/100)
        simpa using this
      exact max_le (le_max_of_le_left dist_nonneg) (max_le (le_max_of_le_left dist_nonneg) (max_le_max le_rfl h3))
    · have h1 : ContinuousOn Φ T := hL.continuousOn
      refine h1.comp (f := fun t => A (t, p)) (hA.comp (by fun_prop)).continuousOn fun t ht => ?_
      exact (hin t p (abs_le.2 ⟨by linarith [ht.1], by linarith [ht.2]⟩) hp).1
    · exact (hin t p (abs_le.2 ⟨by linarith [ht.1], by linarith [ht.2]⟩) hp).2
    · change M * max (a + η - a) (a - (a - η)) ≤ r - 0
      rw [sub_zero]
      refine le_trans (mul_le_mul_of_nonneg_left (max_le ?_ ?_) hM0.le) hηM <;> linarith
  obtain ⟨y, hya, hy⟩ := pl.exists_eq_forall_mem_Icc_hasDerivWithinAt₀
  change y a = (m0, h0) at hya
  refine ⟨min b (a + η / 2), ⟨lt_min hab (by linarith), min_le_left _ _⟩, fun t => (y t).1, fun t => (y t).2, by simp [hya], by simp [hya],
    fun t ht => ?_⟩
  have h1 : t ≤ b := ht.2.trans (min_le_left _ _)
  have h2 : t ≤ a + η / 2 := ht.2.trans (min_le_right _ _)
  have hd : HasDerivAt y (Φ (A (t, y t))) t := (hy t ⟨by linarith [ht.1], by linarith⟩).hasDerivAt (Icc_mem_nhds (by linarith [ht.1]) (by linarith))
  have hAe : A (t, y t) = P u du (fun t => (y t).1) (fun t => (y t).2) t := by simp only [A, P, cl_of_mem (show t ∈ Icc a b from ⟨ht.1, h1⟩)]
  rw [hAe] at hd
  exact ⟨hd.fst, hd.snd⟩

theorem shrink {a c : ℝ} (hc : a < c) {p : ℝ → Prop} (h : ∀ᶠ t in 𝓝[>] a, p t) : ∃ z ∈ Ioc a c, ∀ t ∈ Ioc a z, p t := by
  obtain ⟨z, hz, hsub⟩ := mem_nhdsGT_iff_exists_Ioc_subset.1 h
  exact ⟨min z c, ⟨lt_min hz hc, min_le_right _ _⟩, fun t ht => hsub ⟨ht.1, ht.2.trans (min_le_left _ _)⟩⟩

theorem low_exists {o : Obj ℝ} {u du : ℝ → ℝ} {a b m0 h0 : ℝ} (F : Flow o u du a b) (hab : a < b) (hm : 0 < m0)
    (hh : h0 < 16/10 ∨ (h0 = 16/10 ∧ (VL o.nu (U u a, du a, m0, 16/10)).2 < 0)) :
    ∃ c ∈ Ioc a b, ∃ dm h : ℝ → ℝ, dm a = m0 ∧ h a = h0 ∧ (∀ t ∈ Icc a c, HeadOde o dm h t) ∧ (∀ t ∈ Icc a c, 0 < dm t) ∧
      ∀ t ∈ Ioc a c, h t < 16/10 := by
  obtain ⟨c, hc, dm, h, e1, e2, hd⟩ := local_exists (Φ := VL o.nu) (h0 := h0) hab F.cu F.cdu (VL_contDiff F.nu (U_pos u a) hm (le_max_right _ _))
  have ha : a ∈ Icc a c := ⟨le_rfl, hc.1.le⟩
  have hPa : h0 = 16/10 → P u du dm h a = (U u a, du a, m0, 16/10) := fun e => by
    rw [P_eq (e2.trans e), e1]
  have hev : ∀ᶠ t in 𝓝[>] a, h t < 16/10 ∧ 0 < dm t := by
    refine Eventually.and ?_ (((hd a ha).1.continuousAt.eventually_const_lt (by rw [e1]; exact hm)).filter_mono nhdsWithin_le_nhds)
    rcases hh with hlt | ⟨heq, hr⟩
    · exact ((hd a ha).2.continuousAt.eventually_lt_const (by rw [e2]; exact hlt)).filter_mono nhdsWithin_le_nhds
    · have := falls (hd a ha).2 (by rw [hPa heq]; exact hr)
      rwa [e2, heq] at this
  obtain ⟨z, hz, hsub⟩ := shrink hc.1 hev
  have hle : ∀ t ∈ Icc a z, h t ≤ 16/10 := fun t ht => by
    rcases eq_or_lt_of_le ht.1 with rfl | hlt
    · rw [e2]; rcases hh with h1 | h1
      · exact h1.le
      · exact h1.1.le
    · exact (hsub t ⟨hlt, ht.2⟩).1.le
  refine ⟨z, ⟨hz.1, hz.2.trans hc.2⟩, dm, h, e1, e2, fun t ht => ?_, fun t ht => ?_, fun t ht => (hsub t ht).1⟩
  · obtain ⟨k1, k2⟩ := hd t ⟨ht.1, ht.2.trans hz.2⟩
    refine ⟨_, _, F.rhs, ?_, ?_⟩ <;> rw [rates_P_low (hle t ht)] <;> assumption
  · rcases eq_or_lt_of_le ht.1 with rfl | hlt
    · rw [e1]; exact hm
    · exact (hsub t ⟨hlt, ht.2⟩).2

theorem high_exists {o : Obj ℝ} {u du : ℝ → ℝ} {a b m0 h0 : ℝ} (F : Flow o u du a b) (hab : a < b) (hm : 0 < m0)
    (hh : 16/10 < h0 ∨ (h0 = 16/10 ∧ 0 < (VH o.nu (U u a, du a, m0, 16/10)).2)) :
    ∃ c ∈ Ioc a b, ∃ dm h : ℝ → ℝ, dm a = m0 ∧ h a = h0 ∧ ContinuousOn dm (Icc a c) ∧ ContinuousOn h (Icc a c) ∧
      (∀ t ∈ Icc a c, (t ≠ a ∨ h0 ≠ 16/10) → HeadOde o dm h t) ∧ (∀ t ∈ Icc a c, 0 < dm t) ∧ ∀ t ∈ Ioc a c, 16/10 < h t := by
  obtain ⟨c, hc, dm, h, e1, e2, hd⟩ := local_exists (Φ := VH o.nu) (h0 := h0) hab F.cu F.cdu (VH_contDiff F.nu (U_pos u a) hm (le_max_right _ _))
  have ha : a ∈ Icc a c := ⟨le_rfl, hc.1.le⟩
  have hPa : h0 = 16/10 → P u du dm h a = (U u a, du a, m0, 16/10) := fun e => by
    rw [P_eq (e2.trans e), e1]
  have hev : ∀ᶠ t in 𝓝[>] a, 16/10 < h t ∧ 0 < dm t := by
    refine Eventually.and ?_ (((hd a ha).1.continuousAt.eventually_const_lt (by rw [e1]; exact hm)).filter_mono nhdsWithin_le_nhds)
    rcases hh with hlt | ⟨heq, hr⟩
    · exact ((hd a ha).2.continuousAt.eventually_const_lt (by rw [e2]; exact hlt)).filter_mono nhdsWithin_le_nhds
    · have := rises (hd a ha).2 (by rw [hPa heq]; exact hr)
      rwa [e2, heq] at this
  obtain ⟨z, hz, hsub⟩ := shrink hc.1 hev
  refine ⟨z, ⟨hz.1, hz.2.trans hc.2⟩, dm, h, e1, e2, fun t ht => (hd t ⟨ht.1, ht.2.trans hz.2⟩).1.continuousAt.continuousWithinAt,
    fun t ht => (hd t ⟨ht.1, ht.2.trans hz.2⟩).2.continuousAt.continuousWithinAt, fun t ht hne => ?_, fun t ht => ?_, fun t ht => (hsub t ht).1⟩
  · obtain ⟨k1, k2⟩ := hd t ⟨ht.1, ht.2.trans hz.2⟩
    have hgt : 16/10 < h t := by
      rcases eq_or_lt_of_le ht.1 with rfl | hlt
      · rw [e2]; rcases hh with h1 | h1
        · exact h1
        · exact absurd h1.1 (hne.resolve_left (by simp))
      · exact (hsub t ⟨hlt, ht.2⟩).1
    refine ⟨_, _, F.rhs, ?_, ?_⟩ <;> rw [rates_P_high hgt] <;> assumption
  · rcases eq_or_lt_of_le ht.1 with rfl | hlt
    · rw [e1]; exact hm
    · exact (hsub t ⟨hlt, ht.2⟩).2

/-! ### Numbers at 1.6 -/

/-- What remains of the momentum equation at 1.6, over the velocity. -/
noncomputable def kap (nu u w m : ℝ) : ℝ := ludwiegTillman (u * m / nu) (16/10) / 2 - 26/10 * m * w / u

theorem rate_kap : ∃ eL eH vL vH : ℝ, 53/10 < eL ∧ eL < eH ∧ eH < 531/100 ∧
    vL = 306/10000 / (eL - 3) ^ (6169/10000 : ℝ) ∧ vH = 306/10000 / (eH - 3) ^ (6169/10000 : ℝ) ∧
    ∀ nu u w m : ℝ, 0 < u → 0 < m → (VL nu (u, w, m, 16/10)).2 = (vL - eL * kap nu u w m) / (Ep (8234/10000) (11/10) (1287/1000) (16/10) * m) ∧
    (VH nu (u, w, m, 16/10)).2 = (vH - eH * kap nu u w m) / (Ep (15501/10000) (6778/10000) (3064/1000) (16/10) * m) := by
  obtain ⟨eL, eH, hL, hH, h1, h2, h3⟩ := at_branch
  have hp1 := EpL_neg.ne
  have hp2 := EpH_neg.ne
  refine ⟨eL, eH, _, _, h1, h2, h3, rfl, rfl, fun nu u w m hu hm => ⟨?_, ?_⟩⟩
  · simp only [VL, V, hL, kap, cf_eq]
    field_simp
    ring
  · simp only [VH, V, hH, kap, cf_eq]
    field_simp
    ring

theorem ent_le {e : ℝ} (he : 53/10 < e) : 306/10000 / (e - 3) ^ (6169/10000 : ℝ) < 35/10000 * (53/10) := by
  have h0 : (0:ℝ) < (23/10 : ℝ) ^ (6169/10000 : ℝ) := by positivity
  have h1 : (16497/10000 : ℝ) < (23/10 : ℝ) ^ (6169/10000 : ℝ) := by
    have := Head.lt_rpow_of_lt_pow (x := 23/10) (r := 16497/10000) (p := 8) (q := 13) (by norm_num) (by norm_num) (by norm_num) (by norm_num)
    push_cast at this
    exact this.trans_le (Real.rpow_le_rpow_of_exponent_le (by norm_num) (by norm_num))
  have h2 : (23/10 : ℝ) ^ (6169/10000 : ℝ) ≤ (e - 3) ^ (6169/10000 : ℝ) := Real.rpow_le_rpow (by norm_num) (by linarith) (by norm_num)
  refine lt_of_le_of_lt (div_le_div_of_nonneg_left (by norm_num) (by norm_num) (h1.le.trans h2)) ?_
  norm_num

theorem ent_ge {e : ℝ} (he : 53/10 < e) (he' : e < 531/100) : 34/10000 * (531/100) < 306/10000 / (e - 3) ^ (6169/10000 : ℝ) := by
  have h1 : (231/100 : ℝ) ^ (6169/10000 : ℝ) < 16945/10000 := by
    have := Head.rpow_lt_of_pow_lt (x := 231/100) (r := 16945/10000) (p := 5) (q := 8) (by norm_num) (by norm_num) (by norm_num) (by norm_num)
    push_cast at this
    exact lt_of_le_of_lt (Real.rpow_le_rpow_of_exponent_le (by norm_num) (by norm_num)) this
  have h2 : (e - 3) ^ (6169/10000 : ℝ) ≤ (231/100 : ℝ) ^ (6169/10000 : ℝ) := Real.rpow_le_rpow (by linarith) (by linarith) (by norm_num)
  have h0 : 0 < (e - 3) ^ (6169/10000 : ℝ) := Real.rpow_pos_of_pos (by linarith) _
  rw [lt_div_iff₀ h0]
  nlinarith

theorem same_of_kap {nu u w m : ℝ} (hu : 0 < u) (hm : 0 < m) (hk : kap nu u w m ≤ 34/10000 ∨ 35/10000 ≤ kap nu u w m) :
    Same nu (u, w, m, 16/10) := by
  obtain ⟨eL, eH, vL, vH, h1, h2, h3, e1, e2, hr⟩ := rate_kap
  obtain ⟨rL, rH⟩ := hr nu u w m hu hm
  have hp1 := mul_neg_of_neg_of_pos EpL_neg hm
  have hp2 := mul_neg_of_neg_of_pos EpH_neg hm
  have a1 := ent_le h1
  have a2 := ent_le (h1.trans h2)
  have a3 := ent_ge h1 (h2.trans h3)
  have a4 := ent_ge (h1.trans h2) h3
  rw [← e1] at a1 a3
  rw [← e2] at a2 a4
  rw [Same, rL, rH]
  rcases hk with hk | hk
  · right
    have b : ∀ e, 53/10 < e → e < 531/100 → e * kap nu u w m ≤ 34/10000 * (531/100) := fun e h h' => by
      rcases le_or_gt (kap nu u w m) 0 with hn | hn
      · have := mul_nonpos_of_nonneg_of_nonpos (show 0 ≤ e by linarith) hn
        linarith
      · have := mul_le_mul h'.le hk hn.le (by norm_num)
        linarith
    have b1 := b eL h1 (h2.trans h3)
    have b2 := b eH (h1.trans h2) h3
    exact ⟨div_neg_of_pos_of_neg (by linarith) hp1, div_neg_of_pos_of_neg (by linarith) hp2⟩
  · left
    have b1 := mul_le_mul h1.le hk (by norm_num) (by linarith)
    have b2 := mul_le_mul (h1.trans h2).le hk (by norm_num) (by linarith)
    exact ⟨div_pos_of_neg_of_neg (by linarith) hp1, div_pos_of_neg_of_neg (by linarith) hp2⟩

theorem EpL_ge : -(535/100) < Ep (8234/10000) (11/10) (1287/1000) (16/10) := by
  have h1 : (1984/10000 : ℝ) < (1/2 : ℝ) ^ (1287/1000 + 1 : ℝ) := by
    have := Head.lt_rpow_of_lt_pow (x := 1/2) (r := 1984/10000) (p := 7) (q := 3) (by norm_num) (by norm_num) (by norm_num) (by norm_num)
    push_cast at this
    exact this.trans_le (Real.rpow_le_rpow_of_exponent_ge (by norm_num) (by norm_num) (by norm_num))
  have h0 : (0:ℝ) < (1/2 : ℝ) ^ (1287/1000 + 1 : ℝ) := by positivity
  unfold Ep
  rw [show (16/10 - 11/10 : ℝ) = 1/2 by norm_num, lt_div_iff₀ h0]
  nlinarith

theorem EpH_le : Ep (15501/10000) (6778/10000) (3064/1000) (16/10) < -(656/100) := by
  have h0 : (0:ℝ) < (16/10 - 6778/10000 : ℝ) ^ (3064/1000 + 1 : ℝ) := Real.rpow_pos_of_pos (by norm_num) _
  have h1 : (16/10 - 6778/10000 : ℝ) ^ (3064/1000 + 1 : ℝ) ≤ 7234/10000 := by
    refine (Real.rpow_le_rpow_of_exponent_ge (by norm_num) (by norm_num) (?_ : (4:ℝ) ≤ _)).trans ?_
    · norm_num
    · have : (16/10 - 6778/10000 : ℝ) ^ (4:ℝ) = (16/10 - 6778/10000 : ℝ) ^ (4:ℕ) := by rw [← Real.rpow_natCast]; norm_num
      rw [this]; norm_num
  unfold Ep
  rw [div_lt_iff₀ h0]
  nlinarith

/-- In a clearly decelerated flow the two rates at 1.6 are positive and differ. -/
theorem rates_differ {nu u w m : ℝ} (hu : 0 < u) (hm : 0 < m) (hk : 26/1000 ≤ kap nu u w m) :
    0 < (VL nu (u, w, m, 16/10)).2 ∧ (VL nu (u, w, m, 16/10)).2 ≠ (VH nu (u, w, m, 16/10)).2 := by
  have hs := same_of_kap hu hm (.inr (by linarith : 35/10000 ≤ kap nu u w m))
  obtain ⟨eL, eH, vL, vH, h1, h2, h3, e1, e2, hr⟩ := rate_kap
  obtain ⟨rL, rH⟩ := hr nu u w m hu hm
  have a1 := ent_le h1
  have a4 := ent_ge (h1.trans h2) h3
  rw [← e1] at a1
  rw [← e2] at a4
  have p1 := EpL_neg
  have p2 := EpH_neg
  have q1 := EpL_ge
  have q2 := EpH_le
  have hpos : 0 < (VL nu (u, w, m, 16/10)).2 := by
    rw [rL]
    have := mul_le_mul h1.le hk (by norm_num) (by linarith)
    exact div_pos_of_neg_of_neg (by linarith) (mul_neg_of_neg_of_pos p1 hm)
  refine ⟨hpos, ?_⟩
  rw [rL, rH]
  generalize Ep (8234/10000) (11/10) (1287/1000) (16/10) = pL at *
  generalize Ep (15501/10000) (6778/10000) (3064/1000) (16/10) = pH at *
  generalize kap nu u w m = k at *
  intro he
  rw [div_eq_div_iff (mul_neg_of_neg_of_pos p1 hm).ne (mul_neg_of_neg_of_pos p2 hm).ne, ← mul_assoc, ← mul_assoc] at he
  have he := mul_right_cancel₀ hm.ne' he
  -- (eL k - vL) (-pH) = (eH k - vH) (-pL)
  have k0 : 0 < k := by linarith
  have b1 : 45/10 * k ≤ eL * k - vL := by
    have : 53/10 * k ≤ eL * k := mul_le_mul_of_nonneg_right h1.le k0.le
    linarith
  have b2 : eH * k - vH ≤ 531/100 * k := by
    have : eH * k ≤ 531/100 * k := mul_le_mul_of_nonneg_right h3.le k0.le
    linarith
  have c1 : 45/10 * k * (656/100) ≤ (eL * k - vL) * (-pH) := mul_le_mul b1 (by linarith) (by norm_num) (by linarith)
  have c2 : (eH * k - vH) * (-pL) ≤ 531/100 * k * (535/100) := mul_le_mul b2 (by linarith) (by linarith) (by linarith)
  nlinarith

end HeadBranch

open HeadBranch

/-! ### C95 -/

/-- The wall shear minus the pressure term of the layer at shape factor 1.6, over the edge velocity: `c_f / 2 - 2.6 delta_m u_e' / u_e`. -/
noncomputable def loadAtBranch (nu u du dm : ℝ) : ℝ := ludwiegTillman (max u (1/1000) * dm / nu) (16/10) / 2 - 26/10 * dm * du / max u (1/1000)

/-- **C95**, in full: two Head objects with the same viscosity in the same flow, holding solutions of their equations that start with the
same positive momentum thickness and the same shape factor, report the same thicknesses and shape factor all along. -/
def HeadDetermined : Prop :=
  ∀ (o1 o2 : Obj ℝ) (u du d1 h1 d2 h2 : ℝ → ℝ) (a b : ℝ), HeadSolutionOn o1 u du d1 h1 a b → HeadSolutionOn o2 u du d2 h2 a b → o1.nu = o2.nu →
    0 < o1.nu → ContinuousOn du (Icc a b) → 0 < d1 a → d1 a = d2 a → h1 a = h2 a →
    ∀ x ∈ Icc a b, o1.deltaM x = o2.deltaM x ∧ o1.shapeD x = o2.shapeD x ∧ o1.deltaD x = o2.deltaD x

private theorem HeadSolutionOn.flow {o : Obj ℝ} {u du dm h : ℝ → ℝ} {a b : ℝ} (S : HeadSolutionOn o u du dm h a b) (hn : 0 < o.nu)
    (hdu : ContinuousOn du (Icc a b)) : Flow o u du a b :=
  ⟨S.isHead, S.uE, S.duE, hn, fun x hx => (S.slope x hx).continuousAt.continuousWithinAt, hdu⟩

private theorem HeadSolutionOn.reports {o : Obj ℝ} {u du dm h : ℝ → ℝ} {a b : ℝ} (S : HeadSolutionOn o u du dm h a b) (x : ℝ) :
    o.deltaM x = .ok (dm x) ∧ o.shapeD x = .ok (h x) ∧ o.deltaD x = .ok (dm x * h x) := by
  refine ⟨?_, ?_, ?_⟩ <;>
    simp [Obj.deltaM, Obj.shapeD, Obj.deltaD, S.isHead, Obj.comp, Obj.state, S.sol, Bind.bind, Except.bind, Pure.pure, Except.pure]

private theorem same_reports {o1 o2 : Obj ℝ} {u du d1 h1 d2 h2 : ℝ → ℝ} {a b x : ℝ} (S1 : HeadSolutionOn o1 u du d1 h1 a b)
    (S2 : HeadSolutionOn o2 u du d2 h2 a b) (h : d1 x = d2 x ∧ h1 x = h2 x) :
    o1.deltaM x = o2.deltaM x ∧ o1.shapeD x = o2.shapeD x ∧ o1.deltaD x = o2.deltaD x := by
  obtain ⟨p1, p2, p3⟩ := S1.reports x
  obtain ⟨q1, q2, q3⟩ := S2.reports x
  rw [p1, p2, p3, q1, q2, q3, h.1, h.2]
  exact ⟨rfl, rfl, rfl⟩

/-- **C95**, what holds: this is so if, wherever the shape factor is 1.6, `c_f / 2 - 2.6 delta_m u_e' / u_e` is not between 0.0034 and 0.0035.
Missing: that narrow band, in which the equation may be left in two directions. -/
theorem head_determined_partial (o1 o2 : Obj ℝ) (u du d1 h1 d2 h2 : ℝ → ℝ) (a b : ℝ) (S1 : HeadSolutionOn o1 u du d1 h1 a b)
    (S2 : HeadSolutionOn o2 u du d2 h2 a b) (hnu : o1.nu = o2.nu) (hn : 0 < o1.nu) (hdu : ContinuousOn du (Icc a b)) (h0 : 0 < d1 a)
    (hd : d1 a = d2 a) (hh : h1 a = h2 a)
    (hb1 : ∀ x ∈ Icc a b, h1 x = 16/10 → loadAtBranch o1.nu (u x) (du x) (d1 x) ≤ 34/10000 ∨ 35/10000 ≤ loadAtBranch o1.nu (u x) (du x) (d1 x))
    (hb2 : ∀ x ∈ Icc a b, h2 x = 16/10 → loadAtBranch o1.nu (u x) (du x) (d2 x) ≤ 34/10000 ∨ 35/10000 ≤ loadAtBranch o1.nu (u x) (du x) (d2 x)) :
    ∀ x ∈ Icc a b, o1.deltaM x = o2.deltaM x ∧ o1.shapeD x = o2.shapeD x ∧ o1.deltaD x = o2.deltaD x := by
  obtain ⟨E1, f1, k1⟩ := S1.ode
  obtain ⟨E2, f2, k2⟩ := S2.ode
  have s1 := (S1.flow hn hdu).sol f1 S1.dmCont S1.hCont k1 h0
  have s2 := (S2.flow (hnu ▸ hn) hdu).sol f2 S2.dmCont S2.hCont k2 (hd ▸ h0)
  rw [← hnu] at s2
  intro x hx
  refine same_reports S1 S2 (unique s1 s2 (s1.next_off fun y hy he => ?_) (s2.next_off fun y hy he => ?_) hd hh x hx)
  · rw [P_eq he]
    exact same_of_kap (U_pos u y) (s1.pos y ⟨hy.1, hy.2.le⟩) (hb1 y ⟨hy.1, hy.2.le⟩ he)
  · rw [P_eq he]
    exact same_of_kap (U_pos u y) (s2.pos y ⟨hy.1, hy.2.le⟩) (hb2 y ⟨hy.1, hy.2.le⟩ he)

/-- **C95** for solutions that satisfy the equation at every point: no condition at 1.6 is needed. -/
theorem head_determined_smooth (o1 o2 : Obj ℝ) (u du d1 h1 d2 h2 : ℝ → ℝ) (a b : ℝ) (S1 : HeadSolutionOn o1 u du d1 h1 a b)
    (S2 : HeadSolutionOn o2 u du d2 h2 a b) (hnu : o1.nu = o2.nu) (hn : 0 < o1.nu) (hdu : ContinuousOn du (Icc a b)) (h0 : 0 < d1 a)
    (hd : d1 a = d2 a) (hh : h1 a = h2 a) (hb1 : ∀ x ∈ Icc a b, HeadOde o1 d1 h1 x) (hb2 : ∀ x ∈ Icc a b, HeadOde o2 d2 h2 x) :
    ∀ x ∈ Icc a b, o1.deltaM x = o2.deltaM x ∧ o1.shapeD x = o2.shapeD x ∧ o1.deltaD x = o2.deltaD x := by
  have s1 := (S1.flow hn hdu).sol finite_empty S1.dmCont S1.hCont (fun t ht _ => hb1 t ht) h0
  have s2 := (S2.flow (hnu ▸ hn) hdu).sol finite_empty S2.dmCont S2.hCont (fun t ht _ => hb2 t ht) (hd ▸ h0)
  rw [← hnu] at s2
  intro x hx
  exact same_reports S1 S2 (unique s1 s2 s1.next s2.next hd hh x hx)

/-! ### C96 -/

/-- **C96**: from every positive momentum thickness and every shape factor Head's equation has a solution over some distance, in every flow
with a continuous velocity gradient. The equation holds at every point but possibly the first, and there too unless the layer starts at 1.6. -/
theorem head_solvable (o : Obj ℝ) (u du : ℝ → ℝ) (a b m0 h0 : ℝ) (hc : o.cls = .head) (hn : 0 < o.nu) (huE : ∀ t, o.vel.uE t = .ok (u t))
    (hduE : ∀ t, o.vel.duE t = .ok (du t)) (hslope : ∀ x ∈ Icc a b, HasDerivAt u (du x) x) (hdu : ContinuousOn du (Icc a b)) (hab : a < b)
    (hm : 0 < m0) : ∃ c ∈ Ioc a b, ∃ dm h : ℝ → ℝ, dm a = m0 ∧ h a = h0 ∧
      HeadSolutionOn { o with sol := some fun t => [dm t, h t] } u du dm h a c ∧
      (∀ x ∈ Icc a c, (x ≠ a ∨ h0 ≠ 16/10) → HeadOde o dm h x) ∧ ∀ x ∈ Icc a c, 0 < dm x := by
  have F : Flow o u du a b := ⟨hc, huE, hduE, hn, fun x hx => (hslope x hx).continuousAt.continuousWithinAt, hdu⟩
  have mk : ∀ c ∈ Ioc a b, ∀ dm h : ℝ → ℝ, ContinuousOn dm (Icc a c) → ContinuousOn h (Icc a c) →
      (∀ x ∈ Icc a c, (x ≠ a ∨ h0 ≠ 16/10) → HeadOde o dm h x) →
      HeadSolutionOn { o with sol := some fun t => [dm t, h t] } u du dm h a c := fun c hc' dm h c1 c2 H =>
    ⟨hc, rfl, huE, hduE, fun x hx => hslope x ⟨hx.1, hx.2.trans hc'.2⟩, c1, c2, {a}, finite_singleton _, fun x hx hne => H x hx (.inl hne)⟩
  have low : (h0 < 16/10 ∨ (h0 = 16/10 ∧ (HeadBranch.VL o.nu (HeadBranch.U u a, du a, m0, 16/10)).2 < 0)) →
      ∃ c ∈ Ioc a b, ∃ dm h : ℝ → ℝ, dm a = m0 ∧ h a = h0 ∧
      HeadSolutionOn { o with sol := some fun t => [dm t, h t] } u du dm h a c ∧
      (∀ x ∈ Icc a c, (x ≠ a ∨ h0 ≠ 16/10) → HeadOde o dm h x) ∧ ∀ x ∈ Icc a c, 0 < dm x := fun hh => by
    obtain ⟨c, hc', dm, h, e1, e2, k1, k2, -⟩ := low_exists F hab hm hh
    refine ⟨c, hc', dm, h, e1, e2, mk c hc' dm h (fun t ht => ?_) (fun t ht => ?_) fun x hx _ => k1 x hx, fun x hx _ => k1 x hx, k2⟩
    · obtain ⟨p, q, -, hp, -⟩ := k1 t ht; exact hp.continuousAt.continuousWithinAt
    · obtain ⟨p, q, -, -, hq⟩ := k1 t ht; exact hq.continuousAt.continuousWithinAt
  have high : (16/10 < h0 ∨ (h0 = 16/10 ∧ 0 < (HeadBranch.VH o.nu (HeadBranch.U u a, du a, m0, 16/10)).2)) →
      ∃ c ∈ Ioc a b, ∃ dm h : ℝ → ℝ, dm a = m0 ∧ h a = h0 ∧
      HeadSolutionOn { o with sol := some fun t => [dm t, h t] } u du dm h a c ∧
      (∀ x ∈ Icc a c, (x ≠ a ∨ h0 ≠ 16/10) → HeadOde o dm h x) ∧ ∀ x ∈ Icc a c, 0 < dm x := fun hh => by
    obtain ⟨c, hc', dm, h, e1, e2, c1, c2, k1, k2, -⟩ := high_exists F hab hm hh
    exact ⟨c, hc', dm, h, e1, e2, mk c hc' dm h c1 c2 k1, k1, k2⟩
  rcases lt_trichotomy h0 (16/10) with hlt | heq | hgt
  · exact low (.inl hlt)
  · rcases le_or_gt 0 (HeadBranch.VL o.nu (HeadBranch.U u a, du a, m0, 16/10)).2 with hs | hs
    · exact high (.inr ⟨heq, jump (U_pos u a) hm hs⟩)
    · exact low (.inr ⟨heq, hs⟩)
  · exact high (.inl hgt)

/-- Where the layer is clearly decelerated, `-delta_m u_e' >= u_e / 100`, no pair of functions that satisfies the equation at every point has the
shape factor 1.6 before the end of the interval: the slope required at 1.6 differs from the slope required just above. -/
theorem head_no_smooth_passage (o : Obj ℝ) (u du dm h : ℝ → ℝ) (a b y : ℝ) (hc : o.cls = .head) (hn : 0 < o.nu) (huE : ∀ t, o.vel.uE t = .ok (u t))
    (hduE : ∀ t, o.vel.duE t = .ok (du t)) (hu : ContinuousOn u (Icc a b)) (hdu : ContinuousOn du (Icc a b))
    (hode : ∀ x ∈ Icc a b, HeadOde o dm h x) (h0 : 0 < dm a) (hy : y ∈ Ico a b) (hdec : max (u y) (1/1000) / 100 ≤ -(dm y * du y)) :
    h y ≠ 16/10 := by
  intro heq
  have F : Flow o u du a b := ⟨hc, huE, hduE, hn, hu, hdu⟩
  have S := F.sol finite_empty (fun t ht => by obtain ⟨p, q, -, hp, -⟩ := hode t ht; exact hp.continuousAt.continuousWithinAt)
    (fun t ht => by obtain ⟨p, q, -, -, hq⟩ := hode t ht; exact hq.continuousAt.continuousWithinAt) (fun t ht _ => hode t ht) h0
  have hy' : y ∈ Icc a b := ⟨hy.1, hy.2.le⟩
  have hm := S.pos y hy'
  have hU := U_pos u y
  have hk : 26/1000 ≤ HeadBranch.kap o.nu (HeadBranch.U u y) (du y) (dm y) := by
    have h1 := ludwieg_tillman_pos (HeadBranch.U u y * dm y / o.nu) (16/10) (by positivity)
    have h2 : 26/10 * dm y * du y / HeadBranch.U u y ≤ -(26/1000) := by
      rw [div_le_iff₀ hU]
      change HeadBranch.U u y / 100 ≤ _ at hdec
      linarith
    unfold HeadBranch.kap
    linarith
  obtain ⟨hr, hne⟩ := rates_differ hU hm hk
  rw [← P_eq heq] at hr hne
  have hlow := S.low y hy' (notMem_empty _) heq.le
  have hup := rises hlow hr
  rw [heq] at hup
  obtain ⟨z, hz, hsub⟩ := shrink hy.2 hup
  have hin : ∀ t ∈ Ioc y z, t ∈ Icc a b := fun t ht => ⟨hy.1.trans ht.1.le, ht.2.trans hz.2⟩
  have r1 := (S.right_rate (Φ := HeadBranch.VH o.nu) hy' hz.1 hz.2 (S.vh hy').continuousAt (fun t ht => S.mom t (hin t ht) (notMem_empty _))
    fun t ht => S.high t (hin t ht) (notMem_empty _) (hsub t ht)).2
  exact hne ((uniqueDiffOn_Ici y y self_mem_Ici).eq_deriv _ (hlow.hasDerivWithinAt (s := Ici y)) r1)

/-! ### The band -/

private theorem HeadSolutionOn.mono {o : Obj ℝ} {u du dm h : ℝ → ℝ} {a b c : ℝ} (S : HeadSolutionOn o u du dm h a b) (hc : c ≤ b) :
    HeadSolutionOn o u du dm h a c := by
  have hs : Icc a c ⊆ Icc a b := Icc_subset_Icc_right hc
  obtain ⟨E, hE, H⟩ := S.ode
  exact ⟨S.isHead, S.sol, S.uE, S.duE, fun x hx => S.slope x (hs hx), S.dmCont.mono hs, S.hCont.mono hs, E, hE, fun x hx => H x (hs hx)⟩

/-- The case that shows it: a uniform stream in which a layer of shape factor 1.6 has exactly the right momentum thickness. -/
theorem head_two_solutions : ∃ (o1 o2 : Obj ℝ) (d1 h1 d2 h2 : ℝ → ℝ) (c : ℝ), 0 < c ∧ HeadSolutionOn o1 (fun _ => 1) (fun _ => 0) d1 h1 0 c ∧
    HeadSolutionOn o2 (fun _ => 1) (fun _ => 0) d2 h2 0 c ∧ o1.nu = o2.nu ∧ 0 < o1.nu ∧ 0 < d1 0 ∧ d1 0 = d2 0 ∧ h1 0 = h2 0 ∧ h1 c < 16/10 ∧ 16/10 < h2 c := by
  -- the viscosity
  obtain ⟨eL, eH, vL, vH, a1, a2, a3, b1, b2, hr⟩ := rate_kap
  have hv : vH ≤ vL := by rw [b1, b2]; exact ent_anti (by linarith) a2.le
  have hvH : 0 < vH := by
    rw [b2]
    have : 0 < eH - 3 := by linarith
    positivity
  obtain ⟨k, hk1, hk2⟩ : ∃ k, vH < eH * k ∧ eL * k < vL := by
    have h1 : vH / eH < vL / eL := by
      rw [div_lt_div_iff₀ (by linarith) (by linarith)]
      nlinarith
    obtain ⟨k, hk1, hk2⟩ := exists_between h1
    rw [div_lt_iff₀ (by linarith)] at hk1
    rw [lt_div_iff₀ (by linarith)] at hk2
    exact ⟨k, by linarith, by linarith⟩
  have hk0 : 0 < k := by
    have : 0 < eH * k := hvH.trans hk1
    exact pos_of_mul_pos_right this (by linarith)
  obtain ⟨C, hC⟩ : ∃ C : ℝ, C = Real.exp (Real.log 10 * (678/1000 * (16/10))) := ⟨_, rfl⟩
  have hC0 : 0 < C := hC ▸ Real.exp_pos _
  obtain ⟨N, hN⟩ : ∃ N : ℝ, N = 246/1000 / (2 * k * C) := ⟨_, rfl⟩
  have hN0 : 0 < N := by rw [hN]; positivity
  obtain ⟨nu, hnu⟩ : ∃ nu : ℝ, nu = (N ^ ((268/1000 : ℝ)⁻¹))⁻¹ := ⟨_, rfl⟩
  have hnu0 : 0 < nu := by rw [hnu]; exact inv_pos.2 (Real.rpow_pos_of_pos hN0 _)
  have hkap : HeadBranch.kap nu 1 0 1 = k := by
    unfold HeadBranch.kap
    rw [cf_eq, HeadBranch.cf, ← hC]
    have : (1 * 1 / nu : ℝ) = N ^ ((268/1000 : ℝ)⁻¹) := by rw [hnu]; simp
    rw [this, Real.rpow_inv_rpow hN0.le (by norm_num), hN]
    field_simp
    ring
  let o : Obj ℝ := ⟨.head, nu, ⟨some (.fn fun _ => .ok 1), some (.fn fun _ => .ok 0), none⟩, .manual 0 1 1 1 1, [], none, none⟩
  have F : Flow o (fun _ => 1) (fun _ => 0) 0 1 := ⟨rfl, fun t => by simp [o, VelState.uE, VelState.rawU, callOpt, Vel.call],
    fun t => by simp [o, VelState.duE, VelState.rawDu, callOpt, Vel.call], hnu0, continuousOn_const, continuousOn_const⟩
  have hU : HeadBranch.U (fun _ => 1) 0 = 1 := by simp only [HeadBranch.U]; norm_num
  obtain ⟨rL, rH⟩ := hr nu 1 0 1 one_pos one_pos
  rw [hkap, mul_one] at rL rH
  have dL : (HeadBranch.VL o.nu (HeadBranch.U (fun _ => 1) 0, 0, 1, 16/10)).2 < 0 := by
    rw [hU]; change (HeadBranch.VL nu (1, 0, 1, 16/10)).2 < 0
    rw [rL]; exact div_neg_of_pos_of_neg (by linarith) EpL_neg
  have dH : 0 < (HeadBranch.VH o.nu (HeadBranch.U (fun _ => 1) 0, 0, 1, 16/10)).2 := by
    rw [hU]; change 0 < (HeadBranch.VH nu (1, 0, 1, 16/10)).2
    rw [rH]; exact div_pos_of_neg_of_neg (by linarith) EpH_neg
  obtain ⟨c1, hc1, d1, h1, e1, e2, k1, -, l1⟩ := low_exists F one_pos one_pos (.inr ⟨rfl, dL⟩)
  obtain ⟨c2, hc2, d2, h2, e3, e4, q1, q2, k2, -, l2⟩ := high_exists F one_pos one_pos (.inr ⟨rfl, dH⟩)
  have hc : 0 < min c1 c2 := lt_min hc1.1 hc2.1
  refine ⟨{ o with sol := some fun t => [d1 t, h1 t] }, { o with sol := some fun t => [d2 t, h2 t] }, d1, h1, d2, h2, min c1 c2, hc,
    HeadSolutionOn.mono (b := c1) ?_ (min_le_left _ _), HeadSolutionOn.mono (b := c2) ?_ (min_le_right _ _), rfl, hnu0, by rw [e1]; exact one_pos,
    by rw [e1, e3], by rw [e2, e4], l1 _ ⟨hc, min_le_left _ _⟩, l2 _ ⟨hc, min_le_right _ _⟩⟩
  · exact ⟨rfl, rfl, F.uE, F.duE, fun x _ => hasDerivAt_const x _,
      fun t ht => by obtain ⟨p, q, -, hp, -⟩ := k1 t ht; exact hp.continuousAt.continuousWithinAt,
      fun t ht => by obtain ⟨p, q, -, -, hq⟩ := k1 t ht; exact hq.continuousAt.continuousWithinAt, ∅, finite_empty, fun x hx _ => k1 x hx⟩
  · exact ⟨rfl, rfl, F.uE, F.duE, fun x _ => hasDerivAt_const x _, q1, q2, {0}, finite_singleton _, fun x hx hne => k2 x hx (.inl hne)⟩

/-- **C95** is false of the code. -/
theorem head_not_determined : ¬ HeadDetermined := fun H => by
  obtain ⟨o1, o2, d1, h1, d2, h2, c, hc, S1, S2, hnu, hn, h0, hd, hh, l1, l2⟩ := head_two_solutions
  have := (H o1 o2 _ _ d1 h1 d2 h2 0 c S1 S2 hnu hn continuousOn_const h0 hd hh c ⟨hc.le, le_rfl⟩).2.1
  rw [(S1.reports c).2.1, (S2.reports c).2.1] at this
  have := Except.ok.inj this
  linarith

/-- Non-vacuity of `head_determined_partial` and `head_solvable`: the decelerated flow `u_e = 2 - x`, a layer that starts at 1.6 and leaves it
upwards. -/
example : ∃ (o : Obj ℝ) (dm h : ℝ → ℝ) (c : ℝ), 0 < c ∧ HeadSolutionOn o (fun x => 2 - x) (fun _ => -1) dm h 0 c ∧ 0 < o.nu ∧ 0 < dm 0 ∧ h 0 = 16/10 ∧
    ∀ x ∈ Icc 0 c, h x = 16/10 → 35/10000 ≤ loadAtBranch o.nu (2 - x) (-1) (dm x) := by
  let o : Obj ℝ := ⟨.head, 1, ⟨some (.fn fun x => .ok (2 - x)), some (.fn fun _ => .ok (-1)), none⟩, .manual 0 1 1 1 1, [], none, none⟩
  obtain ⟨c, hc, dm, h, e1, e2, S, -, hp⟩ := head_solvable o (fun x => 2 - x) (fun _ => -1) 0 1 1 (16/10) rfl one_pos
    (fun t => by simp [o, VelState.uE, VelState.rawU, callOpt, Vel.call]) (fun t => by simp [o, VelState.duE, VelState.rawDu, callOpt, Vel.call])
    (fun x _ => by simpa using (hasDerivAt_id x).const_sub 2) continuousOn_const one_pos one_pos
  obtain ⟨z, hz, hsub⟩ := shrink (c := c) hc.1 (p := fun t => 1/2 < dm t) (by
    have := (S.dmCont 0 ⟨le_rfl, hc.1.le⟩).mono (Ioc_subset_Icc_self)
    have := this.tendsto.eventually_const_lt (show 1/2 < dm 0 by rw [e1]; norm_num)
    rwa [nhdsWithin_Ioc_eq_nhdsGT hc.1] at this)
  refine ⟨_, dm, h, z, hz.1, S.mono hz.2, one_pos, by rw [e1]; exact one_pos, e2, fun x hx _ => ?_⟩
  have hm : 1/2 < dm x := by
    rcases eq_or_lt_of_le hx.1 with h0 | h0
    · rw [← h0, e1]; norm_num
    · exact hsub x ⟨h0, hx.2⟩
  have hx1 : x ≤ 1 := hx.2.trans (hz.2.trans hc.2)
  have hU : max (2 - x) (1/1000) = 2 - x := max_eq_left (by linarith)
  unfold loadAtBranch
  rw [hU]
  have h1 := ludwieg_tillman_pos ((2 - x) * dm x / 1) (16/10) (by
    have : 0 < 2 - x := by linarith
    positivity)
  have h2 : 26/10 * dm x * (-1) / (2 - x) ≤ -(1/10) := by
    rw [div_le_iff₀ (by linarith)]
    linarith [hx.1]
  show _ ≤ ludwiegTillman ((2 - x) * dm x / 1) (16/10) / 2 - _
  linarith

/-- Non-vacuity of `head_no_smooth_passage`: its hypotheses but the last conclusion's negation hold for a layer that starts at 1.5 in that flow. -/
example : ∃ (o : Obj ℝ) (dm h : ℝ → ℝ) (c : ℝ), 0 < c ∧ o.cls = .head ∧ 0 < o.nu ∧ (∀ t, o.vel.uE t = .ok (2 - t)) ∧ (∀ t, o.vel.duE t = .ok (-1)) ∧
    (∀ x ∈ Icc 0 c, HeadOde o dm h x) ∧ 0 < dm 0 ∧ max ((2:ℝ) - 0) (1/1000) / 100 ≤ -(dm 0 * -1) := by
  let o : Obj ℝ := ⟨.head, 1, ⟨some (.fn fun x => .ok (2 - x)), some (.fn fun _ => .ok (-1)), none⟩, .manual 0 1 1 1 1, [], none, none⟩
  have h1 : ∀ t, o.vel.uE t = .ok (2 - t) := fun t => by simp [o, VelState.uE, VelState.rawU, callOpt, Vel.call]
  have h2 : ∀ t, o.vel.duE t = .ok (-1) := fun t => by simp [o, VelState.duE, VelState.rawDu, callOpt, Vel.call]
  obtain ⟨c, hc, dm, h, e1, e2, -, H, hp⟩ := head_solvable o (fun x => 2 - x) (fun _ => -1) 0 1 1 (15/10) rfl one_pos h1 h2
    (fun x _ => by simpa using (hasDerivAt_id x).const_sub 2) continuousOn_const one_pos one_pos
  refine ⟨o, dm, h, c, hc.1, rfl, one_pos, h1, h2, fun x hx => H x hx (.inr (by norm_num)), by rw [e1]; exact one_pos, ?_⟩
  rw [e1]; norm_num

end IBL
