import Mathlib.Order.Zorn
import Mathlib.Topology.MetricSpace.Lipschitz
import Verif.Lemmas.Barrier
import Verif.Props.HeadUnique

/-!
C121: Head's layer goes on until a given shape factor is reached or the flow ends.
-/

set_option linter.unusedSectionVars false

namespace IBL
open Set Filter Topology

namespace HeadBranch

theorem lip_off {F r : ℝ → ℝ} {S : Set ℝ} {a b K : ℝ} (hS : S.Finite) (hc : ContinuousOn F (Icc a b))
    (hF : ∀ x ∈ Icc a b, x ∉ S → HasDerivAt F (r x) x) (hr : ∀ x ∈ Icc a b, x ∉ S → |r x| ≤ K) {s t : ℝ} (hs : s ∈ Icc a b) (ht : t ∈ Icc a b)
    (hst : s ≤ t) : |F t - F s| ≤ K * (t - s) := by
  have hsub : Icc s t ⊆ Icc a b := Icc_subset_Icc hs.1 ht.2
  have hl : ∀ x, HasDerivAt (fun x => K * (x - s)) K x := fun x => by simpa using ((hasDerivAt_id x).sub_const s).const_mul K
  have h1 := barrier_off (F := fun x => F x + K * (x - s)) (r := fun x => r x + K) (a := s) (b := t) (c := F s) (lo := F s - 1) hS (by linarith)
    ((hc.mono hsub).add fun x _ => (hl x).continuousAt.continuousWithinAt) (fun x hx hn => (hF x (hsub hx) hn).add (hl x)) (by simp)
    (fun x hx hn _ _ => by have := (abs_le.1 (hr x (hsub hx) hn)).1; linarith) t ⟨hst, le_rfl⟩
  have h2 := barrier_above_off (F := fun x => F x - K * (x - s)) (r := fun x => r x - K) (a := s) (b := t) (c := F s) (hi := F s + 1) hS (by linarith)
    ((hc.mono hsub).sub fun x _ => (hl x).continuousAt.continuousWithinAt) (fun x hx hn => (hF x (hsub hx) hn).sub (hl x)) (by simp)
    (fun x hx hn _ _ => by have := (abs_le.1 (hr x (hsub hx) hn)).2; linarith) t ⟨hst, le_rfl⟩
  rw [abs_le]
  constructor <;> linarith

theorem HeadOde.congr {o : Obj ℝ} {d1 h1 d2 h2 : ℝ → ℝ} {t : ℝ} (hd : d2 =ᶠ[𝓝 t] d1) (hh : h2 =ᶠ[𝓝 t] h1) (H : HeadOde o d1 h1 t) :
    HeadOde o d2 h2 t := by
  obtain ⟨p, q, e, hp, hq⟩ := H
  exact ⟨p, q, by rw [hd.eq_of_nhds, hh.eq_of_nhds]; exact e, hp.congr_of_eventuallyEq hd, hq.congr_of_eventuallyEq hh⟩

theorem Flow.mono {o : Obj ℝ} {u du : ℝ → ℝ} {a b c d : ℝ} (F : Flow o u du a b) (hc : a ≤ c) (hd : d ≤ b) : Flow o u du c d :=
  ⟨F.isHead, F.uE, F.duE, F.nu, F.cu.mono (Icc_subset_Icc hc hd), F.cdu.mono (Icc_subset_Icc hc hd)⟩

/-- One more piece. -/
theorem piece {o : Obj ℝ} {u du : ℝ → ℝ} {a b m0 h0 H : ℝ} (F : Flow o u du a b) (hab : a < b) (hm : 0 < m0) (hH : h0 < H) :
    ∃ c ∈ Ioc a b, ∃ dm h : ℝ → ℝ, dm a = m0 ∧ h a = h0 ∧ ContinuousOn dm (Icc a c) ∧ ContinuousOn h (Icc a c) ∧
      (∀ t ∈ Ioc a c, HeadOde o dm h t) ∧ (∀ t ∈ Icc a c, h t < H) ∧ (∀ t ∈ Ioc a c, h t ≠ 16/10) ∧
      (h0 = 16/10 → (VL o.nu (U u a, du a, m0, 16/10)).2 < 0 → ∀ t ∈ Ioc a c, h t < 16/10) := by
  have main : ∃ c ∈ Ioc a b, ∃ dm h : ℝ → ℝ, dm a = m0 ∧ h a = h0 ∧ ContinuousOn dm (Icc a c) ∧ ContinuousOn h (Icc a c) ∧
      (∀ t ∈ Ioc a c, HeadOde o dm h t) ∧ (∀ t ∈ Ioc a c, h t ≠ 16/10) ∧
      (h0 = 16/10 → (VL o.nu (U u a, du a, m0, 16/10)).2 < 0 → ∀ t ∈ Ioc a c, h t < 16/10) := by
    by_cases hl : h0 < 16/10 ∨ (h0 = 16/10 ∧ (VL o.nu (U u a, du a, m0, 16/10)).2 < 0)
    · obtain ⟨c, hc, dm, h, e1, e2, k1, -, k3⟩ := low_exists F hab hm hl
      exact ⟨c, hc, dm, h, e1, e2, fun t ht => by obtain ⟨p, q, -, hp, -⟩ := k1 t ht; exact hp.continuousAt.continuousWithinAt,
        fun t ht => by obtain ⟨p, q, -, -, hq⟩ := k1 t ht; exact hq.continuousAt.continuousWithinAt, fun t ht => k1 t ⟨ht.1.le, ht.2⟩,
        fun t ht => (k3 t ht).ne, fun _ _ => k3⟩
    · push Not at hl
      have hh : 16/10 < h0 ∨ (h0 = 16/10 ∧ 0 < (VH o.nu (U u a, du a, m0, 16/10)).2) := by
        rcases eq_or_lt_of_le hl.1 with e | e
        · exact .inr ⟨e.symm, jump (U_pos u a) hm (hl.2 e.symm)⟩
        · exact .inl e
      obtain ⟨c, hc, dm, h, e1, e2, c1, c2, k1, -, k3⟩ := high_exists F hab hm hh
      exact ⟨c, hc, dm, h, e1, e2, c1, c2, fun t ht => k1 t ⟨ht.1.le, ht.2⟩ (.inl ht.1.ne'), fun t ht => (k3 t ht).ne',
        fun e hv => absurd (hl.2 e) (not_le.2 hv)⟩
  obtain ⟨c, hc, dm, h, e1, e2, c1, c2, k1, k2, k3⟩ := main
  have hev : ∀ᶠ t in 𝓝[>] a, h t < H := by
    have := (c2 a ⟨le_rfl, hc.1.le⟩).mono (Ioc_subset_Icc_self)
    have := this.tendsto.eventually_lt_const (show h a < H by rw [e2]; exact hH)
    rwa [nhdsWithin_Ioc_eq_nhdsGT hc.1] at this
  obtain ⟨z, hz, hsub⟩ := shrink hc.1 hev
  have hs : Icc a z ⊆ Icc a c := Icc_subset_Icc_right hz.2
  refine ⟨z, ⟨hz.1, hz.2.trans hc.2⟩, dm, h, e1, e2, c1.mono hs, c2.mono hs, fun t ht => k1 t ⟨ht.1, ht.2.trans hz.2⟩, fun t ht => ?_,
    fun t ht => k2 t ⟨ht.1, ht.2.trans hz.2⟩, fun x1 x2 t ht => k3 x1 x2 t ⟨ht.1, ht.2.trans hz.2⟩⟩
  rcases eq_or_lt_of_le ht.1 with e | e
  · rw [← e, e2]; exact hH
  · exact hsub t ⟨e, ht.2⟩

/-! ### Layers followed for a while -/

/-- A layer together with the place up to which it has been followed. -/
structure Part where
  c : ℝ
  dm : ℝ → ℝ
  h : ℝ → ℝ

/-- What the layers followed below have in common: at 1.6 they take the low branch where it leads down. -/
structure Good (o : Obj ℝ) (u du : ℝ → ℝ) (a b m0 h0 H : ℝ) (p : Part) : Prop where
  mem : p.c ∈ Icc a b
  m0 : p.dm a = m0
  h0 : p.h a = h0
  cdm : ContinuousOn p.dm (Icc a p.c)
  ch : ContinuousOn p.h (Icc a p.c)
  ode : ∃ E : Set ℝ, E.Finite ∧ ∀ t ∈ Ioo a p.c, t ∉ E → HeadOde o p.dm p.h t
  below : ∀ t ∈ Ico a p.c, p.h t < H
  top : p.h p.c ≤ H
  falls : ∀ t ∈ Ico a p.c, p.h t = 16/10 → (VL o.nu (U u t, du t, p.dm t, 16/10)).2 < 0 → ∀ᶠ s in 𝓝[>] t, p.h s < 16/10

section good
variable {o : Obj ℝ} {u du : ℝ → ℝ} {a b m0 h0 H : ℝ} {p : Part}

theorem Good.le (G : Good o u du a b m0 h0 H p) {t : ℝ} (ht : t ∈ Icc a p.c) : p.h t ≤ H := by
  rcases eq_or_lt_of_le ht.2 with e | e
  · rw [e]; exact G.top
  · exact (G.below t ⟨ht.1, e⟩).le

theorem Good.congr (G : Good o u du a b m0 h0 H p) {dm h : ℝ → ℝ} (hd : EqOn dm p.dm (Icc a p.c)) (hh : EqOn h p.h (Icc a p.c)) :
    Good o u du a b m0 h0 H ⟨p.c, dm, h⟩ := by
  have ha : a ∈ Icc a p.c := ⟨le_rfl, G.mem.1⟩
  obtain ⟨E, hE, hode⟩ := G.ode
  refine ⟨G.mem, (hd ha).trans G.m0, (hh ha).trans G.h0, G.cdm.congr hd, G.ch.congr hh, ⟨E, hE, fun t ht hn => ?_⟩, fun t ht => ?_, ?_,
    fun t ht h1 h2 => ?_⟩
  · have hn' : Icc a p.c ∈ 𝓝 t := Icc_mem_nhds ht.1 ht.2
    exact HeadOde.congr (hd.eventuallyEq_of_mem hn') (hh.eventuallyEq_of_mem hn') (hode t ht hn)
  · show h t < H
    rw [hh ⟨ht.1, le_of_lt ht.2⟩]; exact G.below t ht
  · show h p.c ≤ H
    rw [hh ⟨G.mem.1, le_rfl⟩]; exact G.top
  · change h t = 16/10 at h1
    change (VL o.nu (U u t, du t, dm t, 16/10)).2 < 0 at h2
    change t ∈ Ico a p.c at ht
    rw [hh ⟨ht.1, ht.2.le⟩] at h1
    rw [hd ⟨ht.1, ht.2.le⟩] at h2
    filter_upwards [G.falls t ht h1 h2, Ioc_mem_nhdsGT ht.2] with s hs hI
    show h s < 16/10
    rw [hh ⟨ht.1.trans hI.1.le, hI.2⟩]; exact hs

theorem Good.mono (G : Good o u du a b m0 h0 H p) {c : ℝ} (hc : c ∈ Icc a p.c) : Good o u du a b m0 h0 H ⟨c, p.dm, p.h⟩ := by
  have hs : Icc a c ⊆ Icc a p.c := Icc_subset_Icc_right hc.2
  obtain ⟨E, hE, hode⟩ := G.ode
  exact ⟨⟨hc.1, hc.2.trans G.mem.2⟩, G.m0, G.h0, G.cdm.mono hs, G.ch.mono hs, ⟨E, hE, fun t ht hn => hode t ⟨ht.1, ht.2.trans_le hc.2⟩ hn⟩,
    fun t ht => G.below t ⟨ht.1, ht.2.trans_le hc.2⟩, G.le hc, fun t ht => G.falls t ⟨ht.1, ht.2.trans_le hc.2⟩⟩

theorem Good.sol (F : Flow o u du a b) (hm : 0 < m0) (G : Good o u du a b m0 h0 H p) : ∃ E, Sol o.nu u du p.dm p.h a p.c E := by
  obtain ⟨E, hE, hode⟩ := G.ode
  refine ⟨E ∪ {a, p.c}, (F.mono le_rfl G.mem.2).sol (hE.union (by simp)) G.cdm G.ch (fun t ht hn => ?_) (by rw [G.m0]; exact hm)⟩
  simp only [mem_union, mem_insert_iff, mem_singleton_iff, not_or] at hn
  exact hode t ⟨lt_of_le_of_ne ht.1 (Ne.symm hn.2.1), lt_of_le_of_ne ht.2 hn.2.2⟩ hn.1

theorem start (hab : a ≤ b) (hH : h0 < H) : Good o u du a b m0 h0 H ⟨a, fun _ => m0, fun _ => h0⟩ :=
  ⟨⟨le_rfl, hab⟩, rfl, rfl, continuousOn_const, continuousOn_const, ⟨∅, finite_empty, fun t ht => absurd ht.1 (not_lt.2 ht.2.le)⟩,
    fun _ _ => hH, hH.le, fun _ ht => absurd ht.1 (not_le.2 ht.2)⟩

/-- A layer that has not reached the level nor the end can be followed further. -/
theorem Good.extend (F : Flow o u du a b) (hm : 0 < m0) (G : Good o u du a b m0 h0 H p) (hb : p.c < b) (hH : p.h p.c < H) :
    ∃ q, Good o u du a b m0 h0 H q ∧ p.c < q.c ∧ EqOn p.dm q.dm (Icc a p.c) ∧ EqOn p.h q.h (Icc a p.c) := by
  obtain ⟨E0, S⟩ := G.sol F hm
  obtain ⟨c, hc, d2, h2, e1, e2, c1, c2, k1, k2, k3, k4⟩ := piece (F.mono G.mem.1 le_rfl) hb (S.pos p.c ⟨G.mem.1, le_rfl⟩) hH
  obtain ⟨E, hE, hode⟩ := G.ode
  let gd : ℝ → ℝ := fun t => if t ≤ p.c then p.dm t else d2 t
  let gh : ℝ → ℝ := fun t => if t ≤ p.c then p.h t else h2 t
  have ld : ∀ t ≤ p.c, gd t = p.dm t := fun t ht => if_pos ht
  have lh : ∀ t ≤ p.c, gh t = p.h t := fun t ht => if_pos ht
  have rd : ∀ t, p.c ≤ t → gd t = d2 t := fun t ht => by
    rcases eq_or_lt_of_le ht with e | e
    · rw [← e, ld _ le_rfl, e1]
    · exact if_neg (not_le.2 e)
  have rh : ∀ t, p.c ≤ t → gh t = h2 t := fun t ht => by
    rcases eq_or_lt_of_le ht with e | e
    · rw [← e, lh _ le_rfl, e2]
    · exact if_neg (not_le.2 e)
  have hun : Icc a c = Icc a p.c ∪ Icc p.c c := (Icc_union_Icc_eq_Icc G.mem.1 hc.1.le).symm
  refine ⟨⟨c, gd, gh⟩, ⟨⟨G.mem.1.trans hc.1.le, hc.2⟩, (ld _ G.mem.1).trans G.m0, (lh _ G.mem.1).trans G.h0, ?_, ?_, ⟨E ∪ {p.c}, hE.union (by simp), ?_⟩,
    ?_, ?_, ?_⟩, hc.1, fun t ht => (ld t ht.2).symm, fun t ht => (lh t ht.2).symm⟩
  · show ContinuousOn gd (Icc a c)
    rw [hun]
    exact (G.cdm.congr fun t ht => ld t ht.2).union_of_isClosed (c1.congr fun t ht => rd t ht.1) isClosed_Icc isClosed_Icc
  · show ContinuousOn gh (Icc a c)
    rw [hun]
    exact (G.ch.congr fun t ht => lh t ht.2).union_of_isClosed (c2.congr fun t ht => rh t ht.1) isClosed_Icc isClosed_Icc
  · intro t ht hn
    simp only [mem_union, mem_singleton_iff, not_or] at hn
    rcases lt_or_gt_of_ne hn.2 with hl | hg
    · have hn' : Iio p.c ∈ 𝓝 t := Iio_mem_nhds hl
      exact HeadOde.congr (eventuallyEq_of_mem hn' fun s hs => ld s (le_of_lt hs)) (eventuallyEq_of_mem hn' fun s hs => lh s (le_of_lt hs))
        (hode t ⟨ht.1, hl⟩ hn.1)
    · have hn' : Ioi p.c ∈ 𝓝 t := Ioi_mem_nhds hg
      exact HeadOde.congr (eventuallyEq_of_mem hn' fun s hs => rd s (le_of_lt hs)) (eventuallyEq_of_mem hn' fun s hs => rh s (le_of_lt hs))
        (k1 t ⟨hg, ht.2.le⟩)
  · intro t ht
    show gh t < H
    rcases le_or_gt t p.c with hl | hg
    · rw [lh t hl]
      rcases eq_or_lt_of_le hl with e | e
      · rw [e]; exact hH
      · exact G.below t ⟨ht.1, e⟩
    · rw [rh t hg.le]; exact k2 t ⟨hg.le, ht.2.le⟩
  · show gh c ≤ H
    rw [rh c hc.1.le]; exact (k2 c ⟨hc.1.le, le_rfl⟩).le
  · intro t ht x1 x2
    change gh t = 16/10 at x1
    change (VL o.nu (U u t, du t, gd t, 16/10)).2 < 0 at x2
    show ∀ᶠ s in 𝓝[>] t, gh s < 16/10
    rcases lt_trichotomy t p.c with hl | he | hg
    · rw [lh t hl.le] at x1
      rw [ld t hl.le] at x2
      filter_upwards [G.falls t ⟨ht.1, hl⟩ x1 x2, Ioc_mem_nhdsGT hl] with s hs hI
      rw [lh s hI.2]; exact hs
    · subst he
      rw [lh _ le_rfl] at x1
      rw [ld _ le_rfl] at x2
      filter_upwards [Ioc_mem_nhdsGT hc.1] with s hs
      rw [rh s hs.1.le]; exact k4 x1 x2 s hs
    · rw [rh t hg.le] at x1
      exact absurd x1 (k3 t ⟨hg, ht.2.le⟩)

/-! ### Bounds that do not depend on how far the layer has been followed -/

theorem cf_le {nu v m x lo : ℝ} (hn : 0 < nu) (hv : 1/1000 ≤ v) (hlo : 0 < lo) (hm : lo ≤ m) (hx : 0 ≤ x) :
    cf nu v m x ≤ 246/1000 / (1/1000 * lo / nu) ^ (268/1000 : ℝ) := by
  unfold cf
  have h1 : (1/1000 * lo / nu) ^ (268/1000 : ℝ) ≤ (v * m / nu) ^ (268/1000 : ℝ) :=
    Real.rpow_le_rpow (by positivity) (div_le_div_of_nonneg_right (mul_le_mul hv hm hlo.le (by linarith)) hn.le) (by norm_num)
  have h2 : 1 ≤ Real.exp (Real.log 10 * (678/1000 * x)) :=
    Real.one_le_exp (mul_nonneg (Real.log_nonneg (by norm_num)) (by linarith))
  have h0 : 0 < (1/1000 * lo / nu) ^ (268/1000 : ℝ) := Real.rpow_pos_of_pos (by positivity) _
  refine div_le_div_of_nonneg_left (by norm_num) h0 ?_
  nlinarith

theorem cf_pos {nu v m x : ℝ} (hn : 0 < nu) (hv : 0 < v) (hm : 0 < m) : 0 < cf nu v m x := by
  unfold cf
  have : 0 < (v * m / nu) ^ (268/1000 : ℝ) := Real.rpow_pos_of_pos (by positivity) _
  positivity

theorem bounds (F : Flow o u du a b) (hab : a ≤ b) (hm : 0 < m0) : ∃ lo hi K : ℝ, 0 < lo ∧ 0 ≤ K ∧ ∀ p, Good o u du a b m0 h0 H p →
    (∀ t ∈ Icc a p.c, p.dm t ∈ Icc lo hi) ∧ ∀ s ∈ Icc a p.c, ∀ t ∈ Icc a p.c, s ≤ t →
      |p.dm t - p.dm s| ≤ K * (t - s) ∧ |p.h t - p.h s| ≤ K * (t - s) := by
  obtain ⟨D, hD⟩ := isCompact_Icc.exists_bound_of_continuousOn F.cdu
  obtain ⟨W, hW⟩ := isCompact_Icc.exists_bound_of_continuousOn (ContinuousOn.sup F.cu (continuousOn_const (c := (1/1000 : ℝ))))
  have hD0 : 0 ≤ D := (norm_nonneg _).trans (hD a ⟨le_rfl, hab⟩)
  obtain ⟨H', hH'⟩ : ∃ H', H' = max H (111/100) := ⟨_, rfl⟩
  have hH0 : 0 < H' := hH' ▸ lt_of_lt_of_le (by norm_num) (le_max_right _ _)
  obtain ⟨k, hk⟩ : ∃ k, k = (2 + H') * (D * 1000) := ⟨_, rfl⟩
  have hk0 : 0 ≤ k := by rw [hk]; positivity
  obtain ⟨lo, hlo⟩ : ∃ lo, lo = m0 / Real.exp (k * (b - a)) := ⟨_, rfl⟩
  have hlo0 : 0 < lo := by rw [hlo]; positivity
  obtain ⟨C, hC⟩ : ∃ C, C = 246/1000 / (1/1000 * lo / o.nu) ^ (268/1000 : ℝ) := ⟨_, rfl⟩
  have hnu := F.nu
  have hC0 : 0 < C := by rw [hC]; positivity
  obtain ⟨hi, hhi⟩ : ∃ hi, hi = (m0 + C) * Real.exp ((k + 1) * (b - a)) := ⟨_, rfl⟩
  let B : Set (ℝ × ℝ × ℝ × ℝ) := Icc (1/1000) W ×ˢ Icc (-D) D ×ˢ Icc lo hi ×ˢ Icc (111/100) H'
  have hB : IsCompact B := isCompact_Icc.prod (isCompact_Icc.prod (isCompact_Icc.prod isCompact_Icc))
  have cont : ∀ Q ∈ B, ContinuousAt (VL o.nu) Q ∧ ContinuousAt (VH o.nu) Q := fun Q hQ => by
    obtain ⟨q1, q2, q3, q4⟩ := hQ
    have h1 : 0 < Q.1 := lt_of_lt_of_le (by norm_num) q1.1
    have h2 : 0 < Q.2.2.1 := lt_of_lt_of_le hlo0 q3.1
    exact ⟨(VL_contDiff hnu h1 h2 q4.1).continuousAt, (VH_contDiff hnu h1 h2 q4.1).continuousAt⟩
  obtain ⟨KL, hKL⟩ := hB.exists_bound_of_continuousOn fun Q hQ => (cont Q hQ).1.continuousWithinAt
  obtain ⟨KH, hKH⟩ := hB.exists_bound_of_continuousOn fun Q hQ => (cont Q hQ).2.continuousWithinAt
  refine ⟨lo, hi, max 0 (max KL KH), hlo0, le_max_left _ _, fun p G => ?_⟩
  obtain ⟨E, S⟩ := G.sol F hm
  have hsub : Icc a p.c ⊆ Icc a b := Icc_subset_Icc_right G.mem.2
  have exps : ∀ κ t : ℝ, HasDerivAt (fun t => Real.exp (κ * (t - a))) (κ * Real.exp (κ * (t - a))) t := fun κ t => by
    have h1 : HasDerivAt (fun t => κ * (t - a)) (κ * 1) t := ((hasDerivAt_id t).sub_const a).const_mul κ
    have := h1.exp
    rw [mul_one, mul_comm] at this
    exact this
  have clampH : ∀ t ∈ Icc a p.c, max (p.h t) (111/100) ≤ H' := fun t ht => by rw [hH']; exact max_le_max (G.le ht) le_rfl
  have grow : ∀ t ∈ Icc a p.c, |(2 + max (p.h t) (111/100)) * du t / U u t| ≤ k := fun t ht => by
    have h1 : 0 ≤ 2 + max (p.h t) (111/100) := by linarith [le_max_right (p.h t) (111/100)]
    have h2 := clampH t ht
    have h3 : 1/1000 ≤ U u t := le_max_right _ _
    have h4 : |du t| ≤ D := hD t (hsub ht)
    have hU := U_pos u t
    rw [abs_div, abs_mul, abs_of_nonneg h1, abs_of_pos hU, mul_div_assoc, hk]
    refine mul_le_mul (by linarith) ?_ (by positivity) (by linarith)
    rw [div_le_iff₀ hU]
    nlinarith
  have low : ∀ t ∈ Icc a p.c, lo ≤ p.dm t := fun t ht => by
    have := barrier_off (F := fun t => p.dm t * Real.exp (k * (t - a)))
      (r := fun t => (VL o.nu (P u du p.dm p.h t)).1 * Real.exp (k * (t - a)) + p.dm t * (k * Real.exp (k * (t - a)))) (a := a) (b := p.c)
      (c := m0) (lo := m0 - 1) S.fin (by linarith) (S.cdm.mul fun t _ => (exps k t).continuousAt.continuousWithinAt)
      (fun t ht hn => (S.mom t ht hn).mul (exps k t)) (by simp [G.m0]) (fun t ht hn _ _ => by
        have h1 := (abs_le.1 (grow t ht)).2
        have h2 := S.pos t ht
        have h3 := cf_pos (x := max (p.h t) (111/100)) hnu (U_pos u t) h2
        have e : (VL o.nu (P u du p.dm p.h t)).1 =
            cf o.nu (U u t) (p.dm t) (max (p.h t) (111/100)) / 2 - p.dm t * ((2 + max (p.h t) (111/100)) * du t / U u t) := by
          simp only [VL, V, P]; ring
        have h4 := mul_le_mul_of_nonneg_left h1 h2.le
        have h5 := Real.exp_pos (k * (t - a))
        have h6 : 0 ≤ (VL o.nu (P u du p.dm p.h t)).1 + p.dm t * k := by rw [e]; linarith
        nlinarith) t ht
    rw [hlo, div_le_iff₀ (Real.exp_pos _)]
    refine le_trans this (mul_le_mul_of_nonneg_left (Real.exp_le_exp.2 ?_) (S.pos t ht).le)
    exact mul_le_mul_of_nonneg_left (by linarith [(hsub ht).2]) hk0
  have high : ∀ t ∈ Icc a p.c, p.dm t ≤ hi := fun t ht => by
    have := barrier_above_off (F := fun t => (p.dm t + C) * Real.exp (-(k + 1) * (t - a)))
      (r := fun t => (VL o.nu (P u du p.dm p.h t)).1 * Real.exp (-(k + 1) * (t - a)) + (p.dm t + C) * (-(k + 1) * Real.exp (-(k + 1) * (t - a))))
      (a := a) (b := p.c) (c := m0 + C) (hi := m0 + C + 1) S.fin (by linarith)
      ((S.cdm.add continuousOn_const).mul fun t _ => (exps _ t).continuousAt.continuousWithinAt)
      (fun t ht hn => ((S.mom t ht hn).add_const C).mul (exps _ t)) (by simp [G.m0]) (fun t ht hn _ _ => by
        have h1 := (abs_le.1 (grow t ht)).1
        have h2 := S.pos t ht
        have h3 := cf_le (x := max (p.h t) (111/100)) hnu (show 1/1000 ≤ U u t from le_max_right _ _) hlo0 (low t ht)
          (le_trans (by norm_num) (le_max_right _ _))
        rw [← hC] at h3
        have e : (VL o.nu (P u du p.dm p.h t)).1 =
            cf o.nu (U u t) (p.dm t) (max (p.h t) (111/100)) / 2 - p.dm t * ((2 + max (p.h t) (111/100)) * du t / U u t) := by
          simp only [VL, V, P]; ring
        have h4 := mul_le_mul_of_nonneg_left h1 h2.le
        have h5 := Real.exp_pos (-(k + 1) * (t - a))
        have h7 : 0 ≤ k * C := by positivity
        have h6 : (VL o.nu (P u du p.dm p.h t)).1 - (p.dm t + C) * (k + 1) ≤ 0 := by rw [e]; linarith
        nlinarith) t ht
    have e1 : Real.exp (-(k + 1) * (t - a)) = (Real.exp ((k + 1) * (t - a)))⁻¹ := by rw [← Real.exp_neg]; ring_nf
    rw [e1, ← div_eq_mul_inv, div_le_iff₀ (Real.exp_pos _)] at this
    have h2 : Real.exp ((k + 1) * (t - a)) ≤ Real.exp ((k + 1) * (b - a)) :=
      Real.exp_le_exp.2 (mul_le_mul_of_nonneg_left (by linarith [(hsub ht).2]) (by linarith))
    have h3 := mul_le_mul_of_nonneg_left h2 (show 0 ≤ m0 + C by linarith)
    rw [← hhi] at h3
    linarith
  have inB : ∀ t ∈ Icc a p.c, P u du p.dm p.h t ∈ B := fun t ht =>
    ⟨⟨le_max_right _ _, (le_abs_self _).trans (hW t (hsub ht))⟩, abs_le.1 (hD t (hsub ht)), ⟨low t ht, high t ht⟩, ⟨le_max_right _ _, clampH t ht⟩⟩
  have rL : ∀ t ∈ Icc a p.c, |(VL o.nu (P u du p.dm p.h t)).1| ≤ max 0 (max KL KH) ∧ |(VL o.nu (P u du p.dm p.h t)).2| ≤ max 0 (max KL KH) :=
    fun t ht => ⟨((norm_fst_le _).trans (hKL _ (inB t ht))).trans ((le_max_left _ _).trans (le_max_right _ _)),
      ((norm_snd_le _).trans (hKL _ (inB t ht))).trans ((le_max_left _ _).trans (le_max_right _ _))⟩
  have rH : ∀ t ∈ Icc a p.c, |(VH o.nu (P u du p.dm p.h t)).2| ≤ max 0 (max KL KH) :=
    fun t ht => ((norm_snd_le _).trans (hKH _ (inB t ht))).trans ((le_max_right _ _).trans (le_max_right _ _))
  refine ⟨fun t ht => ⟨low t ht, high t ht⟩, fun s hs t ht hst => ⟨?_, ?_⟩⟩
  · exact lip_off S.fin S.cdm (fun x hx hn => S.mom x hx hn) (fun x hx _ => (rL x hx).1) hs ht hst
  · refine lip_off (r := fun x => if p.h x ≤ 16/10 then (VL o.nu (P u du p.dm p.h x)).2 else (VH o.nu (P u du p.dm p.h x)).2) S.fin S.ch
      (fun x hx hn => ?_) (fun x hx _ => ?_) hs ht hst
    · by_cases hl : p.h x ≤ 16/10
      · rw [if_pos hl]; exact S.low x hx hn hl
      · rw [if_neg hl]; exact S.high x hx hn (not_le.1 hl)
    · by_cases hl : p.h x ≤ 16/10
      · rw [if_pos hl]; exact (rL x hx).2
      · rw [if_neg hl]; exact rH x hx

/-! ### Passing to the limit -/

theorem removable {f g : ℝ → ℝ} {t : ℝ} (hev : ∀ᶠ s in 𝓝[≠] t, HasDerivAt f (g s) s) (hf : ContinuousAt f t) (hg : ContinuousAt g t) :
    HasDerivAt f (g t) t := by
  have hr : ∀ᶠ s in 𝓝[>] t, HasDerivAt f (g s) s := hev.filter_mono (nhdsWithin_mono _ fun s hs => ne_of_gt hs)
  have hl : ∀ᶠ s in 𝓝[<] t, HasDerivAt f (g s) s := hev.filter_mono (nhdsWithin_mono _ fun s hs => ne_of_lt hs)
  have A : HasDerivWithinAt f (g t) (Ici t) t :=
    hasDerivWithinAt_Ici_of_tendsto_deriv (s := {s | HasDerivAt f (g s) s}) (fun s hs => hs.differentiableAt.differentiableWithinAt)
      hf.continuousWithinAt hr ((hg.tendsto.mono_left nhdsWithin_le_nhds).congr' (hr.mono fun s hs => hs.deriv.symm))
  have B : HasDerivWithinAt f (g t) (Iic t) t :=
    hasDerivWithinAt_Iic_of_tendsto_deriv (s := {s | HasDerivAt f (g s) s}) (fun s hs => hs.differentiableAt.differentiableWithinAt)
      hf.continuousWithinAt hl ((hg.tendsto.mono_left nhdsWithin_le_nhds).congr' (hl.mono fun s hs => hs.deriv.symm))
  simpa using B.union A

theorem Sol.clear_ne {nu : ℝ} {u du dm h : ℝ → ℝ} {a b : ℝ} {E : Set ℝ} (S : Sol nu u du dm h a b E) (y : ℝ) : ∀ᶠ t in 𝓝[≠] y, t ∉ E := by
  have h1 : (E \ {y})ᶜ ∈ 𝓝 y := (S.fin.subset diff_subset).isClosed.isOpen_compl.mem_nhds (by simp)
  filter_upwards [mem_nhdsWithin_of_mem_nhds h1, self_mem_nhdsWithin] with t ht hty hE
  exact ht ⟨hE, hty⟩

/-- Inside a stretch on one side of 1.6 the equation holds everywhere. -/
theorem Sol.ode_inside {c : ℝ} {dm h : ℝ → ℝ} {E : Set ℝ} (F : Flow o u du a b) (S : Sol o.nu u du dm h a c E) {t : ℝ} (ht : t ∈ Ioo a c)
    (hs : (∀ᶠ s in 𝓝 t, h s ≤ 16/10) ∨ ∀ᶠ s in 𝓝 t, 16/10 < h s) : HeadOde o dm h t := by
  have hI : Icc a c ∈ 𝓝 t := Icc_mem_nhds ht.1 ht.2
  have hI' : t ∈ Icc a c := ⟨ht.1.le, ht.2.le⟩
  have cdm := (S.cdm t hI').continuousAt hI
  have ch := (S.ch t hI').continuousAt hI
  have cP := (S.cP t hI').continuousAt hI
  have ev : ∀ᶠ s in 𝓝[≠] t, s ∈ Icc a c ∧ s ∉ E := Eventually.and (mem_nhdsWithin_of_mem_nhds hI) (S.clear_ne t)
  have cL : ContinuousAt (fun s => VL o.nu (P u du dm h s)) t := ContinuousAt.comp (S.vl hI').continuousAt cP
  have cH : ContinuousAt (fun s => VH o.nu (P u du dm h s)) t := ContinuousAt.comp (S.vh hI').continuousAt cP
  have hm : HasDerivAt dm (VL o.nu (P u du dm h t)).1 t :=
    removable (g := fun s => (VL o.nu (P u du dm h s)).1) (ev.mono fun s hs => S.mom s hs.1 hs.2) cdm (continuous_fst.continuousAt.comp cL)
  rcases hs with hs | hs
  · have hh : HasDerivAt h (VL o.nu (P u du dm h t)).2 t :=
      removable (g := fun s => (VL o.nu (P u du dm h s)).2) (by
        filter_upwards [ev, hs.filter_mono nhdsWithin_le_nhds] with s h1 h2
        exact S.low s h1.1 h1.2 h2) ch (continuous_snd.continuousAt.comp cL)
    refine ⟨_, _, F.rhs, ?_, ?_⟩ <;> rw [rates_P_low hs.self_of_nhds] <;> assumption
  · have hh : HasDerivAt h (VH o.nu (P u du dm h t)).2 t :=
      removable (g := fun s => (VH o.nu (P u du dm h s)).2) (by
        filter_upwards [ev, hs.filter_mono nhdsWithin_le_nhds] with s h1 h2
        exact S.high s h1.1 h1.2 h2) ch (continuous_snd.continuousAt.comp cH)
    refine ⟨_, _, F.rhs, ?_, ?_⟩ <;> rw [rates_P_high hs.self_of_nhds] <;> assumption

/-- The crossings of 1.6 do not accumulate. -/
theorem one_side (F : Flow o u du a b) (hm : 0 < m0) {dm h : ℝ → ℝ} {y : ℝ} (hy : y ∈ Ioc a b) (cdm : ContinuousOn dm (Icc a y))
    (ch : ContinuousOn h (Icc a y)) (pos : 0 < dm y) (G : ∀ c ∈ Ico a y, Good o u du a b m0 h0 H ⟨c, dm, h⟩) :
    (∀ᶠ t in 𝓝[<] y, h t ≤ 16/10) ∨ ∀ᶠ t in 𝓝[<] y, 16/10 < h t := by
  have hyI : y ∈ Icc a y := ⟨hy.1.le, le_rfl⟩
  have left : 𝓝[Icc a y] y ≥ 𝓝[<] y := by
    rw [← nhdsWithin_Ico_eq_nhdsLT hy.1]
    exact nhdsWithin_mono _ Ico_subset_Icc_self
  have th : Tendsto h (𝓝[<] y) (𝓝 (h y)) := (ch y hyI).tendsto.mono_left left
  have cU : ContinuousOn (U u) (Icc a y) := ContinuousOn.sup (F.cu.mono (Icc_subset_Icc_right hy.2)) continuousOn_const
  have cP : ContinuousOn (P u du dm h) (Icc a y) :=
    cU.prodMk ((F.cdu.mono (Icc_subset_Icc_right hy.2)).prodMk (cdm.prodMk (ContinuousOn.sup ch continuousOn_const)))
  have tP : Tendsto (P u du dm h) (𝓝[<] y) (𝓝 (P u du dm h y)) := (cP y hyI).tendsto.mono_left left
  rcases lt_trichotomy (h y) (16/10) with hlt | heq | hgt
  · exact .inl ((th.eventually_lt_const hlt).mono fun t ht => ht.le)
  · have tL : Tendsto (fun t => (VL o.nu (P u du dm h t)).2) (𝓝[<] y) (𝓝 (VL o.nu (P u du dm h y)).2) :=
      (continuous_snd.tendsto _).comp ((VL_contDiff F.nu (U_pos u y) pos (le_max_right _ _)).continuousAt.tendsto.comp tP)
    have tH : Tendsto (fun t => (VH o.nu (P u du dm h t)).2) (𝓝[<] y) (𝓝 (VH o.nu (P u du dm h y)).2) :=
      (continuous_snd.tendsto _).comp ((VH_contDiff F.nu (U_pos u y) pos (le_max_right _ _)).continuousAt.tendsto.comp tP)
    have inside : ∀ᶠ t in 𝓝[<] y, t ∈ Ico a y := Ico_mem_nhdsLT hy.1
    rcases le_or_gt 0 (VL o.nu (P u du dm h y)).2 with hs | hs
    · left
      have hH : 0 < (VH o.nu (P u du dm h y)).2 := by
        rw [P_eq heq] at hs ⊢
        exact jump (U_pos u y) pos hs
      obtain ⟨z, hz, hsub⟩ := mem_nhdsLT_iff_exists_Ico_subset.1 (inside.and (tH.eventually_const_lt hH))
      filter_upwards [Ico_mem_nhdsLT hz] with t1 ht1
      by_contra hc
      push Not at hc
      have ha1 : a ≤ t1 := (hsub ht1).1.1
      have hall : ∀ s ∈ Ico t1 y, h t1 ≤ h s := fun s hs => by
        obtain ⟨E, S⟩ := (G s ⟨ha1.trans hs.1, hs.2⟩).sol F hm
        refine barrier_off (F := h) (r := fun t => if h t ≤ 16/10 then (VL o.nu (P u du dm h t)).2 else (VH o.nu (P u du dm h t)).2) (a := t1)
          (b := s) (c := h t1) (lo := 16/10) S.fin hc (S.ch.mono (Icc_subset_Icc_left ha1)) (fun x hx hn => ?_) le_rfl (fun x hx hn h1 _ => ?_) s
          ⟨hs.1, le_rfl⟩
        · by_cases hl : h x ≤ 16/10
          · rw [if_pos hl]; exact S.low x ⟨ha1.trans hx.1, hx.2⟩ hn hl
          · rw [if_neg hl]; exact S.high x ⟨ha1.trans hx.1, hx.2⟩ hn (not_le.1 hl)
        · rw [if_neg (not_le.2 h1)]
          exact (hsub ⟨ht1.1.trans hx.1, hx.2.trans_lt hs.2⟩).2.le
      have := ge_of_tendsto th (eventually_of_mem (Ico_mem_nhdsLT ht1.2) hall)
      linarith
    · right
      obtain ⟨z, hz, hsub⟩ := mem_nhdsLT_iff_exists_Ico_subset.1 (inside.and (tL.eventually_lt_const hs))
      -- strictly below the layer stays below
      have no : ∀ t1 ∈ Ico z y, ¬ h t1 < 16/10 := fun t1 ht1 hc => by
        have ha1 : a ≤ t1 := (hsub ht1).1.1
        have hall : ∀ s ∈ Ico t1 y, h s ≤ h t1 := fun s hs => by
          obtain ⟨E, S⟩ := (G s ⟨ha1.trans hs.1, hs.2⟩).sol F hm
          refine barrier_above_off (F := h) (r := fun t => if h t ≤ 16/10 then (VL o.nu (P u du dm h t)).2 else (VH o.nu (P u du dm h t)).2) (a := t1)
            (b := s) (c := h t1) (hi := 16/10) S.fin hc (S.ch.mono (Icc_subset_Icc_left ha1)) (fun x hx hn => ?_) le_rfl (fun x hx hn _ h1 => ?_) s
            ⟨hs.1, le_rfl⟩
          · by_cases hl : h x ≤ 16/10
            · rw [if_pos hl]; exact S.low x ⟨ha1.trans hx.1, hx.2⟩ hn hl
            · rw [if_neg hl]; exact S.high x ⟨ha1.trans hx.1, hx.2⟩ hn (not_le.1 hl)
          · rw [if_pos h1.le]
            exact (hsub ⟨ht1.1.trans hx.1, hx.2.trans_lt hs.2⟩).2.le
        have := le_of_tendsto th (eventually_of_mem (Ico_mem_nhdsLT ht1.2) hall)
        linarith
      filter_upwards [Ico_mem_nhdsLT hz] with t1 ht1
      refine lt_of_le_of_ne (not_lt.1 (no t1 ht1)) fun he => ?_
      have hc : (t1 + y) / 2 ∈ Ico a y := ⟨by linarith [(hsub ht1).1.1, ht1.2], by linarith [ht1.2]⟩
      have hr : (VL o.nu (U u t1, du t1, dm t1, 16/10)).2 < 0 := by
        have := (hsub ht1).2
        rwa [P_eq he.symm] at this
      have := (G _ hc).falls t1 ⟨(hsub ht1).1.1, by show t1 < (t1 + y) / 2; linarith [ht1.2]⟩ he.symm hr
      obtain ⟨s, hs1, hs2⟩ := (this.and (Ioo_mem_nhdsGT ht1.2)).exists
      exact no s ⟨ht1.1.trans hs2.1.le, hs2.2⟩ hs1
  · exact .inr (th.eventually_const_lt hgt)

theorem limit (F : Flow o u du a b) (hm : 0 < m0) {dm h : ℝ → ℝ} {y : ℝ} (hy : y ∈ Ioc a b) (cdm : ContinuousOn dm (Icc a y))
    (ch : ContinuousOn h (Icc a y)) (pos : 0 < dm y) (G : ∀ c ∈ Ico a y, Good o u du a b m0 h0 H ⟨c, dm, h⟩) :
    Good o u du a b m0 h0 H ⟨y, dm, h⟩ := by
  have ha := G a ⟨le_rfl, hy.1⟩
  have mid : ∀ t ∈ Ico a y, (t + y) / 2 ∈ Ico a y ∧ t < (t + y) / 2 := fun t ht =>
    ⟨⟨by linarith [ht.1, ht.2], by linarith [ht.2]⟩, by linarith [ht.2]⟩
  have hyI : y ∈ Icc a y := ⟨hy.1.le, le_rfl⟩
  have below : ∀ t ∈ Ico a y, h t < H := fun t ht => (G _ (mid t ht).1).below t ⟨ht.1, (mid t ht).2⟩
  have th : Tendsto h (𝓝[<] y) (𝓝 (h y)) := by
    refine (ch y hyI).tendsto.mono_left ?_
    rw [← nhdsWithin_Ico_eq_nhdsLT hy.1]
    exact nhdsWithin_mono _ Ico_subset_Icc_self
  refine ⟨⟨hy.1.le, hy.2⟩, ha.m0, ha.h0, cdm, ch, ?_, below, ?_, fun t ht => (G _ (mid t ht).1).falls t ⟨ht.1, (mid t ht).2⟩⟩
  · -- from some place on the equation holds everywhere
    have : ∃ z ∈ Ico a y, ∀ t ∈ Ioo z y, HeadOde o dm h t := by
      have fin : ∀ z ∈ Ico a y, ((∀ t ∈ Ioo z y, h t ≤ 16/10) ∨ ∀ t ∈ Ioo z y, 16/10 < h t) → ∀ t ∈ Ioo z y, HeadOde o dm h t := by
        intro z hz hside t ht
        have ht' : t ∈ Ico a y := ⟨hz.1.trans ht.1.le, ht.2⟩
        obtain ⟨E, S⟩ := (G _ (mid t ht').1).sol F hm
        refine S.ode_inside F ⟨hz.1.trans_lt ht.1, (mid t ht').2⟩ ?_
        have hn : Ioo z y ∈ 𝓝 t := Ioo_mem_nhds ht.1 ht.2
        rcases hside with h1 | h1
        · exact .inl (eventually_of_mem hn h1)
        · exact .inr (eventually_of_mem hn h1)
      have inside : ∀ᶠ t in 𝓝[<] y, t ∈ Ico a y := Ico_mem_nhdsLT hy.1
      rcases one_side F hm hy cdm ch pos G with hs | hs
      · obtain ⟨z, hz, hsub⟩ := mem_nhdsLT_iff_exists_Ico_subset.1 (inside.and hs)
        exact ⟨z, (hsub ⟨le_rfl, hz⟩).1, fin z (hsub ⟨le_rfl, hz⟩).1 (.inl fun t ht => (hsub ⟨ht.1.le, ht.2⟩).2)⟩
      · obtain ⟨z, hz, hsub⟩ := mem_nhdsLT_iff_exists_Ico_subset.1 (inside.and hs)
        exact ⟨z, (hsub ⟨le_rfl, hz⟩).1, fin z (hsub ⟨le_rfl, hz⟩).1 (.inr fun t ht => (hsub ⟨ht.1.le, ht.2⟩).2)⟩
    obtain ⟨z, hz, hode⟩ := this
    obtain ⟨E, hE, hE'⟩ := (G z hz).ode
    refine ⟨E ∪ {z}, hE.union (by simp), fun t ht hn => ?_⟩
    simp only [mem_union, mem_singleton_iff, not_or] at hn
    rcases lt_or_gt_of_ne hn.2 with hl | hg
    · exact hE' t ⟨ht.1, hl⟩ hn.1
    · exact hode t ⟨hg, ht.2⟩
  · exact le_of_tendsto th (eventually_of_mem (Ico_mem_nhdsLT hy.1) fun s hs => (below s hs).le)

/-! ### The longest layer -/

theorem longest (F : Flow o u du a b) (hab : a ≤ b) (hm : 0 < m0) (hH : h0 < H) : ∃ p, Good o u du a b m0 h0 H p ∧ (p.c = b ∨ p.h p.c = H) := by
  let T := {p : Part // Good o u du a b m0 h0 H p}
  let r : T → T → Prop := fun p q => p.1.c ≤ q.1.c ∧ EqOn p.1.dm q.1.dm (Icc a p.1.c) ∧ EqOn p.1.h q.1.h (Icc a p.1.c)
  have trans : ∀ {p q s : T}, r p q → r q s → r p s := fun {p q s} h1 h2 =>
    ⟨h1.1.trans h2.1, fun t ht => (h1.2.1 ht).trans (h2.2.1 ⟨ht.1, ht.2.trans h1.1⟩), fun t ht => (h1.2.2 ht).trans (h2.2.2 ⟨ht.1, ht.2.trans h1.1⟩)⟩
  have refl : ∀ p : T, r p p := fun p => ⟨le_rfl, fun _ _ => rfl, fun _ _ => rfl⟩
  haveI : Std.Refl r := ⟨refl⟩
  haveI : Nonempty T := ⟨⟨_, start hab hH⟩⟩
  obtain ⟨lo, hi, K, hlo, hK, hbd⟩ := bounds (h0 := h0) (H := H) F hab hm
  have chains : ∀ C : Set T, IsChain r C → ∃ ub, ∀ p ∈ C, r p ub := by
    intro C hC
    rcases C.eq_empty_or_nonempty with rfl | ⟨p0, hp0⟩
    · exact ⟨⟨_, start hab hH⟩, fun p hp => absurd hp (notMem_empty _)⟩
    have cmp : ∀ p ∈ C, ∀ q ∈ C, p.1.c ≤ q.1.c → EqOn p.1.dm q.1.dm (Icc a p.1.c) ∧ EqOn p.1.h q.1.h (Icc a p.1.c) := fun p hp q hq hle => by
      rcases hC.total hp hq with h1 | h1
      · exact h1.2
      · have e : p.1.c = q.1.c := le_antisymm hle h1.1
        rw [e]
        exact ⟨fun t ht => (h1.2.1 ht).symm, fun t ht => (h1.2.2 ht).symm⟩
    by_cases hmax : ∃ p ∈ C, ∀ q ∈ C, q.1.c ≤ p.1.c
    · obtain ⟨p, hp, hle⟩ := hmax
      exact ⟨p, fun q hq => ⟨hle q hq, cmp q hq p hp (hle q hq)⟩⟩
    push Not at hmax
    let A : Set ℝ := (fun p : T => p.1.c) '' C
    have hne : A.Nonempty := ⟨_, p0, hp0, rfl⟩
    have hbA : BddAbove A := ⟨b, by rintro _ ⟨p, -, rfl⟩; exact p.2.mem.2⟩
    obtain ⟨y, hy⟩ : ∃ y, y = sSup A := ⟨_, rfl⟩
    have hlt : ∀ p ∈ C, p.1.c < y := fun p hp => by
      obtain ⟨q, hq, h1⟩ := hmax p hp
      rw [hy]
      exact h1.trans_le (le_csSup hbA ⟨q, hq, rfl⟩)
    have hex : ∀ t < y, ∃ p ∈ C, t < p.1.c := fun t ht => by
      rw [hy] at ht
      obtain ⟨_, ⟨p, hp, rfl⟩, h1⟩ := exists_lt_of_lt_csSup hne ht
      exact ⟨p, hp, h1⟩
    have hyb : y ≤ b := by rw [hy]; exact csSup_le hne (by rintro _ ⟨p, -, rfl⟩; exact p.2.mem.2)
    have hay : a < y := p0.2.mem.1.trans_lt (hlt p0 hp0)
    choose! w hw hwt using hex
    let gd : ℝ → ℝ := fun t => (w t).1.dm t
    let gh : ℝ → ℝ := fun t => (w t).1.h t
    have agree : ∀ p ∈ C, ∀ t ∈ Icc a p.1.c, gd t = p.1.dm t ∧ gh t = p.1.h t := fun p hp t ht => by
      have hty : t < y := ht.2.trans_lt (hlt p hp)
      rcases le_total p.1.c (w t).1.c with h1 | h1
      · have := cmp p hp _ (hw t hty) h1
        exact ⟨(this.1 ht).symm, (this.2 ht).symm⟩
      · have := cmp _ (hw t hty) p hp h1
        exact ⟨this.1 ⟨ht.1, (hwt t hty).le⟩, this.2 ⟨ht.1, (hwt t hty).le⟩⟩
    have lip : ∀ s ∈ Ico a y, ∀ t ∈ Ico a y, s ≤ t → |gd t - gd s| ≤ K * (t - s) ∧ |gh t - gh s| ≤ K * (t - s) := fun s hs t ht hst => by
      have ht' : t ∈ Icc a (w t).1.c := ⟨ht.1, (hwt t ht.2).le⟩
      have hs' : s ∈ Icc a (w t).1.c := ⟨hs.1, hst.trans (hwt t ht.2).le⟩
      have e1 := agree _ (hw t ht.2) t ht'
      have e2 := agree _ (hw t ht.2) s hs'
      rw [e1.1, e1.2, e2.1, e2.2]
      exact (hbd _ (w t).2).2 s hs' t ht' hst
    have lipOn : ∀ g : ℝ → ℝ, (∀ s ∈ Ico a y, ∀ t ∈ Ico a y, s ≤ t → |g t - g s| ≤ K * (t - s)) → LipschitzOnWith ⟨K, hK⟩ g (Ico a y) := fun g hg =>
      LipschitzOnWith.of_dist_le_mul fun s hs t ht => by
        rw [Real.dist_eq, Real.dist_eq]
        show _ ≤ K * _
        rcases le_total s t with h1 | h1
        · rw [abs_sub_comm, abs_sub_comm s t, abs_of_nonneg (sub_nonneg.2 h1)]; exact hg s hs t ht h1
        · rw [abs_of_nonneg (sub_nonneg.2 h1)]; exact hg t ht s hs h1
    obtain ⟨d, hd, ed⟩ := (lipOn gd fun s hs t ht hst => (lip s hs t ht hst).1).extend_real
    obtain ⟨h, hh, eh⟩ := (lipOn gh fun s hs t ht hst => (lip s hs t ht hst).2).extend_real
    have eqs : ∀ p ∈ C, EqOn d p.1.dm (Icc a p.1.c) ∧ EqOn h p.1.h (Icc a p.1.c) := fun p hp =>
      ⟨fun t ht => (ed ⟨ht.1, ht.2.trans_lt (hlt p hp)⟩).symm.trans (agree p hp t ht).1,
       fun t ht => (eh ⟨ht.1, ht.2.trans_lt (hlt p hp)⟩).symm.trans (agree p hp t ht).2⟩
    have good : ∀ c ∈ Ico a y, Good o u du a b m0 h0 H ⟨c, d, h⟩ := fun c hc => by
      have e := eqs _ (hw c hc.2)
      exact ((w c).2.congr e.1 e.2).mono (c := c) ⟨hc.1, (hwt c hc.2).le⟩
    have pos : 0 < d y := by
      have t1 : Tendsto d (𝓝[<] y) (𝓝 (d y)) := hd.continuous.continuousAt.tendsto.mono_left nhdsWithin_le_nhds
      refine lt_of_lt_of_le hlo (ge_of_tendsto t1 ?_)
      filter_upwards [Ico_mem_nhdsLT hay] with t ht
      exact ((hbd _ (good t ht)).1 t ⟨ht.1, le_rfl⟩).1
    exact ⟨⟨_, limit F hm ⟨hay, hyb⟩ hd.continuous.continuousOn hh.continuous.continuousOn pos good⟩,
      fun p hp => ⟨(hlt p hp).le, fun t ht => ((eqs p hp).1 ht).symm, fun t ht => ((eqs p hp).2 ht).symm⟩⟩
  obtain ⟨p, hp⟩ := exists_maximal_of_chains_bounded chains trans
  refine ⟨p.1, p.2, ?_⟩
  by_contra hc
  push Not at hc
  obtain ⟨q, hq, h1, h2, h3⟩ := p.2.extend F hm (lt_of_le_of_ne p.2.mem.2 hc.1) (lt_of_le_of_ne p.2.top hc.2)
  have := (hp ⟨q, hq⟩ ⟨h1.le, h2, h3⟩).1
  exact absurd h1 (not_lt.2 this)

end good

end HeadBranch

open HeadBranch

/-- **C121**: in a flow with a continuous velocity gradient, from every positive momentum thickness and every shape factor below `H` there is a
solution of Head's equation that ends where the flow ends or where its shape factor reaches `H`, and nowhere before. The value 2.4 of `H` is the
one at which the method stops. -/
theorem head_until_separation (o : Obj ℝ) (u du : ℝ → ℝ) (a b m0 h0 H : ℝ) (hc : o.cls = .head) (hn : 0 < o.nu) (huE : ∀ t, o.vel.uE t = .ok (u t))
    (hduE : ∀ t, o.vel.duE t = .ok (du t)) (hslope : ∀ x ∈ Icc a b, HasDerivAt u (du x) x) (hdu : ContinuousOn du (Icc a b)) (hab : a < b)
    (hm : 0 < m0) (hH : h0 < H) : ∃ c ∈ Ioc a b, ∃ dm h : ℝ → ℝ, dm a = m0 ∧ h a = h0 ∧
      HeadSolutionOn { o with sol := some fun t => [dm t, h t] } u du dm h a c ∧
      (∀ x ∈ Icc a c, 0 < dm x) ∧ (∀ x ∈ Ico a c, h x < H) ∧ (c = b ∨ h c = H) := by
  have F : Flow o u du a b := ⟨hc, huE, hduE, hn, fun x hx => (hslope x hx).continuousAt.continuousWithinAt, hdu⟩
  obtain ⟨p, G, hend⟩ := longest F hab.le hm hH
  obtain ⟨E0, S⟩ := G.sol F hm
  have hac : a < p.c := by
    refine lt_of_le_of_ne G.mem.1 fun e => ?_
    rcases hend with h1 | h1
    · rw [← e] at h1; exact hab.ne h1
    · rw [← e, G.h0] at h1; exact hH.ne h1
  obtain ⟨E, hE, hode⟩ := G.ode
  refine ⟨p.c, ⟨hac, G.mem.2⟩, p.dm, p.h, G.m0, G.h0, ⟨hc, rfl, huE, hduE, fun x hx => hslope x ⟨hx.1, hx.2.trans G.mem.2⟩, G.cdm, G.ch,
    E ∪ {a, p.c}, hE.union (by simp), fun t ht hn => ?_⟩, S.pos, G.below, hend⟩
  simp only [mem_union, mem_insert_iff, mem_singleton_iff, not_or] at hn
  exact hode t ⟨lt_of_le_of_ne ht.1 (Ne.symm hn.2.1), lt_of_le_of_ne ht.2 hn.2.2⟩ hn.1

/-- A case: `u_e = 2 - x` on `[0, 1]`, from the momentum thickness 1/100 and the shape factor 1.4 up to 2.4. -/
example : ∃ o : Obj ℝ, o.cls = .head ∧ 0 < o.nu ∧ (∀ t, o.vel.uE t = .ok (2 - t)) ∧ (∀ t, o.vel.duE t = .ok (-1)) ∧
    (∀ x ∈ Icc (0:ℝ) 1, HasDerivAt (fun x => 2 - x) (-1 : ℝ) x) ∧ ContinuousOn (fun _ : ℝ => (-1 : ℝ)) (Icc 0 1) ∧ (0:ℝ) < 1/100 ∧ (14/10:ℝ) < 24/10 :=
  ⟨⟨.head, 1, ⟨some (.fn fun x => .ok (2 - x)), some (.fn fun _ => .ok (-1)), none⟩, .manual 0 1 1 1 1, [], none, none⟩, rfl, one_pos,
    fun t => by simp [VelState.uE, VelState.rawU, callOpt, Vel.call], fun t => by simp [VelState.duE, VelState.rawDu, callOpt, Vel.call],
    fun x _ => by simpa using (hasDerivAt_id x).const_sub 2, continuousOn_const, by norm_num, by norm_num⟩

end IBL
