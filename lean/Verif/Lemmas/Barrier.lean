import Mathlib.Analysis.Calculus.Deriv.MeanValue
import Mathlib.Topology.Order.IntermediateValue

/-! A barrier argument: a function on an interval that does not decrease where it lies below a level it started above never falls below
that level. -/

namespace IBL

/-- If `F` is continuous, starts at or above `c` and its slope is not negative wherever `lo < F < c`, with `lo < c`, then `F` stays at or above
`c`. There may be finitely many points where `F` has no slope. -/
theorem barrier_off {F r : ℝ → ℝ} {S : Set ℝ} {a b c lo : ℝ} (hS : S.Finite) (hlo : lo < c) (hcF : ContinuousOn F (Set.Icc a b))
    (hF : ∀ x ∈ Set.Icc a b, x ∉ S → HasDerivAt F (r x) x) (h0 : c ≤ F a)
    (hr : ∀ x ∈ Set.Icc a b, x ∉ S → lo < F x → F x < c → 0 ≤ r x) : ∀ x ∈ Set.Icc a b, c ≤ F x := by
  intro x hx
  by_contra hlt
  push Not at hlt
  have hab : Set.Icc a x ⊆ Set.Icc a b := Set.Icc_subset_Icc_right hx.2
  have hcont : ContinuousOn F (Set.Icc a x) := hcF.mono hab
  let A := Set.Icc a x ∩ F ⁻¹' Set.Ici c
  have hAc : IsClosed A := hcont.preimage_isClosed_of_isClosed isClosed_Icc isClosed_Ici
  have haA : a ∈ A := ⟨⟨le_refl _, hx.1⟩, h0⟩
  have hbd : BddAbove A := ⟨x, fun t ht => ht.1.2⟩
  let s := sSup A
  have hsA : s ∈ A := hAc.csSup_mem ⟨a, haA⟩ hbd
  have hsx : s < x := by
    refine lt_of_le_of_ne hsA.1.2 fun h => ?_
    have := hsA.2
    rw [h] at this
    exact absurd this (not_le.2 hlt)
  have habove : ∀ t, s < t → t ≤ x → F t < c := fun t h1 h2 => by
    by_contra h
    push Not at h
    exact absurd (le_csSup hbd (show t ∈ A from ⟨⟨hsA.1.1.trans h1.le, h2⟩, h⟩)) (not_le.2 h1)
  have hlos : lo < F s := lt_of_lt_of_le hlo hsA.2
  have hev1 : ∀ᶠ t in nhdsWithin s (Set.Ici s), lo < F t := by
    have hc : ContinuousWithinAt F (Set.Ici s) s := by
      rw [← continuousWithinAt_Icc_iff_Ici hsx]
      exact (hcont s hsA.1).mono (Set.Icc_subset_Icc_left hsA.1.1)
    exact hc.eventually_const_lt hlos
  have hev2 : ∀ᶠ t in nhdsWithin s (Set.Ici s), t ∉ S \ {s} :=
    (((hS.subset Set.diff_subset).isClosed.isOpen_compl.mem_nhds (by simp)) : (S \ {s})ᶜ ∈ nhds s) |> mem_nhdsWithin_of_mem_nhds
  obtain ⟨z, hz, hsub⟩ := mem_nhdsGE_iff_exists_Icc_subset.1 (hev1.and hev2)
  obtain ⟨y, hy⟩ : ∃ y, y = min z x := ⟨_, rfl⟩
  have hsy : s < y := by rw [hy]; exact lt_min hz hsx
  have hyz : y ≤ z := by rw [hy]; exact min_le_left _ _
  have hyx : y ≤ x := by rw [hy]; exact min_le_right _ _
  have hmono : MonotoneOn F (Set.Icc s y) := by
    have hd : ∀ t ∈ Set.Ioo s y, t ∈ Set.Icc a b ∧ t ∉ S ∧ lo < F t := fun t ht => by
      obtain ⟨h1, h2⟩ := hsub ⟨ht.1.le, ht.2.le.trans hyz⟩
      exact ⟨hab ⟨hsA.1.1.trans ht.1.le, ht.2.le.trans hyx⟩, fun h => h2 ⟨h, ht.1.ne'⟩, h1⟩
    apply monotoneOn_of_deriv_nonneg (convex_Icc _ _)
    · exact hcont.mono fun t ht => ⟨hsA.1.1.trans ht.1, ht.2.trans hyx⟩
    · intro t ht
      rw [interior_Icc] at ht
      obtain ⟨h1, h2, h3⟩ := hd t ht
      exact (hF t h1 h2).differentiableAt.differentiableWithinAt
    · intro t ht
      rw [interior_Icc] at ht
      obtain ⟨h1, h2, h3⟩ := hd t ht
      rw [(hF t h1 h2).deriv]
      exact hr t h1 h2 h3 (habove t ht.1 (ht.2.le.trans hyx))
  have h1 := hmono ⟨le_refl _, hsy.le⟩ ⟨hsy.le, le_refl _⟩ hsy.le
  have h2 := habove y hsy hyx
  have h3 : c ≤ F s := hsA.2
  linarith

/-- The same from above. -/
theorem barrier_above_off {F r : ℝ → ℝ} {S : Set ℝ} {a b c hi : ℝ} (hS : S.Finite) (hhi : c < hi) (hcF : ContinuousOn F (Set.Icc a b))
    (hF : ∀ x ∈ Set.Icc a b, x ∉ S → HasDerivAt F (r x) x) (h0 : F a ≤ c)
    (hr : ∀ x ∈ Set.Icc a b, x ∉ S → c < F x → F x < hi → r x ≤ 0) : ∀ x ∈ Set.Icc a b, F x ≤ c := by
  intro x hx
  have := barrier_off (F := fun t => -F t) (r := fun t => -r t) (a := a) (b := b) (c := -c) (lo := -hi) hS (by linarith) hcF.neg
    (fun t ht hs => (hF t ht hs).neg) (by linarith)
    (fun t ht hs h1 h2 => by have := hr t ht hs (by linarith) (by linarith); linarith) x hx
  linarith

/-- With a slope everywhere. -/
theorem barrier {F r : ℝ → ℝ} {a b c lo : ℝ} (hlo : lo < c) (hF : ∀ x ∈ Set.Icc a b, HasDerivAt F (r x) x) (h0 : c ≤ F a)
    (hr : ∀ x ∈ Set.Icc a b, lo < F x → F x < c → 0 ≤ r x) : ∀ x ∈ Set.Icc a b, c ≤ F x :=
  barrier_off Set.finite_empty hlo (fun t ht => (hF t ht).continuousAt.continuousWithinAt) (fun x hx _ => hF x hx) h0 fun x hx _ => hr x hx

theorem barrier_above {F r : ℝ → ℝ} {a b c hi : ℝ} (hhi : c < hi) (hF : ∀ x ∈ Set.Icc a b, HasDerivAt F (r x) x) (h0 : F a ≤ c)
    (hr : ∀ x ∈ Set.Icc a b, c < F x → F x < hi → r x ≤ 0) : ∀ x ∈ Set.Icc a b, F x ≤ c :=
  barrier_above_off Set.finite_empty hhi (fun t ht => (hF t ht).continuousAt.continuousWithinAt) (fun x hx _ => hF x hx) h0 fun x hx _ => hr x hx

end IBL
