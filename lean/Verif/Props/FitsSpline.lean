import Verif.Lemmas.SplineSlope
import Verif.Props.FitsRegular

/-!
C12-C15 for the default data fits ("Spline": cubic splines of the tables of thwaites_method.py 620-634), for every function that is the
not-a-knot cubic spline of the tables (`Spec/Spline.lean`; this is what scipy documents for `CubicSpline`). Exact arithmetic.
-/

namespace IBL
open Fits SplineSolve

/-- `cs` gives the splines of the two tables the code builds. -/
structure TableSplines (cs : CubicSpline ℝ) : Prop where
  shear : IsSplineOf (cs tabLambda tabShear) tabLambda tabShear
  shape : IsSplineOf (cs tabLambda tabShape) tabLambda tabShape

/-! ### Kernel evaluation of the certificates -/

private def certify (s : ℚ) (xs ys : List ℚ) : Bool :=
  match solve (xs.zip ys) with
  | some qs => slopeSign s xs qs
  | none => false

private theorem shear_cert : certify 1 tabLambda tabShear = true := by decide +kernel
private theorem shape_cert : certify (-1) tabLambda tabShape = true := by decide +kernel

private theorem certify_spec {s : ℚ} {xs ys : List ℚ} (h : certify s xs ys = true) :
    ∃ qs, solve (xs.zip ys) = some qs ∧ slopeSign s xs qs = true := by
  unfold certify at h
  split at h
  · exact ⟨_, by assumption, h⟩
  · cases h

private theorem distinct_of_sorted (xs ys : List ℚ) (h : xs.IsChain (· < ·)) : Distinct (xs.zip ys) := by
  induction xs generalizing ys with
  | nil => trivial
  | cons x0 xs ih =>
    obtain _ | ⟨y0, _ | ⟨y1, ys⟩⟩ := ys
    · trivial
    · cases xs <;> trivial
    · cases xs with
      | nil => trivial
      | cons x1 xs =>
        have h' := List.isChain_cons_cons.1 h
        exact ⟨h'.1.ne', ih (y1 :: ys) h'.2⟩

/-- The tabulated lambdas increase, and the tables have the same length. -/
theorem table_sorted : tabLambda.IsChain (· < ·) ∧ tabLambda.length = tabShear.length ∧ tabLambda.length = tabShape.length := by
  decide +kernel

/-- There is such a `cs`: the hypothesis of the theorems below can be met. -/
theorem table_splines_exist : ∃ cs, TableSplines cs := by
  obtain ⟨q1, a1, b1⟩ := certify_spec shear_cert
  obtain ⟨q2, a2, b2⟩ := certify_spec shape_cert
  have h1 := pieces_spline 1 _ _ q1 table_sorted.2.1 (distinct_of_sorted _ _ table_sorted.1) a1 b1
  have h2 := pieces_spline (-1) _ _ q2 table_sorted.2.2 (distinct_of_sorted _ _ table_sorted.1) a2 b2
  refine ⟨fun _ ys => if ys = tabShear then (PPoly.eval (pieces tabLambda q1), PPoly.eval (PPoly.deriv (pieces tabLambda q1)))
    else (PPoly.eval (pieces tabLambda q2), PPoly.eval (PPoly.deriv (pieces tabLambda q2))), ?_, ?_⟩
  · rw [if_pos rfl]; exact h1
  · rw [if_neg (by decide +kernel)]; exact h2

private theorem tab_eq : tabLambda = (-9/100) :: tabLambda.tail ∧ tabLambda.tail ≠ [] ∧ lastOf (-9/100) tabLambda.tail = 1/4 := by
  decide +kernel

private theorem first_last {f f' : ℝ → ℝ} {s : ℚ} {qs : List (Cubic ℚ)} (hc : slopeSign s tabLambda qs = true) (hs : Segs f f' tabLambda qs) :
    (∀ x : ℝ, -9/100 < x → x < 1/4 → HasDerivAt f (f' x) x) ∧ (∀ x : ℝ, -9/100 ≤ x → x ≤ 1/4 → 0 < (s : ℝ) * f' x) ∧
    StrictMonoOn (fun x => (s : ℝ) * f x) (Set.Icc (-9/100) (1/4)) := by
  obtain ⟨t1, t2, t3⟩ := tab_eq
  rw [t1] at hc hs
  have := segs_mono f f' s _ _ qs hc hs t2
  rw [t3] at this
  norm_num at this ⊢
  exact this

/-! ### The splines go through the tables -/

private theorem spline_at {f : (ℝ → ℝ) × (ℝ → ℝ)} {xs ys : List ℚ} (h : IsSplineOf f xs ys) (hlen : xs.length = ys.length)
    (hs : xs.IsChain (· < ·)) (i : ℕ) (x y : ℚ) (hx : xs[i]? = some x) (hy : ys[i]? = some y) (h2 : 2 ≤ xs.length) : f.1 x = y := by
  obtain ⟨qs, hn, hf⟩ := h.ex
  have hl := hn.length
  simp only [List.length_map, List.length_zip, ← hlen, min_self] at hl
  have hi : i < xs.length := (List.getElem?_eq_some_iff.1 hx).1
  have hp : ∀ (j : ℕ) (a b : ℚ), xs[j]? = some a → ys[j]? = some b →
      ((xs.zip ys).map fun p => ((p.1 : ℝ), (p.2 : ℝ)))[j]? = some ((a : ℝ), (b : ℝ)) := by
    intro j a b ha hb
    rw [List.getElem?_map, List.getElem?_zip_eq_some (z := (a, b)) |>.2 ⟨ha, hb⟩]; rfl
  have hlt : ∀ (j : ℕ) (a b : ℚ), xs[j]? = some a → xs[j + 1]? = some b → (a : ℝ) ≤ b := by
    intro j a b ha hb
    obtain ⟨h1, h2⟩ := List.getElem?_eq_some_iff.1 ha
    obtain ⟨h3, h4⟩ := List.getElem?_eq_some_iff.1 hb
    have := List.isChain_iff_getElem.1 hs j h3
    rw [h2, h4] at this
    exact_mod_cast this.le
  by_cases hq : i < qs.length
  · obtain ⟨q, hqq⟩ : ∃ q, qs[i]? = some q := ⟨_, List.getElem?_eq_getElem hq⟩
    obtain ⟨x', hx'⟩ : ∃ x', xs[i + 1]? = some x' := ⟨_, List.getElem?_eq_getElem (by omega)⟩
    have h1 := hn.left i _ q (hp i x y hx hy) hqq
    rw [(hf i x x' q hx hx' hqq x (le_refl _) (hlt i x x' hx hx')).1, sub_self, h1]
  · obtain ⟨j, rfl⟩ : ∃ j, i = j + 1 := ⟨i - 1, by omega⟩
    obtain ⟨q, hqq⟩ : ∃ q, qs[j]? = some q := ⟨_, List.getElem?_eq_getElem (by omega)⟩
    obtain ⟨x', hx'⟩ : ∃ x', xs[j]? = some x' := ⟨_, List.getElem?_eq_getElem (by omega)⟩
    obtain ⟨y', hy'⟩ : ∃ y', ys[j]? = some y' := ⟨_, List.getElem?_eq_getElem (by omega)⟩
    have h1 := hn.right j _ _ q (hp j x' y' hx' hy') (hp (j + 1) x y hx hy) hqq
    rw [(hf j x' x q hx' hx hqq x (hlt j x' x hx' hx) (le_refl _)).1, h1]

theorem spline_clip (cs : CubicSpline ℝ) (lam : ℝ) : (spline cs).checkRange lam = max (-9/100) (min lam (1/4)) := by
  have e1 : ((-90/1000 : ℚ) : ℝ) = -9/100 := by norm_num
  have e2 : ((250/1000 : ℚ) : ℝ) = 1/4 := by norm_num
  simp only [checkRange, spline, real_lit, real_lt, real_gt, e1, e2]
  split_ifs with h1 h2
  · rw [max_eq_left]; exact (min_le_left _ _).trans h1.le
  · rw [min_eq_right (le_of_lt h2), max_eq_right (by norm_num)]
  · rw [min_eq_left (not_lt.1 h2), max_eq_right (not_lt.1 h1)]

private theorem clip_mem (lam : ℝ) : max (-9/100) (min lam (1/4)) ∈ Set.Icc (-9/100 : ℝ) (1/4) :=
  ⟨le_max_left _ _, max_le (by norm_num) (min_le_right _ _)⟩

private theorem clip_inside {lam : ℝ} (h0 : -9/100 ≤ lam) (h1 : lam ≤ 1/4) : max (-9/100) (min lam (1/4)) = lam := by
  rw [min_eq_left h1, max_eq_right h0]

section
variable {cs : CubicSpline ℝ} (hcs : TableSplines cs)
include hcs

/-- The fits return the tabulated values at the tabulated lambdas. -/
theorem spline_interpolates (i : ℕ) (lam s h : ℚ) (hl : tabLambda[i]? = some lam) (hs : tabShear[i]? = some s)
    (hh : tabShape[i]? = some h) : (spline cs).shearAt (lam : ℝ) = s ∧ (spline cs).shapeAt (lam : ℝ) = h := by
  have hb : ∀ l ∈ tabLambda, -9/100 ≤ l ∧ l ≤ 1/4 := by decide +kernel
  obtain ⟨b1, b2⟩ := hb lam (List.mem_of_getElem? hl)
  have b1' : (-9/100 : ℝ) ≤ lam := by have : ((-9/100 : ℚ) : ℝ) ≤ lam := by exact_mod_cast b1
                                      push_cast at this; exact this
  have b2' : (lam : ℝ) ≤ 1/4 := by have : (lam : ℝ) ≤ ((1/4 : ℚ) : ℝ) := by exact_mod_cast b2
                                   push_cast at this; exact this
  rw [shearAt, shapeAt, spline_clip, clip_inside b1' b2']
  exact ⟨spline_at hcs.shear table_sorted.2.1 table_sorted.1 i lam s hl hs (by decide),
    spline_at hcs.shape table_sorted.2.2 table_sorted.1 i lam h hl hh (by decide)⟩

private theorem shear_facts : (∀ x : ℝ, -9/100 < x → x < 1/4 → HasDerivAt (spline cs).shear ((cs tabLambda tabShear).2 x) x) ∧
    StrictMonoOn (spline cs).shear (Set.Icc (-9/100) (1/4)) := by
  obtain ⟨q1, a1, b1⟩ := certify_spec shear_cert
  obtain ⟨h1, -, h3⟩ := first_last b1 (segs_of_spline _ _ _ table_sorted.2.1 (distinct_of_sorted _ _ table_sorted.1) q1 a1 hcs.shear)
  refine ⟨h1, fun x hx y hy hxy => ?_⟩
  have := h3 hx hy hxy
  show (cs tabLambda tabShear).1 x < (cs tabLambda tabShear).1 y
  push_cast at this; linarith

private theorem shape_facts : (∀ x : ℝ, -9/100 < x → x < 1/4 → HasDerivAt (spline cs).shape ((cs tabLambda tabShape).2 x) x) ∧
    (∀ x : ℝ, -9/100 ≤ x → x ≤ 1/4 → (cs tabLambda tabShape).2 x < 0) ∧ StrictAntiOn (spline cs).shape (Set.Icc (-9/100) (1/4)) := by
  obtain ⟨q1, a1, b1⟩ := certify_spec shape_cert
  obtain ⟨h1, h2, h3⟩ := first_last b1 (segs_of_spline _ _ _ table_sorted.2.2 (distinct_of_sorted _ _ table_sorted.1) q1 a1 hcs.shape)
  refine ⟨h1, fun x a b => ?_, fun x hx y hy hxy => ?_⟩
  · have := h2 x a b; push_cast at this; linarith
  · have := h3 hx hy hxy
    show (cs tabLambda tabShape).1 y < (cs tabLambda tabShape).1 x
    push_cast at this; linarith

private theorem spline_ends : (spline cs).shear (-9/100) = 0 ∧ (spline cs).shear (1/4) = 1/2 ∧
    (spline cs).shape (-9/100) = 71/20 ∧ (spline cs).shape (1/4) = 2 := by
  obtain ⟨a1, a2⟩ := spline_interpolates hcs 0 (-9/100) 0 (71/20) (by decide +kernel) (by decide +kernel) (by decide +kernel)
  obtain ⟨b1, b2⟩ := spline_interpolates hcs 26 (1/4) (1/2) 2 (by decide +kernel) (by decide +kernel) (by decide +kernel)
  simp only [shearAt, shapeAt, spline_clip] at a1 a2 b1 b2
  push_cast at a1 a2 b1 b2
  rw [clip_inside (by norm_num) (by norm_num)] at a1 a2 b1 b2
  exact ⟨a1, b1, a2, b2⟩

/-- **C13**, Spline: at every lambda strictly inside of the range `shape_p` is the derivative of the shape factor. -/
theorem spline_shape_p (lam : ℝ) (h0 : -9/100 < lam) (h1 : lam < 1/4) :
    HasDerivAt (spline cs).shapeAt ((spline cs).shapePAt lam) lam := by
  have e : (spline cs).shapePAt lam = (cs tabLambda tabShape).2 lam := by
    show (cs tabLambda tabShape).2 ((spline cs).checkRange lam) = _
    rw [spline_clip, clip_inside h0.le h1.le]
  rw [e]
  refine ((shape_facts hcs).1 lam h0 h1).congr_of_eventuallyEq ?_
  filter_upwards [Ioo_mem_nhds h0 h1] with t ht
  rw [shapeAt, spline_clip, clip_inside ht.1.le ht.2.le]

/-- Outside of the range the shape factor is constant but `shape_p` is negative. -/
theorem spline_shape_p_outside (lam : ℝ) (h : lam < -9/100 ∨ 1/4 < lam) :
    HasDerivAt (spline cs).shapeAt 0 lam ∧ (spline cs).shapePAt lam < 0 := by
  constructor
  · have e : (spline cs).shapeAt =ᶠ[nhds lam] fun _ => (spline cs).shapeAt lam := by
      rcases h with h | h
      · filter_upwards [eventually_lt_nhds h] with t ht
        simp only [shapeAt, spline_clip]
        rw [min_eq_left (by linarith), max_eq_left ht.le, min_eq_left (by linarith), max_eq_left h.le]
      · filter_upwards [eventually_gt_nhds h] with t ht
        simp only [shapeAt, spline_clip]
        rw [min_eq_right (le_of_lt ht), min_eq_right h.le]
    exact (hasDerivAt_const lam _).congr_of_eventuallyEq e
  · show (cs tabLambda tabShape).2 ((spline cs).checkRange lam) < 0
    rw [spline_clip]
    exact (shape_facts hcs).2.1 _ (clip_mem lam).1 (clip_mem lam).2

/-- **C14**, Spline: whatever lambda is, the shape factor is between the tabulated 2.00 and 3.55 and the shear between 0 and 0.5. -/
theorem spline_bounds (lam : ℝ) : 2 ≤ (spline cs).shapeAt lam ∧ (spline cs).shapeAt lam ≤ 71/20 ∧
    0 ≤ (spline cs).shearAt lam ∧ (spline cs).shearAt lam ≤ 1/2 := by
  have hm := clip_mem lam
  obtain ⟨e1, e2, e3, e4⟩ := spline_ends hcs
  have l : (-9/100 : ℝ) ∈ Set.Icc (-9/100 : ℝ) (1/4) := ⟨le_refl _, by norm_num⟩
  have r : (1/4 : ℝ) ∈ Set.Icc (-9/100 : ℝ) (1/4) := ⟨by norm_num, le_refl _⟩
  simp only [shapeAt, shearAt, spline_clip]
  refine ⟨?_, ?_, ?_, ?_⟩
  · rw [← e4]; exact (shape_facts hcs).2.2.antitoneOn hm r hm.2
  · rw [← e3]; exact (shape_facts hcs).2.2.antitoneOn l hm hm.1
  · rw [← e1]; exact (shear_facts hcs).2.monotoneOn l hm hm.1
  · rw [← e2]; exact (shear_facts hcs).2.monotoneOn hm r hm.2

/-- **C14**, order: in the range a more favourable pressure gradient means strictly more shear and a strictly smaller shape factor, also
between the tabulated points. -/
theorem spline_monotone (l1 l2 : ℝ) (h0 : -9/100 ≤ l1) (h : l1 < l2) (h1 : l2 ≤ 1/4) :
    (spline cs).shearAt l1 < (spline cs).shearAt l2 ∧ (spline cs).shapeAt l2 < (spline cs).shapeAt l1 := by
  simp only [shapeAt, shearAt, spline_clip]
  rw [clip_inside h0 (by linarith), clip_inside (by linarith) h1]
  exact ⟨(shear_facts hcs).2 ⟨h0, by linarith⟩ ⟨by linarith, h1⟩ h, (shape_facts hcs).2.2 ⟨h0, by linarith⟩ ⟨by linarith, h1⟩ h⟩

/-- The wall shear is positive exactly above -0.09. -/
theorem spline_shear_pos_iff (lam : ℝ) : 0 < (spline cs).shearAt lam ↔ -9/100 < lam := by
  obtain ⟨e1, -⟩ := spline_ends hcs
  simp only [shearAt, spline_clip]
  constructor
  · intro h
    by_contra hc
    rw [max_eq_left ((min_le_left _ _).trans (not_lt.1 hc)), e1] at h
    exact lt_irrefl _ h
  · intro h
    rw [← e1]
    refine (shear_facts hcs).2 ⟨le_refl _, by norm_num⟩ (clip_mem lam) ?_
    rw [lt_max_iff]; right; rw [lt_min_iff]; exact ⟨h, by norm_num⟩

/-- Wall shear and shape factor are Lipschitz continuous in lambda, clipped or not. -/
theorem spline_lipschitz : ∃ K, 0 ≤ K ∧ ∀ l1 l2, |(spline cs).shearAt l2 - (spline cs).shearAt l1| ≤ K * |l2 - l1| ∧
    |(spline cs).shapeAt l2 - (spline cs).shapeAt l1| ≤ K * |l2 - l1| := by
  obtain ⟨t1, t2, t3⟩ := tab_eq
  obtain ⟨q1, a1, b1⟩ := certify_spec shear_cert
  have s1 := segs_of_spline _ _ _ table_sorted.2.1 (distinct_of_sorted _ _ table_sorted.1) q1 a1 hcs.shear
  obtain ⟨q2, a2, b2⟩ := certify_spec shape_cert
  have s2 := segs_of_spline _ _ _ table_sorted.2.2 (distinct_of_sorted _ _ table_sorted.1) q2 a2 hcs.shape
  rw [t1] at b1 b2
  obtain ⟨K1, k1, h1⟩ := segs_lip (cs tabLambda tabShear).1 (cs tabLambda tabShear).2 1 _ _ q1 b1 (by rw [← t1]; exact s1)
  obtain ⟨K2, k2, h2⟩ := segs_lip (cs tabLambda tabShape).1 (cs tabLambda tabShape).2 (-1) _ _ q2 b2 (by rw [← t1]; exact s2)
  rw [t3] at h1 h2
  push_cast at h1 h2
  have clipl : ∀ l1 l2 : ℝ, l1 ≤ l2 → max (-9/100) (min l1 (1/4)) ≤ max (-9/100) (min l2 (1/4)) ∧
      max (-9/100) (min l2 (1/4)) - max (-9/100) (min l1 (1/4)) ≤ l2 - l1 := fun l1 l2 h => by
    refine ⟨max_le_max (le_refl _) (min_le_min h (le_refl _)), ?_⟩
    rcases max_cases (-9/100) (min l2 (1/4 : ℝ)) with ⟨e, g⟩ | ⟨e, g⟩ <;> rcases max_cases (-9/100) (min l1 (1/4 : ℝ)) with ⟨e', g'⟩ | ⟨e', g'⟩ <;>
    rcases min_cases l2 (1/4 : ℝ) with ⟨i, j⟩ | ⟨i, j⟩ <;> rcases min_cases l1 (1/4 : ℝ) with ⟨i', j'⟩ | ⟨i', j'⟩ <;>
    rw [e, e'] <;> linarith
  have key : ∀ (f : ℝ → ℝ) (K : ℝ), 0 ≤ K → (∀ x y : ℝ, -9/100 ≤ x → x ≤ y → y ≤ 1/4 → |f y - f x| ≤ K * (y - x)) → ∀ l1 l2 : ℝ, l1 ≤ l2 →
      |f (max (-9/100) (min l2 (1/4))) - f (max (-9/100) (min l1 (1/4)))| ≤ K * |l2 - l1| := fun f K hK hf l1 l2 h => by
    obtain ⟨c1, c2⟩ := clipl l1 l2 h
    rw [abs_of_nonneg (sub_nonneg.2 h)]
    exact (hf _ _ (clip_mem l1).1 c1 (clip_mem l2).2).trans (mul_le_mul_of_nonneg_left c2 hK)
  refine ⟨max K1 K2, le_max_of_le_left k1, fun l1 l2 => ?_⟩
  have m1 : K1 * |l2 - l1| ≤ max K1 K2 * |l2 - l1| := mul_le_mul_of_nonneg_right (le_max_left _ _) (abs_nonneg _)
  have m2 : K2 * |l2 - l1| ≤ max K1 K2 * |l2 - l1| := mul_le_mul_of_nonneg_right (le_max_right _ _) (abs_nonneg _)
  simp only [shearAt, shapeAt, spline_clip]
  rcases le_total l1 l2 with h | h
  · exact ⟨(key _ K1 k1 h1 l1 l2 h).trans m1, (key _ K2 k2 h2 l1 l2 h).trans m2⟩
  · rw [abs_sub_comm l2 l1] at m1 m2 ⊢
    refine ⟨?_, ?_⟩
    · rw [abs_sub_comm]; exact (key _ K1 k1 h1 l2 l1 h).trans m1
    · rw [abs_sub_comm]; exact (key _ K2 k2 h2 l2 l1 h).trans m2

/-- **C15**, Spline: the critical lambda is -0.09. -/
theorem spline_signals : SignalsSeparation (spline cs) :=
  ⟨-9/100, by norm_num, by norm_num, fun lam h _ => (spline_shear_pos_iff hcs lam).2 h,
    fun lam h => not_lt.1 fun hc => absurd ((spline_shear_pos_iff hcs lam).1 hc) (not_lt.2 h)⟩

omit hcs in
/-- **C15** as stated, for the four built-in fits. -/
def AllSignalSeparation (cs : CubicSpline ℝ) : Prop :=
  SignalsSeparation (spline cs) ∧ SignalsSeparation Fits.white ∧ SignalsSeparation cebeciBradshaw ∧ SignalsSeparation drela

/-- **C15** where it holds: three of the four built-in fits (missing: Drela, `all_signal_fails`). -/
theorem signals_separation_partial : SignalsSeparation (spline cs) ∧ SignalsSeparation Fits.white ∧ SignalsSeparation cebeciBradshaw :=
  ⟨spline_signals hcs, white_signals, cb_signals⟩

omit hcs in
/-- **C15** is false of the code. -/
theorem all_signal_fails : ¬ AllSignalSeparation cs := fun h => drela_never_signals h.2.2.2

/-- What the integrator sees with the default fits: the separation event is not positive exactly when `lambda <= -0.09`. -/
theorem spline_event_iff (o : Obj ℝ) (x F d : ℝ) (hd : o.vel.duE x = .ok d) :
    ∃ v, o.eventValue (.sepThwaites (spline cs)) x [F] = .ok v ∧ (v ≤ 0 ↔ F * d ≤ -9/100) := by
  refine ⟨_, (separation_event_value o (spline cs) x F d hd).1, ?_⟩
  rw [← not_lt, spline_shear_pos_iff hcs, not_lt]

/-- But the event value never gets negative: below -0.09 it is exactly zero. -/
theorem spline_event_nonneg (o : Obj ℝ) (x F d : ℝ) (hd : o.vel.duE x = .ok d) :
    ∃ v, o.eventValue (.sepThwaites (spline cs)) x [F] = .ok v ∧ 0 ≤ v ∧ (F * d ≤ -9/100 → v = 0) := by
  refine ⟨_, (separation_event_value o (spline cs) x F d hd).1, (spline_bounds hcs _).2.2.1, fun h => ?_⟩
  refine le_antisymm (not_lt.1 fun hc => ?_) (spline_bounds hcs _).2.2.1
  exact absurd ((spline_shear_pos_iff hcs _).1 hc) (not_lt.2 h)

end

/-- The specification leaves no freedom: any two such splines give the same fits. -/
theorem spline_unique {cs cs' : CubicSpline ℝ} (h : TableSplines cs) (h' : TableSplines cs') (lam : ℝ) :
    (spline cs).shearAt lam = (spline cs').shearAt lam ∧ (spline cs).shapeAt lam = (spline cs').shapeAt lam ∧
    (spline cs).shapePAt lam = (spline cs').shapePAt lam := by
  have agree : ∀ (f f' g g' : ℝ → ℝ) (s x0 : ℚ) (xs : List ℚ) (qs : List (Cubic ℚ)), slopeSign s (x0 :: xs) qs = true → xs ≠ [] →
      Segs f f' (x0 :: xs) qs → Segs g g' (x0 :: xs) qs → ∀ x : ℝ, (x0 : ℝ) ≤ x → x ≤ lastOf x0 xs → f x = g x ∧ f' x = g' x := by
    intro f f' g g' s x0 xs
    induction xs generalizing x0 with
    | nil => intro _ _ hne; exact absurd rfl hne
    | cons x1 xs ih =>
      intro qs hc _ h1 h2 x a b
      cases qs with
      | nil => cases hc
      | cons q qs =>
        by_cases hx : x ≤ x1
        · rw [(h1.1 x a hx).1, (h1.1 x a hx).2, (h2.1 x a hx).1, (h2.1 x a hx).2]; exact ⟨rfl, rfl⟩
        · have hx' := not_le.1 hx
          cases xs with
          | nil => exact absurd b (not_le.2 hx')
          | cons x2 xs =>
            rw [slopeSign, Bool.and_eq_true] at hc
            exact ih x1 qs hc.2 (by simp) h1.2 h2.2 x hx'.le b
  have use : ∀ (f g : (ℝ → ℝ) × (ℝ → ℝ)) (s : ℚ) (ys : List ℚ), tabLambda.length = ys.length → certify s tabLambda ys = true →
      IsSplineOf f tabLambda ys → IsSplineOf g tabLambda ys → ∀ x ∈ Set.Icc (-9/100 : ℝ) (1/4), f.1 x = g.1 x ∧ f.2 x = g.2 x := by
    intro f g s ys hlen hc hf hg x hx
    obtain ⟨q1, a1, b1⟩ := certify_spec hc
    have hsf := segs_of_spline _ _ _ hlen (distinct_of_sorted _ _ table_sorted.1) q1 a1 hf
    have hsg := segs_of_spline _ _ _ hlen (distinct_of_sorted _ _ table_sorted.1) q1 a1 hg
    obtain ⟨t1, t2, t3⟩ := tab_eq
    rw [t1] at b1 hsf hsg
    refine agree _ _ _ _ s _ _ q1 b1 t2 hsf hsg x ?_ ?_
    · have := hx.1; push_cast; linarith
    · rw [t3]; have := hx.2; push_cast; linarith
  have hm := clip_mem lam
  refine ⟨?_, ?_, ?_⟩
  · simp only [shearAt, spline_clip]
    exact (use _ _ 1 _ table_sorted.2.1 shear_cert h.shear h'.shear _ hm).1
  · simp only [shapeAt, spline_clip]
    exact (use _ _ (-1) _ table_sorted.2.2 shape_cert h.shape h'.shape _ hm).1
  · show (cs tabLambda tabShape).2 ((spline cs).checkRange lam) = (cs' tabLambda tabShape).2 ((spline cs').checkRange lam)
    simp only [spline_clip]
    exact (use _ _ (-1) _ table_sorted.2.2 shape_cert h.shape h'.shape _ hm).2

end IBL
