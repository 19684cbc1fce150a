import Verif.Props.RungeKuttaFlow
import Verif.Props.SeparationOrder
import Verif.Props.HeadSeparates

/-!
C136: the reported separation point converges to that of the exact layer.
-/

namespace IBL
open SolveIvp RungeKutta Fits

/-! ### Specification -/

/-- The verdict of `solve` about separation converges to: the layer separates at `xs`. However small `ε`, for all calls from `x0` to some `x1'`, with start vector
`y0` and no events of the user, in which RK45 takes no step longer than some `δ`, and that report success: SEPARATED is reported if the interval goes on for at least
`ε` behind `xs`; REACHED_END is reported if it ends at least `ε` before; and wherever SEPARATED is reported the reported end is not more than `ε` away from `xs`.
And if the spacing of the numbers between `x0` and `x1` does not exceed `δ` either, success is reported. -/
def SeparationConverges (o : Obj ℝ) (x0 x1 : ℝ) (y0 : List ℝ) (xs : ℝ) : Prop :=
  ∀ ε, 0 < ε → ∃ δ, 0 < δ ∧ ∀ (gap : ℝ → ℝ → ℝ) (m : ℝ) (stepper : Stepper ℝ) (root : RootFinder ℝ) (o' o'' : Obj ℝ) (p : IvpProblem ℝ)
    (r : IntegrationResult ℝ) (x1' : ℝ), x0 < x1' → Spaced gap m → (∀ p, Runs gap p (stepper p)) →
    (∀ g a b x, root g a b = .ok x → x ∈ Set.uIcc a b) → o.prepare x0 x1' .none = (o', .ok p) → p.y0 = y0 →
    o.solve x0 x1' .none (ivp o.eventValue stepper root) = (o'', .ok r) → ShortSteps δ x0 r (stepper p).steps →
    (r.success = true → (xs + ε ≤ x1' → r.status = .separated) ∧ (x1' ≤ xs - ε → r.status = .reachedEnd ∧ r.xEnd = x1') ∧
      (r.status = .separated ∧ |r.xEnd - xs| ≤ ε ∨ r.status = .reachedEnd ∧ r.xEnd = x1')) ∧
    ((∀ t ∈ Set.Icc x0 x1, gap t 1 ≤ δ) → r.success = true)

/-- The verdict of `solve` converges to: the layer stays attached up to `x1`. -/
def AttachedConverges (o : Obj ℝ) (x0 x1 : ℝ) (y0 : List ℝ) : Prop :=
  ∃ δ, 0 < δ ∧ ∀ (gap : ℝ → ℝ → ℝ) (m : ℝ) (stepper : Stepper ℝ) (root : RootFinder ℝ) (o' o'' : Obj ℝ) (p : IvpProblem ℝ)
    (r : IntegrationResult ℝ) (x1' : ℝ), x1' ∈ Set.Ioc x0 x1 → Spaced gap m → (∀ p, Runs gap p (stepper p)) →
    (∀ g a b x, root g a b = .ok x → x ∈ Set.uIcc a b) → o.prepare x0 x1' .none = (o', .ok p) → p.y0 = y0 →
    o.solve x0 x1' .none (ivp o.eventValue stepper root) = (o'', .ok r) → ShortSteps δ x0 r (stepper p).steps →
    (r.success = true → r.status = .reachedEnd ∧ r.xEnd = x1') ∧
    ((∀ t ∈ Set.Icc x0 x1, gap t 1 ≤ δ) → r.success = true)

/-! ### Any method -/

/-- The event `e` is met exactly where the margin `κ` is not positive, and near `φ` the margin depends on the state in a Lipschitz continuous way. -/
structure Margin (o : Obj ℝ) (e : Event ℝ) (κ : ℝ → List ℝ → ℝ) (φ : ℝ → List ℝ) (n : ℕ) (x0 x1 K : ℝ) : Prop where
  sep : e.info.1 = .separated
  value : ∀ x y, y.length = n → ∃ v, o.eventValue e x y = .ok v ∧ (0 < v ↔ 0 < κ x y)
  near : ∀ x ∈ Set.Icc x0 x1, ∀ y δ, y.length = n → (∀ j, |y.getD j 0 - (φ x).getD j 0| ≤ δ) → |κ x y - κ x (φ x)| ≤ K * δ

private theorem last_append (pre : List (Step ℝ)) (s : Step ℝ) (a : ℝ × List ℝ) : lastPt a (pre ++ [s]) = s.pt := by
  induction pre generalizing a with
  | nil => rfl
  | cons q pre ih => exact ih _

private theorem Consistent.at {pre post : List (Step ℝ)} {s : Step ℝ} {a : ℝ × List ℝ} (H : Consistent a (pre ++ s :: post)) :
    (lastPt a pre).1 < s.t ∧ s.dense (lastPt a pre).1 = (lastPt a pre).2 ∧ s.dense s.t = s.y := by
  induction pre generalizing a with
  | nil => exact ⟨H.1, H.2.1, H.2.2.1⟩
  | cons q pre ih => exact ih H.2.2.2

private theorem StepsAtMost.at {h : ℝ} {y : List ℝ} {pre post : List (Step ℝ)} {s : Step ℝ} {t : ℝ} (H : StepsAtMost h t (pre ++ s :: post)) :
    s.t - (lastPt (t, y) pre).1 ≤ h := by
  induction pre generalizing t y with
  | nil => exact H.1
  | cons q pre ih => exact ih (y := q.y) H.2

private theorem StepsAtMost.take {δ : ℝ} : ∀ {l l' : List (Step ℝ)} {t : ℝ}, StepsAtMost δ t (l ++ l') → StepsAtMost δ t l
  | [], _, _, _ => trivial
  | _ :: _, _, _, H => ⟨H.1, StepsAtMost.take H.2⟩

/-- What a run says about the margin of the exact layer, up to the error `E` and as far as `x1`: at the first accepted point that is beyond the criterion, and at all
accepted points before, or at all accepted points. -/
private theorem run_margin {o : Obj ℝ} {e : Event ℝ} {κ : ℝ → List ℝ → ℝ} {φ : ℝ → List ℝ} {n : ℕ} {x0 x1 K : ℝ}
    (T : Approaches o.rhs φ n x0 x1) (hlen : (φ x0).length = n) (hn : n ≠ 0) (hev : o.events = [e]) (M : Margin o e κ φ n x0 x1 K)
    (h0 : 0 < κ x0 (φ x0)) (E : ℝ) (hE : 0 < E) :
    ∃ δ', 0 < δ' ∧ ∀ (δ : ℝ) (gap : ℝ → ℝ → ℝ) (m : ℝ) (stepper : Stepper ℝ) (root : RootFinder ℝ) (o' o'' : Obj ℝ) (p : IvpProblem ℝ)
      (r : IntegrationResult ℝ) (x1' : ℝ), 0 < δ → δ ≤ δ' → x0 < x1' → Spaced gap m → (∀ p, Runs gap p (stepper p)) →
      (∀ g a b x, root g a b = .ok x → x ∈ Set.uIcc a b) → o.prepare x0 x1' .none = (o', .ok p) → p.y0 = φ x0 →
      o.solve x0 x1' .none (ivp o.eventValue stepper root) = (o'', .ok r) → ShortSteps δ x0 r (stepper p).steps →
      ∃ l : List (Step ℝ), (∀ s ∈ l, s.t ∈ Set.Ioc x0 x1' ∧ (s.t ≤ x1 → -E < κ s.t (φ s.t))) ∧ StepsAtMost δ x0 l ∧ x0 ≤ (lastPt (x0, φ x0) l).1 ∧
        (r.success = true →
          (r.status = .separated ∧ ∃ t ∈ Set.Ioc x0 x1', (t ≤ x1 → κ t (φ t) < E) ∧ (lastPt (x0, φ x0) l).1 ≤ r.xEnd ∧ r.xEnd ≤ t ∧
            t ≤ (lastPt (x0, φ x0) l).1 + δ) ∨
          (r.status = .reachedEnd ∧ r.xEnd = x1' ∧ (lastPt (x0, φ x0) l).1 = x1')) ∧
        (r.success = false → (∀ t ∈ Set.Icc x0 x1, gap t 1 ≤ δ) → ∃ q, q < 50 * gap (lastPt (x0, φ x0) l).1 1 ∧ (lastPt (x0, φ x0) l).1 + q ≤ x1' ∧
          x1 < (lastPt (x0, φ x0) l).1 + q) := by
  have hK : 0 < |K| + 1 := by positivity
  obtain ⟨δ', hδ', H⟩ := T (E / (2 * (|K| + 1))) (1 / 10 ^ 11) (by positivity) (by norm_num)
  have hKE : K * (E / (2 * (|K| + 1))) < E := by
    have h1 : K * (E / (2 * (|K| + 1))) ≤ (|K| + 1) * (E / (2 * (|K| + 1))) :=
      mul_le_mul_of_nonneg_right (by linarith [le_abs_self K]) (by positivity)
    have h2 : (|K| + 1) * (E / (2 * (|K| + 1))) = E / 2 := by field_simp
    linarith
  refine ⟨δ', hδ', ?_⟩
  intro δ gap m stepper root o' o'' p r x1' hδ0 hδ hx1 hg hst hroot hp hy hs hmax
  obtain ⟨e1, -, -⟩ := prepare_rhs hp
  obtain ⟨-, -, -, -, -, -, h7, h8, h9⟩ := prepare_problem hp
  have hx01 : p.x0 < p.x1 := by rw [h7, h8]; exact hx1
  have hyne : p.y0 ≠ [] := by
    intro h
    rw [hy] at h; rw [h] at hlen; exact hn hlen.symm
  obtain ⟨W, nofail⟩ := H p gap m (stepper p) δ e1 h7 (by rw [h8]; exact hx1) hy hg (hst p) hδ
  obtain ⟨c1, c2, c3, -⟩ := rk45_steps hg (hst p) hx01 hyne
  rw [h7] at c1
  obtain ⟨con, inside⟩ := rk45_consistent hp hx1 hg (hst p)
  have acc : ∀ l l', (stepper p).steps = l ++ l' → StepsAtMost δ x0 l → ∀ s ∈ l, s.t ≤ x1 →
      ∃ v, o.eventValue e s.t s.y = .ok v ∧ (0 < v → -E < κ s.t (φ s.t)) ∧ (v ≤ 0 → κ s.t (φ s.t) < E) := fun l l' hl hshort s hs' hsx => by
    obtain ⟨pre, post, q⟩ := List.append_of_mem hs'
    have q1 : (stepper p).steps = (pre ++ [s]) ++ (post ++ l') := by rw [hl, q]; simp
    have q2 : l = (pre ++ [s]) ++ post := by rw [q]; simp
    have q3 : (stepper p).steps = pre ++ s :: (post ++ l') := by rw [q1]; simp
    have i := inside s (by rw [q1]; simp)
    have le := (q1 ▸ c1).take.le_last.2
    rw [last_append] at le
    have W' := W _ _ q1 (fun t ht => (le t ht).trans hsx) (q2 ▸ hshort).take
    rw [q3] at con
    obtain ⟨c1, -, c3⟩ := con.at
    obtain ⟨k1, k2⟩ := W'.at (y := p.y0) (x := s.t) ⟨c1.le, le_rfl⟩
    rw [c3] at k1 k2
    obtain ⟨v, v1, v2⟩ := M.value s.t s.y k1
    have := abs_le.1 (M.near s.t ⟨i.1.le, hsx⟩ s.y _ k1 k2)
    exact ⟨v, v1, fun hv => by linarith [this.2, v2.1 hv], fun hv => by linarith [this.1, not_lt.1 (mt v2.2 (not_lt.2 hv))]⟩
  have sr : SepRun o e x0 x1' stepper root p r := ⟨hev, M.sep, by rw [hp], by rw [hs], fun s hs' =>
    (M.value s.t s.y ((c2 s hs').2.2.trans (by rw [hy, hlen]))).imp fun _ h => h.1⟩
  obtain ⟨v0, w1, w2⟩ := M.value x0 (φ x0) hlen
  have hv0 : o.eventValue e x0 p.y0 = .ok v0 := by rw [hy]; exact w1
  have hv0p := w2.2 h0
  have out := solve_outcome o.eventValue stepper root hp hs
  by_cases hsep : r.status = .separated
  · have hok : r.success = true := by
      cases out with
      | failed _ _ _ hs' => rw [hs'] at hsep; cases hsep
      | reached _ _ _ _ hok => exact hok
      | stopped _ _ _ _ _ _ _ _ _ _ _ hok => exact hok
    obtain ⟨pre, rest, s, va, vb, q, hpre, -, -, hb, hbneg, hrt, -⟩ := separation_step sr _ hv0 hv0p hsep
    have hs' : s ∈ (stepper p).steps := by rw [q]; simp
    have q1 : (stepper p).steps = (pre ++ [s]) ++ rest := by rw [q]; simp
    have cs := con
    rw [q] at cs
    have rt := hroot _ _ _ _ hrt
    rw [Set.uIcc_of_le cs.at.1.le] at rt
    have short : StepsAtMost δ x0 (pre ++ [s]) := StepsTo.upto (a := (x0, p.y0)) (q ▸ hmax.1 hok) (q ▸ c1) rt.1
    have acc' := acc _ _ q1 short
    rw [hy] at rt
    refine ⟨pre, fun t ht => ?_, short.take, ?_, fun _ => .inl ⟨hsep, s.t, inside s hs', fun hsx => ?_, rt.1, rt.2, ?_⟩, fun h => by rw [hok] at h; cases h⟩
    · refine ⟨inside t (by rw [q]; simp [ht]), fun htx => ?_⟩
      obtain ⟨v, v1, v2, -⟩ := acc' t (by simp [ht]) htx
      obtain ⟨v', v1', v2'⟩ := hpre t ht
      rw [v1] at v1'; cases v1'
      exact v2 v2'
    · rw [← hy]
      exact (q ▸ c1).take.le_last.1
    · obtain ⟨v, v1, -, v3⟩ := acc' s (by simp) hsx
      rw [hb] at v1; cases v1
      exact v3 hbneg
    · have := short.at (y := φ x0)
      linarith
  · have short : StepsAtMost δ x0 (stepper p).steps := by
      cases out with
      | failed _ _ _ _ _ hf => exact hmax.2 hf
      | reached _ he _ hxe hok =>
        obtain ⟨st, l1, l2⟩ := c3.1 he
        obtain ⟨pre, q⟩ := List.getLast?_eq_some_iff.1 l1
        have := hmax.1 hok
        rw [hxe, q, last_append] at this
        have c1' := c1
        rw [q] at c1' ⊢
        refine StepsTo.upto (a := (x0, p.y0)) this c1' ?_
        have := c1'.le_last
        rw [last_append] at this
        rcases List.eq_nil_or_concat pre with h | ⟨pre', t, h⟩
        · rw [h]
          exact this.1
        · rw [List.concat_eq_append] at h
          rw [h, last_append]
          exact this.2 t (by rw [h]; simp)
      | stopped pre rest s i e' hsteps hq hi hf hst' =>
        obtain ⟨-, h2, -, -⟩ := prepare_fields hp
        rw [h2, hev] at hi
        have : e' = e := by
          cases i with
          | zero => simpa [TermArg.toList] using hi.symm
          | succ i => simp [TermArg.toList] at hi
        subst this
        exact absurd (hst'.trans M.sep) hsep
    refine ⟨(stepper p).steps, fun t ht => ⟨inside t ht, fun htx => ?_⟩, short, ?_, fun hok => .inr ?_, fun hf hgap => ?_⟩
    · obtain ⟨v, v1, v2, -⟩ := acc _ [] (by simp) short t ht htx
      refine v2 ?_
      by_contra hv
      exact hsep ((separation_reported_iff sr _ hv0 hv0p).2 ⟨t, ht, v, v1, not_lt.1 hv⟩)
    · rw [← hy]
      exact c1.le_last.1
    · cases out with
      | failed _ _ _ _ _ hf => rw [hok] at hf; cases hf
      | reached _ he hs' hxe _ =>
        obtain ⟨st, l1, l2⟩ := c3.1 he
        obtain ⟨pre, q⟩ := List.getLast?_eq_some_iff.1 l1
        refine ⟨hs', ?_, ?_⟩
        · rw [hxe, q, last_append, ← h8]; exact l2
        · rw [q, last_append, ← h8]; exact l2
      | stopped pre rest s i e' hsteps hq hi hf hst' =>
        obtain ⟨-, h2, -, -⟩ := prepare_fields hp
        rw [h2, hev] at hi
        have : e' = e := by
          cases i with
          | zero => simpa [TermArg.toList] using hi.symm
          | succ i => simp [TermArg.toList] at hi
        subst this
        exact absurd (hst'.trans M.sep) hsep
    · cases out with
      | failed msg _ he =>
        rw [← h8]
        exact nofail short (by rw [h9]; norm_num) (fun t ht => (hgap t ht).trans hδ) msg he
      | reached _ _ _ _ hok => rw [hf] at hok; cases hok
      | stopped _ _ _ _ _ _ _ _ _ _ _ hok => rw [hf] at hok; cases hok

/-- Separation, when the steps of RK45 stay close to `φ`: its margin to the separation criterion is positive before `xs` and negative from there to some `x2`. -/
theorem Approaches.separation_converges {o : Obj ℝ} {e : Event ℝ} {κ : ℝ → List ℝ → ℝ} {φ : ℝ → List ℝ} {n : ℕ} {x0 x1 K xs x2 : ℝ}
    (T : Approaches o.rhs φ n x0 x1) (hlen : (φ x0).length = n) (hn : n ≠ 0) (hev : o.events = [e]) (M : Margin o e κ φ n x0 x1 K)
    (hκ : ContinuousOn (fun x => κ x (φ x)) (Set.Icc x0 x1)) (hxs : x0 < xs) (hx2 : x2 ∈ Set.Ioc xs x1) (pos : ∀ x ∈ Set.Ico x0 xs, 0 < κ x (φ x))
    (neg : ∀ x ∈ Set.Ioc xs x2, κ x (φ x) < 0) : SeparationConverges o x0 x1 (φ x0) xs := by
  intro ε hε
  have hx : x0 < x1 := hxs.trans (hx2.1.trans_le hx2.2)
  obtain ⟨η, hη⟩ : ∃ η, η = min ε (x2 - xs) := ⟨_, rfl⟩
  have hη0 : 0 < η := by rw [hη]; exact lt_min hε (by linarith [hx2.1])
  have hη1 : η ≤ ε := by rw [hη]; exact min_le_left _ _
  have hη2 : xs + η ≤ x2 := by have : η ≤ x2 - xs := by rw [hη]; exact min_le_right _ _
                               linarith
  obtain ⟨c1, hc1, up⟩ : ∃ c, 0 < c ∧ ∀ x ∈ Set.Icc x0 (xs - η / 2), c ≤ κ x (φ x) := by
    rcases (Set.Icc x0 (xs - η / 2)).eq_empty_or_nonempty with h | h
    · exact ⟨1, one_pos, fun x hx => by rw [h] at hx; exact absurd hx (Set.notMem_empty x)⟩
    · obtain ⟨z, hz, hmin⟩ := isCompact_Icc.exists_isMinOn h (hκ.mono (Set.Icc_subset_Icc le_rfl (by linarith [hx2.1, hx2.2])))
      exact ⟨_, pos z ⟨hz.1, by linarith [hz.2]⟩, fun x hx => hmin hx⟩
  obtain ⟨c2, hc2, down⟩ : ∃ c, 0 < c ∧ ∀ x ∈ Set.Icc (xs + η / 2) (xs + η), κ x (φ x) ≤ -c := by
    obtain ⟨z, hz, hmax⟩ := isCompact_Icc.exists_isMaxOn (Set.nonempty_Icc.2 (by linarith : xs + η / 2 ≤ xs + η))
      (hκ.mono (Set.Icc_subset_Icc (by linarith) (hη2.trans hx2.2)))
    exact ⟨_, neg_pos.2 (neg z ⟨by linarith [hz.1], hz.2.trans hη2⟩), fun x hx => by rw [neg_neg]; exact hmax hx⟩
  obtain ⟨δ', hδ', H⟩ := run_margin T hlen hn hev M (pos x0 ⟨le_rfl, hxs⟩) (min c1 c2) (lt_min hc1 hc2)
  refine ⟨min δ' (η / 200), lt_min hδ' (by linarith), fun gap m stepper root o' o'' p r x1' hx1 hg hst hroot hp hy hs hmax => ?_⟩
  obtain ⟨δ, hδ⟩ : ∃ δ, δ = min δ' (η / 200) := ⟨_, rfl⟩
  rw [← hδ] at hmax ⊢
  have hδ1 : δ ≤ δ' := by rw [hδ]; exact min_le_left _ _
  have hδ2 : δ ≤ η / 200 := by rw [hδ]; exact min_le_right _ _
  obtain ⟨l, hl, hlm, hl0, k1, k2⟩ := H δ gap m stepper root o' o'' p r x1' (by rw [hδ]; exact lt_min hδ' (by linarith)) hδ1 hx1 hg hst hroot hp hy hs hmax
  -- no accepted point of `l` is in the zone behind `xs`, so `l` does not get beyond it
  have stay : (lastPt (x0, φ x0) l).1 < xs + η / 2 := by
    by_contra hn
    push Not at hn
    have hne : l ≠ [] := by
      rintro rfl
      change xs + η / 2 ≤ x0 at hn
      linarith
    obtain ⟨pre, s, post, q, hm⟩ := covered hne (show x0 ≤ xs + η / 2 by linarith) hn
    have h1 := hl s (by rw [q]; simp)
    rw [q] at hlm
    have h2 := hlm.at (y := φ x0)
    have h3 := down s.t ⟨hm.2, by linarith [hm.1]⟩
    linarith [h1.2 (by linarith [hm.1, hx2.2]), min_le_right c1 c2]
  refine ⟨fun hok => ?_, fun hgap => ?_⟩
  · rcases k1 hok with ⟨s1, t, ht, s2, s3, s4, s5⟩ | ⟨s1, s2, s3⟩
    · have ht' : xs - η / 2 < t := by
        by_contra hn
        linarith [up t ⟨ht.1.le, not_lt.1 hn⟩, min_le_left c1 c2, s2 (by linarith [hx2.1, hx2.2])]
      refine ⟨fun _ => s1, fun h => ?_, .inl ⟨s1, ?_⟩⟩
      · linarith [ht.2]
      · rw [abs_le]; constructor <;> linarith
    · rw [s3] at stay
      exact ⟨fun h => by linarith, fun _ => ⟨s1, s2⟩, .inr ⟨s1, s2⟩⟩
  · by_contra hf
    obtain ⟨q, q1, -, q3⟩ := k2 (by simpa using hf) hgap
    linarith [hgap _ ⟨hl0, by linarith [hx2.1, hx2.2]⟩, hx2.2]

/-- The same for layers that stay attached. -/
theorem Approaches.attached_converges {o : Obj ℝ} {e : Event ℝ} {κ : ℝ → List ℝ → ℝ} {φ : ℝ → List ℝ} {n : ℕ} {x0 x1 K : ℝ}
    (T : Approaches o.rhs φ n x0 x1) (hlen : (φ x0).length = n) (hn : n ≠ 0) (hev : o.events = [e]) (M : Margin o e κ φ n x0 x1 K)
    (hκ : ContinuousOn (fun x => κ x (φ x)) (Set.Icc x0 x1)) (hx : x0 < x1) (pos : ∀ x ∈ Set.Icc x0 x1, 0 < κ x (φ x)) :
    AttachedConverges o x0 x1 (φ x0) := by
  obtain ⟨z, hz, hmin⟩ := isCompact_Icc.exists_isMinOn (Set.nonempty_Icc.2 hx.le) hκ
  obtain ⟨δ, hδ, H⟩ := run_margin T hlen hn hev M (pos x0 ⟨le_rfl, hx.le⟩) _ (pos z hz)
  refine ⟨δ, hδ, fun gap m stepper root o' o'' p r x1' hx1 hg hst hroot hp hy hs hmax => ?_⟩
  obtain ⟨l, -, -, -, k1, k2⟩ := H δ gap m stepper root o' o'' p r x1' hδ le_rfl hx1.1 hg hst hroot hp hy hs hmax
  refine ⟨fun hok => ?_, fun hgap => ?_⟩
  · rcases k1 hok with ⟨-, t, ht, s2, -⟩ | ⟨s1, s2, -⟩
    · exact absurd (s2 (ht.2.trans hx1.2)) (not_lt.2 (hmin ⟨ht.1.le, ht.2.trans hx1.2⟩))
    · exact ⟨s1, s2⟩
  · by_contra hf
    obtain ⟨q, -, q2, q3⟩ := k2 (by simpa using hf) hgap
    linarith [hx1.2]

/-- **C136**, any method: `φ` solves the equation of the object and its margin to the separation criterion is positive before `xs` and negative from there to some `x2`. -/
theorem rk45_separation_converges {o : Obj ℝ} {e : Event ℝ} {κ : ℝ → List ℝ → ℝ} {φ g : ℝ → List ℝ} {n : ℕ} {x0 x1 D L ρ K xs x2 : ℝ}
    (P : SmoothPath o.rhs φ g n x0 x1 D L ρ) (hρ : 0 < ρ) (hn : n ≠ 0) (hev : o.events = [e]) (M : Margin o e κ φ n x0 x1 K)
    (hκ : ContinuousOn (fun x => κ x (φ x)) (Set.Icc x0 x1)) (hxs : x0 < xs) (hx2 : x2 ∈ Set.Ioc xs x1) (pos : ∀ x ∈ Set.Ico x0 xs, 0 < κ x (φ x))
    (neg : ∀ x ∈ Set.Ioc xs x2, κ x (φ x) < 0) : SeparationConverges o x0 x1 (φ x0) xs :=
  have hx := hxs.trans (hx2.1.trans_le hx2.2)
  (rk45_converges P hρ hx hn).approaches.separation_converges (P.size x0 ⟨le_rfl, hx.le⟩) hn hev M hκ hxs hx2 pos neg

/-- **C136**, any method, layers that stay attached. -/
theorem rk45_attached_converges {o : Obj ℝ} {e : Event ℝ} {κ : ℝ → List ℝ → ℝ} {φ g : ℝ → List ℝ} {n : ℕ} {x0 x1 D L ρ K : ℝ}
    (P : SmoothPath o.rhs φ g n x0 x1 D L ρ) (hρ : 0 < ρ) (hn : n ≠ 0) (hev : o.events = [e]) (M : Margin o e κ φ n x0 x1 K)
    (hκ : ContinuousOn (fun x => κ x (φ x)) (Set.Icc x0 x1)) (hx : x0 < x1) (pos : ∀ x ∈ Set.Icc x0 x1, 0 < κ x (φ x)) :
    AttachedConverges o x0 x1 (φ x0) :=
  (rk45_converges P hρ hx hn).approaches.attached_converges (P.size x0 ⟨le_rfl, hx.le⟩) hn hev M hκ hx pos

/-! ### Thwaites' methods -/

theorem thwaites_margin {o : Obj ℝ} {m : Fits ℝ} {ls : ℝ} {du F : ℝ → ℝ} {x0 x1 : ℝ} (hatt : ∀ lam, 0 < m.shearAt lam ↔ ls < lam)
    (hduE : ∀ t, o.vel.duE t = .ok (du t)) (hdu : ContinuousOn du (Set.Icc x0 x1)) :
    ∃ K, Margin o (.sepThwaites m) (fun x y => y.getD 0 0 * du x - ls) (fun x => [F x]) 1 x0 x1 K := by
  obtain ⟨V, hV⟩ := isCompact_Icc.exists_bound_of_continuousOn hdu
  simp only [Real.norm_eq_abs] at hV
  refine ⟨V, rfl, fun x y hy => ?_, fun x hx y δ hy hd => ?_⟩
  · obtain ⟨z, rfl⟩ := List.length_eq_one_iff.1 hy
    refine ⟨m.shearAt (z * du x), by simp [Obj.eventValue, Obj.calcLambda, hduE, bind, Except.bind, pure, Except.pure], ?_⟩
    rw [hatt, List.getD_cons_zero, sub_pos]
  · obtain ⟨z, rfl⟩ := List.length_eq_one_iff.1 hy
    have d0 : |z - F x| ≤ δ := hd 0
    simp only [List.getD_cons_zero]
    rw [show z * du x - ls - (F x * du x - ls) = (z - F x) * du x by ring, abs_mul, mul_comm V]
    exact mul_le_mul d0 (hV x hx) (abs_nonneg _) ((abs_nonneg _).trans d0)

/-- **C136** for Thwaites' methods, the linear one with any fits and the nonlinear one with any built-in fits, White's only for layers that stay attached: the wall shear of the fits is positive
exactly where lambda is above `ls`, the velocity gradient is Lipschitz continuous, the velocity stays above -0.001, and `F` is a solution of the equation on
`[x0, x1]`. If lambda of this layer is above `ls` before `xs` and below it for some way behind, the verdicts of `solve` converge to separation at `xs`. If lambda
stays above `ls`, they converge to a layer that stays attached. -/
theorem thwaites_separation_converges {o : Obj ℝ} {m : Fits ℝ} {ls : ℝ} {u du F : ℝ → ℝ} {x0 x1 : ℝ}
    (hc : Regular o m F du x0 x1) (hev : o.events = [.sepThwaites m])
    (hatt : ∀ lam, 0 < m.shearAt lam ↔ ls < lam) (huE : ∀ t, o.vel.uE t = .ok (u t)) (hduE : ∀ t, o.vel.duE t = .ok (du t))
    (hu : ∀ x ∈ Set.Icc x0 x1, HasDerivWithinAt u (du x) (Set.Icc x0 x1) x) (hdu : LipOn du x0 x1) (hu0 : ∀ x ∈ Set.Icc x0 x1, -(1/1000) < u x) (hx : x0 < x1)
    (ode : ∀ x ∈ Set.Icc x0 x1, SatisfiesOde o F x) :
    (∀ xs x2, x0 < xs → x2 ∈ Set.Ioc xs x1 → (∀ x ∈ Set.Ico x0 xs, ls < F x * du x) → (∀ x ∈ Set.Ioc xs x2, F x * du x < ls) →
      SeparationConverges o x0 x1 [F x0] xs) ∧
    ((∀ x ∈ Set.Icc x0 x1, ls < F x * du x) → AttachedConverges o x0 x1 [F x0]) := by
  have cdu := hdu.continuousOn
  have hFc : ContinuousOn F (Set.Icc x0 x1) := fun x hx' => by
    obtain ⟨r, -, h⟩ := ode x hx'
    exact h.continuousAt.continuousWithinAt
  obtain ⟨Θ, A, B, μ, hr, hμ, hΘ, hin⟩ := hc.rate huE hduE hx.le (hFc.mul cdu)
  obtain ⟨D, L, ρ, hρ, P⟩ := thwaites_path hr hμ hΘ hin hu hdu hu0 hx ode
  obtain ⟨K, M⟩ := thwaites_margin (F := F) hatt hduE cdu
  have hκ : ContinuousOn (fun x => [F x].getD 0 0 * du x - ls) (Set.Icc x0 x1) := (hFc.mul cdu).sub continuousOn_const
  exact ⟨fun xs x2 h1 h2 up down => rk45_separation_converges P hρ one_ne_zero hev M hκ h1 h2 (fun x hx => sub_pos.2 (up x hx)) fun x hx => sub_neg.2 (down x hx),
    fun up => rk45_attached_converges P hρ one_ne_zero hev M hκ hx fun x hx => sub_pos.2 (up x hx)⟩

/-- **C136** for tabulated velocities: as above, for the one exact layer `F` from the positive start value `F0`. -/
theorem table_separation_converges (ext : Ext ℝ) (other : Pchip ℝ) (hext : ext.pchip = Pchip.interpolator other) (o o' : Obj ℝ)
    (pts : List (ℝ × ℝ)) (y z : Arg ℝ) (m : Fits ℝ) (ls : ℝ) (h : Table pts) (hpos : ∀ p ∈ pts, 0 ≤ p.2)
    (hs : o.setVelocity ext (tableArg pts) y z = (o', .ok ())) (hnu : 0 < o.nu) (hf : o.fits = some m) (hev : o.events = [.sepThwaites m])
    (hc : o.cls = .thwaitesLinear ∨ o.cls = .thwaitesNonlinear ∧ TameFit m) (hatt : ∀ lam, 0 < m.shearAt lam ↔ ls < lam)
    (a b F0 : ℝ) (ha : firstX pts ≤ a) (hab : a < b) (hb : b ≤ lastX pts) (h0 : 0 < F0) :
    ∃ F du : ℝ → ℝ, F a = F0 ∧ (∀ x ∈ Set.Icc a b, SatisfiesOde o' F x ∧ 0 < F x) ∧ (∀ x, o'.vel.duE x = .ok (du x)) ∧
      (∀ xs x2, a < xs → x2 ∈ Set.Ioc xs b → (∀ x ∈ Set.Ico a xs, ls < F x * du x) → (∀ x ∈ Set.Ioc xs x2, F x * du x < ls) →
        SeparationConverges o' a b [F0] xs) ∧
      ((∀ x ∈ Set.Icc a b, ls < F x * du x) → AttachedConverges o' a b [F0]) := by
  obtain ⟨F, k1, k2, -⟩ := table_thwaites_determined ext other hext o o' pts y z m h hpos hs hnu hf hc a b F0 ha hab.le hb h0
  have e : o.setVelocity ext (tableArg pts) y z = ({ o with vel := ⟨some (.fn fun x => .ok (PPoly.eval (Pchip.pieces (Pchip.knots pts)) x)),
      some (.fn fun x => .ok (PPoly.eval (PPoly.deriv (Pchip.pieces (Pchip.knots pts))) x)),
      some (.fn fun x => .ok (PPoly.eval (PPoly.deriv (PPoly.deriv (Pchip.pieces (Pchip.knots pts)))) x))⟩ }, .ok ()) := by
    have hi := interpolator_table other h
    have hn : ¬ pts.length < 2 := not_lt.2 h.long
    simp only [Obj.setVelocity, tableArg, setVelocity, hext, hi]
    simp only [vector, List.length_map, ne_eq, not_true_eq_false, if_false, hn, setVelCallable, Spline.toCallable]
    rfl
  rw [hs] at e
  obtain rfl := (Prod.mk.inj e).1
  have M := pieces_monotone h
  have hdu' : ∀ t, VelState.duE (⟨some (.fn fun x => .ok (PPoly.eval (Pchip.pieces (Pchip.knots pts)) x)),
      some (.fn fun x => .ok (PPoly.eval (PPoly.deriv (Pchip.pieces (Pchip.knots pts))) x)),
      some (.fn fun x => .ok (PPoly.eval (PPoly.deriv (PPoly.deriv (Pchip.pieces (Pchip.knots pts)))) x))⟩ : VelState ℝ) t =
      .ok (PPoly.eval (PPoly.deriv (Pchip.pieces (Pchip.knots pts))) t) := fun t => by simp [VelState.duE, VelState.rawDu, callOpt, Vel.call]
  have key := thwaites_separation_converges (m := m) (ls := ls) (F := F) (x0 := a) (x1 := b) (u := PPoly.eval (Pchip.pieces (Pchip.knots pts)))
    (du := PPoly.eval (PPoly.deriv (Pchip.pieces (Pchip.knots pts)))) (by exact hc.imp id fun hc => ⟨hc.1, hf, .inl hc.2⟩) (by exact hev) hatt
    (fun t => by simp [VelState.uE, VelState.rawU, callOpt, Vel.call]) hdu'
    (fun x _ => (M.slope x).hasDerivWithinAt) (table_slope_lip h a b)
    (fun x hx => by linarith [(M.bounds h ⟨ha.trans hx.1, hx.2.trans hb⟩).1 0 hpos]) hab fun x hx => (k2 x hx).1
  rw [k1] at key
  exact ⟨F, _, k1, k2, hdu', key⟩

/-! ### Head's method -/

theorem head_margin (o : Obj ℝ) (crit : ℝ) (d h : ℝ → ℝ) (x0 x1 : ℝ) :
    Margin o (.sepHead crit) (fun _ y => crit - y.getD 1 0) (fun x => [d x, h x]) 2 x0 x1 1 := by
  refine ⟨rfl, fun x y hy => ?_, fun x hx y δ hy hd => ?_⟩
  · obtain ⟨p, q, rfl⟩ := List.length_eq_two.1 hy
    exact ⟨crit - q, rfl, Iff.rfl⟩
  · have d1 : |y.getD 1 0 - h x| ≤ δ := hd 1
    show |crit - y.getD 1 0 - (crit - h x)| ≤ 1 * δ
    rw [show crit - y.getD 1 0 - (crit - h x) = -(y.getD 1 0 - h x) by ring, abs_neg, one_mul]
    exact d1

/-- **C136** for Head's method: a solution of Head's equation whose thickness is positive and whose shape factor stays on one side of 1.6, where the right hand side
jumps. If the shape factor is below the critical value before `xs` and above it for some way behind, the verdicts of `solve` converge to separation at `xs`. If
it stays below, they converge to a layer that stays attached. -/
theorem head_separation_converges {o : Obj ℝ} {u du d h : ℝ → ℝ} {x0 x1 crit : ℝ} (hc : o.cls = .head) (hnu : 0 < o.nu) (hev : o.events = [.sepHead crit])
    (huE : ∀ t, o.vel.uE t = .ok (u t)) (hduE : ∀ t, o.vel.duE t = .ok (du t))
    (hu : ∀ x ∈ Set.Icc x0 x1, HasDerivWithinAt u (du x) (Set.Icc x0 x1) x) (hdu : LipOn du x0 x1) (hx : x0 < x1)
    (ode : ∀ x ∈ Set.Icc x0 x1, HeadOde o d h x ∧ 0 < d x) (side : (∀ x ∈ Set.Icc x0 x1, h x < 16/10) ∨ ∀ x ∈ Set.Icc x0 x1, 16/10 < h x) :
    (∀ xs x2, x0 < xs → x2 ∈ Set.Ioc xs x1 → (∀ x ∈ Set.Ico x0 xs, h x < crit) → (∀ x ∈ Set.Ioc xs x2, crit < h x) →
      SeparationConverges o x0 x1 [d x0, h x0] xs) ∧
    ((∀ x ∈ Set.Icc x0 x1, h x < crit) → AttachedConverges o x0 x1 [d x0, h x0]) := by
  obtain ⟨g, D, L, ρ, hρ, P⟩ := head_path hc hnu huE hduE hu hdu hx ode side
  have M := head_margin o crit d h x0 x1
  have hhc : ContinuousOn h (Set.Icc x0 x1) := fun x hx' => ((ode x hx').1.derivs hc huE hduE).2.continuousAt.continuousWithinAt
  have hκ : ContinuousOn (fun x => crit - [d x, h x].getD 1 0) (Set.Icc x0 x1) := continuousOn_const.sub hhc
  exact ⟨fun xs x2 h1 h2 up down => rk45_separation_converges P hρ two_ne_zero hev M hκ h1 h2 (fun x hx => sub_pos.2 (up x hx)) fun x hx => sub_neg.2 (down x hx),
    fun up => rk45_attached_converges P hρ two_ne_zero hev M hκ hx fun x hx => sub_pos.2 (up x hx)⟩

/-! ### Concrete cases -/

/-- The hypotheses of `thwaites_separation_converges` are met: `u_e = 1 - x` on [0, 1], viscosity 1, the nonlinear method with the fits of Cebeci and Bradshaw. There is a
start value and a layer from it whose lambda falls through the critical value. And there are calls of `solve` of the kind that it speaks of. -/
theorem thwaites_separation_case : ∃ (o : Obj ℝ) (ls : ℝ) (u du F : ℝ → ℝ) (xs : ℝ),
    (o.cls = .thwaitesNonlinear ∧ o.fits = some cebeciBradshaw ∧ TameFit cebeciBradshaw) ∧ o.events = [.sepThwaites cebeciBradshaw] ∧
    (∀ lam, 0 < (cebeciBradshaw : Fits ℝ).shearAt lam ↔ ls < lam) ∧ (∀ t, o.vel.uE t = .ok (u t)) ∧ (∀ t, o.vel.duE t = .ok (du t)) ∧
    (∀ x ∈ Set.Icc 0 1, HasDerivWithinAt u (du x) (Set.Icc 0 1) x) ∧ LipOn du 0 1 ∧ (∀ x ∈ Set.Icc (0:ℝ) 1, -(1/1000) < u x) ∧
    (∀ x ∈ Set.Icc 0 1, SatisfiesOde o F x) ∧ 0 < xs ∧ xs < 1 ∧ (∀ x ∈ Set.Ico 0 xs, ls < F x * du x) ∧ (∀ x ∈ Set.Ioc xs 1, F x * du x < ls) ∧
    Exercised o 0 1 [F 0] := by
  obtain ⟨ls, S, -⟩ := separatesAt_cb
  have hls := S.neg
  have tame : TameFit (cebeciBradshaw : Fits ℝ) := .inl rfl
  have fpos : ∀ lam ≤ 0, 0 < (cebeciBradshaw : Fits ℝ).fAt lam := fun lam h => builtin_f_pos (.inr (.inl rfl)) lam (by linarith)
  have fcont : ContinuousOn (cebeciBradshaw : Fits ℝ).fAt (Set.Icc ls 0) :=
    ((sides_cb.lip (show 0 ≤ -ls by linarith)).continuousOn).mono (Set.Icc_subset_Icc (by linarith) (by linarith))
  obtain ⟨z, hz, hmin⟩ := isCompact_Icc.exists_isMinOn (Set.nonempty_Icc.2 hls.le) fcont
  obtain ⟨c, hc⟩ : ∃ c, c = (cebeciBradshaw : Fits ℝ).fAt z := ⟨_, rfl⟩
  have hc0 : 0 < c := by rw [hc]; exact fpos z hz.2
  obtain ⟨τ, hτ⟩ : ∃ τ, τ = min (-ls / 2) (c / 2) := ⟨_, rfl⟩
  have hτ0 : 0 < τ := by rw [hτ]; exact lt_min (by linarith) (by linarith)
  have hτ1 : τ ≤ -ls / 2 := by rw [hτ]; exact min_le_left _ _
  have hτ2 : τ ≤ c / 2 := by rw [hτ]; exact min_le_right _ _
  obtain ⟨d0, hd0, hdd⟩ : ∃ d0 : ℝ, 0 < d0 ∧ d0 * d0 = -ls - τ :=
    ⟨Real.sqrt (-ls - τ), Real.sqrt_pos.2 (by linarith), Real.mul_self_sqrt (by linarith)⟩
  let o : Obj ℝ := ⟨.thwaitesNonlinear, 1, ⟨some (.fn fun x => .ok (1 - x)), some (.fn fun _ => .ok (-1)), none⟩, .manual 0 1 1 d0 1,
    [.sepThwaites cebeciBradshaw], none, some cebeciBradshaw⟩
  have huE : ∀ t, o.vel.uE t = .ok (1 - t) := fun t => by simp [o, VelState.uE, VelState.rawU, callOpt, Vel.call]
  have hduE : ∀ t, o.vel.duE t = .ok (-1) := fun t => by simp [o, VelState.duE, VelState.rawDu, callOpt, Vel.call]
  have hu0 : ∀ x ∈ Set.Icc (0:ℝ) 1, -(1/1000) < 1 - x := fun x hx => by have := hx.2; linarith
  obtain ⟨F, hF0, hode, hpos⟩ := thwaites_nonlinear_exists_partial o cebeciBradshaw (fun x => 1 - x) (fun _ => -1) 0 1 (d0 * d0) tame rfl rfl huE hduE
    (by fun_prop) (by fun_prop) hu0 zero_le_one (by positivity)
  have der : ∀ x ∈ Set.Icc (0:ℝ) 1, HasDerivAt F ((cebeciBradshaw : Fits ℝ).fAt (F x * -1) / (1/1000 + (1 - x))) x := fun x hx => by
    obtain ⟨r, h1, h2⟩ := hode x hx
    rw [nonlinear_rhs rfl rfl huE hduE] at h1
    simp only [Except.ok.injEq, List.cons.injEq, and_true] at h1
    rw [h1]; exact h2
  have hFc : ContinuousOn F (Set.Icc 0 1) := fun x hx => (der x hx).continuousAt.continuousWithinAt
  have mono : StrictMonoOn F (Set.Icc 0 1) := strictMonoOn_of_deriv_pos (convex_Icc _ _) hFc fun x hx => by
    have hx' := interior_subset hx
    rw [(der x hx').deriv]
    exact div_pos (fpos _ (by linarith [hpos x hx'])) (by linarith [hu0 x hx'])
  have h0m : (0:ℝ) ∈ Set.Icc (0:ℝ) 1 := ⟨le_rfl, zero_le_one⟩
  have h1m : (1:ℝ) ∈ Set.Icc (0:ℝ) 1 := ⟨zero_le_one, le_rfl⟩
  have big : -ls < F 1 := by
    by_contra hn
    push Not at hn
    have := (convex_Icc (0:ℝ) 1).mul_sub_le_image_sub_of_le_deriv (C := c / (1001/1000)) hFc
      (fun t ht => (der t (interior_subset ht)).differentiableAt.differentiableWithinAt) (fun t ht => by
        have ht' := interior_subset ht
        rw [(der t ht').deriv]
        have h1 : F t * -1 ∈ Set.Icc ls 0 := ⟨by have := mono.monotoneOn ht' h1m ht'.2; linarith, by linarith [hpos t ht']⟩
        have h2 : c ≤ (cebeciBradshaw : Fits ℝ).fAt (F t * -1) := by rw [hc]; exact hmin h1
        exact div_le_div₀ (hc0.le.trans h2) h2 (by linarith [hu0 t ht']) (by linarith [ht'.1])) 0 h0m 1 h1m zero_le_one
    rw [hF0, hdd] at this
    have h3 : c / 2 < c / (1001/1000) * (1 - 0) := by
      rw [sub_zero, mul_one]; exact div_lt_div_of_pos_left hc0 (by norm_num) (by norm_num)
    linarith
  obtain ⟨xs, hxs, hval⟩ := intermediate_value_Icc zero_le_one hFc (show -ls ∈ _ from ⟨by rw [hF0, hdd]; linarith, big.le⟩)
  have hxs0 : 0 < xs := lt_of_le_of_ne hxs.1 fun h => by rw [← h, hF0, hdd] at hval; linarith
  have hxs1 : xs < 1 := lt_of_le_of_ne hxs.2 fun h => by rw [h] at hval; linarith
  refine ⟨o, ls, fun x => 1 - x, fun _ => -1, F, xs, ⟨rfl, rfl, tame⟩, rfl, S.attached, huE, hduE, fun x _ => ?_, ⟨0, le_rfl, fun x _ y _ => by simp⟩, hu0, hode, hxs0, hxs1,
    fun x hx => ?_, fun x hx => ?_, exercised (te := .none) one_pos (by simp)
      ⟨fun t => ⟨_, huE t⟩, fun t => ⟨_, hduE t⟩, fun _ => by simp [o]⟩ ?_ fun x => ?_⟩
  · exact ((hasDerivAt_id x).const_sub 1).hasDerivWithinAt
  · have := mono ⟨hx.1, hx.2.le.trans hxs.2⟩ hxs hx.2
    linarith
  · have := mono hxs ⟨hxs.1.trans hx.1.le, hx.2⟩ hx.1
    linarith
  · intro e he
    simp only [o, TermArg.toList, List.append_nil, List.mem_singleton] at he
    subst he
    intro t y hy
    obtain ⟨w, rfl⟩ := List.length_eq_one_iff.1 hy
    exact ⟨_, by simp [Obj.eventValue, Obj.calcLambda, hduE, bind, Except.bind, pure, Except.pure]; rfl⟩
  · rw [hF0]
    simp [o, Obj.prepare, IC.setNu, VelState.duE, VelState.rawDu, callOpt, Vel.call, IC.setDu, Obj.startVector, IC.deltaM, pyDiv, bind,
      Except.bind, pure, Except.pure, TermArg.toList]
    norm_num
    exact ⟨_, _, ⟨rfl, rfl⟩, rfl⟩

/-- The hypotheses of `head_separation_converges` are met: `u_e = 1 - x`, viscosity 1, started with momentum thickness 1 and shape factor 2, with a critical value that is
passed soon. And there are calls of `solve` of the kind that it speaks of. -/
theorem head_separation_case : ∃ (o : Obj ℝ) (u du d h : ℝ → ℝ) (b crit xs : ℝ), o.cls = .head ∧ 0 < o.nu ∧ o.events = [.sepHead crit] ∧
    (∀ t, o.vel.uE t = .ok (u t)) ∧ (∀ t, o.vel.duE t = .ok (du t)) ∧ (∀ x ∈ Set.Icc 0 b, HasDerivWithinAt u (du x) (Set.Icc 0 b) x) ∧ LipOn du 0 b ∧
    (∀ x ∈ Set.Icc 0 b, HeadOde o d h x ∧ 0 < d x) ∧ (∀ x ∈ Set.Icc 0 b, 16/10 < h x) ∧ 0 < xs ∧ xs < b ∧
    (∀ x ∈ Set.Ico 0 xs, h x < crit) ∧ (∀ x ∈ Set.Ioc xs b, crit < h x) ∧ Exercised o 0 b [d 0, h 0] := by
  let o : ℝ → Obj ℝ := fun crit => ⟨.head, 1, ⟨some (.fn fun x => .ok (1 - x)), some (.fn fun _ => .ok (-1)), none⟩, .manual 0 1 2 1 1,
    [.sepHead crit], none, none⟩
  have huE : ∀ k t, (o k).vel.uE t = .ok (1 - t) := fun k t => by simp [o, VelState.uE, VelState.rawU, callOpt, Vel.call]
  have hduE : ∀ k t, (o k).vel.duE t = .ok (-1) := fun k t => by simp [o, VelState.duE, VelState.rawDu, callOpt, Vel.call]
  have fl : HeadBranch.Flow (o 0) (fun x => 1 - x) (fun _ => -1) 0 (1/2) := ⟨rfl, huE 0, hduE 0, one_pos, by fun_prop, by fun_prop⟩
  obtain ⟨b, hb, d, h, e1, e2, cd, ch, ode, dpos, hside⟩ := HeadBranch.high_exists (m0 := 1) (h0 := 2) fl (by norm_num) one_pos (.inl (by norm_num))
  have ode' : ∀ t ∈ Set.Icc 0 b, HeadOde (o 0) d h t := fun t ht => ode t ht (.inr (by norm_num))
  have fl' : HeadBranch.Flow (o 0) (fun x => 1 - x) (fun _ => -1) 0 b := ⟨rfl, huE 0, hduE 0, one_pos, by fun_prop, by fun_prop⟩
  have mono := (fl'.sol Set.finite_empty cd ch (fun t ht _ => ode' t ht) (by rw [e1]; exact one_pos)).strict
    ⟨fun x hx => by linarith [hx.2, hb.2], fun x hx => by rw [e1]; linarith [hx.1]⟩
  have mid : b / 2 ∈ Set.Icc 0 b := ⟨by linarith [hb.1], by linarith [hb.1]⟩
  refine ⟨o (h (b / 2)), fun x => 1 - x, fun _ => -1, d, h, b, h (b / 2), b / 2, rfl, one_pos, rfl, huE _, hduE _, fun x _ => ?_, ⟨0, le_rfl, fun x _ y _ => by simp⟩,
    fun x hx => ⟨ode' x hx, dpos x hx⟩, fun x hx => ?_, by linarith [hb.1], by linarith [hb.1], fun x hx => ?_, fun x hx => ?_,
    exercised (te := .none) hb.1 (by simp) ⟨fun t => ⟨_, huE _ t⟩, fun t => ⟨_, hduE _ t⟩, fun hc => by cases hc⟩ ?_ fun x => ?_⟩
  · exact ((hasDerivAt_id x).const_sub 1).hasDerivWithinAt
  · rcases eq_or_lt_of_le hx.1 with rfl | hlt
    · rw [e2]; norm_num
    · exact hside x ⟨hlt, hx.2⟩
  · exact mono ⟨hx.1, hx.2.le.trans mid.2⟩ mid hx.2
  · exact mono mid ⟨mid.1.trans hx.1.le, hx.2⟩ hx.1
  · intro e he
    simp only [o, TermArg.toList, List.append_nil, List.mem_singleton] at he
    subst he
    intro t y hy
    obtain ⟨p, q, rfl⟩ := List.length_eq_two.1 hy
    exact ⟨_, rfl⟩
  · rw [e1, e2]
    simp [o, Obj.prepare, IC.setNu, VelState.duE, VelState.rawDu, callOpt, Vel.call, IC.setDu, Obj.startVector, IC.deltaM, IC.shapeD, pyDiv, bind,
      Except.bind, pure, Except.pure, TermArg.toList]
    norm_num
    exact ⟨_, _, ⟨rfl, rfl⟩, rfl⟩

end IBL
