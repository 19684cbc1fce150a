import Verif.Props.RungeKuttaFloatSep
import Verif.Props.DenseOutput
import Verif.Props.RungeKuttaRoundedCase

/-!
C146: what can be queried at the start after a `solve` with RK45 in arithmetic with rounding.
-/

set_option linter.unusedSectionVars false

namespace IBL
open SolveIvp RungeKutta RkFloat

section
variable {α : Type} [Add α] [Sub α] [Mul α] [Div α] [Neg α] [PyLit α] [PyCmp α] [PySqrt α] [PyPow α]

private theorem call_length {rhs : α → List α → Except Exc (List α)} {n : ℕ} {t : α} {y v : List α} (h : call rhs n t y = .ok v) : v.length = n := by
  unfold call at h
  split at h
  · cases h
  · split at h
    · next hl => rw [← Except.ok.inj h]; exact hl
    · cases h

private theorem stages_length {rhs : α → List α → Except Exc (List α)} {t : α} {y : List α} {h : α} : ∀ {rows : List (ℚ × List ℚ)} {K K' : List (List α)},
    stages rhs t y h rows K = .ok K' → (∀ k ∈ K, k.length = y.length) → ∀ k ∈ K', k.length = y.length
  | [], K, K', e, hK => by rw [stages] at e; rw [← Except.ok.inj e]; exact hK
  | (c, a) :: rows, K, K', e, hK => by
    rw [stages] at e
    split at e
    · cases e
    · next k hk =>
      refine stages_length e fun k' hk' => ?_
      rcases List.mem_append.1 hk' with h' | h'
      · exact hK _ h'
      · rw [List.mem_singleton.1 h']; exact call_length hk

private theorem trial_length {p : IvpProblem α} {s : St α} {h : α} {q : Trial α} (e : trial p s h = .ok q) (hf : s.f.length = s.y.length) :
    ∀ k ∈ q.K, k.length = s.y.length := by
  unfold trial at e
  simp only at e
  split at e
  · cases e
  · next y f K hr =>
    rw [← Except.ok.inj e]
    unfold rkStep at hr
    split at hr
    · cases hr
    · next K' hK =>
      simp only at hr
      split at hr
      · cases hr
      · next fN hc =>
        have := Except.ok.inj hr
        simp only [Prod.mk.injEq] at this
        show ∀ k ∈ K, _
        rw [← this.2.2]
        intro k hk
        rcases List.mem_append.1 hk with h' | h'
        · exact stages_length hK (fun k hk => by rw [List.mem_singleton.1 hk]; exact hf) k h'
        · rw [List.mem_singleton.1 h']; exact call_length hc

end

variable {R : Rounding} [PyPow R.F]

private def Zero (n : ℕ) (l : List R.F) : Prop := l.length = n ∧ ∀ v ∈ l, v.val = 0

private theorem zero_vadd {n : ℕ} {l k : List R.F} (h : Zero n l) (h' : Zero n k) : Zero n (vadd l k) := by
  unfold vadd
  refine ⟨by rw [List.length_zipWith, h.1, h'.1, min_self], fun v hv => ?_⟩
  obtain ⟨i, hi, rfl⟩ := List.getElem_of_mem hv
  rw [List.getElem_zipWith, Rounding.val_add, h.2 _ (List.getElem_mem _), h'.2 _ (List.getElem_mem _), add_zero, R.rd_zero]

private theorem vadd_zero {n : ℕ} {l y : List R.F} (h : Zero n l) (hy : y.length = n) : vadd l y = y := by
  unfold vadd
  refine List.ext_getElem (by rw [List.length_zipWith, h.1, hy, min_self]) fun i h1 h2 => ?_
  rw [List.getElem_zipWith]
  apply Rounding.F.ext
  rw [Rounding.val_add, h.2 _ (List.getElem_mem _), zero_add, Rounding.F.rep]

private theorem zero_fold (n : ℕ) : ∀ (l : List (List R.F × R.F)) (acc : List R.F), Zero n acc → (∀ k ∈ l, k.1.length = n ∧ k.2.val = 0) →
    Zero n (l.foldl (fun acc k => vadd acc (k.1.map (· * k.2))) acc)
  | [], _, h, _ => h
  | k :: l, acc, h, hl => by
    refine zero_fold n l _ (zero_vadd h ⟨by rw [List.length_map, (hl k (by simp)).1], fun v hv => ?_⟩) fun k hk => hl k (by simp [hk])
    obtain ⟨w, -, rfl⟩ := List.mem_map.1 hv
    rw [Rounding.val_mul, (hl k (by simp)).2, mul_zero, R.rd_zero]

private theorem comb_length {n : ℕ} {K : List (List R.F)} (hK : ∀ k ∈ K, k.length = n) (a : List ℚ) : (comb n K a).length = n := by
  unfold comb
  have : ∀ (l : List (List R.F × ℚ)) (acc : List R.F), acc.length = n → (∀ k ∈ l, k.1.length = n) →
      (l.foldl (fun acc k => vadd acc (k.1.map (· * lit k.2))) acc).length = n := by
    intro l
    induction l with
    | nil => exact fun acc h _ => h
    | cons k l ih =>
      intro acc h hl
      refine ih _ ?_ fun k hk => hl k (by simp [hk])
      unfold vadd
      rw [List.length_zipWith, h, List.length_map, hl k (by simp), min_self]
  exact this _ _ (List.length_replicate ..) fun k hk => hK _ (List.of_mem_zip hk).1

/-- The interpolant of a step takes the state at its start, to the last digit. -/
private theorem dense_start {t t' : R.F} {y : List R.F} {K : List (List R.F)} (hK : ∀ k ∈ K, k.length = y.length) : denseOutput t t' y K t = y := by
  have hx : ((t - t) / (t' - t) : R.F).val = 0 := by
    rw [Rounding.val_div, Rounding.val_sub, sub_self, R.rd_zero, zero_div, R.rd_zero]
  unfold denseOutput
  simp only
  obtain ⟨x, hx'⟩ : ∃ x, x = ((t - t) / (t' - t) : R.F) := ⟨_, rfl⟩
  rw [← hx'] at hx ⊢
  have hm : ∀ a : R.F, (a * x).val = 0 := fun a => by rw [Rounding.val_mul, hx, mul_zero, R.rd_zero]
  have hz := zero_fold y.length (List.zip (denseWeights.map (comb y.length K)) [x, x * x, x * x * x, x * x * x * x])
    (List.replicate y.length (lit 0)) ⟨List.length_replicate .., fun v hv => by rw [List.eq_of_mem_replicate hv, Rounding.val_zero]⟩ fun k hk => by
      obtain ⟨h1, h2⟩ := List.of_mem_zip hk
      obtain ⟨a, -, ha⟩ := List.mem_map.1 h1
      refine ⟨by rw [← ha]; exact comb_length hK a, ?_⟩
      simp only [List.mem_cons, List.not_mem_nil, or_false] at h2
      rcases h2 with h | h | h | h <;> rw [h]
      · exact hx
      all_goals exact hm _
  refine vadd_zero (n := y.length) ⟨by rw [List.length_map, hz.1], fun v hv => ?_⟩ rfl
  obtain ⟨w, hw, rfl⟩ := List.mem_map.1 hv
  rw [Rounding.val_mul, hz.2 w hw, mul_zero, R.rd_zero]

private theorem tries_dense {p : IvpProblem R.F} {m : R.F} {s : St R.F} {rej : Bool} {h : R.F} {out : RungeKutta.Outcome R.F} (T : Tries p m s rej h out)
    (hf : s.f.length = s.y.length) : ∀ s' st, out = .accepted s' st → st.dense s.t = s.y := by
  induction T with
  | small => intro _ _ e; cases e
  | raised => intro _ _ e; cases e
  | accept _ e _ =>
    intro s' st h
    cases h
    exact dense_start (trial_length e hf)
  | reject _ _ _ _ ih => exact ih

/-- The first step of a run starts from the start vector, and a run over an empty interval has at most one step. -/
private theorem run_dense {gap : R.F → R.F → R.F} {p : IvpProblem R.F} {r : Run R.F} (hr : Runs gap p r) :
    (∀ s l, r.steps = s :: l → s.dense p.x0 = p.y0 ∧ (p.x0 = p.x1 → l = [])) ∧ (r.ending = .reached → r.steps ≠ []) := by
  cases hr with
  | raised h => exact ⟨fun _ _ h => (by cases h), fun h => (by cases h)⟩
  | @run s r hs S =>
    obtain ⟨h1, h2, h3⟩ := RkFloat.start_state hs
    have hf : s.f.length = s.y.length := by rw [h2, h3]
    rw [← h1, ← h2]
    cases S with
    | trivial h => exact ⟨fun _ _ e => (by cases e; exact ⟨rfl, fun _ => rfl⟩), fun _ => by simp⟩
    | small => exact ⟨fun _ _ h => (by cases h), fun h => (by cases h)⟩
    | raised => exact ⟨fun _ _ h => (by cases h), fun h => (by cases h)⟩
    | last _ _ T _ => exact ⟨fun _ _ e => (by cases e; exact ⟨tries_dense T hf _ _ rfl, fun _ => rfl⟩), fun _ => by simp⟩
    | more _ hx T _ _ =>
      refine ⟨fun _ _ e => ?_, fun _ => by simp⟩
      cases e
      refine ⟨tries_dense T hf _ _ rfl, fun h => ?_⟩
      rw [Bool.eq_false_iff, ne_eq, Rounding.F_eq, h] at hx
      exact absurd rfl hx

/-- **C146**: after a successful `solve` with RK45 in arithmetic with rounding, in either direction and with any events, the state at the start is
the start vector, to the last digit. -/
theorem rounded_start_state {o o' o'' : Obj R.F} {x0 x1 : R.F} {te : TermArg R.F} {p : IvpProblem R.F} {ev : Event R.F → EvFn R.F} {root : RootFinder R.F}
    (hroot : ∀ f a b x, root f a b = .ok x → x.val ∈ Set.uIcc a.val b.val) {gap : R.F → R.F → R.F} {m : ℝ} (hg : FloatGaps gap m)
    {stepper : Stepper R.F} {r : IntegrationResult R.F} (hp : o.prepare x0 x1 te = (o', .ok p)) (hst : Runs gap p (stepper p))
    (h : o.solve x0 x1 te (ivp ev stepper root) = (o'', .ok r)) (hok : r.success = true) : o''.state x0 = .ok p.y0 := by
  obtain ⟨-, -, -, -, -, -, h7, h8, -⟩ := prepare_all hp
  obtain ⟨used, rest, e1, e2, -, e4⟩ := solve_stores ev stepper root hp h hok
  obtain ⟨d1, d2⟩ := run_dense hst
  obtain ⟨k1, k2, -⟩ := rk45_rounded_steps hg hst
  have hne : used ≠ [] := by
    rintro rfl
    rcases e4 with ⟨hr, -⟩ | ⟨pre, s, e, hu, -⟩
    · rw [hr] at e1
      rcases solve_outcome ev stepper root hp h with ⟨-, b, -⟩ | ⟨_, -, -, -, -, f⟩ | ⟨pre, rest, s, i, e, a1, -⟩
      · exact d2 b e1
      · rw [hok] at f; cases f
      · rw [e1] at a1; simp at a1
    · simp at hu
  obtain ⟨s, l, rfl⟩ := List.exists_cons_of_ne_nil hne
  obtain ⟨g1, g2⟩ := d1 s (l ++ rest) e1
  rw [h7] at g1
  rw [e2]
  show Except.ok (denseAt (ascending x0 [r.xEnd]) (s :: l) x0) = _
  rcases l with _ | ⟨s', l⟩
  · exact congrArg _ g1
  have hmem : ∀ t ∈ s :: s' :: l, t ∈ (stepper p).steps := fun t ht => by rw [e1]; exact List.mem_append_left _ ht
  have asc : ascending x0 [r.xEnd] = true ↔ x0.val ≤ r.xEnd.val := by
    unfold ascending
    rw [Rounding.F_ge]
    rfl
  -- the reported end lies between two accepted points
  obtain ⟨a, b, ha, hb, hin⟩ : ∃ a b : R.F, (∃ t ∈ (stepper p).steps, t.t = a) ∧ (∃ t ∈ (stepper p).steps, t.t = b) ∧ r.xEnd.val ∈ Set.uIcc a.val b.val := by
    have last : ∀ u : List (Step R.F), u ≠ [] → (∀ t ∈ u, t ∈ (stepper p).steps) → ∃ t ∈ (stepper p).steps, t.t = (lastPt (x0, p.y0) u).1 := by
      intro u hu hsub
      have := List.mem_of_getLast? (lastPt_mem (x0, p.y0) u)
      obtain ⟨c, u, rfl⟩ := List.exists_cons_of_ne_nil hu
      have e := lastPt_mem (x0, p.y0) (c :: u)
      rw [List.map_cons, List.getLast?_cons_cons] at e
      obtain ⟨t, ht, hte⟩ := List.mem_map.1 (List.map_cons (f := Step.t) ▸ List.mem_of_getLast? e)
      exact ⟨t, hsub t ht, hte⟩
    rcases e4 with ⟨-, hx⟩ | ⟨pre, q, e, hu, hx⟩
    · obtain ⟨t, ht, hte⟩ := last _ hne hmem
      exact ⟨_, _, ⟨t, ht, hte⟩, ⟨t, ht, hte⟩, by rw [hx]; exact Set.left_mem_uIcc⟩
    · have hpre : pre ≠ [] := by rintro rfl; simp at hu
      obtain ⟨t, ht, hte⟩ := last pre hpre fun t ht => hmem t (by rw [hu]; exact List.mem_append_left _ ht)
      exact ⟨_, _, ⟨t, ht, hte⟩, ⟨q, hmem q (by rw [hu]; simp), rfl⟩, hroot _ _ _ _ hx⟩
  obtain ⟨ta, hta, rfl⟩ := ha
  obtain ⟨tb, htb, rfl⟩ := hb
  have hs := hmem s (by simp)
  rw [denseAt]
  rcases lt_trichotomy x0.val x1.val with hx | hx | hx
  · have before : ∀ t ∈ (stepper p).steps, x0.val < t.t.val := fun t ht => by
      have := (List.pairwise_cons.1 (k1 (by rw [h7, h8]; exact hx)).1).1 t.t (List.mem_map.2 ⟨t, ht, rfl⟩)
      rwa [h7] at this
    have : ascending x0 [r.xEnd] = true := asc.2 (by
      rcases Set.mem_uIcc.1 hin with hi | hi
      · linarith [before ta hta, hi.1]
      · linarith [before tb htb, hi.1])
    rw [this, if_pos (by simp only [if_true]; rw [Rounding.F_le]; exact (before s hs).le), g1]
  · have := g2 (by rw [h7, h8]; exact Rounding.F.ext hx)
    simp at this
  · have before : ∀ t ∈ (stepper p).steps, t.t.val < x0.val := fun t ht => by
      have := (List.pairwise_cons.1 (k2 (by rw [h7, h8]; exact hx)).1).1 t.t (List.mem_map.2 ⟨t, ht, rfl⟩)
      rwa [h7] at this
    have : ascending x0 [r.xEnd] = false := by
      rw [Bool.eq_false_iff, ne_eq, asc, not_le]
      rcases Set.mem_uIcc.1 hin with hi | hi
      · linarith [before tb htb, hi.2]
      · linarith [before ta hta, hi.2]
    rw [this, if_pos (by simp only [Bool.false_eq_true, if_false]; rw [Rounding.F_ge]; exact (before s hs).le), g1]

private theorem start_of_prepare {o o' : Obj R.F} {x0 x1 : R.F} {te : TermArg R.F} {p : IvpProblem R.F} (h : o.prepare x0 x1 te = (o', .ok p)) :
    o'.startVector = .ok p.y0 ∧ o'.cls = o.cls ∧ o'.nu = o.nu := by
  unfold Obj.prepare at h
  split at h
  · cases h
  · dsimp only at h
    split at h
    · cases h
    · split at h
      · cases h
      · rename_i hs
        cases h
        exact ⟨hs, rfl, rfl⟩

/-- **C146**: at the start the queries give the initial condition. Head's momentum thickness and shape factor are those of the condition to the
last digit; Thwaites' momentum thickness, which goes through `delta_m^2/nu` and back, is that of the condition up to three rounding errors. -/
theorem rounded_start_queried {o o' o'' : Obj R.F} {x0 x1 : R.F} {te : TermArg R.F} {p : IvpProblem R.F} {ev : Event R.F → EvFn R.F}
    {root : RootFinder R.F} (hroot : ∀ f a b x, root f a b = .ok x → x.val ∈ Set.uIcc a.val b.val) {gap : R.F → R.F → R.F} {m : ℝ}
    (hg : FloatGaps gap m) {stepper : Stepper R.F} {r : IntegrationResult R.F}
    (hp : o.prepare x0 x1 te = (o', .ok p)) (hst : Runs gap p (stepper p)) (h : o.solve x0 x1 te (ivp ev stepper root) = (o'', .ok r)) (hok : r.success = true) :
    (o.cls = .head → o''.deltaM x0 = o'.ic.deltaM ∧ o''.shapeD x0 = o'.ic.shapeD) ∧
    (o.cls ≠ .head → 0 < o.nu.val → ∀ d, o'.ic.deltaM = .ok d → 0 ≤ d.val →
      ∃ v, o''.deltaM x0 = .ok v ∧ |v.val - d.val| ≤ 3 * R.eps * d.val) := by
  have hs := rounded_start_state hroot hg hp hst h hok
  obtain ⟨_, _, _, h2, _⟩ := solve_stores ev stepper root hp h hok
  obtain ⟨hv, hc, hn⟩ := start_of_prepare hp
  have hc'' : o''.cls = o.cls := by rw [h2, ← hc]
  have hn'' : o''.nu = o.nu := by rw [h2, ← hn]
  refine ⟨fun hh => ?_, fun hh hnu d hd hd0 => ?_⟩
  · rw [hh] at hc hc''
    simp only [Obj.startVector, hc, bind, Except.bind, pure, Except.pure] at hv
    rcases hd : o'.ic.deltaM with e | d
    · rw [hd] at hv; cases hv
    rw [hd] at hv
    rcases hH : o'.ic.shapeD with e | H
    · rw [hH] at hv; cases hv
    rw [hH] at hv
    simp only at hv
    rw [← Except.ok.inj hv] at hs
    exact ⟨by simp [Obj.deltaM, hc'', Obj.comp, hs, bind, Except.bind, pure, Except.pure],
      by simp [Obj.shapeD, hc'', Obj.comp, hs, bind, Except.bind, pure, Except.pure]⟩
  · have hne : PyCmp.eq o.nu (lit 0) = false := by
      rw [Bool.eq_false_iff, ne_eq, Rounding.F_eq, Rounding.val_zero]
      exact hnu.ne'
    have hF : p.y0 = [d * d / o.nu] := by
      unfold Obj.startVector at hv
      rw [hc] at hv
      split at hv
      · contradiction
      · simp only [hd, pyDiv, hn, hne, bind, Except.bind, pure, Except.pure, Bool.false_eq_true, if_false] at hv
        exact (Except.ok.inj hv).symm
    have hval : o''.deltaM x0 = .ok (PySqrt.sqrt (d * d / o.nu * o.nu)) := by
      unfold Obj.deltaM
      rw [hc'']
      split
      · contradiction
      · simp [Obj.comp, hs, hF, hn'', bind, Except.bind, pure, Except.pure]
    refine ⟨_, hval, ?_⟩
    have he := R.eps_nonneg
    have he' := R.small
    obtain ⟨e, hee⟩ : ∃ e, e = R.eps := ⟨_, rfl⟩
    -- the rounded square, its quotient by `nu`, and the product with `nu`
    have a := Rounding.rd_bounds (R := R) (mul_self_nonneg d.val)
    have a0 := Rounding.rd_nonneg (R := R) (mul_self_nonneg d.val)
    obtain ⟨A, hA⟩ : ∃ A, A = R.rd (d.val * d.val) := ⟨_, rfl⟩
    rw [← hA, ← hee] at a
    rw [← hA] at a0
    have b := Rounding.rd_bounds (R := R) (div_nonneg a0 hnu.le)
    have b0 := Rounding.rd_nonneg (R := R) (div_nonneg a0 hnu.le)
    obtain ⟨B, hB⟩ : ∃ B, B = R.rd (A / o.nu.val) := ⟨_, rfl⟩
    rw [← hB, ← hee] at b
    rw [← hB] at b0
    have c := Rounding.rd_bounds (R := R) (mul_nonneg b0 hnu.le)
    have c0 := Rounding.rd_nonneg (R := R) (mul_nonneg b0 hnu.le)
    obtain ⟨C, hC⟩ : ∃ C, C = R.rd (B * o.nu.val) := ⟨_, rfl⟩
    rw [← hC, ← hee] at c
    rw [← hC] at c0
    have f := Rounding.rd_bounds (R := R) (Real.sqrt_nonneg C)
    rw [← hee] at f he he'
    have hv : (PySqrt.sqrt (d * d / o.nu * o.nu) : R.F).val = R.rd (Real.sqrt C) := by
      rw [Rounding.val_sqrt, Rounding.val_mul, Rounding.val_div, Rounding.val_mul, hC, hB, hA]
    rw [hv, ← hee]
    -- `B nu` lies between multiples of `d^2`
    have q1 : (1 - e) * A ≤ B * o.nu.val := by
      have := mul_le_mul_of_nonneg_right b.1 hnu.le
      rwa [mul_assoc, div_mul_cancel₀ _ hnu.ne'] at this
    have q2 : B * o.nu.val ≤ (1 + e) * A := by
      have := mul_le_mul_of_nonneg_right b.2 hnu.le
      rwa [mul_assoc, div_mul_cancel₀ _ hnu.ne'] at this
    have C1 : (1 - e) ^ 3 * d.val ^ 2 ≤ C := by
      have s1 : (1 - e) * ((1 - e) * (d.val * d.val)) ≤ (1 - e) * A := mul_le_mul_of_nonneg_left a.1 (by linarith)
      have s2 := mul_le_mul_of_nonneg_left (s1.trans q1) (show 0 ≤ 1 - e by linarith)
      calc _ = (1 - e) * ((1 - e) * ((1 - e) * (d.val * d.val))) := by ring
        _ ≤ _ := s2.trans c.1
    have C2 : C ≤ (1 + e) ^ 3 * d.val ^ 2 := by
      have s1 : (1 + e) * A ≤ (1 + e) * ((1 + e) * (d.val * d.val)) := mul_le_mul_of_nonneg_left a.2 (by linarith)
      have s2 := mul_le_mul_of_nonneg_left (q2.trans s1) (show 0 ≤ 1 + e by linarith)
      calc C ≤ _ := c.2.trans s2
        _ = _ := by ring
    have S := Real.sq_sqrt c0
    have S0 := Real.sqrt_nonneg C
    obtain ⟨w, hw⟩ : ∃ w, w = Real.sqrt C := ⟨_, rfl⟩
    rw [← hw] at f S S0
    rw [← hw]
    have up : (1 + e) * w ≤ (1 + 3 * e) * d.val := by
      refine abs_le_of_sq_le_sq' ?_ (mul_nonneg (by linarith) hd0) |>.2
      have t1 : (1 + e) ^ 2 * C ≤ (1 + e) ^ 2 * ((1 + e) ^ 3 * d.val ^ 2) := mul_le_mul_of_nonneg_left C2 (sq_nonneg _)
      have t2 : (1 + e) ^ 5 ≤ (1 + 3 * e) ^ 2 := by
        have e2 : e ^ 2 ≤ e / 1000 := by nlinarith
        have e3 : e ^ 3 ≤ e / 1000 := by nlinarith [sq_nonneg e]
        have e4 : e ^ 4 ≤ e / 1000 := by nlinarith [sq_nonneg e]
        have e5 : e ^ 5 ≤ e / 1000 := by nlinarith [sq_nonneg e, pow_nonneg he 4]
        nlinarith [sq_nonneg e]
      have t3 := mul_le_mul_of_nonneg_right t2 (sq_nonneg d.val)
      calc ((1 + e) * w) ^ 2 = (1 + e) ^ 2 * C := by rw [mul_pow, S]
        _ ≤ (1 + e) ^ 5 * d.val ^ 2 := by linarith [t1]
        _ ≤ ((1 + 3 * e) * d.val) ^ 2 := by rw [mul_pow]; exact t3
    have down : (1 - 3 * e) * d.val ≤ (1 - e) * w := by
      refine abs_le_of_sq_le_sq' ?_ (mul_nonneg (by linarith) S0) |>.2
      have t1 : (1 - e) ^ 2 * ((1 - e) ^ 3 * d.val ^ 2) ≤ (1 - e) ^ 2 * C := mul_le_mul_of_nonneg_left C1 (sq_nonneg _)
      have t2 : (1 - 3 * e) ^ 2 ≤ (1 - e) ^ 5 := by
        have := one_add_mul_le_pow (show (-2 : ℝ) ≤ -e by linarith) 5
        push_cast at this
        have h5 : (1 - e) ^ 5 = (1 + -e) ^ 5 := by ring
        rw [h5]
        nlinarith
      have t3 := mul_le_mul_of_nonneg_right t2 (sq_nonneg d.val)
      calc ((1 - 3 * e) * d.val) ^ 2 = (1 - 3 * e) ^ 2 * d.val ^ 2 := by rw [mul_pow]
        _ ≤ (1 - e) ^ 5 * d.val ^ 2 := t3
        _ ≤ (1 - e) ^ 2 * C := by linarith [t1]
        _ = ((1 - e) * w) ^ 2 := by rw [mul_pow, S]
    rw [abs_le]
    constructor <;> linarith [f.1, f.2]

/-- The hypotheses of C146 can be met: arithmetic with 53 binary digits, one step of the linear Thwaites method along a flat plate. -/
theorem rounded_start_case : ∃ (R : Rounding) (_ : PyPow R.F) (o o' o'' : Obj R.F) (x0 x1 d : R.F) (gap : R.F → R.F → R.F) (m : ℝ) (stepper : Stepper R.F)
    (root : RootFinder R.F) (p : IvpProblem R.F) (r : IntegrationResult R.F), R.eps = (1/2) ^ 53 ∧ x0.val < x1.val ∧ o.cls = .thwaitesLinear ∧ 0 < o.nu.val ∧
    FloatGaps gap m ∧ (∀ f a b x, root f a b = .ok x → x.val ∈ Set.uIcc a.val b.val) ∧ o.prepare x0 x1 .none = (o', .ok p) ∧ o'.ic.deltaM = .ok d ∧
    0 < d.val ∧ Runs gap p (stepper p) ∧ o.solve x0 x1 .none (ivp o.eventValue stepper root) = (o'', .ok r) ∧ r.success = true := by
  obtain ⟨R, hR⟩ : ∃ R : Rounding, R.eps = (1/2) ^ 53 := ⟨Rounding.binary 53 (by norm_num), rfl⟩
  let ip : PyPow R.F := ⟨fun a b => R.round (a.val ^ b.val), fun a => R.round (Real.exp a.val), fun a => R.round (Real.logb 10 a.val)⟩
  have hp1 : (PyPow.pow (lit 1) (lit (1/2)) : R.F).val = 1 := by
    show R.rd ((lit 1 : R.F).val ^ (lit (1/2) : R.F).val) = 1
    rw [Rounding.val_one, Real.one_rpow, R.rd_one]
  obtain ⟨X1, hX⟩ : ∃ X1 : R.F, X1.val = (1/2) ^ 60 := ⟨⟨(1/2) ^ 60, rd_half_pow 60⟩, rfl⟩
  have hX0 : 0 < X1.val := by rw [hX]; positivity
  have hX1 : X1.val ≤ (1/2) ^ 60 := hX.le
  let gap : R.F → R.F → R.F := fun t _ => if t.val = 0 then X1 else R.round (2 * R.eps * |t.val| + 2 * X1.val)
  have hg : FloatGaps gap X1.val := ⟨hX0, fun t d => by
    by_cases ht : t.val = 0
    · have e : gap t d = X1 := if_pos ht
      rw [e, ht, abs_zero, mul_zero]
      exact ⟨by linarith, by linarith⟩
    · have e : gap t d = R.round (2 * R.eps * |t.val| + 2 * X1.val) := if_neg ht
      rw [e]
      have h0 : 0 ≤ R.eps * |t.val| := mul_nonneg R.eps_nonneg (abs_nonneg _)
      have h1 := (Rounding.rd_bounds (R := R) (show 0 ≤ 2 * R.eps * |t.val| + 2 * X1.val by linarith)).1
      have h2 : (1/2) * (2 * R.eps * |t.val| + 2 * X1.val) ≤ (1 - R.eps) * (2 * R.eps * |t.val| + 2 * X1.val) :=
        mul_le_mul_of_nonneg_right (by linarith [R.small]) (by linarith)
      show _ ≤ R.rd _ ∧ _ ≤ R.rd _
      exact ⟨by linarith, by linarith⟩⟩
  let fit : Fits R.F := ⟨"constant", fun _ => lit 1, fun _ => lit 2, .fn fun _ => lit 0, none, none⟩
  let o : Obj R.F := ⟨.thwaitesLinear, lit 1, ⟨some (.fn fun _ => .ok (lit 1)), some (.fn fun _ => .ok (lit 0)), none⟩,
    .manual (lit 0) (lit 1) (lit 2) (lit 1) (lit 1), [.sepThwaites fit], none, some fit⟩
  let p : IvpProblem R.F := ⟨o.rhs, lit 0, X1, [lit 1 * lit 1 / lit 1], lit (1/100000000), lit (1/100000000000), [.sepThwaites fit]⟩
  have e1 : PyCmp.le (lit 1 : R.F) (lit 0) = false := by
    rw [Bool.eq_false_iff]; intro h; rw [Rounding.F_le, Rounding.val_one, Rounding.val_zero] at h; linarith
  have hprep : o.prepare (lit 0) X1 .none = (o, .ok p) := by
    have e2 : PyCmp.eq (lit 1 : R.F) (lit 0) = false := by
      rw [Bool.eq_false_iff]; intro h; rw [Rounding.F_eq, Rounding.val_one, Rounding.val_zero] at h; linarith
    have e3 : o.vel.duE (lit 0) = .ok (lit 0) := rfl
    have e4 : o.ic.setNu o.nu = .ok o.ic := by simp [IC.setNu, o, e1]
    have e5 : o.startVector = .ok [lit 1 * lit 1 / lit 1] := by
      simp [Obj.startVector, o, IC.deltaM, pyDiv, e2, bind, Except.bind, pure, Except.pure]
    unfold Obj.prepare
    rw [e4]
    simp only [e3]
    rw [show ({ o with ic := o.ic.setDu (lit 0) } : Obj R.F) = o from rfl, e5]
    rfl
  have hrhs : ∀ t y, p.rhs t [y] = .ok [slope] := by
    intro t y
    have e : y * lit 0 = (lit 0 : R.F) := by ext; rw [Rounding.val_mul, Rounding.val_zero, mul_zero, R.rd_zero]
    show Except.ok [(lit (45/100) - lit 6 * (y * lit 0)) / (lit (1/1000) + lit 1)] = _
    rw [e]
    rfl
  obtain ⟨st, st1, ⟨v, st2⟩, hrun⟩ := one_step hp1 (p := p) (y := lit 1 * lit 1 / lit 1) (c := slope) rfl hX0 hX1 rfl hrhs slope_le rfl
    (by show 0 ≤ (lit (1/100000000) : R.F).val; rw [Rounding.val_lit]; exact Rounding.rd_nonneg (by norm_num)) (gap := gap)
    (fun _ => if_pos Rounding.val_zero)
  have hev : ∀ t y, o.eventValue (.sepThwaites fit) t [y] = .ok (lit 1) := fun t y => rfl
  have hch : changes (lit 1 : R.F) (lit 1) = false := by simp [changes, e1]
  have hivp : ∃ res : IvpResult R.F, ivp o.eventValue (fun _ => ⟨[st], .reached⟩) (fun _ a _ => .ok a) p = .ok res ∧ res.success = true ∧ res.status = 0 ∧
      res.t = [lit 0, X1] := by
    simp [ivp, p, evalAll, hev, loop, st2, activeRoots, hch, earliest, st1]
  obtain ⟨res, r1, r2, r3, r4⟩ := hivp
  refine ⟨R, ip, o, o, { o with sol := some res.sol }, lit 0, X1, lit 1, gap, X1.val, fun _ => ⟨[st], .reached⟩, fun _ a _ => .ok a, p,
    ⟨X1, res.sol X1, .reachedEnd, composeMessage .reachedEnd "", true⟩, hR, by rw [Rounding.val_zero]; exact hX0, rfl,
    by show 0 < (lit 1 : R.F).val; rw [Rounding.val_one]; norm_num, hg,
    fun g a b x h => by rw [← Except.ok.inj h]; exact Set.left_mem_uIcc, hprep, rfl, by rw [Rounding.val_one]; norm_num, hrun, ?_, rfl⟩
  unfold Obj.solve
  rw [hprep]
  simp only [r1, r2, evalResult, r3, r4, if_true]
  rfl

end IBL
