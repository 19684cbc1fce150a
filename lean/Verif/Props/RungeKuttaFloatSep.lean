import Verif.Props.RungeKuttaFloat

/-!
C144: separation with RK45 in arithmetic with rounding. What is compared are the numbers themselves: rounding does not change the outcome of
comparing the shape factor with the critical one.
-/

set_option linter.unusedSectionVars false

namespace IBL
open SolveIvp RungeKutta RkFloat

variable {R : Rounding} [PyPow R.F]

private theorem changes_F (g h : R.F) : changes g h = true ↔ (g.val ≤ 0 ∧ 0 ≤ h.val) ∨ (0 ≤ g.val ∧ h.val ≤ 0) := by
  unfold changes
  rw [Bool.or_eq_true, Bool.and_eq_true, Bool.and_eq_true, Rounding.F_le, Rounding.F_ge, Rounding.F_ge, Rounding.F_le, Rounding.val_zero]

/-- Along quiet steps the criterion stays positive. -/
private theorem quiet_pos_F {ev : EvFn R.F} {a : R.F × List R.F} {va : R.F} {l : List (Step R.F)} (hq : AllQuiet [ev] a l) (ha : ev a.1 a.2 = .ok va)
    (hpos : 0 < va.val) (hd : ∀ s ∈ l, ∃ v, ev s.t s.y = .ok v) :
    (∀ s ∈ l, ∃ v, ev s.t s.y = .ok v ∧ 0 < v.val) ∧ ∃ v, ev (lastPt a l).1 (lastPt a l).2 = .ok v ∧ 0 < v.val := by
  induction l generalizing a va with
  | nil => exact ⟨fun s hs => (List.not_mem_nil hs).elim, va, ha, hpos⟩
  | cons s l ih =>
    obtain ⟨v, hv⟩ := hd s (by simp)
    have hc := hq.1 ev (by simp) va v ha hv
    have hvpos : 0 < v.val := by
      by_contra hn
      have : changes va v = true := (changes_F va v).2 (.inr ⟨hpos.le, not_lt.1 hn⟩)
      rw [hc] at this; cases this
    obtain ⟨i1, i2⟩ := ih hq.2 (a := s.pt) hv hvpos fun t ht => hd t (by simp [ht])
    refine ⟨fun t ht => ?_, i2⟩
    rcases List.mem_cons.1 ht with rfl | ht
    · exact ⟨v, hv, hvpos⟩
    · exact i1 t ht

/-- **C144**, any method: a `solve` in floating point whose only event is the separation criterion, and which starts attached, returns. It reports
SEPARATED exactly if the computed criterion is not positive at some accepted point; then it stops between the first such point and the one before,
and at all accepted points before the criterion is positive. Otherwise it reports the end that was asked for, or failure. -/
theorem rounded_separation {o : Obj R.F} (E : VelocityEverywhere o) {e : Event R.F} (hev : o.events = [e]) (hsep : e.info.1 = .separated)
    (hE : EventEverywhere o (stateSize o.cls) e) {x0 x1 : R.F} {root : RootFinder R.F}
    (hroot : ∀ f a b, ∃ x, root f a b = .ok x ∧ x.val ∈ Set.uIcc a.val b.val) {gap : R.F → R.F → R.F} {m : ℝ} (hg : FloatGaps gap m)
    {stepper : Stepper R.F} (hst : ∀ p, Runs gap p (stepper p)) {p : IvpProblem R.F} (hp : (o.prepare x0 x1 .none).2 = .ok p) {v0 : R.F}
    (hv0 : o.eventValue e x0 p.y0 = .ok v0) (h0 : 0 < v0.val) :
    ∃ r, (o.solve x0 x1 .none (ivp o.eventValue stepper root)).2 = .ok r ∧
      (r.status = .separated ↔ ∃ s ∈ (stepper p).steps, ∃ v, o.eventValue e s.t s.y = .ok v ∧ v.val ≤ 0) ∧
      (r.status = .separated → ∃ pre s rest, (stepper p).steps = pre ++ s :: rest ∧ (∀ t ∈ pre, ∃ v, o.eventValue e t.t t.y = .ok v ∧ 0 < v.val) ∧
        (∃ v, o.eventValue e s.t s.y = .ok v ∧ v.val ≤ 0) ∧ r.xEnd.val ∈ Set.uIcc (lastPt (x0, p.y0) pre).1.val s.t.val) ∧
      (r.status ≠ .separated → (r.status = .reachedEnd ∧ r.success = true ∧ r.xEnd = x1) ∨ (r.status = .unknown ∧ r.success = false ∧ r.xEnd = x0)) := by
  rcases hprep : o.prepare x0 x1 .none with ⟨o', q⟩
  rw [hprep] at hp
  obtain rfl : q = .ok p := hp
  obtain ⟨h1, h2, h3, h4, h5, h6, h7, h8, h9⟩ := prepare_all hprep
  obtain ⟨n1, n2⟩ := rk45_rounded_run E hprep (hst p)
  have hpe : p.events = [e] := by rw [h6, hev]; rfl
  have hdef : ∀ s ∈ (stepper p).steps, ∃ v, o.eventValue e s.t s.y = .ok v := fun s hs => hE _ _ (by rw [n2 s hs, h5])
  obtain ⟨r, hr⟩ := solve_total o.eventValue stepper root hprep (fun f a b => let ⟨x, h, _⟩ := hroot f a b; ⟨x, h⟩)
    (fun e' he => by rw [hpe, List.mem_singleton] at he; rw [he]; exact hE _ _ h5)
    (fun s hs e' he => by rw [hpe, List.mem_singleton] at he; rw [he]; exact hdef s hs) n1
  refine ⟨r, hr, ?_⟩
  rcases hsol : o.solve x0 x1 .none (ivp o.eventValue stepper root) with ⟨o'', res⟩
  rw [hsol] at hr
  obtain rfl : res = .ok r := hr
  have hv0' : o.eventValue e (p.x0, p.y0).1 (p.x0, p.y0).2 = .ok v0 := by rw [h7]; exact hv0
  have none_met : ∀ {l : List (Step R.F)}, AllQuiet (p.events.map o.eventValue) (p.x0, p.y0) l → (∀ s ∈ l, s ∈ (stepper p).steps) →
      (∀ s ∈ l, ∃ v, o.eventValue e s.t s.y = .ok v ∧ 0 < v.val) ∧
        ∃ v, o.eventValue e (lastPt (p.x0, p.y0) l).1 (lastPt (p.x0, p.y0) l).2 = .ok v ∧ 0 < v.val := fun hq hl => by
    rw [hpe] at hq
    exact quiet_pos_F hq hv0' h0 fun s hs => hdef s (hl s hs)
  rcases solve_outcome o.eventValue stepper root hprep hsol with ⟨a, b, c, d, f⟩ | ⟨_, a, b, c, d, f⟩ | ⟨pre, rest, s, i, ev, a1, a2, a3, a4, a5, -, a7, -, -⟩
  · rw [reached_last hg (hst p) b] at d
    have hn : r.status ≠ .separated := by rw [c]; decide
    refine ⟨⟨fun h => absurd h hn, fun ⟨s, hs, v, hv, hle⟩ => ?_⟩, fun h => absurd h hn, fun _ => .inl ⟨c, f, by rw [d, h8]⟩⟩
    obtain ⟨v', hv', hpos⟩ := (none_met a fun _ h => h).1 s hs
    rw [hv] at hv'
    rw [Except.ok.inj hv'] at hle
    linarith
  · have hn : r.status ≠ .separated := by rw [c]; decide
    refine ⟨⟨fun h => absurd h hn, fun ⟨s, hs, v, hv, hle⟩ => ?_⟩, fun h => absurd h hn, fun _ => .inr ⟨c, f, by rw [d, h7]⟩⟩
    obtain ⟨v', hv', hpos⟩ := (none_met a fun _ h => h).1 s hs
    rw [hv] at hv'
    rw [Except.ok.inj hv'] at hle
    linarith
  · obtain rfl : ev = e := by
      have := List.mem_of_getElem? a3
      rw [hpe, List.mem_singleton] at this
      exact this
    have hs : r.status = .separated := a5.trans hsep
    obtain ⟨k1, w, k2, k3⟩ := none_met a2 fun t ht => by rw [a1]; exact List.mem_append_left _ ht
    obtain ⟨⟨va, vb, f1, f2, f3⟩, f4⟩ := a4
    rw [k2] at f1
    have hvb : vb.val ≤ 0 := by
      rw [← Except.ok.inj f1] at f3
      rcases (changes_F _ _).1 f3 with h | h
      · linarith [h.1]
      · exact h.2
    refine ⟨⟨fun _ => ⟨s, by rw [a1]; simp, vb, f2, hvb⟩, fun _ => hs⟩, fun _ => ⟨pre, s, rest, a1, k1, ⟨vb, f2, hvb⟩, ?_⟩, fun h => absurd hs h⟩
    obtain ⟨x, q1, q2⟩ := hroot (fun t => o.eventValue ev t (s.dense t)) (lastPt (p.x0, p.y0) pre).1 s.t
    have : x = r.xEnd := Except.ok.inj (q1.symm.trans f4)
    rw [this, h7] at q2
    exact q2

/-- **C144**, Head: the computed shape factors themselves decide. Starting with a shape factor below the critical one, SEPARATED is reported exactly if
an accepted point has a shape factor of at least the critical one; the integration stops between the first such point and the one before. -/
theorem rounded_head_separation {o : Obj R.F} (hc : o.cls = .head) (E : VelocityEverywhere o) {crit : R.F} (hev : o.events = [.sepHead crit])
    {x0 x1 : R.F} {root : RootFinder R.F} (hroot : ∀ f a b, ∃ x, root f a b = .ok x ∧ x.val ∈ Set.uIcc a.val b.val) {gap : R.F → R.F → R.F} {m : ℝ}
    (hg : FloatGaps gap m) {stepper : Stepper R.F} (hst : ∀ p, Runs gap p (stepper p)) {p : IvpProblem R.F} (hp : (o.prepare x0 x1 .none).2 = .ok p)
    {d0 h0 : R.F} (hy : p.y0 = [d0, h0]) (hatt : h0.val < crit.val) :
    ∃ r, (o.solve x0 x1 .none (ivp o.eventValue stepper root)).2 = .ok r ∧
      (r.status = .separated ↔ ∃ s ∈ (stepper p).steps, ∃ d h, s.y = [d, h] ∧ crit.val ≤ h.val) ∧
      (r.status = .separated → ∃ pre s rest, (stepper p).steps = pre ++ s :: rest ∧ (∀ t ∈ pre, ∃ d h, t.y = [d, h] ∧ h.val < crit.val) ∧
        (∃ d h, s.y = [d, h] ∧ crit.val ≤ h.val) ∧ r.xEnd.val ∈ Set.uIcc (lastPt (x0, p.y0) pre).1.val s.t.val) ∧
      (r.status ≠ .separated → (r.status = .reachedEnd ∧ r.success = true ∧ r.xEnd = x1) ∨ (r.status = .unknown ∧ r.success = false ∧ r.xEnd = x0)) := by
  have hval : ∀ (t d h : R.F), o.eventValue (.sepHead crit) t [d, h] = .ok (crit - h) := fun _ _ _ => rfl
  have hpos : ∀ h : R.F, 0 < (crit - h).val ↔ h.val < crit.val := fun h => by rw [Rounding.val_sub, Rounding.rd_pos_iff, sub_pos]
  have hle : ∀ h : R.F, (crit - h).val ≤ 0 ↔ crit.val ≤ h.val := fun h => by rw [← not_lt, hpos, not_lt]
  obtain ⟨r, k1, k2, k3, k4⟩ := rounded_separation E hev rfl (fun t y hl => by
    rw [hc] at hl
    match y, hl with
    | [a, b], _ => exact ⟨_, rfl⟩) hroot hg hst hp (v0 := crit - h0) (by rw [hy]; rfl) ((hpos h0).2 hatt)
  have two : ∀ s ∈ (stepper p).steps, ∃ d h, s.y = [d, h] := fun s hs => by
    rcases hprep : o.prepare x0 x1 .none with ⟨o', q⟩
    rw [hprep] at hp
    obtain rfl : q = .ok p := hp
    have hl := (rk45_rounded_run E hprep (hst p)).2 s hs
    rw [hy] at hl
    match hsy : s.y, hl with
    | [a, b], _ => exact ⟨a, b, rfl⟩
  refine ⟨r, k1, k2.trans ⟨fun ⟨s, hs, v, hv, h⟩ => ?_, fun ⟨s, hs, d, h, e, hh⟩ => ?_⟩, fun hsp => ?_, k4⟩
  · obtain ⟨d, h', e⟩ := two s hs
    rw [e, hval] at hv
    rw [← Except.ok.inj hv] at h
    exact ⟨s, hs, d, h', e, (hle _).1 h⟩
  · exact ⟨s, hs, _, by rw [e, hval], (hle _).2 hh⟩
  · obtain ⟨pre, s, rest, e1, e2, ⟨v, hv, h⟩, e4⟩ := k3 hsp
    refine ⟨pre, s, rest, e1, fun t ht => ?_, ?_, e4⟩
    · obtain ⟨d, h', e⟩ := two t (by rw [e1]; exact List.mem_append_left _ ht)
      obtain ⟨w, hw, hw'⟩ := e2 t ht
      rw [e, hval] at hw
      rw [← Except.ok.inj hw] at hw'
      exact ⟨d, h', e, (hpos _).1 hw'⟩
    · obtain ⟨d, h', e⟩ := two s (by rw [e1]; simp)
      rw [e, hval] at hv
      rw [← Except.ok.inj hv] at h
      exact ⟨d, h', e, (hle _).1 h⟩

/-- The hypotheses of C144 can be met: arithmetic with 53 binary digits, the run of RK45 that C141 provides for every problem, Head's method along a
flat plate from a shape factor of 2 with the critical value 3, over any interval. -/
theorem rounded_head_separation_case : ∃ (R : Rounding) (_ : PyPow R.F) (gap : R.F → R.F → R.F) (m : ℝ) (o : Obj R.F) (crit : R.F)
    (stepper : Stepper R.F) (root : RootFinder R.F), R.eps = (1/2) ^ 53 ∧ FloatGaps gap m ∧ VelocityEverywhere o ∧ o.cls = .head ∧
    o.events = [.sepHead crit] ∧ (∀ p, Runs gap p (stepper p)) ∧ (∀ f a b, ∃ x, root f a b = .ok x ∧ x.val ∈ Set.uIcc a.val b.val) ∧
    ∀ x0 x1, ∃ p d0 h0, (o.prepare x0 x1 .none).2 = .ok p ∧ p.y0 = [d0, h0] ∧ h0.val < crit.val := by
  obtain ⟨R, hR⟩ : ∃ R : Rounding, R.eps = (1/2) ^ 53 := ⟨Rounding.binary 53 (by norm_num), rfl⟩
  let ip : PyPow R.F := ⟨fun a b => R.round (a.val ^ b.val), fun a => R.round (Real.exp a.val), fun a => R.round (Real.logb 10 a.val)⟩
  let o : Obj R.F := ⟨.head, lit 1, ⟨some (.fn fun _ => .ok (lit 1)), some (.fn fun _ => .ok (lit 0)), none⟩,
    .manual (lit 0) (lit 1) (lit 2) (lit 1) (lit 1), [.sepHead (lit 3)], none, none⟩
  obtain ⟨m, hm, -⟩ : ∃ m : ℝ, 0 < m ∧ m = (1/2) ^ 1075 := ⟨_, by positivity, rfl⟩
  have hpow : PowAtMostOne R := fun e he => by
    show R.rd (e.val ^ (lit (-(1/5)) : R.F).val) ≤ 1
    conv_rhs => rw [← R.rd_one]
    refine R.mono (Real.rpow_le_one_of_one_le_of_nonpos he ?_)
    rw [Rounding.val_lit, ← R.rd_zero]
    exact R.mono (by norm_num)
  have hg : FloatGaps (fun t _ => R.round (2 * R.eps * |t.val| + 2 * m)) m := ⟨hm, fun t d => by
    have h0 : 0 ≤ R.eps * |t.val| := mul_nonneg R.eps_nonneg (abs_nonneg _)
    have h1 := (Rounding.rd_bounds (R := R) (show 0 ≤ 2 * R.eps * |t.val| + 2 * m by linarith)).1
    have h2 : (1/2) * (2 * R.eps * |t.val| + 2 * m) ≤ (1 - R.eps) * (2 * R.eps * |t.val| + 2 * m) :=
      mul_le_mul_of_nonneg_right (by linarith [R.small]) (by linarith)
    show _ ≤ R.rd _ ∧ _ ≤ R.rd _
    exact ⟨by linarith, by linarith⟩⟩
  choose stepper hst using fun p => rk45_rounded_ends hpow hg p
  refine ⟨R, ip, _, m, o, lit 3, stepper, fun _ a _ => .ok a, hR, hg, ⟨fun t => ⟨_, rfl⟩, fun t => ⟨_, rfl⟩, fun h => by cases h⟩, rfl, rfl,
    fun p => (hst p).1, fun _ a _ => ⟨a, rfl, Set.left_mem_uIcc⟩, fun x0 x1 => ?_⟩
  have e1 : PyCmp.le (lit 1 : R.F) (lit 0) = false := by
    rw [Bool.eq_false_iff]; intro h; rw [Rounding.F_le, Rounding.val_one, Rounding.val_zero] at h; linarith
  have e2 : PyCmp.eq (lit 1 : R.F) (lit 0) = false := by
    rw [Bool.eq_false_iff]; intro h; rw [Rounding.F_eq, Rounding.val_one, Rounding.val_zero] at h; linarith
  have e3 : o.vel.duE x0 = .ok (lit 0) := rfl
  have e4 : o.ic.setNu o.nu = .ok o.ic := by simp [IC.setNu, o, e1]
  have e5 : ∃ d h : R.F, o.startVector = .ok [d, h] ∧ h.val < (lit 3 : R.F).val := by
    refine ⟨_, _, by simp [Obj.startVector, o, IC.deltaM, IC.shapeD, pyDiv, e2, bind, Except.bind, pure, Except.pure]; exact ⟨rfl, rfl⟩, ?_⟩
    have h1 := Rounding.val_int (R := R) 3 (by norm_num)
    have h2 := Rounding.val_int (R := R) 2 (by norm_num)
    have h3 := R.int 2 (by norm_num)
    push_cast at h1 h2 h3
    rw [Rounding.val_div, Rounding.val_one, h1, h2, div_one, h3]
    norm_num
  obtain ⟨d, h, e5, e6⟩ := e5
  unfold Obj.prepare
  rw [e4]
  simp only [e3]
  rw [show ({ o with ic := o.ic.setDu (lit 0) } : Obj R.F) = o from rfl, e5]
  exact ⟨_, d, h, rfl, rfl, e6⟩

end IBL
