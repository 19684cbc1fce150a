import Verif.Props.RungeKuttaFloatSep

/-!
C145: laminar separation in arithmetic with rounding. The sign of the computed wall shear of the closed-form fits, and what `solve` with RK45 reports.
-/

set_option linter.unusedSectionVars false

namespace IBL
open SolveIvp RungeKutta RkFloat Fits

variable {R : Rounding}

private theorem rd_ge {x a : ℝ} (h : a ≤ x) (ha : 0 ≤ a) : a * (999/1000) ≤ R.rd x := by
  have h1 := (Rounding.rd_bounds (R := R) (ha.trans h)).1
  have h2 : (999/1000) * x ≤ (1 - R.eps) * x := mul_le_mul_of_nonneg_right (by linarith [R.small]) (ha.trans h)
  linarith

private theorem rd_le {x b : ℝ} (h : x ≤ b) (hb : 0 ≤ b) : R.rd x ≤ b * (1001/1000) := by
  refine (R.mono h).trans ?_
  have h1 := (Rounding.rd_bounds (R := R) hb).2
  have h2 : (1 + R.eps) * b ≤ (1001/1000) * b := mul_le_mul_of_nonneg_right (by linarith [R.small]) hb
  linarith

private theorem rd_ge_neg {x a : ℝ} (h : -a ≤ x) (ha : 0 ≤ a) : -(a * (1001/1000)) ≤ R.rd x := by
  have := rd_le (R := R) (x := -x) (b := a) (by linarith) ha
  rw [R.neg] at this
  linarith

private theorem rd_le_neg {x b : ℝ} (h : x ≤ -b) (hb : 0 ≤ b) : R.rd x ≤ -(b * (999/1000)) := by
  have := rd_ge (R := R) (x := -x) (a := b) (by linarith) hb
  rw [R.neg] at this
  linarith

private theorem lit_between (q : ℚ) (h : 0 ≤ q) : (q : ℝ) * (999/1000) ≤ (lit q : R.F).val ∧ (lit q : R.F).val ≤ (q : ℝ) * (1001/1000) := by
  have : (0 : ℝ) ≤ q := by exact_mod_cast h
  rw [Rounding.val_lit]
  exact ⟨rd_ge le_rfl this, rd_le le_rfl this⟩

/-- The power function keeps zero and positive numbers apart. -/
def PowSigns (R : Rounding) [PyPow R.F] : Prop :=
  (∀ a : R.F, 0 < a.val → 0 < (PyPow.pow a (lit (62/100))).val) ∧ ∀ a : R.F, a.val = 0 → (PyPow.pow a (lit (62/100))).val = 0

variable [PyPow R.F]

/-- **C145**, White: the computed wall shear is positive exactly above the double `-0.09`, zero at and below it. -/
theorem white_shear_rounded (hpow : PowSigns R) (lam : R.F) :
    (0 < ((Fits.white : Fits R.F).shearAt lam).val ↔ R.rd (-9/100) < lam.val) ∧ (lam.val ≤ R.rd (-9/100) → ((Fits.white : Fits R.F).shearAt lam).val = 0) := by
  have hl : (lit (-9/100) : R.F).val = R.rd (-9/100) := by rw [Rounding.val_lit]; norm_num
  have hn : R.rd (-9/100) = -(lit (9/100) : R.F).val := by
    rw [Rounding.val_lit, ← R.neg]; norm_num
  have zero : lam.val ≤ R.rd (-9/100) → ((Fits.white : Fits R.F).shearAt lam).val = 0 := fun h => by
    refine hpow.2 _ ?_
    rw [Rounding.val_add]
    have : ((Fits.white : Fits R.F).checkRange lam).val = R.rd (-9/100) := by
      simp only [checkRange, Fits.white]
      split
      · exact hl
      · next hc =>
        rw [Rounding.F_lt, hl, not_lt] at hc
        exact le_antisymm h hc
    rw [this, hn, neg_add_cancel, R.rd_zero]
  refine ⟨⟨fun h => ?_, fun h => hpow.1 _ ?_⟩, zero⟩
  · by_contra hc
    rw [zero (not_lt.1 hc)] at h
    exact lt_irrefl _ h
  · have : (Fits.white : Fits R.F).checkRange lam = lam := by
      simp only [checkRange, Fits.white]
      rw [if_neg]
      rw [Rounding.F_lt, hl, not_lt]
      exact h.le
    rw [this, Rounding.val_add, Rounding.rd_pos_iff]
    linarith

/-- **C145**, Drela: the computed wall shear is positive in every flow that is not accelerated. -/
theorem drela_shear_rounded (lam : R.F) (h : lam.val ≤ 0) : 0 < ((drela : Fits R.F).shearAt lam).val := by
  obtain ⟨l, hl⟩ : ∃ l, l = (drela : Fits R.F).checkRange lam := ⟨_, rfl⟩
  have h9 : -(9/100 * (1001/1000)) ≤ (lit (-9/100) : R.F).val := by
    rw [Rounding.val_lit]; exact rd_ge_neg (by norm_num) (by norm_num)
  have h9' : (lit (-9/100) : R.F).val ≤ 0 := by
    rw [Rounding.val_lit]; exact Rounding.rd_nonpos (by norm_num)
  have l0 : l.val ≤ 0 ∧ -(9009/100000) ≤ l.val := by
    rw [hl]
    simp only [checkRange, drela]
    split
    · exact ⟨h9', by linarith⟩
    · next hc => rw [Rounding.F_lt, not_lt] at hc; exact ⟨h, by linarith⟩
  unfold shearAt
  rw [← hl]
  obtain ⟨l1, l2⟩ := l0
  show 0 < (lit (220/1000) + lit (152/100) * l - lit 5 * (l * l * l)
    - lit (72/1000) * (l * l) / ((l + lit (18/100)) * (l + lit (18/100))) : R.F).val
  have c1 := (lit_between (R := R) (220/1000) (by norm_num)).1
  have c2 := lit_between (R := R) (152/100) (by norm_num)
  have c3 := lit_between (R := R) (72/1000) (by norm_num)
  have c4 := lit_between (R := R) (18/100) (by norm_num)
  have c5 := lit_between (R := R) 5 (by norm_num)
  push_cast at c1 c2 c3 c4 c5
  have sq : 0 ≤ (l * l).val ∧ (l * l).val ≤ 8117/1000000 * (1001/1000) := by
    rw [Rounding.val_mul]
    exact ⟨Rounding.rd_nonneg (mul_self_nonneg _), rd_le (by nlinarith) (by norm_num)⟩
  have cube : (l * l * l).val ≤ 0 := by
    rw [Rounding.val_mul]
    exact Rounding.rd_nonpos (mul_nonpos_of_nonneg_of_nonpos sq.1 l1)
  have third : (lit 5 * (l * l * l) : R.F).val ≤ 0 := by
    rw [Rounding.val_mul]
    exact Rounding.rd_nonpos (mul_nonpos_of_nonneg_of_nonpos (by linarith [c5.1]) cube)
  have second : -(13708/100000 * (1001/1000)) ≤ (lit (152/100) * l : R.F).val := by
    rw [Rounding.val_mul]
    exact rd_ge_neg (by nlinarith [c2.1, c2.2]) (by norm_num)
  have first : 8255/100000 * (999/1000) ≤ (lit (220/1000) + lit (152/100) * l : R.F).val := by
    rw [Rounding.val_add]
    exact rd_ge (by linarith) (by norm_num)
  have top : 0 ≤ (lit (72/1000) * (l * l) : R.F).val ∧ (lit (72/1000) * (l * l) : R.F).val ≤ 586/1000000 * (1001/1000) := by
    rw [Rounding.val_mul]
    exact ⟨Rounding.rd_nonneg (mul_nonneg (by linarith [c3.1]) sq.1), rd_le (by nlinarith [c3.1, c3.2, sq.1, sq.2]) (by norm_num)⟩
  have base : 8972/100000 * (999/1000) ≤ (l + lit (18/100) : R.F).val := by
    rw [Rounding.val_add]
    exact rd_ge (by linarith [c4.1]) (by norm_num)
  have bot : 8030/1000000 * (999/1000) ≤ ((l + lit (18/100)) * (l + lit (18/100)) : R.F).val := by
    rw [Rounding.val_mul]
    exact rd_ge (by nlinarith [base]) (by norm_num)
  have quot : (lit (72/1000) * (l * l) / ((l + lit (18/100)) * (l + lit (18/100))) : R.F).val ≤ 74/1000 * (1001/1000) := by
    rw [Rounding.val_div]
    refine rd_le ?_ (by norm_num)
    rw [div_le_iff₀ (by linarith)]
    linarith [top.2]
  have sum : 82/1000 * (999/1000) ≤ (lit (220/1000) + lit (152/100) * l - lit 5 * (l * l * l) : R.F).val := by
    rw [Rounding.val_sub]
    exact rd_ge (by linarith) (by norm_num)
  rw [Rounding.val_sub, Rounding.rd_pos_iff]
  linarith

/-- **C145**, Cebeci and Bradshaw: the computed wall shear is positive from `-0.08` on and negative up to `-0.095`. -/
theorem cb_shear_rounded (lam : R.F) : (-(8/100) ≤ lam.val → 0 < ((cebeciBradshaw : Fits R.F).shearAt lam).val) ∧
    (lam.val ≤ -(95/1000) → ((cebeciBradshaw : Fits R.F).shearAt lam).val < 0) := by
  obtain ⟨l, hl⟩ : ∃ l, l = (cebeciBradshaw : Fits R.F).checkRange lam := ⟨_, rfl⟩
  have hlo : -(1/10 * (1001/1000)) ≤ (lit (-1/10) : R.F).val ∧ (lit (-1/10) : R.F).val ≤ -(1/10 * (999/1000)) := by
    rw [Rounding.val_lit]; exact ⟨rd_ge_neg (by norm_num) (by norm_num), rd_le_neg (by norm_num) (by norm_num)⟩
  have hhi := lit_between (R := R) (1/10) (by norm_num)
  have c1 := lit_between (R := R) (22/100) (by norm_num)
  have c2 := lit_between (R := R) (1402/1000) (by norm_num)
  have c3 := lit_between (R := R) (18/1000) (by norm_num)
  have c4 := lit_between (R := R) (107/1000) (by norm_num)
  have c5 := lit_between (R := R) (157/100) (by norm_num)
  have c6 := lit_between (R := R) (18/10) (by norm_num)
  push_cast at hhi c1 c2 c3 c4 c5 c6
  unfold shearAt
  rw [← hl]
  have hsh : (cebeciBradshaw : Fits R.F).shear l = piecewise0 l
    (fun lam => lit (22/100) + lit (1402/1000) * lam + lit (18/1000) * lam / (lit (107/1000) + lam))
    (fun lam => lit (22/100) + lit (157/100) * lam - lit (18/10) * (lam * lam)) := rfl
  rw [hsh]
  unfold piecewise0
  constructor <;> intro h
  · have l0 : -(8/100) ≤ l.val ∧ l.val ≤ 1001/10000 := by
      rw [hl]
      simp only [checkRange, cebeciBradshaw]
      split
      · next hc => rw [Rounding.F_lt] at hc; exfalso; linarith [hlo.2]
      · split
        · exact ⟨by linarith [hhi.1], by linarith [hhi.2]⟩
        · next hc => rw [Rounding.F_gt, not_lt] at hc; exact ⟨h, by linarith [hhi.2]⟩
    obtain ⟨l1, l2⟩ := l0
    split
    · next hneg =>
      rw [Rounding.F_lt, Rounding.val_zero] at hneg
      have s2 : -(1124/10000 * (1001/1000)) ≤ (lit (1402/1000) * l : R.F).val := by
        rw [Rounding.val_mul]; exact rd_ge_neg (by nlinarith [c2.1, c2.2]) (by norm_num)
      have s1 : 107/1000 * (999/1000) ≤ (lit (22/100) + lit (1402/1000) * l : R.F).val := by
        rw [Rounding.val_add]; exact rd_ge (by linarith [c1.1]) (by norm_num)
      have t : -(1442/1000000 * (1001/1000)) ≤ (lit (18/1000) * l : R.F).val := by
        rw [Rounding.val_mul]; exact rd_ge_neg (by nlinarith [c3.1, c3.2]) (by norm_num)
      have b : 268/10000 * (999/1000) ≤ (lit (107/1000) + l : R.F).val := by
        rw [Rounding.val_add]; exact rd_ge (by linarith [c4.1]) (by norm_num)
      have q : -(55/1000 * (1001/1000)) ≤ (lit (18/1000) * l / (lit (107/1000) + l) : R.F).val := by
        rw [Rounding.val_div]
        refine rd_ge_neg ?_ (by norm_num)
        rw [le_div_iff₀ (by linarith)]
        linarith
      rw [Rounding.val_add, Rounding.rd_pos_iff]
      linarith
    · next hneg =>
      rw [Rounding.F_lt, Rounding.val_zero, not_lt] at hneg
      rw [if_pos (by rw [Rounding.F_ge, Rounding.val_zero]; exact hneg)]
      have s2 : 0 ≤ (lit (157/100) * l : R.F).val := by
        rw [Rounding.val_mul]; exact Rounding.rd_nonneg (mul_nonneg (by linarith [c5.1]) hneg)
      have s1 : 21/100 * (999/1000) ≤ (lit (22/100) + lit (157/100) * l : R.F).val := by
        rw [Rounding.val_add]; exact rd_ge (by linarith [c1.1]) (by norm_num)
      have t : 0 ≤ (l * l).val ∧ (l * l).val ≤ 101/10000 * (1001/1000) := by
        rw [Rounding.val_mul]; exact ⟨Rounding.rd_nonneg (mul_self_nonneg _), rd_le (by nlinarith) (by norm_num)⟩
      have b : (lit (18/10) * (l * l) : R.F).val ≤ 2/100 * (1001/1000) := by
        rw [Rounding.val_mul]; exact rd_le (by nlinarith [c6.1, c6.2, t.1, t.2]) (by norm_num)
      rw [Rounding.val_sub, Rounding.rd_pos_iff]
      linarith
  · have l0 : -(1001/10000) ≤ l.val ∧ l.val ≤ -(95/1000) := by
      rw [hl]
      simp only [checkRange, cebeciBradshaw]
      split
      · exact ⟨by linarith [hlo.1], by linarith [hlo.2]⟩
      · next hc =>
        rw [Rounding.F_lt, not_lt] at hc
        split
        · next hc => rw [Rounding.F_gt] at hc; exfalso; linarith [hhi.1]
        · exact ⟨by linarith [hlo.1], h⟩
    obtain ⟨l1, l2⟩ := l0
    rw [if_pos (by rw [Rounding.F_lt, Rounding.val_zero]; linarith)]
    have s2 : (lit (1402/1000) * l : R.F).val ≤ -(133/1000 * (999/1000)) := by
      rw [Rounding.val_mul]; exact rd_le_neg (by nlinarith [c2.1, c2.2]) (by norm_num)
    have s1 : (lit (22/100) + lit (1402/1000) * l : R.F).val ≤ 88/1000 * (1001/1000) := by
      rw [Rounding.val_add]; exact rd_le (by linarith [c1.2]) (by norm_num)
    have t : (lit (18/1000) * l : R.F).val ≤ -(1708/1000000 * (999/1000)) := by
      rw [Rounding.val_mul]; exact rd_le_neg (by nlinarith [c3.1, c3.2]) (by norm_num)
    have b : 67/10000 * (999/1000) ≤ (lit (107/1000) + l : R.F).val ∧ (lit (107/1000) + l : R.F).val ≤ 122/10000 * (1001/1000) := by
      rw [Rounding.val_add]; exact ⟨rd_ge (by linarith [c4.1]) (by norm_num), rd_le (by linarith [c4.2]) (by norm_num)⟩
    have q : (lit (18/1000) * l / (lit (107/1000) + l) : R.F).val ≤ -(13/100 * (999/1000)) := by
      rw [Rounding.val_div]
      refine rd_le_neg ?_ (by norm_num)
      rw [div_le_iff₀ (by linarith [b.1])]
      linarith [b.2]
    rw [Rounding.val_add, Rounding.rd_neg_iff]
    linarith

/-- A Thwaites object (linear or nonlinear) that looks for separation with the functions `m`, and a `solve` with RK45 of it from `x0` to `x1`: the
velocity is defined everywhere, the root finder returns a point of its bracket, and the preparation has passed `p` on. -/
structure LaminarSolve (o : Obj R.F) (m : Fits R.F) (x0 x1 : R.F) (stepper : Stepper R.F) (root : RootFinder R.F) (p : IvpProblem R.F) : Prop where
  thwaites : o.cls ≠ .head
  vel : VelocityEverywhere o
  events : o.events = [.sepThwaites m]
  root : ∀ f a b, ∃ x, root f a b = .ok x ∧ x.val ∈ Set.uIcc a.val b.val
  steps : ∃ gap g, FloatGaps gap g ∧ ∀ p, Runs gap p (stepper p)
  prep : (o.prepare x0 x1 .none).2 = .ok p

/-- Among the states `l` is one whose computed `F * du_e` satisfies `P`. -/
def SomeLambda (o : Obj R.F) (l : List (R.F × List R.F)) (P : R.F → Prop) : Prop :=
  ∃ s ∈ l, ∃ F d, s.2 = [F] ∧ o.vel.duE s.1 = .ok d ∧ P (F * d)

/-- The accepted points with their states. -/
def accepted (r : Run R.F) : List (R.F × List R.F) := r.steps.map fun s => (s.t, s.y)

/-- **C145**, any functions: a layer that starts with positive computed wall shear is reported SEPARATED exactly if the computed wall shear is not
positive at an accepted point; otherwise the end that was asked for is reported, or failure. -/
theorem rounded_laminar_separation {o : Obj R.F} {m : Fits R.F} {x0 x1 : R.F} {stepper : Stepper R.F} {root : RootFinder R.F} {p : IvpProblem R.F}
    (L : LaminarSolve o m x0 x1 stepper root p) {F0 d0 : R.F} (hy : p.y0 = [F0]) (hd : o.vel.duE x0 = .ok d0) (h0 : 0 < (m.shearAt (F0 * d0)).val) :
    ∃ r, (o.solve x0 x1 .none (ivp o.eventValue stepper root)).2 = .ok r ∧
      (r.status = .separated ↔ SomeLambda o (accepted (stepper p)) fun lam => (m.shearAt lam).val ≤ 0) ∧
      (r.status ≠ .separated → (r.status = .reachedEnd ∧ r.success = true ∧ r.xEnd = x1) ∨ (r.status = .unknown ∧ r.success = false ∧ r.xEnd = x0)) := by
  obtain ⟨gap, g, hg, hst⟩ := L.steps
  have hval : ∀ {t F d : R.F}, o.vel.duE t = .ok d → o.eventValue (.sepThwaites m) t [F] = .ok (m.shearAt (F * d)) := fun {t F d} h => by
    simp only [Obj.eventValue, Obj.calcLambda, h, bind, Except.bind, pure, Except.pure]
  have size : stateSize o.cls = 1 := by
    have := L.thwaites
    unfold stateSize
    split
    · contradiction
    · rfl
  obtain ⟨r, k1, k2, -, k4⟩ := rounded_separation L.vel L.events rfl (fun t y hl => by
    rw [size] at hl
    obtain ⟨d, hd⟩ := L.vel.duE t
    match y, hl with
    | [a], _ => exact ⟨_, hval hd⟩) L.root hg hst L.prep (v0 := m.shearAt (F0 * d0)) (by rw [hy]; exact hval hd) h0
  refine ⟨r, k1, k2.trans ⟨fun ⟨s, hs, v, hv, hle⟩ => ?_, fun ⟨q, hq, F, d, e1, e2, hle⟩ => ?_⟩, k4⟩
  · obtain ⟨d, hd⟩ := L.vel.duE s.t
    rcases hprep : o.prepare x0 x1 .none with ⟨o', q⟩
    have hp := L.prep
    rw [hprep] at hp
    obtain rfl : q = .ok p := hp
    have hl := (rk45_rounded_run L.vel hprep (hst p)).2 s hs
    rw [hy] at hl
    match hsy : s.y, hl with
    | [F], _ =>
      rw [hsy, hval hd] at hv
      rw [← Except.ok.inj hv] at hle
      exact ⟨(s.t, s.y), List.mem_map.2 ⟨s, hs, rfl⟩, F, d, hsy, hd, hle⟩
  · obtain ⟨s, hs, rfl⟩ := List.mem_map.1 hq
    exact ⟨s, hs, _, by rw [show s.y = [F] from e1]; exact hval e2, hle⟩

/-- **C145**, White: SEPARATED is reported exactly if the computed parameter `F * du_e` has fallen to the double `-0.09` at an accepted point. It is
not missed: wherever the product of the computed numbers is at most `-0.09` exactly, its rounded value is at most that double. -/
theorem rounded_white_separation (hpow : PowSigns R) {o : Obj R.F} {x0 x1 : R.F} {stepper : Stepper R.F} {root : RootFinder R.F}
    {p : IvpProblem R.F} (L : LaminarSolve o Fits.white x0 x1 stepper root p) {F0 d0 : R.F} (hy : p.y0 = [F0]) (hd : o.vel.duE x0 = .ok d0)
    (h0 : R.rd (-9/100) < (F0 * d0).val) :
    ∃ r, (o.solve x0 x1 .none (ivp o.eventValue stepper root)).2 = .ok r ∧
      (r.status = .separated ↔ SomeLambda o (accepted (stepper p)) fun lam => lam.val ≤ R.rd (-9/100)) ∧
      ((∃ s ∈ accepted (stepper p), ∃ F d, s.2 = [F] ∧ o.vel.duE s.1 = .ok d ∧ F.val * d.val ≤ -9/100) → r.status = .separated) := by
  obtain ⟨r, k1, k2, -⟩ := rounded_laminar_separation L hy hd ((white_shear_rounded hpow _).1.2 h0)
  have key : r.status = .separated ↔ SomeLambda o (accepted (stepper p)) fun lam => lam.val ≤ R.rd (-9/100) := by
    refine k2.trans ⟨fun ⟨s, hs, F, d, e1, e2, h⟩ => ⟨s, hs, F, d, e1, e2, ?_⟩, fun ⟨s, hs, F, d, e1, e2, h⟩ => ⟨s, hs, F, d, e1, e2, ?_⟩⟩
    · exact not_lt.1 fun hc => absurd ((white_shear_rounded hpow _).1.2 hc) (not_lt.2 h)
    · exact ((white_shear_rounded hpow _).2 h).le
  exact ⟨r, k1, key, fun ⟨s, hs, F, d, e1, e2, h⟩ => key.2 ⟨s, hs, F, d, e1, e2, R.mono h⟩⟩

/-- **C145**, Cebeci and Bradshaw: SEPARATED is reported if the computed parameter is at most `-0.095` at an accepted point, and only if it is below
`-0.08` at one. -/
theorem rounded_cb_separation {o : Obj R.F} {x0 x1 : R.F} {stepper : Stepper R.F} {root : RootFinder R.F} {p : IvpProblem R.F}
    (L : LaminarSolve o cebeciBradshaw x0 x1 stepper root p) {F0 d0 : R.F} (hy : p.y0 = [F0]) (hd : o.vel.duE x0 = .ok d0)
    (h0 : -(8/100) ≤ (F0 * d0).val) :
    ∃ r, (o.solve x0 x1 .none (ivp o.eventValue stepper root)).2 = .ok r ∧
      (SomeLambda o (accepted (stepper p)) (fun lam => lam.val ≤ -(95/1000)) → r.status = .separated) ∧
      (r.status = .separated → SomeLambda o (accepted (stepper p)) fun lam => lam.val < -(8/100)) := by
  obtain ⟨r, k1, k2, -⟩ := rounded_laminar_separation L hy hd ((cb_shear_rounded _).1 h0)
  refine ⟨r, k1, fun ⟨s, hs, F, d, e1, e2, h⟩ => k2.2 ⟨s, hs, F, d, e1, e2, ((cb_shear_rounded _).2 h).le⟩, fun hsep => ?_⟩
  obtain ⟨s, hs, F, d, e1, e2, h⟩ := k2.1 hsep
  exact ⟨s, hs, F, d, e1, e2, not_le.1 fun hc => absurd ((cb_shear_rounded _).1 hc) (not_lt.2 h)⟩

/-- **C145**, Drela: in a flow that is nowhere accelerated SEPARATED is not reported as long as the accepted states are not negative, however strong
the deceleration; the end that was asked for is reported, or failure. -/
theorem rounded_drela_separation {o : Obj R.F} {x0 x1 : R.F} {stepper : Stepper R.F} {root : RootFinder R.F} {p : IvpProblem R.F}
    (L : LaminarSolve o drela x0 x1 stepper root p) {F0 d0 : R.F} (hy : p.y0 = [F0]) (hd : o.vel.duE x0 = .ok d0) (hF0 : 0 ≤ F0.val)
    (hdec : ∀ t d, o.vel.duE t = .ok d → d.val ≤ 0) (hF : ∀ s ∈ accepted (stepper p), ∀ F ∈ s.2, 0 ≤ F.val) :
    ∃ r, (o.solve x0 x1 .none (ivp o.eventValue stepper root)).2 = .ok r ∧
      ((r.status = .reachedEnd ∧ r.success = true ∧ r.xEnd = x1) ∨ (r.status = .unknown ∧ r.success = false ∧ r.xEnd = x0)) := by
  have neg : ∀ {F d : R.F}, 0 ≤ F.val → d.val ≤ 0 → (F * d).val ≤ 0 := fun h1 h2 => by
    rw [Rounding.val_mul]; exact Rounding.rd_nonpos (mul_nonpos_of_nonneg_of_nonpos h1 h2)
  obtain ⟨r, k1, k2, k3⟩ := rounded_laminar_separation L hy hd (drela_shear_rounded _ (neg hF0 (hdec _ _ hd)))
  refine ⟨r, k1, k3 fun hsep => ?_⟩
  obtain ⟨s, hs, F, d, e1, e2, h⟩ := k2.1 hsep
  exact absurd (drela_shear_rounded _ (neg (hF s hs F (by rw [e1]; simp)) (hdec _ _ e2))) (not_lt.2 h)

/-- The hypotheses of C145 can be met: arithmetic with 53 binary digits, the run of RK45 that C141 provides for every problem, the linearly
decelerated flow `u_e = 1 - x`, an attached layer with a momentum thickness of 0.1 for a viscosity of 1, either class, any functions, any interval. -/
theorem rounded_laminar_separation_case : ∃ (R : Rounding) (_ : PyPow R.F), R.eps = (1/2) ^ 53 ∧ PowSigns R ∧ ∀ m : Fits R.F,
    ∀ cls, cls ≠ .head → ∃ (o : Obj R.F) (stepper : Stepper R.F) (root : RootFinder R.F), o.cls = cls ∧ (∀ t, o.vel.uE t = .ok (lit 1 - t)) ∧
    ∀ x0 x1, ∃ p F0 d0, LaminarSolve o m x0 x1 stepper root p ∧ p.y0 = [F0] ∧ o.vel.duE x0 = .ok d0 ∧ d0.val < 0 ∧ 0 ≤ F0.val ∧
      -(8/100) ≤ (F0 * d0).val ∧ R.rd (-9/100) < (F0 * d0).val := by
  obtain ⟨R, hR⟩ : ∃ R : Rounding, R.eps = (1/2) ^ 53 := ⟨Rounding.binary 53 (by norm_num), rfl⟩
  let ip : PyPow R.F := ⟨fun a b => R.round (a.val ^ b.val), fun a => R.round (Real.exp a.val), fun a => R.round (Real.logb 10 a.val)⟩
  obtain ⟨g, hm, -⟩ : ∃ m : ℝ, 0 < m ∧ m = (1/2) ^ 1075 := ⟨_, by positivity, rfl⟩
  have hpow : PowAtMostOne R := fun e he => by
    show R.rd (e.val ^ (lit (-(1/5)) : R.F).val) ≤ 1
    conv_rhs => rw [← R.rd_one]
    refine R.mono (Real.rpow_le_one_of_one_le_of_nonpos he ?_)
    rw [Rounding.val_lit, ← R.rd_zero]
    exact R.mono (by norm_num)
  have hg : FloatGaps (fun t _ => R.round (2 * R.eps * |t.val| + 2 * g)) g := ⟨hm, fun t d => by
    have h0 : 0 ≤ R.eps * |t.val| := mul_nonneg R.eps_nonneg (abs_nonneg _)
    have h1 := (Rounding.rd_bounds (R := R) (show 0 ≤ 2 * R.eps * |t.val| + 2 * g by linarith)).1
    have h2 : (1/2) * (2 * R.eps * |t.val| + 2 * g) ≤ (1 - R.eps) * (2 * R.eps * |t.val| + 2 * g) :=
      mul_le_mul_of_nonneg_right (by linarith [R.small]) (by linarith)
    show _ ≤ R.rd _ ∧ _ ≤ R.rd _
    exact ⟨by linarith, by linarith⟩⟩
  choose stepper hst using fun p => rk45_rounded_ends hpow hg p
  have h62 := (lit_between (R := R) (62/100) (by norm_num)).1
  push_cast at h62
  refine ⟨R, ip, hR, ⟨fun a ha => ?_, fun a ha => ?_⟩, fun m cls hcls => ?_⟩
  · show 0 < R.rd _
    exact Rounding.rd_pos_iff.2 (Real.rpow_pos_of_pos ha _)
  · show R.rd (a.val ^ _) = 0
    rw [ha, Real.zero_rpow (by linarith), R.rd_zero]
  let o : Obj R.F := ⟨cls, lit 1, ⟨some (.fn fun t => .ok (lit 1 - t)), some (.fn fun _ => .ok (lit (-1))), none⟩,
    .manual (lit (-1)) (lit 1) (lit (2/10)) (lit (1/10)) (lit (1/10)), [.sepThwaites m], none, some m⟩
  refine ⟨o, stepper, fun _ a _ => .ok a, rfl, fun t => rfl, fun x0 x1 => ?_⟩
  have e1 : PyCmp.le (lit 1 : R.F) (lit 0) = false := by
    rw [Bool.eq_false_iff]; intro h; rw [Rounding.F_le, Rounding.val_one, Rounding.val_zero] at h; linarith
  have e2 : PyCmp.eq (lit 1 : R.F) (lit 0) = false := by
    rw [Bool.eq_false_iff]; intro h; rw [Rounding.F_eq, Rounding.val_one, Rounding.val_zero] at h; linarith
  have e3 : o.vel.duE x0 = .ok (lit (-1)) := rfl
  have e4 : o.ic.setNu o.nu = .ok o.ic := by simp [IC.setNu, o, e1]
  have e5 : o.startVector = .ok [lit (1/10) * lit (1/10) / lit 1] := by
    have : pyDiv (lit (1/10) * lit (1/10) : R.F) (lit 1) = .ok (lit (1/10) * lit (1/10) / lit 1) := by simp [pyDiv, e2]
    unfold Obj.startVector
    split
    · next h => exact absurd h hcls
    · simp only [o, IC.deltaM, bind, Except.bind, pure, Except.pure, this]
  have prep : ∃ p, (o.prepare x0 x1 .none).2 = .ok p ∧ p.y0 = [lit (1/10) * lit (1/10) / lit 1] := by
    unfold Obj.prepare
    rw [e4]
    simp only [e3]
    rw [show ({ o with ic := o.ic.setDu (lit (-1)) } : Obj R.F) = o from rfl, e5]
    exact ⟨_, rfl, rfl⟩
  obtain ⟨p, hp, hy⟩ := prep
  have c := lit_between (R := R) (1/10) (by norm_num)
  push_cast at c
  have sq : 0 ≤ (lit (1/10) * lit (1/10) : R.F).val ∧ (lit (1/10) * lit (1/10) : R.F).val ≤ 2/100 * (1001/1000) := by
    rw [Rounding.val_mul]
    exact ⟨Rounding.rd_nonneg (mul_self_nonneg _), rd_le (by nlinarith [c.1, c.2]) (by norm_num)⟩
  have F : 0 ≤ (lit (1/10) * lit (1/10) / lit 1 : R.F).val ∧ (lit (1/10) * lit (1/10) / lit 1 : R.F).val ≤ 3/100 * (1001/1000) := by
    rw [Rounding.val_div, Rounding.val_one, div_one]
    exact ⟨Rounding.rd_nonneg sq.1, rd_le (by linarith [sq.2]) (by norm_num)⟩
  have d : (lit (-1) : R.F).val = -1 := by
    have := Rounding.val_int (R := R) (-1) (by norm_num)
    push_cast at this
    exact this
  have lam : -(4/100 * (1001/1000)) ≤ (lit (1/10) * lit (1/10) / lit 1 * lit (-1) : R.F).val := by
    rw [Rounding.val_mul, d]
    exact rd_ge_neg (by linarith [F.2]) (by norm_num)
  have h9 : R.rd (-9/100) ≤ -(9/100 * (999/1000)) := rd_le_neg (by norm_num) (by norm_num)
  exact ⟨p, _, _, ⟨hcls, ⟨fun t => ⟨_, rfl⟩, fun t => ⟨_, rfl⟩, fun _ h => by cases h⟩, rfl, fun _ a _ => ⟨a, rfl, Set.left_mem_uIcc⟩,
    ⟨_, g, hg, fun p => (hst p).1⟩, hp⟩, hy, rfl, by rw [d]; norm_num, F.1, by linarith, by linarith⟩

end IBL
