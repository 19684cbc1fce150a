import Verif.Props.RungeKuttaRounded

/-!
A case for C140: in binary arithmetic with enough digits, one step of RK45 along a flat plate.
-/

set_option linter.unusedSectionVars false

namespace IBL
open SolveIvp RungeKutta RkRound

variable {R : Rounding}

theorem rd_half_pow (k : ℕ) : R.rd ((1/2) ^ k) = (1/2) ^ k := by
  induction k with
  | zero => simpa using R.rd_one
  | succ k ih =>
    have := R.dbl ((1/2) ^ (k + 1))
    rw [show (2:ℝ) * (1/2) ^ (k + 1) = (1/2) ^ k by rw [pow_succ]; ring, ih] at this
    rw [pow_succ]; rw [pow_succ] at this
    linarith

private theorem ten_times (x : R.F) (h : 0 < x.val) : 2 * x.val ≤ (lit 10 * x).val := by
  have h10 : (lit 10 : R.F).val = 10 := by have := Rounding.val_int (R := R) 10 (by norm_num); push_cast at this; exact this
  rw [Rounding.val_mul, h10]
  have h3 := R.mono (show 2 * x.val ≤ 10 * x.val by linarith)
  rw [R.dbl, x.rep] at h3
  exact h3

private theorem abs_rd_le (x : ℝ) : |R.rd x| ≤ 2 * |x| := by
  have h1 := R.rel x
  have h2 : |R.rd x| ≤ |R.rd x - x| + |x| := by simpa using abs_add_le (R.rd x - x) x
  have h3 := mul_le_mul_of_nonneg_right R.small (abs_nonneg x)
  linarith [abs_nonneg x]

private theorem add_le' {a b : R.F} {A B C : ℝ} (ha : |a.val| ≤ A) (hb : |b.val| ≤ B) (h : 2 * (A + B) ≤ C) : |(a + b).val| ≤ C := by
  rw [Rounding.val_add]
  linarith [abs_rd_le (R := R) (a.val + b.val), abs_add_le a.val b.val]

private theorem mul_le' {a b : R.F} {A B C : ℝ} (ha : |a.val| ≤ A) (hb : |b.val| ≤ B) (h : 2 * (A * B) ≤ C) : |(a * b).val| ≤ C := by
  rw [Rounding.val_mul]
  have h1 := abs_rd_le (R := R) (a.val * b.val)
  rw [abs_mul] at h1
  linarith [mul_le_mul ha hb (abs_nonneg _) ((abs_nonneg _).trans ha)]

private theorem lit_le' {q : ℚ} {A : ℝ} (h : 2 * |(q : ℝ)| ≤ A) : |(lit q : R.F).val| ≤ A := by
  rw [Rounding.val_lit]; exact (abs_rd_le _).trans h

/-- The slope of the state along a flat plate with velocity 1, as computed. -/
noncomputable def slope : R.F := (lit (45/100) - lit 6 * (lit 0)) / (lit (1/1000) + lit 1)

theorem slope_le : |(slope : R.F).val| ≤ 4 := by
  unfold slope
  have h0 : (lit 6 * lit 0 : R.F).val = 0 := by rw [Rounding.val_mul, Rounding.val_zero, mul_zero, R.rd_zero]
  have h1 : |(lit (45/100) - lit 6 * lit 0 : R.F).val| ≤ 2 := by
    rw [Rounding.val_sub, h0, sub_zero, Rounding.val_lit, R.idem]
    refine (abs_rd_le _).trans ?_
    push_cast
    rw [abs_of_pos] <;> norm_num
  have h2 : 1 ≤ (lit (1/1000) + lit 1 : R.F).val := by
    rw [Rounding.val_add, Rounding.val_one]
    conv_lhs => rw [← R.rd_one]
    refine R.mono ?_
    have : 0 ≤ (lit (1/1000) : R.F).val := by rw [Rounding.val_lit]; exact Rounding.rd_nonneg (by norm_num)
    linarith
  rw [Rounding.val_div]
  refine (abs_rd_le _).trans ?_
  rw [abs_div, abs_of_pos (show 0 < (lit (1/1000) + lit 1 : R.F).val by linarith)]
  have := div_le_self (abs_nonneg (lit (45/100) - lit 6 * lit 0 : R.F).val) h2
  linarith

/-- Any number of times the slope, the estimated error is of that size. -/
private theorem comb_le {c : R.F} (hc : |c.val| ≤ 4) : ∃ e : R.F, |e.val| ≤ 5000 ∧ comb 1 [[c], [c], [c], [c], [c], [c], [c]] errorWeights = [e] := by
  refine ⟨lit 0 + c * lit (-71/57600) + c * lit 0 + c * lit (71/16695) + c * lit (-71/1920) + c * lit (17253/339200) + c * lit (-22/525) +
    c * lit (1/40), ?_, rfl⟩
  have m : ∀ q : ℚ, |(q:ℝ)| ≤ 1 → |(c * lit q).val| ≤ 16 := fun q hq => mul_le' hc (lit_le' (A := 2) (by linarith)) (by norm_num)
  have z : |(lit 0 : R.F).val| ≤ 0 := by rw [Rounding.val_zero, abs_zero]
  refine add_le' (A := 2016) (add_le' (A := 992) (add_le' (A := 480) (add_le' (A := 224) (add_le' (A := 96) (add_le' (A := 32) (add_le' (A := 0) z (m _ ?_) ?_)
    (m _ ?_) ?_) (m _ ?_) ?_) (m _ ?_) ?_) (m _ ?_) ?_) (m _ ?_) ?_) (m _ ?_) ?_ <;> norm_num

section
variable [PyPow R.F]

private theorem stages_const {rhs : R.F → List R.F → Except Exc (List R.F)} {c : R.F} (hr : ∀ t y, rhs t [y] = .ok [c]) (t y h : R.F) :
    ∃ yN, rkStep rhs t [y] [c] h = .ok ([yN], [c], [[c], [c], [c], [c], [c], [c], [c]]) := by
  have hc : ∀ t y, call rhs 1 t [y] = .ok [c] := fun t y => by simp [call, hr]
  refine ⟨cN (fun _ _ => c) t y c h, ?_⟩
  have st : ∀ (q : ℚ) (a : List ℚ) (rows : List (ℚ × List ℚ)) (M : List (List R.F)) (w : R.F), vadd [y] ((comb [y].length M a).map (· * h)) = [w] →
      stages rhs t [y] h ((q, a) :: rows) M = stages rhs t [y] h rows (M ++ [[c]]) := fun q a rows M w hw => by
    rw [stages, hw, show [y].length = 1 from rfl, hc]
  unfold rkStep tableau
  rw [st _ _ _ _ _ rfl, st _ _ _ _ _ rfl, st _ _ _ _ _ rfl, st _ _ _ _ _ rfl, st _ _ _ _ _ rfl]
  have eN : vadd [y] ((comb [y].length [[c], [c], [c], [c], [c], [c]] weights).map (h * ·)) = [cN (fun _ _ => c) t y c h] := rfl
  rw [stages]
  simp only [List.cons_append, List.nil_append]
  rw [eN, show [y].length = 1 from rfl, hc]

end

private theorem norm_small [PyPow R.F] (hp : (PyPow.pow (lit 1) (lit (1/2)) : R.F).val = 1) {v : R.F} (hv : |v.val| ≤ 1/4) : (RungeKutta.norm [v]).val < 1 := by
  have e : (RungeKutta.norm [v]).val = R.rd (R.rd (Real.sqrt (R.rd (0 + R.rd (v.val * v.val)))) / 1) := by
    have : (RungeKutta.norm [v]).val = R.rd (R.rd (Real.sqrt (R.rd ((lit 0 : R.F).val + R.rd (v.val * v.val)))) /
      (PyPow.pow (lit (([v].length : ℕ) : ℚ)) (lit (1/2)) : R.F).val) := rfl
    rw [this, show (([v].length : ℕ) : ℚ) = 1 from by norm_num, hp, Rounding.val_zero]
  have s1 : R.rd (0 + R.rd (v.val * v.val)) ≤ (1/2) ^ 4 := by
    rw [zero_add, R.idem, ← rd_half_pow (R := R)]
    refine R.mono ?_
    have := abs_mul_abs_self v.val
    nlinarith [abs_nonneg v.val]
  have s2 : Real.sqrt (R.rd (0 + R.rd (v.val * v.val))) ≤ (1/2) ^ 2 := by
    rw [Real.sqrt_le_left (by norm_num)]
    exact s1.trans (by norm_num)
  rw [e, div_one, R.idem]
  have := R.mono s2
  rw [rd_half_pow] at this
  exact lt_of_le_of_lt this (by norm_num)

private theorem scale_ge [PyPow R.F] {p : IvpProblem R.F} (ha : p.atol = lit (1/100000000000)) (hr : 0 ≤ p.rtol.val) (a b : R.F) :
    ∃ s : R.F, (1/200000000000 : ℝ) ≤ s.val ∧ scale p [a] [b] = [s] := by
  refine ⟨_, ?_, rfl⟩
  have h1 : 0 ≤ (npMax (PyCmp.abs a) (PyCmp.abs b)).val := by
    unfold npMax; split_ifs <;> simp
  have h2 : 0 ≤ (relTol p).val := by
    unfold relTol; split_ifs
    · rw [Rounding.val_lit]; exact Rounding.rd_nonneg (by norm_num)
    · exact hr
  have h3 : 0 ≤ (npMax (PyCmp.abs a) (PyCmp.abs b) * relTol p).val := by
    rw [Rounding.val_mul]; exact Rounding.rd_nonneg (mul_nonneg h1 h2)
  rw [ha, Rounding.val_add]
  have h4 : R.rd ((1/100000000000 : ℚ) : ℝ) ≤ R.rd ((lit (1/100000000000) : R.F).val + (npMax (PyCmp.abs a) (PyCmp.abs b) * relTol p).val) := by
    conv_lhs => rw [← R.idem]
    refine R.mono ?_
    rw [Rounding.val_lit]; linarith
  refine le_trans ?_ h4
  refine le_trans ?_ (Rounding.rd_bounds (by norm_num)).1
  have := R.small
  push_cast
  linarith

/-- One step to the end: the state lies on the line with the computed slope, the estimated error is accepted. -/
theorem one_step [PyPow R.F] (hp : (PyPow.pow (lit 1) (lit (1/2)) : R.F).val = 1) {p : IvpProblem R.F} {y c : R.F} (hx0 : p.x0 = lit 0)
    (h1 : 0 < p.x1.val) (h1' : p.x1.val ≤ (1/2) ^ 60) (hy : p.y0 = [y]) (hr : ∀ t y, p.rhs t [y] = .ok [c]) (hc : |c.val| ≤ 4)
    (ha : p.atol = lit (1/100000000000)) (hrt : 0 ≤ p.rtol.val) {gap : R.F → R.F → R.F} (hgap : ∀ d, gap p.x0 d = p.x1) : ∃ st : Step R.F, st.t = p.x1 ∧ (∃ v, st.y = [v]) ∧ Runs gap p ⟨[st], .reached⟩ := by
  have hz : p.x0.val = 0 := by rw [hx0, Rounding.val_zero]
  have dir : direction p = lit 1 := by
    unfold direction
    split_ifs with h2 h3
    · rfl
    · rfl
    · exact absurd ((Rounding.F_gt _ _).2 (by rw [hz]; exact h1)) h3
  have hcall : ∀ t y, call p.rhs 1 t [y] = .ok [c] := fun t y => by simp [call, hr]
  have hcall' : ∀ t y, call p.rhs [y].length t [y] = .ok [c] := hcall
  have hcm : ∀ t (w : R.F → R.F), call p.rhs [y].length t (vadd [y] ([c].map w)) = .ok [c] := fun t w => hcall t (y + w c)
  obtain ⟨h0, hi⟩ : ∃ h0, initialStep p [c] = .ok h0 := by
    unfold initialStep
    rw [hy]
    simp only
    split
    · exact ⟨_, rfl⟩
    · simp only [hcm]
      exact ⟨_, rfl⟩
  have hs : start p = .ok ⟨p.x0, [y], [c], h0⟩ := by
    unfold start
    have fin : p.y0.all Pchip.isFinite = true := by
      rw [hy]
      simp [Pchip.isFinite, R.rd_zero]
    have at0 : PyCmp.lt p.atol (lit 0) = false := by
      rw [Bool.eq_false_iff]
      intro h
      rw [Rounding.F_lt, ha, Rounding.val_zero, Rounding.val_lit] at h
      exact absurd h (not_lt.2 (Rounding.rd_nonneg (by norm_num)))
    rw [fin, at0]
    simp only [Bool.not_true, Bool.false_eq_true, if_false, hy, hcall']
    rw [hi]
  -- the step is cut at the end
  obtain ⟨m, em⟩ : ∃ m, m = minStep gap p p.x0 := ⟨_, rfl⟩
  have hm : p.x1.val < m.val := by
    have h3 := ten_times p.x1 h1
    rw [em, minStep, hgap]
    linarith
  obtain ⟨h, eh⟩ : ∃ h, h = firstTry m h0 := ⟨_, rfl⟩
  have hmh : m.val ≤ h.val := by
    rw [eh, firstTry]
    split_ifs with hlt
    · exact le_rfl
    · exact not_lt.1 fun hc => hlt ((Rounding.F_lt _ _).2 hc)
  have hlt : PyCmp.lt h m = false := by
    rw [Bool.eq_false_iff]
    intro hc
    exact absurd ((Rounding.F_lt _ _).1 hc) (not_lt.2 hmh)
  have hd : p.x1 - p.x0 = p.x1 := by
    ext
    rw [Rounding.val_sub, hz, sub_zero, p.x1.rep]
  have cut : PyCmp.gt (direction p * (p.x0 + h * direction p - p.x1)) (lit 0) = true := by
    rw [dir, Rounding.F_gt, Rounding.val_zero, Rounding.val_mul, Rounding.val_one, one_mul, Rounding.val_sub, Rounding.val_add, Rounding.val_mul,
      Rounding.val_one, mul_one, hz, zero_add, h.rep, h.rep, R.idem, Rounding.rd_pos_iff]
    linarith
  obtain ⟨yN, hk⟩ := stages_const (rhs := p.rhs) hr p.x0 y p.x1
  obtain ⟨e, he, hcomb⟩ := comb_le hc
  obtain ⟨sc, hsc, hscale⟩ := scale_ge ha hrt y yN
  obtain ⟨q, eq⟩ : ∃ q : Trial R.F, q = ⟨p.x1, [yN], [c], [[c], [c], [c], [c], [c], [c], [c]], p.x1, RungeKutta.norm [e * p.x1 / sc]⟩ := ⟨_, rfl⟩
  have ht : trial p ⟨p.x0, [y], [c], h0⟩ h = .ok q := by
    unfold trial
    simp only [cut, if_true]
    rw [hd, hk]
    simp only
    rw [show [y].length = 1 from rfl, hcomb, hscale, eq]
    rfl
  have herr : PyCmp.lt q.err (lit 1) = true := by
    rw [Rounding.F_lt, Rounding.val_one, eq]
    refine norm_small hp ?_
    rw [Rounding.val_div]
    refine (abs_rd_le _).trans ?_
    have s1 : |(e * p.x1).val| ≤ 10000 * (1/2) ^ 60 := mul_le' (B := (1/2) ^ 60) he (by rw [abs_of_pos h1]; exact h1') (by norm_num)
    have s0 : (0:ℝ) < sc.val := lt_of_lt_of_le (by norm_num) hsc
    rw [abs_div, abs_of_pos s0]
    have s2 : |(e * p.x1).val| / sc.val ≤ 1/8 := by
      rw [div_le_iff₀ s0]
      refine s1.trans ?_
      have : (10000 : ℝ) * (1/2) ^ 60 ≤ 1/8 * (1/200000000000) := by norm_num
      linarith
    linarith
  refine ⟨⟨q.t, q.y, denseOutput p.x0 q.t [y] q.K⟩, by rw [eq], ⟨yN, by rw [eq]⟩, .run hs (.last ?_ ?_ ?_ (s' := ⟨q.t, q.y, q.f, PyCmp.abs q.h * growth false q.err⟩) ?_)⟩
  · simp
  · rw [Bool.eq_false_iff]
    intro hc'
    rw [Rounding.F_eq] at hc'
    have : p.x0.val = p.x1.val := hc'
    linarith
  · show Tries p (minStep gap p p.x0) _ false (firstTry (minStep gap p p.x0) h0) _
    rw [← em, ← eh]
    exact .accept hlt ht herr
  · rw [Rounding.F_ge, Rounding.val_zero, dir, Rounding.val_mul, Rounding.val_one, one_mul, Rounding.val_sub, eq]
    simp [R.rd_zero]

/-- The hypotheses of `rk45_rounded` can be met whatever the constant: a flat plate, integrated over a short piece in binary arithmetic with many digits. -/
theorem rk45_rounded_case (K : ℝ) (hK : 0 < K) : (∀ x : ℝ, HasDerivAt (fun _ : ℝ => (1:ℝ)) ((fun _ => 0) x) x) ∧
    ContDiffOn ℝ 6 (fun _ : ℝ => (1:ℝ)) (Set.Icc 0 2) ∧ (∀ x ∈ Set.Icc (0:ℝ) 2, -(1/1000) < (fun _ : ℝ => (1:ℝ)) x) ∧
    ∃ (R : Rounding) (_ : PyPow R.F) (o o' o'' : Obj R.F) (X0 X1 dm : R.F) (gap : R.F → R.F → R.F) (stepper : Stepper R.F)
      (root : RootFinder R.F) (p : IvpProblem R.F) (r : IntegrationResult R.F) (h : ℝ), 0 < R.eps ∧
      o.cls = .thwaitesLinear ∧ o.nu.val = 1 ∧ X0.val = 0 ∧ 0 < X1.val ∧ X1.val ≤ 1 ∧ ComputesWithin 0 o (fun _ => 1) (fun _ => 0) 0 2 ∧
      Advances gap 0 X1.val ∧ Runs gap p (stepper p) ∧ (∀ g a b x, root g a b = .ok x → x.val ∈ Set.uIcc a.val b.val) ∧
      o.prepare X0 X1 .none = (o', .ok p) ∧ o'.ic.deltaM = .ok dm ∧ |dm.val - 1| ≤ 0 ∧
      o.solve X0 X1 .none (ivp o.eventValue stepper root) = (o'', .ok r) ∧ r.success = true ∧ r.xEnd = X1 ∧
      FewShortSteps 1 h r.xEnd.val X0 (stepper p).steps ∧ K * (h ^ 5 + (1:ℕ) * R.eps + 0) ≤ 1 := by
  refine ⟨fun x => hasDerivAt_const x 1, contDiffOn_const, fun x _ => by norm_num, ?_⟩
  obtain ⟨k0, hk0⟩ := exists_pow_lt_of_lt_one (show 0 < 1 / (2 * K) by positivity) (show (1/2 : ℝ) < 1 by norm_num)
  obtain ⟨k, ek⟩ : ∃ k, k = k0 + 60 := ⟨_, rfl⟩
  have hk60 : ((1/2 : ℝ)) ^ k ≤ (1/2) ^ 60 := pow_le_pow_of_le_one (by norm_num) (by norm_num) (by omega)
  have hkK : ((1/2 : ℝ)) ^ k ≤ 1 / (2 * K) := (pow_le_pow_of_le_one (by norm_num) (by norm_num) (by omega)).trans hk0.le
  have hk1 : (0:ℝ) < (1/2) ^ k := by positivity
  have hk2 : ((1/2 : ℝ)) ^ k ≤ 1 := pow_le_one₀ (by norm_num) (by norm_num)
  obtain ⟨R, hR⟩ : ∃ R : Rounding, R.eps = (1/2) ^ k := ⟨Rounding.binary k (by omega), rfl⟩
  let ip : PyPow R.F := ⟨fun a b => R.round (a.val ^ b.val), fun a => R.round (Real.exp a.val), fun a => R.round (Real.logb 10 a.val)⟩
  have hp1 : (PyPow.pow (lit 1) (lit (1/2)) : R.F).val = 1 := by
    show R.rd ((lit 1 : R.F).val ^ (lit (1/2) : R.F).val) = 1
    rw [Rounding.val_one, Real.one_rpow, R.rd_one]
  let X1 : R.F := ⟨(1/2) ^ k, rd_half_pow k⟩
  let fit : Fits R.F := ⟨"constant", fun _ => lit 1, fun _ => lit 2, .fn fun _ => lit 0, none, none⟩
  let o : Obj R.F := ⟨.thwaitesLinear, lit 1, ⟨some (.fn fun _ => .ok (lit 1)), some (.fn fun _ => .ok (lit 0)), none⟩,
    .manual (lit 0) (lit 1) (lit 2) (lit 1) (lit 1), [.sepThwaites fit], none, some fit⟩
  let p : IvpProblem R.F := ⟨o.rhs, lit 0, X1, [lit 1 * lit 1 / lit 1], lit (1/100000000), lit (1/100000000000), [.sepThwaites fit]⟩
  have hprep : o.prepare (lit 0) X1 .none = (o, .ok p) := by
    have e1 : PyCmp.le (lit 1 : R.F) (lit 0) = false := by
      rw [Bool.eq_false_iff]; intro h; rw [Rounding.F_le, Rounding.val_one, Rounding.val_zero] at h; linarith
    have e2 : PyCmp.eq (lit 1 : R.F) (lit 0) = false := by
      rw [Bool.eq_false_iff]; intro h; rw [Rounding.F_eq, Rounding.val_one, Rounding.val_zero] at h; linarith
    have e3 : o.vel.duE (lit 0) = .ok (lit 0) := rfl
    have e4 : o.ic.setNu o.nu = .ok o.ic := by simp [IC.setNu, o, e1]
    have e5 : o.startVector = .ok [lit 1 * lit 1 / lit 1] := by
      simp [Obj.startVector, o, IC.deltaM, pyDiv, e2, bind, Except.bind, pure, Except.pure]
    unfold Obj.prepare
    rw [e4]
    simp only [e3]
    rw [show ({ o with ic := o.ic.setDu (lit 0) } : Obj R.F) = o from rfl, e5]
    rfl
  have hrhs : ∀ t y, p.rhs t [y] = .ok [slope] := by
    intro t y
    have e : y * lit 0 = (lit 0 : R.F) := by ext; rw [Rounding.val_mul, Rounding.val_zero, mul_zero, R.rd_zero]
    show Except.ok [(lit (45/100) - lit 6 * (y * lit 0)) / (lit (1/1000) + lit 1)] = _
    rw [e]
    rfl
  obtain ⟨st, st1, ⟨v, st2⟩, hrun⟩ := one_step hp1 (p := p) (y := lit 1 * lit 1 / lit 1) (c := slope) rfl hk1 hk60 rfl hrhs slope_le rfl
    (by show 0 ≤ (lit (1/100000000) : R.F).val; rw [Rounding.val_lit]; exact Rounding.rd_nonneg (by norm_num)) (gap := fun _ _ => X1) (fun _ => rfl)
  have hev : ∀ t y, o.eventValue (.sepThwaites fit) t [y] = .ok (lit 1) := fun t y => rfl
  have hch : changes (lit 1 : R.F) (lit 1) = false := by
    have e1 : PyCmp.le (lit 1 : R.F) (lit 0) = false := by
      rw [Bool.eq_false_iff]; intro h; rw [Rounding.F_le, Rounding.val_one, Rounding.val_zero] at h; linarith
    simp [changes, e1]
  have hivp : ∃ res : IvpResult R.F, ivp o.eventValue (fun _ => ⟨[st], .reached⟩) (fun _ a _ => .ok a) p = .ok res ∧ res.success = true ∧ res.status = 0 ∧
      res.t = [lit 0, X1] := by
    simp [ivp, p, evalAll, hev, loop, st2, activeRoots, hch, earliest, st1]
  obtain ⟨res, r1, r2, r3, r4⟩ := hivp
  refine ⟨R, ip, o, o, { o with sol := some res.sol }, lit 0, X1, lit 1, fun _ _ => X1, fun _ => ⟨[st], .reached⟩, fun _ a _ => .ok a, p,
    ⟨X1, res.sol X1, .reachedEnd, composeMessage .reachedEnd "", true⟩, (1/2) ^ k, by rw [hR]; exact hk1, rfl, Rounding.val_one, Rounding.val_zero, hk1, hk2,
    fun t _ => ⟨⟨lit 1, rfl, by rw [Rounding.val_one]; simp⟩, lit 0, rfl, by rw [Rounding.val_zero]; simp⟩, fun t t0 t1 => ?_, hrun, fun g a b x h => ?_, hprep, rfl, by rw [Rounding.val_one]; simp, ?_, rfl, rfl, ?_, ?_⟩
  · have h3 := ten_times X1 hk1
    have h4 : X1.val ≤ (t + lit 10 * X1).val := by
      rw [Rounding.val_add]
      conv_lhs => rw [← X1.rep]
      exact R.mono (by linarith)
    linarith
  · rw [← Except.ok.inj h]; exact Set.left_mem_uIcc
  · unfold Obj.solve
    rw [hprep]
    simp only [r1, r2, evalResult, r3, r4, if_true]
    rfl
  · intro pre s post e1 e2
    cases pre with
    | nil =>
      obtain rfl : st = s := by simpa using (List.cons.inj e1).1
      refine ⟨?_, Nat.one_pos⟩
      rw [st1]
      show (1/2) ^ k - (lit 0 : R.F).val ≤ _
      rw [Rounding.val_zero, sub_zero]
    | cons a l => simp at e1
  · have h5 : ((1/2 : ℝ) ^ k) ^ 5 ≤ (1/2) ^ k := pow_le_of_le_one hk1.le hk2 (by norm_num)
    rw [hR]
    have : K * ((1/2) ^ k) ≤ K * (1 / (2 * K)) := mul_le_mul_of_nonneg_left hkK hK.le
    have e : K * (1 / (2 * K)) = 1/2 := by field_simp
    have := mul_le_mul_of_nonneg_left h5 hK.le
    push_cast
    linarith

end IBL
