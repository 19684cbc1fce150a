import Verif.Props.RungeKuttaOneSided
import Verif.Props.SeparationConverges
import Verif.Props.ThwaitesWhite
import Verif.Props.Persistent

/-!
C139, continued: results and separation point converge for White's functions, too, where the slope of their wall shear is infinite at separation.
-/

namespace IBL
open SolveIvp RungeKutta Fits

/-! ### The right hand side -/

private theorem sides_continuous {m : Fits ℝ} (h : Sides m) : Continuous m.fAt := by
  refine continuous_iff_continuousAt.2 fun x => ?_
  have hc := (h.lip (B := |x| + 1) (by positivity)).continuousOn
  exact hc.continuousAt (Icc_mem_nhds (by linarith [neg_abs_le x]) (by linarith [le_abs_self x]))

private theorem white_continuous : Continuous (Fits.white : Fits ℝ).fAt := by
  have e : (Fits.white : Fits ℝ).fAt = fun l => 2 * ((max l (-9/100) + 9/100) ^ (62/100 : ℝ) - l * ((Fits.white : Fits ℝ).shape (max l (-9/100)) + 2)) := by
    funext l
    rw [fAt, shearAt, shapeAt, white_clip]
    simp only [Fits.white, real_pow, real_lit]
    norm_num
  rw [e]
  have h1 : Continuous fun l : ℝ => (max l (-9/100) + 9/100) ^ (62/100 : ℝ) :=
    Continuous.rpow_const (by fun_prop) fun x => .inr (by norm_num)
  have h2 : Continuous fun l : ℝ => (Fits.white : Fits ℝ).shape (max l (-9/100)) := by
    simp only [Fits.white, real_lit]
    fun_prop
  fun_prop

theorem builtin_continuous {m : Fits ℝ} (hm : BuiltIn m) : Continuous m.fAt := by
  rcases hm with rfl | rfl | rfl | ⟨cs, hcs, rfl⟩
  · exact white_continuous
  · exact sides_continuous sides_cb
  · exact sides_continuous sides_drela
  · exact sides_continuous (sides_spline hcs)

/-- Positive solutions of the nonlinear method with built-in fits, in flows with continuous velocity gradient. -/
theorem thwaites_one_sided {o : Obj ℝ} {m : Fits ℝ} {u du F : ℝ → ℝ} {x0 x1 : ℝ} (hc : o.cls = .thwaitesNonlinear) (hf : o.fits = some m) (hm : BuiltIn m)
    (huE : ∀ t, o.vel.uE t = .ok (u t)) (hduE : ∀ t, o.vel.duE t = .ok (du t)) (hu : ContinuousOn u (Set.Icc x0 x1)) (hdu : ContinuousOn du (Set.Icc x0 x1))
    (hu0 : ∀ x ∈ Set.Icc x0 x1, -(1/1000) < u x) (hx : x0 < x1) (ode : ∀ x ∈ Set.Icc x0 x1, SatisfiesOde o F x ∧ 0 < F x) :
    ∃ L ρ, 0 < ρ ∧ OneSidedPath o.rhs (fun x y => m.fAt (y * du x) / (1/1000 + u x)) F x0 x1 L ρ := by
  have hne := Set.nonempty_Icc.2 hx.le
  have hFc : ContinuousOn F (Set.Icc x0 x1) := fun x hx' => by
    obtain ⟨r, -, h⟩ := (ode x hx').1
    exact h.continuousAt.continuousWithinAt
  obtain ⟨z, hz, hmin⟩ := isCompact_Icc.exists_isMinOn hne hFc
  obtain ⟨y, hy, hmax⟩ := isCompact_Icc.exists_isMaxOn hne hFc
  obtain ⟨w, hw, hwmin⟩ := isCompact_Icc.exists_isMinOn hne hu
  obtain ⟨V, hV⟩ := isCompact_Icc.exists_bound_of_continuousOn hdu
  simp only [Real.norm_eq_abs] at hV
  have hV0 : 0 ≤ V := (abs_nonneg _).trans (hV x0 ⟨le_rfl, hx.le⟩)
  have hFz := (ode z hz).2
  have hFy := (ode y hy).2
  obtain ⟨μ, hμ⟩ : ∃ μ, μ = 1/1000 + u w := ⟨_, rfl⟩
  have hμ0 : 0 < μ := by rw [hμ]; linarith [hu0 w hw]
  have hμu : ∀ x ∈ Set.Icc x0 x1, μ ≤ 1/1000 + u x := fun x hx => by
    have : u w ≤ u x := hwmin hx
    rw [hμ]; linarith
  obtain ⟨L, hL, up, down⟩ := builtin_oneSided hm (2 * F y * V) (by positivity)
  refine ⟨L * V / μ, F z / 2, by positivity, ⟨fun t _ v _ => nonlinear_rhs hc hf huE hduE t v, fun t ht => ?_, ?_, fun t ht v hv => ?_⟩⟩
  · obtain ⟨r, h1, h2⟩ := (ode t ht).1
    rw [nonlinear_rhs hc hf huE hduE] at h1
    simp only [Except.ok.injEq, List.cons.injEq, and_true] at h1
    rw [h1]
    exact h2.hasDerivWithinAt
  · have fst : Set.MapsTo Prod.fst {q : ℝ × ℝ | q.1 ∈ Set.Icc x0 x1 ∧ |q.2 - F q.1| ≤ F z / 2} (Set.Icc x0 x1) := fun q hq => hq.1
    have cu := hu.comp continuousOn_fst fst
    have cdu := hdu.comp continuousOn_fst fst
    refine ContinuousOn.div ?_ (continuousOn_const.add cu) fun q hq => ?_
    · exact (builtin_continuous hm).comp_continuousOn (continuousOn_snd.mul cdu)
    · exact (hμ0.trans_le (hμu _ (fst hq))).ne'
  · have b0 := abs_le.1 hv
    have b1 : F z ≤ F t := hmin ht
    have b2 : F t ≤ F y := hmax ht
    have hv0 : 0 < v := by linarith
    have hF0 : 0 < F t := by linarith
    have hd := abs_le.1 (hV t ht)
    have hw0 := hμ0.trans_le (hμu t ht)
    have bound : ∀ s, 0 < s → s ≤ 2 * F y → |s * du t| ≤ 2 * F y * V := fun s h1 h2 => by
      rw [abs_mul, abs_of_pos h1]
      exact mul_le_mul h2 (hV t ht) (abs_nonneg _) (by linarith)
    have bv := abs_le.1 (bound v hv0 (by linarith))
    have bF := abs_le.1 (bound (F t) hF0 (by linarith))
    -- the change of the right hand side
    have key : ∀ p q, 0 < p → p ≤ q → |p * du t| ≤ 2 * F y * V → |q * du t| ≤ 2 * F y * V → m.fAt (q * du t) - m.fAt (p * du t) ≤ L * V * (q - p) := by
      intro p q h1 h2 h3 h4
      have hq : L * (|du t| * (q - p)) ≤ L * V * (q - p) := by
        rw [mul_assoc]
        exact mul_le_mul_of_nonneg_left (mul_le_mul_of_nonneg_right (hV t ht) (by linarith)) hL
      refine le_trans ?_ hq
      rcases le_total 0 (du t) with h | h
      · have := up (p * du t) (q * du t) (mul_nonneg h1.le h) (mul_le_mul_of_nonneg_right h2 h) (abs_le.1 h4).2
        rw [abs_of_nonneg h]
        refine this.trans (le_of_eq ?_); ring
      · have := down (q * du t) (p * du t) (abs_le.1 h4).1 (mul_le_mul_of_nonpos_right h2 h) (mul_nonpos_of_nonneg_of_nonpos h1.le h)
        rw [abs_of_nonpos h]
        refine this.trans (le_of_eq ?_); ring
    have fin : (v - F t) * (m.fAt (v * du t) - m.fAt (F t * du t)) ≤ L * V * (v - F t) ^ 2 := by
      rcases le_total (F t) v with h | h
      · have := mul_le_mul_of_nonneg_left (key (F t) v hF0 h (abs_le.2 bF) (abs_le.2 bv)) (sub_nonneg.2 h)
        linarith
      · have := mul_le_mul_of_nonneg_left (key v (F t) hv0 h (abs_le.2 bv) (abs_le.2 bF)) (sub_nonneg.2 h)
        linarith
    calc (v - F t) * (m.fAt (v * du t) / (1/1000 + u t) - m.fAt (F t * du t) / (1/1000 + u t))
        = (v - F t) * (m.fAt (v * du t) - m.fAt (F t * du t)) / (1/1000 + u t) := by ring
      _ ≤ L * V * (v - F t) ^ 2 / (1/1000 + u t) := div_le_div_of_nonneg_right fin hw0.le
      _ ≤ L * V * (v - F t) ^ 2 / μ := div_le_div_of_nonneg_left (by positivity) hμ0 (hμu t ht)
      _ = _ := by ring

/-! ### Results -/

/-- **C139** for the nonlinear method of Thwaites with any of the built-in fits, in particular White's: the velocity gradient is continuous, the
velocity stays above -0.001, and `F` is a positive solution of the equation on `[x0, x1]`, attached or not. However small `ε`: if a call of `solve`, started from
`F x0`, takes short enough steps and reports success, `delta_m` is within `ε` of the momentum thickness `sqrt(nu F)` of the exact layer; and success is reported if the
numbers are dense enough. -/
theorem thwaites_any_fit_converges {o : Obj ℝ} {m : Fits ℝ} {u du F : ℝ → ℝ} {x0 x1 : ℝ} (hc : o.cls = .thwaitesNonlinear) (hf : o.fits = some m) (hm : BuiltIn m)
    (hnu : 0 < o.nu) (huE : ∀ t, o.vel.uE t = .ok (u t)) (hduE : ∀ t, o.vel.duE t = .ok (du t)) (hu : ContinuousOn u (Set.Icc x0 x1))
    (hdu : ContinuousOn du (Set.Icc x0 x1)) (hu0 : ∀ x ∈ Set.Icc x0 x1, -(1/1000) < u x) (hx : x0 < x1)
    (ode : ∀ x ∈ Set.Icc x0 x1, SatisfiesOde o F x ∧ 0 < F x) :
    SolveApproaches o x0 x1 [F x0] fun o'' x e => ∃ d, o''.deltaM x = .ok d ∧ |d - Real.sqrt (F x * o.nu)| ≤ e := by
  obtain ⟨L, ρ, hρ, P⟩ := thwaites_one_sided hc hf hm huE hduE hu hdu hu0 hx ode
  have hFc : ContinuousOn F (Set.Icc x0 x1) := fun x hx' => (P.solves x hx').continuousWithinAt
  obtain ⟨z, hz, hmin⟩ := isCompact_Icc.exists_isMinOn (Set.nonempty_Icc.2 hx.le) hFc
  have hz0 : 0 < F z * o.nu := mul_pos (ode z hz).2 hnu
  have hsq : 0 < Real.sqrt (F z * o.nu) := Real.sqrt_pos.2 hz0
  intro ε hε
  obtain ⟨δ, hδ, H⟩ := (rk45_approaches P hρ hx).solve_approaches rfl one_ne_zero (ε * Real.sqrt (F z * o.nu) / o.nu) (by positivity)
  refine ⟨δ, hδ, fun te gap m' stepper root o' o'' p r x1' k1 k2 k3 k4 k5 k6 k7 k8 => ?_⟩
  obtain ⟨a, b⟩ := H te gap m' stepper root o' o'' p r x1' k1 k2 k3 k4 k5 k6 k7 k8
  refine ⟨fun hok x hxx hb => ?_, b⟩
  obtain ⟨q1, q2, mx, w, w1, w2, w3⟩ := a hok x hxx hb
  obtain ⟨v, rfl⟩ := List.length_eq_one_iff.1 w2
  have v0 : |v - F x| ≤ ε * Real.sqrt (F z * o.nu) / o.nu := w3 0
  have hdm : o''.deltaM x = .ok (Real.sqrt (v * o.nu)) := by
    simp only [Obj.deltaM, q1, hc, Obj.comp, w1, bind, Except.bind, pure, Except.pure, List.getElem?_cons_zero, q2, real_sqrt]
  refine ⟨_, hdm, (sqrt_close (c := F z * o.nu) (e := ε * Real.sqrt (F z * o.nu)) hz0 (mul_le_mul_of_nonneg_right (hmin mx) hnu.le) ?_).trans (le_of_eq ?_)⟩
  · rw [← sub_mul, abs_mul, abs_of_pos hnu]
    exact (le_div_iff₀ hnu).1 v0
  · field_simp

/-- **C139**, separation: as above, and the wall shear of the fits is positive exactly where lambda is above `ls`; for White's functions `ls` is -0.09. If lambda of the
exact layer is above `ls` before `xs` and below it for some way behind, the verdicts of `solve` converge to separation at `xs`. If lambda stays above `ls`, they
converge to a layer that stays attached. -/
theorem thwaites_any_fit_separation_converges {o : Obj ℝ} {m : Fits ℝ} {ls : ℝ} {u du F : ℝ → ℝ} {x0 x1 : ℝ} (hc : o.cls = .thwaitesNonlinear) (hf : o.fits = some m)
    (hm : BuiltIn m) (hev : o.events = [.sepThwaites m]) (hatt : ∀ lam, 0 < m.shearAt lam ↔ ls < lam)
    (huE : ∀ t, o.vel.uE t = .ok (u t)) (hduE : ∀ t, o.vel.duE t = .ok (du t)) (hu : ContinuousOn u (Set.Icc x0 x1))
    (hdu : ContinuousOn du (Set.Icc x0 x1)) (hu0 : ∀ x ∈ Set.Icc x0 x1, -(1/1000) < u x) (hx : x0 < x1)
    (ode : ∀ x ∈ Set.Icc x0 x1, SatisfiesOde o F x ∧ 0 < F x) :
    (∀ xs x2, x0 < xs → x2 ∈ Set.Ioc xs x1 → (∀ x ∈ Set.Ico x0 xs, ls < F x * du x) → (∀ x ∈ Set.Ioc xs x2, F x * du x < ls) →
      SeparationConverges o x0 x1 [F x0] xs) ∧
    ((∀ x ∈ Set.Icc x0 x1, ls < F x * du x) → AttachedConverges o x0 x1 [F x0]) := by
  obtain ⟨L, ρ, hρ, P⟩ := thwaites_one_sided hc hf hm huE hduE hu hdu hu0 hx ode
  have hFc : ContinuousOn F (Set.Icc x0 x1) := fun x hx' => (P.solves x hx').continuousWithinAt
  have T := rk45_approaches P hρ hx
  obtain ⟨K, M⟩ := thwaites_margin (F := F) hatt hduE hdu
  have hκ : ContinuousOn (fun x => [F x].getD 0 0 * du x - ls) (Set.Icc x0 x1) := (hFc.mul hdu).sub continuousOn_const
  exact ⟨fun xs x2 h1 h2 above below => T.separation_converges rfl one_ne_zero hev M hκ h1 h2 (fun x hx => sub_pos.2 (above x hx)) fun x hx => sub_neg.2 (below x hx),
    fun above => T.attached_converges rfl one_ne_zero hev M hκ hx fun x hx => sub_pos.2 (above x hx)⟩

/-- **C139** for tabulated velocities and White's functions: `solve` converges to the exact layer `F` from the positive start value `F0`, as far as the table goes or up
to the point `c` where its lambda gets as large as 0.3; so do the verdicts about separation. -/
theorem table_white_converges (ext : Ext ℝ) (other : Pchip ℝ) (hext : ext.pchip = Pchip.interpolator other) (o o' : Obj ℝ)
    (pts : List (ℝ × ℝ)) (y z : Arg ℝ) (h : Table pts) (hpos : ∀ p ∈ pts, 0 ≤ p.2)
    (hs : o.setVelocity ext (tableArg pts) y z = (o', .ok ())) (hnu : 0 < o.nu) (hf : o.fits = some Fits.white) (hev : o.events = [.sepThwaites Fits.white])
    (hc : o.cls = .thwaitesNonlinear) (a b F0 : ℝ) (ha : firstX pts ≤ a) (hab : a < b) (hb : b ≤ lastX pts) (h0 : 0 < F0)
    (hl : ∀ d, o'.vel.duE a = .ok d → F0 * d < 3/10) :
    ∃ (F du : ℝ → ℝ) (c : ℝ), c ∈ Set.Ioc a b ∧ F a = F0 ∧ (∀ x ∈ Set.Icc a c, SatisfiesOde o' F x ∧ 0 < F x) ∧ (∀ x, o'.vel.duE x = .ok (du x)) ∧
      (c = b ∨ F c * du c = 3/10) ∧
      (SolveApproaches o' a c [F0] fun o'' x e => ∃ d, o''.deltaM x = .ok d ∧ |d - Real.sqrt (F x * o.nu)| ≤ e) ∧
      (∀ xs x2, a < xs → x2 ∈ Set.Ioc xs c → (∀ x ∈ Set.Ico a xs, -9/100 < F x * du x) → (∀ x ∈ Set.Ioc xs x2, F x * du x < -9/100) →
        SeparationConverges o' a c [F0] xs) ∧
      ((∀ x ∈ Set.Icc a c, -9/100 < F x * du x) → AttachedConverges o' a c [F0]) := by
  have e : o.setVelocity ext (tableArg pts) y z = ({ o with vel := ⟨some (.fn fun x => .ok (PPoly.eval (Pchip.pieces (Pchip.knots pts)) x)),
      some (.fn fun x => .ok (PPoly.eval (PPoly.deriv (Pchip.pieces (Pchip.knots pts))) x)),
      some (.fn fun x => .ok (PPoly.eval (PPoly.deriv (PPoly.deriv (Pchip.pieces (Pchip.knots pts)))) x))⟩ }, .ok ()) := by
    have hi := interpolator_table other h
    have hn : ¬ pts.length < 2 := not_lt.2 h.long
    simp only [Obj.setVelocity, tableArg, setVelocity, hext, hi]
    simp only [vector, List.length_map, ne_eq, not_true_eq_false, if_false, hn, setVelCallable, Spline.toCallable]
    rfl
  rw [hs] at e
  obtain rfl := (Prod.mk.inj e).1
  have M := pieces_monotone h
  obtain ⟨q, hq⟩ : ∃ q, q = Pchip.pieces (Pchip.knots pts) := ⟨_, rfl⟩
  rw [← hq] at M hl ⊢
  obtain ⟨V, hV⟩ : ∃ V : VelState ℝ, V = ⟨some (.fn fun x => .ok (PPoly.eval q x)), some (.fn fun x => .ok (PPoly.eval (PPoly.deriv q) x)),
      some (.fn fun x => .ok (PPoly.eval (PPoly.deriv (PPoly.deriv q)) x))⟩ := ⟨_, rfl⟩
  have huE : ∀ t, V.uE t = .ok (PPoly.eval q t) := fun t => by rw [hV]; simp [VelState.uE, VelState.rawU, callOpt, Vel.call]
  have hduE : ∀ t, V.duE t = .ok (PPoly.eval (PPoly.deriv q) t) := fun t => by rw [hV]; simp [VelState.duE, VelState.rawDu, callOpt, Vel.call]
  rw [← hV] at hl ⊢
  have cu : ContinuousOn (PPoly.eval q) (Set.Icc a b) := fun x _ => (M.slope x).continuousAt.continuousWithinAt
  have cdu : ContinuousOn (PPoly.eval (PPoly.deriv q)) (Set.Icc a b) := by rw [hq]; exact (table_slope_lip h a b).continuousOn
  have hu0 : ∀ x ∈ Set.Icc a b, -(1/1000) < PPoly.eval q x := fun x hx => by
    linarith [(M.bounds h ⟨ha.trans hx.1, hx.2.trans hb⟩).1 0 hpos]
  obtain ⟨c, hcm, F, k1, k2, k3, -, k5⟩ := thwaites_white_until { o with vel := V } (PPoly.eval q) (PPoly.eval (PPoly.deriv q)) a b F0 hc hf huE hduE cu cdu hu0 hab h0
    (hl _ (hduE a))
  have sub : Set.Icc a c ⊆ Set.Icc a b := Set.Icc_subset_Icc_right hcm.2
  have ode : ∀ x ∈ Set.Icc a c, SatisfiesOde { o with vel := V } F x ∧ 0 < F x := fun x hx => ⟨k2 x hx, k3 x hx⟩
  have r1 := thwaites_any_fit_converges (o := { o with vel := V }) hc hf (.inl rfl) hnu huE hduE (cu.mono sub) (cdu.mono sub) (fun x hx => hu0 x (sub hx)) hcm.1 ode
  have r2 := thwaites_any_fit_separation_converges (o := { o with vel := V }) hc hf (.inl rfl) hev separatesAt_white.attached huE hduE (cu.mono sub) (cdu.mono sub)
    (fun x hx => hu0 x (sub hx)) hcm.1 ode
  rw [k1] at r1 r2
  exact ⟨F, _, c, hcm, k1, ode, hduE, k5, r1, r2⟩

/-! ### A concrete case -/

/-- The hypotheses of the theorems for White's functions are met: `u_e = 1 - x` on [0, 1], viscosity 1, from the start value 1/100 there is a layer whose lambda falls
through -0.09. And there are calls of `solve` of the kind that they speak of. -/
theorem white_separation_case : ∃ (o : Obj ℝ) (u du F : ℝ → ℝ) (xs : ℝ),
    (o.cls = .thwaitesNonlinear ∧ o.fits = some Fits.white ∧ BuiltIn Fits.white) ∧ 0 < o.nu ∧ o.events = [.sepThwaites Fits.white] ∧
    (∀ lam, 0 < (Fits.white : Fits ℝ).shearAt lam ↔ -9/100 < lam) ∧ (∀ t, o.vel.uE t = .ok (u t)) ∧ (∀ t, o.vel.duE t = .ok (du t)) ∧
    ContinuousOn u (Set.Icc 0 1) ∧ ContinuousOn du (Set.Icc 0 1) ∧ (∀ x ∈ Set.Icc (0:ℝ) 1, -(1/1000) < u x) ∧
    (∀ x ∈ Set.Icc 0 1, SatisfiesOde o F x ∧ 0 < F x) ∧ 0 < xs ∧ xs < 1 ∧ (∀ x ∈ Set.Ico 0 xs, -9/100 < F x * du x) ∧ (∀ x ∈ Set.Ioc xs 1, F x * du x < -9/100) ∧
    Exercised o 0 1 [F 0] := by
  let o : Obj ℝ := ⟨.thwaitesNonlinear, 1, ⟨some (.fn fun x => .ok (1 - x)), some (.fn fun _ => .ok (-1)), none⟩, .manual 0 1 1 (1/10) 1,
    [.sepThwaites Fits.white], none, some Fits.white⟩
  have huE : ∀ t, o.vel.uE t = .ok (1 - t) := fun t => by simp [o, VelState.uE, VelState.rawU, callOpt, Vel.call]
  have hduE : ∀ t, o.vel.duE t = .ok (-1) := fun t => by simp [o, VelState.duE, VelState.rawDu, callOpt, Vel.call]
  have hu0 : ∀ x ∈ Set.Icc (0:ℝ) 1, -(1/1000) < 1 - x := fun x hx => by have := hx.2; linarith
  obtain ⟨F, hF0, hode, hpos⟩ := thwaites_white_exists_partial o (fun x => 1 - x) (fun _ => -1) 0 1 (1/100) rfl rfl huE hduE
    (by fun_prop) (by fun_prop) hu0 one_pos (by norm_num) (.inl fun _ _ => by norm_num)
  have der : ∀ x ∈ Set.Icc (0:ℝ) 1, HasDerivAt F ((Fits.white : Fits ℝ).fAt (F x * -1) / (1/1000 + (1 - x))) x := fun x hx => by
    obtain ⟨r, h1, h2⟩ := hode x hx
    rw [nonlinear_rhs rfl rfl huE hduE] at h1
    simp only [Except.ok.injEq, List.cons.injEq, and_true] at h1
    rw [h1]; exact h2
  have slope : ∀ x ∈ Set.Icc (0:ℝ) 1, 1/3 ≤ (Fits.white : Fits ℝ).fAt (F x * -1) / (1/1000 + (1 - x)) := fun x hx => by
    have h1 := builtin_f_ge (m := Fits.white) (.inl rfl) (F x * -1) (by linarith [hpos x hx])
    rw [le_div_iff₀ (by linarith [hx.2])]
    linarith [hx.1]
  have hFc : ContinuousOn F (Set.Icc 0 1) := fun x hx => (der x hx).continuousAt.continuousWithinAt
  have mono : StrictMonoOn F (Set.Icc 0 1) := strictMonoOn_of_deriv_pos (convex_Icc _ _) hFc fun x hx => by
    have hx' := interior_subset hx
    rw [(der x hx').deriv]
    linarith [slope x hx']
  have h0m : (0:ℝ) ∈ Set.Icc (0:ℝ) 1 := ⟨le_rfl, zero_le_one⟩
  have h1m : (1:ℝ) ∈ Set.Icc (0:ℝ) 1 := ⟨zero_le_one, le_rfl⟩
  have big : 9/100 < F 1 := by
    have := (convex_Icc (0:ℝ) 1).mul_sub_le_image_sub_of_le_deriv (C := 1/3) hFc
      (fun t ht => (der t (interior_subset ht)).differentiableAt.differentiableWithinAt) (fun t ht => by
        rw [(der t (interior_subset ht)).deriv]
        exact slope t (interior_subset ht)) 0 h0m 1 h1m zero_le_one
    rw [hF0] at this
    linarith
  obtain ⟨xs, hxs, hval⟩ := intermediate_value_Icc zero_le_one hFc (show (9/100 : ℝ) ∈ _ from ⟨by rw [hF0]; norm_num, big.le⟩)
  have hxs0 : 0 < xs := lt_of_le_of_ne hxs.1 fun h => by rw [← h, hF0] at hval; norm_num at hval
  have hxs1 : xs < 1 := lt_of_le_of_ne hxs.2 fun h => by rw [h] at hval; linarith
  refine ⟨o, fun x => 1 - x, fun _ => -1, F, xs, ⟨rfl, rfl, .inl rfl⟩, one_pos, rfl, separatesAt_white.attached, huE, hduE, by fun_prop, by fun_prop, hu0,
    fun x hx => ⟨hode x hx, hpos x hx⟩, hxs0, hxs1, fun x hx => ?_, fun x hx => ?_, exercised (te := .none) one_pos (by simp)
      ⟨fun t => ⟨_, huE t⟩, fun t => ⟨_, hduE t⟩, fun _ => by simp [o]⟩ ?_ fun x => ?_⟩
  · have := mono ⟨hx.1, hx.2.le.trans hxs.2⟩ hxs hx.2
    linarith
  · have := mono hxs ⟨hxs.1.trans hx.1.le, hx.2⟩ hx.1
    linarith
  · intro e he
    simp only [o, TermArg.toList, List.append_nil, List.mem_singleton] at he
    subst he
    intro t y hy
    obtain ⟨w, rfl⟩ := List.length_eq_one_iff.1 hy
    exact ⟨_, by simp [Obj.eventValue, Obj.calcLambda, hduE, bind, Except.bind, pure, Except.pure]; rfl⟩
  · rw [hF0]
    simp [o, Obj.prepare, IC.setNu, VelState.duE, VelState.rawDu, callOpt, Vel.call, IC.setDu, Obj.startVector, IC.deltaM, pyDiv, bind,
      Except.bind, pure, Except.pure, TermArg.toList]
    norm_num
    exact ⟨_, _, ⟨rfl, rfl⟩, rfl⟩

end IBL
