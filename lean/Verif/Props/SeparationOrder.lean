import Verif.Props.Decelerated
import Verif.Props.RungeKuttaOrder
import Verif.Props.RungeKuttaSuccess

/-!
C133: how accurate the reported separation point of the linear Thwaites method is, in a flow whose deceleration does not weaken.
-/

namespace IBL
open SolveIvp RungeKutta Fits

/-! ### Specification -/

/-- Fits with a critical lambda: the layer is attached exactly if lambda is above `ls`, and the wall shear depends continuously on lambda. -/
structure SeparatesAt (m : Fits ℝ) (ls : ℝ) : Prop where
  neg : ls < 0
  attached : ∀ lam, 0 < m.shearAt lam ↔ ls < lam
  cont : Continuous m.shearAt

/-- Thwaites' parameter lambda at `x`, from Thwaites' integral. -/
noncomputable def thwaitesLambda (nu : ℝ) (u du : ℝ → ℝ) (x0 d0 x : ℝ) : ℝ := thwaitesTheta nu u x0 d0 x ^ 2 / nu * du x

/-- The linear Thwaites method in a smooth flow whose deceleration does not weaken, with fits that separate at `ls`. -/
structure SmoothDeceleration (o : Obj ℝ) (m : Fits ℝ) (ls : ℝ) (u du : ℝ → ℝ) (x0 x1 : ℝ) : Prop where
  linear : o.cls = .thwaitesLinear
  nu : 0 < o.nu
  events : o.events = [.sepThwaites m]
  fits : SeparatesAt m ls
  uE : ∀ t, o.vel.uE t = .ok (u t)
  duE : ∀ t, o.vel.duE t = .ok (du t)
  slope : ∀ x, HasDerivAt u (du x) x
  smooth : ContDiffOn ℝ 6 u (Set.Icc x0 x1)
  speed : ∀ x ∈ Set.Icc x0 x1, -(1/1000) < u x
  decelerated : ∀ x ∈ Set.Icc x0 x1, du x ≤ 0
  notWeaker : AntitoneOn du (Set.Icc x0 x1)
  interval : x0 < x1

/-- A successful `solve` with RK45, no user events and a root finder as good as `brentq` is meant to be. The start thickness is `d0`, no step on
the way to the end that is reported is longer than `h`. -/
structure Rk45Run (o : Obj ℝ) (x0 x1 d0 h : ℝ) (r : IntegrationResult ℝ) : Prop where
  run : ∃ (gap : ℝ → ℝ → ℝ) (g : ℝ) (stepper : Stepper ℝ) (root : RootFinder ℝ) (o' o'' : Obj ℝ) (p : IvpProblem ℝ), Spaced gap g ∧
    (∀ p, Runs gap p (stepper p)) ∧ BracketRoot root ∧ o.prepare x0 x1 .none = (o', .ok p) ∧ o'.ic.deltaM = .ok d0 ∧
    o.solve x0 x1 .none (ivp o.eventValue stepper root) = (o'', .ok r) ∧ StepsTo h r.xEnd x0 (stepper p).steps
  success : r.success = true

/-! ### The exact layer -/

private theorem lambda_rate {o : Obj ℝ} {m : Fits ℝ} {ls : ℝ} {u du F : ℝ → ℝ} {x0 x1 : ℝ} (S : SmoothDeceleration o m ls u du x0 x1)
    (ode : ∀ x ∈ Set.Icc x0 x1, SatisfiesOde o F x) (pos : ∀ x ∈ Set.Icc x0 x1, 0 < F x) :
    0 < 45/100 / (1/1000 + u x0) ∧ ∀ x ∈ Set.Icc x0 x1, ∀ y ∈ Set.Icc x0 x1, x ≤ y →
      45/100 / (1/1000 + u x0) * (y - x) * -du y ≤ F x * du x - F y * du y := by
  have h0 : x0 ∈ Set.Icc x0 x1 := ⟨le_refl _, S.interval.le⟩
  have hp0 : 0 < 1/1000 + u x0 := by linarith [S.speed x0 h0]
  refine ⟨by positivity, fun x hx y hy hxy => ?_⟩
  have hanti : ∀ x ∈ Set.Icc x0 x1, u x ≤ u x0 := by
    have : AntitoneOn u (Set.Icc x0 x1) := antitoneOn_of_deriv_nonpos (convex_Icc _ _)
      (fun t _ => (S.slope t).continuousAt.continuousWithinAt) (fun t _ => (S.slope t).differentiableAt.differentiableWithinAt)
      fun t ht => by rw [(S.slope t).deriv]; exact S.decelerated t (interior_subset ht)
    exact fun x hx => this h0 hx hx.1
  have der : ∀ t ∈ Set.Icc x0 x1, ∃ r, HasDerivAt F r t ∧ 45/100 / (1/1000 + u x0) ≤ r := fun t ht => by
    obtain ⟨r, h1, h2⟩ := ode t ht
    refine ⟨r, h2, ?_⟩
    have e : o.rhs t [F t] = .ok [(45/100 - 6 * (F t * du t)) / (1/1000 + u t)] := by
      simp [Obj.rhs, S.linear, Obj.thwaitesRhs, Obj.calcF, Obj.calcLambda, S.uE, S.duE, bind, Except.bind, pure, Except.pure]
    rw [e] at h1
    simp only [Except.ok.injEq, List.cons.injEq, and_true] at h1
    rw [← h1]
    have hl : F t * du t ≤ 0 := mul_nonpos_of_nonneg_of_nonpos (pos t ht).le (S.decelerated t ht)
    have hpt : 0 < 1/1000 + u t := by linarith [S.speed t ht]
    exact div_le_div₀ (by linarith) (by linarith) hpt (by linarith [hanti t ht])
  have grow : 45/100 / (1/1000 + u x0) * (y - x) ≤ F y - F x := by
    refine (convex_Icc x0 x1).mul_sub_le_image_sub_of_le_deriv (fun t ht => ?_) (fun t ht => ?_) (fun t ht => ?_) x hx y hy hxy
    · obtain ⟨r, h, -⟩ := der t ht; exact h.continuousAt.continuousWithinAt
    · obtain ⟨r, h, -⟩ := der t (interior_subset ht); exact h.differentiableAt.differentiableWithinAt
    · obtain ⟨r, h, h'⟩ := der t (interior_subset ht); rw [h.deriv]; exact h'
  have h1 := S.notWeaker hx hy hxy
  have h2 := S.decelerated y hy
  have h3 := pos x hx
  nlinarith [mul_le_mul_of_nonneg_right grow (neg_nonneg.2 h2), mul_le_mul_of_nonneg_left h1 h3.le]

/-! ### One run -/

private theorem StepsAtMost.at {h : ℝ} {y : List ℝ} {pre post : List (Step ℝ)} {s : Step ℝ} {t : ℝ} (H : StepsAtMost h t (pre ++ s :: post)) :
    s.t - (lastPt (t, y) pre).1 ≤ h := by
  induction pre generalizing t y with
  | nil => exact H.1
  | cons q pre ih => exact ih (y := q.y) H.2

private theorem Consistent.at {pre post : List (Step ℝ)} {s : Step ℝ} {a : ℝ × List ℝ} (H : Consistent a (pre ++ s :: post)) :
    (lastPt a pre).1 < s.t ∧ s.dense (lastPt a pre).1 = (lastPt a pre).2 ∧ s.dense s.t = s.y := by
  induction pre generalizing a with
  | nil => exact ⟨H.1, H.2.1, H.2.2.1⟩
  | cons q pre ih => exact ih H.2.2.2

private theorem last_append (pre : List (Step ℝ)) (s : Step ℝ) (a : ℝ × List ℝ) : lastPt a (pre ++ [s]) = s.pt := by
  induction pre generalizing a with
  | nil => rfl
  | cons q pre ih => exact ih _

private theorem event_value {o : Obj ℝ} {m : Fits ℝ} {du : ℝ → ℝ} (hdu : ∀ t, o.vel.duE t = .ok (du t)) (x v : ℝ) :
    o.eventValue (.sepThwaites m) x [v] = .ok (m.shearAt (v * du x)) := by
  simp [Obj.eventValue, Obj.calcLambda, hdu, bind, Except.bind, pure, Except.pure]

/-- What a run says about the exact layer: the value of lambda at the reported end, with the error `E` of lambda. -/
private theorem run_lambda {o : Obj ℝ} {m : Fits ℝ} {ls : ℝ} {u du : ℝ → ℝ} {x0 x1 d0 : ℝ} (S : SmoothDeceleration o m ls u du x0 x1) (hd0 : 0 < d0) :
    ∃ (K : ℝ) (F : ℝ → ℝ), 0 ≤ K ∧ F x0 = d0 * d0 / o.nu ∧ (∀ x ∈ Set.Icc x0 x1, SatisfiesOde o F x) ∧ (∀ x ∈ Set.Icc x0 x1, 0 < F x) ∧
      (∀ x ∈ Set.Icc x0 x1, thwaitesLambda o.nu u du x0 d0 x = F x * du x) ∧
      (ls < d0 * d0 / o.nu * du x0 → ∀ (h : ℝ) (r : IntegrationResult ℝ), Rk45Run o x0 x1 d0 h r → 0 ≤ h ∧ r.xEnd ∈ Set.Icc x0 x1 ∧
        ((r.status = .separated ∧ F r.xEnd * du r.xEnd ≤ ls + K * h ^ 5 ∧
            (∃ a ∈ Set.Icc x0 x1, r.xEnd ≤ a + h ∧ ls - K * h ^ 5 ≤ F a * du a) ∧
            ((∀ lam < ls, m.shearAt lam < 0) → ls - K * h ^ 5 ≤ F r.xEnd * du r.xEnd)) ∨
          (r.status = .reachedEnd ∧ r.xEnd = x1 ∧ ls - K * h ^ 5 ≤ F x1 * du x1))) := by
  obtain ⟨K, F, hK0, hF0, hF, hFi, fol⟩ := rk45_follows (d0 := d0) S.linear S.nu S.uE S.duE S.slope S.smooth S.speed S.interval
  have hx0 : x0 ∈ Set.Icc x0 x1 := ⟨le_refl _, S.interval.le⟩
  have hx1 : x1 ∈ Set.Icc x0 x1 := ⟨S.interval.le, le_refl _⟩
  have hpos : ∀ x ∈ Set.Icc x0 x1, 0 < F x := fun x hx' => by
    have h1 := hFi x hx'
    have h2 : 0 < u x + 1/1000 := by linarith [S.speed x hx']
    have h3 : 0 < u x0 + 1/1000 := by linarith [S.speed x0 hx0]
    have h4 : 0 ≤ ∫ t in x0..x, (u t + 1/1000) ^ 5 := intervalIntegral.integral_nonneg hx'.1 fun t ht =>
      pow_nonneg (by linarith [S.speed t ⟨ht.1, ht.2.trans hx'.2⟩]) 5
    have hn := S.nu
    have h5 : 0 < F x * (u x + 1/1000) ^ 6 := by rw [h1]; positivity
    exact pos_of_mul_pos_left h5 (pow_pos h2 6).le
  have hlam : ∀ x ∈ Set.Icc x0 x1, thwaitesLambda o.nu u du x0 d0 x = F x * du x := fun x hx => by
    have h2 : (u x + 1/1000) ≠ 0 := by linarith [S.speed x hx]
    have hn := S.nu
    have e : (d0 ^ 2 * (u x0 + 1/1000) ^ 6 + 45/100 * o.nu * ∫ t in x0..x, (u t + 1/1000) ^ 5) / (u x + 1/1000) ^ 6 = F x * o.nu := by
      rw [div_eq_iff (pow_ne_zero 6 h2)]
      have := hFi x hx
      rw [show F x * o.nu * (u x + 1/1000) ^ 6 = o.nu * (F x * (u x + 1/1000) ^ 6) by ring, this]
      field_simp
    rw [thwaitesLambda, thwaitesTheta, e, Real.sq_sqrt (mul_pos (hpos x hx) hn).le, mul_div_assoc, div_self hn.ne', mul_one]
  have hD : ∀ x ∈ Set.Icc x0 x1, |du x| ≤ -du x1 := fun x hx => by
    rw [abs_of_nonpos (S.decelerated x hx)]
    linarith [S.notWeaker hx hx1 hx.2]
  have hD0 : 0 ≤ -du x1 := neg_nonneg.2 (S.decelerated x1 hx1)
  refine ⟨K * -du x1, F, mul_nonneg hK0 hD0, hF0, hF, hpos, hlam, fun hatt h r R => ?_⟩
  obtain ⟨⟨gap, g, stepper, root, o', o'', p, hg, hst, hroot, hp, hd, hs, hmax⟩, hok⟩ := R
  -- the error of lambda
  have err : ∀ (h : ℝ) (pre post : List (Step ℝ)) (s : Step ℝ), (stepper p).steps = pre ++ s :: post → StepsAtMost h x0 (pre ++ [s]) → ∃ v : ℝ → ℝ, Continuous v ∧
      (∀ x, s.dense x = [v x]) ∧ ∀ x ∈ Set.Icc (lastPt (x0, p.y0) pre).1 s.t, x ∈ Set.Icc x0 x1 →
        |v x * du x - F x * du x| ≤ K * -du x1 * h ^ 5 := fun h pre post s e hm => by
    obtain ⟨v, c, h1, h2⟩ := fol .none gap g stepper o' p h hg hst hp hd pre post s e hm
    refine ⟨v, c, h1, fun x hx hx' => ?_⟩
    rw [← sub_mul, abs_mul]
    calc |v x - F x| * |du x| ≤ K * h ^ 5 * -du x1 := mul_le_mul (h2 x hx) (hD x hx') (abs_nonneg _) ((abs_nonneg _).trans (h2 x hx))
      _ = _ := by ring
  obtain ⟨con, inside⟩ := rk45_consistent hp S.interval hg (hst p)
  obtain ⟨-, -, -, -, hpx0, hpx1, hy0⟩ := linear_start hp S.linear S.nu hd
  obtain ⟨c1, c2, c3, -⟩ := rk45_steps hg (hst p) (by rw [hpx0, hpx1]; exact S.interval) (by rw [hy0]; simp)
  rw [hpx0] at c1
  have dense : ∀ (pre post : List (Step ℝ)) (s : Step ℝ), (stepper p).steps = pre ++ s :: post → ∃ v : ℝ → ℝ, ∀ x, s.dense x = [v x] := fun pre post s e => by
    obtain ⟨v, -, h1, -⟩ := err (x1 - x0) pre post s e (steps_at_most (a := (x0, p.y0)) (DpSteps.take (l' := post) (by rw [List.append_assoc]; exact e ▸ c1)) le_rfl
      fun q hq => by rw [← hpx1]; exact (c2 q (by rw [e]; simp at hq ⊢; tauto)).2.1)
    exact ⟨v, h1⟩
  have hdef : ∀ s ∈ (stepper p).steps, ∃ v, o.eventValue (.sepThwaites m) s.t s.y = .ok v := fun s hs' => by
    obtain ⟨pre, post, e⟩ := List.append_of_mem hs'
    obtain ⟨v, h1⟩ := dense pre post s e
    rw [e] at con
    rw [← con.at.2.2, h1]
    exact ⟨_, event_value S.duE _ _⟩
  have sr : SepRun o (.sepThwaites m) x0 x1 stepper root p r := ⟨S.events, rfl, by rw [hp], by rw [hs], hdef⟩
  have hv0 : o.eventValue (.sepThwaites m) x0 p.y0 = .ok (m.shearAt (d0 * d0 / o.nu * du x0)) := by rw [hy0]; exact event_value S.duE _ _
  have hv0p := (S.fits.attached _).2 hatt
  have point : ∀ (pre post : List (Step ℝ)), (stepper p).steps = pre ++ post → (lastPt (x0, p.y0) pre).1 ∈ Set.Icc x0 x1 := fun pre post e => by
    rcases List.eq_nil_or_concat pre with rfl | ⟨q, st, rfl⟩
    · exact hx0
    · rw [List.concat_eq_append, last_append]
      have := inside st (by rw [e]; simp)
      exact ⟨this.1.le, this.2⟩
  by_cases hsep : r.status = .separated
  · obtain ⟨pre, rest, s, va, vb, e, -, ha, hapos, hb, hbneg, hrt, -⟩ := separation_step sr _ hv0 hv0p hsep
    have cs := con
    rw [e] at cs
    have steps := c1
    obtain ⟨c1, c2, c3⟩ := cs.at
    have short : StepsAtMost h x0 (pre ++ [s]) :=
      StepsTo.upto (a := (x0, p.y0)) (e ▸ hmax) (e ▸ steps) (hroot.inside _ _ _ _ c1.le hrt).1
    obtain ⟨v, vc, v1, v2⟩ := err h pre rest s e short
    have pa := point pre _ e
    have ps : s.t ∈ Set.Icc x0 x1 := by
      have := inside s (by rw [e]; simp)
      exact ⟨this.1.le, this.2⟩
    have hh : s.t - (lastPt (x0, p.y0) pre).1 ≤ h := short.at (post := [])
    obtain ⟨i1, i2⟩ := hroot.inside _ _ _ _ c1.le hrt
    set a := (lastPt (x0, p.y0) pre).1 with ha_def
    have px : r.xEnd ∈ Set.Icc x0 x1 := ⟨pa.1.trans i1, i2.trans ps.2⟩
    have dc : ContinuousOn du (Set.Icc a s.t) := by
      have : ContDiffOn ℝ 5 du (Set.Icc x0 x1) := by
        have := (contDiffOn_succ_iff_derivWithin (n := 5) (uniqueDiffOn_Icc S.interval)).1
          (by rw [show (5 + 1 : WithTop ℕ∞) = 6 by norm_num]; exact S.smooth)
        exact this.2.2.congr fun x hx' => ((S.slope x).hasDerivWithinAt.derivWithin (uniqueDiffOn_Icc S.interval x hx')).symm
      exact this.continuousOn.mono (Set.Icc_subset_Icc pa.1 ps.2)
    have va_eq : va = m.shearAt (v a * du a) := by
      rw [← c2, v1, event_value S.duE] at ha
      exact (Except.ok.inj ha).symm
    have vb_eq : vb = m.shearAt (v s.t * du s.t) := by
      rw [← c3, v1, event_value S.duE] at hb
      exact (Except.ok.inj hb).symm
    have hz : m.shearAt (v r.xEnd * du r.xEnd) = 0 := by
      refine hroot.zero _ a s.t r.xEnd (fun t => m.shearAt (v t * du t)) c1.le (fun t _ _ => ?_) ?_ ?_ hrt
      · rw [v1, event_value S.duE]
      · exact S.fits.cont.comp_continuousOn (vc.continuousOn.mul dc)
      · rw [← va_eq, ← vb_eq]
        exact mul_nonpos_of_nonneg_of_nonpos hapos.le hbneg
    have ex := abs_le.1 (v2 r.xEnd ⟨i1, i2⟩ px)
    have ea := abs_le.1 (v2 a ⟨le_refl _, c1.le⟩ pa)
    have le1 : v r.xEnd * du r.xEnd ≤ ls := not_lt.1 fun hl => by
      have := (S.fits.attached _).2 hl
      linarith
    have le2 : ls < v a * du a := (S.fits.attached _).1 (by rw [← va_eq]; exact hapos)
    refine ⟨by linarith, px, .inl ⟨hsep, by linarith [ex.1], ⟨a, pa, by linarith, by linarith [ea.2]⟩, fun hsharp => ?_⟩⟩
    have : ls ≤ v r.xEnd * du r.xEnd := not_lt.1 fun hl => by linarith [hsharp _ hl]
    linarith [ex.2]
  · have hatt' : ∀ s ∈ (stepper p).steps, ls < (s.y.getD 0 0) * du s.t := fun s hs' => by
      by_contra hn
      refine hsep ((separation_reported_iff sr _ hv0 hv0p).2 ⟨s, hs', ?_⟩)
      obtain ⟨pre, post, e⟩ := List.append_of_mem hs'
      obtain ⟨v, h1⟩ := dense pre post s e
      have cs := con
      rw [e] at cs
      have h2 := cs.at.2.2
      rw [h1] at h2
      rw [← h2] at hn ⊢
      exact ⟨_, event_value S.duE _ _, not_lt.1 fun hl => hn (by simpa using (S.fits.attached _).1 hl)⟩
    cases solve_outcome o.eventValue stepper root hp hs with
    | failed _ _ _ _ _ hok' => rw [hok] at hok'; cases hok'
    | stopped pre rest s i e' hsteps hq hi hf hst' =>
      obtain ⟨-, h2, -, -⟩ := prepare_fields hp
      rw [h2, S.events] at hi
      have : e' = .sepThwaites m := by
        cases i with
        | zero => simpa [TermArg.toList] using hi.symm
        | succ i => simp [TermArg.toList] at hi
      subst this
      exact absurd hst' hsep
    | reached hq he hs' hxe _ =>
      obtain ⟨st, l1, l2⟩ := c3.1 he
      obtain ⟨pre, e⟩ := List.getLast?_eq_some_iff.1 l1
      rw [hpx1] at l2
      have cs := con
      rw [e] at cs
      obtain ⟨q1, q2, q3⟩ := cs.at
      have hxe' : r.xEnd = x1 := by rw [hxe, e, last_append]; exact l2
      have short : StepsAtMost h x0 (pre ++ [st]) :=
        StepsTo.upto (a := (x0, p.y0)) (e ▸ hmax) (e ▸ c1) (by rw [hxe', ← l2]; exact q1.le)
      obtain ⟨v, -, h1, h2⟩ := err h pre [] st e short
      have hh : st.t - (lastPt (x0, p.y0) pre).1 ≤ h := short.at (post := [])
      have hl := hatt' st (by rw [e]; simp)
      rw [← q3, h1, l2] at hl
      have := abs_le.1 (h2 x1 ⟨by rw [← l2]; exact q1.le, by rw [l2]⟩ hx1)
      refine ⟨by linarith, by rw [hxe']; exact hx1, .inr ⟨hs', hxe', ?_⟩⟩
      simp only [List.getD_cons_zero] at hl
      linarith [this.2]

/-! ### C133 -/

/-- **C133**: if the exact layer separates at `xs`, a run either reports SEPARATED, not earlier than `C h ^ 5` before `xs` and not later than a step and `C h ^ 5`
behind it, or ends so close to `xs` that the error of the integration hides the separation. Fits whose shear is negative beyond separation
(Cebeci and Bradshaw) locate it up to `C h ^ 5`. -/
theorem rk45_separation_located {o : Obj ℝ} {m : Fits ℝ} {ls : ℝ} {u du : ℝ → ℝ} {x0 x1 d0 xs : ℝ} (S : SmoothDeceleration o m ls u du x0 x1)
    (hd0 : 0 < d0) (hatt : ls < d0 * d0 / o.nu * du x0) (hxs : xs ∈ Set.Icc x0 x1) (hsep : thwaitesLambda o.nu u du x0 d0 xs = ls) :
    ∃ C, ∀ (h : ℝ) (r : IntegrationResult ℝ), Rk45Run o x0 x1 d0 h r →
      (r.status = .separated ∧ xs - C * h ^ 5 ≤ r.xEnd ∧ r.xEnd ≤ xs + h + C * h ^ 5 ∧
        ((∀ lam < ls, m.shearAt lam < 0) → |r.xEnd - xs| ≤ C * h ^ 5)) ∨
      (r.status = .reachedEnd ∧ r.xEnd = x1 ∧ x1 ≤ xs + C * h ^ 5) := by
  obtain ⟨K, F, hK, -, hF, hpos, hlam, run⟩ := run_lambda S hd0
  replace run := run hatt
  obtain ⟨k0, rate⟩ := lambda_rate S hF hpos
  set k := 45/100 / (1/1000 + u x0)
  rw [hlam xs hxs] at hsep
  have hdu : 0 < -du xs := by
    by_contra hn
    have h1 : 0 ≤ du xs := by linarith
    have := mul_nonneg (hpos xs hxs).le h1
    linarith [S.fits.neg]
  have hkd : 0 < k * -du xs := mul_pos k0 hdu
  -- upstream of `xs` lambda is above the critical value, downstream below
  have up : ∀ x ∈ Set.Icc x0 x1, ∀ E, 0 ≤ E → F x * du x ≤ ls + E → xs - E / (k * -du xs) ≤ x := fun x hx E hE he => by
    rcases le_total xs x with hle | hle
    · have : 0 ≤ E / (k * -du xs) := div_nonneg hE hkd.le
      linarith
    · have := rate x hx xs hxs hle
      have h2 : k * (xs - x) * -du xs = (xs - x) * (k * -du xs) := by ring
      have : xs - x ≤ E / (k * -du xs) := by rw [le_div_iff₀ hkd]; linarith
      linarith
  have down : ∀ x ∈ Set.Icc x0 x1, ∀ E, 0 ≤ E → ls - E ≤ F x * du x → x ≤ xs + E / (k * -du xs) := fun x hx E hE he => by
    rcases le_total x xs with hle | hle
    · have : 0 ≤ E / (k * -du xs) := div_nonneg hE hkd.le
      linarith
    · have h1 := rate xs hxs x hx hle
      have h2 : -du xs ≤ -du x := by linarith [S.notWeaker hxs hx hle]
      have h3 : k * (x - xs) * -du xs ≤ k * (x - xs) * -du x := mul_le_mul_of_nonneg_left h2 (mul_nonneg k0.le (by linarith))
      have h4 : k * (x - xs) * -du xs = (x - xs) * (k * -du xs) := by ring
      have : x - xs ≤ E / (k * -du xs) := by rw [le_div_iff₀ hkd]; linarith
      linarith
  refine ⟨K / (k * -du xs), fun h r R => ?_⟩
  obtain ⟨h0, hx, hr⟩ := run h r R
  have hE : 0 ≤ K * h ^ 5 := mul_nonneg hK (pow_nonneg h0 5)
  have e : K / (k * -du xs) * h ^ 5 = K * h ^ 5 / (k * -du xs) := by ring
  rw [e]
  rcases hr with ⟨s1, s2, ⟨a, ha, s3, s4⟩, s5⟩ | ⟨s1, s2, s3⟩
  · refine .inl ⟨s1, up _ hx _ hE s2, ?_, fun hsharp => ?_⟩
    · linarith [down a ha _ hE s4]
    · rw [abs_le]
      constructor <;> linarith [up _ hx _ hE s2, down _ hx _ hE (s5 hsharp)]
  · have := down _ hx _ hE (by rw [s2]; exact s3)
    exact .inr ⟨s1, s2, by linarith⟩

/-- **C133**, layers that do not separate: SEPARATED is reported only if lambda at the end comes within `C h ^ 5` of the critical value, so with fine
enough steps it is not. -/
theorem rk45_no_false_separation {o : Obj ℝ} {m : Fits ℝ} {ls : ℝ} {u du : ℝ → ℝ} {x0 x1 d0 : ℝ} (S : SmoothDeceleration o m ls u du x0 x1)
    (hd0 : 0 < d0) (hatt : ls < thwaitesLambda o.nu u du x0 d0 x1) :
    ∃ C, ∀ (h : ℝ) (r : IntegrationResult ℝ), Rk45Run o x0 x1 d0 h r →
      (r.status = .reachedEnd ∧ r.xEnd = x1) ∨ (r.status = .separated ∧ thwaitesLambda o.nu u du x0 d0 x1 ≤ ls + C * h ^ 5) := by
  have hx0 : x0 ∈ Set.Icc x0 x1 := ⟨le_refl _, S.interval.le⟩
  have hx1 : x1 ∈ Set.Icc x0 x1 := ⟨S.interval.le, le_refl _⟩
  obtain ⟨K, F, hK, hF0, hF, hpos, hlam, run⟩ := run_lambda S hd0
  obtain ⟨k0, rate⟩ := lambda_rate S hF hpos
  rw [hlam x1 hx1] at hatt ⊢
  have fall : ∀ x ∈ Set.Icc x0 x1, F x1 * du x1 ≤ F x * du x := fun x hx => by
    have h1 := rate x hx x1 hx1 hx.2
    have h2 : 0 ≤ 45/100 / (1/1000 + u x0) * (x1 - x) * -du x1 :=
      mul_nonneg (mul_nonneg k0.le (by linarith [hx.2])) (neg_nonneg.2 (S.decelerated x1 hx1))
    linarith
  refine ⟨K, fun h r R => ?_⟩
  obtain ⟨h0, hx, hr⟩ := run (by rw [← hF0]; linarith [fall x0 hx0]) h r R
  rcases hr with ⟨s1, s2, -, -⟩ | ⟨s1, s2, -⟩
  · exact .inr ⟨s1, (fall _ hx).trans s2⟩
  · exact .inl ⟨s1, s2⟩

/-! ### Fits -/

theorem separatesAt_white : SeparatesAt Fits.white (-9/100) := by
  have e : (Fits.white : Fits ℝ).shearAt = fun lam => (max lam (-9/100) + 9/100) ^ (62/100 : ℝ) := by
    funext lam
    rw [shearAt, white_clip]
    simp only [Fits.white, real_pow, real_lit]
    norm_num
  refine ⟨by norm_num, fun lam => ?_, ?_⟩
  · rw [congrFun e lam]
    constructor
    · intro h
      by_contra hn
      rw [max_eq_right (not_lt.1 hn)] at h
      norm_num at h
    · intro h
      rw [max_eq_left h.le]
      exact Real.rpow_pos_of_pos (by linarith) _
  · rw [e]
    exact Continuous.rpow_const (by fun_prop) fun _ => .inr (by norm_num)

theorem separatesAt_spline {cs : CubicSpline ℝ} (hcs : TableSplines cs) : SeparatesAt (spline cs) (-9/100) := by
  refine ⟨by norm_num, spline_shear_pos_iff hcs, ?_⟩
  obtain ⟨K, hK, h⟩ := spline_lipschitz hcs
  exact (LipschitzWith.of_dist_le_mul (K := ⟨K, hK⟩) fun x y => by rw [Real.dist_eq, Real.dist_eq]; exact (h y x).1).continuous

private theorem cb_parts (lam : ℝ) : (cebeciBradshaw : Fits ℝ).shearAt lam =
    22/100 + 1402/1000 * min (max lam (-1/10)) 0 + 18/1000 * min (max lam (-1/10)) 0 / (107/1000 + min (max lam (-1/10)) 0) +
      (157/100 * max (min lam (1/10)) 0 - 18/10 * (max (min lam (1/10)) 0 * max (min lam (1/10)) 0)) := by
  rw [shearAt, cb_clip]
  rcases lt_or_ge lam 0 with h | h
  · have h1 : max lam (-1/10) < 0 := max_lt h (by norm_num)
    rw [min_eq_left (by linarith : max lam (-1/10) ≤ 1/10), min_eq_left h1.le, max_eq_right (min_le_iff.2 (.inl h.le)) (b := (0:ℝ))]
    simp only [cebeciBradshaw, piecewise0, real_lt, real_lit]
    rw [if_pos (by exact_mod_cast h1)]
    push_cast
    ring
  · have h1 : 0 ≤ min lam (1/10) := le_min h (by norm_num)
    rw [max_eq_left (by linarith : (-1/10 : ℝ) ≤ lam), min_eq_right h, max_eq_left h1]
    generalize min lam (1/10) = t at h1
    have ht : ¬ t < ((0:ℚ) : ℝ) := by push_cast; linarith
    have ht' : t ≥ ((0:ℚ) : ℝ) := by push_cast; linarith
    simp only [cebeciBradshaw, piecewise0, real_lt, real_ge, real_lit, if_neg ht, if_pos ht']
    push_cast
    ring

theorem separatesAt_cb : ∃ ls, SeparatesAt cebeciBradshaw ls ∧ ∀ lam < ls, (cebeciBradshaw : Fits ℝ).shearAt lam < 0 := by
  obtain ⟨ls, h1, h2, h3, h4⟩ := cb_signals_at
  refine ⟨ls, ⟨by linarith, fun lam => ⟨fun h => ?_, fun h => ?_⟩, ?_⟩, fun lam h => ?_⟩
  · by_contra hn
    linarith [h4 lam (not_lt.1 hn)]
  · rcases le_or_gt lam 0 with hl | hl
    · exact h3 lam h hl
    · rw [cb_parts, min_eq_right (le_max_of_le_left hl.le)]
      have h5 : 0 ≤ max (min lam (1/10)) 0 := le_max_right _ _
      have h6 : max (min lam (1/10)) 0 ≤ 1/10 := max_le (min_le_right _ _) (by norm_num)
      generalize max (min lam (1/10)) 0 = t at h5 h6
      nlinarith
  · rw [show (cebeciBradshaw : Fits ℝ).shearAt = _ from funext cb_parts]
    refine Continuous.add (Continuous.add (by fun_prop) (Continuous.div (by fun_prop) (by fun_prop) fun x => ?_)) (by fun_prop)
    have : -1/10 ≤ min (max x (-1/10)) 0 := le_min (le_max_right _ _) (by norm_num)
    intro h0
    linarith
  · have e := h4 ls le_rfl
    rw [shearAt, cb_clip, max_eq_left (by linarith), min_eq_left (by linarith)] at e
    rw [shearAt, cb_clip, min_eq_left (max_le (by linarith) (by norm_num))]
    exact (cb_mono _ ls (le_max_right _ _) (max_lt h (by linarith)) (by linarith)).trans_le e

/-! ### A concrete case -/

/-- The linear method with White's fits and the start thickness 0.8 in the flow `u_e = 0.999 - x/8`. -/
private noncomputable def ramp : Obj ℝ where
  cls := .thwaitesLinear
  nu := 1
  vel := ⟨some (.fn fun x => .ok (999/1000 - x / 8)), some (.fn fun _ => .ok (-1/8)), none⟩
  ic := .manual 0 1 0 (4/5) 0
  events := [.sepThwaites Fits.white]
  sol := none
  fits := some Fits.white

private theorem ramp_flow {x1 : ℝ} (h0 : 0 < x1) (h1 : x1 ≤ 1) :
    SmoothDeceleration ramp Fits.white (-9/100) (fun x => 999/1000 - x / 8) (fun _ => -1/8) 0 x1 where
  linear := rfl
  nu := one_pos
  events := rfl
  fits := separatesAt_white
  uE := fun t => rfl
  duE := fun t => by simp [ramp, VelState.duE, VelState.rawDu, callOpt, Vel.call]
  slope := fun x => by
    have := ((hasDerivAt_id x).div_const 8).const_sub (999/1000)
    rw [show (-1/8 : ℝ) = -(1/8) by norm_num]; exact this
  smooth := by fun_prop
  speed := fun x hx => by linarith [hx.2]
  decelerated := fun x _ => by norm_num
  notWeaker := fun _ _ _ _ _ => le_refl _
  interval := h0

private theorem ramp_run {x1 : ℝ} (h0 : 0 < x1) (h1 : x1 ≤ 1) : ∃ r, Rk45Run ramp 0 x1 (4/5) x1 r := by
  have S := ramp_flow h0 h1
  have E : Everywhere ramp := ⟨fun t => ⟨_, S.uE t⟩, fun t => ⟨_, S.duE t⟩, fun h => by cases h⟩
  obtain ⟨o', hp, -, -, -, -, -, hd⟩ := prepare_thwaites (o := ramp) (x0 := 0) (x1 := x1) rfl (by norm_num [ramp]) (S.duE 0) rfl
  obtain ⟨root, hroot, htot⟩ := bracketRoot_exists
  obtain ⟨g, g0, succ⟩ := thwaites_solve_succeeds (o := ramp) (x0 := 0) (x1 := x1) .none rfl (fun h => by cases h)
    ⟨7/8, 1/8, by norm_num, fun t ht => ⟨_, _, S.uE t, S.duE t, by linarith [ht.2], by norm_num⟩⟩ h0
  have sp : Spaced (fun _ _ => g) g := ⟨g0, fun _ _ => le_refl _⟩
  obtain ⟨stepper, hst, h⟩ := rk45_solve_returns E 0 x1 .none (fun e he => by
    simp only [ramp, TermArg.toList, List.append_nil, List.mem_singleton] at he
    subst he; exact (separation_total E _ 0).1) htot sp
  rcases h with ⟨e, h1, -⟩ | ⟨p, r, h1, h2⟩
  · rw [hp] at h1; cases h1
  · rw [hp] at h1
    cases h1
    have hs : ramp.solve 0 x1 .none (ivp ramp.eventValue stepper root) = (_, .ok r) := Prod.ext rfl h2
    have hok := (succ _ _ stepper root _ r sp (fun _ _ => le_refl _) hst hs).1
    obtain ⟨p1, p2, p3, p4, p5, p6, p7⟩ := linear_start hp rfl (by norm_num [ramp]) hd
    obtain ⟨c1, c2, -, -⟩ := rk45_steps sp (hst _) (by rw [p5, p6]; exact h0) (by rw [p7]; simp)
    refine ⟨r, ⟨⟨_, _, stepper, root, o', _, _, sp, hst, hroot, hp, hd, hs, ?_⟩, hok⟩⟩
    have := steps_at_most c1 (x0 := 0) (x1 := x1) (by rw [p5]) fun s hs => by rw [← p6]; exact (c2 s hs).2.1
    rw [p5] at this
    exact StepsAtMost.to (by simpa using this)

/-- The hypotheses are met: a linearly decelerated flow, attached at the start, that separates at some `xs` in [0, 1] and stays attached on a shorter interval
[0, x1], with successful runs of RK45 over both. -/
theorem rk45_separation_case : ∃ (o : Obj ℝ) (u du : ℝ → ℝ) (xs x1 : ℝ), SmoothDeceleration o Fits.white (-9/100) u du 0 1 ∧
    -9/100 < 4/5 * (4/5) / o.nu * du 0 ∧ xs ∈ Set.Icc (0:ℝ) 1 ∧ thwaitesLambda o.nu u du 0 (4/5) xs = -9/100 ∧
    (∃ r, Rk45Run o 0 1 (4/5) 1 r) ∧ SmoothDeceleration o Fits.white (-9/100) u du 0 x1 ∧ -9/100 < thwaitesLambda o.nu u du 0 (4/5) x1 ∧
    ∃ r, Rk45Run o 0 x1 (4/5) x1 r := by
  have S := ramp_flow one_pos le_rfl
  have h0 : (0:ℝ) ∈ Set.Icc (0:ℝ) 1 := ⟨le_refl _, zero_le_one⟩
  have h1 : (1:ℝ) ∈ Set.Icc (0:ℝ) 1 := ⟨zero_le_one, le_refl _⟩
  obtain ⟨K, F, -, hF0, hF, hpos, hlam, -⟩ := run_lambda S (by norm_num : (0:ℝ) < 4/5)
  obtain ⟨-, rate⟩ := lambda_rate S hF hpos
  have hnu : ramp.nu = 1 := rfl
  rw [hnu] at hF0
  have r01 := rate 0 h0 1 h1 zero_le_one
  rw [hF0] at r01
  have hcont : ContinuousOn (fun x => F x * (-1/8)) (Set.Icc (0:ℝ) 1) := fun x hx => by
    obtain ⟨_, -, h⟩ := hF x hx
    exact (h.continuousAt.mul continuousAt_const).continuousWithinAt
  obtain ⟨xs, hxs, hval⟩ := intermediate_value_Icc' zero_le_one hcont
    (show (-9/100 : ℝ) ∈ _ from ⟨by norm_num at r01 ⊢; linarith, by rw [hF0]; norm_num⟩)
  have hxs0 : 0 < xs := by
    rcases hxs.1.lt_or_eq with h | h
    · exact h
    · rw [← h] at hval
      simp only [hF0] at hval
      norm_num at hval
  have hx1 : xs / 2 ∈ Set.Icc (0:ℝ) 1 := ⟨by linarith, by linarith [hxs.2]⟩
  have r1 := rate (xs / 2) hx1 xs hxs (by linarith)
  refine ⟨ramp, _, _, xs, xs / 2, S, by norm_num [hnu], hxs, by rw [hlam xs hxs]; exact hval, ramp_run one_pos le_rfl,
    ramp_flow (by linarith) hx1.2, ?_, ramp_run (by linarith) hx1.2⟩
  rw [hlam _ hx1]
  norm_num at r1 hval ⊢
  linarith

end IBL
