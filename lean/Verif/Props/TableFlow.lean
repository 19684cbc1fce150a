import Verif.Props.Pchip
import Verif.Props.Acceleration
import Verif.Props.ThwaitesExists

/-!
C98, C99: flows given by a table. C98: a table of positive, nowhere decreasing velocities is an accelerated flow. C99: Thwaites' methods on a
table of velocities.
-/

namespace IBL
open PPoly SolveIvp Fits

/-! ### The range of a table -/

theorem lastX_cons_cons (p q : ℝ × ℝ) (l : List (ℝ × ℝ)) : lastX (p :: q :: l) = lastX (q :: l) := by
  simp [lastX]

/-- Every location in the range of the table is between two neighbouring points. -/
theorem table_segment {pts : List (ℝ × ℝ)} (h : Table pts) {x : ℝ} (hx : x ∈ Set.Icc (firstX pts) (lastX pts)) :
    ∃ p q, [p, q] <:+: pts ∧ x ∈ Set.Icc p.1 q.1 := by
  have hl := h.long
  clear h
  induction pts with
  | nil => simp at hl
  | cons p l ih =>
    cases l with
    | nil => simp at hl
    | cons q l =>
      rw [lastX_cons_cons] at hx
      by_cases hq : x ≤ q.1
      · exact ⟨p, q, ⟨[], l, by simp⟩, hx.1, hq⟩
      · cases l with
        | nil => exact absurd hx.2 hq
        | cons r l =>
          obtain ⟨a, b, hab, hx'⟩ := ih ⟨(not_le.1 hq).le, hx.2⟩ (by simp)
          exact ⟨a, b, hab.trans (List.suffix_cons p _).isInfix, hx'⟩

/-- In the range of the table `f` has the bounds of the tabulated values, and the direction if they have one. -/
theorem MonotoneThrough.bounds {pts : List (ℝ × ℝ)} {f f' f'' : ℝ → ℝ} (M : MonotoneThrough pts f f' f'') (h : Table pts) {x : ℝ}
    (hx : x ∈ Set.Icc (firstX pts) (lastX pts)) : (∀ c, (∀ p ∈ pts, c ≤ p.2) → c ≤ f x) ∧ (∀ c, (∀ p ∈ pts, p.2 ≤ c) → f x ≤ c) ∧
      (pts.IsChain (fun p q => p.2 ≤ q.2) → 0 ≤ f' x) ∧ (pts.IsChain (fun p q => q.2 ≤ p.2) → f' x ≤ 0) := by
  obtain ⟨p, q, hpq, hx'⟩ := table_segment h hx
  have hp : p ∈ pts := hpq.subset (by simp)
  have hq : q ∈ pts := hpq.subset (by simp)
  obtain ⟨h1, h2⟩ := M.between p q hpq x hx'
  obtain ⟨h3, h4⟩ := M.direction p q hpq x hx'
  exact ⟨fun c hc => (le_min (hc p hp) (hc q hq)).trans h1, fun c hc => h2.trans (max_le (hc p hp) (hc q hq)),
    fun hc => h3 (Pchip.chain_infix hc hpq), fun hc => h4 (Pchip.chain_infix hc hpq)⟩

/-! ### C98 -/

/-- The velocities of a table are positive and nowhere decreasing. -/
def AcceleratedTable (pts : List (ℝ × ℝ)) : Prop := (∀ p ∈ pts, 0 < p.2) ∧ pts.IsChain fun p q => p.2 ≤ q.2

/-- **C98**: wherever they are asked, the queries report a positive velocity and a slope that is not negative. -/
def TablesAccelerate : Prop :=
  ∀ (ext : Ext ℝ) (other : Pchip ℝ), ext.pchip = Pchip.interpolator other → ∀ (o o' : Obj ℝ) (pts : List (ℝ × ℝ)) (a b : Arg ℝ), Table pts →
    AcceleratedTable pts → o.setVelocity ext (tableArg pts) a b = (o', .ok ()) →
    ∀ x, ∃ u du, o'.vel.uE x = .ok u ∧ o'.vel.duE x = .ok du ∧ 0 < u ∧ 0 ≤ du

/-- **C98**, what holds: between the first and the last abscissa. Missing: locations outside the table. -/
theorem tables_accelerate_partial (ext : Ext ℝ) (other : Pchip ℝ) (hext : ext.pchip = Pchip.interpolator other) (o o' : Obj ℝ)
    (pts : List (ℝ × ℝ)) (a b : Arg ℝ) (h : Table pts) (hacc : AcceleratedTable pts)
    (hs : o.setVelocity ext (tableArg pts) a b = (o', .ok ())) (x : ℝ) (hx : x ∈ Set.Icc (firstX pts) (lastX pts)) :
    ∃ u du, o'.vel.uE x = .ok u ∧ o'.vel.duE x = .ok du ∧ 0 < u ∧ 0 ≤ du := by
  obtain ⟨o'', u, du, d2u, e, -, hq, M⟩ := table_velocity ext other hext o pts h a b
  rw [hs] at e
  obtain rfl : o' = o'' := (Prod.mk.inj e).1
  obtain ⟨p, q, hpq, hx'⟩ := table_segment h hx
  refine ⟨u x, du x, (hq x).1, (hq x).2.1, ?_, (M.bounds h hx).2.2.1 hacc.2⟩
  exact (lt_min (hacc.1 p (hpq.subset (by simp))) (hacc.1 q (hpq.subset (by simp)))).trans_le (M.between p q hpq x hx').1

/-- The table of the counterexample. -/
private noncomputable def bent : List (ℝ × ℝ) := [(0, 1), (1, 1), (2, 2)]

theorem bent_table : Table bent := ⟨by simp [bent], by simp [bent]⟩

private theorem bent_pieces : Pchip.pieces (Pchip.knots bent) = [(0, [1, 0, 0, 0]), (1, [1, 0, 3/2, -1/2])] := by
  have e1 : Pchip.edgeCase (1:ℝ) 1 0 1 = 0 := by
    unfold Pchip.edgeCase
    rw [if_pos]
    · simp
    · rw [Pchip.signsDiffer_iff]; norm_num
  have e2 : Pchip.innerSlope (1:ℝ) 1 0 1 = 0 := by
    unfold Pchip.innerSlope
    rw [if_pos]
    · simp
    · simp
  have e3 : Pchip.edgeCase (1:ℝ) 1 1 0 = 3/2 := by
    unfold Pchip.edgeCase
    rw [if_neg, if_neg]
    · norm_num
    · simp only [Bool.and_eq_true, real_gt, real_abs, real_lit]
      norm_num [abs_of_pos]
    · rw [Pchip.signsDiffer_iff]; norm_num
  simp only [bent, Pchip.knots, Pchip.later, Pchip.len, Pchip.chord, sub_zero, sub_self, zero_div, div_one]
  rw [show (2:ℝ) - 1 = 1 by norm_num, div_one, e1, e2, e3]
  simp only [Pchip.pieces, Pchip.hermite]
  norm_num

/-- **C98** is false: beyond the last point of an increasing table the velocity is extrapolated without notice, and becomes negative. -/
theorem tables_accelerate_fails : ¬ TablesAccelerate := by
  intro H
  let ext : Ext ℝ := ⟨Pchip.interpolator fun _ _ => .error .valueError, fun _ _ => ⟨id, id⟩⟩
  let o : Obj ℝ := ⟨.thwaitesLinear, 1, .empty, .manual 0 1 1 1 1, [], none, some Fits.drela⟩
  have hi := interpolator_table (fun _ _ => .error .valueError) bent_table
  have hs : o.setVelocity ext (tableArg bent) .none .none = ({ o with vel := ⟨some (.fn fun x => .ok (eval (Pchip.pieces (Pchip.knots bent)) x)),
      some (.fn fun x => .ok (eval (PPoly.deriv (Pchip.pieces (Pchip.knots bent))) x)),
      some (.fn fun x => .ok (eval (PPoly.deriv (PPoly.deriv (Pchip.pieces (Pchip.knots bent)))) x))⟩ }, .ok ()) := by
    simp only [Obj.setVelocity, tableArg, setVelocity, ext, hi]
    simp only [vector, List.length_map, ne_eq, not_true_eq_false, if_false, setVelCallable, Spline.toCallable]
    rfl
  obtain ⟨u, du, hu, -, hpos, -⟩ := H ext _ rfl o _ bent .none .none bent_table ⟨by simp [bent], by simp [bent]⟩ hs 5
  simp only [VelState.uE, VelState.rawU, callOpt, Vel.call, Option.isNone_some, Bool.false_eq_true, if_false, Except.ok.injEq] at hu
  rw [bent_pieces] at hu
  simp only [eval, real_lt, polyEval_nil, polyEval_cons, real_lit] at hu
  norm_num at hu
  linarith

/-- Non-vacuity. -/
example : Table [(0, 1), (1, 1), (2, 2)] ∧ AcceleratedTable [(0, 1), (1, 1), (2, 2)] ∧
    (3/2 : ℝ) ∈ Set.Icc (firstX [(0, 1), (1, 1), (2, 2)]) (lastX [(0, 1), (1, 1), (2, 2)]) :=
  ⟨bent_table, ⟨by simp, by simp⟩, by simp [firstX]; norm_num, by simp [lastX]; norm_num⟩

/-! ### C99 -/

/-- **C99**: a method object of Thwaites' linear method, or of the nonlinear method with any built-in fits but White's, is given a table of
velocities, none negative. Over any interval within the table its equation then has, from every positive start value, exactly one
solution, and that solution is positive. -/
theorem table_thwaites_determined (ext : Ext ℝ) (other : Pchip ℝ) (hext : ext.pchip = Pchip.interpolator other) (o o' : Obj ℝ)
    (pts : List (ℝ × ℝ)) (y z : Arg ℝ) (m : Fits ℝ) (h : Table pts) (hpos : ∀ p ∈ pts, 0 ≤ p.2)
    (hs : o.setVelocity ext (tableArg pts) y z = (o', .ok ())) (hnu : 0 < o.nu) (hf : o.fits = some m)
    (hc : o.cls = .thwaitesLinear ∨ o.cls = .thwaitesNonlinear ∧ TameFit m) (a b F0 : ℝ) (ha : firstX pts ≤ a) (hab : a ≤ b)
    (hb : b ≤ lastX pts) (h0 : 0 < F0) :
    ∃ F : ℝ → ℝ, F a = F0 ∧ (∀ x ∈ Set.Icc a b, SatisfiesOde o' F x ∧ 0 < F x) ∧
      ∀ G : ℝ → ℝ, G a = F0 → (∀ x ∈ Set.Icc a b, SatisfiesOde o' G x) → ∀ x ∈ Set.Icc a b, G x = F x := by
  obtain ⟨o'', u, du, d2u, e, ho, hq, M⟩ := table_velocity ext other hext o pts h y z
  rw [hs] at e
  obtain rfl : o' = o'' := (Prod.mk.inj e).1
  have huE := fun t => (hq t).1
  have hduE := fun t => (hq t).2.1
  have hcu : Continuous u := continuous_iff_continuousAt.2 fun x => (M.slope x).continuousAt
  have hu0 : ∀ x ∈ Set.Icc a b, 0 ≤ u x := fun x hx => (M.bounds h ⟨ha.trans hx.1, hx.2.trans hb⟩).1 0 hpos
  have hu1 : ∀ x ∈ Set.Icc a b, -(1/1000) < u x := fun x hx => by linarith [hu0 x hx]
  obtain ⟨D, hD⟩ := isCompact_Icc.exists_bound_of_continuousOn (s := Set.Icc a b) M.slopeCont.continuousOn
  have hf' : o'.fits = some m := by rw [ho]; exact hf
  have hnu' : 0 < o'.nu := by rw [ho]; exact hnu
  rcases hc with hc | ⟨hc, hm⟩
  · have hc' : o'.cls = .thwaitesLinear := by rw [ho]; exact hc
    obtain ⟨F, hF0, hode, hquad⟩ := thwaites_linear_exists o' u du a b F0 hc' huE hduE M.slope hu1 hab
    refine ⟨F, hF0, fun x hx => ⟨hode x hx, ?_⟩, fun G hG0 hG x hx => ?_⟩
    · have hq := hquad x hx
      have hi : 0 ≤ ∫ t in a..x, (u t + 1/1000) ^ 5 := intervalIntegral.integral_nonneg hx.1 fun t ht => by
        have := hu0 t ⟨ht.1, ht.2.trans hx.2⟩
        positivity
      have h1 : 0 < F0 * (u a + 1/1000) ^ 6 := by
        have := hu0 a ⟨le_refl _, hab⟩
        positivity
      have h2 : 0 < F x * (u x + 1/1000) ^ 6 := by rw [hq]; positivity
      have := hu0 x hx
      exact pos_of_mul_pos_left h2 (by positivity)
    · have := thwaites_linear_error o' u du F G a b 0 D (1/1000) hc' huE hduE (le_refl _) (by norm_num)
        (fun t ht => ⟨by linarith [hu0 t ht], hD t ht⟩) hode (fun t ht => by
          obtain ⟨r, hr, hd⟩ := hG t ht
          exact ⟨r, r, hr, hd, by simp⟩) x hx
      rw [hF0, hG0, sub_self, abs_zero, zero_mul, add_zero, zero_mul] at this
      have := abs_nonpos_iff.1 this
      linarith
  · have hc' : o'.cls = .thwaitesNonlinear := by rw [ho]; exact hc
    have hbi : BuiltIn m := by
      rcases hm with rfl | rfl | ⟨cs, hcs, rfl⟩
      · exact .inr (.inl rfl)
      · exact .inr (.inr (.inl rfl))
      · exact .inr (.inr (.inr ⟨cs, hcs, rfl⟩))
    obtain ⟨F, hF0, hode, hFpos⟩ := thwaites_nonlinear_exists_partial o' m u du a b F0 hm hc' hf' huE hduE hcu.continuousOn
      M.slopeCont.continuousOn hu1 hab h0
    refine ⟨F, hF0, fun x hx => ⟨hode x hx, hFpos x hx⟩, fun G hG0 hG x hx => ?_⟩
    exact (thwaites_nonlinear_unique o' m u du F G a b D hbi hc' hf' huE hduE hnu' hcu.continuousOn hu1 hD hode hG (by rw [hF0, hG0])
      (by rw [hF0]; exact h0) x hx).symm

/-- **C99**: when the tabulated velocities are nowhere decreasing, a `solve` within the table whose accepted points lie on the solution does
not report separation (Spline, White and Cebeci-Bradshaw fits; linear and nonlinear method). -/
theorem table_thwaites_attached (ext : Ext ℝ) (other : Pchip ℝ) (hext : ext.pchip = Pchip.interpolator other) (o o' : Obj ℝ)
    (pts : List (ℝ × ℝ)) (y z : Arg ℝ) (m : Fits ℝ) (h : Table pts) (hpos : ∀ p ∈ pts, 0 ≤ p.2) (hinc : pts.IsChain fun p q => p.2 ≤ q.2)
    (hs : o.setVelocity ext (tableArg pts) y z = (o', .ok ())) (hnu : 0 < o.nu) (hc : o.cls.isThwaites = true) (hf : o.fits = some m)
    (hm : m = Fits.white ∨ m = cebeciBradshaw ∨ ∃ cs, TableSplines cs ∧ m = spline cs) (x0 x1 : ℝ) (ha : firstX pts ≤ x0) (hab : x0 ≤ x1)
    (hb : x1 ≤ lastX pts) (stepper : Stepper ℝ) (root : RootFinder ℝ) (p : IvpProblem ℝ) (r : IntegrationResult ℝ)
    (run : SepRun o' (.sepThwaites m) x0 x1 stepper root p r) (F : ℝ → ℝ) (ode : ∀ x ∈ Set.Icc x0 x1, SatisfiesOde o' F x)
    (start : p.y0 = [F x0] ∧ 0 < F x0) (steps : ∀ s ∈ (stepper p).steps, s.t ∈ Set.Icc x0 x1 ∧ s.y = [F s.t]) :
    r.status ≠ .separated := by
  obtain ⟨o'', u, du, d2u, e, ho, hq, M⟩ := table_velocity ext other hext o pts h y z
  rw [hs] at e
  obtain rfl : o' = o'' := (Prod.mk.inj e).1
  have hR : ∀ x ∈ Set.Icc x0 x1, x ∈ Set.Icc (firstX pts) (lastX pts) := fun x hx => ⟨ha.trans hx.1, hx.2.trans hb⟩
  obtain ⟨D, hD⟩ := isCompact_Icc.exists_bound_of_continuousOn (s := Set.Icc x0 x1) M.slopeCont.continuousOn
  have H : ThwaitesExact o' m u du F x0 x1 stepper root p r := ⟨run, by rw [ho]; exact hc, by rw [ho]; exact hf, by rw [ho]; exact hnu,
    fun t => (hq t).1, fun t => (hq t).2.1, M.slope, fun x hx => by linarith [(M.bounds h (hR x hx)).1 0 hpos],
    ⟨D, fun x hx => (le_abs_self _).trans (hD x hx)⟩, ode, start, steps⟩
  have hacc : ∀ x ∈ Set.Icc x0 x1, 0 ≤ du x := fun x hx => (M.bounds h (hR x hx)).2.2.1 hinc
  obtain ⟨cs0, hcs0⟩ := table_splines_exist
  rcases hm with rfl | rfl | ⟨cs, hcs, rfl⟩
  · exact (attached_when_accelerated_partial hcs0).2.1 o' u du F x0 x1 stepper root p r H hab hacc
  · exact (attached_when_accelerated_partial hcs0).2.2 o' u du F x0 x1 stepper root p r H hab hacc
  · exact (attached_when_accelerated_partial hcs).1 o' u du F x0 x1 stepper root p r H hab hacc

/-- Non-vacuity: the table (0, 1), (1, 2) and one step along the solution of `table_thwaites_determined`. -/
example : ∃ (ext : Ext ℝ) (other : Pchip ℝ) (o o' : Obj ℝ) (pts : List (ℝ × ℝ)) (stepper : Stepper ℝ) (root : RootFinder ℝ)
    (p : IvpProblem ℝ) (r : IntegrationResult ℝ) (F : ℝ → ℝ), ext.pchip = Pchip.interpolator other ∧ Table pts ∧ (∀ p ∈ pts, 0 ≤ p.2) ∧
    (pts.IsChain fun p q => p.2 ≤ q.2) ∧ o.setVelocity ext (tableArg pts) .none .none = (o', .ok ()) ∧ 0 < o.nu ∧ o.cls = .thwaitesLinear ∧
    o.fits = some Fits.white ∧ firstX pts ≤ 0 ∧ 1 ≤ lastX pts ∧ SepRun o' (.sepThwaites Fits.white) 0 1 stepper root p r ∧
    (∀ x ∈ Set.Icc 0 1, SatisfiesOde o' F x) ∧ (p.y0 = [F 0] ∧ 0 < F 0) ∧ (stepper p).steps ≠ [] ∧
    ∀ s ∈ (stepper p).steps, s.t ∈ Set.Icc 0 1 ∧ s.y = [F s.t] := by
  let ext : Ext ℝ := ⟨Pchip.interpolator fun _ _ => .error .valueError, fun _ _ => ⟨id, id⟩⟩
  let o : Obj ℝ := ⟨.thwaitesLinear, 1, .empty, .manual 0 1 1 1 1, [.sepThwaites Fits.white], none, some Fits.white⟩
  have ht : Table [((0:ℝ), (1:ℝ)), (1, 2)] := ⟨by simp, by simp⟩
  have hpos : ∀ p ∈ [((0:ℝ), (1:ℝ)), (1, 2)], 0 ≤ p.2 := by simp
  have hf : firstX [(0, 1), (1, 2)] = 0 := by simp [firstX]
  have hl : lastX [(0, 1), (1, 2)] = 1 := by simp [lastX]
  obtain ⟨o', u, du, d2u, e, ho, hq, M⟩ := table_velocity ext _ rfl o _ ht .none .none
  obtain ⟨F, hF0, hF, -⟩ := table_thwaites_determined ext _ rfl o o' _ .none .none Fits.white ht hpos e one_pos rfl (.inl rfl) 0 1 1
    hf.le zero_le_one hl.ge one_pos
  have hprep : ∃ o'' p, o'.prepare 0 1 .none = (o'', .ok p) ∧ p.y0 = [1] ∧ p.x0 = 0 ∧ p.events = [.sepThwaites Fits.white] := by
    have hd := (hq 0).2.1
    revert hd
    rw [ho]
    generalize o'.vel = v
    intro hd
    simp [o, Obj.prepare, IC.setNu, hd, IC.setDu, Obj.startVector, IC.deltaM, pyDiv, bind, Except.bind, pure, Except.pure, TermArg.toList]
    norm_num
    exact ⟨_, _, ⟨rfl, rfl⟩, rfl, rfl, rfl⟩
  have hval : ∀ x y, o'.eventValue (.sepThwaites Fits.white) x [y] = .ok (Fits.white.shearAt (y * du x)) := fun x y =>
    (separation_event_value o' Fits.white x y (du x) (hq x).2.1).1
  obtain ⟨root, -, htot⟩ := bracketRoot_exists
  obtain ⟨o'', p, hp, hy, hx, he⟩ := hprep
  obtain ⟨r, hr⟩ := solve_total o'.eventValue (SepWit.one fun t => [F t]) root hp htot
    (by rw [he, hy, hx]; intro e h; simp only [List.mem_singleton] at h; subst h; exact ⟨_, hval 0 _⟩)
    (by
      rw [he]; intro s hs e h
      simp only [SepWit.one, List.mem_singleton] at h hs
      subst h; subst hs; exact ⟨_, hval 1 _⟩)
    (by intro x h; cases h)
  refine ⟨ext, _, o, o', _, SepWit.one fun t => [F t], root, p, r, F, rfl, ht, hpos, by simp, e, one_pos, rfl, rfl, hf.le, hl.ge, ?_,
    fun x hx => (hF x hx).1, ⟨by rw [hy, hF0], by rw [hF0]; exact one_pos⟩, by simp [SepWit.one], fun s hs => ?_⟩
  · refine ⟨by rw [ho], rfl, by rw [hp], hr, ?_⟩
    intro s hs
    simp only [SepWit.one, List.mem_singleton] at hs
    subst hs; exact ⟨_, hval 1 _⟩
  · simp only [SepWit.one, List.mem_singleton] at hs
    subst hs
    exact ⟨⟨zero_le_one, le_refl _⟩, rfl⟩

/-- **C99** for Head's method: tabulated velocities of at least 0.001, nowhere decreasing, and Reynolds numbers of at least 1. -/
theorem table_head_attached (ext : Ext ℝ) (other : Pchip ℝ) (hext : ext.pchip = Pchip.interpolator other) (o o' : Obj ℝ)
    (pts : List (ℝ × ℝ)) (y z : Arg ℝ) (h : Table pts) (hpos : ∀ p ∈ pts, 1/1000 ≤ p.2) (hinc : pts.IsChain fun p q => p.2 ≤ q.2)
    (hs : o.setVelocity ext (tableArg pts) y z = (o', .ok ())) (hnu : 0 < o.nu) (hc : o.cls = .head) (crit x0 x1 : ℝ) (ha : firstX pts ≤ x0)
    (hab : x0 ≤ x1) (hb : x1 ≤ lastX pts) (stepper : Stepper ℝ) (root : RootFinder ℝ) (p : IvpProblem ℝ) (r : IntegrationResult ℝ)
    (run : SepRun o' (.sepHead crit) x0 x1 stepper root p r) (dm hd : ℝ → ℝ) (hdm : ContinuousOn dm (Set.Icc x0 x1))
    (hhd : ContinuousOn hd (Set.Icc x0 x1))
    (ode : ∃ S : Set ℝ, S.Finite ∧ ∀ x ∈ Set.Icc x0 x1, x ∉ S → HeadOde { o' with sol := some fun t => [dm t, hd t] } dm hd x)
    (hre : ∀ x ∈ Set.Icc x0 x1, ∀ u, o'.vel.uE x = .ok u → 1 ≤ u * dm x / o.nu) (start : p.y0 = [dm x0, hd x0] ∧ 0 < dm x0)
    (steps : ∀ s ∈ (stepper p).steps, s.t ∈ Set.Icc x0 x1 ∧ s.y = [dm s.t, hd s.t]) (hcrit : max (hd x0) 2 < crit) :
    r.status ≠ .separated := by
  obtain ⟨o'', u, du, d2u, e, ho, hq, M⟩ := table_velocity ext other hext o pts h y z
  rw [hs] at e
  obtain rfl : o' = o'' := (Prod.mk.inj e).1
  have hR : ∀ x ∈ Set.Icc x0 x1, x ∈ Set.Icc (firstX pts) (lastX pts) := fun x hx => ⟨ha.trans hx.1, hx.2.trans hb⟩
  obtain ⟨D, hD⟩ := isCompact_Icc.exists_bound_of_continuousOn (s := Set.Icc x0 x1) M.slopeCont.continuousOn
  have hnu' : o'.nu = o.nu := by rw [ho]
  refine head_attached_when_accelerated o' crit x0 x1 D u du dm hd stepper root p r run hab
    ⟨by show o'.cls = _; rw [ho]; exact hc, rfl, fun t => (hq t).1, fun t => (hq t).2.1, fun x _ => M.slope x, hdm, hhd, ode⟩
    (by rw [hnu']; exact hnu) start.2 (fun x hx => (M.bounds h (hR x hx)).1 _ hpos) (fun x hx => (M.bounds h (hR x hx)).2.2.1 hinc)
    (fun x hx => (le_abs_self _).trans (hD x hx)) (fun x hx => ?_) start.1 steps hcrit
  rw [hnu']
  exact hre x hx _ (hq x).1

end IBL
