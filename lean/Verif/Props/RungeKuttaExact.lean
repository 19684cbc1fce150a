import Verif.Lemmas.RungeKuttaLine
import Verif.Props.FlatPlate
import Verif.Props.RungeKutta

/-!
C129: `solve` with scipy's RK45 and the queries after it, from start to end, in the two flows in which the exact solution of Thwaites'
equation is a straight line.
-/

namespace IBL
open SolveIvp RungeKutta Fits

/-! ### `solve` on a straight line -/

private theorem no_roots (root : RootFinder ℝ) (tOld : ℝ) (s : Step ℝ) : ∀ (i : ℕ) (evs : List (EvFn ℝ)) (g h : List ℝ),
    (∀ v ∈ g, 0 < v) → (∀ v ∈ h, 0 < v) → activeRoots root tOld s i evs g h = .ok []
  | _, [], _, _, _, _ => by unfold activeRoots; rfl
  | _, _ :: _, [], _, _, _ => by unfold activeRoots; rfl
  | _, _ :: _, _ :: _, [], _, _ => by unfold activeRoots; rfl
  | i, e :: evs, g :: gs, h :: hs, hg, hh => by
    unfold activeRoots
    have h1 := hg g (by simp)
    have h2 := hh h (by simp)
    have : changes g h = false := by
      rw [Bool.eq_false_iff, Ne, changes_real]
      rintro (h' | h') <;> linarith [h'.1, h'.2]
    rw [this, if_neg (by simp)]
    exact no_roots root tOld s (i + 1) evs gs hs (fun v hv => hg v (by simp [hv])) fun v hv => hh v (by simp [hv])

private theorem all_positive {evs : List (EvFn ℝ)} {t : ℝ} {y : List ℝ} (h : ∀ e ∈ evs, ∃ v, e t y = .ok v ∧ 0 < v) :
    ∃ g, evalAll evs t y = .ok g ∧ ∀ v ∈ g, 0 < v := by
  induction evs with
  | nil => exact ⟨[], rfl, by simp⟩
  | cons e evs ih =>
    obtain ⟨v, h1, h2⟩ := h e (by simp)
    obtain ⟨g, h3, h4⟩ := ih fun e he => h e (by simp [he])
    exact ⟨v :: g, by simp only [evalAll, h1, h3], by simpa using ⟨h2, h4⟩⟩

private theorem loop_quiet (root : RootFinder ℝ) (evs : List (EvFn ℝ)) : ∀ (steps : List (Step ℝ)) (t : ℝ) (g : List ℝ), (∀ v ∈ g, 0 < v) →
    (∀ s ∈ steps, ∀ e ∈ evs, ∃ v, e s.t s.y = .ok v ∧ 0 < v) → loop root evs t g steps = .ok (steps, none)
  | [], _, _, _, _ => rfl
  | s :: steps, t, g, hg, hs => by
    obtain ⟨g', h1, h2⟩ := all_positive (hs s (by simp))
    rw [loop, h1]
    simp only [no_roots root t s 0 evs g g' hg h2, earliest]
    rw [loop_quiet root evs steps s.t g' h2 fun s' hs' => hs s' (by simp [hs'])]

private theorem dense_line {x0 : ℝ} {y0 c : List ℝ} (b : Bool) (t : ℝ) : ∀ (l : List (Step ℝ)), l ≠ [] →
    (∀ st ∈ l, ∀ t, st.dense t = line x0 y0 c t) → denseAt b l t = line x0 y0 c t
  | [], h, _ => absurd rfl h
  | [s], _, h => h s (by simp) t
  | s :: s' :: l, _, h => by
    rw [denseAt]
    simp only [h s (by simp) t, dense_line b t (s' :: l) (by simp) fun st hst => h st (by simp [hst])]
    split_ifs <;> rfl

private theorem last_of_getLast? {α : Type} (x : α) {l : List (Step α)} {st : Step α} (h : l.getLast? = some st) :
    (x :: l.map Step.t).getLast? = some st.t := by
  cases l with
  | nil => cases h
  | cons s l =>
    rw [List.map_cons, List.getLast?_cons_cons, ← List.map_cons, List.getLast?_map, h]; rfl

/-- `solve` with RK45 on a straight line along which all events stay positive reaches the end and stores the line. -/
theorem solve_line {o o' : Obj ℝ} {x0 x1 : ℝ} {te : TermArg ℝ} {p : IvpProblem ℝ} {c : List ℝ} (hp : o.prepare x0 x1 te = (o', .ok p))
    (S : Straight p c) (hev : ∀ e ∈ p.events, ∀ t ∈ Set.Icc p.x0 p.x1, ∃ v, o.eventValue e t (line p.x0 p.y0 c t) = .ok v ∧ 0 < v)
    {gap : ℝ → ℝ → ℝ} {m : ℝ} (hg : Spaced gap m) {stepper : Stepper ℝ} (hst : ∀ p, Runs gap p (stepper p)) (root : RootFinder ℝ) :
    ∃ r sol, o.solve x0 x1 te (ivp o.eventValue stepper root) = ({ o' with sol := some sol }, .ok r) ∧ r.success = true ∧
      r.status = .reachedEnd ∧ r.xEnd = p.x1 ∧ r.fEnd = line p.x0 p.y0 c p.x1 ∧ ∀ t, sol t = line p.x0 p.y0 c t := by
  obtain ⟨h1, h2, h3⟩ := runs_line S hg (hst p)
  obtain ⟨-, -, h4, -⟩ := rk45_steps hg (hst p) S.forward S.ne
  obtain ⟨st, h5, h6⟩ := h4.1 h1
  obtain ⟨g, hg1, hg2⟩ := all_positive (evs := p.events.map o.eventValue) (t := p.x0) (y := p.y0) (by
    intro e he
    obtain ⟨e0, h0, rfl⟩ := List.mem_map.1 he
    have := hev e0 h0 p.x0 ⟨le_refl _, S.forward.le⟩
    rwa [line_start S.size] at this)
  have hl := loop_quiet root (p.events.map o.eventValue) (stepper p).steps p.x0 g hg2 (by
    intro s hs e he
    obtain ⟨e0, h0, rfl⟩ := List.mem_map.1 he
    obtain ⟨s1, s2, -⟩ := h3 s hs
    rw [s2]
    exact hev e0 h0 s.t ⟨s1.1.le, s1.2⟩)
  have hd : ∀ b t, denseAt b (stepper p).steps t = line p.x0 p.y0 c t := fun b t => dense_line b t _ h2 fun st hst => (h3 st hst).2.2
  refine ⟨⟨p.x1, line p.x0 p.y0 c p.x1, .reachedEnd, composeMessage .reachedEnd "", true⟩,
    denseAt (ascending p.x0 ((stepper p).steps.map Step.t)) (stepper p).steps, ?_, rfl, rfl, rfl, rfl, hd _⟩
  unfold Obj.solve
  rw [hp]
  simp only [ivp, hg1, hl, h1, evalResult, if_true, last_of_getLast? p.x0 h5, h6, hd]

/-! ### C129 -/

private theorem cls_cases' {c : Cls} (h : c.isThwaites = true) : c = .thwaitesLinear ∨ c = .thwaitesNonlinear := by
  cases c <;> simp_all [Cls.isThwaites]

theorem prepare_thwaites {o : Obj ℝ} {x0 x1 d a b c e d0 : ℝ} (hc : o.cls.isThwaites = true) (hnu : 0 < o.nu)
    (hdu : o.vel.duE x0 = .ok d) (hic : o.ic = .manual a b c d0 e) :
    ∃ o', o.prepare x0 x1 .none = (o', .ok ⟨o'.rhs, x0, x1, [d0 * d0 / o.nu], 1/100000000, 1/100000000000, o.events⟩) ∧ o'.cls = o.cls ∧
      o'.nu = o.nu ∧ o'.vel = o.vel ∧ o'.fits = o.fits ∧ o'.events = o.events ∧ o'.ic.deltaM = .ok d0 := by
  rcases cls_cases' hc with h | h <;>
  · refine ⟨{ o with ic := .manual d o.nu c d0 e }, ?_, rfl, rfl, rfl, rfl, rfl, rfl⟩
    simp [Obj.prepare, hic, IC.setNu, hdu, IC.setDu, Obj.startVector, h, IC.deltaM, pyDiv, hnu.ne', not_le.2 hnu, TermArg.toList, bind,
      Except.bind, pure, Except.pure]

private theorem queries' {o : Obj ℝ} {m : Fits ℝ} {F u d : ℝ} {sol : ℝ → List ℝ} (hc : o.cls.isThwaites = true) (hf : o.fits = some m) {x : ℝ}
    (hsol : o.sol = some sol) (hx : sol x = [F]) (hu : o.vel.uE x = .ok u) (hd : o.vel.duE x = .ok d) :
    o.deltaM x = .ok (Real.sqrt (F * o.nu)) ∧ o.shapeD x = .ok (m.shapeAt (F * d)) ∧
    ∀ rho, o.tauWThwaites x rho = .ok (rho * o.nu * u * m.shearAt (F * d) / Real.sqrt (F * o.nu)) := by
  have hc' : o.comp 0 x = .ok F := by simp [Obj.comp, Obj.state, hsol, hx, bind, Except.bind, pure, Except.pure]
  have hl : o.calcLambda x F = .ok (F * d) := by simp [Obj.calcLambda, hd, bind, Except.bind, pure, Except.pure]
  have h1 : o.deltaM x = .ok (Real.sqrt (F * o.nu)) := by
    rcases cls_cases' hc with h | h <;> simp [Obj.deltaM, h, hc', bind, Except.bind, pure, Except.pure]
  refine ⟨h1, ?_, fun rho => by simp [Obj.tauWThwaites, hc', hl, hu, hf, h1, bind, Except.bind, pure, Except.pure]⟩
  rcases cls_cases' hc with h | h <;> simp [Obj.shapeD, h, hc', hl, hf, bind, Except.bind, pure, Except.pure]

/-- **C129**, flat plate: in a flow of constant velocity `U > -0.001`, from any start thickness `d0`, with any fits that have a positive wall
shear at `lambda = 0`, `solve` with RK45 reaches the end of the interval without exception, and from the start on (also beyond the end) the
reported thickness, shape factor and wall shear are exactly those of the solution of Thwaites' equation. -/
theorem rk45_flat_plate {o : Obj ℝ} {m : Fits ℝ} {x0 x1 U d0 a b c e : ℝ} (hc : o.cls.isThwaites = true) (hf : o.fits = some m)
    (he : o.events = [.sepThwaites m]) (hnu : 0 < o.nu) (hu : ∀ t, o.vel.uE t = .ok U) (hdu : ∀ t, o.vel.duE t = .ok 0)
    (hU : -(1/1000) < U) (hs : 0 < m.shearAt 0) (hic : o.ic = .manual a b c d0 e) (hx : x0 < x1)
    {gap : ℝ → ℝ → ℝ} {g : ℝ} (hg : Spaced gap g) {stepper : Stepper ℝ} (hst : ∀ p, Runs gap p (stepper p)) (root : RootFinder ℝ) :
    ∃ o' r, o.solve x0 x1 .none (ivp o.eventValue stepper root) = (o', .ok r) ∧ r.success = true ∧ r.status = .reachedEnd ∧ r.xEnd = x1 ∧
      ∀ x, x0 ≤ x → ∃ d, o'.deltaM x = .ok d ∧ 0 ≤ d ∧
        d ^ 2 = d0 ^ 2 + flatGrowth o.cls (m.shearAt 0) * o.nu * (x - x0) / (U + 1/1000) ∧ o'.shapeD x = .ok (m.shapeAt 0) ∧
        ∀ rho, o'.tauWThwaites x rho = .ok (rho * o.nu * U * m.shearAt 0 / d) := by
  obtain ⟨o', hp, q1, q2, q3, q4, q5⟩ := prepare_thwaites (x1 := x1) hc hnu (hdu x0) hic
  set p : IvpProblem ℝ := ⟨o'.rhs, x0, x1, [d0 * d0 / o.nu], 1/100000000, 1/100000000000, o.events⟩ with hpd
  have hw : 0 < U + 1/1000 := by linarith
  have hc0 : 0 ≤ flatGrowth o.cls (m.shearAt 0) := by unfold flatGrowth; split_ifs <;> linarith
  generalize hk : flatGrowth o.cls (m.shearAt 0) / (U + 1/1000) = k
  have hk0 : 0 ≤ k := by rw [← hk]; exact div_nonneg hc0 hw.le
  have hrhs : ∀ t F, o'.rhs t [F] = .ok [k] := fun t F => by
    rcases cls_cases' hc with h | h
    · rw [← hk, flatGrowth, if_pos h]
      simp [Obj.rhs, q1, h, Obj.thwaitesRhs, Obj.calcF, Obj.calcLambda, q3, hu, hdu, bind, Except.bind, pure, Except.pure, add_comm U]
    · rw [← hk, flatGrowth, if_neg (by rw [h]; decide)]
      simp [Obj.rhs, q1, h, Obj.thwaitesRhs, Obj.calcF, Obj.calcLambda, q3, q4, hf, hu, hdu, bind, Except.bind, pure, Except.pure, add_comm U,
        fAt]
  have hline : ∀ t, line p.x0 p.y0 [k] t = [d0 * d0 / o.nu + (t - x0) * k] := fun t => rfl
  have S : Straight p [k] := ⟨hx, by simp [hpd], rfl, fun t _ => by rw [hline]; exact hrhs t _, by simp [hpd]⟩
  obtain ⟨r, sol, h1, h2, h3, h4, -, h6⟩ := solve_line hp S (fun e' he' t _ => by
    rw [show p.events = o.events from rfl, he, List.mem_singleton] at he'
    subst he'
    refine ⟨_, by rw [hline]; exact (separation_event_value o m t _ 0 (hdu t)).1, by simpa using hs⟩) hg hst root
  refine ⟨_, r, h1, h2, h3, h4, fun x hx0 => ?_⟩
  obtain ⟨k1, k2, k3⟩ := queries' (o := { o' with sol := some sol }) (m := m) (x := x) (F := d0 * d0 / o.nu + (x - x0) * k) (u := U) (d := 0)
    (by rw [← hc, ← q1]) (by rw [← hf, ← q4]) rfl (by rw [h6, hline]) (by rw [← hu x, ← q3]) (by rw [← hdu x, ← q3])
  rw [show ({ o' with sol := some sol } : Obj ℝ).nu = o.nu from q2, mul_zero] at *
  have hF : 0 ≤ d0 * d0 / o.nu + (x - x0) * k :=
    add_nonneg (div_nonneg (mul_self_nonneg _) hnu.le) (mul_nonneg (by linarith) hk0)
  refine ⟨_, k1, Real.sqrt_nonneg _, ?_, k2, k3⟩
  rw [Real.sq_sqrt (mul_nonneg hF hnu.le), ← hk]
  field_simp

/-- **C129**, stagnation flow: in a flow whose velocity gradient is `k > 0` everywhere, started with Thwaites' own stagnation point thickness
`sqrt(0.075 nu / k)`, `solve` of the linear method with RK45 reaches the end, and the thickness it reports is that value everywhere. -/
theorem rk45_stagnation {o : Obj ℝ} {m : Fits ℝ} {u : ℝ → ℝ} {x0 x1 k d0 a b c e : ℝ} (hc : o.cls = .thwaitesLinear) (hf : o.fits = some m)
    (he : o.events = [.sepThwaites m]) (hnu : 0 < o.nu) (hu : ∀ t, o.vel.uE t = .ok (u t)) (hdu : ∀ t, o.vel.duE t = .ok k) (hk : 0 < k)
    (hd0 : 0 ≤ d0 ∧ d0 ^ 2 = 75/1000 * o.nu / k) (hs : 0 < m.shearAt (75/1000)) (hic : o.ic = .manual a b c d0 e) (hx : x0 < x1)
    {gap : ℝ → ℝ → ℝ} {g : ℝ} (hg : Spaced gap g) {stepper : Stepper ℝ} (hst : ∀ p, Runs gap p (stepper p)) (root : RootFinder ℝ) :
    ∃ o' r, o.solve x0 x1 .none (ivp o.eventValue stepper root) = (o', .ok r) ∧ r.success = true ∧ r.status = .reachedEnd ∧ r.xEnd = x1 ∧
      ∀ x, o'.deltaM x = .ok d0 ∧ o'.shapeD x = .ok (m.shapeAt (75/1000)) ∧
        ∀ rho, o'.tauWThwaites x rho = .ok (rho * o.nu * u x * m.shearAt (75/1000) / d0) := by
  have hct : o.cls.isThwaites = true := by rw [hc]; rfl
  obtain ⟨o', hp, q1, q2, q3, q4, q5⟩ := prepare_thwaites (x1 := x1) hct hnu (hdu x0) hic
  set p : IvpProblem ℝ := ⟨o'.rhs, x0, x1, [d0 * d0 / o.nu], 1/100000000, 1/100000000000, o.events⟩ with hpd
  have hlam : d0 * d0 / o.nu * k = 75/1000 := by
    rw [← sq, hd0.2]; field_simp
  have hline : ∀ t, line p.x0 p.y0 [0] t = [d0 * d0 / o.nu] := fun t => by
    show [d0 * d0 / o.nu + (t - x0) * 0] = _
    rw [mul_zero, add_zero]
  have hrhs : ∀ t, o'.rhs t [d0 * d0 / o.nu] = .ok [0] := fun t => by
    simp only [Obj.rhs, q1, hc, Obj.thwaitesRhs, Obj.calcF, Obj.calcLambda, q3, hu, hdu, bind, Except.bind, pure, Except.pure, hlam, real_lit]
    norm_num
  have S : Straight p [0] := ⟨hx, by simp [hpd], rfl, fun t _ => by rw [hline]; exact hrhs t, by simp [hpd]⟩
  obtain ⟨r, sol, h1, h2, h3, h4, -, h6⟩ := solve_line hp S (fun e' he' t _ => by
    rw [show p.events = o.events from rfl, he, List.mem_singleton] at he'
    subst he'
    refine ⟨_, by rw [hline]; exact (separation_event_value o m t _ k (hdu t)).1, by rw [hlam]; exact hs⟩) hg hst root
  refine ⟨_, r, h1, h2, h3, h4, fun x => ?_⟩
  obtain ⟨k1, k2, k3⟩ := queries' (o := { o' with sol := some sol }) (m := m) (x := x) (F := d0 * d0 / o.nu) (u := u x) (d := k)
    (by rw [← hct, ← q1]) (by rw [← hf, ← q4]) rfl (by rw [h6, hline]) (by rw [← hu x, ← q3]) (by rw [← hdu x, ← q3])
  rw [hlam] at k2 k3
  have hsq : Real.sqrt (d0 * d0 / o.nu * ({ o' with sol := some sol } : Obj ℝ).nu) = d0 := by
    rw [show ({ o' with sol := some sol } : Obj ℝ).nu = o.nu from q2, div_mul_cancel₀ _ hnu.ne', Real.sqrt_mul_self hd0.1]
  rw [hsq] at k1 k3
  exact ⟨k1, k2, fun rho => by rw [← q2]; exact k3 rho⟩

/-- The hypotheses are met: RK45 exists for numbers spaced as doubles are; a plate in unit flow with Drela's fits, and stagnation flow
`u_e = x` with viscosity 3 and start thickness 0.474... -/
theorem rk45_exact_cases : (∃ stepper : Stepper ℝ, ∀ p, Runs (fun _ _ => 2⁻¹ ^ 1074) p (stepper p)) ∧
    (let o : Obj ℝ := ⟨.thwaitesNonlinear, 1, ⟨some (.fn fun _ => .ok 1), some (.fn fun _ => .ok 0), none⟩, .manual 0 1 0 (1/10) 0,
        [.sepThwaites Fits.drela], none, some Fits.drela⟩;
      (∀ t, o.vel.uE t = .ok 1) ∧ (∀ t, o.vel.duE t = .ok 0) ∧ 0 < (Fits.drela : Fits ℝ).shearAt 0) ∧
    (let o : Obj ℝ := ⟨.thwaitesLinear, 3, ⟨some (.fn fun x => .ok x), some (.fn fun _ => .ok 1), none⟩,
        .manual 0 1 0 (Real.sqrt (225/1000)) 0, [.sepThwaites Fits.white], none, some Fits.white⟩;
      (∀ t, o.vel.uE t = .ok t) ∧ (∀ t, o.vel.duE t = .ok 1) ∧ Real.sqrt (225/1000) ^ 2 = 75/1000 * o.nu / 1 ∧
      0 < (Fits.white : Fits ℝ).shearAt (75/1000)) := by
  obtain ⟨cs, hcs⟩ := table_splines_exist
  refine ⟨?_, ⟨fun t => ?_, fun t => ?_, ?_⟩, ⟨fun t => ?_, fun t => ?_, ?_, ?_⟩⟩
  · choose stepper hst using fun p => runs_end rk45_example.1 p
    exact ⟨stepper, fun p => (hst p).1⟩
  · simp [VelState.uE, VelState.rawU, callOpt, Vel.call]
  · simp [VelState.duE, VelState.rawDu, callOpt, Vel.call]
  · rw [((flat_plate_values hcs).1 drela (by simp)).1]; norm_num
  · simp [VelState.uE, VelState.rawU, callOpt, Vel.call]
  · simp [VelState.duE, VelState.rawDu, callOpt, Vel.call]
  · rw [Real.sq_sqrt (by norm_num)]; norm_num
  · rw [shearAt, white_clip, max_eq_left (by norm_num)]
    simp only [Fits.white, real_pow, real_lit]
    exact Real.rpow_pos_of_pos (by norm_num) _

/-! ### C130: an empty interval -/

private theorem no_change {v : ℝ} (hv : v ≠ 0) : changes v v = false := by
  rw [Bool.eq_false_iff, Ne, changes_real]
  rintro (h' | h')
  · exact hv (le_antisymm h'.1 h'.2)
  · exact hv (le_antisymm h'.2 h'.1)

private theorem no_roots_same (root : RootFinder ℝ) (tOld : ℝ) (s : Step ℝ) : ∀ (i : ℕ) (evs : List (EvFn ℝ)) (g : List ℝ),
    (∀ v ∈ g, v ≠ 0) → activeRoots root tOld s i evs g g = .ok []
  | _, [], _, _ => by unfold activeRoots; rfl
  | _, _ :: _, [], _ => by unfold activeRoots; rfl
  | i, e :: evs, g :: gs, hg => by
    unfold activeRoots
    rw [no_change (hg g (by simp)), if_neg (by simp)]
    exact no_roots_same root tOld s (i + 1) evs gs fun v hv => hg v (by simp [hv])

private theorem all_nonzero {evs : List (EvFn ℝ)} {t : ℝ} {y : List ℝ} (h : ∀ e ∈ evs, ∃ v, e t y = .ok v ∧ v ≠ 0) :
    ∃ g, evalAll evs t y = .ok g ∧ ∀ v ∈ g, v ≠ 0 := by
  induction evs with
  | nil => exact ⟨[], rfl, by simp⟩
  | cons e evs ih =>
    obtain ⟨v, h1, h2⟩ := h e (by simp)
    obtain ⟨g, h3, h4⟩ := ih fun e he => h e (by simp [he])
    exact ⟨v :: g, by simp only [evalAll, h1, h3], by simpa using ⟨h2, h4⟩⟩

/-- **C130**: `solve(x0, x0)` succeeds with the state of the initial condition at `x0`, and stores it as the solution for every position,
provided the right hand side can be evaluated at the start and no event is exactly zero there. -/
theorem rk45_empty_interval {o o' : Obj ℝ} {x0 : ℝ} {te : TermArg ℝ} {p : IvpProblem ℝ} (hp : o.prepare x0 x0 te = (o', .ok p)) {f : List ℝ}
    (hf : p.rhs x0 p.y0 = .ok f) (hl : f.length = p.y0.length) (hev : ∀ e ∈ p.events, ∃ v, o.eventValue e x0 p.y0 = .ok v ∧ v ≠ 0)
    {gap : ℝ → ℝ → ℝ} {stepper : Stepper ℝ} (hst : ∀ p, Runs gap p (stepper p)) (root : RootFinder ℝ) :
    ∃ r, o.solve x0 x0 te (ivp o.eventValue stepper root) = ({ o' with sol := some fun _ => p.y0 }, .ok r) ∧ r.success = true ∧
      r.status = .reachedEnd ∧ r.xEnd = x0 ∧ r.fEnd = p.y0 := by
  obtain ⟨px0, px1, hat⟩ : p.x0 = x0 ∧ p.x1 = x0 ∧ p.atol = 1/100000000000 := by
    unfold Obj.prepare at hp
    split at hp
    · cases hp
    · simp only at hp
      split at hp
      · cases hp
      · split at hp
        · cases hp
        · cases hp; exact ⟨rfl, rfl, by simp⟩
  have hstart : start p = .ok ⟨p.x0, p.y0, f, 0⟩ := by
    have h1 : (p.y0.all Pchip.isFinite) = true := by simp [Pchip.isFinite]
    have h2 : PyCmp.lt p.atol (lit 0) = false := by rw [hat]; simp [PyCmp.lt]
    have h3 : call p.rhs p.y0.length p.x0 p.y0 = .ok f := by unfold call; rw [px0, hf]; simp [hl]
    have h4 : initialStep p f = .ok 0 := by unfold initialStep; rw [px0, px1]; simp [PyCmp.eq]
    unfold start
    simp only [h1, h2, h3, h4, Bool.not_true, Bool.false_eq_true, if_false]
  have hrun : stepper p = ⟨[⟨x0, p.y0, fun _ => p.y0⟩], .reached⟩ := by
    refine runs_unique (hst p) (.run hstart ?_)
    have := Steps.trivial (gap := gap) (p := p) (s := ⟨p.x0, p.y0, f, 0⟩) (.inr (by simp [px0, px1]))
    rwa [px1] at this
  obtain ⟨g, hg1, hg2⟩ := all_nonzero (evs := p.events.map o.eventValue) (t := x0) (y := p.y0) (by
    intro e he
    obtain ⟨e0, h0, rfl⟩ := List.mem_map.1 he
    exact hev e0 h0)
  refine ⟨⟨x0, p.y0, .reachedEnd, composeMessage .reachedEnd "", true⟩, ?_, rfl, rfl, rfl, rfl⟩
  unfold Obj.solve
  rw [hp]
  simp only [ivp, px0, hg1, hrun, loop, no_roots_same root x0 _ 0 _ g hg2, earliest, evalResult, if_true, List.map_cons, List.map_nil,
    List.getLast?_cons_cons, List.getLast?_singleton, denseAt]

/-- The hypotheses are met by the decelerated flow of `SeparationExamples`. -/
theorem rk45_empty_case : ∃ o' p f, SepWit.thw.prepare 0 0 .none = (o', .ok p) ∧ p.rhs 0 p.y0 = .ok f ∧ f.length = p.y0.length ∧
    ∀ e ∈ p.events, ∃ v, SepWit.thw.eventValue e 0 p.y0 = .ok v ∧ v ≠ 0 := by
  obtain ⟨o', hp, q1, q2, q3, q4, q5⟩ := prepare_thwaites (o := SepWit.thw) (x0 := 0) (x1 := 0) (d := -1) rfl one_pos
    (by simp [SepWit.thw, VelState.duE, VelState.rawDu, callOpt, Vel.call]) rfl
  have hu : SepWit.thw.vel.uE 0 = .ok 1 := by simp [SepWit.thw, VelState.uE, VelState.rawU, callOpt, Vel.call]
  have hd : SepWit.thw.vel.duE 0 = .ok (-1) := by simp [SepWit.thw, VelState.duE, VelState.rawDu, callOpt, Vel.call]
  have hc : SepWit.thw.cls = .thwaitesLinear := rfl
  refine ⟨o', _, [(lit (45 / 100) - lit 6 * (1 / 5 * (1 / 5) / SepWit.thw.nu * -1)) / (lit (1 / 1000) + 1)], hp, by
      simp only [Obj.rhs, q1, hc, Obj.thwaitesRhs, Obj.calcF, Obj.calcLambda, q3, hu, hd, bind, Except.bind, pure,
        Except.pure], rfl, ?_⟩
  intro e he
  rw [show SepWit.thw.events = [.sepThwaites Fits.white] from rfl, List.mem_singleton] at he
  subst he
  refine ⟨_, SepWit.thw_value 0 _, ?_⟩
  have : (Fits.white : Fits ℝ).shearAt (1/5 * (1/5) / 1 * (-1)) = (5/100 : ℝ) ^ (62/100 : ℝ) := by
    rw [shearAt, white_clip, max_eq_left (by norm_num)]
    simp only [Fits.white, real_pow, real_lit]
    norm_num
  show (Fits.white : Fits ℝ).shearAt (1/5 * (1/5) / 1 * (-1)) ≠ 0
  rw [this]
  exact (Real.rpow_pos_of_pos (by norm_num) _).ne'

end IBL
