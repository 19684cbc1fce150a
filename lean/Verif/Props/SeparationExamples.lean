import Verif.Props.Separation

/-! Witnesses for C64-C68: concrete runs for which the hypotheses of `Props/Separation.lean` hold and the stated claims fail. -/

namespace IBL
open SolveIvp Fits
set_option linter.unusedSectionVars false

namespace SepWit

/-- A Thwaites object in a flow decelerating at unit rate, with the White fits. -/
noncomputable def thw : Obj ℝ where
  cls := .thwaitesLinear
  nu := 1
  vel := ⟨some (.fn fun x => .ok (1 - x)), some (.fn fun _ => .ok (-1)), none⟩
  ic := .manual 0 1 0 (1/5) 0
  events := [.sepThwaites Fits.white]
  sol := none
  fits := some Fits.white

/-- A Head object with critical shape factor 2 and the given start value. -/
noncomputable def hd (h0 : ℝ) : Obj ℝ where
  cls := .head
  nu := 1
  vel := ⟨some (.fn fun x => .ok (1 - x)), some (.fn fun _ => .ok (-1)), none⟩
  ic := .manual 0 1 h0 1 0
  events := [.sepHead 2]
  sol := none
  fits := none

/-- An integrator that takes one step from 0 to 1 along `y`. -/
def one (y : ℝ → List ℝ) : Stepper ℝ := fun _ => ⟨[⟨1, y 1, y⟩], .reached⟩

theorem thw_prepare : ∃ o' p, thw.prepare 0 1 .none = (o', .ok p) ∧ p.y0 = [1/25] ∧ p.x0 = 0 ∧ p.events = [.sepThwaites Fits.white] := by
  simp [thw, Obj.prepare, IC.setNu, VelState.duE, VelState.rawDu, callOpt, Vel.call, IC.setDu, Obj.startVector, IC.deltaM, pyDiv, bind,
    Except.bind, pure, Except.pure, TermArg.toList]
  norm_num
  exact ⟨_, _, ⟨rfl, rfl⟩, rfl, rfl, rfl⟩

theorem hd_prepare (h0 : ℝ) : ∃ o' p, (hd h0).prepare 0 1 .none = (o', .ok p) ∧ p.y0 = [1, h0] ∧ p.x0 = 0 ∧ p.events = [.sepHead 2] := by
  simp [hd, Obj.prepare, IC.setNu, VelState.duE, VelState.rawDu, callOpt, Vel.call, IC.setDu, Obj.startVector, IC.deltaM, IC.shapeD, pyDiv, bind,
    Except.bind, pure, Except.pure, TermArg.toList]
  norm_num
  exact ⟨_, _, ⟨rfl, rfl⟩, rfl, rfl, rfl⟩

theorem thw_value (x F : ℝ) : thw.eventValue (.sepThwaites Fits.white) x [F] = .ok ((Fits.white : Fits ℝ).shearAt (F * (-1))) :=
  (separation_event_value thw Fits.white x F (-1) (by simp [thw, VelState.duE, VelState.rawDu, callOpt, Vel.call])).1

theorem hd_value (h0 x m h : ℝ) : (hd h0).eventValue (.sepHead 2) x [m, h] = .ok (2 - h) := rfl

/-- The run of `thw` in one step along `F`. -/
theorem thw_run (F : ℝ → ℝ) : ∃ root p r, BracketRoot root ∧ p.y0 = [1/25] ∧
    SepRun thw (.sepThwaites Fits.white) 0 1 (one fun t => [F t]) root p r := by
  obtain ⟨root, hb, ht⟩ := bracketRoot_exists
  obtain ⟨o', p, hp, hy, hx, he⟩ := thw_prepare
  obtain ⟨r, hr⟩ := solve_total thw.eventValue (one fun t => [F t]) root hp ht
    (by rw [he, hy, hx]; intro e h; simp only [List.mem_singleton] at h; subst h; exact ⟨_, thw_value 0 _⟩)
    (by
      rw [he]; intro s hs e h
      simp only [one, List.mem_singleton] at h hs
      subst h; subst hs; exact ⟨_, thw_value 1 _⟩)
    (by intro x h; cases h)
  refine ⟨root, p, r, hb, hy, rfl, rfl, by rw [hp], hr, ?_⟩
  intro s hs
  simp only [one, List.mem_singleton] at hs
  subst hs; exact ⟨_, thw_value 1 _⟩

/-- The run of `hd` in one step along `H`. -/
theorem hd_run (h0 : ℝ) (H : ℝ → ℝ) : ∃ root p r, BracketRoot root ∧ p.y0 = [1, h0] ∧
    SepRun (hd h0) (.sepHead 2) 0 1 (one fun t => [1, H t]) root p r := by
  obtain ⟨root, hb, ht⟩ := bracketRoot_exists
  obtain ⟨o', p, hp, hy, hx, he⟩ := hd_prepare h0
  obtain ⟨r, hr⟩ := solve_total (hd h0).eventValue (one fun t => [1, H t]) root hp ht
    (by rw [he, hy, hx]; intro e h; simp only [List.mem_singleton] at h; subst h; exact ⟨_, hd_value h0 0 _ _⟩)
    (by
      rw [he]; intro s hs e h
      simp only [one, List.mem_singleton] at h hs
      subst h; subst hs; exact ⟨_, hd_value h0 1 _ _⟩)
    (by intro x h; cases h)
  refine ⟨root, p, r, hb, hy, rfl, rfl, by rw [hp], hr, ?_⟩
  intro s hs
  simp only [one, List.mem_singleton] at hs
  subst hs; exact ⟨_, hd_value h0 1 _ _⟩

theorem one_consistent {y : ℝ → List ℝ} {y0 : List ℝ} (h : y 0 = y0) : Consistent (0, y0) (one y p).steps :=
  ⟨by simp, h, rfl, trivial⟩

end SepWit
open SepWit

/-- **C65** is false: a run with the White fits, from an attached start, whose reported separation point is not the first. Lambda passes -0.09
at x = 5/12, reported is x = 1. -/
theorem first_point_fails : ∃ (stepper : Stepper ℝ) (root : RootFinder ℝ) (p : IvpProblem ℝ) (r : IntegrationResult ℝ),
    SepRun thw (.sepThwaites Fits.white) 0 1 stepper root p r ∧ BracketRoot root ∧ Consistent (0, p.y0) (stepper p).steps ∧
    (∃ v, thw.eventValue (.sepThwaites Fits.white) 0 p.y0 = .ok v ∧ 0 < v) ∧ r.status = .separated ∧ r.xEnd = 1 ∧
    ¬ FirstPoint thw (.sepThwaites Fits.white) 0 stepper p r := by
  obtain ⟨root, p, r, hb, hy, hrun⟩ := thw_run fun t => 1/25 + 3/25 * t
  have wpos : ∀ lam : ℝ, 0 < (Fits.white : Fits ℝ).shearAt lam ↔ -9/100 < lam := by
    intro lam
    obtain ⟨v, hv, hi⟩ := white_event_iff thw 0 (-lam) (-1) (by simp [thw, VelState.duE, VelState.rawDu, callOpt, Vel.call])
    rw [thw_value] at hv
    have := Except.ok.inj hv
    rw [show -lam * (-1) = lam by ring] at this hi
    rw [this, ← not_le, hi, not_le]
  have hv0 : thw.eventValue (.sepThwaites Fits.white) 0 p.y0 = .ok ((Fits.white : Fits ℝ).shearAt (1/25 * (-1))) := by rw [hy, thw_value]
  have hpos : 0 < (Fits.white : Fits ℝ).shearAt (1/25 * (-1)) := (wpos _).2 (by norm_num)
  have hcon : Consistent (0, p.y0) ((one fun t => [1/25 + 3/25 * t]) p).steps := one_consistent (by rw [hy]; norm_num)
  have hsep : r.status = .separated := by
    rw [separation_reported_iff hrun _ hv0 hpos]
    refine ⟨⟨1, [1/25 + 3/25 * 1], fun t => [1/25 + 3/25 * t]⟩, by simp [one], _, thw_value 1 _, ?_⟩
    rw [← not_lt, wpos]; norm_num
  obtain ⟨s, hs, hx, -⟩ := nonneg_fits_step_end Fits.white white_shear_nonneg hrun hb hcon _ hv0 hpos hsep
  simp only [one, List.mem_singleton] at hs
  subst hs
  refine ⟨_, root, p, r, hrun, hb, hcon, ⟨_, hv0, hpos⟩, hsep, hx, fun hf => ?_⟩
  obtain ⟨v, hv, hvp⟩ := hf [] [] _ rfl (by rw [hx]; simp [lastPt]) (by rw [hx]) (1/2) (by simp [lastPt]) (by rw [hx]; norm_num)
  rw [thw_value] at hv
  rw [← Except.ok.inj hv, wpos] at hvp
  norm_num at hvp

/-- **C66** is false: a Head run that starts at H = 3 with critical shape factor 2 ends as REACHED_END. -/
theorem start_reported_fails : ∃ (stepper : Stepper ℝ) (root : RootFinder ℝ) (p : IvpProblem ℝ) (r : IntegrationResult ℝ),
    SepRun (hd 3) (.sepHead 2) 0 1 stepper root p r ∧ BracketRoot root ∧ Consistent (0, p.y0) (stepper p).steps ∧
    r.status = .reachedEnd ∧ ¬ StartReported (hd 3) (.sepHead 2) 0 p r := by
  obtain ⟨root, p, r, hb, hy, hrun⟩ := hd_run 3 fun t => 3 + t
  have hv0 : (hd 3).eventValue (.sepHead 2) 0 p.y0 = .ok (2 - 3) := by rw [hy, hd_value]
  obtain ⟨h1, -, h3⟩ := start_separated_unreported hrun _ hv0 (by norm_num) (by
    intro s hs
    simp only [one, List.mem_singleton] at hs
    subst hs
    exact ⟨_, hd_value 3 1 _ _, by norm_num⟩) rfl
  exact ⟨_, root, p, r, hrun, hb, one_consistent (by rw [hy]; norm_num), h1, h3⟩

/-- **C68** is false: a Head run that starts at H = 3 and recovers to H = 1 is stopped as SEPARATED. -/
theorem was_attached_fails : ∃ (stepper : Stepper ℝ) (root : RootFinder ℝ) (p : IvpProblem ℝ) (r : IntegrationResult ℝ),
    SepRun (hd 3) (.sepHead 2) 0 1 stepper root p r ∧ BracketRoot root ∧ Consistent (0, p.y0) (stepper p).steps ∧
    r.status = .separated ∧ ¬ WasAttached (hd 3) (.sepHead 2) 0 p r := by
  obtain ⟨root, p, r, hb, hy, hrun⟩ := hd_run 3 fun t => 3 - 2 * t
  have hv0 : (hd 3).eventValue (.sepHead 2) 0 p.y0 = .ok (2 - 3) := by rw [hy, hd_value]
  obtain ⟨h1, h2⟩ := reattachment_reported hrun _ hv0 (by norm_num)
    ⟨⟨1, [1, 3 - 2 * 1], fun t => [1, 3 - 2 * t]⟩, by simp [one], _, hd_value 3 1 _ _, by norm_num⟩
  exact ⟨_, root, p, r, hrun, hb, one_consistent (by rw [hy]; norm_num), h1, h2⟩

/-- The converse of C64 for the points between the accepted ones, as one would like it: in a run to the end the criterion is not met anywhere. -/
def NoPocket (o : Obj ℝ) (e : Event ℝ) (stepper : Stepper ℝ) (p : IvpProblem ℝ) (r : IntegrationResult ℝ) : Prop :=
  r.status = .reachedEnd → ∀ t, 0 ≤ t → t ≤ 1 → ∀ s ∈ (stepper p).steps, ∃ v, o.eventValue e t (s.dense t) = .ok v ∧ 0 < v

/-- It is false: a Head run with H = 1 at both accepted points and H = 3 half way between them. -/
theorem no_pocket_fails : ∃ (stepper : Stepper ℝ) (root : RootFinder ℝ) (p : IvpProblem ℝ) (r : IntegrationResult ℝ),
    SepRun (hd 1) (.sepHead 2) 0 1 stepper root p r ∧ BracketRoot root ∧ Consistent (0, p.y0) (stepper p).steps ∧
    r.status = .reachedEnd ∧ ¬ NoPocket (hd 1) (.sepHead 2) stepper p r := by
  obtain ⟨root, p, r, hb, hy, hrun⟩ := hd_run 1 fun t => 1 + 8 * t * (1 - t)
  have hv0 : (hd 1).eventValue (.sepHead 2) 0 p.y0 = .ok (2 - 1) := by rw [hy, hd_value]
  have hnot : r.status = .reachedEnd := attached_run_reaches_end hrun _ hv0 (by norm_num) (by
    intro s hs
    simp only [one, List.mem_singleton] at hs
    subst hs
    exact ⟨_, hd_value 1 1 _ _, by norm_num⟩) rfl
  refine ⟨_, root, p, r, hrun, hb, one_consistent (by rw [hy]; norm_num), hnot, fun hn => ?_⟩
  obtain ⟨v, hv, hvp⟩ := hn hnot (1/2) (by norm_num) (by norm_num) _ (List.mem_singleton.2 rfl)
  rw [hd_value] at hv
  rw [← Except.ok.inj hv] at hvp
  norm_num at hvp

/-- The hypotheses of `first_point_partial` can be met: a Head run along which H rises from 1 to 3; the reported point is where H = 2. -/
example : ∃ (stepper : Stepper ℝ) (root : RootFinder ℝ) (p : IvpProblem ℝ) (r : IntegrationResult ℝ),
    SepRun (hd 1) (.sepHead 2) 0 1 stepper root p r ∧ r.status = .separated ∧ r.xEnd = 1/2 := by
  obtain ⟨root, p, r, hb, hy, hrun⟩ := hd_run 1 fun t => 1 + 2 * t
  have hv0 : (hd 1).eventValue (.sepHead 2) 0 p.y0 = .ok (2 - 1) := by rw [hy, hd_value]
  have hsep : r.status = .separated := by
    rw [separation_reported_iff hrun _ hv0 (by norm_num)]
    exact ⟨⟨1, [1, 1 + 2 * 1], fun t => [1, 1 + 2 * t]⟩, by simp [one], _, hd_value 1 1 _ _, by norm_num⟩
  obtain ⟨pre, rest, s, -, -, -, hz, -⟩ := first_point_partial hrun hb (one_consistent (by rw [hy]; norm_num)) _ hv0 (by norm_num) hsep
    (fun _ t => 2 - (1 + 2 * t)) (by
      intro pre rest s hs
      obtain ⟨rfl, rfl, rfl⟩ : pre = [] ∧ s = ⟨1, [1, 1 + 2 * 1], fun t => [1, 1 + 2 * t]⟩ ∧ rest = [] := by
        cases pre with
        | nil => simpa [one, eq_comm] using hs
        | cons a pre => simp [one] at hs
      refine ⟨fun t _ _ => hd_value 1 t _ _, by fun_prop, fun x _ y _ hxy => by linarith⟩)
  exact ⟨_, root, p, r, hrun, hsep, by linarith⟩

/-- The hypotheses of `earliest_event_wins` can be met: in the same step a user event at x = 1/4 and separation at x = 1/2; the user event is
reported although separation is first in the list. -/
example : ∃ (root : RootFinder ℝ) (o' o'' : Obj ℝ) (p : IvpProblem ℝ) (r : IntegrationResult ℝ) (te : TermArg ℝ),
    (hd 1).prepare 0 1 te = (o', .ok p) ∧
    (hd 1).solve 0 1 te (ivp (hd 1).eventValue (one fun t => [1, 1 + 2 * t]) root) = (o'', .ok r) ∧ r.success = true ∧
    r.status = .transitioned ∧ r.xEnd = 1/4 := by
  obtain ⟨root, hb, ht⟩ := bracketRoot_exists
  let u : Event ℝ := .user (fun t _ => .ok (t - 1/4)) .transitioned ""
  obtain ⟨o', p, hp, hy, hx, he⟩ : ∃ o' p, (hd 1).prepare 0 1 (.one u) = (o', .ok p) ∧ p.y0 = [1, 1] ∧ p.x0 = 0 ∧ p.events = [.sepHead 2, u] := by
    simp [hd, Obj.prepare, IC.setNu, VelState.duE, VelState.rawDu, callOpt, Vel.call, IC.setDu, Obj.startVector, IC.deltaM, IC.shapeD, pyDiv,
      bind, Except.bind, pure, Except.pure, TermArg.toList]
    norm_num
    exact ⟨_, _, ⟨rfl, rfl⟩, rfl, rfl, rfl⟩
  have uval : ∀ x y, (hd 1).eventValue u x y = .ok (x - 1/4) := fun x y => rfl
  obtain ⟨r, hr⟩ := solve_total (hd 1).eventValue (one fun t => [1, 1 + 2 * t]) root hp ht
    (by
      rw [he, hy, hx]; intro e h
      simp only [List.mem_cons, List.not_mem_nil, or_false] at h
      rcases h with rfl | rfl
      · exact ⟨_, hd_value 1 0 _ _⟩
      · exact ⟨_, uval 0 _⟩)
    (by
      rw [he]; intro s hs e h
      simp only [one, List.mem_singleton] at hs
      simp only [List.mem_cons, List.not_mem_nil, or_false] at h
      subst hs
      rcases h with rfl | rfl
      · exact ⟨_, hd_value 1 1 _ _⟩
      · exact ⟨_, uval 1 _⟩)
    (by intro x h; cases h)
  rcases hs : (hd 1).solve 0 1 (.one u) (ivp (hd 1).eventValue (one fun t => [1, 1 + 2 * t]) root) with ⟨o'', q⟩
  rw [hs] at hr
  simp only at hr
  subst hr
  have hcon : Consistent (p.x0, p.y0) ((one fun t => [1, 1 + 2 * t]) p).steps := by rw [hx]; exact one_consistent (by rw [hy]; norm_num)
  have rootu : root (fun t => (hd 1).eventValue u t [1, 1 + 2 * t]) 0 1 = .ok (1/4) := by
    obtain ⟨x, hxx⟩ := ht (fun t => (hd 1).eventValue u t [1, 1 + 2 * t]) 0 1
    have := hb.zero _ 0 1 x (fun t => t - 1/4) (by norm_num) (fun t _ _ => uval t _) (by fun_prop) (by norm_num) hxx
    rw [hxx]; congr 1; linarith
  have rooth : root (fun t => (hd 1).eventValue (.sepHead 2) t [1, 1 + 2 * t]) 0 1 = .ok (1/2) := by
    obtain ⟨x, hxx⟩ := ht (fun t => (hd 1).eventValue (.sepHead 2) t [1, 1 + 2 * t]) 0 1
    have := hb.zero _ 0 1 x (fun t => 2 - (1 + 2 * t)) (by norm_num) (fun t _ _ => hd_value 1 t _ _) (by fun_prop) (by norm_num) hxx
    rw [hxx]; congr 1; linarith
  have chu : changes (0 - 1/4 : ℝ) (1 - 1/4) = true := by rw [changes_real]; left; norm_num
  have ho := solve_outcome (hd 1).eventValue _ root hp hs
  have noquiet : ¬ AllQuiet (p.events.map (hd 1).eventValue) (p.x0, p.y0) ((one fun t => [1, 1 + 2 * t]) p).steps := by
    intro hq
    have := hq.1 ((hd 1).eventValue u) (by rw [he]; simp) _ _ (uval _ _) (uval _ _)
    rw [hx] at this
    exact absurd (chu.symm.trans this) (by decide)
  have hst : r.status ≠ .reachedEnd ∧ r.success = true := by
    cases ho with
    | reached hq => exact absurd hq noquiet
    | failed m hq => exact absurd hq noquiet
    | stopped pre rest s i e hsteps hq hi hf hs _ hok =>
      refine ⟨?_, hok⟩
      rw [he] at hi
      rw [hs]
      match i, hi with
      | 0, hi => cases hi; simp [Event.info]
      | 1, hi => cases hi; simp [Event.info, u]
      | i + 2, hi => simp at hi
  obtain ⟨pre, rest, s, i, e, hsteps, hi, h3, -, hf, hall⟩ := earliest_event_wins (hd 1).eventValue _ root hp hs hcon hst.2 hst.1
  obtain ⟨rfl, rfl, rfl⟩ : pre = [] ∧ s = ⟨1, [1, 1 + 2 * 1], fun t => [1, 1 + 2 * t]⟩ ∧ rest = [] := by
    cases pre with
    | nil => simpa [one, eq_comm] using hsteps
    | cons a pre => simp [one] at hsteps
  simp only [lastPt, hx] at hf hall
  obtain ⟨te', hf', hle⟩ := hall 1 u _ _ (by rw [he]; rfl) (uval _ _) (uval _ _) chu
  have : te' = 1/4 := by
    have := hf'.2
    simp only at this
    rw [rootu] at this
    exact (Except.ok.inj this).symm
  subst this
  refine ⟨root, o', o'', p, r, .one u, hp, hs, hst.2, ?_⟩
  rw [he] at hi
  match i, hi with
  | 0, hi =>
    cases hi
    have := hf.2
    simp only at this
    rw [rooth] at this
    have := Except.ok.inj this
    norm_num [← this] at hle
  | 1, hi =>
    cases hi
    have := hf.2
    simp only at this
    rw [rootu] at this
    exact ⟨h3, (Except.ok.inj this).symm⟩
  | i + 2, hi => simp at hi

/-- The hypotheses of `event_order_irrelevant` can be met: two user events that change sign in the same step, passed in either order. -/
example : ∃ (root : RootFinder ℝ) (o1 o1' o2 o2' : Obj ℝ) (p1 p2 : IvpProblem ℝ) (r1 r2 : IntegrationResult ℝ) (u v : Event ℝ),
    u.info.1 ≠ v.info.1 ∧ (hd 1).prepare 0 1 (.list [u, v]) = (o1, .ok p1) ∧ (hd 1).prepare 0 1 (.list [v, u]) = (o2, .ok p2) ∧
    (hd 1).solve 0 1 (.list [u, v]) (ivp (hd 1).eventValue (one fun t => [1, 1 + 2 * t]) root) = (o1', .ok r1) ∧
    (hd 1).solve 0 1 (.list [v, u]) (ivp (hd 1).eventValue (one fun t => [1, 1 + 2 * t]) root) = (o2', .ok r2) ∧
    ((hd 1).events ++ (TermArg.list [u, v]).toList).Perm ((hd 1).events ++ (TermArg.list [v, u]).toList) ∧ p1.y0 = p2.y0 ∧
    one (fun t => [1, 1 + 2 * t]) p1 = one (fun t => [1, 1 + 2 * t]) p2 ∧ Consistent (0, p1.y0) (one (fun t => [1, 1 + 2 * t]) p1).steps := by
  obtain ⟨root, hb, ht⟩ := bracketRoot_exists
  let u : Event ℝ := .user (fun t _ => .ok (t - 1/4)) .transitioned ""
  let v : Event ℝ := .user (fun t _ => .ok (t - 1/3)) .separated "mark"
  have prep : ∀ l, ∃ o' p, (hd 1).prepare 0 1 (.list l) = (o', .ok p) ∧ p.y0 = [1, 1] ∧ p.x0 = 0 ∧ p.events = .sepHead 2 :: l := by
    intro l
    simp [hd, Obj.prepare, IC.setNu, VelState.duE, VelState.rawDu, callOpt, Vel.call, IC.setDu, Obj.startVector, IC.deltaM, IC.shapeD, pyDiv,
      bind, Except.bind, pure, Except.pure, TermArg.toList]
    norm_num
    exact ⟨_, _, ⟨rfl, rfl⟩, rfl, rfl, rfl⟩
  have run : ∀ l, (∀ e ∈ l, e = u ∨ e = v) → ∀ o' p, (hd 1).prepare 0 1 (.list l) = (o', .ok p) → p.y0 = [1, 1] → p.x0 = 0 → p.events = .sepHead 2 :: l →
      ∃ o'' r, (hd 1).solve 0 1 (.list l) (ivp (hd 1).eventValue (one fun t => [1, 1 + 2 * t]) root) = (o'', .ok r) := by
    intro l hl o' p hp hy hx he
    obtain ⟨r, hr⟩ := solve_total (hd 1).eventValue (one fun t => [1, 1 + 2 * t]) root hp ht
      (by
        rw [he, hy, hx]; intro e h
        rcases List.mem_cons.1 h with rfl | h
        · exact ⟨_, hd_value 1 0 _ _⟩
        · rcases hl e h with rfl | rfl <;> exact ⟨_, rfl⟩)
      (by
        rw [he]; intro s hs e h
        simp only [one, List.mem_singleton] at hs
        subst hs
        rcases List.mem_cons.1 h with rfl | h
        · exact ⟨_, hd_value 1 1 _ _⟩
        · rcases hl e h with rfl | rfl <;> exact ⟨_, rfl⟩)
      (by intro x h; cases h)
    exact ⟨_, r, Prod.ext rfl hr⟩
  obtain ⟨o1, p1, hp1, hy1, hx1, he1⟩ := prep [u, v]
  obtain ⟨o2, p2, hp2, hy2, hx2, he2⟩ := prep [v, u]
  obtain ⟨o1', r1, hr1⟩ := run _ (by simp) o1 p1 hp1 hy1 hx1 he1
  obtain ⟨o2', r2, hr2⟩ := run _ (by simp) o2 p2 hp2 hy2 hx2 he2
  refine ⟨root, o1, o1', o2, o2', p1, p2, r1, r2, u, v, by simp [u, v, Event.info], hp1, hp2, hr1, hr2, ?_, hy1.trans hy2.symm, rfl, ?_⟩
  · exact List.Perm.append_left _ (List.Perm.swap _ _ _)
  · exact one_consistent (by rw [hy1]; norm_num)

end IBL
