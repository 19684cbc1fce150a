import Verif.Spec.Shift

/-!
C76: results do not depend on where the origin of the streamwise coordinate is.
-/

namespace IBL

private theorem fd1_shift (f : ℝ → Except Exc ℝ) (s x dx : ℝ) : fd1 (fun t => f (t - s)) x dx = fd1 f (x - s) dx := by
  simp only [fd1]
  rw [show x - lit 2 * dx - s = x - s - lit 2 * dx by ring, show x + lit 2 * dx - s = x - s + lit 2 * dx by ring,
    show x - dx - s = x - s - dx by ring, show x + dx - s = x - s + dx by ring]

private theorem fd2_shift (f : ℝ → Except Exc ℝ) (s x dx : ℝ) : fd2 (fun t => f (t - s)) x dx = fd2 f (x - s) dx := by
  simp only [fd2]
  rw [show x - lit 2 * dx - s = x - s - lit 2 * dx by ring, show x + lit 2 * dx - s = x - s + lit 2 * dx by ring,
    show x - dx - s = x - s - dx by ring, show x + dx - s = x - s + dx by ring]

private theorem callOpt_shift (f g : ℝ → Except Exc ℝ) (v : Option (Vel ℝ)) (s x : ℝ) :
    callOpt (fun t => f (t - s)) (fun t => g (t - s)) (v.map (·.shift s)) x = callOpt f g v (x - s) := by
  rcases v with _ | v
  · rfl
  · cases v <;> simp [callOpt, Vel.shift, Vel.call, fd1_shift, fd2_shift]

private theorem rawU_shift (v : VelState ℝ) (s x : ℝ) : (v.shift s).rawU x = v.rawU (x - s) :=
  callOpt_shift (fun _ => .error .typeError) (fun _ => .error .typeError) v.u s x
private theorem rawDu_shift (v : VelState ℝ) (s x : ℝ) : (v.shift s).rawDu x = v.rawDu (x - s) := by
  have h : (v.shift s).rawU = fun t => v.rawU (t - s) := funext fun t => rawU_shift v s t
  unfold VelState.rawDu
  rw [h]
  exact callOpt_shift v.rawU (fun _ => .error .typeError) v.du s x
private theorem rawD2u_shift (v : VelState ℝ) (s x : ℝ) : (v.shift s).rawD2u x = v.rawD2u (x - s) := by
  have h : (v.shift s).rawU = fun t => v.rawU (t - s) := funext fun t => rawU_shift v s t
  have h' : (v.shift s).rawDu = fun t => v.rawDu (t - s) := funext fun t => rawDu_shift v s t
  unfold VelState.rawD2u
  rw [h, h']
  exact callOpt_shift v.rawU v.rawDu v.d2u s x

private theorem velocities_shift (v : VelState ℝ) (s x : ℝ) : (v.shift s).uE x = v.uE (x - s) ∧ (v.shift s).duE x = v.duE (x - s) ∧
    (v.shift s).d2uE x = v.d2uE (x - s) := by
  refine ⟨?_, ?_, ?_⟩
  · unfold VelState.uE; rw [rawU_shift]; simp [VelState.shift]
  · unfold VelState.duE; rw [rawDu_shift]; simp [VelState.shift]
  · unfold VelState.d2uE; rw [rawD2u_shift]; simp [VelState.shift]

private theorem calcLambda_shift (o : Obj ℝ) (s x F : ℝ) : (o.shift s).calcLambda x F = o.calcLambda (x - s) F := by
  simp only [Obj.calcLambda, Obj.shift, (velocities_shift o.vel s x).2.1]

private theorem thwaitesRhs_shift (o : Obj ℝ) (s x F : ℝ) : (o.shift s).thwaitesRhs x F = o.thwaitesRhs (x - s) F := by
  simp only [Obj.thwaitesRhs, Obj.calcF, calcLambda_shift]
  simp only [Obj.shift, (velocities_shift o.vel s x).1]

private theorem headRhs_shift (o : Obj ℝ) (s x a b : ℝ) : (o.shift s).headRhs x a b = o.headRhs (x - s) a b := by
  simp only [Obj.headRhs, Obj.shift, (velocities_shift o.vel s x).1, (velocities_shift o.vel s x).2.1]

private theorem rhs_shift (o : Obj ℝ) (s x : ℝ) (y : List ℝ) : (o.shift s).rhs x y = o.rhs (x - s) y := by
  unfold Obj.rhs
  simp only [thwaitesRhs_shift, headRhs_shift]
  rfl

private theorem comp_shift (o : Obj ℝ) (i : ℕ) (s x : ℝ) : (o.shift s).comp i x = o.comp i (x - s) := by
  have : (o.shift s).state x = o.state (x - s) := by
    cases h : o.sol <;> simp [Obj.state, Obj.shift, h]
  simp only [Obj.comp, this]

private theorem deltaM_shift (o : Obj ℝ) (s x : ℝ) : (o.shift s).deltaM x = o.deltaM (x - s) := by
  unfold Obj.deltaM
  simp only [comp_shift]
  rfl

private theorem shapeD_shift (o : Obj ℝ) (s x : ℝ) : (o.shift s).shapeD x = o.shapeD (x - s) := by
  unfold Obj.shapeD
  simp only [comp_shift, calcLambda_shift]
  rfl

private theorem deltaD_shift (o : Obj ℝ) (s x : ℝ) : (o.shift s).deltaD x = o.deltaD (x - s) := by
  unfold Obj.deltaD
  simp only [deltaM_shift, shapeD_shift]

private theorem tauW_shift (o : Obj ℝ) (s x rho : ℝ) : (o.shift s).tauWThwaites x rho = o.tauWThwaites (x - s) rho := by
  unfold Obj.tauWThwaites
  simp only [comp_shift, calcLambda_shift, deltaM_shift]
  simp only [Obj.shift, (velocities_shift o.vel s x).1]

private theorem vE_shift (o : Obj ℝ) (s x : ℝ) : (o.shift s).vE x = o.vE (x - s) := by
  unfold Obj.vE Obj.vEHead Obj.vEThwaites
  simp only [comp_shift, calcLambda_shift, deltaD_shift, shapeD_shift, headRhs_shift, thwaitesRhs_shift]
  simp only [Obj.shift, (velocities_shift o.vel s x).1, (velocities_shift o.vel s x).2.1, (velocities_shift o.vel s x).2.2]

private theorem eventValue_shift (o : Obj ℝ) (e : Event ℝ) (s x : ℝ) (y : List ℝ) :
    (o.shift s).eventValue (e.shift s) x y = o.eventValue e (x - s) y := by
  cases e with
  | sepThwaites m => cases y <;> simp [Event.shift, Obj.eventValue, calcLambda_shift]
  | sepHead c => rfl
  | user g r i => rfl

/-- **C76**, the queries: a moved object gives at the moved location what the original one gives. -/
theorem queries_move (o : Obj ℝ) (s x rho : ℝ) :
    (o.shift s).vel.uE (x + s) = o.vel.uE x ∧ (o.shift s).vel.duE (x + s) = o.vel.duE x ∧ (o.shift s).vel.d2uE (x + s) = o.vel.d2uE x ∧
    (o.shift s).deltaM (x + s) = o.deltaM x ∧ (o.shift s).deltaD (x + s) = o.deltaD x ∧ (o.shift s).shapeD (x + s) = o.shapeD x ∧
    (o.shift s).tauWThwaites (x + s) rho = o.tauWThwaites x rho ∧ (o.shift s).vE (x + s) = o.vE x := by
  have h := velocities_shift o.vel s (x + s)
  rw [add_sub_cancel_right] at h
  refine ⟨h.1, h.2.1, h.2.2, ?_, ?_, ?_, ?_, ?_⟩
  · rw [deltaM_shift, add_sub_cancel_right]
  · rw [deltaD_shift, add_sub_cancel_right]
  · rw [shapeD_shift, add_sub_cancel_right]
  · rw [tauW_shift, add_sub_cancel_right]
  · rw [vE_shift, add_sub_cancel_right]

/-! ### Calls -/

private theorem setVelCallable_shift (v : VelState ℝ) (c : Callable ℝ) (du d2u : Arg ℝ) (s : ℝ) :
    setVelCallable (v.shift s) (c.shift s) (du.shift s) (d2u.shift s) =
      ((setVelCallable v c du d2u).1.shift s, (setVelCallable v c du d2u).2) := by
  cases du with
  | none => cases d2u <;> rcases hd : c.deriv with _ | ⟨a, b⟩ <;> simp [setVelCallable, Arg.shift, Callable.shift, hd, VelState.shift, Vel.shift]
  | callable cd =>
    cases d2u <;> rcases hd : cd.deriv with _ | ⟨a, b⟩ <;> simp [setVelCallable, Arg.shift, Callable.shift, hd, VelState.shift, Vel.shift]
  | _ => simp [setVelCallable, Arg.shift, Callable.shift, VelState.shift, Vel.shift]

private theorem setVelocity_shift {pchip : Pchip ℝ} {s : ℝ} (hp : PchipMoves s pchip) (v : VelState ℝ) (u du d2u : Arg ℝ) :
    setVelocity pchip (v.shift s) (u.shift s) (du.shift s) (d2u.shift s) =
      ((setVelocity pchip v u du d2u).1.shift s, (setVelocity pchip v u du d2u).2) := by
  cases u with
  | callable c => exact setVelCallable_shift v c du d2u s
  | num a =>
    cases du with
    | pair xs ys =>
      simp only [setVelocity, Arg.shift, hp xs ys]
      rcases pchip xs ys with e | p
      · rfl
      · simp [Except.map, VelState.shift, Vel.shift, Spline.shift]
    | _ => rfl
  | pair xs ys =>
    simp only [setVelocity, Arg.shift, hp xs ys]
    have hs : (xs.shift s).shape = xs.shape := rfl
    rw [hs]
    rcases xs.shape with _ | ⟨n, tl⟩
    · rfl
    dsimp only
    by_cases h1 : tl ≠ []
    · rw [if_pos h1, if_pos h1]
    rw [if_neg h1, if_neg h1]
    rcases ys.shape with _ | ⟨m, tl2⟩
    · rfl
    rcases tl2 with _ | ⟨a, b⟩
    · dsimp only
      by_cases h2 : n ≠ m
      · rw [if_pos h2, if_pos h2]
      rw [if_neg h2, if_neg h2]
      by_cases h3 : n < 2
      · rw [if_pos h3, if_pos h3]
      rw [if_neg h3, if_neg h3]
      rcases pchip xs ys with e | p
      · rfl
      · exact setVelCallable_shift v p.toCallable .none .none s
    · rfl
  | _ => rfl

private theorem toList_shift (te : TermArg ℝ) (s : ℝ) : (te.shift s).toList = te.toList.map (·.shift s) := by
  cases te <;> simp [TermArg.shift, TermArg.toList]

private theorem prepare_shift (o : Obj ℝ) (s x0 x1 : ℝ) (te : TermArg ℝ) :
    (o.shift s).prepare (x0 + s) (x1 + s) (te.shift s) = ((o.prepare x0 x1 te).1.shift s, (o.prepare x0 x1 te).2.map (·.shift s)) := by
  have hv : (o.shift s).vel.duE (x0 + s) = o.vel.duE x0 := (queries_move o s x0 0).2.1
  unfold Obj.prepare
  have hi : (o.shift s).ic.setNu (o.shift s).nu = o.ic.setNu o.nu := rfl
  rw [hi]
  rcases o.ic.setNu o.nu with e | ic
  · rfl
  dsimp only
  rw [hv]
  rcases o.vel.duE x0 with e | d
  · rfl
  dsimp only
  have hsv : Obj.startVector { o.shift s with ic := ic.setDu d } = Obj.startVector { o with ic := ic.setDu d } := rfl
  rw [hsv]
  rcases Obj.startVector { o with ic := ic.setDu d } with e | y0
  · rfl
  dsimp only
  simp only [Except.map, Prod.mk.injEq, Except.ok.injEq]
  constructor
  · simp [Obj.shift, toList_shift]
  · simp only [IvpProblem.shift, IvpProblem.mk.injEq, true_and, and_true]
    refine ⟨?_, ?_⟩
    · funext x y
      have := rhs_shift { o with ic := ic.setDu d, events := o.events ++ te.toList } s x y
      rw [← this]
      simp only [Obj.shift, toList_shift, List.map_append]
    · simp [Obj.shift, toList_shift]

private theorem firstFired_shift (s : ℝ) (l : List (List ℝ)) (i : ℕ) :
    firstFired (l.map (·.map (· + s))) i = (firstFired l i).map fun p => (p.1, p.2 + s) := by
  induction l generalizing i with
  | nil => rfl
  | cons a l ih =>
    cases a with
    | nil => simpa [firstFired] using ih (i + 1)
    | cons b c => simp [firstFired]

private theorem info_shift (e : Event ℝ) (s : ℝ) : (e.shift s).info = e.info := by cases e <;> rfl

private theorem evalResult_shift (s x0 : ℝ) (y0 : List ℝ) (ev : List (Event ℝ)) (r : IvpResult ℝ) :
    evalResult (x0 + s) y0 (ev.map (·.shift s)) (r.shift s) = (evalResult x0 y0 ev r).map (·.shift s) := by
  unfold evalResult
  simp only [IvpResult.shift, firstFired_shift, List.getLast?_map, List.getElem?_map]
  split_ifs
  · rcases r.t.getLast? with _ | xe
    · rfl
    · simp [Except.map, IntegrationResult.shift]
  · rcases firstFired r.tEvents with _ | ⟨i, xe⟩
    · rfl
    · simp only [Option.map_some]
      rcases ev[i]? with _ | e
      · rfl
      · simp [Except.map, IntegrationResult.shift, info_shift]
  · rfl
  · rfl

private theorem solve_shift (o : Obj ℝ) (s x0 x1 : ℝ) (te : TermArg ℝ) (ivp ivp' : Ivp ℝ) (h : SameIntegrator s ivp ivp') :
    (o.shift s).solve (x0 + s) (x1 + s) (te.shift s) ivp' = ((o.solve x0 x1 te ivp).1.shift s, (o.solve x0 x1 te ivp).2.map (·.shift s)) := by
  unfold Obj.solve
  rw [prepare_shift]
  rcases o.prepare x0 x1 te with ⟨o', e | p⟩
  · rfl
  simp only [Except.map, h p]
  rcases ivp p with e | r
  · rfl
  simp only [Except.map]
  rw [Prod.mk.injEq]
  constructor
  · have : (r.shift s).success = r.success := rfl
    simp only [Obj.shift, this]
    cases r.success <;> simp [IvpResult.shift]
  · exact evalResult_shift s x0 p.y0 o'.events r

private theorem result_shift (s : ℝ) (e : Except Exc Unit) : (outOf e : Out ℝ).map (Option.map (·.shift s)) = outOf e := by
  cases e <;> rfl

private theorem step_shift {ext : Ext ℝ} {s : ℝ} (hp : PchipMoves s ext.pchip) (o : Obj ℝ) {op op' : Op ℝ} (h : MovedOp s op op') :
    (o.shift s).step ext op' = ((o.step ext op).1.shift s, (o.step ext op).2.map (Option.map (·.shift s))) := by
  cases h with
  | setNu nu =>
    simp only [Obj.step, Obj.setNu]
    split_ifs <;> simp [result_shift] <;> rfl
  | setVelocity u du d2u =>
    simp only [Obj.step, Obj.setVelocity]
    have := setVelocity_shift hp o.vel u du d2u
    simp only [Obj.shift, this, result_shift]
  | setInitialCondition ic => rfl
  | setInitialDeltaM v =>
    simp only [Obj.step, Obj.setInitialDeltaM]
    split_ifs <;> simp [result_shift] <;> rfl
  | setInitialShapeD v =>
    have h1 : (o.shift s).cls = o.cls := rfl
    have h2 : (o.shift s).ic = o.ic := rfl
    simp only [Obj.step, Obj.setInitialShapeD, h1, h2]
    split_ifs
    · rfl
    · rcases o.ic.deltaM with e | m <;> rfl
    · rfl
  | setDataFits a =>
    have h1 : (o.shift s).cls = o.cls := rfl
    simp only [Obj.step, Obj.setDataFits, h1]
    split_ifs
    · rcases chooseFits ext a with e | m <;> rfl
    · rfl
  | setShapeDCritical c =>
    have h1 : (o.shift s).cls = o.cls := rfl
    simp only [Obj.step, h1]
    split_ifs <;> rfl
  | solve x0 x1 te ivp ivp' hi =>
    simp only [Obj.step, solve_shift o s x0 x1 te ivp ivp' hi]
    rcases (o.solve x0 x1 te ivp).2 with e | r <;> rfl

/-- **C76**: an object built and driven with everything moved by `s` is the moved object, after any history of calls; by `queries_move` it
reports the same numbers at moved locations. -/
theorem histories_move (ext : Ext ℝ) (s : ℝ) (hp : PchipMoves s ext.pchip) (o : Obj ℝ) (ops ops' : List (Op ℝ))
    (h : List.Forall₂ (MovedOp s) ops ops') : (o.shift s).run ext ops' = (o.run ext ops).shift s := by
  induction h generalizing o with
  | nil => rfl
  | cons h _ ih =>
    simp only [Obj.run, List.foldl_cons]
    rw [step_shift hp o h]
    exact ih _

/-- **C76**: each call returns or raises the same, but for the end location of `solve`, which is moved. -/
theorem calls_move (ext : Ext ℝ) (s : ℝ) (hp : PchipMoves s ext.pchip) (o : Obj ℝ) (op op' : Op ℝ) (h : MovedOp s op op') :
    ((o.shift s).step ext op').2 = (o.step ext op).2.map (Option.map (·.shift s)) := by
  rw [step_shift hp o h]

/-- **C76**: constructing. -/
theorem constructors_move [PySpecial ℝ] (ext : Ext ℝ) (s : ℝ) (hp : PchipMoves s ext.pchip) (linear : Bool) (nu crit : ℝ) (u du d2u : Arg ℝ)
    (fits : FitsArg ℝ) :
    Obj.mkThwaites ext linear nu (u.shift s) (du.shift s) (d2u.shift s) fits = (Obj.mkThwaites ext linear nu u du d2u fits).map (·.shift s) ∧
    Obj.mkHead ext nu (u.shift s) (du.shift s) (d2u.shift s) crit = (Obj.mkHead ext nu u du d2u crit).map (·.shift s) := by
  have base : ∀ cls ic, Obj.mkBase ext cls nu (u.shift s) (du.shift s) (d2u.shift s) ic = (Obj.mkBase ext cls nu u du d2u ic).map (·.shift s) := by
    intro cls ic
    unfold Obj.mkBase
    rcases IC.mkStag (lit 0) nu with e | c0
    · rfl
    dsimp only
    have hv : ∀ u : Arg ℝ, Obj.setVelocity ext (⟨cls, nu, VelState.empty, c0, [], none, none⟩ : Obj ℝ) (u.shift s) (du.shift s) (d2u.shift s) =
        ((Obj.setVelocity ext (⟨cls, nu, VelState.empty, c0, [], none, none⟩ : Obj ℝ) u du d2u).1.shift s,
         (Obj.setVelocity ext (⟨cls, nu, VelState.empty, c0, [], none, none⟩ : Obj ℝ) u du d2u).2) := by
      intro u
      simp only [Obj.setVelocity]
      have := setVelocity_shift hp (VelState.empty) u du d2u
      have he : VelState.shift s VelState.empty = VelState.empty := rfl
      rw [he] at this
      simp only [this]
      rfl
    cases u with
    | none => cases du <;> cases d2u <;> rfl
    | callable c =>
      have h' := hv (.callable c)
      dsimp only [Arg.shift] at h' ⊢
      rw [h']
      rcases Obj.setVelocity ext (⟨cls, nu, VelState.empty, c0, [], none, none⟩ : Obj ℝ) (.callable c) du d2u with ⟨o', e | ⟨⟩⟩ <;> rfl
    | num a =>
      have h' := hv (.num a)
      dsimp only [Arg.shift] at h' ⊢
      rw [h']
      rcases Obj.setVelocity ext (⟨cls, nu, VelState.empty, c0, [], none, none⟩ : Obj ℝ) (.num a) du d2u with ⟨o', e | ⟨⟩⟩ <;> rfl
    | pair a b =>
      have h' := hv (.pair a b)
      dsimp only [Arg.shift] at h' ⊢
      rw [h']
      rcases Obj.setVelocity ext (⟨cls, nu, VelState.empty, c0, [], none, none⟩ : Obj ℝ) (.pair a b) du d2u with ⟨o', e | ⟨⟩⟩ <;> rfl
    | sized n h =>
      have h' := hv (.sized n h)
      dsimp only [Arg.shift] at h' ⊢
      rw [h']
      rcases Obj.setVelocity ext (⟨cls, nu, VelState.empty, c0, [], none, none⟩ : Obj ℝ) (.sized n h) du d2u with ⟨o', e | ⟨⟩⟩ <;> rfl
    | unsized =>
      have h' := hv (.unsized)
      dsimp only [Arg.shift] at h' ⊢
      rw [h']
      rcases Obj.setVelocity ext (⟨cls, nu, VelState.empty, c0, [], none, none⟩ : Obj ℝ) (.unsized) du d2u with ⟨o', e | ⟨⟩⟩ <;> rfl
  constructor
  · unfold Obj.mkThwaites
    rw [base]
    rcases Obj.mkBase ext (if linear then .thwaitesLinear else .thwaitesNonlinear) nu u du d2u
      (IC.mkManual (lit 0) PySpecial.inf (lit 0)) with e | o
    · rfl
    · simp only [Except.map, Obj.setDataFits]
      rcases chooseFits ext fits with e | m <;> rfl
  · unfold Obj.mkHead
    rw [base]
    rcases Obj.mkBase ext .head nu u du d2u (IC.mkManual PySpecial.inf PySpecial.inf (lit 0)) with e | o <;> rfl

/-- Non-vacuity: an interpolator that moves with its table (the straight line through the first point with slope 1), a solve, and an
integrator that is the same one in moved coordinates. -/
example (s : ℝ) : ∃ pchip : Pchip ℝ, PchipMoves s pchip ∧ (∃ a b p, pchip a b = .ok p) ∧
    ∃ ivp ivp' : Ivp ℝ, SameIntegrator s ivp ivp' ∧ (∀ p, ∃ r, ivp p = .ok r ∧ r.success = true ∧ r.t = [p.x0, p.x1]) := by
  refine ⟨fun a b => match a.data, b.data with
    | x :: _, y :: _ => .ok ⟨fun t => y + (t - x), fun _ => 1, fun _ => 0, fun t => y * (t - x) + (t - x) ^ 2 / 2⟩
    | _, _ => .error .valueError, ?_, ⟨⟨[1], [0]⟩, ⟨[1], [5]⟩, _, rfl⟩,
    fun p => .ok ⟨true, 0, "", [p.x0, p.x1], [], fun t => p.y0.map (· + (t - p.x0))⟩,
    fun p => .ok ⟨true, 0, "", [p.x0, p.x1], [], fun t => p.y0.map (· + (t - p.x0))⟩, ?_, fun p => ⟨_, rfl, rfl, rfl⟩⟩
  · intro a b
    rcases ha : a.data with _ | ⟨x, xs⟩
    · simp [Arr.shift, ha, Except.map]
    rcases hb : b.data with _ | ⟨y, ys⟩
    · simp [Arr.shift, ha, hb, Except.map]
    · simp only [Arr.shift, ha, hb, List.map_cons, Except.map, Spline.shift, Except.ok.injEq, Spline.mk.injEq, true_and]
      exact ⟨funext fun t => by ring, funext fun t => by ring⟩
  · intro p
    simp only [IvpProblem.shift, Except.map, IvpResult.shift, List.map_cons, List.map_nil, Except.ok.injEq, IvpResult.mk.injEq, true_and]
    funext t
    congr 1
    funext a
    ring

end IBL
