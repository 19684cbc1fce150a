import Verif.Props.ViscosityFloat

/-!
C152: the unit of time in rounded arithmetic. With velocities and viscosity multiplied by the same power of two every rounding of a calculation
with Head's method is the same.
-/

set_option linter.unusedSectionVars false

namespace IBL

variable {R : Rounding}

/-! ### Specification -/

/-- The second function returns `2 ^ n` times what the first one returns, and raises where it raises. -/
def Scaled (n : ℤ) (f f' : R.F → Except Exc R.F) : Prop := ∀ x, f' x = (f x).map (times n)

/-- Two callables of which the second one is `2 ^ n` times the first one, their derivatives included; or no callable both times. -/
inductive FasterArg (n : ℤ) : Arg R.F → Arg R.F → Prop
  | none : FasterArg n .none .none
  | plain (f f' : R.F → Except Exc R.F) (h : Scaled n f f') : FasterArg n (.callable ⟨f, .none⟩) (.callable ⟨f', .none⟩)
  | derived (f f' d d' e e' : R.F → Except Exc R.F) (h : Scaled n f f') (hd : Scaled n d d') (he : Scaled n e e') :
    FasterArg n (.callable ⟨f, .some (d, e)⟩) (.callable ⟨f', .some (d', e')⟩)

/-- What is stored for a velocity or a derivative of it. -/
inductive FasterVel (n : ℤ) : Option (Vel R.F) → Option (Vel R.F) → Prop
  | none : FasterVel n .none .none
  | fn (f f' : R.F → Except Exc R.F) (h : Scaled n f f') : FasterVel n (.some (.fn f)) (.some (.fn f'))
  | notCallable : FasterVel n (.some .notCallable) (.some .notCallable)
  | fd1OfU (dx : R.F) : FasterVel n (.some (.fd1OfU dx)) (.some (.fd1OfU dx))
  | fd2OfU (dx : R.F) : FasterVel n (.some (.fd2OfU dx)) (.some (.fd2OfU dx))
  | fd1OfDu (dx : R.F) : FasterVel n (.some (.fd1OfDu dx)) (.some (.fd1OfDu dx))

/-- The values of the velocity, and `2 ^ n` times them, are not below 0.001, which the code takes instead of smaller velocities. -/
def AboveFloor (n : ℤ) (f : R.F → Except Exc R.F) : Prop :=
  ∀ x u, f x = .ok u → (lit (1/1000) : R.F).val ≤ u.val ∧ (lit (1/1000) : R.F).val ≤ (times n u).val

/-- Two initial conditions with the same thicknesses. A manual condition holds them; a stagnation condition computes them. -/
inductive SameStart (n : ℤ) : IC R.F → IC R.F → Prop
  | stag (du nu : R.F) : SameStart n (.stag du nu) (.stag (times n du) (times n nu))
  | manual (du nu du' nu' dD dM dK : R.F) : SameStart n (.manual du nu dD dM dK) (.manual du' nu' dD dM dK)

variable [PyPow R.F]

/-- `o'` is the Head object `o` with velocities and viscosity multiplied by `2 ^ n`. -/
structure Faster (n : ℤ) (o o' : Obj R.F) : Prop where
  head : o.cls = .head
  head' : o'.cls = .head
  nu : o'.nu = times n o.nu
  u : FasterVel n o.vel.u o'.vel.u
  du : FasterVel n o.vel.du o'.vel.du
  d2u : FasterVel n o.vel.d2u o'.vel.d2u
  floor : AboveFloor n o.vel.uE
  ic : SameStart n o.ic o'.ic
  events : o'.events = o.events
  sol : o'.sol = o.sol
  fits : o'.fits = o.fits

/-- The same call in the other unit of time. Velocities are callables. -/
inductive FasterOp (n : ℤ) : Op R.F → Op R.F → Prop
  | setNu (nu : R.F) : FasterOp n (.setNu nu) (.setNu (times n nu))
  | setVelocity (c c' : Callable R.F) (du du' d2u d2u' : Arg R.F) (h : FasterArg n (.callable c) (.callable c')) (hd : FasterArg n du du')
    (he : FasterArg n d2u d2u') (hf : AboveFloor n c.call) : FasterOp n (.setVelocity (.callable c) du d2u) (.setVelocity (.callable c') du' d2u')
  | setInitialCondition (ic ic' : IC R.F) (h : SameStart n ic ic') : FasterOp n (.setInitialCondition ic) (.setInitialCondition ic')
  | setInitialDeltaM (d : R.F) : FasterOp n (.setInitialDeltaM d) (.setInitialDeltaM d)
  | setInitialShapeD (d : R.F) : FasterOp n (.setInitialShapeD d) (.setInitialShapeD d)
  | setShapeDCritical (c : R.F) : FasterOp n (.setShapeDCritical c) (.setShapeDCritical c)
  | solve (x0 x1 : R.F) (te : TermArg R.F) (ivp : Ivp R.F) : FasterOp n (.solve x0 x1 te ivp) (.solve x0 x1 te ivp)

/-! ### Velocities -/

theorem times_sub (n : ℤ) (a b : R.F) : times n a - times n b = times n (a - b) := by
  apply Rounding.F.ext; show R.rd (2 ^ n * a.val - 2 ^ n * b.val) = 2 ^ n * R.rd (a.val - b.val); rw [← mul_sub, rd_zpow]

theorem neg_times (n : ℤ) (a : R.F) : -(times n a) = times n (-a) := by
  apply Rounding.F.ext; show -(2 ^ n * a.val) = 2 ^ n * (-a.val); ring

theorem fd1_scaled {n : ℤ} {f f' : R.F → Except Exc R.F} (h : Scaled n f f') (dx : R.F) : Scaled n (fun x => fd1 f x dx) (fun x => fd1 f' x dx) := by
  intro x
  simp only [fd1, h _]
  rcases f (x - lit 2 * dx) with e | a
  · rfl
  rcases f (x + lit 2 * dx) with e | b
  · rfl
  rcases f (x - dx) with e | c
  · rfl
  rcases f (x + dx) with e | d
  · rfl
  simp only [Except.map, bind, Except.bind, pure, Except.pure, fd1Comb, times_sub, times_div, mul_times]

theorem fd2_scaled {n : ℤ} {f f' : R.F → Except Exc R.F} (h : Scaled n f f') (dx : R.F) : Scaled n (fun x => fd2 f x dx) (fun x => fd2 f' x dx) := by
  intro x
  simp only [fd2, h _]
  rcases f (x - lit 2 * dx) with e | a
  · rfl
  rcases f (x + lit 2 * dx) with e | b
  · rfl
  rcases f x with e | z
  · rfl
  rcases f (x - dx) with e | c
  · rfl
  rcases f (x + dx) with e | d
  · rfl
  simp only [Except.map, bind, Except.bind, pure, Except.pure, fd2Comb, times_sub, times_add, neg_times, times_div, mul_times]

theorem callOpt_scaled {n : ℤ} {v v' : Option (Vel R.F)} (h : FasterVel n v v') {f f' g g' : R.F → Except Exc R.F} (hf : Scaled n f f')
    (hg : Scaled n g g') : Scaled n (callOpt f g v) (callOpt f' g' v') := by
  intro x
  cases h with
  | none => rfl
  | fn a b h => exact h x
  | notCallable => rfl
  | fd1OfU dx => exact fd1_scaled hf dx x
  | fd2OfU dx => exact fd2_scaled hf dx x
  | fd1OfDu dx => exact fd1_scaled hg dx x

private theorem isNone_eq {n : ℤ} {v v' : Option (Vel R.F)} (h : FasterVel n v v') : v'.isNone = v.isNone := by cases h <;> rfl

/-- The velocities of the two objects. -/
theorem velocities {n : ℤ} {v v' : VelState R.F} (hu : FasterVel n v.u v'.u) (hd : FasterVel n v.du v'.du) (he : FasterVel n v.d2u v'.d2u) :
    Scaled n v.uE v'.uE ∧ Scaled n v.duE v'.duE ∧ Scaled n v.d2uE v'.d2uE := by
  have h0 : Scaled n (fun _ : R.F => (.error .typeError : Except Exc R.F)) (fun _ => .error .typeError) := fun _ => rfl
  have h1 : Scaled n v.rawU v'.rawU := callOpt_scaled hu h0 h0
  have h2 : Scaled n v.rawDu v'.rawDu := callOpt_scaled hd h1 h0
  have h3 : Scaled n v.rawD2u v'.rawD2u := callOpt_scaled he h1 h2
  refine ⟨fun x => ?_, fun x => ?_, fun x => ?_⟩
  · simp only [VelState.uE, isNone_eq hu, h1 x]; split_ifs <;> rfl
  · simp only [VelState.duE, isNone_eq hd, h2 x]; split_ifs <;> rfl
  · simp only [VelState.d2uE, isNone_eq he, h3 x]; split_ifs <;> rfl

private theorem floor_eq {u : R.F} (h : (lit (1/1000) : R.F).val ≤ u.val) : Head.floorScalar u = u := by
  rw [Head.floorScalar, if_neg]
  rw [Rounding.F_gt]
  exact not_lt.2 h

private theorem rates_eq (n : ℤ) (nu u du dm h : R.F) : Head.rates (times n nu) (times n u) (times n du) dm h = Head.rates nu u du dm h := by
  simp only [Head.rates, times_mul, mul_times, times_div_times, times_sub]

private theorem headRhs_eq {n : ℤ} {o o' : Obj R.F} (h : Faster n o o') (x dm s : R.F) : o'.headRhs x dm s = o.headRhs x dm s := by
  obtain ⟨h1, h2, -⟩ := velocities h.u h.du h.d2u
  simp only [Obj.headRhs, h1 x, h2 x, h.nu]
  rcases hu : o.vel.uE x with e | u
  · rfl
  obtain ⟨f1, f2⟩ := h.floor x u hu
  simp only [Except.map, bind, Except.bind, floor_eq f1, floor_eq f2]
  rcases o.vel.duE x with e | du
  · rfl
  simp only [pure, Except.pure, rates_eq]

private theorem comp_same {n : ℤ} {o o' : Obj R.F} (h : Faster n o o') (i : ℕ) (x : R.F) : o'.comp i x = o.comp i x := by
  simp only [Obj.comp, Obj.state, h.sol]

/-- **C152**, the queries: the thicknesses and the shape factor are the same, the velocities, their derivatives and the transpiration velocity are `2 ^ n`
times as large. Whatever raises for one object raises the same for the other. -/
theorem float_time_queries (n : ℤ) (o o' : Obj R.F) (h : Faster n o o') (x : R.F) :
    o'.deltaM x = o.deltaM x ∧ o'.shapeD x = o.shapeD x ∧ o'.deltaD x = o.deltaD x ∧ o'.vE x = (o.vE x).map (times n) ∧
    o'.vel.uE x = (o.vel.uE x).map (times n) ∧ o'.vel.duE x = (o.vel.duE x).map (times n) ∧ o'.vel.d2uE x = (o.vel.d2uE x).map (times n) := by
  obtain ⟨v1, v2, v3⟩ := velocities h.u h.du h.d2u
  have h1 : o'.deltaM x = o.deltaM x := by simp only [Obj.deltaM, h.head, h.head', comp_same h]
  have h2 : o'.shapeD x = o.shapeD x := by simp only [Obj.shapeD, h.head, h.head', comp_same h]
  refine ⟨h1, h2, by simp only [Obj.deltaD, h1, h2], ?_, v1 x, v2 x, v3 x⟩
  simp only [Obj.vE, h.head, h.head', Obj.vEHead, comp_same h, headRhs_eq h, v1 x, v2 x]
  rcases o.comp 0 x with e | dm
  · rfl
  rcases o.comp 1 x with e | s
  · rfl
  simp only [bind, Except.bind]
  rcases o.headRhs x dm s with e | yp
  · rfl
  dsimp only
  rcases o.vel.uE x with e | u
  · rfl
  simp only [Except.map]
  rcases o.vel.duE x with e | du
  · rfl
  simp only [pure, Except.pure, times_mul, times_add]

/-! ### Calls -/

private theorem start_same {n : ℤ} {c c' : IC R.F} (h : SameStart n c c') : c'.deltaM = c.deltaM ∧ c'.shapeD = c.shapeD := by
  cases h with
  | stag du nu =>
    refine ⟨?_, rfl⟩
    simp only [IC.deltaM, times_mul, mul_times, pyDiv_times_times]
  | manual => exact ⟨rfl, rfl⟩

private theorem same_prepared {n : ℤ} {c c' : IC R.F} (h : SameStart n c c') {nu : R.F} (hn : PyCmp.le nu (lit 0) = false) :
    ∃ d d', c.setNu nu = .ok d ∧ c'.setNu (times n nu) = .ok d' ∧ SameStart n d d' ∧ ∀ s, SameStart n (d.setDu s) (d'.setDu (times n s)) := by
  cases h with
  | stag du nu0 =>
    refine ⟨.stag du nu, .stag (times n du) (times n nu), by simp [IC.setNu, hn], by simp [IC.setNu, le_times, hn], .stag _ _, fun s => .stag _ _⟩
  | manual du nu0 du' nu0' dD dM dK =>
    exact ⟨.manual du nu dD dM dK, .manual du' (times n nu) dD dM dK, by simp [IC.setNu, hn], by simp [IC.setNu, le_times, hn], .manual .., fun s => .manual ..⟩

/-- **C152**, `solve`: with any integrator the same numbers are integrated, so the result, its text and any exception are the same, and afterwards
the objects are again the same layer. -/
theorem float_time_solve (n : ℤ) (o o' : Obj R.F) (h : Faster n o o') (x0 x1 : R.F) (te : TermArg R.F) (ivp : Ivp R.F) :
    (o'.solve x0 x1 te ivp).2 = (o.solve x0 x1 te ivp).2 ∧ Faster n (o.solve x0 x1 te ivp).1 (o'.solve x0 x1 te ivp).1 := by
  rcases hn : PyCmp.le o.nu (lit 0) with _ | _
  swap
  · have e1 : o.ic.setNu o.nu = .error .valueError := by simp [IC.setNu, hn]
    have e2 : o'.ic.setNu o'.nu = .error .valueError := by simp [IC.setNu, h.nu, le_times, hn]
    simp only [Obj.solve, Obj.prepare, e1, e2]
    exact ⟨trivial, h⟩
  obtain ⟨ic, ic', e1, e2, t1, t2⟩ := same_prepared h.ic hn
  rw [← h.nu] at e2
  obtain ⟨-, v2, -⟩ := velocities h.u h.du h.d2u
  simp only [Obj.solve, Obj.prepare, e1, e2, v2 x0]
  rcases o.vel.duE x0 with e | d
  · exact ⟨rfl, ⟨h.head, h.head', h.nu, h.u, h.du, h.d2u, h.floor, t1, h.events, h.sol, h.fits⟩⟩
  simp only [Except.map]
  obtain ⟨s1, s2⟩ := start_same (t2 d)
  have hs : Obj.startVector ⟨o'.cls, o'.nu, o'.vel, ic'.setDu (times n d), o'.events, o'.sol, o'.fits⟩ =
      Obj.startVector ⟨o.cls, o.nu, o.vel, ic.setDu d, o.events, o.sol, o.fits⟩ := by
    simp only [Obj.startVector, h.head, h.head', s1, s2]
  rw [hs]
  rcases Obj.startVector ⟨o.cls, o.nu, o.vel, ic.setDu d, o.events, o.sol, o.fits⟩ with e | y0
  · exact ⟨rfl, ⟨h.head, h.head', h.nu, h.u, h.du, h.d2u, h.floor, t2 d, h.events, h.sol, h.fits⟩⟩
  have hr : (Obj.rhs ⟨o'.cls, o'.nu, o'.vel, ic'.setDu (times n d), o'.events ++ te.toList, o'.sol, o'.fits⟩ : R.F → List R.F → Except Exc (List R.F)) =
      Obj.rhs ⟨o.cls, o.nu, o.vel, ic.setDu d, o.events ++ te.toList, o.sol, o.fits⟩ := by
    funext x y
    have M : Faster n ⟨o.cls, o.nu, o.vel, ic.setDu d, o.events ++ te.toList, o.sol, o.fits⟩
        ⟨o'.cls, o'.nu, o'.vel, ic'.setDu (times n d), o'.events ++ te.toList, o'.sol, o'.fits⟩ :=
      ⟨h.head, h.head', h.nu, h.u, h.du, h.d2u, h.floor, t2 d, by simp only [h.events], h.sol, h.fits⟩
    have hq := headRhs_eq M
    rcases y with _ | ⟨a, _ | ⟨b, _ | ⟨_, _⟩⟩⟩ <;> simp only [Obj.rhs, h.head, h.head']
    simp only [h.head, h.head'] at hq
    rw [hq]
  dsimp only
  rw [hr, h.events]
  rcases ivp _ with e | r
  · exact ⟨rfl, ⟨h.head, h.head', h.nu, h.u, h.du, h.d2u, h.floor, t2 d, rfl, h.sol, h.fits⟩⟩
  · exact ⟨rfl, ⟨h.head, h.head', h.nu, h.u, h.du, h.d2u, h.floor, t2 d, rfl, rfl, h.fits⟩⟩

private theorem velocity_same {n : ℤ} {o o' : Obj R.F} (h : Faster n o o') {c c' : Callable R.F} {du du' d2u d2u' : Arg R.F}
    (hc : FasterArg n (.callable c) (.callable c')) (hd : FasterArg n du du') (he : FasterArg n d2u d2u') (hf : AboveFloor n c.call) :
    (setVelCallable o'.vel c' du' d2u').2 = (setVelCallable o.vel c du d2u).2 ∧
      Faster n { o with vel := (setVelCallable o.vel c du d2u).1 } { o' with vel := (setVelCallable o'.vel c' du' d2u').1 } := by
  have hfl : ∀ d e : Option (Vel R.F), AboveFloor n (VelState.uE ⟨some (.fn c.call), d, e⟩) := fun d e => hf
  have mk : ∀ d d' e e' : Option (Vel R.F), Scaled n c.call c'.call → FasterVel n d d' → FasterVel n e e' →
      Faster n { o with vel := ⟨some (.fn c.call), d, e⟩ } { o' with vel := ⟨some (.fn c'.call), d', e'⟩ } := fun d d' e e' hs h1 h2 =>
    ⟨h.head, h.head', h.nu, .fn _ _ hs, h1, h2, hfl _ _, h.ic, h.events, h.sol, h.fits⟩
  cases hd with
  | none =>
    cases he with
    | none =>
      cases hc with
      | plain f f' hs => exact ⟨rfl, mk _ _ _ _ hs (.fd1OfU _) (.fd2OfU _)⟩
      | derived f f' d d' e e' hs h1 h2 => exact ⟨rfl, mk _ _ _ _ hs (.fn _ _ h1) (.fn _ _ h2)⟩
    | plain g g' hg =>
      cases hc with
      | plain f f' hs => exact ⟨rfl, mk _ _ _ _ hs h.du h.d2u⟩
      | derived f f' d d' e e' hs h1 h2 => exact ⟨rfl, mk _ _ _ _ hs h.du h.d2u⟩
    | derived g g' a a' b b' hg =>
      cases hc with
      | plain f f' hs => exact ⟨rfl, mk _ _ _ _ hs h.du h.d2u⟩
      | derived f f' d d' e e' hs h1 h2 => exact ⟨rfl, mk _ _ _ _ hs h.du h.d2u⟩
  | plain k k' hk =>
    have hs : Scaled n c.call c'.call := by cases hc <;> assumption
    cases he with
    | none => exact ⟨rfl, mk _ _ _ _ hs (.fn _ _ hk) (.fd1OfDu _)⟩
    | plain g g' hg => exact ⟨rfl, mk _ _ _ _ hs (.fn _ _ hk) (.fn _ _ hg)⟩
    | derived g g' a a' b b' hg => exact ⟨rfl, mk _ _ _ _ hs (.fn _ _ hk) (.fn _ _ hg)⟩
  | derived k k' p p' q q' hk hp hq =>
    have hs : Scaled n c.call c'.call := by cases hc <;> assumption
    cases he with
    | none => exact ⟨rfl, mk _ _ _ _ hs (.fn _ _ hk) (.fn _ _ hp)⟩
    | plain g g' hg => exact ⟨rfl, mk _ _ _ _ hs (.fn _ _ hk) (.fn _ _ hg)⟩
    | derived g g' a a' b b' hg => exact ⟨rfl, mk _ _ _ _ hs (.fn _ _ hk) (.fn _ _ hg)⟩

/-- **C152**, one call: returns or raises the same, and leaves the same layer in the two units. -/
theorem float_time_call (ext : Ext R.F) (n : ℤ) (o o' : Obj R.F) (h : Faster n o o') (op op' : Op R.F) (hop : FasterOp n op op') :
    (o'.step ext op').2 = (o.step ext op).2 ∧ Faster n (o.step ext op).1 (o'.step ext op').1 := by
  cases hop with
  | setNu nu =>
    simp only [Obj.step, Obj.setNu, le_times]
    split_ifs
    · exact ⟨rfl, h⟩
    · exact ⟨rfl, ⟨h.head, h.head', rfl, h.u, h.du, h.d2u, h.floor, h.ic, h.events, h.sol, h.fits⟩⟩
  | setVelocity c c' du du' d2u d2u' hc hd he hf =>
    obtain ⟨h1, h2⟩ := velocity_same h hc hd he hf
    simp only [Obj.step, Obj.setVelocity, setVelocity, h1]
    exact ⟨trivial, h2⟩
  | setInitialCondition ic ic' hi => exact ⟨rfl, ⟨h.head, h.head', h.nu, h.u, h.du, h.d2u, h.floor, hi, h.events, h.sol, h.fits⟩⟩
  | setInitialDeltaM d =>
    simp only [Obj.step, Obj.setInitialDeltaM]
    split_ifs
    · exact ⟨rfl, h⟩
    · refine ⟨rfl, ⟨h.head, h.head', h.nu, h.u, h.du, h.d2u, h.floor, ?_, h.events, h.sol, h.fits⟩⟩
      have hic := h.ic
      show SameStart _ (o.ic.assignDelM d) (o'.ic.assignDelM d)
      generalize o.ic = c at hic
      generalize o'.ic = c' at hic
      cases hic <;> constructor
  | setInitialShapeD d =>
    simp only [Obj.step, h.head, h.head', if_true, Obj.setInitialShapeD, (start_same h.ic).1]
    split_ifs
    · exact ⟨rfl, h⟩
    · rcases o.ic.deltaM with e | m
      · exact ⟨rfl, h⟩
      · refine ⟨rfl, ⟨rfl, rfl, h.nu, h.u, h.du, h.d2u, h.floor, ?_, h.events, h.sol, h.fits⟩⟩
        have hic := h.ic
        show SameStart _ (o.ic.assignDelD (d * m)) (o'.ic.assignDelD (d * m))
        generalize o.ic = c at hic
        generalize o'.ic = c' at hic
        cases hic <;> constructor
  | setShapeDCritical c =>
    simp only [Obj.step, h.head, h.head', if_true]
    exact ⟨trivial, ⟨h.head, h.head', h.nu, h.u, h.du, h.d2u, h.floor, h.ic, rfl, h.sol, h.fits⟩⟩
  | solve x0 x1 te ivp =>
    obtain ⟨h1, h2⟩ := float_time_solve n o o' h x0 x1 te ivp
    simp only [Obj.step, h1]
    exact ⟨trivial, h2⟩

/-- **C152**: after any history of calls the two objects are the same layer in the two units; `float_time_queries` says what they report. -/
theorem float_time_history (ext : Ext R.F) (n : ℤ) (o o' : Obj R.F) (h : Faster n o o') (ops ops' : List (Op R.F))
    (hops : List.Forall₂ (FasterOp n) ops ops') : Faster n (o.run ext ops) (o'.run ext ops') := by
  induction hops generalizing o o' with
  | nil => exact h
  | cons h1 _ ih =>
    simp only [Obj.run, List.foldl_cons]
    exact ih _ _ (float_time_call ext n o o' h _ _ h1).2

/-- **C152**, the start: two Head objects constructed without velocities and with viscosities `nu` and `2 ^ n nu`. One construction raises if and only if the
other one does. -/
theorem float_time_construct [PySpecial R.F] (ext : Ext R.F) (n : ℤ) (nu crit : R.F) :
    (∃ e, Obj.mkHead ext nu .none .none .none crit = .error e ∧ Obj.mkHead ext (times n nu) .none .none .none crit = .error e) ∨
    ∃ o o', Obj.mkHead ext nu .none .none .none crit = .ok o ∧ Obj.mkHead ext (times n nu) .none .none .none crit = .ok o' ∧ Faster n o o' := by
  unfold Obj.mkHead Obj.mkBase
  simp only [IC.mkStag, le_times]
  split_ifs
  · exact .inl ⟨_, rfl, rfl⟩
  · exact .inr ⟨_, _, rfl, rfl, rfl, rfl, rfl, .none, .none, .none, fun x u hu => (by cases hu), .manual .., rfl, rfl, rfl⟩

/-- Non-vacuity: flow along a plate with velocities one and two and a viscosity twice as large. The velocity is set with callables, the second derivative being
computed numerically, the viscosity is set, and the equation integrated successfully (by an integrator that keeps the start value). -/
theorem float_time_case : ∃ (o o' : Obj R.F) (ops ops' : List (Op R.F)) (d : R.F), Faster 1 o o' ∧ List.Forall₂ (FasterOp 1) ops ops' ∧ d.val = 1 ∧
    ∀ ext, (o.run ext ops).deltaM (lit 1) = .ok d ∧ (o'.run ext ops').deltaM (lit 1) = .ok d ∧
      (o.run ext ops).vel.uE (lit 1) = .ok d ∧ (o'.run ext ops').vel.uE (lit 1) = .ok (times 1 d) := by
  let o : R.F → Obj R.F := fun nu => ⟨.head, nu, .empty, .manual (lit 0) (lit 1) (lit 1) (lit 1) (lit 0), [.sepHead (lit 1)], none, none⟩
  let ivp : Ivp R.F := fun p => .ok ⟨true, 0, "", [p.x0, p.x1], [], fun _ => p.y0⟩
  let c : R.F → Callable R.F := fun u => ⟨fun _ => .ok u, none⟩
  let z : Callable R.F := ⟨fun _ => .ok (lit 0), none⟩
  let z' : Callable R.F := ⟨fun _ => .ok (times 1 (lit 0)), none⟩
  let ops : R.F → R.F → Callable R.F → List (Op R.F) := fun nu u z =>
    [.setVelocity (.callable (c u)) (.callable z) .none, .setNu nu, .solve (lit 0) (lit 1) .none ivp]
  have M : Faster 1 (o (lit 1)) (o (times 1 (lit 1))) :=
    ⟨rfl, rfl, rfl, .none, .none, .none, fun x u hu => (by cases hu), .manual .., rfl, rfl, rfl⟩
  have hfl : AboveFloor 1 (c (lit 1)).call := by
    intro x u hu
    obtain rfl := Except.ok.inj hu
    have h1 : (lit (1/1000) : R.F).val ≤ 1 := by
      rw [Rounding.val_lit, ← R.rd_one]; exact R.mono (by norm_num)
    have h2 : (times 1 (lit 1 : R.F)).val = 2 := by
      show (2:ℝ) ^ (1:ℤ) * (lit 1 : R.F).val = 2; rw [Rounding.val_one]; norm_num
    rw [h2, Rounding.val_one]
    exact ⟨h1, h1.trans (by norm_num)⟩
  have Q : List.Forall₂ (FasterOp 1) (ops (lit 1) (lit 1) z) (ops (times 1 (lit 1)) (times 1 (lit 1)) z') :=
    .cons (.setVelocity _ _ _ _ _ _ (.plain _ _ fun _ => rfl) (.plain _ _ fun _ => rfl) .none hfl) (.cons (.setNu _) (.cons (.solve ..) .nil))
  refine ⟨_, _, _, _, lit 1, M, Q, Rounding.val_one, fun ext => ?_⟩
  have H := float_time_history ext 1 _ _ M _ _ Q
  obtain ⟨P1, -, -, -, P2, -⟩ := float_time_queries 1 _ _ H (lit 1)
  have le0 : PyCmp.le (lit 1 : R.F) (lit 0) = false := by
    rw [Bool.eq_false_iff, ne_eq, Rounding.F_le, Rounding.val_zero, Rounding.val_one]; norm_num
  have eq0 : PyCmp.eq (lit 1 : R.F) (lit 0) = false := by
    rw [Bool.eq_false_iff, ne_eq, Rounding.F_eq, Rounding.val_zero, Rounding.val_one]; norm_num
  have E : (o (lit 1)).run ext (ops (lit 1) (lit 1) z) = ⟨.head, lit 1, ⟨some (.fn fun _ => .ok (lit 1)), some (.fn fun _ => .ok (lit 0)), some (.fd1OfDu (lit (1/100000)))⟩,
      .manual (lit 0) (lit 1) (lit 1) (lit 1) (lit 0), [.sepHead (lit 1)], some fun _ => [lit 1, lit 1 / lit 1], none⟩ := by
    simp only [o, ops, ivp, c, z, Obj.run, List.foldl_cons, List.foldl_nil, Obj.step, Obj.setVelocity, setVelocity, setVelCallable, Obj.setNu, le0, Obj.solve, Obj.prepare, IC.setNu,
      VelState.duE, VelState.rawDu, callOpt, Vel.call, Option.isNone, IC.setDu, Obj.startVector, IC.deltaM, IC.shapeD, pyDiv, eq0, bind, Except.bind, pure, Except.pure,
      Bool.false_eq_true, if_false, if_true, TermArg.toList, List.append_nil]
  have D : ((o (lit 1)).run ext (ops (lit 1) (lit 1) z)).deltaM (lit 1) = .ok (lit 1) := by rw [E]; rfl
  have U : ((o (lit 1)).run ext (ops (lit 1) (lit 1) z)).vel.uE (lit 1) = .ok (lit 1) := by rw [E]; rfl
  exact ⟨D, by rw [P1, D], U, by rw [P2, U]; rfl⟩

end IBL
