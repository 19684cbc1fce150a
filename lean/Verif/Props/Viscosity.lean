import Verif.Model.Method
import Mathlib.Analysis.Real.Sqrt
import Mathlib.Tactic.Linarith
import Mathlib.Tactic.LinearCombination

/-!
C132: what the viscosity does to a laminar boundary layer. The same flow with `k` times the viscosity and `sqrt k` times the start thickness
is the same calculation: same integration, same end, same shape factor, and thicknesses, wall shear and transpiration velocity `sqrt k` times as large.
-/

namespace IBL

/-! ### Specification -/

/-- Two initial conditions of the same kind, the second one with a momentum thickness `c` times that of the first. The thickness of a
stagnation condition is left to the condition; what it holds of slope and viscosity is overwritten by `solve`. -/
inductive ThickerIC (c : ℝ) : IC ℝ → IC ℝ → Prop
  | stag (du nu du' nu' : ℝ) : ThickerIC c (.stag du nu) (.stag du' nu')
  | manual (du nu dD dM dK du' nu' dD' dK' : ℝ) : ThickerIC c (.manual du nu dD dM dK) (.manual du' nu' dD' (c * dM) dK')

/-- `o'` is `o` with `k` times the viscosity and an initial condition that is `sqrt k` times as thick. -/
structure MoreViscous (k : ℝ) (o o' : Obj ℝ) : Prop where
  isThwaites : o.cls.isThwaites = true
  cls : o'.cls = o.cls
  nu : o'.nu = k * o.nu
  vel : o'.vel = o.vel
  ic : ThickerIC (Real.sqrt k) o.ic o'.ic
  events : o'.events = o.events
  sol : o'.sol = o.sol
  fits : o'.fits = o.fits

/-- The same call for the fluid with `k` times the viscosity. -/
inductive MoreViscousOp (k : ℝ) : Op ℝ → Op ℝ → Prop
  | setNu (nu : ℝ) : MoreViscousOp k (.setNu nu) (.setNu (k * nu))
  | setVelocity (u du d2u : Arg ℝ) : MoreViscousOp k (.setVelocity u du d2u) (.setVelocity u du d2u)
  | setInitialCondition (ic ic' : IC ℝ) (h : ThickerIC (Real.sqrt k) ic ic') : MoreViscousOp k (.setInitialCondition ic) (.setInitialCondition ic')
  | setInitialDeltaM (d : ℝ) : MoreViscousOp k (.setInitialDeltaM d) (.setInitialDeltaM (Real.sqrt k * d))
  | setDataFits (a : FitsArg ℝ) : MoreViscousOp k (.setDataFits a) (.setDataFits a)
  | solve (x0 x1 : ℝ) (te : TermArg ℝ) (ivp : Ivp ℝ) : MoreViscousOp k (.solve x0 x1 te ivp) (.solve x0 x1 te ivp)

/-! ### Queries -/

private theorem cls_of {o : Obj ℝ} (h : o.cls.isThwaites = true) : o.cls = .thwaitesLinear ∨ o.cls = .thwaitesNonlinear := by
  cases hc : o.cls <;> simp_all [Cls.isThwaites]

private theorem lambda_eq {k : ℝ} {o o' : Obj ℝ} (h : MoreViscous k o o') (x F : ℝ) : o'.calcLambda x F = o.calcLambda x F := by
  simp only [Obj.calcLambda, h.vel]

private theorem thwaitesRhs_eq {k : ℝ} {o o' : Obj ℝ} (h : MoreViscous k o o') (x F : ℝ) : o'.thwaitesRhs x F = o.thwaitesRhs x F := by
  simp only [Obj.thwaitesRhs, Obj.calcF, lambda_eq h, h.cls, h.fits, h.vel]

private theorem comp_eq {k : ℝ} {o o' : Obj ℝ} (h : MoreViscous k o o') (i : ℕ) (x : ℝ) : o'.comp i x = o.comp i x := by
  simp only [Obj.comp, Obj.state, h.sol]

/-- **C132**, the queries: the shape factor and the velocities are the same; the thicknesses, the wall shear and the transpiration velocity are
`sqrt k` times as large. Whatever raises for one fluid raises the same for the other. -/
theorem viscosity_queries (k : ℝ) (hk : 0 < k) (o o' : Obj ℝ) (h : MoreViscous k o o') (x rho : ℝ) :
    o'.shapeD x = o.shapeD x ∧ o'.deltaM x = (o.deltaM x).map (Real.sqrt k * ·) ∧ o'.deltaD x = (o.deltaD x).map (Real.sqrt k * ·) ∧
    o'.tauWThwaites x rho = (o.tauWThwaites x rho).map (Real.sqrt k * ·) ∧ o'.vE x = (o.vE x).map (Real.sqrt k * ·) ∧
    ∀ m y, o'.eventValue (.sepThwaites m) x y = o.eventValue (.sepThwaites m) x y := by
  have hk2 : Real.sqrt k * Real.sqrt k = k := Real.mul_self_sqrt hk.le
  have hs0 : Real.sqrt k ≠ 0 := (Real.sqrt_pos.2 hk).ne'
  have hm : ∀ F, Real.sqrt (F * (k * o.nu)) = Real.sqrt k * Real.sqrt (F * o.nu) := fun F => by
    rw [show F * (k * o.nu) = k * (F * o.nu) by ring, Real.sqrt_mul hk.le]
  have hn : ∀ F, Real.sqrt (k * o.nu / F) = Real.sqrt k * Real.sqrt (o.nu / F) := fun F => by
    rw [mul_div_assoc, Real.sqrt_mul hk.le]
  have h1 : o'.shapeD x = o.shapeD x := by
    simp only [Obj.shapeD, comp_eq h, lambda_eq h, h.cls, h.fits]
  have h2 : o'.deltaM x = (o.deltaM x).map (Real.sqrt k * ·) := by
    rcases cls_of h.isThwaites with hc | hc <;>
    · simp only [Obj.deltaM, h.cls, hc, comp_eq h, h.nu, real_sqrt, hm]
      rcases o.comp 0 x with e | F <;> rfl
  have h3 : o'.deltaD x = (o.deltaD x).map (Real.sqrt k * ·) := by
    simp only [Obj.deltaD, h1, h2]
    rcases o.deltaM x with e | m
    · rfl
    rcases o.shapeD x with e | s
    · rfl
    simp only [Except.map, bind, Except.bind, pure, Except.pure, mul_assoc]
  refine ⟨h1, h2, h3, ?_, ?_, ?_⟩
  · simp only [Obj.tauWThwaites, comp_eq h, lambda_eq h, h.vel, h.fits, h2, h.nu]
    rcases o.comp 0 x with e | F
    · rfl
    simp only [bind, Except.bind]
    rcases o.calcLambda x F with e | lam
    · rfl
    dsimp only
    rcases o.vel.uE x with e | u
    · rfl
    dsimp only
    rcases o.fits with _ | m
    · rfl
    dsimp only
    rcases o.deltaM x with e | d
    · rfl
    simp only [Except.map, pure, Except.pure, Except.ok.injEq]
    by_cases hd : d = 0
    · simp [hd]
    · rw [← mul_div_assoc, div_eq_div_iff (mul_ne_zero hs0 hd) hd]
      linear_combination (-rho * o.nu * u * m.shearAt lam * d) * hk2
  · have hv : o'.vE x = o'.vEThwaites x := by
      rcases cls_of h.isThwaites with hc | hc <;> simp only [Obj.vE, h.cls, hc]
    have hv' : o.vE x = o.vEThwaites x := by
      rcases cls_of h.isThwaites with hc | hc <;> simp only [Obj.vE, hc]
    rw [hv, hv']
    simp only [Obj.vEThwaites, comp_eq h, lambda_eq h, thwaitesRhs_eq h, h.vel, h.fits, h1, h3, h.nu]
    rcases o.comp 0 x with e | F
    · rfl
    simp only [bind, Except.bind]
    rcases o.vel.uE x with e | u
    · rfl
    dsimp only
    rcases o.vel.duE x with e | du
    · rfl
    dsimp only
    rcases o.deltaD x with e | dd
    · rfl
    simp only [Except.map]
    rcases o.thwaitesRhs x F with e | ds
    · rfl
    dsimp only
    rcases o.shapeD x with e | s
    · rfl
    dsimp only
    rcases o.calcLambda x F with e | lam
    · rfl
    dsimp only
    rcases o.fits with _ | m
    · rfl
    dsimp only
    rcases o.vel.d2uE x with e | d2
    · rfl
    simp only [pure, Except.pure, Except.ok.injEq, real_sqrt, hn]
    ring
  · intro m y
    cases y <;> simp only [Obj.eventValue, lambda_eq h]

/-! ### Calls -/

private theorem nonpos_iff {k : ℝ} (hk : 0 < k) (a : ℝ) : k * a ≤ 0 ↔ a ≤ 0 :=
  ⟨fun h => not_lt.1 fun h' => absurd (mul_pos hk h') (not_lt.2 h), fun h => mul_nonpos_of_nonneg_of_nonpos hk.le h⟩

private theorem start_eq {k : ℝ} (hk : 0 < k) {o o' : Obj ℝ} (h : MoreViscous k o o') (hn : 0 < o.nu) (d : ℝ) {ic ic' : IC ℝ}
    (h1 : o.ic.setNu o.nu = .ok ic) (h2 : o'.ic.setNu o'.nu = .ok ic') :
    Obj.startVector { o' with ic := ic'.setDu d } = Obj.startVector { o with ic := ic.setDu d } ∧ ThickerIC (Real.sqrt k) (ic.setDu d) (ic'.setDu d) := by
  have hk2 : Real.sqrt k * Real.sqrt k = k := Real.mul_self_sqrt hk.le
  have hn' : o.nu ≠ 0 := hn.ne'
  have hkn : k * o.nu ≠ 0 := (mul_pos hk hn).ne'
  have le1 : PyCmp.le o.nu (lit 0) = false := by rw [Bool.eq_false_iff]; simp [hn]
  have le2 : PyCmp.le o'.nu (lit 0) = false := by rw [Bool.eq_false_iff, h.nu]; simp [mul_pos hk hn]
  have key : ∀ c c' : IC ℝ, (∀ m, c.deltaM = .ok m → ∃ m', c'.deltaM = .ok m' ∧ m' * m' = k * (m * m)) →
      (∀ e, c.deltaM = .error e → c'.deltaM = .error e) → Obj.startVector { o' with ic := c' } = Obj.startVector { o with ic := c } := by
    intro c c' a1 a2
    have q1 : o.cls ≠ .head := by rcases cls_of h.isThwaites with hc | hc <;> simp [hc]
    rcases hm : c.deltaM with e | m
    · rcases cls_of h.isThwaites with hc | hc <;> simp only [Obj.startVector, h.cls, hc, hm, a2 e hm, bind, Except.bind]
    · obtain ⟨m', e1, e2⟩ := a1 m hm
      have : pyDiv (m' * m') o'.nu = pyDiv (m * m) o.nu := by
        rw [h.nu]
        simp only [pyDiv, real_eq, real_lit, Rat.cast_zero, if_neg hn', if_neg hkn, e2, mul_div_mul_left _ _ hk.ne']
      rcases cls_of h.isThwaites with hc | hc <;> simp only [Obj.startVector, h.cls, hc, hm, e1, this, bind, Except.bind]
  have hic := h.ic
  simp only [IC.setNu, le1, le2] at h1 h2
  generalize hcc : o.ic = c at hic h1
  generalize hcc' : o'.ic = c' at hic h2
  cases hic with
  | stag du nu du' nu' =>
    simp only [Bool.false_eq_true, if_false, Except.ok.injEq] at h1 h2
    subst h1 h2
    refine ⟨key _ _ ?_ ?_, .stag _ _ _ _⟩
    · intro m hm
      simp only [IC.setDu, IC.deltaM, pyDiv, real_eq, bind, Except.bind, pure, Except.pure] at hm ⊢
      split_ifs at hm ⊢ with hz
      simp only [Except.ok.injEq, real_sqrt] at hm ⊢
      refine ⟨_, rfl, ?_⟩
      rw [← hm, h.nu, show k * o.nu * IC.stagEtaM * IC.stagFpp0 / ((IC.stagShapeD + lit 2) * d) =
        k * (o.nu * IC.stagEtaM * IC.stagFpp0 / ((IC.stagShapeD + lit 2) * d)) by ring, Real.sqrt_mul hk.le, mul_mul_mul_comm, hk2]
    · intro e he
      simp only [IC.setDu, IC.deltaM, pyDiv, real_eq, bind, Except.bind, pure, Except.pure] at he ⊢
      split_ifs at he ⊢ with hz
      exact he
  | manual du nu dD dM dK du' nu' dD' dK' =>
    simp only [Bool.false_eq_true, if_false, Except.ok.injEq] at h1 h2
    subst h1 h2
    refine ⟨key _ _ ?_ ?_, .manual ..⟩
    · intro m hm
      simp only [IC.setDu, IC.deltaM, Except.ok.injEq] at hm ⊢
      exact ⟨_, rfl, by rw [← hm, mul_mul_mul_comm, hk2]⟩
    · intro e he
      simp only [IC.setDu, IC.deltaM] at he
      cases he

private theorem setNu_kind (c : IC ℝ) {nu : ℝ} (h : 0 < nu) : ∃ c', c.setNu nu = .ok c' := by
  simp only [IC.setNu, real_le, real_lit, Rat.cast_zero, not_le.2 h, if_false]
  cases c <;> exact ⟨_, rfl⟩

private theorem setNu_thicker (c c' : IC ℝ) {r nu nu' : ℝ} (h : ThickerIC r c c') {d d' : IC ℝ} (h1 : c.setNu nu = .ok d)
    (h2 : c'.setNu nu' = .ok d') : ThickerIC r d d' := by
  simp only [IC.setNu] at h1 h2
  cases h <;> split_ifs at h1 h2 <;> cases h1 <;> cases h2 <;> constructor

/-- **C132**, `solve`: with any integrator the same numbers are integrated, so the result, its text and any exception are the same, and afterwards
the objects are again the same layer in the two fluids. -/
theorem viscosity_solve (k : ℝ) (hk : 0 < k) (o o' : Obj ℝ) (h : MoreViscous k o o') (x0 x1 : ℝ) (te : TermArg ℝ) (ivp : Ivp ℝ) :
    (o'.solve x0 x1 te ivp).2 = (o.solve x0 x1 te ivp).2 ∧ MoreViscous k (o.solve x0 x1 te ivp).1 (o'.solve x0 x1 te ivp).1 := by
  by_cases hn : 0 < o.nu
  swap
  · have e1 : o.ic.setNu o.nu = .error .valueError := by simp [IC.setNu, not_lt.1 hn]
    have e2 : o'.ic.setNu o'.nu = .error .valueError := by
      have : k * o.nu ≤ 0 := mul_nonpos_of_nonneg_of_nonpos hk.le (not_lt.1 hn)
      simp [IC.setNu, h.nu, this]
    simp only [Obj.solve, Obj.prepare, e1, e2]
    exact ⟨trivial, h⟩
  obtain ⟨ic, e1⟩ := setNu_kind o.ic hn
  obtain ⟨ic', e2⟩ := setNu_kind o'.ic (nu := o'.nu) (by rw [h.nu]; exact mul_pos hk hn)
  have t1 : ThickerIC (Real.sqrt k) ic ic' := setNu_thicker _ _ h.ic e1 e2
  simp only [Obj.solve, Obj.prepare, e1, e2, h.vel]
  rcases o.vel.duE x0 with e | d
  · exact ⟨rfl, ⟨h.isThwaites, h.cls, h.nu, rfl, t1, h.events, h.sol, h.fits⟩⟩
  dsimp only
  obtain ⟨s1, s2⟩ := start_eq hk h hn d e1 e2
  rw [show Obj.startVector ⟨o'.cls, o'.nu, o.vel, ic'.setDu d, o'.events, o'.sol, o'.fits⟩ =
    Obj.startVector { o' with ic := ic'.setDu d } by rw [← h.vel], s1]
  rcases Obj.startVector { o with ic := ic.setDu d } with e | y0
  · exact ⟨rfl, ⟨h.isThwaites, h.cls, h.nu, rfl, s2, h.events, h.sol, h.fits⟩⟩
  have hr : (Obj.rhs ⟨o'.cls, o'.nu, o.vel, ic'.setDu d, o'.events ++ te.toList, o'.sol, o'.fits⟩ : ℝ → List ℝ → Except Exc (List ℝ)) =
      Obj.rhs ⟨o.cls, o.nu, o.vel, ic.setDu d, o.events ++ te.toList, o.sol, o.fits⟩ := by
    funext x y
    have M : MoreViscous k ⟨o.cls, o.nu, o.vel, ic.setDu d, o.events ++ te.toList, o.sol, o.fits⟩
        ⟨o'.cls, o'.nu, o.vel, ic'.setDu d, o'.events ++ te.toList, o'.sol, o'.fits⟩ :=
      ⟨h.isThwaites, h.cls, h.nu, rfl, s2, by simp only [h.events], h.sol, h.fits⟩
    have hq := thwaitesRhs_eq M
    rcases cls_of h.isThwaites with hc | hc <;> rcases y with _ | ⟨F, _ | ⟨_, _⟩⟩ <;>
      simp only [Obj.rhs, h.cls, hc] <;> simp only [h.cls, hc] at hq <;> rw [hq]
  dsimp only
  rw [hr, h.events]
  rcases ivp _ with e | r
  · exact ⟨rfl, ⟨h.isThwaites, h.cls, h.nu, rfl, s2, rfl, h.sol, h.fits⟩⟩
  · exact ⟨rfl, ⟨h.isThwaites, h.cls, h.nu, rfl, s2, rfl, rfl, h.fits⟩⟩

/-- **C132**, one call: returns or raises the same, and leaves the same layer in the two fluids. -/
theorem viscosity_call (ext : Ext ℝ) (k : ℝ) (hk : 0 < k) (o o' : Obj ℝ) (h : MoreViscous k o o') (op op' : Op ℝ) (hop : MoreViscousOp k op op') :
    (o'.step ext op').2 = (o.step ext op).2 ∧ MoreViscous k (o.step ext op).1 (o'.step ext op').1 := by
  cases hop with
  | setNu nu =>
    have : k * nu ≤ 0 ↔ nu ≤ 0 := nonpos_iff hk nu
    simp only [Obj.step, Obj.setNu, real_le, real_lit, Rat.cast_zero, this]
    split_ifs
    · exact ⟨rfl, h⟩
    · exact ⟨rfl, ⟨h.isThwaites, h.cls, rfl, h.vel, h.ic, h.events, h.sol, h.fits⟩⟩
  | setVelocity u du d2u =>
    simp only [Obj.step, Obj.setVelocity, h.vel]
    exact ⟨trivial, ⟨h.isThwaites, h.cls, h.nu, rfl, h.ic, h.events, h.sol, h.fits⟩⟩
  | setInitialCondition ic ic' hi => exact ⟨rfl, ⟨h.isThwaites, h.cls, h.nu, h.vel, hi, h.events, h.sol, h.fits⟩⟩
  | setInitialDeltaM d =>
    have : Real.sqrt k * d ≤ 0 ↔ d ≤ 0 := nonpos_iff (Real.sqrt_pos.2 hk) d
    simp only [Obj.step, Obj.setInitialDeltaM, real_le, real_lit, Rat.cast_zero, this]
    split_ifs
    · exact ⟨rfl, h⟩
    · refine ⟨rfl, ⟨h.isThwaites, h.cls, h.nu, h.vel, ?_, h.events, h.sol, h.fits⟩⟩
      have hic := h.ic
      show ThickerIC _ (o.ic.assignDelM d) (o'.ic.assignDelM (Real.sqrt k * d))
      generalize o.ic = c at hic
      generalize o'.ic = c' at hic
      cases hic <;> constructor
  | setDataFits a =>
    simp only [Obj.step, h.cls, h.isThwaites, if_true, Obj.setDataFits]
    rcases chooseFits ext a with e | m
    · exact ⟨rfl, h⟩
    · exact ⟨rfl, ⟨h.isThwaites, rfl, h.nu, h.vel, h.ic, rfl, h.sol, rfl⟩⟩
  | solve x0 x1 te ivp =>
    obtain ⟨h1, h2⟩ := viscosity_solve k hk o o' h x0 x1 te ivp
    simp only [Obj.step, h1]
    exact ⟨trivial, h2⟩

/-- **C132**: after any history of calls the two objects are the same layer in the two fluids; `viscosity_queries` says what they report. -/
theorem viscosity_history (ext : Ext ℝ) (k : ℝ) (hk : 0 < k) (o o' : Obj ℝ) (h : MoreViscous k o o') (ops ops' : List (Op ℝ))
    (hops : List.Forall₂ (MoreViscousOp k) ops ops') : MoreViscous k (o.run ext ops) (o'.run ext ops') := by
  induction hops generalizing o o' with
  | nil => exact h
  | cons h1 _ ih =>
    simp only [Obj.run, List.foldl_cons]
    exact ih _ _ (viscosity_call ext k hk o o' h _ _ h1).2

/-- **C132**, the start: two Thwaites objects constructed with viscosities `nu` and `k nu`, otherwise alike, and then given initial conditions that differ by
the factor `sqrt k`. (The built-in condition has infinite momentum thickness.) One construction raises if and only if the other one does. -/
theorem viscosity_construct [PySpecial ℝ] (ext : Ext ℝ) (k : ℝ) (hk : 0 < k) (linear : Bool) (nu : ℝ) (u du d2u : Arg ℝ) (fits : FitsArg ℝ)
    (ic ic' : IC ℝ) (hi : ThickerIC (Real.sqrt k) ic ic') :
    (∃ e, Obj.mkThwaites ext linear nu u du d2u fits = .error e ∧ Obj.mkThwaites ext linear (k * nu) u du d2u fits = .error e) ∨
    ∃ o o', Obj.mkThwaites ext linear nu u du d2u fits = .ok o ∧ Obj.mkThwaites ext linear (k * nu) u du d2u fits = .ok o' ∧
      MoreViscous k (o.setInitialCondition ic) (o'.setInitialCondition ic') := by
  have hnu : k * nu ≤ 0 ↔ nu ≤ 0 := nonpos_iff hk nu
  have hT : (if linear then Cls.thwaitesLinear else Cls.thwaitesNonlinear).isThwaites = true := by cases linear <;> rfl
  have base : ∀ cls jc, (∃ e, Obj.mkBase ext cls nu u du d2u jc = .error e ∧ Obj.mkBase ext cls (k * nu) u du d2u jc = .error e) ∨
      ∃ o o', Obj.mkBase ext cls nu u du d2u jc = .ok o ∧ Obj.mkBase ext cls (k * nu) u du d2u jc = .ok o' ∧
        o.cls = cls ∧ o'.cls = o.cls ∧ o'.nu = k * o.nu ∧ o'.vel = o.vel ∧ o'.sol = o.sol := by
    intro cls jc
    unfold Obj.mkBase
    simp only [IC.mkStag, real_le, real_lit, Rat.cast_zero, hnu]
    split_ifs with hneg
    · exact .inl ⟨_, rfl, rfl⟩
    dsimp only [Obj.setVelocity, Obj.setInitialCondition]
    cases u <;> dsimp only
    case none => cases du <;> dsimp only <;> (try exact .inl ⟨_, rfl, rfl⟩); cases d2u <;> dsimp only <;>
                  first | exact .inl ⟨_, rfl, rfl⟩ | exact .inr ⟨_, _, rfl, rfl, rfl, rfl, rfl, rfl, rfl⟩
    all_goals
      generalize setVelocity ext.pchip VelState.empty _ du d2u = r
      obtain ⟨v, e | ⟨⟩⟩ := r
      · exact .inl ⟨_, rfl, rfl⟩
      · exact .inr ⟨_, _, rfl, rfl, rfl, rfl, rfl, rfl, rfl⟩
  unfold Obj.mkThwaites
  rcases base (if linear then .thwaitesLinear else .thwaitesNonlinear) (IC.mkManual (lit 0) PySpecial.inf (lit 0)) with ⟨e, e1, e2⟩ | ⟨o, o', e1, e2, h1, h2, h3, h4, h5⟩
  · rw [e1, e2]; exact .inl ⟨_, rfl, rfl⟩
  · rw [e1, e2]
    simp only [Obj.setDataFits]
    rcases chooseFits ext fits with e | m
    · exact .inl ⟨_, rfl, rfl⟩
    · exact .inr ⟨_, _, rfl, rfl, by show o.cls.isThwaites = true; rw [h1]; exact hT, h2, h3, h4, hi, rfl, h5, rfl⟩

/-- Non-vacuity: stagnation flow `u_e = x` in a fluid and in one four times as viscous, started with the stagnation condition. The viscosity is set, the
equation integrated (an integrator that keeps the start value) and successfully; the momentum thickness is positive and doubled. -/
example : ∃ (o o' : Obj ℝ) (ops ops' : List (Op ℝ)) (d : ℝ), MoreViscous 4 o o' ∧ List.Forall₂ (MoreViscousOp 4) ops ops' ∧ 0 < d ∧
    ∀ ext, (o.run ext ops).deltaM 1 = .ok d ∧ (o'.run ext ops').deltaM 1 = .ok (2 * d) := by
  let vel : VelState ℝ := ⟨some (.fn fun x => .ok x), some (.fn fun _ => .ok 1), some (.fn fun _ => .ok 0)⟩
  let o : ℝ → Obj ℝ := fun nu => ⟨.thwaitesLinear, nu, vel, .stag 0 5, [.sepThwaites Fits.drela], none, some Fits.drela⟩
  let ivp : Ivp ℝ := fun p => .ok ⟨true, 0, "", [p.x0, p.x1], [], fun _ => p.y0⟩
  let ops : ℝ → List (Op ℝ) := fun nu => [.setNu nu, .solve 0 1 .none ivp]
  have M : MoreViscous 4 (o 3) (o (4 * 3)) := ⟨rfl, rfl, rfl, rfl, .stag .., rfl, rfl, rfl⟩
  have R : List.Forall₂ (MoreViscousOp 4) (ops 2) (ops (4 * 2)) := .cons (.setNu _) (.cons (.solve ..) .nil)
  have h4 : Real.sqrt 4 = 2 := by rw [show (4 : ℝ) = 2 ^ 2 by norm_num, Real.sqrt_sq (by norm_num)]
  refine ⟨o 3, o (4 * 3), ops 2, ops (4 * 2), ?_, M, R, ?_, ?_⟩
  rotate_left 2
  · intro ext
    have H := viscosity_history ext 4 (by norm_num) _ _ M _ _ R
    have Q := (viscosity_queries 4 (by norm_num) _ _ H 1 1).2.1
    have D : ((o 3).run ext (ops 2)).deltaM 1 = .ok (Real.sqrt (Real.sqrt (2 * (29235/100000) * (123259/100000) / ((22162/10000 + 2) * 1)) *
        Real.sqrt (2 * (29235/100000) * (123259/100000) / ((22162/10000 + 2) * 1)) / 2 * 2)) := by
      have hdu : vel.duE 0 = .ok 1 := by simp [vel, VelState.duE, VelState.rawDu, callOpt, Vel.call]
      norm_num [o, ops, ivp, hdu, Obj.run, Obj.step, Obj.setNu, Obj.solve, Obj.prepare, IC.setNu, IC.setDu, TermArg.toList, Obj.startVector, IC.deltaM, IC.stagEtaM, IC.stagFpp0, IC.stagShapeD, pyDiv, Obj.deltaM, Obj.comp, Obj.state, bind, Except.bind,
        pure, Except.pure]
    exact ⟨D, by rw [Q, D, h4]; rfl⟩
  · positivity

end IBL
