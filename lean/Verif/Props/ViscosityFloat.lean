import Verif.Model.Method
import Verif.Round
import Mathlib.Tactic.Linarith

/-!
C149: the viscosity in rounded arithmetic. With `4 ^ n` times the viscosity and `2 ^ n` times the start thickness every rounding of a laminar
calculation is the same, so the results are exactly those of C132, to the last digit.
-/

set_option linter.unusedSectionVars false

namespace IBL

variable {R : Rounding}

/-! ### Specification -/

theorem rd_zpow (n : ℤ) (x : ℝ) : R.rd (2 ^ n * x) = 2 ^ n * R.rd x := by
  have two : ∀ y, R.rd (2⁻¹ * y) = 2⁻¹ * R.rd y := fun y => by
    have := R.dbl (2⁻¹ * y)
    rw [← mul_assoc, mul_inv_cancel₀ (two_ne_zero), one_mul] at this
    rw [this, ← mul_assoc, inv_mul_cancel₀ (two_ne_zero), one_mul]
  induction n using Int.induction_on generalizing x with
  | zero => simp
  | succ i ih => rw [zpow_add_one₀ two_ne_zero, mul_assoc, ih, R.dbl, mul_assoc]
  | pred i ih => rw [zpow_sub_one₀ two_ne_zero, mul_assoc, ih, two, mul_assoc]

/-- The number multiplied by `2 ^ n`, which is representable again. -/
noncomputable def times (n : ℤ) (a : R.F) : R.F := ⟨2 ^ n * a.val, by rw [rd_zpow, a.rep]⟩

/-- Two initial conditions of the same kind, the second one with a momentum thickness `2 ^ n` times that of the first. The thickness of a
stagnation condition is left to the condition; what it holds of slope and viscosity is overwritten by `solve`. -/
inductive ThickerFloat (n : ℤ) : IC R.F → IC R.F → Prop
  | stag (du nu du' nu' : R.F) : ThickerFloat n (.stag du nu) (.stag du' nu')
  | manual (du nu dD dM dK du' nu' dD' dK' : R.F) : ThickerFloat n (.manual du nu dD dM dK) (.manual du' nu' dD' (times n dM) dK')

variable [PyPow R.F]

/-- `o'` is `o` with `4 ^ n` times the viscosity and an initial condition that is `2 ^ n` times as thick. -/
structure ViscousFloat (n : ℤ) (o o' : Obj R.F) : Prop where
  isThwaites : o.cls.isThwaites = true
  cls : o'.cls = o.cls
  nu : o'.nu = times (2 * n) o.nu
  vel : o'.vel = o.vel
  ic : ThickerFloat n o.ic o'.ic
  events : o'.events = o.events
  sol : o'.sol = o.sol
  fits : o'.fits = o.fits

/-- The same call for the fluid with `4 ^ n` times the viscosity. -/
inductive ViscousFloatOp (n : ℤ) : Op R.F → Op R.F → Prop
  | setNu (nu : R.F) : ViscousFloatOp n (.setNu nu) (.setNu (times (2 * n) nu))
  | setVelocity (u du d2u : Arg R.F) : ViscousFloatOp n (.setVelocity u du d2u) (.setVelocity u du d2u)
  | setInitialCondition (ic ic' : IC R.F) (h : ThickerFloat n ic ic') : ViscousFloatOp n (.setInitialCondition ic) (.setInitialCondition ic')
  | setInitialDeltaM (d : R.F) : ViscousFloatOp n (.setInitialDeltaM d) (.setInitialDeltaM (times n d))
  | setDataFits (a : FitsArg R.F) : ViscousFloatOp n (.setDataFits a) (.setDataFits a)
  | solve (x0 x1 : R.F) (te : TermArg R.F) (ivp : Ivp R.F) : ViscousFloatOp n (.solve x0 x1 te ivp) (.solve x0 x1 te ivp)

/-! ### Exact multiples -/

private theorem pp (n : ℤ) : (0:ℝ) < 2 ^ n := zpow_pos two_pos n

theorem times_mul (n : ℤ) (a b : R.F) : times n a * b = times n (a * b) := by
  apply Rounding.F.ext; show R.rd (2 ^ n * a.val * b.val) = 2 ^ n * R.rd (a.val * b.val); rw [mul_assoc, rd_zpow]
theorem mul_times (n : ℤ) (a b : R.F) : a * times n b = times n (a * b) := by
  apply Rounding.F.ext; show R.rd (a.val * (2 ^ n * b.val)) = 2 ^ n * R.rd (a.val * b.val); rw [mul_left_comm, rd_zpow]
theorem times_div (n : ℤ) (a b : R.F) : times n a / b = times n (a / b) := by
  apply Rounding.F.ext; show R.rd (2 ^ n * a.val / b.val) = 2 ^ n * R.rd (a.val / b.val); rw [mul_div_assoc, rd_zpow]
theorem times_add (n : ℤ) (a b : R.F) : times n a + times n b = times n (a + b) := by
  apply Rounding.F.ext; show R.rd (2 ^ n * a.val + 2 ^ n * b.val) = 2 ^ n * R.rd (a.val + b.val); rw [← mul_add, rd_zpow]
theorem times_two_mul (n : ℤ) (a : R.F) : times (2 * n) a = times n (times n a) := by
  apply Rounding.F.ext; show 2 ^ (2 * n) * a.val = 2 ^ n * (2 ^ n * a.val); rw [two_mul, zpow_add₀ two_ne_zero, mul_assoc]
theorem times_div_times (n : ℤ) (a b : R.F) : times n a / times n b = a / b := by
  apply Rounding.F.ext; show R.rd (2 ^ n * a.val / (2 ^ n * b.val)) = R.rd (a.val / b.val); rw [mul_div_mul_left _ _ (pp n).ne']
theorem sqrt_times (n : ℤ) (a : R.F) : PySqrt.sqrt (times (2 * n) a) = times n (PySqrt.sqrt a) := by
  apply Rounding.F.ext
  show R.rd (Real.sqrt (2 ^ (2 * n) * a.val)) = 2 ^ n * R.rd (Real.sqrt a.val)
  rw [two_mul, zpow_add₀ two_ne_zero, Real.sqrt_mul (mul_self_nonneg _), Real.sqrt_mul_self (pp n).le, rd_zpow]
theorem le_times (n : ℤ) (a : R.F) : PyCmp.le (times n a) (lit 0) = PyCmp.le a (lit 0) := by
  rw [Bool.eq_iff_iff, Rounding.F_le, Rounding.F_le, Rounding.val_zero]
  show 2 ^ n * a.val ≤ 0 ↔ _
  constructor
  · intro h; by_contra hc; exact absurd (mul_pos (pp n) (not_le.1 hc)) (not_lt.2 h)
  · exact mul_nonpos_of_nonneg_of_nonpos (pp n).le
theorem eq_times (n : ℤ) (a : R.F) : PyCmp.eq (times n a) (lit 0) = PyCmp.eq a (lit 0) := by
  rw [Bool.eq_iff_iff, Rounding.F_eq, Rounding.F_eq, Rounding.val_zero]
  show 2 ^ n * a.val = 0 ↔ _
  rw [mul_eq_zero]; simp [(pp n).ne']

theorem pyDiv_times (n : ℤ) (a b : R.F) : pyDiv (times n a) b = (pyDiv a b).map (times n) := by
  simp only [pyDiv, times_div]; split_ifs <;> rfl
theorem pyDiv_times_times (n : ℤ) (a b : R.F) : pyDiv (times n a) (times n b) = pyDiv a b := by
  simp only [pyDiv, eq_times, times_div_times]

/-! ### Queries -/

private theorem cls_of {o : Obj R.F} (h : o.cls.isThwaites = true) : o.cls = .thwaitesLinear ∨ o.cls = .thwaitesNonlinear := by
  cases hc : o.cls <;> simp_all [Cls.isThwaites]

private theorem lambda_eq {n : ℤ} {o o' : Obj R.F} (h : ViscousFloat n o o') (x F : R.F) : o'.calcLambda x F = o.calcLambda x F := by
  simp only [Obj.calcLambda, h.vel]

private theorem thwaitesRhs_eq {n : ℤ} {o o' : Obj R.F} (h : ViscousFloat n o o') (x F : R.F) : o'.thwaitesRhs x F = o.thwaitesRhs x F := by
  simp only [Obj.thwaitesRhs, Obj.calcF, lambda_eq h, h.cls, h.fits, h.vel]

private theorem comp_eq {n : ℤ} {o o' : Obj R.F} (h : ViscousFloat n o o') (i : ℕ) (x : R.F) : o'.comp i x = o.comp i x := by
  simp only [Obj.comp, Obj.state, h.sol]

/-- **C149**, the queries: the shape factor and the velocities are the same; the thicknesses, the wall shear and the transpiration velocity are
`2 ^ n` times as large. Whatever raises for one fluid raises the same for the other. -/
theorem float_viscosity_queries (n : ℤ) (o o' : Obj R.F) (h : ViscousFloat n o o') (x rho : R.F) :
    o'.shapeD x = o.shapeD x ∧ o'.deltaM x = (o.deltaM x).map (times n) ∧ o'.deltaD x = (o.deltaD x).map (times n) ∧
    o'.tauWThwaites x rho = (o.tauWThwaites x rho).map (times n) ∧ o'.vE x = (o.vE x).map (times n) ∧
    ∀ m y, o'.eventValue (.sepThwaites m) x y = o.eventValue (.sepThwaites m) x y := by
  have h1 : o'.shapeD x = o.shapeD x := by
    simp only [Obj.shapeD, comp_eq h, lambda_eq h, h.cls, h.fits]
  have h2 : o'.deltaM x = (o.deltaM x).map (times n) := by
    rcases cls_of h.isThwaites with hc | hc <;>
    · simp only [Obj.deltaM, h.cls, hc, comp_eq h, h.nu, mul_times, sqrt_times]
      rcases o.comp 0 x with e | F <;> rfl
  have h3 : o'.deltaD x = (o.deltaD x).map (times n) := by
    simp only [Obj.deltaD, h1, h2]
    rcases o.deltaM x with e | m
    · rfl
    rcases o.shapeD x with e | s
    · rfl
    simp only [Except.map, bind, Except.bind, pure, Except.pure, times_mul]
  refine ⟨h1, h2, h3, ?_, ?_, ?_⟩
  · simp only [Obj.tauWThwaites, comp_eq h, lambda_eq h, h.vel, h.fits, h2, h.nu]
    rcases o.comp 0 x with e | F
    · rfl
    simp only [bind, Except.bind]
    rcases o.calcLambda x F with e | lam
    · rfl
    dsimp only
    rcases o.vel.uE x with e | u
    · rfl
    dsimp only
    rcases o.fits with _ | m
    · rfl
    dsimp only
    rcases o.deltaM x with e | d
    · rfl
    simp only [Except.map, pure, Except.pure, Except.ok.injEq]
    rw [times_two_mul, mul_times, mul_times, times_mul, times_mul, times_mul, times_mul, times_div_times, times_div]
  · have hv : o'.vE x = o'.vEThwaites x := by
      rcases cls_of h.isThwaites with hc | hc <;> simp only [Obj.vE, h.cls, hc]
    have hv' : o.vE x = o.vEThwaites x := by
      rcases cls_of h.isThwaites with hc | hc <;> simp only [Obj.vE, hc]
    rw [hv, hv']
    simp only [Obj.vEThwaites, comp_eq h, lambda_eq h, thwaitesRhs_eq h, h.vel, h.fits, h1, h3, h.nu]
    rcases o.comp 0 x with e | F
    · rfl
    simp only [bind, Except.bind]
    rcases o.vel.uE x with e | u
    · rfl
    dsimp only
    rcases o.vel.duE x with e | du
    · rfl
    dsimp only
    rcases o.deltaD x with e | dd
    · rfl
    simp only [Except.map]
    rcases o.thwaitesRhs x F with e | ds
    · rfl
    dsimp only
    rcases o.shapeD x with e | s
    · rfl
    dsimp only
    rcases o.calcLambda x F with e | lam
    · rfl
    dsimp only
    rcases o.fits with _ | m
    · rfl
    dsimp only
    rcases o.vel.d2uE x with e | d2
    · rfl
    simp only [pure, Except.pure, times_div, sqrt_times, mul_times, times_mul, times_add]
  · intro m y
    cases y <;> simp only [Obj.eventValue, lambda_eq h]

/-! ### Calls -/

private theorem start_eq {n : ℤ} {o o' : Obj R.F} (h : ViscousFloat n o o') (hn : PyCmp.le o.nu (lit 0) = false) (d : R.F) {ic ic' : IC R.F}
    (h1 : o.ic.setNu o.nu = .ok ic) (h2 : o'.ic.setNu o'.nu = .ok ic') :
    Obj.startVector { o' with ic := ic'.setDu d } = Obj.startVector { o with ic := ic.setDu d } ∧ ThickerFloat n (ic.setDu d) (ic'.setDu d) := by
  have hn' : PyCmp.le o'.nu (lit 0) = false := by rw [h.nu, le_times]; exact hn
  have key : ∀ c c' : IC R.F, c'.deltaM = c.deltaM.map (times n) → Obj.startVector { o' with ic := c' } = Obj.startVector { o with ic := c } := by
    intro c c' a1
    rcases hm : c.deltaM with e | m
    · rw [hm] at a1
      rcases cls_of h.isThwaites with hc | hc <;> simp only [Obj.startVector, h.cls, hc, hm, a1, Except.map, bind, Except.bind]
    · rw [hm] at a1
      have : pyDiv (times n m * times n m) o'.nu = pyDiv (m * m) o.nu := by
        rw [h.nu, mul_times, times_mul, ← times_two_mul, pyDiv_times_times]
      rcases cls_of h.isThwaites with hc | hc <;> simp only [Obj.startVector, h.cls, hc, hm, a1, Except.map, this, bind, Except.bind]
  have hic := h.ic
  simp only [IC.setNu, hn, hn'] at h1 h2
  generalize hcc : o.ic = c at hic h1
  generalize hcc' : o'.ic = c' at hic h2
  cases hic with
  | stag du nu du' nu' =>
    simp only [Bool.false_eq_true, if_false, Except.ok.injEq] at h1 h2
    subst h1 h2
    refine ⟨key _ _ ?_, .stag _ _ _ _⟩
    simp only [IC.setDu, IC.deltaM, h.nu, times_mul, pyDiv_times]
    rcases pyDiv (o.nu * IC.stagEtaM * IC.stagFpp0) ((IC.stagShapeD + lit 2) * d) with e | q
    · rfl
    · simp only [Except.map, bind, Except.bind, pure, Except.pure, sqrt_times]
  | manual du nu dD dM dK du' nu' dD' dK' =>
    simp only [Bool.false_eq_true, if_false, Except.ok.injEq] at h1 h2
    subst h1 h2
    exact ⟨key _ _ rfl, .manual ..⟩

private theorem setNu_kind (c : IC R.F) {nu : R.F} (h : PyCmp.le nu (lit 0) = false) : ∃ c', c.setNu nu = .ok c' := by
  simp only [IC.setNu, h]
  cases c <;> exact ⟨_, rfl⟩

private theorem setNu_thicker (c c' : IC R.F) {n : ℤ} {nu nu' : R.F} (h : ThickerFloat n c c') {d d' : IC R.F} (h1 : c.setNu nu = .ok d)
    (h2 : c'.setNu nu' = .ok d') : ThickerFloat n d d' := by
  simp only [IC.setNu] at h1 h2
  cases h <;> split_ifs at h1 h2 <;> cases h1 <;> cases h2 <;> constructor

/-- **C149**, `solve`: with any integrator the same numbers are integrated, so the result, its text and any exception are the same, and afterwards
the objects are again the same layer in the two fluids. -/
theorem float_viscosity_solve (n : ℤ) (o o' : Obj R.F) (h : ViscousFloat n o o') (x0 x1 : R.F) (te : TermArg R.F) (ivp : Ivp R.F) :
    (o'.solve x0 x1 te ivp).2 = (o.solve x0 x1 te ivp).2 ∧ ViscousFloat n (o.solve x0 x1 te ivp).1 (o'.solve x0 x1 te ivp).1 := by
  rcases hn : PyCmp.le o.nu (lit 0) with _ | _
  swap
  · have e1 : o.ic.setNu o.nu = .error .valueError := by simp [IC.setNu, hn]
    have e2 : o'.ic.setNu o'.nu = .error .valueError := by
      simp [IC.setNu, h.nu, le_times, hn]
    simp only [Obj.solve, Obj.prepare, e1, e2]
    exact ⟨trivial, h⟩
  obtain ⟨ic, e1⟩ := setNu_kind o.ic hn
  obtain ⟨ic', e2⟩ := setNu_kind o'.ic (nu := o'.nu) (by rw [h.nu, le_times]; exact hn)
  have t1 : ThickerFloat n ic ic' := setNu_thicker _ _ h.ic e1 e2
  simp only [Obj.solve, Obj.prepare, e1, e2, h.vel]
  rcases o.vel.duE x0 with e | d
  · exact ⟨rfl, ⟨h.isThwaites, h.cls, h.nu, rfl, t1, h.events, h.sol, h.fits⟩⟩
  dsimp only
  obtain ⟨s1, s2⟩ := start_eq h hn d e1 e2
  rw [show Obj.startVector ⟨o'.cls, o'.nu, o.vel, ic'.setDu d, o'.events, o'.sol, o'.fits⟩ =
    Obj.startVector { o' with ic := ic'.setDu d } by rw [← h.vel], s1]
  rcases Obj.startVector { o with ic := ic.setDu d } with e | y0
  · exact ⟨rfl, ⟨h.isThwaites, h.cls, h.nu, rfl, s2, h.events, h.sol, h.fits⟩⟩
  have hr : (Obj.rhs ⟨o'.cls, o'.nu, o.vel, ic'.setDu d, o'.events ++ te.toList, o'.sol, o'.fits⟩ : R.F → List R.F → Except Exc (List R.F)) =
      Obj.rhs ⟨o.cls, o.nu, o.vel, ic.setDu d, o.events ++ te.toList, o.sol, o.fits⟩ := by
    funext x y
    have M : ViscousFloat n ⟨o.cls, o.nu, o.vel, ic.setDu d, o.events ++ te.toList, o.sol, o.fits⟩
        ⟨o'.cls, o'.nu, o.vel, ic'.setDu d, o'.events ++ te.toList, o'.sol, o'.fits⟩ :=
      ⟨h.isThwaites, h.cls, h.nu, rfl, s2, by simp only [h.events], h.sol, h.fits⟩
    have hq := thwaitesRhs_eq M
    rcases cls_of h.isThwaites with hc | hc <;> rcases y with _ | ⟨F, _ | ⟨_, _⟩⟩ <;>
      simp only [Obj.rhs, h.cls, hc] <;> simp only [h.cls, hc] at hq <;> rw [hq]
  dsimp only
  rw [hr, h.events]
  rcases ivp _ with e | r
  · exact ⟨rfl, ⟨h.isThwaites, h.cls, h.nu, rfl, s2, rfl, h.sol, h.fits⟩⟩
  · exact ⟨rfl, ⟨h.isThwaites, h.cls, h.nu, rfl, s2, rfl, rfl, h.fits⟩⟩

/-- **C149**, one call: returns or raises the same, and leaves the same layer in the two fluids. -/
theorem float_viscosity_call (ext : Ext R.F) (n : ℤ) (o o' : Obj R.F) (h : ViscousFloat n o o') (op op' : Op R.F) (hop : ViscousFloatOp n op op') :
    (o'.step ext op').2 = (o.step ext op).2 ∧ ViscousFloat n (o.step ext op).1 (o'.step ext op').1 := by
  cases hop with
  | setNu nu =>
    simp only [Obj.step, Obj.setNu, le_times]
    split_ifs
    · exact ⟨rfl, h⟩
    · exact ⟨rfl, ⟨h.isThwaites, h.cls, rfl, h.vel, h.ic, h.events, h.sol, h.fits⟩⟩
  | setVelocity u du d2u =>
    simp only [Obj.step, Obj.setVelocity, h.vel]
    exact ⟨trivial, ⟨h.isThwaites, h.cls, h.nu, rfl, h.ic, h.events, h.sol, h.fits⟩⟩
  | setInitialCondition ic ic' hi => exact ⟨rfl, ⟨h.isThwaites, h.cls, h.nu, h.vel, hi, h.events, h.sol, h.fits⟩⟩
  | setInitialDeltaM d =>
    simp only [Obj.step, Obj.setInitialDeltaM, le_times]
    split_ifs
    · exact ⟨rfl, h⟩
    · refine ⟨rfl, ⟨h.isThwaites, h.cls, h.nu, h.vel, ?_, h.events, h.sol, h.fits⟩⟩
      have hic := h.ic
      show ThickerFloat _ (o.ic.assignDelM d) (o'.ic.assignDelM (times n d))
      generalize o.ic = c at hic
      generalize o'.ic = c' at hic
      cases hic <;> constructor
  | setDataFits a =>
    simp only [Obj.step, h.cls, h.isThwaites, if_true, Obj.setDataFits]
    rcases chooseFits ext a with e | m
    · exact ⟨rfl, h⟩
    · exact ⟨rfl, ⟨h.isThwaites, rfl, h.nu, h.vel, h.ic, rfl, h.sol, rfl⟩⟩
  | solve x0 x1 te ivp =>
    obtain ⟨h1, h2⟩ := float_viscosity_solve n o o' h x0 x1 te ivp
    simp only [Obj.step, h1]
    exact ⟨trivial, h2⟩

/-- **C149**: after any history of calls the two objects are the same layer in the two fluids; `float_viscosity_queries` says what they report. -/
theorem float_viscosity_history (ext : Ext R.F) (n : ℤ) (o o' : Obj R.F) (h : ViscousFloat n o o') (ops ops' : List (Op R.F))
    (hops : List.Forall₂ (ViscousFloatOp n) ops ops') : ViscousFloat n (o.run ext ops) (o'.run ext ops') := by
  induction hops generalizing o o' with
  | nil => exact h
  | cons h1 _ ih =>
    simp only [Obj.run, List.foldl_cons]
    exact ih _ _ (float_viscosity_call ext n o o' h _ _ h1).2

/-- **C149**, the start: two Thwaites objects constructed with viscosities `nu` and `4 ^ n nu`, otherwise alike, and then given initial conditions that differ by
the factor `2 ^ n`. (The built-in condition has infinite momentum thickness.) One construction raises if and only if the other one does. -/
theorem float_viscosity_construct [PySpecial R.F] (ext : Ext R.F) (n : ℤ) (linear : Bool) (nu : R.F) (u du d2u : Arg R.F) (fits : FitsArg R.F)
    (ic ic' : IC R.F) (hi : ThickerFloat n ic ic') :
    (∃ e, Obj.mkThwaites ext linear nu u du d2u fits = .error e ∧ Obj.mkThwaites ext linear (times (2 * n) nu) u du d2u fits = .error e) ∨
    ∃ o o', Obj.mkThwaites ext linear nu u du d2u fits = .ok o ∧ Obj.mkThwaites ext linear (times (2 * n) nu) u du d2u fits = .ok o' ∧
      ViscousFloat n (o.setInitialCondition ic) (o'.setInitialCondition ic') := by
  have hT : (if linear then Cls.thwaitesLinear else Cls.thwaitesNonlinear).isThwaites = true := by cases linear <;> rfl
  have base : ∀ cls jc, (∃ e, Obj.mkBase ext cls nu u du d2u jc = .error e ∧ Obj.mkBase ext cls (times (2 * n) nu) u du d2u jc = .error e) ∨
      ∃ o o', Obj.mkBase ext cls nu u du d2u jc = .ok o ∧ Obj.mkBase ext cls (times (2 * n) nu) u du d2u jc = .ok o' ∧
        o.cls = cls ∧ o'.cls = o.cls ∧ o'.nu = times (2 * n) o.nu ∧ o'.vel = o.vel ∧ o'.sol = o.sol := by
    intro cls jc
    unfold Obj.mkBase
    simp only [IC.mkStag, le_times]
    split_ifs with hneg
    · exact .inl ⟨_, rfl, rfl⟩
    dsimp only [Obj.setVelocity, Obj.setInitialCondition]
    cases u <;> dsimp only
    case none => cases du <;> dsimp only <;> (try exact .inl ⟨_, rfl, rfl⟩); cases d2u <;> dsimp only <;>
                  first | exact .inl ⟨_, rfl, rfl⟩ | exact .inr ⟨_, _, rfl, rfl, rfl, rfl, rfl, rfl, rfl⟩
    all_goals
      generalize setVelocity ext.pchip VelState.empty _ du d2u = r
      obtain ⟨v, e | ⟨⟩⟩ := r
      · exact .inl ⟨_, rfl, rfl⟩
      · exact .inr ⟨_, _, rfl, rfl, rfl, rfl, rfl, rfl, rfl⟩
  unfold Obj.mkThwaites
  rcases base (if linear then .thwaitesLinear else .thwaitesNonlinear) (IC.mkManual (lit 0) PySpecial.inf (lit 0)) with ⟨e, e1, e2⟩ | ⟨o, o', e1, e2, h1, h2, h3, h4, h5⟩
  · rw [e1, e2]; exact .inl ⟨_, rfl, rfl⟩
  · rw [e1, e2]
    simp only [Obj.setDataFits]
    rcases chooseFits ext fits with e | m
    · exact .inl ⟨_, rfl, rfl⟩
    · exact .inr ⟨_, _, rfl, rfl, by show o.cls.isThwaites = true; rw [h1]; exact hT, h2, h3, h4, hi, rfl, h5, rfl⟩

/-- Non-vacuity: flow with constant velocity in a fluid and in one four times as viscous, started with a layer that is twice as thick. The viscosity is
set, the equation integrated (an integrator that keeps the start value) and successfully; the momentum thickness is doubled, exactly. -/
theorem float_viscosity_case : ∃ (o o' : Obj R.F) (ops ops' : List (Op R.F)) (d : R.F), ViscousFloat 1 o o' ∧
    List.Forall₂ (ViscousFloatOp 1) ops ops' ∧ d.val = 1 ∧ ∀ ext, (o.run ext ops).deltaM (lit 1) = .ok d ∧
      (o'.run ext ops').deltaM (lit 1) = .ok (times 1 d) ∧ (times 1 d).val = 2 := by
  let vel : VelState R.F := ⟨some (.fn fun _ => .ok (lit 1)), some (.fn fun _ => .ok (lit 0)), some (.fn fun _ => .ok (lit 0))⟩
  let o : R.F → R.F → Obj R.F := fun nu d =>
    ⟨.thwaitesLinear, nu, vel, .manual (lit 0) nu (lit 0) d (lit 0), [.sepThwaites Fits.drela], none, some Fits.drela⟩
  let ivp : Ivp R.F := fun p => .ok ⟨true, 0, "", [p.x0, p.x1], [], fun _ => p.y0⟩
  let ops : R.F → List (Op R.F) := fun nu => [.setNu nu, .solve (lit 0) (lit 1) .none ivp]
  have M : ViscousFloat 1 (o (lit 1) (lit 1)) (o (times (2 * 1) (lit 1)) (times 1 (lit 1))) := ⟨rfl, rfl, rfl, rfl, .manual .., rfl, rfl, rfl⟩
  have Q : List.Forall₂ (ViscousFloatOp 1) (ops (lit 1)) (ops (times (2 * 1) (lit 1))) := .cons (.setNu _) (.cons (.solve ..) .nil)
  refine ⟨_, _, _, _, lit 1, M, Q, Rounding.val_one, fun ext => ?_⟩
  have H := float_viscosity_history ext 1 _ _ M _ _ Q
  have P := (float_viscosity_queries 1 _ _ H (lit 1) (lit 1)).2.1
  have le0 : PyCmp.le (lit 1 : R.F) (lit 0) = false := by
    rw [Bool.eq_false_iff, ne_eq, Rounding.F_le, Rounding.val_zero, Rounding.val_one]; norm_num
  have eq0 : PyCmp.eq (lit 1 : R.F) (lit 0) = false := by
    rw [Bool.eq_false_iff, ne_eq, Rounding.F_eq, Rounding.val_zero, Rounding.val_one]; norm_num
  have m1 : (lit 1 : R.F) * lit 1 = lit 1 := by
    apply Rounding.F.ext; rw [Rounding.val_mul, Rounding.val_one, one_mul, R.rd_one]
  have d1 : (lit 1 : R.F) / lit 1 = lit 1 := by
    apply Rounding.F.ext; rw [Rounding.val_div, Rounding.val_one, div_one, R.rd_one]
  have s1 : PySqrt.sqrt (lit 1 : R.F) = lit 1 := by
    apply Rounding.F.ext; rw [Rounding.val_sqrt, Rounding.val_one, Real.sqrt_one, R.rd_one]
  have D : ((o (lit 1) (lit 1)).run ext (ops (lit 1))).deltaM (lit 1) = .ok (lit 1) := by
    have hdu : vel.duE (lit 0) = .ok (lit 0) := rfl
    simp only [o, ops, ivp, hdu, List.foldl_cons, List.foldl_nil, Bool.false_eq_true, if_false, if_true, List.getElem?_cons_zero, Obj.run, Obj.step, Obj.setNu, Obj.solve, Obj.prepare, IC.setNu, IC.setDu, TermArg.toList, Obj.startVector, IC.deltaM,
      pyDiv, Obj.deltaM, Obj.comp, Obj.state, le0, eq0, m1, d1, s1, bind, Except.bind, pure, Except.pure]
  refine ⟨D, by rw [P, D]; rfl, ?_⟩
  show (2:ℝ) ^ (1:ℤ) * (lit 1 : R.F).val = 2
  rw [Rounding.val_one]; norm_num

end IBL
