import Verif.Props.Config
import Verif.Props.Velocity
import Verif.Props.AnalyticSearch
import Verif.Lemmas.Analytic

/-! C92: a call that is refused raises the exception that its documentation names. -/

set_option linter.unusedSectionVars false

namespace IBL
variable {α : Type}
variable [Add α] [Sub α] [Mul α] [Div α] [Neg α] [PyLit α] [PyCmp α] [PySqrt α] [PyPow α]

/-! ### Method objects -/

/-- Velocity arguments on which `set_velocity` stumbles before it can judge them, with the exception python then raises. -/
inductive Stumbles : Arg α → Arg α → Exc → Prop
  | none (du : Arg α) : Stumbles .none du .typeError
  | unsized (du : Arg α) : Stumbles .unsized du .typeError
  | slope (a : α) (du : Arg α) : (∀ xs ys, du ≠ .pair xs ys) → (∀ n h, du ≠ .sized n h) → Stumbles (.num a) du .typeError
  | zeroDim (xs ys : Arr α) (du : Arg α) : xs.shape = [] → Stumbles (.pair xs ys) du .indexError

/-- The table that is handed to scipy's interpolator: the first argument, or the second if the first is a number. -/
inductive Interpolated : Arg α → Arg α → Arr α → Arr α → Prop
  | velocity (xs ys : Arr α) (du : Arg α) : Interpolated (.pair xs ys) du xs ys
  | slope (a : α) (xs ys : Arr α) : Interpolated (.num a) (.pair xs ys) xs ys

/-- `set_velocity` documents ValueError for everything it refuses. -/
def VelocityRaisesDocumented (pchip : Pchip α) : Prop :=
  ∀ (s : VelState α) (u du d2u : Arg α) (e : Exc), (setVelocity pchip s u du d2u).2 = .error e → e = .valueError

/-- **C92**, the exceptions of `set_velocity`: ValueError, what scipy's interpolator raises, or one of the listed cases. -/
theorem set_velocity_raises_partial (pchip : Pchip α) (s : VelState α) (u du d2u : Arg α) (e : Exc) (h : (setVelocity pchip s u du d2u).2 = .error e) :
    e = .valueError ∨ (∃ xs ys, Interpolated u du xs ys ∧ pchip xs ys = .error e) ∨ Stumbles u du e := by
  cases u with
  | none => cases h; exact .inr (.inr (.none _))
  | unsized => cases h; exact .inr (.inr (.unsized _))
  | sized n hn => cases h; exact .inl rfl
  | callable c =>
    simp only [setVelocity] at h
    cases du <;> cases d2u <;> simp only [setVelCallable] at h <;> first | (cases h; exact .inl rfl) | (cases h; done) | (split at h <;> cases h)
  | num a =>
    cases du with
    | pair xs ys =>
      simp only [setVelocity] at h
      split at h
      · next e' he => cases h; exact .inr (.inl ⟨xs, ys, .slope _ _ _, he⟩)
      · cases h
    | sized n hn => cases h; exact .inl rfl
    | none => cases h; exact .inr (.inr (.slope _ _ (by simp) (by simp)))
    | callable c => cases h; exact .inr (.inr (.slope _ _ (by simp) (by simp)))
    | num b => cases h; exact .inr (.inr (.slope _ _ (by simp) (by simp)))
    | unsized => cases h; exact .inr (.inr (.slope _ _ (by simp) (by simp)))
  | pair xs ys =>
    simp only [setVelocity] at h
    split at h
    · next hx => cases h; exact .inr (.inr (.zeroDim _ _ _ hx))
    · split at h
      · cases h; exact .inl rfl
      · split at h
        · split at h
          · cases h; exact .inl rfl
          · split at h
            · cases h; exact .inl rfl
            · split at h
              · next e' he => cases h; exact .inr (.inl ⟨xs, ys, .velocity _ _ _, he⟩)
              · simp [setVelCallable, Spline.toCallable] at h
        · cases h; exact .inl rfl

/-- The listed cases do raise the listed exceptions. -/
theorem set_velocity_stumbles (pchip : Pchip α) (s : VelState α) (u du d2u : Arg α) (e : Exc) (h : Stumbles u du e) :
    setVelocity pchip s u du d2u = (s, .error e) := by
  cases h with
  | none => rfl
  | unsized => rfl
  | slope a du h1 h2 =>
    cases du with
    | pair xs ys => exact absurd rfl (h1 xs ys)
    | sized n hn => exact absurd rfl (h2 n hn)
    | none => rfl
    | callable c => rfl
    | num b => rfl
    | unsized => rfl
  | zeroDim xs ys du hx => simp only [setVelocity, hx]

/-- **C92** is false of `set_velocity`: `set_velocity(None)` is a TypeError. -/
theorem set_velocity_raises_fails (pchip : Pchip α) : ¬ VelocityRaisesDocumented pchip := fun h => by
  have := h .empty .none .none .none .typeError rfl
  cases this

/-- **C92**, `set_data_fits` raises ValueError whenever it raises (any arithmetic). -/
theorem set_data_fits_raises (ext : Ext α) (o : Obj α) (a : FitsArg α) (e : Exc) (h : (o.setDataFits ext a).2 = .error e) :
    e = .valueError := by
  simp only [Obj.setDataFits] at h
  split at h
  · next e' he =>
    cases h
    unfold chooseFits at he
    cases a with
    | name s => dsimp only at he; split_ifs at he; cases he; rfl
    | tuple l =>
      dsimp only at he
      split at he
      · cases he
      · cases he
      · cases he; rfl
    | other => cases he; rfl
  · cases h

/-- **C92**, `nu` and the initial values: the guards raise ValueError. For `initial_shape_d` the installed condition may raise as well
(a stagnation condition that does not know the velocity slope divides by zero). -/
theorem setters_raise (o : Obj α) (v : α) (e : Exc) :
    ((o.setNu v).2 = .error e → e = .valueError) ∧ ((o.setInitialDeltaM v).2 = .error e → e = .valueError) ∧
    ((o.setInitialShapeD v).2 = .error e → e = .valueError ∨ o.ic.deltaM = .error e) := by
  refine ⟨fun h => ?_, fun h => ?_, fun h => ?_⟩
  · simp only [Obj.setNu] at h; split at h <;> cases h; rfl
  · simp only [Obj.setInitialDeltaM] at h; split at h <;> cases h; rfl
  · simp only [Obj.setInitialShapeD] at h
    split at h
    · cases h; exact .inl rfl
    · split at h
      · next e' he => cases h; exact .inr he
      · cases h

/-- What is wrong with the arguments of a constructor, and the exception for it. -/
inductive BadSetup (ext : Ext α) (nu : α) (u du d2u : Arg α) : Exc → Prop
  | nu : PyCmp.le nu (lit 0) = true → BadSetup ext nu u du d2u .valueError
  | slopeOnly : u = .none → ¬ (du = .none ∧ d2u = .none) → BadSetup ext nu u du d2u .valueError
  | velocity (e : Exc) : u ≠ .none → (setVelocity ext.pchip .empty u du d2u).2 = .error e → BadSetup ext nu u du d2u e

variable [PySpecial α]

private theorem mkBase_refused (ext : Ext α) (cls : Cls) (nu : α) (u du d2u : Arg α) (ic : IC α) (e : Exc)
    (h : Obj.mkBase ext cls nu u du d2u ic = .error e) : BadSetup ext nu u du d2u e := by
  unfold Obj.mkBase IC.mkStag at h
  by_cases hn : PyCmp.le nu (lit 0) = true
  · simp only [hn, if_true] at h
    cases h
    exact .nu hn
  · simp only [hn, Bool.false_eq_true, if_false] at h
    cases u with
    | none =>
      cases du <;> cases d2u <;> first | (cases h; exact .slopeOnly rfl (by simp)) | (simp at h; done)
    | _ =>
      simp only [Obj.setVelocity] at h
      split at h
      · next heq =>
        cases h
        exact .velocity _ (by simp) (congrArg Prod.snd heq)
      · simp at h

private theorem mkBase_accepted (ext : Ext α) (cls : Cls) (nu : α) (u du d2u : Arg α) (ic : IC α) (o : Obj α)
    (h : Obj.mkBase ext cls nu u du d2u ic = .ok o) (e : Exc) : ¬ BadSetup ext nu u du d2u e := by
  unfold Obj.mkBase IC.mkStag at h
  intro hb
  by_cases hn : PyCmp.le nu (lit 0) = true
  · simp only [hn, if_true] at h
    cases h
  · simp only [hn, Bool.false_eq_true, if_false] at h
    cases hb with
    | nu h1 => exact hn h1
    | slopeOnly h1 h2 =>
      subst h1
      cases du <;> cases d2u <;> first | (cases h; done) | exact h2 ⟨rfl, rfl⟩
    | velocity _ h1 h2 =>
      cases u with
      | none => exact h1 rfl
      | _ =>
        simp only [Obj.setVelocity] at h
        split at h
        · cases h
        · next heq =>
          have := congrArg Prod.snd heq
          simp only [h2] at this
          cases this

/-- **C92**, constructors: a Head object is refused exactly for a bad viscosity or bad velocities, with the exception listed. -/
theorem head_refused_iff (ext : Ext α) (nu : α) (u du d2u : Arg α) (crit : α) :
    (∀ e, Obj.mkHead ext nu u du d2u crit = .error e → BadSetup ext nu u du d2u e) ∧
    ((∃ e, BadSetup ext nu u du d2u e) → ∃ e, Obj.mkHead ext nu u du d2u crit = .error e) := by
  constructor
  · intro e h
    simp only [Obj.mkHead] at h
    split at h
    · next e' he => cases h; exact mkBase_refused _ _ _ _ _ _ _ _ he
    · cases h
  · rintro ⟨e, he⟩
    simp only [Obj.mkHead]
    split
    · next e' _ => exact ⟨e', rfl⟩
    · next o ho => exact absurd he (mkBase_accepted _ _ _ _ _ _ _ _ ho e)

/-- **C92**, constructors: a Thwaites object is refused exactly for a bad viscosity, bad velocities or undocumented fits, with the exception
listed. -/
theorem thwaites_refused_iff (ext : Ext α) (linear : Bool) (nu : α) (u du d2u : Arg α) (fits : FitsArg α) :
    (∀ e, Obj.mkThwaites ext linear nu u du d2u fits = .error e →
      BadSetup ext nu u du d2u e ∨ (e = .valueError ∧ ¬ ∃ m, DocumentedFits ext fits m)) ∧
    ((∃ e, BadSetup ext nu u du d2u e) ∨ (¬ ∃ m, DocumentedFits ext fits m) → ∃ e, Obj.mkThwaites ext linear nu u du d2u fits = .error e) := by
  constructor
  · intro e h
    simp only [Obj.mkThwaites] at h
    split at h
    · next e' he => cases h; exact .inl (mkBase_refused _ _ _ _ _ _ _ _ he)
    · next o ho =>
      split at h
      · next o' e' he =>
        cases h
        have h1 : (o.setDataFits ext fits).2 = .error e := by rw [he]
        refine .inr ⟨set_data_fits_raises ext o fits e h1, fun ⟨m, hm⟩ => ?_⟩
        have := (choose_iff ext fits m).2 hm
        simp only [Obj.setDataFits, this] at h1
        cases h1
      · cases h
  · intro hb
    simp only [Obj.mkThwaites]
    split
    · next e' _ => exact ⟨e', rfl⟩
    · next o ho =>
      rcases hb with ⟨e, he⟩ | hb
      · exact absurd he (mkBase_accepted _ _ _ _ _ _ _ _ ho e)
      · split
        · next o' e' he => exact ⟨e', rfl⟩
        · next o' he =>
          exfalso
          simp only [Obj.setDataFits] at he
          split at he
          · cases he
          · next m hm => exact hb ⟨m, (choose_iff ext fits m).1 hm⟩

/-- Negative viscosity, a slope without a velocity, and a number without a slope are refused. -/
example : BadSetup Wit.ext (.fin (-1)) .none .none .none .valueError ∧ BadSetup Wit.ext (.fin 1) .none (.num (.fin 1)) .none .valueError ∧
    BadSetup Wit.ext (.fin 1) (.num (.fin 1)) .none .none .typeError :=
  ⟨.nu (by simp), .slopeOnly rfl (by simp), .velocity _ (by simp) rfl⟩

/-- Objects made without a velocity, and calls that do not give it one. -/
inductive NoVelocity (ext : Ext α) : Obj α → Prop
  | head (nu crit : α) (o : Obj α) : Obj.mkHead ext nu .none .none .none crit = .ok o → NoVelocity ext o
  | thwaites (linear : Bool) (nu : α) (fits : FitsArg α) (o : Obj α) :
      Obj.mkThwaites ext linear nu .none .none .none fits = .ok o → NoVelocity ext o
  | call (o : Obj α) (op : Op α) : op.keepsVelocity → NoVelocity ext o → NoVelocity ext (o.step ext op).1

private theorem mkBase_unset (ext : Ext α) (cls : Cls) (nu : α) (ic : IC α) (o : Obj α) (h : Obj.mkBase ext cls nu .none .none .none ic = .ok o) :
    o.vel = .empty := by
  unfold Obj.mkBase IC.mkStag at h
  split at h
  · cases h
  · simp only [Obj.setInitialCondition, Except.ok.injEq] at h
    rw [← h]

private theorem noVelocity_empty (ext : Ext α) (o : Obj α) (h : NoVelocity ext o) : o.vel = .empty := by
  induction h with
  | head nu crit o h =>
    simp only [Obj.mkHead] at h
    split at h
    · cases h
    · next o' ho => cases h; exact mkBase_unset ext _ _ _ o' ho
  | thwaites linear nu fits o h =>
    simp only [Obj.mkThwaites] at h
    split at h
    · cases h
    · next o' ho =>
      split at h
      · cases h
      · next o'' he =>
        cases h
        simp only [Obj.setDataFits] at he
        split at he
        · cases he
        · cases he; exact mkBase_unset ext _ _ _ o' ho
  | call o op hk _ ih => rw [step_vel ext o op hk]; exact ih

/-- **C92**, velocities that were not set: all three queries raise ValueError at every point, and so does `solve` (or for its viscosity, which is
looked at first). The documentation of all four names TypeError. -/
theorem velocity_unset_partial (ext : Ext α) (o : Obj α) (h : NoVelocity ext o) (x x0 x1 : α) (te : TermArg α) (ivp : Ivp α) :
    o.vel.uE x = .error .valueError ∧ o.vel.duE x = .error .valueError ∧ o.vel.d2uE x = .error .valueError ∧
    (o.solve x0 x1 te ivp).2 = .error .valueError := by
  have hv := noVelocity_empty ext o h
  refine ⟨by simp [VelState.uE, hv, VelState.empty], by simp [VelState.duE, hv, VelState.empty], by simp [VelState.d2uE, hv, VelState.empty], ?_⟩
  simp only [Obj.solve, Obj.prepare, IC.setNu]
  split
  · next h1 =>
    split at h1
    · next h2 => split at h2 <;> [skip; (split at h2 <;> cases h2)]; cases h2; cases h1; rfl
    · next ic hic =>
      simp only [VelState.duE, hv, VelState.empty, Option.isNone_none, if_true] at h1
      cases h1
      rfl
  · next h1 =>
    split at h1
    · cases h1
    · simp only [VelState.duE, hv, VelState.empty, Option.isNone_none, if_true] at h1
      cases h1

/-- **C92** is false of the velocity queries: the documented TypeError is never raised for a velocity that was not set. -/
theorem velocity_unset_fails : ¬ ∀ (ext : Ext (Flt ℝ)) (o : Obj (Flt ℝ)) (x : Flt ℝ), NoVelocity ext o → o.vel.uE x = .error .typeError := fun h => by
  have hn : ¬ ((1:ℝ) ≤ 0) := by norm_num
  have hm : Obj.mkHead Wit.ext (.fin 1) .none .none .none (lit (12/5)) = .ok ⟨.head, .fin 1, .empty,
      IC.mkManual PySpecial.inf PySpecial.inf (lit 0), [.sepHead (lit (12/5))], none, none⟩ := by
    simp [Obj.mkHead, Obj.mkBase, IC.mkStag, hn, Obj.setInitialCondition, Obj.setShapeDCritical]
  have := h Wit.ext _ (.fin 0) (.head _ _ _ hm)
  simp [VelState.uE, VelState.empty] at this

end IBL

namespace IBL.Analytic
variable {α : Type} [Add α] [Sub α] [Mul α] [Div α] [Neg α] [PyLit α] [PyCmp α] [PySpecial α]

/-! ### Similarity solutions -/

/-- One of scipy's functions raised this exception for some argument. -/
def Tools.Raises (t : Tools α) (e : Exc) : Prop :=
  (∃ p, t.ivp p = .error e) ∨ (∃ f a b, t.quad f a b = .error e) ∨ ∃ f a b, t.root f a b = .error e

private theorem endValues_raises (s : Sim α) (t : Tools α) (a b : α) (e : Exc) (h : s.endValues t a b = .error e) : e = .valueError ∨ t.Raises e := by
  simp only [Sim.endValues] at h
  split at h
  · next e' he => cases h; exact .inr (.inl ⟨_, he⟩)
  · split at h <;> cases h
    exact .inl rfl

private theorem inner_raises (solve : α → Except Exc (α × α)) (n : ℕ) (i : Inner α) (e : Exc) (h : innerLoop solve n i = .error e) :
    ∃ a, solve a = .error e := by
  induction n generalizing i with
  | zero => simp [innerLoop] at h
  | succ n ih =>
    rw [innerLoop] at h
    split at h
    · next e' he => cases h; exact ⟨_, he⟩
    · split at h
      · cases h
      · exact ih _ h

private theorem outer_raises (solve : α → α → Except Exc (α × α)) (g : Bool) (n : ℕ) (o : Outer α) (e : Exc) (h : outerLoop solve g n o = .error e) :
    ∃ a b, solve a b = .error e := by
  induction n generalizing o with
  | zero => simp [outerLoop] at h
  | succ n ih =>
    rw [outerLoop] at h
    split at h
    · next e' he => cases h; exact ⟨_, inner_raises _ _ _ _ he⟩
    · split at h
      · cases h
      · exact ih _ h

private theorem search_raises (solve : α → α → Except Exc (α × α)) (x y : Option α) (e : Exc) (h : search solve x y = .error e) :
    ∃ a b, solve a b = .error e := by
  unfold search at h
  split at h
  · cases h
  · dsimp only at h
    split at h
    · next e' he => cases h; exact ⟨_, _, he⟩
    · split at h
      · next e' he => cases h; exact outer_raises _ _ _ _ _ he
      · cases h

private theorem params_raise (s : Sim α) (t : Tools α) (x y : Option α) (e : Exc) (h : (s.setSolutionParameters t x y).2 = .error e) :
    e = .valueError ∨ t.Raises e ∨ (e = .zeroDivision ∧ PyCmp.eq (s.alpha + s.beta) (lit 0) = true) := by
  simp only [Sim.setSolutionParameters] at h
  split at h
  · cases h; exact .inl rfl
  · split at h
    · cases h; exact .inl rfl
    · split at h
      · next s' e' he =>
        cases h
        simp only [Sim.calculateSolution] at he
        split at he
        · next e'' hs =>
          cases he
          obtain ⟨a, b, hab⟩ := search_raises _ _ _ _ hs
          rcases endValues_raises s t a b e hab with h | h
          · exact .inl h
          · exact .inr (.inl h)
        · split at he
          · next e'' hi => cases he; exact .inr (.inl (.inl ⟨_, hi⟩))
          · split at he <;> cases he
            exact .inl rfl
      · next s' he =>
        have hab : s'.alpha = s.alpha ∧ s'.beta = s.beta := by
          simp only [Sim.calculateSolution] at he
          split at he
          · cases he
          · split at he
            · cases he
            · split at he <;> cases he
              exact ⟨rfl, rfl⟩
        split at h
        · cases h; exact .inl rfl
        · simp only [Sim.thicknesses] at h
          split at h
          · next e' hd =>
            cases h
            simp only [pyDiv] at hd
            split at hd <;> cases hd
            next hz => rw [hab.1, hab.2] at hz; exact .inr (.inr ⟨rfl, hz⟩)
          · split at h
            · next e' hq => cases h; exact .inr (.inl (.inr (.inl ⟨_, _, _, hq⟩)))
            · split at h
              · next e' hr => cases h; exact .inr (.inl (.inr (.inr ⟨_, _, _, hr⟩)))
              · split at h <;> cases h
                exact .inl rfl

end IBL.Analytic

namespace IBL.Analytic
variable [PySpecial ℝ]

/-- **C92**, similarity constructors: everything that is refused raises ValueError, unless one of scipy's functions raised. Exact arithmetic. -/
theorem construct_raises (t : Tools ℝ) (beta u nu : ℝ) (fw eta : Option ℝ) (e : Exc) :
    (mkFalknerSkan t beta u nu fw eta = .error e → e = .valueError ∨ t.Raises e) ∧
    (mkBlasius t u nu fw eta = .error e → e = .valueError ∨ t.Raises e) := by
  have base : ∀ (c : Cls) (b : ℝ) (x y : Option ℝ), -1 < b → mkBase t c u nu (lit 1) b (lit 1) x y = .error e → e = .valueError ∨ t.Raises e := by
    intro c b x y hb h
    simp only [mkBase] at h
    split at h
    · cases h; exact .inl rfl
    · split at h
      · cases h; exact .inl rfl
      · split at h
        · next s' e' he =>
          cases h
          rcases params_raise _ t y x e (by rw [he]) with h | h | ⟨-, h⟩
          · exact .inl h
          · exact .inr h
          · exfalso
            simp only [real_eq, real_lit] at h
            push_cast at h
            linarith
        · cases h
  constructor
  · intro h
    simp only [mkFalknerSkan] at h
    split at h
    · cases h; exact .inl rfl
    · next hb =>
      refine base _ _ _ _ ?_ h
      simp only [badBeta, Bool.or_eq_true, not_or] at hb
      have h1 := hb.1
      rw [real_lt, real_lit, not_lt] at h1
      push_cast at h1
      linarith
  · intro h
    unfold mkBlasius at h
    split at h <;>
    · refine base _ _ _ _ ?_ h
      rw [real_lit]; norm_num

/-- The call uses these of scipy's functions. -/
inductive CallsWith (t : Tools ℝ) : Op ℝ → Prop
  | parameters (eta fw : Option ℝ) : CallsWith t (.setSolutionParameters t eta fw)
  | beta (b : ℝ) (eta fw : Option ℝ) : CallsWith t (.resetBeta t b eta fw)
  | m (m : ℝ) (eta fw : Option ℝ) : CallsWith t (.resetM t m eta fw)

/-- `reset_beta` and `reset_m`, which Blasius objects do not have. -/
def IsReset (op : Op ℝ) : Prop := ∃ t v eta fw, op = .resetBeta t v eta fw ∨ op = .resetM t v eta fw

/-- **C92**, calls on similarity objects: everything that is refused raises ValueError, unless one of scipy's functions raised, with one exception:
`reset_m(-1)` is a ZeroDivisionError. (`other` is the AttributeError for the methods that Blasius objects do not have.) Exact arithmetic. -/
theorem similarity_raises_partial (s : Sim ℝ) (hr : Reached s) (op : Op ℝ) (e : Exc) (h : (s.step op).2 = .error e) :
    e = .valueError ∨ (∃ t, CallsWith t op ∧ t.Raises e) ∨ (s.cls = .blasius ∧ IsReset op ∧ e = .other) ∨
      (e = .zeroDivision ∧ ∃ t eta fw, op = .resetM t (-1) eta fw) := by
  have hs := reached_inRange _ hr
  have reset : ∀ (t : Tools ℝ) (b : ℝ) (x y : Option ℝ), (s.resetBeta t b x y).2 = .error e → e = .valueError ∨ t.Raises e := by
    intro t b x y h
    simp only [Sim.resetBeta] at h
    split at h
    · cases h; exact .inl rfl
    · next hb =>
      rcases params_raise _ t x y e h with h | h | ⟨-, h⟩
      · exact .inl h
      · exact .inr h
      · exfalso
        simp only [badBeta, Bool.or_eq_true, not_or] at hb
        have h1 := hb.1
        rw [real_lt, real_lit, not_lt] at h1
        rw [real_eq, real_lit] at h
        simp only [hs.alpha] at h
        push_cast at h h1
        linarith
  have fold : ∀ t : Tools ℝ, CallsWith t op → e = .valueError ∨ t.Raises e → e = .valueError ∨ (∃ t, CallsWith t op ∧ t.Raises e) ∨
      (s.cls = .blasius ∧ IsReset op ∧ e = .other) ∨ (e = .zeroDivision ∧ ∃ t eta fw, op = .resetM t (-1) eta fw) :=
    fun t ht h => h.imp_right fun h => .inl ⟨t, ht, h⟩
  cases op with
  | setURef u => simp only [Sim.step, Sim.setURef] at h; split at h <;> cases h; exact .inl rfl
  | setNuRef u => simp only [Sim.step, Sim.setNuRef] at h; split at h <;> cases h; exact .inl rfl
  | setSolutionParameters t x y =>
    rcases params_raise s t x y e h with h | h | ⟨-, h⟩
    · exact .inl h
    · exact fold t (.parameters _ _) (.inr h)
    · exfalso
      rw [real_eq, real_lit, hs.alpha] at h
      have := hs.beta_lo
      push_cast at h
      linarith
  | resetBeta t b x y =>
    simp only [Sim.step] at h
    split at h
    · exact fold t (.beta _ _ _) (reset t b x y h)
    · next hc => cases h; exact .inr (.inr (.inl ⟨by cases hcl : s.cls <;> simp_all, ⟨_, _, _, _, .inl rfl⟩, rfl⟩))
  | resetM t m x y =>
    simp only [Sim.step] at h
    split at h
    · simp only [Sim.resetM] at h
      split at h
      · exact fold t (.m _ _ _) (reset t _ x y h)
      · split at h
        · next e' hd =>
          cases h
          simp only [pyDiv] at hd
          split at hd <;> cases hd
          next hz =>
          rw [real_eq, real_lit, real_lit] at hz
          push_cast at hz
          obtain rfl : m = -1 := by linarith
          exact .inr (.inr (.inr ⟨rfl, t, x, y, rfl⟩))
        · exact fold t (.m _ _ _) (reset t _ x y h)
    · next hc => cases h; exact .inr (.inr (.inl ⟨by cases hcl : s.cls <;> simp_all, ⟨_, _, _, _, .inr rfl⟩, rfl⟩))

/-- **C92** is false of `reset_m`: -1 is refused on every Falkner-Skan object with a ZeroDivisionError, whatever the tools do, and whatever `inf` is
(as long as it is not -1). -/
theorem reset_m_raises_fails (s : Sim ℝ) (hc : s.cls = .falknerSkan) (hinf : (-1 : ℝ) ≠ PySpecial.inf) (t : Tools ℝ) (eta fw : Option ℝ) :
    s.step (.resetM t (-1) eta fw) = (s, .error .zeroDivision) := by
  simp only [Sim.step, hc, if_true, Sim.resetM, pyDiv]
  have h1 : PyCmp.eq (-1 : ℝ) PySpecial.inf = false := by rw [Bool.eq_false_iff, ne_eq, real_eq]; exact hinf
  have h2 : PyCmp.eq (lit 1 + (-1 : ℝ)) (lit 0) = true := by rw [real_eq, real_lit, real_lit]; norm_num
  simp only [h1, h2]
  simp

end IBL.Analytic
