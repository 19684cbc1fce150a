import Verif.Spec.Method
import Verif.Lemmas.Method

/-!
Properties C01-C06 of the method objects. Except for the witnesses everything is for an arbitrary
arithmetic `α` (so for IEEE doubles as well), an arbitrary integrator and arbitrary histories of calls.
-/

set_option linter.unusedSectionVars false

namespace IBL
variable {α : Type}
variable [Add α] [Sub α] [Mul α] [Div α] [Neg α] [PyLit α] [PyCmp α] [PySpecial α] [PySqrt α] [PyPow α]

/-! ### Concrete objects used to show that the hypotheses below can be met -/

namespace Wit

/-- Interpolators that are never called. -/
noncomputable def ext : Ext (Flt ℝ) := ⟨fun _ _ => .error .valueError, fun _ _ => (id, id)⟩
/-- The constant function 1 as a velocity. -/
noncomputable def one : Callable (Flt ℝ) := ⟨fun _ => .ok (.fin 1), none⟩
/-- The zero function as its slope. -/
noncomputable def zero : Callable (Flt ℝ) := ⟨fun _ => .ok (.fin 0), none⟩
/-- A Thwaites object with constant edge velocity and the Drela fits. -/
noncomputable def thw : Obj (Flt ℝ) :=
  ⟨.thwaitesLinear, .fin 1, ⟨some (.fn one.call), some (.fn zero.call), some (.fd1OfDu (lit (1/100000)))⟩,
    IC.mkManual (lit 0) PySpecial.inf (lit 0), [.sepThwaites Fits.drela], none, some Fits.drela⟩
/-- A Head object with constant edge velocity. -/
noncomputable def hd : Obj (Flt ℝ) :=
  ⟨.head, .fin 1, ⟨some (.fn one.call), some (.fn zero.call), some (.fd1OfDu (lit (1/100000)))⟩,
    IC.mkManual PySpecial.inf PySpecial.inf (lit 0), [.sepHead (lit (12/5))], none, none⟩

theorem thw_mk : Obj.mkThwaites ext true (.fin 1) (.callable one) (.callable zero) .none (.name "Drela") = .ok thw := by
  have h : ¬ ((1:ℝ) ≤ 0) := by norm_num
  simp [Obj.mkThwaites, Obj.mkBase, IC.mkStag, Obj.setVelocity, IBL.setVelocity, setVelCallable, zero, one,
    Obj.setInitialCondition, Obj.setDataFits, chooseFits, thw, h]

theorem hd_mk : Obj.mkHead ext (.fin 1) (.callable one) (.callable zero) .none (lit (12/5)) = .ok hd := by
  have h : ¬ ((1:ℝ) ≤ 0) := by norm_num
  simp [Obj.mkHead, Obj.mkBase, IC.mkStag, Obj.setVelocity, IBL.setVelocity, setVelCallable, zero, one,
    Obj.setInitialCondition, Obj.setShapeDCritical, hd, h]

theorem thw_built : Built ext thw := .thwaites thw_mk
theorem hd_built : Built ext hd := .head hd_mk

end Wit

/-! ### C01 -/

omit [PySqrt α] in
private theorem mkBase_nu {ext : Ext α} {cls : Cls} {nu : α} {u du d2u : Arg α} {ic : IC α} {o : Obj α}
    (h : Obj.mkBase ext cls nu u du d2u ic = .ok o) :
    o.nu = nu ∧ PyCmp.le nu (lit 0) = false ∧ o.cls = cls := by
  unfold Obj.mkBase IC.mkStag at h
  split at h
  · simp at h
  · rename_i hc
    split at hc
    · simp at hc
    · rename_i hn
      simp only [Bool.not_eq_true] at hn
      dsimp only at h
      split at h
      · split at h
        · split at h
          · simp only [Obj.setInitialCondition, Except.ok.injEq] at h; subst h; exact ⟨rfl, hn, rfl⟩
          · simp at h
        · simp at h
      · split at h
        · simp at h
        · rename_i hv
          simp only [Obj.setVelocity, Prod.mk.injEq] at hv
          simp only [Obj.setInitialCondition, Except.ok.injEq] at h
          subst h; rw [← hv.1]; exact ⟨rfl, hn, rfl⟩

private theorem built_nu {ext : Ext α} {o : Obj α} (h : Built ext o) : PyCmp.le o.nu (lit 0) = false := by
  cases h with
  | thwaites h =>
    unfold Obj.mkThwaites at h
    split at h
    · simp at h
    · rename_i o1 h1
      have := mkBase_nu h1
      simp only [Obj.setDataFits] at h
      split at h
      · simp at h
      · rename_i h2
        split at h2
        · simp at h2
        · simp only [Prod.mk.injEq] at h2
          simp only [Except.ok.injEq] at h
          rw [← h, ← h2.1]; show PyCmp.le o1.nu _ = _; rw [this.1]; exact this.2.1
  | head h =>
    unfold Obj.mkHead at h
    split at h
    · simp at h
    · rename_i o1 h1
      have := mkBase_nu h1
      simp only [Obj.setShapeDCritical, Except.ok.injEq] at h
      rw [← h]; show PyCmp.le o1.nu _ = _; rw [this.1]; exact this.2.1

omit [PySpecial α] in
private theorem step_nu (ext : Ext α) (o : Obj α) (op : Op α) :
    (o.step ext op).1.nu = o.nu ∨ PyCmp.le (o.step ext op).1.nu (lit 0) = false := by
  cases op with
  | setNu nu =>
    simp only [Obj.step, Obj.setNu]
    split
    · exact .inl rfl
    · rename_i h; right; simpa using h
  | setVelocity u du d2u => exact .inl rfl
  | setInitialCondition ic => exact .inl rfl
  | setInitialDeltaM v => left; simp only [Obj.step, Obj.setInitialDeltaM]; split <;> rfl
  | setInitialShapeD v =>
    left
    simp only [Obj.step, Obj.setInitialShapeD]
    split
    · split
      · rfl
      · split <;> rfl
    · rfl
  | setDataFits a =>
    left
    simp only [Obj.step, Obj.setDataFits]
    split
    · split <;> rfl
    · rfl
  | setShapeDCritical c => left; simp only [Obj.step]; split <;> rfl
  | solve x0 x1 te ivp => exact .inl (solve_frame o x0 x1 te ivp).2.1

/-- **C01.** Whatever is called on an object after its construction (calls may raise), its viscosity never compares `<= 0`. -/
theorem nu_never_nonpositive {ext : Ext α} {o : Obj α} (hb : Built ext o) (ops : List (Op α)) :
    PyCmp.le (o.run ext ops).nu (lit 0) = false := by
  have h0 := built_nu hb
  clear hb
  induction ops generalizing o with
  | nil => exact h0
  | cons op ops ih =>
    rw [run_cons]
    apply ih
    rcases step_nu ext o op with h | h
    · rw [h]; exact h0
    · exact h

example (ops : List (Op (Flt ℝ))) : PyCmp.le (Wit.thw.run Wit.ext ops).nu (lit 0) = false :=
  nu_never_nonpositive Wit.thw_built ops
example (ops : List (Op (Flt ℝ))) : PyCmp.le (Wit.hd.run Wit.ext ops).nu (lit 0) = false :=
  nu_never_nonpositive Wit.hd_built ops

/-- **C01**, constructors: a viscosity that compares `<= 0` is rejected with ValueError whatever else is passed. -/
theorem constructor_rejects_nu (ext : Ext α) (nu : α) (h : PyCmp.le nu (lit 0) = true) (u du d2u : Arg α) :
    (∀ linear fits, Obj.mkThwaites ext linear nu u du d2u fits = .error .valueError) ∧
    (∀ crit, Obj.mkHead ext nu u du d2u crit = .error .valueError) := by
  constructor
  · intro linear fits; simp [Obj.mkThwaites, Obj.mkBase, IC.mkStag, h]
  · intro crit; simp [Obj.mkHead, Obj.mkBase, IC.mkStag, h]

example : PyCmp.le (Flt.fin (-1) : Flt ℝ) (lit 0) = true := by simp

omit [PySpecial α] in
/-- **C01**, assignments: a rejected assignment changes nothing at all, an accepted one stores the value and nothing else. -/
theorem nu_assignment (ext : Ext α) (o : Obj α) (v : α) :
    o.step ext (.setNu v) =
      if PyCmp.le v (lit 0) then (o, .error .valueError) else ({ o with nu := v }, .ok none) := by
  simp only [Obj.step, Obj.setNu]
  split <;> rfl

example : Wit.thw.step Wit.ext (.setNu (.fin 0)) = (Wit.thw, .error .valueError) := by
  rw [nu_assignment]; simp
example : (Wit.thw.step Wit.ext (.setNu (.fin 2))).1.nu = .fin 2 := by
  have h : ¬ ((2:ℝ) ≤ 0) := by norm_num
  rw [nu_assignment]; simp [h]

/-- NaN is not caught by the guard `nu <= 0`: it is accepted by the setter (and then stays). -/
theorem nan_viscosity_accepted : (Wit.thw.step Wit.ext (.setNu .nan)).1.nu = .nan := by
  rw [nu_assignment]; rfl

/-! ### C02 -/

omit [PySpecial α] [Add α] [Sub α] [Mul α] [Div α] [Neg α] [PyLit α] [PyCmp α] [PySqrt α] [PyPow α] in
private theorem firstFired_none {l : List (List α)} {k : ℕ} : firstFired l k = none ↔ ∀ a ∈ l, a = [] := by
  induction l generalizing k with
  | nil => simp [firstFired]
  | cons a l ih =>
    cases a with
    | nil => simp [firstFired, ih]
    | cons x xs => simp [firstFired]

omit [PySpecial α] [Add α] [Sub α] [Mul α] [Div α] [Neg α] [PyLit α] [PyCmp α] [PySqrt α] [PyPow α] in
private theorem firstFired_some {l : List (List α)} {k i : ℕ} {x : α} (h : firstFired l k = some (i, x)) :
    ∃ n, i = k + n ∧ (∃ xs, l[n]? = some (x :: xs)) ∧ ∀ j < n, l[j]? = some [] := by
  induction l generalizing k with
  | nil => simp [firstFired] at h
  | cons a l ih =>
    cases a with
    | nil =>
      obtain ⟨n, h1, h2, h3⟩ := ih (k := k + 1) (by simpa [firstFired] using h)
      refine ⟨n + 1, by omega, by simpa using h2, ?_⟩
      intro j hj
      cases j with
      | zero => rfl
      | succ j => simpa using h3 j (by omega)
    | cons y ys =>
      simp only [firstFired, Option.some.injEq, Prod.mk.injEq] at h
      refine ⟨0, by omega, ⟨ys, ?_⟩, by omega⟩
      simp [h.2]

omit [PySpecial α] [Add α] [Sub α] [Mul α] [Div α] [Neg α] [PyLit α] [PyCmp α] [PySqrt α] [PyPow α] in
private theorem first_unique {l : List (List α)} {n m : ℕ} {x y : α} {xs ys : List α}
    (h1 : l[n]? = some (x :: xs)) (h2 : ∀ j < n, l[j]? = some [])
    (h3 : l[m]? = some (y :: ys)) (h4 : ∀ j < m, l[j]? = some []) : n = m ∧ x = y := by
  rcases Nat.lt_trichotomy n m with h | h | h
  · rw [h4 n h] at h1; simp at h1
  · subst h; rw [h1] at h3; simp at h3; exact ⟨rfl, h3.1⟩
  · rw [h2 m h] at h3; simp at h3

omit [PySpecial α] [Add α] [Sub α] [Mul α] [Div α] [Neg α] [PyLit α] [PyCmp α] [PySqrt α] [PyPow α] in
private theorem evalResult_faithful {p : IvpProblem α} {r : IvpResult α} {res : IntegrationResult α}
    (h : evalResult p.x0 p.y0 p.events r = .ok res) : FaithfulReport p r res := by
  unfold evalResult at h
  split at h
  · rename_i hs
    split at h
    · rename_i h0
      split at h
      · simp at h
      · rename_i xe hx
        simp only [Except.ok.injEq] at h
        subst h
        constructor <;> simp_all
    · rename_i h0
      split at h
      · rename_i h1
        split at h
        · rename_i hf
          simp only [Except.ok.injEq] at h
          subst h
          rw [firstFired_none] at hf
          constructor
          · rfl
          · simp_all
          · simp_all
          · intro _ _ i e x xs he hx _
            have := hf _ (List.mem_of_getElem? hx)
            simp at this
          · simp
          · simp_all
        · rename_i i xe hf
          obtain ⟨n, hn, ⟨xs, hx⟩, hl⟩ := firstFired_some hf
          simp only [Nat.zero_add] at hn
          subst hn
          split at h
          · simp at h
          · rename_i e he
            simp only [Except.ok.injEq] at h
            subst h
            constructor
            · rfl
            · simp_all
            · simp_all
            · intro _ _ j e' x' xs' he' hx' hl'
              obtain ⟨rfl, rfl⟩ := first_unique hx hl hx' hl'
              rw [he] at he'
              simp only [Option.some.injEq] at he'
              subst he'
              exact ⟨rfl, rfl, rfl⟩
            · intro _ _ hall
              have := hall _ (List.mem_of_getElem? hx)
              simp at this
            · simp_all
      · simp only [Except.ok.injEq] at h
        subst h
        constructor <;> simp_all
  · simp only [Except.ok.injEq] at h
    subst h
    constructor <;> simp_all

omit [PySpecial α] in
/-- **C02.** If `solve` returns, it returns a faithful report of what the integrator did when asked to go from `x0` to `x1`,
with the method's events followed by the user's. -/
theorem solve_faithful {o o' : Obj α} {x0 x1 : α} {te : TermArg α} {ivp : Ivp α} {res : IntegrationResult α}
    (h : o.solve x0 x1 te ivp = (o', .ok res)) :
    ∃ p r, ivp p = .ok r ∧ p.x0 = x0 ∧ p.x1 = x1 ∧ p.events = o.events ++ te.toList ∧
      o'.startVector = .ok p.y0 ∧ FaithfulReport p r res := by
  obtain ⟨o1, p, r, hp, hr, ho, he⟩ := solve_ok h
  have hk := prepare_ok hp
  refine ⟨p, r, hr, hk.2.2.1, hk.2.2.2.1, hk.2.1, ?_, ?_⟩
  · rw [ho, ← hk.2.2.2.2.1]; rfl
  · apply evalResult_faithful
    rw [hk.2.2.1]; exact he

omit [PySpecial α] in
/-- **C02**, no spurious errors: if the integrator returns something scipy can return, `solve` returns. -/
theorem solve_returns {o o' : Obj α} {x0 x1 : α} {te : TermArg α} {ivp : Ivp α} {p : IvpProblem α} {r : IvpResult α}
    (hp : o.prepare x0 x1 te = (o', .ok p)) (hr : ivp p = .ok r) (hc : IvpContract p r) :
    ∃ res, (o.solve x0 x1 te ivp).2 = .ok res := by
  have hk := prepare_ok hp
  unfold Obj.solve
  rw [hp]
  simp only [hr]
  unfold evalResult
  split
  · split
    · split
      · rename_i hx
        exact absurd (List.getLast?_eq_none_iff.mp hx) hc.times
      · exact ⟨_, rfl⟩
    · split
      · split
        · exact ⟨_, rfl⟩
        · rename_i i xe hf
          obtain ⟨n, hn, ⟨xs, hx⟩, -⟩ := firstFired_some hf
          simp only [Nat.zero_add] at hn
          subst hn
          split
          · rename_i hx'
            rw [hk.1, ← hk.2.1] at hx'
            have h1 := List.getElem?_eq_none_iff.mp hx'
            obtain ⟨h2, -⟩ := List.getElem?_eq_some_iff.mp hx
            have := hc.events
            omega
          · exact ⟨_, rfl⟩
      · exact ⟨_, rfl⟩
  · exact ⟨_, rfl⟩

namespace Wit
/-- A prepared version of `thw`: momentum thickness 1 at the start. -/
noncomputable def thw1 : Obj (Flt ℝ) := (thw.step ext (.setInitialDeltaM (.fin 1))).1

/-- An integrator that runs to the end. -/
noncomputable def ivpEnd : Ivp (Flt ℝ) := fun p =>
  .ok ⟨true, 0, "", [p.x0, p.x1], p.events.map fun _ => [], fun _ => p.y0⟩
/-- An integrator that reports the first event at the end point. -/
noncomputable def ivpStop : Ivp (Flt ℝ) := fun p =>
  .ok ⟨true, 1, "", [p.x0, p.x1], p.events.map fun _ => [p.x1], fun _ => p.y0⟩
/-- An integrator that gives up. -/
noncomputable def ivpFail : Ivp (Flt ℝ) := fun p =>
  .ok ⟨false, -1, "step too small", [p.x0], p.events.map fun _ => [], fun _ => p.y0⟩

theorem thw1_eq : thw1 = { thw with ic := .manual (lit 0) (lit (1/100000)) (lit 0) (.fin 1) (lit 0) } := by
  have h : ¬ ((1:ℝ) ≤ 0) := by norm_num
  simp [thw1, Obj.step, Obj.setInitialDeltaM, h, thw, IC.mkManual, IC.assignDelM]

theorem thw1_prepare (x0 x1 : Flt ℝ) (te : TermArg (Flt ℝ)) : ∃ p,
    thw1.prepare x0 x1 te = ({ thw1 with ic := .manual (.fin 0) (.fin 1) (lit 0) (.fin 1) (lit 0),
                                          events := thw1.events ++ te.toList }, .ok p) ∧ p.y0 = [.fin 1] := by
  have h : ¬ ((1:ℝ) ≤ 0) := by norm_num
  rw [thw1_eq]
  simp [Obj.prepare, IC.setNu, thw, h, VelState.duE, VelState.rawDu, callOpt, Vel.call, zero, one, IC.setDu, Obj.startVector,
    IC.deltaM, pyDiv, Flt.fin_div, bind, Except.bind, pure, Except.pure]

end Wit

example : ∃ o' res, Wit.thw1.solve (.fin 0) (.fin 1) .none Wit.ivpEnd = (o', .ok res) ∧ res.status = .reachedEnd := by
  obtain ⟨p, hp, -⟩ := Wit.thw1_prepare (.fin 0) (.fin 1) .none
  simp [Obj.solve, hp, Wit.ivpEnd, evalResult]
example : ∃ o' res, Wit.thw1.solve (.fin 0) (.fin 1) .none Wit.ivpStop = (o', .ok res) ∧ res.status = .separated := by
  obtain ⟨p, hp, -⟩ := Wit.thw1_prepare (.fin 0) (.fin 1) .none
  have := prepare_ok hp
  have h2 : Wit.thw1.events = [.sepThwaites Fits.drela] := by rw [Wit.thw1_eq]; rfl
  simp only [Obj.solve, hp]
  simp [Wit.ivpStop, evalResult, this.2.1, h2, firstFired, Event.info, TermArg.toList]
example : ∃ o' res, Wit.thw1.solve (.fin 0) (.fin 1) .none Wit.ivpFail = (o', .ok res) ∧ res.success = false := by
  obtain ⟨p, hp, -⟩ := Wit.thw1_prepare (.fin 0) (.fin 1) .none
  simp [Obj.solve, hp, Wit.ivpFail, evalResult]

/-! ### C03 -/

/-- **C03**, codes and texts: different reasons have different texts (none of which is even a prefix of the other)
and different codes. -/
theorem reason_text_injective (a b : TermReason) : (a.text = b.text ↔ a = b) ∧ (a.code = b.code ↔ a = b) := by
  constructor <;> cases a <;> cases b <;> simp [TermReason.text, TermReason.code]

private theorem text_prefix {a b : TermReason} {s t : List Char} (h : a.text.toList ++ s = b.text.toList ++ t) :
    a = b ∧ s = t := by
  cases a <;> cases b <;> simp_all [TermReason.text]

/-- **C03**, recoverability: from the final message both the reason and the integrator's/event's own text can be recovered. -/
theorem message_injective (a b : TermReason) (s t : String) :
    composeMessage a s = composeMessage b t ↔ a = b ∧ s = t := by
  constructor
  · intro h
    unfold composeMessage at h
    have e : ∀ {u : String}, ¬ u.length > 0 → u = "" := by
      intro u hu
      simpa using hu
    split at h <;> split at h
    · have h := congrArg String.toList h
      simp only [String.toList_append, List.append_assoc] at h
      obtain ⟨h1, h2⟩ := text_prefix h
      refine ⟨h1, ?_⟩
      have h3 := List.append_cancel_left h2
      exact String.toList_injective h3
    · have h := congrArg String.toList h
      simp only [String.toList_append, List.append_assoc] at h
      rw [← List.append_nil b.text.toList] at h
      have := (text_prefix h).2
      simp at this
    · have h := congrArg String.toList h
      simp only [String.toList_append, List.append_assoc] at h
      rw [← List.append_nil a.text.toList] at h
      have := (text_prefix h).2
      simp at this
    · rename_i h1 h2
      exact ⟨(reason_text_injective a b).1.mp h, by rw [e h1, e h2]⟩
  · rintro ⟨rfl, rfl⟩; rfl

omit [PySpecial α] in
/-- **C03.** The message of every result `solve` returns is the text of its status, followed by ": " and a non-empty text if
there is one: for a run to the end there is none, for an event stop it is the event's, and otherwise the integrator's. -/
theorem solve_message {o o' : Obj α} {x0 x1 : α} {te : TermArg α} {ivp : Ivp α} {res : IntegrationResult α}
    (h : o.solve x0 x1 te ivp = (o', .ok res)) :
    ∃ p r, ivp p = .ok r ∧ ∃ extra : String,
      (res.message = if extra = "" then res.status.text else res.status.text ++ ": " ++ extra) ∧
      (r.success = true → r.status = 0 → res.message = "Completed") ∧
      (r.success = false → extra = r.message) ∧
      (r.success = true → r.status = 1 → extra = "Event not found." ∨
        ∃ e ∈ o.events ++ te.toList, e.info = (res.status, extra)) := by
  obtain ⟨o1, p, r, hp, hr, -, he⟩ := solve_ok h
  have hk := prepare_ok hp
  refine ⟨p, r, hr, ?_⟩
  have key : ∀ a s, composeMessage a s = if s = "" then a.text else a.text ++ ": " ++ s := by
    intro a s
    unfold composeMessage
    by_cases hs : s = ""
    · simp [hs]
    · have : s.length > 0 := by
        rcases Nat.eq_zero_or_pos s.length with h0 | h0
        · exact absurd (by simpa using h0) hs
        · exact h0
      rw [if_pos this, if_neg hs]
  unfold evalResult at he
  split at he
  · rename_i hs
    split at he
    · rename_i h0
      split at he
      · simp at he
      · simp only [Except.ok.injEq] at he
        subst he
        exact ⟨"", by rw [← key], by intros; rfl, by simp_all, by simp_all⟩
    · rename_i h0
      split at he
      · split at he
        · simp only [Except.ok.injEq] at he
          subst he
          exact ⟨"Event not found.", by rw [← key], by simp_all, by simp_all, fun _ _ => .inl rfl⟩
        · split at he
          · simp at he
          · rename_i e hee
            simp only [Except.ok.injEq] at he
            subst he
            refine ⟨e.info.2, by rw [← key], by simp_all, by simp_all, fun _ _ => .inr ⟨e, ?_, rfl⟩⟩
            rw [← hk.2.1]
            exact List.mem_of_getElem? hee
      · simp only [Except.ok.injEq] at he
        subst he
        exact ⟨r.message, by rw [← key], by simp_all, by simp_all, by simp_all⟩
  · simp only [Except.ok.injEq] at he
    subst he
    exact ⟨r.message, by rw [← key], by simp_all, by simp_all, by simp_all⟩

example : ∃ o' res, Wit.thw1.solve (.fin 0) (.fin 1) .none Wit.ivpFail = (o', .ok res) ∧
    res.message = "Unknown Event: step too small" := by
  obtain ⟨p, hp, -⟩ := Wit.thw1_prepare (.fin 0) (.fin 1) .none
  simp only [Obj.solve, hp, Wit.ivpFail, evalResult]
  exact ⟨_, _, rfl, by show composeMessage .unknown "step too small" = _; decide⟩

end IBL
