import Verif.Props.MethodHistory

/-!
Properties C19, C25, C26, C31: fits selection, initial values, critical shape factor.
-/

set_option linter.unusedSectionVars false

namespace IBL
variable {α : Type}
variable [Add α] [Sub α] [Mul α] [Div α] [Neg α] [PyLit α] [PyCmp α] [PySqrt α] [PyPow α]

/-! ### C19 -/

/-- The arguments of `set_data_fits` that are documented as valid, with the fits a user expects of them. -/
inductive DocumentedFits (ext : Ext α) : FitsArg α → Fits α → Prop
  | spline : DocumentedFits ext (.name "Spline") (Fits.spline ext.cubic)
  | white : DocumentedFits ext (.name "White") Fits.white
  | cebeci : DocumentedFits ext (.name "Cebeci-Bradshaw") Fits.cebeciBradshaw
  | drela : DocumentedFits ext (.name "Drela") Fits.drela
  | three (shear shape shapeP : α → α) :
      DocumentedFits ext (.tuple [.fn shear, .fn shape, .fn shapeP]) ⟨"Custom", shear, shape, .fn shapeP, none, none⟩
  | two (shear shape : α → α) :
      DocumentedFits ext (.tuple [.fn shear, .fn shape]) ⟨"Custom", shear, shape, .fdOfShape, none, none⟩

theorem choose_iff (ext : Ext α) (a : FitsArg α) (m : Fits α) : chooseFits ext a = .ok m ↔ DocumentedFits ext a m := by
  constructor
  · intro h
    unfold chooseFits at h
    cases a with
    | name s =>
      dsimp only at h
      split_ifs at h with h1 h2 h3 h4
      · cases h; subst h1; exact .spline
      · cases h; subst h2; exact .white
      · cases h; subst h3; exact .cebeci
      · cases h; subst h4; exact .drela
    | tuple l =>
      dsimp only at h
      split at h
      · cases h; exact .three _ _ _
      · cases h; exact .two _ _
      · cases h
    | other => cases h
  · intro h
    cases h with
    | spline => simp [chooseFits]
    | white => simp [chooseFits]
    | cebeci => simp [chooseFits]
    | drela => simp [chooseFits]
    | three => rfl
    | two => rfl

private theorem choose_error (ext : Ext α) (a : FitsArg α) (e : Exc) (h : chooseFits ext a = .error e) : e = .valueError := by
  unfold chooseFits at h
  cases a with
  | name s => dsimp only at h; split_ifs at h; cases h; rfl
  | tuple l => dsimp only at h; split at h <;> cases h; rfl
  | other => cases h; rfl

/-- **C19**: on any Thwaites object `set_data_fits` accepts exactly the documented arguments and selects what they stand for;
anything else raises ValueError and leaves the whole object as it was. -/
theorem set_data_fits_iff (ext : Ext α) (o : Obj α) (a : FitsArg α) (hc : o.cls.isThwaites = true) :
    (∀ m, DocumentedFits ext a m →
      (o.step ext (.setDataFits a)).2 = .ok none ∧ (o.step ext (.setDataFits a)).1.fits = some m) ∧
    ((¬ ∃ m, DocumentedFits ext a m) → o.step ext (.setDataFits a) = (o, .error .valueError)) := by
  constructor
  · intro m hm
    have := (choose_iff ext a m).2 hm
    simp only [Obj.step, hc, if_true, Obj.setDataFits, this, outOf]
    exact ⟨trivial, trivial⟩
  · intro hn
    rcases hx : chooseFits ext a with e | m
    · have := choose_error ext a e hx
      subst this
      simp only [Obj.step, hc, if_true, Obj.setDataFits, hx, outOf]
    · exact absurd ⟨m, (choose_iff ext a m).1 hx⟩ hn

/-- The set of accepted arguments spelled out. -/
theorem documented_fits_iff (ext : Ext α) (a : FitsArg α) : (∃ m, DocumentedFits ext a m) ↔
    (∃ s ∈ ["Spline", "White", "Cebeci-Bradshaw", "Drela"], a = .name s) ∨
    (∃ f g h : α → α, a = .tuple [.fn f, .fn g, .fn h]) ∨ ∃ f g : α → α, a = .tuple [.fn f, .fn g] := by
  constructor
  · rintro ⟨m, h⟩
    cases h with
    | spline => exact .inl ⟨_, by simp, rfl⟩
    | white => exact .inl ⟨"White", by simp, rfl⟩
    | cebeci => exact .inl ⟨"Cebeci-Bradshaw", by simp, rfl⟩
    | drela => exact .inl ⟨"Drela", by simp, rfl⟩
    | three f g h => exact .inr (.inl ⟨f, g, h, rfl⟩)
    | two f g => exact .inr (.inr ⟨f, g, rfl⟩)
  · rintro (⟨s, hs, rfl⟩ | ⟨f, g, h, rfl⟩ | ⟨f, g, rfl⟩)
    · simp only [List.mem_cons, List.not_mem_nil, or_false] at hs
      rcases hs with rfl | rfl | rfl | rfl
      exacts [⟨_, .spline⟩, ⟨_, .white⟩, ⟨_, .cebeci⟩, ⟨_, .drela⟩]
    · exact ⟨_, .three f g h⟩
    · exact ⟨_, .two f g⟩

/-- The constructor takes the same arguments and, given good viscosity and no velocities, fails exactly on the others. -/
theorem constructor_fits_iff [PySpecial α] (ext : Ext α) (linear : Bool) (nu : α) (a : FitsArg α)
    (hn : PyCmp.le nu (lit 0) = false) :
    (∃ o, Obj.mkThwaites ext linear nu .none .none .none a = .ok o) ↔ ∃ m, DocumentedFits ext a m := by
  simp only [← choose_iff]
  unfold Obj.mkThwaites Obj.mkBase IC.mkStag
  simp only [hn, Bool.false_eq_true, if_false, Obj.setInitialCondition, Obj.setDataFits]
  rcases chooseFits ext a with e | m <;> simp

example : Wit.thw.cls.isThwaites = true := rfl
example : ¬ ∃ m, DocumentedFits Wit.ext (.name "drela") m := by
  rw [documented_fits_iff]; simp

/-! ### C31 -/

/-- **C31** as stated, for the two condition classes of the library. -/
def InitialThicknessUsed (ext : Ext α) : Prop :=
  ∀ (o : Obj α) (a : α), (o.step ext (.setInitialDeltaM a)).2 = .ok none →
    (o.step ext (.setInitialDeltaM a)).1.initialDeltaM = .ok a

/-- Rejection part of **C31**, any condition: a value comparing `<= 0` raises ValueError and changes nothing,
any other value is accepted. -/
theorem initial_thickness_guard (ext : Ext α) (o : Obj α) (a : α) :
    (PyCmp.le a (lit 0) = true → o.step ext (.setInitialDeltaM a) = (o, .error .valueError)) ∧
    (PyCmp.le a (lit 0) = false → (o.step ext (.setInitialDeltaM a)).2 = .ok none) := by
  constructor <;> intro h <;> simp [Obj.step, Obj.setInitialDeltaM, h, outOf]

/-- **C31** fails: with a stagnation condition installed the assignment is accepted and ignored, for every object and value. -/
theorem initial_thickness_ignored (ext : Ext α) (o : Obj α) (du nu a : α) (ha : PyCmp.le a (lit 0) = false) :
    let o1 := (o.step ext (.setInitialCondition (.stag du nu))).1
    o1.step ext (.setInitialDeltaM a) = (o1, .ok none) := by
  simp [Obj.step, Obj.setInitialCondition, Obj.setInitialDeltaM, ha, IC.assignDelM, outOf]

theorem initial_thickness_used_fails : ¬ InitialThicknessUsed Wit.ext := by
  intro H
  have h7 : ¬ ((7:ℝ) ≤ 0) := by norm_num
  let o1 := (Wit.thw.step Wit.ext (.setInitialCondition (.stag (.fin 0) (.fin 1)))).1
  have hstep := initial_thickness_ignored Wit.ext Wit.thw (.fin 0) (.fin 1) (.fin 7) (by simp [h7])
  have := H o1 (.fin 7) (by rw [hstep])
  rw [hstep] at this
  simp [Obj.initialDeltaM, Obj.step, Obj.setInitialCondition, IC.deltaM, pyDiv, IC.stagShapeD, bind, Except.bind] at this

/-- **C31**, what holds: with a `ManualCondition` installed (the default) the accepted value is read back and is what every
following solve starts from, whatever else is called in between except a new condition or thickness
(missing: stagnation conditions). -/
theorem initial_thickness_used_partial (ext : Ext α) (o : Obj α) (du nu dD dM dK a : α)
    (hic : o.ic = .manual du nu dD dM dK) (ha : PyCmp.le a (lit 0) = false) (ops : List (Op α))
    (hops : ∀ op ∈ ops, (∀ ic, op ≠ .setInitialCondition ic) ∧ ∀ v, op ≠ .setInitialDeltaM v) :
    let o' := (o.step ext (.setInitialDeltaM a)).1.run ext ops
    o'.initialDeltaM = .ok a ∧ ∀ x0 x1 te p, (o'.prepare x0 x1 te).2 = .ok p →
      (o.cls = .head → p.y0.head? = some a) ∧ (o.cls ≠ .head → PyCmp.eq o'.nu (lit 0) = false ∧ p.y0 = [a * a / o'.nu]) := by
  have keep : ∀ (ops : List (Op α)) (o : Obj α),
      (∀ op ∈ ops, (∀ ic, op ≠ .setInitialCondition ic) ∧ ∀ v, op ≠ .setInitialDeltaM v) →
      (∃ du nu dD dK, o.ic = .manual du nu dD a dK) → ∃ du nu dD dK, (o.run ext ops).ic = .manual du nu dD a dK := by
    intro ops
    induction ops with
    | nil => intro o _ h; exact h
    | cons op ops ih =>
      intro o hops hic
      rw [run_cons]
      refine ih _ (fun op' h' => hops op' (List.mem_cons_of_mem _ h')) ?_
      have hop := hops op List.mem_cons_self
      obtain ⟨du, nu, dD, dK, hic⟩ := hic
      cases op with
      | setNu nu => simp only [Obj.step, Obj.setNu]; split <;> exact ⟨_, _, _, _, hic⟩
      | setVelocity u du d2u => exact ⟨_, _, _, _, hic⟩
      | setInitialCondition ic => exact absurd rfl (hop.1 ic)
      | setInitialDeltaM v => exact absurd rfl (hop.2 v)
      | setInitialShapeD v =>
        simp only [Obj.step, Obj.setInitialShapeD]
        split
        · split
          · exact ⟨_, _, _, _, hic⟩
          · split
            · exact ⟨_, _, _, _, hic⟩
            · simp only [hic, IC.assignDelD]; exact ⟨_, _, _, _, rfl⟩
        · exact ⟨_, _, _, _, hic⟩
      | setDataFits a =>
        simp only [Obj.step, Obj.setDataFits]
        split
        · split <;> exact ⟨_, _, _, _, hic⟩
        · exact ⟨_, _, _, _, hic⟩
      | setShapeDCritical c => simp only [Obj.step]; split <;> exact ⟨_, _, _, _, hic⟩
      | solve x0 x1 te ivp =>
        have hp : ∃ du nu dD dK, (o.prepare x0 x1 te).1.ic = .manual du nu dD a dK := by
          unfold Obj.prepare
          rw [hic]
          simp only [IC.setNu]
          split_ifs
          · exact ⟨_, _, _, _, hic⟩
          · dsimp only
            split
            · exact ⟨_, _, _, _, rfl⟩
            · split <;> exact ⟨_, _, _, _, rfl⟩
        simp only [Obj.step, Obj.solve]
        split
        · rename_i h; rw [h] at hp; exact hp
        · rename_i h; rw [h] at hp
          split <;> exact hp
  intro o'
  have h0 : ∃ du nu dD dK, ((o.step ext (.setInitialDeltaM a)).1).ic = .manual du nu dD a dK := by
    simp only [Obj.step, Obj.setInitialDeltaM, ha, Bool.false_eq_true, if_false, hic, IC.assignDelM]
    exact ⟨_, _, _, _, rfl⟩
  obtain ⟨du', nu', dD', dK', h1⟩ := keep ops _ hops h0
  have h1 : o'.ic = .manual du' nu' dD' a dK' := h1
  have hcls : o'.cls = o.cls := by
    show ((o.step ext (.setInitialDeltaM a)).1.run ext ops).cls = o.cls
    rw [run_cls, step_cls]
  refine ⟨by simp [Obj.initialDeltaM, h1, IC.deltaM], ?_⟩
  intro x0 x1 te p hp
  have hp : o'.prepare x0 x1 te = ((o'.prepare x0 x1 te).1, .ok p) := Prod.ext rfl hp
  have hsv := (prepare_ok hp).2.2.2.2.1
  have hfr := prepare_frame o' x0 x1 te
  have hic' : ∃ du nu dD dK, (o'.prepare x0 x1 te).1.ic = .manual du nu dD a dK := by
    unfold Obj.prepare
    rw [h1]
    simp only [IC.setNu]
    split_ifs
    · exact ⟨_, _, _, _, h1⟩
    · dsimp only
      split
      · exact ⟨_, _, _, _, rfl⟩
      · split <;> exact ⟨_, _, _, _, rfl⟩
  obtain ⟨du2, nu2, dD2, dK2, h2⟩ := hic'
  unfold Obj.startVector at hsv
  rw [h2, hfr.1, hfr.2.1, hcls] at hsv
  simp only [IC.deltaM, IC.shapeD, bind, Except.bind, pure, Except.pure] at hsv
  constructor
  · intro hh
    rw [hh] at hsv
    dsimp only at hsv
    split at hsv
    · cases hsv
    · simp only [Except.ok.injEq] at hsv; rw [← hsv]; rfl
  · intro hh
    split at hsv
    · rename_i hcc; exact absurd hcc hh
    · simp only [pyDiv] at hsv
      split_ifs at hsv with hz
      · simp only [Except.ok.injEq] at hsv
        exact ⟨by simpa using hz, hsv.symm⟩

example : (Wit.thw1.step Wit.ext (.setInitialDeltaM (.fin 1))).2 = .ok none := by
  have h : ¬ ((1:ℝ) ≤ 0) := by norm_num
  exact (initial_thickness_guard Wit.ext Wit.thw1 (.fin 1)).2 (by simp [h])

/-! ### C25 -/

/-- The two assignments of C25 in either order. -/
noncomputable def assignments (thicknessFirst : Bool) (a h : ℝ) : List (Op (Flt ℝ)) :=
  if thicknessFirst then [.setInitialDeltaM (.fin a), .setInitialShapeD (.fin h)]
  else [.setInitialShapeD (.fin h), .setInitialDeltaM (.fin a)]

/-- **C25** as stated, exact arithmetic: after both assignments in any order, on any Head object with any history, a solve
starts from thickness `a` and shape factor `h`. -/
def InitialOrderFree (ext : Ext (Flt ℝ)) : Prop :=
  ∀ (o : Obj (Flt ℝ)), Built ext o → o.cls = .head → ∀ (ops : List (Op (Flt ℝ))) (first : Bool) (a h : ℝ), 0 < a → 0 < h →
    ∀ x0 x1 te p, (((o.run ext ops).run ext (assignments first a h)).prepare x0 x1 te).2 = .ok p → p.y0 = [.fin a, .fin h]

/-- **C25** is false: shape factor first, on a new object. (The displacement thickness is computed from the infinite default
momentum thickness.) -/
theorem initial_order_matters : ¬ InitialOrderFree Wit.ext := by
  intro H
  have h1 : ¬ ((1:ℝ) ≤ 0) := by norm_num
  have h2 : ¬ ((2:ℝ) ≤ 0) := by norm_num
  have hp : ∃ p, (((Wit.hd.run Wit.ext []).run Wit.ext (assignments false 1 2)).prepare (.fin 0) (.fin 1) .none).2 = .ok p ∧
      p.y0 = [.fin 1, .pinf] := by
    have hm : (Flt.fin 2 * Flt.pinf : Flt ℝ) = .pinf := by
      show Flt.mul _ _ = _
      have : compare (2:ℝ) 0 = .gt := by rw [compare_gt_iff_gt]; norm_num
      simp [Flt.mul, Flt.sgn, this, Flt.infTimes]
    have hd : (Flt.pinf / Flt.fin 1 : Flt ℝ) = .pinf := by
      show Flt.div _ _ = _
      have : ¬ ((1:ℝ) < 0) := by norm_num
      simp [Flt.div, this]
    simp [assignments, Obj.run, Obj.step, Obj.setInitialDeltaM, Obj.setInitialShapeD, Wit.hd, IC.mkManual, IC.assignDelM,
      IC.assignDelD, IC.deltaM, Obj.prepare, IC.setNu, h1, h2, VelState.duE, VelState.rawDu, callOpt, Vel.call, Wit.zero,
      IC.setDu, Obj.startVector, IC.shapeD, pyDiv, bind, Except.bind, pure, Except.pure, PySpecial.inf, hm, hd]
  obtain ⟨p, hp, hy⟩ := hp
  have := H Wit.hd Wit.hd_built rfl [] false 1 2 one_pos two_pos _ _ _ p hp
  rw [hy] at this
  simp at this

/-- **C25**, what holds: momentum thickness first, then shape factor, with a `ManualCondition` installed; every object
state, hence every history (missing: the other order, and stagnation conditions, which ignore both). -/
theorem initial_values_partial (ext : Ext (Flt ℝ)) (o : Obj (Flt ℝ)) (hc : o.cls = .head) (du nu dD dM dK : Flt ℝ)
    (hic : o.ic = .manual du nu dD dM dK) (a h : ℝ) (ha : 0 < a) (hh : 0 < h) (x0 x1 : Flt ℝ) (te : TermArg (Flt ℝ))
    (p : IvpProblem (Flt ℝ)) (hp : ((o.run ext (assignments true a h)).prepare x0 x1 te).2 = .ok p) :
    p.y0 = [.fin a, .fin h] := by
  have ha' : ¬ a ≤ 0 := not_le.2 ha
  have hh' : ¬ h ≤ 0 := not_le.2 hh
  have hane : a ≠ 0 := ne_of_gt ha
  have hrun : o.run ext (assignments true a h) = { o with ic := .manual du nu (.fin (h * a)) (.fin a) dK } := by
    simp [assignments, Obj.run, Obj.step, Obj.setInitialDeltaM, Obj.setInitialShapeD, hic, ha', hh', hc, IC.assignDelM,
      IC.assignDelD, IC.deltaM]
  rw [hrun] at hp
  unfold Obj.prepare at hp
  simp only [IC.setNu] at hp
  split_ifs at hp
  · dsimp only at hp
    split at hp
    · cases hp
    · simp only [Obj.startVector, hc, IC.setDu, IC.deltaM, IC.shapeD, pyDiv, bind, Except.bind, pure, Except.pure,
        Flt.lit_fin, Flt.fin_eq] at hp
      have : decide (a = ((0:ℚ):ℝ)) = false := by simpa using hane
      simp only [this, Bool.false_eq_true, if_false, Except.ok.injEq] at hp
      rw [← hp, Flt.fin_div _ _ hane]
      simp [mul_div_assoc, div_self hane]

example : ∃ p, ((Wit.hd.run Wit.ext (assignments true 1 2)).prepare (.fin 0) (.fin 1) .none).2 = .ok p := by
  have h : ¬ ((1:ℝ) ≤ 0) := by norm_num
  have h2 : ¬ ((2:ℝ) ≤ 0) := by norm_num
  simp [assignments, Obj.run, Obj.step, Obj.setInitialDeltaM, Obj.setInitialShapeD, Wit.hd, IC.mkManual, IC.assignDelM,
    IC.assignDelD, IC.deltaM, Obj.prepare, IC.setNu, h, h2, VelState.duE, VelState.rawDu, callOpt, Vel.call, Wit.zero, IC.setDu,
    Obj.startVector, IC.shapeD, pyDiv, bind, Except.bind, pure, Except.pure]

/-! ### C26 -/

/-- **C26**, exact arithmetic: on a Head object with any history, the first event of the next solve reports SEPARATED, and its
value at a state with shape factor `h` is positive, zero, negative exactly as `h` is below, at, above the critical value
set last. -/
theorem head_event_sign {ext : Ext (Flt ℝ)} {nu : Flt ℝ} {u du d2u : Arg (Flt ℝ)} {c0 : Flt ℝ} {o : Obj (Flt ℝ)}
    (hb : Obj.mkHead ext nu u du d2u c0 = .ok o) (ops : List (Op (Flt ℝ))) (c : ℝ) (hc : lastCrit c0 ops = .fin c)
    (x0 x1 : Flt ℝ) (te : TermArg (Flt ℝ)) (p : IvpProblem (Flt ℝ)) (hp : ((o.run ext ops).prepare x0 x1 te).2 = .ok p) :
    ∃ e, p.events.head? = some e ∧ e.info.1 = .separated ∧ ∀ (x dm : Flt ℝ) (h : ℝ),
      ∃ v : ℝ, (o.run ext ops).eventValue e x [dm, .fin h] = .ok (.fin v) ∧
        (0 < v ↔ h < c) ∧ (v = 0 ↔ h = c) ∧ (v < 0 ↔ c < h) := by
  refine ⟨_, head_separation_monitored hb ops x0 x1 te p hp, rfl, ?_⟩
  intro x dm h
  refine ⟨c - h, ?_, ?_, ?_, ?_⟩
  · rw [hc]; simp [Obj.eventValue, pure, Except.pure]
  · constructor <;> intro hh <;> linarith
  · constructor <;> intro hh <;> linarith
  · constructor <;> intro hh <;> linarith

example (o : Obj (Flt ℝ)) (h : Obj.mkHead Wit.ext (.fin 1) (.callable Wit.one) (.callable Wit.zero) .none (lit (12/5)) = .ok o) :=
  head_event_sign h [.setShapeDCritical (.fin 3)] 3 rfl

end IBL
