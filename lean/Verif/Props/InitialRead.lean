import Verif.Props.Config

/-! C109: the initial values that can be read from a method object and those a solve starts from. -/

namespace IBL
set_option linter.unusedSectionVars false
variable {α : Type} [Add α] [Sub α] [Mul α] [Div α] [Neg α] [PyLit α] [PyCmp α] [PySqrt α] [PyPow α]

/-- The start vector is made of the initial values read from `o`: thickness and shape factor for Head, thickness squared over viscosity for
Thwaites. -/
def StartsFrom (o : Obj α) (y0 : List α) : Prop :=
  match o.cls with
  | .head => ∃ m h, o.initialDeltaM = .ok m ∧ o.initialShapeD = .ok h ∧ y0 = [m, h]
  | _ => ∃ m, o.initialDeltaM = .ok m ∧ PyCmp.eq o.nu (lit 0) = false ∧ y0 = [m * m / o.nu]

/-- **C109** as stated: what is read before a solve is what it starts from. -/
def ReadBefore [PySpecial α] (ext : Ext α) : Prop :=
  ∀ o, Built ext o → ∀ ops x0 x1 te p, ((o.run ext ops).prepare x0 x1 te).2 = .ok p → StartsFrom (o.run ext ops) p.y0

theorem startVector_from {o : Obj α} {y0 : List α} (h : o.startVector = .ok y0) : StartsFrom o y0 := by
  rw [Obj.startVector] at h
  rw [StartsFrom]
  simp only [Obj.initialDeltaM, Obj.initialShapeD]
  have thw : ∀ {y}, (do let m ← o.ic.deltaM; let F ← pyDiv (m * m) o.nu; return [F] : Except Exc (List α)) = .ok y →
      ∃ m, o.ic.deltaM = .ok m ∧ PyCmp.eq o.nu (lit 0) = false ∧ y = [m * m / o.nu] := by
    intro y h
    rcases hm : o.ic.deltaM with e | m
    · simp [hm, bind, Except.bind] at h
    · simp only [hm, bind, Except.bind, pure, Except.pure, pyDiv] at h
      split_ifs at h with hz
      · simp only [Except.ok.injEq] at h
        exact ⟨m, rfl, by simpa using hz, h.symm⟩
  split at h
  · rename_i hc
    rw [hc]
    simp only
    rcases hm : o.ic.deltaM with e | m
    · simp [hm, bind, Except.bind] at h
    · rcases hs : o.ic.shapeD with e | s
      · simp [hm, hs, bind, Except.bind] at h
      · simp only [hm, hs, bind, Except.bind, pure, Except.pure, Except.ok.injEq] at h
        exact ⟨m, s, rfl, rfl, h.symm⟩
  · rename_i hc
    split
    · rename_i hc'; exact absurd hc' hc
    · exact thw h

/-- **C109**: after a solve the initial values that are read are those it started from, with any condition, whether or not the integrator
returned. -/
theorem initial_read_after (o : Obj α) (x0 x1 : α) (te : TermArg α) (ivp : Ivp α) (p : IvpProblem α) (h : (o.prepare x0 x1 te).2 = .ok p) :
    StartsFrom (o.solve x0 x1 te ivp).1 p.y0 := by
  have hp : o.prepare x0 x1 te = ((o.prepare x0 x1 te).1, .ok p) := Prod.ext rfl h
  have := startVector_from (prepare_ok hp).2.2.2.2.1
  rw [Obj.solve, hp]
  simp only
  rcases ivp p with e | r <;> exact this

/-- **C109** where it holds before a solve: with a `ManualCondition`, any arithmetic, any state of the object (missing: stagnation conditions). -/
theorem initial_read_before_partial (o : Obj α) (du nu dD dM dK : α) (hic : o.ic = .manual du nu dD dM dK) (x0 x1 : α) (te : TermArg α)
    (p : IvpProblem α) (h : (o.prepare x0 x1 te).2 = .ok p) : StartsFrom o p.y0 := by
  unfold Obj.prepare at h
  rw [hic] at h
  simp only [IC.setNu] at h
  split_ifs at h
  · dsimp only at h
    split at h
    · cases h
    · split at h
      · cases h
      · rename_i hs
        cases h
        have := startVector_from hs
        simpa [StartsFrom, Obj.initialDeltaM, Obj.initialShapeD, hic, IC.deltaM, IC.shapeD, IC.setDu] using this

/-- With a stagnation condition the values read are those of its own slope and viscosity, and the solve starts from those of the object. -/
theorem stagnation_read (o : Obj α) (du nu : α) (hic : o.ic = .stag du nu) (x0 x1 : α) (te : TermArg α) (p : IvpProblem α)
    (h : (o.prepare x0 x1 te).2 = .ok p) : o.initialDeltaM = IC.deltaM (.stag du nu) ∧
      ∃ d m, o.vel.duE x0 = .ok d ∧ IC.deltaM (.stag d o.nu) = .ok m ∧ (o.cls = .head → p.y0 = [m, IC.stagShapeD]) ∧
        (o.cls ≠ .head → p.y0 = [m * m / o.nu]) := by
  refine ⟨by rw [Obj.initialDeltaM, hic], ?_⟩
  unfold Obj.prepare at h
  rw [hic] at h
  simp only [IC.setNu] at h
  split_ifs at h
  · dsimp only at h
    split at h
    · cases h
    · rename_i d hd
      split at h
      · cases h
      · rename_i hs
        cases h
        have := startVector_from hs
        refine ⟨d, ?_⟩
        rw [StartsFrom] at this
        simp only at this
        split at this
        · rename_i hc
          obtain ⟨m, s, h1, h2, h3⟩ := this
          simp only [Obj.initialDeltaM, Obj.initialShapeD, IC.setDu, IC.shapeD, Except.ok.injEq] at h1 h2
          exact ⟨m, hd, h1, fun _ => by rw [h3, h2], fun hn => absurd hc hn⟩
        · rename_i hc
          obtain ⟨m, h1, -, h3⟩ := this
          simp only [Obj.initialDeltaM, IC.setDu] at h1
          exact ⟨m, hd, h1, fun hh => absurd hh hc, fun _ => h3⟩

/-- **C109** is false of the code: a condition made with the slope still unknown (zero) cannot be read, and the solve starts all the same. -/
theorem read_before_fails : ¬ ReadBefore Wit.ext := by
  intro H
  let ops : List (Op (Flt ℝ)) := [.setVelocity (.callable Wit.one) (.callable Wit.one) .none, .setInitialCondition (.stag (.fin 0) (.fin 1))]
  have h1 : ¬ ((1:ℝ) ≤ 0) := by norm_num
  have hrun : Wit.hd.run Wit.ext ops =
      ⟨.head, .fin 1, ⟨some (.fn Wit.one.call), some (.fn Wit.one.call), some (.fd1OfDu (lit (1/100000)))⟩, .stag (.fin 0) (.fin 1),
        [.sepHead (lit (12/5))], none, none⟩ := by
    simp [ops, Obj.run, Obj.step, Obj.setVelocity, IBL.setVelocity, setVelCallable, Wit.one, Wit.hd, Obj.setInitialCondition]
  have hne : PyCmp.eq ((IC.stagShapeD + lit 2) * Flt.fin 1 : Flt ℝ) (lit 0) = false := by
    simp only [IC.stagShapeD, Flt.lit_fin, Flt.fin_add, Flt.fin_mul, Flt.fin_eq]
    norm_num
  have hle : PyCmp.le (Flt.fin 1 : Flt ℝ) (lit 0) = false := by simp [h1]
  have hp : ∃ p, ((Wit.hd.run Wit.ext ops).prepare (.fin 0) (.fin 1) .none).2 = .ok p := by
    rw [hrun]
    simp only [Obj.prepare, IC.setNu, VelState.duE, VelState.rawDu, callOpt, Vel.call, Wit.one, IC.setDu, Obj.startVector, IC.deltaM,
      IC.shapeD, pyDiv, bind, Except.bind, pure, Except.pure]
    simp only [hle, Option.isNone_some, hne, Bool.false_eq_true, if_false]
    exact ⟨_, rfl⟩
  obtain ⟨p, hp⟩ := hp
  have := H Wit.hd Wit.hd_built ops _ _ _ p hp
  rw [hrun, StartsFrom] at this
  simp only [Obj.initialDeltaM, IC.deltaM, pyDiv] at this
  obtain ⟨m, h, hm, -⟩ := this
  have hz : PyCmp.eq ((IC.stagShapeD + lit 2) * Flt.fin 0 : Flt ℝ) (lit 0) = true := by
    simp only [IC.stagShapeD, Flt.lit_fin, Flt.fin_add, Flt.fin_mul, Flt.fin_eq]
    norm_num
  simp only [hz, if_true, bind, Except.bind, reduceCtorEq] at hm

/-- **C109**, exact arithmetic: an accepted initial shape factor is read back, with a `ManualCondition` whose momentum thickness is not zero. -/
theorem shape_factor_read_back (ext : Ext (Flt ℝ)) (o : Obj (Flt ℝ)) (hc : o.cls = .head) (du nu dD dK : Flt ℝ) (m h : ℝ) (hm : m ≠ 0)
    (hic : o.ic = .manual du nu dD (.fin m) dK) (hh : 0 < h) :
    (o.step ext (.setInitialShapeD (.fin h))).2 = .ok none ∧ (o.step ext (.setInitialShapeD (.fin h))).1.initialShapeD = .ok (.fin h) ∧
      (o.step ext (.setInitialShapeD (.fin h))).1.initialDeltaM = .ok (.fin m) := by
  simp only [Obj.step, hc, if_true, Obj.setInitialShapeD, hic, IC.deltaM, IC.assignDelD, Obj.initialShapeD, Obj.initialDeltaM, IC.shapeD, pyDiv,
    Flt.lit_fin, Flt.fin_le, outOf]
  have : decide (h ≤ ((0:ℚ):ℝ)) = false := by simpa using hh
  simp only [this, Bool.false_eq_true, if_false]
  refine ⟨trivial, ?_, trivial⟩
  rw [Flt.fin_mul, Flt.fin_div _ _ hm, mul_div_assoc, div_self hm, mul_one]
  simp [hm]

/-- The hypotheses can be met: a new Head object with a thickness of 1. -/
example : ∃ o : Obj (Flt ℝ), o.cls = .head ∧ (∃ du nu dD dK, o.ic = .manual du nu dD (.fin 1) dK) ∧ ∃ p, (o.prepare (.fin 0) (.fin 1) .none).2 = .ok p := by
  have h : ¬ ((1:ℝ) ≤ 0) := by norm_num
  refine ⟨{ Wit.hd with ic := .manual (.fin 0) (.fin 1) (.fin 2) (.fin 1) (.fin 0) }, rfl, ⟨_, _, _, _, rfl⟩, ?_⟩
  simp [Wit.hd, IC.deltaM, Obj.prepare, IC.setNu, h, VelState.duE, VelState.rawDu, callOpt, Vel.call, Wit.zero, IC.setDu,
    Obj.startVector, IC.shapeD, pyDiv, bind, Except.bind, pure, Except.pure]

end IBL
