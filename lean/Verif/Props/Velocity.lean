import Verif.Spec.Velocity
import Verif.Props.Method

/-!
Properties C07-C09 of `set_velocity`, for an arbitrary arithmetic and an arbitrary interpolator.
-/

set_option linter.unusedSectionVars false

namespace IBL
variable {α : Type}
variable [Add α] [Sub α] [Mul α] [Div α] [Neg α] [PyLit α]

/-- The case of C07 the code gets wrong: a callable slope with a `d2u_e` that is neither `None` nor callable. -/
def BadSecond : Arg α → Arg α → Arg α → Prop
  | .callable _, .callable _, .none => False
  | .callable _, .callable _, .callable _ => False
  | .callable _, .callable _, _ => True
  | _, _, _ => False

/-! ### C07 -/

/-- **C07** as stated: whatever the object held before, accepted arguments determine three working functions. -/
def AcceptedVelocityWorks (pchip : Pchip α) : Prop :=
  ∀ (s s' : VelState α) (u du d2u : Arg α), setVelocity pchip s u du d2u = (s', .ok ()) →
    VelocityOf pchip u du d2u s'.uE s'.duE s'.d2uE

private theorem callable_ok {pchip : Pchip α} {s s' : VelState α} {c : Callable α} {du d2u : Arg α}
    (h : setVelCallable s c du d2u = (s', .ok ())) (hb : ¬ BadSecond (.callable c) du d2u) :
    VelocityOf pchip (.callable c) du d2u s'.uE s'.duE s'.d2uE := by
  unfold setVelCallable at h
  dsimp only at h
  cases du with
  | none =>
    cases d2u with
    | none =>
      rcases hd : c.deriv with _ | ⟨d1, d2⟩
      · rw [hd] at h
        simp only [Prod.mk.injEq, and_true] at h
        subst h
        refine .callable (fun x => rfl) ⟨?_, ?_⟩ ⟨?_, ?_⟩
        · intro d1 d2 h'; rw [hd] at h'; cases h'
        · intro _ x; rfl
        · intro d1 d2 h'; rw [hd] at h'; cases h'
        · intro _ x; rfl
      · rw [hd] at h
        simp only [Prod.mk.injEq, and_true] at h
        subst h
        refine .callable (fun x => rfl) ⟨?_, ?_⟩ ⟨?_, ?_⟩
        · intro e1 e2 h' x; rw [hd] at h'; cases h'; rfl
        · intro h'; rw [hd] at h'; cases h'
        · intro e1 e2 h' x; rw [hd] at h'; cases h'; rfl
        · intro h'; rw [hd] at h'; cases h'
    | _ => simp at h
  | callable cd =>
    cases d2u with
    | none =>
      rcases hd : cd.deriv with _ | ⟨d1, d2⟩
      · simp only [hd, Prod.mk.injEq, and_true] at h
        subst h
        refine .callable2 (fun x => rfl) (fun x => rfl) ⟨?_, ?_⟩
        · intro d1 d2 h'; rw [hd] at h'; cases h'
        · intro _ x; rfl
      · simp only [hd, Prod.mk.injEq, and_true] at h
        subst h
        refine .callable2 (fun x => rfl) (fun x => rfl) ⟨?_, ?_⟩
        · intro e1 e2 h' x; rw [hd] at h'; cases h'; rfl
        · intro h'; rw [hd] at h'; cases h'
    | callable c2 =>
      simp only [Prod.mk.injEq, and_true] at h
      subst h
      exact .callable3 (fun x => rfl) (fun x => rfl) (fun x => rfl)
    | _ => exact absurd trivial hb
  | _ => simp at h

/-- **C07**, except for a non-callable `d2u_e` next to a callable `du_e` (see `accepted_velocity_fails`): after an accepted
`set_velocity` the three queries are the functions the arguments stand for, independently of
what the object held before. -/
theorem accepted_velocity_works_partial (pchip : Pchip α) (s s' : VelState α) (u du d2u : Arg α)
    (h : setVelocity pchip s u du d2u = (s', .ok ())) (hb : ¬ BadSecond u du d2u) :
    VelocityOf pchip u du d2u s'.uE s'.duE s'.d2uE := by
  unfold setVelocity at h
  cases u with
  | callable c => exact callable_ok h hb
  | num a =>
    cases du with
    | pair xs ys =>
      rcases hp : pchip xs ys with e | p
      · simp [hp] at h
      · simp only [hp, Prod.mk.injEq, and_true] at h
        subst h
        exact .slope hp (fun x => rfl) (fun x => rfl) (fun x => rfl)
    | _ => simp at h
  | pair xs ys =>
    dsimp only at h
    split at h
    · simp at h
    · split at h
      · simp at h
      · split at h
        · split at h
          · simp at h
          · split at h
            · simp at h
            · split at h
              · simp at h
              · rename_i p hp
                unfold setVelCallable Spline.toCallable at h
                simp only [Prod.mk.injEq, and_true] at h
                subst h
                exact .table hp (fun x => rfl) (fun x => rfl) (fun x => rfl)
        · simp at h
  | _ => simp at h

/-- The remaining case of **C07**: `set_velocity` accepts it, velocity and slope are as given, but evaluating the second
derivative is a TypeError. -/
theorem accepted_bad_second (pchip : Pchip α) (s : VelState α) (c cd : Callable α) (d2u : Arg α)
    (hb : BadSecond (.callable c) (.callable cd) d2u) :
    (setVelocity pchip s (.callable c) (.callable cd) d2u).2 = .ok () ∧
    ∀ x, (setVelocity pchip s (.callable c) (.callable cd) d2u).1.uE x = c.call x ∧
      (setVelocity pchip s (.callable c) (.callable cd) d2u).1.duE x = cd.call x ∧
      (setVelocity pchip s (.callable c) (.callable cd) d2u).1.d2uE x = .error .typeError := by
  cases d2u <;> first | exact absurd hb id | exact ⟨rfl, fun x => ⟨rfl, rfl, rfl⟩⟩

/-- **C07** is false of the code as it stands: `set_velocity(f, df, 1.0)` is accepted. -/
theorem accepted_velocity_fails (pchip : Pchip α) : ¬ AcceptedVelocityWorks pchip := by
  intro H
  let c : Callable α := ⟨fun x => .ok x, none⟩
  have hv := H .empty _ (.callable c) (.callable c) (.num (lit 1))
    (Prod.ext rfl (accepted_bad_second pchip .empty c c (.num (lit 1)) trivial).1)
  generalize (setVelocity pchip VelState.empty (.callable c) (.callable c) (.num (lit 1))).1 = t at hv
  revert hv
  generalize hx : (Arg.num (lit 1) : Arg α) = z
  intro hv
  cases hv <;> cases hx

/-- Evaluation hits neither "not set" nor "not callable": after an accepted call (other than the bad case) an error from
a query is an error of a function that the user supplied, at one of the points the query samples. -/
theorem accepted_velocity_total (pchip : Pchip α) (s s' : VelState α) (u du d2u : Arg α)
    (h : setVelocity pchip s u du d2u = (s', .ok ())) (hb : ¬ BadSecond u du d2u)
    (hu : ∀ c, (u = .callable c ∨ du = .callable c ∨ d2u = .callable c) →
      (∀ x, ∃ y, c.call x = .ok y) ∧ ∀ d1 d2, c.deriv = some (d1, d2) → ∀ x, (∃ y, d1 x = .ok y) ∧ ∃ y, d2 x = .ok y)
    (x : α) : (∃ y, s'.uE x = .ok y) ∧ (∃ y, s'.duE x = .ok y) ∧ ∃ y, s'.d2uE x = .ok y := by
  have hv := accepted_velocity_works_partial pchip s s' u du d2u h hb
  clear h hb
  have hfd1 : ∀ (f : α → Except Exc α) (hf : ∀ x, ∃ y, f x = .ok y) x h, ∃ y, fd1 f x h = .ok y := by
    intro f hf x h
    choose g hg using hf
    exact ⟨_, by simp only [fd1, hg, bind, Except.bind, pure, Except.pure]; rfl⟩
  have hfd2 : ∀ (f : α → Except Exc α) (hf : ∀ x, ∃ y, f x = .ok y) x h, ∃ y, fd2 f x h = .ok y := by
    intro f hf x h
    choose g hg using hf
    exact ⟨_, by simp only [fd2, hg, bind, Except.bind, pure, Except.pure]; rfl⟩
  generalize hU : s'.uE = U at hv
  generalize hDU : s'.duE = DU at hv
  generalize hD2U : s'.d2uE = D2U at hv
  cases hv with
  | @callable c _ _ _ h0 h1 h2 =>
    have hc := hu c (.inl rfl)
    refine ⟨by rw [h0]; exact hc.1 x, ?_, ?_⟩
    · rcases hd : c.deriv with _ | ⟨d1, d2⟩
      · rw [h1.2 hd]; exact hfd1 _ hc.1 _ _
      · rw [h1.1 _ _ hd]; exact (hc.2 _ _ hd x).1
    · rcases hd : c.deriv with _ | ⟨d1, d2⟩
      · rw [h2.2 hd]; exact hfd2 _ hc.1 _ _
      · rw [h2.1 _ _ hd]; exact (hc.2 _ _ hd x).2
  | @callable2 c cd _ _ _ h0 h1 h2 =>
    have hc := hu c (.inl rfl)
    have hcd := hu cd (.inr (.inl rfl))
    refine ⟨by rw [h0]; exact hc.1 x, by rw [h1]; exact hcd.1 x, ?_⟩
    rcases hd : cd.deriv with _ | ⟨d1, d2⟩
    · rw [h2.2 hd]; exact hfd1 _ hcd.1 _ _
    · rw [h2.1 _ _ hd]; exact (hcd.2 _ _ hd x).1
  | @callable3 c cd cdd _ _ _ h0 h1 h2 =>
    exact ⟨by rw [h0]; exact (hu c (.inl rfl)).1 x, by rw [h1]; exact (hu cd (.inr (.inl rfl))).1 x,
      by rw [h2]; exact (hu cdd (.inr (.inr rfl))).1 x⟩
  | slope hp h0 h1 h2 => exact ⟨⟨_, h0 x⟩, ⟨_, h1 x⟩, ⟨_, h2 x⟩⟩
  | table hp h0 h1 h2 => exact ⟨⟨_, h0 x⟩, ⟨_, h1 x⟩, ⟨_, h2 x⟩⟩

/-- A call that does not set velocities. -/
def Op.keepsVelocity : Op α → Prop
  | .setVelocity _ _ _ => False
  | _ => True

section
variable [PyCmp α] [PySqrt α] [PyPow α]

theorem step_vel (ext : Ext α) (o : Obj α) (op : Op α) (h : op.keepsVelocity) : (o.step ext op).1.vel = o.vel := by
  cases op with
  | setNu nu => simp only [Obj.step, Obj.setNu]; split <;> rfl
  | setVelocity u du d2u => exact absurd h id
  | setInitialCondition ic => rfl
  | setInitialDeltaM v => simp only [Obj.step, Obj.setInitialDeltaM]; split <;> rfl
  | setInitialShapeD v =>
    simp only [Obj.step, Obj.setInitialShapeD]
    split
    · split
      · rfl
      · split <;> rfl
    · rfl
  | setDataFits a =>
    simp only [Obj.step, Obj.setDataFits]
    split
    · split <;> rfl
    · rfl
  | setShapeDCritical c => simp only [Obj.step]; split <;> rfl
  | solve x0 x1 te ivp => exact (solve_frame o x0 x1 te ivp).2.2.1

theorem run_vel (ext : Ext α) (o : Obj α) (ops : List (Op α)) (h : ∀ op ∈ ops, op.keepsVelocity) :
    (o.run ext ops).vel = o.vel := by
  induction ops generalizing o with
  | nil => rfl
  | cons op ops ih =>
    rw [run_cons, ih _ fun op' h' => h op' (List.mem_cons_of_mem _ h'), step_vel _ _ _ (h op List.mem_cons_self)]

/-- **C07** on objects: the velocities belong to the last accepted `set_velocity` whatever was called before (`before`)
and whatever else is called after it (`after`), solving included. -/
theorem object_velocity_partial (ext : Ext α) (o : Obj α) (before after : List (Op α)) (u du d2u : Arg α)
    (hok : ((o.run ext before).step ext (.setVelocity u du d2u)).2 = .ok none) (hb : ¬ BadSecond u du d2u)
    (ha : ∀ op ∈ after, op.keepsVelocity) :
    let s := (o.run ext (before ++ .setVelocity u du d2u :: after)).vel
    VelocityOf ext.pchip u du d2u s.uE s.duE s.d2uE := by
  intro s
  have hs : s = (setVelocity ext.pchip (o.run ext before).vel u du d2u).1 := by
    show (o.run ext (before ++ .setVelocity u du d2u :: after)).vel = _
    rw [run_append, run_cons, run_vel _ _ _ ha]; rfl
  rw [hs]
  refine accepted_velocity_works_partial ext.pchip (o.run ext before).vel _ u du d2u (Prod.ext rfl ?_) hb
  have : outOf (α := α) (setVelocity ext.pchip (o.run ext before).vel u du d2u).2 = .ok none := hok
  show (setVelocity ext.pchip (o.run ext before).vel u du d2u).2 = .ok ()
  revert this
  rcases (setVelocity ext.pchip (o.run ext before).vel u du d2u).2 with e | ⟨⟩
  · intro h; cases h
  · intro _; rfl

end

/-- Non-vacuity: every one of the five ways of calling occurs (identity as velocity, an interpolator that accepts). -/
example : let c : Callable ℝ := ⟨fun x => .ok x, none⟩
    let p : Spline ℝ := ⟨id, fun _ => 1, fun _ => 0, fun x => x * x / 2⟩
    let pc : Pchip ℝ := fun _ _ => .ok p
    let t : Arr ℝ := ⟨[2], [0, 1]⟩
    (setVelocity pc .empty (.callable c) .none .none).2 = .ok () ∧
    (setVelocity pc .empty (.callable c) (.callable c) .none).2 = .ok () ∧
    (setVelocity pc .empty (.callable c) (.callable c) (.callable c)).2 = .ok () ∧
    (setVelocity pc .empty (.num 1) (.pair t t) .none).2 = .ok () ∧
    (setVelocity pc .empty (.pair t t) .none .none).2 = .ok () := ⟨rfl, rfl, rfl, rfl, rfl⟩

/-! ### C08 -/

/-- **C08** as stated. -/
def RejectedVelocityKeeps (pchip : Pchip α) : Prop :=
  ∀ (s : VelState α) (u du d2u : Arg α) (e : Exc), (setVelocity pchip s u du d2u).2 = .error e →
    SameVelocity (setVelocity pchip s u du d2u).1 s

/-- **C08** is false of the code: a callable velocity is stored before its companions are checked, for every callable and
any previous velocities. -/
theorem rejected_callable_overwrites (pchip : Pchip α) (s : VelState α) (c : Callable α) (a : α) (x : α) :
    (setVelocity pchip s (.callable c) (.num a) .none).2 = .error .valueError ∧
    (setVelocity pchip s (.callable c) (.num a) .none).1.uE x = c.call x := ⟨rfl, rfl⟩

theorem rejected_velocity_keeps_fails (pchip : Pchip ℝ) : ¬ RejectedVelocityKeeps pchip := by
  intro H
  let c : Callable ℝ := ⟨fun x => .ok x, none⟩
  have h := rejected_callable_overwrites pchip .empty c 0 0
  have := (H .empty (.callable c) (.num 0) .none .valueError h.1 0).1
  rw [h.2] at this
  simp [c, VelState.uE, VelState.empty] at this

/-- **C08**, what holds (missing: callable `u_e`): for every other kind of first argument a rejected call leaves all three
attributes alone. -/
theorem rejected_velocity_keeps_partial (pchip : Pchip α) (s : VelState α) (u du d2u : Arg α) (e : Exc)
    (hu : ∀ c, u ≠ .callable c) (h : (setVelocity pchip s u du d2u).2 = .error e) :
    (setVelocity pchip s u du d2u).1 = s ∧ SameVelocity (setVelocity pchip s u du d2u).1 s := by
  have key : (setVelocity pchip s u du d2u).1 = s := by
    revert h
    unfold setVelocity
    cases u with
    | callable c => exact absurd rfl (hu c)
    | num a =>
      cases du with
      | pair xs ys => rcases hp : pchip xs ys with e' | p <;> simp [hp]
      | _ => simp
    | pair xs ys =>
      dsimp only
      split
      · simp
      · split
        · simp
        · split
          · split
            · simp
            · split
              · simp
              · split
                · simp
                · simp [setVelCallable, Spline.toCallable]
          · simp
    | _ => simp
  exact ⟨key, by rw [key]; exact fun x => ⟨rfl, rfl, rfl⟩⟩

/-- How far the damage goes for a callable: the attributes for the derivatives are untouched, the velocity is the new
function, and the error is ValueError. -/
theorem rejected_callable_exact (pchip : Pchip α) (s : VelState α) (c : Callable α) (du d2u : Arg α) (e : Exc)
    (h : (setVelocity pchip s (.callable c) du d2u).2 = .error e) :
    (setVelocity pchip s (.callable c) du d2u).1 = { s with u := some (.fn c.call) } ∧ e = .valueError := by
  revert h
  unfold setVelocity setVelCallable
  cases du with
  | none => cases d2u <;> first | (intro h; cases h; exact ⟨rfl, rfl⟩) | (rcases hd : c.deriv with _ | ⟨_, _⟩ <;> simp [hd])
  | callable cd => cases d2u <;> rcases hd : cd.deriv with _ | ⟨_, _⟩ <;> simp [hd]
  | _ => intro h; cases h; exact ⟨rfl, rfl⟩

example (pchip : Pchip ℝ) : (setVelocity pchip .empty (.pair ⟨[1], [0]⟩ ⟨[1], [0]⟩) .none .none).2 = .error .valueError := rfl

/-! ### C09 -/

/-- **C09**: a pair of arrays is accepted exactly if it is a table that the interpolator accepts; if it is not a table the
interpolator is not consulted. -/
theorem table_accepted_iff (pchip : Pchip α) (s : VelState α) (xs ys : Arr α) (du d2u : Arg α) :
    (setVelocity pchip s (.pair xs ys) du d2u).2 = .ok () ↔ IsTable xs ys ∧ ∃ p, pchip xs ys = .ok p := by
  unfold setVelocity IsTable
  dsimp only
  constructor
  · intro h
    split at h
    · cases h
    · rename_i n tl hx
      split at h
      · cases h
      · rename_i htl
        split at h
        · rename_i m hy
          split at h
          · cases h
          · rename_i hnm
            split at h
            · cases h
            · rename_i hn
              split at h
              · cases h
              · rename_i p hp
                simp only [ne_eq, not_not] at htl hnm
                subst htl; subst hnm
                exact ⟨⟨n, by omega, hx, hy⟩, p, hp⟩
        · cases h
  · rintro ⟨⟨n, hn, hx, hy⟩, p, hp⟩
    have : ¬ n < 2 := by omega
    simp [hx, hy, this, hp, setVelCallable, Spline.toCallable]

/-- **C09**: whatever is not accepted raises and leaves the velocities unchanged, for every first argument that is not callable;
in particular arguments of the wrong length, `None` and numbers without a table. -/
theorem not_table_rejected (pchip : Pchip α) (s : VelState α) (u du d2u : Arg α) (hu : ∀ c, u ≠ .callable c)
    (h : ¬ ((∃ xs ys, u = .pair xs ys ∧ IsTable xs ys ∧ ∃ p, pchip xs ys = .ok p) ∨
      ∃ a xs ys, u = .num a ∧ du = .pair xs ys ∧ ∃ p, pchip xs ys = .ok p)) :
    ∃ e, setVelocity pchip s u du d2u = (s, .error e) := by
  have herr : ∃ e, (setVelocity pchip s u du d2u).2 = .error e := by
    rcases hr : (setVelocity pchip s u du d2u).2 with e | ⟨⟩
    · exact ⟨e, rfl⟩
    · exfalso
      apply h
      cases u with
      | callable c => exact absurd rfl (hu c)
      | pair xs ys => exact .inl ⟨xs, ys, rfl, (table_accepted_iff pchip s xs ys du d2u).1 hr⟩
      | num a =>
        cases du with
        | pair xs ys =>
          rcases hp : pchip xs ys with e | p
          · simp [setVelocity, hp] at hr
          · exact .inr ⟨a, xs, ys, rfl, rfl, p, hp⟩
        | _ => simp [setVelocity] at hr
      | _ => simp [setVelocity] at hr
  obtain ⟨e, he⟩ := herr
  exact ⟨e, Prod.ext (rejected_velocity_keeps_partial pchip s u du d2u e hu he).1 he⟩

/-- A pair that is not a table gives ValueError, or IndexError for a zero-dimensional first array; the interpolator does
not matter. -/
theorem bad_table_error (pchip : Pchip α) (s : VelState α) (xs ys : Arr α) (du d2u : Arg α) (h : ¬ IsTable xs ys) :
    (setVelocity pchip s (.pair xs ys) du d2u).2 = .error (if xs.shape = [] then .indexError else .valueError) := by
  unfold setVelocity
  dsimp only
  split
  · rename_i hx; simp [hx]
  · rename_i n tl hx
    rw [hx]; simp only [reduceCtorEq, if_false]
    split
    · rfl
    · rename_i htl
      split
      · rename_i m hy
        split
        · rfl
        · rename_i hnm
          split
          · rfl
          · rename_i hn
            exfalso; apply h
            simp only [ne_eq, not_not] at htl hnm
            subst htl; subst hnm
            exact ⟨n, by omega, hx, hy⟩
      · rfl

example : IsTable (⟨[3], [0, 1, 2]⟩ : Arr ℝ) ⟨[3], [1, 2, 3]⟩ := ⟨3, by norm_num, rfl, rfl⟩
example : ¬ IsTable (⟨[3], [0, 1, 2]⟩ : Arr ℝ) ⟨[2], [1, 2]⟩ := by
  rintro ⟨n, -, h1, h2⟩
  simp only [List.cons.injEq, and_true] at h1 h2
  omega

end IBL
