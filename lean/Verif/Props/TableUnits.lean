import Verif.Lemmas.PchipScale
import Verif.Props.Pchip
import Verif.Props.Units
import Verif.Props.Translation

/-!
C100: a table of velocities in other units, or measured from another origin. C101: a table of points on a straight line. The interpolator is
scipy's as modelled in `Model/Pchip.lean`.
-/

namespace IBL
open PPoly

/-! ### C100 -/

private theorem increasing_scale {L : ℝ} (hL : 0 < L) (s : ℝ) (l : List ℝ) : Pchip.increasing (l.map fun x => L * x + s) = Pchip.increasing l := by
  induction l with
  | nil => rfl
  | cons a l ih =>
    cases l with
    | nil => rfl
    | cons b l =>
      simp only [List.map_cons] at ih
      have : PyCmp.le (L * b + s - (L * a + s)) (lit 0) = PyCmp.le (b - a) (lit 0 : ℝ) := by
        rw [Bool.eq_iff_iff, real_le, real_le, real_lit]
        push_cast
        constructor <;> intro h <;> nlinarith
      simp only [List.map_cons, Pchip.increasing, ih, this]

private theorem finite_all (l : List ℝ) : l.all Pchip.isFinite = true := by
  rw [List.all_eq_true]
  intro x _
  simp [Pchip.isFinite]

private theorem interpolator_shift (s : ℝ) (other : Pchip ℝ) (h : PchipMoves s other) : PchipMoves s (Pchip.interpolator other) := by
  intro xs ys
  have hsh : (xs.shift s).shape = xs.shape := rfl
  have hz : (xs.shift s).data.zip ys.data = (xs.data.zip ys.data).map (Pchip.scalePoint 1 s 1) := by
    have : ys.data = ys.data.map id := by simp
    conv_lhs => rw [this]
    rw [Arr.shift, List.zip_map]
    refine List.map_congr_left fun p _ => ?_
    simp [Pchip.scalePoint, Prod.map]
  have hi : Pchip.increasing (xs.shift s).data = Pchip.increasing xs.data := by
    rw [← increasing_scale one_pos s xs.data]
    simp [Arr.shift]
  have key : toSpline (Pchip.pieces (Pchip.knots ((xs.shift s).data.zip ys.data))) =
      (toSpline (Pchip.pieces (Pchip.knots (xs.data.zip ys.data)))).shift s := by
    rw [hz, Pchip.knots_scale one_pos one_ne_zero, Pchip.pieces_scale one_pos]
    have ha := Pchip.anti_scale one_ne_zero s 1 0 (Pchip.pieces (Pchip.knots (xs.data.zip ys.data)))
    have he : ∀ p, eval (Pchip.scalePieces 1 s 1 p) = fun x => eval p (x - s) := fun p => funext fun x => by
      have := Pchip.eval_scale one_pos s 1 p (x - s)
      rwa [one_mul, one_mul, sub_add_cancel] at this
    rw [mul_one, mul_zero] at ha
    simp only [toSpline, Spline.shift, Pchip.deriv_scale, div_one, he, real_lit]
    push_cast
    simp only [ha, he]
  unfold Pchip.interpolator
  rw [hsh]
  split
  · rw [hi, key, finite_all, finite_all, finite_all]
    split_ifs <;> rfl
  · exact h xs ys

/-- **C100**: the interpolation does not depend on the origin of the abscissae (on vectors; `other` is what scipy does with other shapes). With
this the assumption of C76 about the interpolator holds. -/
theorem interpolator_moves (s : ℝ) (other : Pchip ℝ) (h : PchipMoves s other) : PchipMoves s (Pchip.interpolator other) :=
  interpolator_shift s other h

/-- **C76** with scipy's interpolator: about it nothing is assumed for vectors. -/
theorem histories_move_tables (ext : Ext ℝ) (s : ℝ) (other : Pchip ℝ) (hext : ext.pchip = Pchip.interpolator other) (hother : PchipMoves s other)
    (o : Obj ℝ) (ops ops' : List (Op ℝ)) (h : List.Forall₂ (MovedOp s) ops ops') : (o.shift s).run ext ops' = (o.run ext ops).shift s :=
  histories_move ext s (by rw [hext]; exact interpolator_moves s _ hother) o ops ops' h

/-- Non-vacuity: the assumption holds if all arrays that are not vectors are refused. -/
example (s : ℝ) : PchipMoves s fun _ _ => .error .valueError := fun _ _ => rfl

private theorem table_scale {L : ℝ} (hL : 0 < L) (s V : ℝ) {pts : List (ℝ × ℝ)} (h : Table pts) : Table (pts.map (Pchip.scalePoint L s V)) := by
  refine ⟨by simpa using h.long, ?_⟩
  rw [List.isChain_map]
  refine h.ascending.imp fun p q hpq => ?_
  simp only [Pchip.scalePoint]
  nlinarith

private theorem table_set (ext : Ext ℝ) (other : Pchip ℝ) (hext : ext.pchip = Pchip.interpolator other) (o : Obj ℝ) (pts : List (ℝ × ℝ))
    (h : Table pts) (a b : Arg ℝ) : o.setVelocity ext (tableArg pts) a b = ({ o with vel :=
      ⟨some (.fn fun x => .ok (eval (Pchip.pieces (Pchip.knots pts)) x)), some (.fn fun x => .ok (eval (PPoly.deriv (Pchip.pieces (Pchip.knots pts))) x)),
        some (.fn fun x => .ok (eval (PPoly.deriv (PPoly.deriv (Pchip.pieces (Pchip.knots pts)))) x))⟩ }, .ok ()) := by
  have hi := interpolator_table other h
  have hn : ¬ pts.length < 2 := not_lt.2 h.long
  simp only [Obj.setVelocity, tableArg, setVelocity, hext, hi]
  simp only [vector, List.length_map, ne_eq, not_true_eq_false, if_false, hn, setVelCallable, Spline.toCallable]
  rfl

private theorem slope_set (ext : Ext ℝ) (other : Pchip ℝ) (hext : ext.pchip = Pchip.interpolator other) (o : Obj ℝ) (start : ℝ)
    (pts : List (ℝ × ℝ)) (h : Table pts) (b : Arg ℝ) : o.setVelocity ext (.num start) (tableArg pts) b = ({ o with vel :=
      ⟨some (.fn fun x => .ok (eval (anti 0 (Pchip.pieces (Pchip.knots pts))) x + start)), some (.fn fun x => .ok (eval (Pchip.pieces (Pchip.knots pts)) x)),
        some (.fn fun x => .ok (eval (PPoly.deriv (Pchip.pieces (Pchip.knots pts))) x))⟩ }, .ok ()) := by
  have hi := interpolator_table other h
  simp only [Obj.setVelocity, tableArg, setVelocity, hext, hi, toSpline, real_lit]
  push_cast
  rfl

/-- Every location of a table in other units, every velocity in other units. -/
def tableInUnits (L V : ℝ) (pts : List (ℝ × ℝ)) : List (ℝ × ℝ) := pts.map fun p => (L * p.1, V * p.2)

private theorem tableInUnits_eq (L V : ℝ) (pts : List (ℝ × ℝ)) : tableInUnits L V pts = pts.map (Pchip.scalePoint L 0 V) := by
  refine List.map_congr_left fun p _ => ?_
  simp [Pchip.scalePoint]

/-- **C100**: two objects whose viscosities differ by the change of units are given the same table of velocities, each in its units. Both calls
succeed and the objects then describe the same flow in different units (`OtherUnits`, the hypothesis of C77). -/
theorem table_units (ext : Ext ℝ) (other : Pchip ℝ) (hext : ext.pchip = Pchip.interpolator other) (L V : ℝ) (hL : 0 < L) (hV : 0 < V)
    (o o' : Obj ℝ) (hc : o'.cls = o.cls) (hf : o'.fits = o.fits) (hnu : o'.nu = L * V * o.nu) (pts : List (ℝ × ℝ)) (h : Table pts)
    (a b a' b' : Arg ℝ) : (o.setVelocity ext (tableArg pts) a b).2 = .ok () ∧ (o'.setVelocity ext (tableArg (tableInUnits L V pts)) a' b').2 = .ok () ∧
      OtherUnits L V (o.setVelocity ext (tableArg pts) a b).1 (o'.setVelocity ext (tableArg (tableInUnits L V pts)) a' b').1 := by
  have h' : Table (tableInUnits L V pts) := by rw [tableInUnits_eq]; exact table_scale hL 0 V h
  rw [table_set ext other hext o pts h, table_set ext other hext o' _ h', tableInUnits_eq, Pchip.knots_scale hL hV.ne', Pchip.pieces_scale hL]
  have he : ∀ w p x, eval (Pchip.scalePieces L 0 w p) (L * x) = w * eval p x := fun w p x => by
    have := Pchip.eval_scale hL 0 w p x
    rwa [add_zero] at this
  refine ⟨rfl, rfl, hL, hV, hc, hf, hnu, fun x => ?_, fun x => ?_, fun x => ?_⟩ <;>
    simp [VelState.uE, VelState.duE, VelState.d2uE, VelState.rawU, VelState.rawDu, VelState.rawD2u, callOpt, Vel.call, Except.map,
      Pchip.deriv_scale, he]
  left
  rw [pow_two, ← div_div]

/-- **C100** for a table of slopes with a start value. -/
theorem table_slope_units (ext : Ext ℝ) (other : Pchip ℝ) (hext : ext.pchip = Pchip.interpolator other) (L V : ℝ) (hL : 0 < L) (hV : 0 < V)
    (o o' : Obj ℝ) (hc : o'.cls = o.cls) (hf : o'.fits = o.fits) (hnu : o'.nu = L * V * o.nu) (start : ℝ) (pts : List (ℝ × ℝ)) (h : Table pts)
    (b b' : Arg ℝ) : (o.setVelocity ext (.num start) (tableArg pts) b).2 = .ok () ∧
      (o'.setVelocity ext (.num (V * start)) (tableArg (tableInUnits L (V / L) pts)) b').2 = .ok () ∧
      OtherUnits L V (o.setVelocity ext (.num start) (tableArg pts) b).1
        (o'.setVelocity ext (.num (V * start)) (tableArg (tableInUnits L (V / L) pts)) b').1 := by
  have h' : Table (tableInUnits L (V / L) pts) := by rw [tableInUnits_eq]; exact table_scale hL 0 _ h
  have hr : V / L ≠ 0 := div_ne_zero hV.ne' hL.ne'
  rw [slope_set ext other hext o start pts h, slope_set ext other hext o' _ _ h', tableInUnits_eq, Pchip.knots_scale hL hr, Pchip.pieces_scale hL]
  have ha := Pchip.anti_scale hL.ne' 0 (V / L) 0 (Pchip.pieces (Pchip.knots pts))
  rw [mul_zero, div_mul_cancel₀ _ hL.ne'] at ha
  have he : ∀ w p x, eval (Pchip.scalePieces L 0 w p) (L * x) = w * eval p x := fun w p x => by
    have := Pchip.eval_scale hL 0 w p x
    rwa [add_zero] at this
  refine ⟨rfl, rfl, hL, hV, hc, hf, hnu, fun x => ?_, fun x => ?_, fun x => ?_⟩ <;>
    simp [VelState.uE, VelState.duE, VelState.d2uE, VelState.rawU, VelState.rawDu, VelState.rawD2u, callOpt, Vel.call, Except.map,
      Pchip.deriv_scale, he, ha]
  · ring
  · left
    rw [pow_two, ← div_div]

/-! ### C101 -/

/-- **C101**: a table of points on a straight line is reproduced exactly, between the points and outside the table, and its slope and curvature
are those of the line. -/
theorem table_line (ext : Ext ℝ) (other : Pchip ℝ) (hext : ext.pchip = Pchip.interpolator other) (o : Obj ℝ) (c m : ℝ) (pts : List (ℝ × ℝ))
    (h : Table pts) (hl : ∀ p ∈ pts, p.2 = c + m * p.1) (a b : Arg ℝ) : ∃ o' : Obj ℝ, o.setVelocity ext (tableArg pts) a b = (o', .ok ()) ∧
      ∀ x, o'.vel.uE x = .ok (c + m * x) ∧ o'.vel.duE x = .ok m ∧ o'.vel.d2uE x = .ok 0 := by
  rw [table_set ext other hext o pts h]
  refine ⟨_, rfl, fun x => ?_⟩
  have hk : 2 ≤ (Pchip.knots pts).length := by
    have := congrArg List.length (Pchip.knots_points pts h.long)
    rw [List.length_map] at this
    rw [this]; exact h.long
  obtain ⟨h1, h2, h3⟩ := Pchip.pieces_line _ (Pchip.knots_ascending h.ascending) (Pchip.knots_line pts h.ascending hl) hk x
  simp [VelState.uE, VelState.duE, VelState.d2uE, VelState.rawU, VelState.rawDu, VelState.rawD2u, callOpt, Vel.call, h1, h2, h3]

/-- Non-vacuity of C100 and C101. -/
example : Table [((0:ℝ), (1:ℝ)), (1, 3), (4, 9)] ∧ ∀ p ∈ [((0:ℝ), (1:ℝ)), (1, 3), (4, 9)], p.2 = 1 + 2 * p.1 := by
  refine ⟨⟨by simp, by simp⟩, ?_⟩
  simp only [List.mem_cons, forall_eq_or_imp]
  norm_num

end IBL
