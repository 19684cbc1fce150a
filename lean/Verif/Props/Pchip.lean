import Mathlib.Analysis.Calculus.Deriv.MeanValue
import Verif.Lemmas.PchipError
import Verif.Spec.Table
import Verif.Props.Velocity

/-!
C97: a velocity given by a table. The interpolator is scipy's as modelled in `Model/Pchip.lean`; what it does with arrays that are not
vectors does not matter (`other`).
-/

namespace IBL
open PPoly

theorem firstX_cons (p : ℝ × ℝ) (l : List (ℝ × ℝ)) : firstX (p :: l) = p.1 := rfl

/-! ### Acceptance -/

private theorem increasing_iff (l : List ℝ) : Pchip.increasing l = true ↔ l.IsChain (· < ·) := by
  induction l with
  | nil => simp [Pchip.increasing]
  | cons a l ih =>
    cases l with
    | nil => simp [Pchip.increasing]
    | cons b l =>
      have : (!PyCmp.le (b - a) (lit 0 : ℝ)) = true ↔ a < b := by
        rw [Bool.not_eq_true', ← Bool.not_eq_true, real_le, real_lit, not_le]
        push_cast
        exact sub_pos
      rw [Pchip.increasing, Bool.and_eq_true, this, ih, List.isChain_cons_cons]

private theorem finite_all (l : List ℝ) : l.all Pchip.isFinite = true := by
  rw [List.all_eq_true]
  intro x _
  simp [Pchip.isFinite]

/-- Two vectors of numbers are accepted exactly if they have the same length, at least two, and the first one increases. -/
theorem interpolator_vectors (other : Pchip ℝ) (X Y : List ℝ) : Pchip.interpolator other (vector X) (vector Y) =
    if 2 ≤ X.length ∧ X.length = Y.length ∧ X.IsChain (· < ·) then .ok (toSpline (Pchip.pieces (Pchip.knots (X.zip Y))))
    else .error .valueError := by
  simp only [Pchip.interpolator, vector, finite_all, Bool.and_self, Bool.not_true, Bool.false_eq_true, if_false]
  by_cases h1 : X.length < 2
  · rw [if_pos h1, if_neg (fun h => by omega)]
  rw [if_neg h1]
  by_cases h2 : X.length = Y.length
  · rw [if_neg (not_not.2 h2)]
    by_cases h3 : Pchip.increasing X = true
    · rw [if_pos ⟨by omega, h2, (increasing_iff X).1 h3⟩]; simp [h3]
    · rw [if_neg (fun h => h3 ((increasing_iff X).2 h.2.2))]
      simp [h3]
  · rw [if_pos h2, if_neg (fun h => h2 h.2.1)]

private theorem table_abscissae {pts : List (ℝ × ℝ)} : (pts.map Prod.fst).IsChain (· < ·) ↔ pts.IsChain fun p q => p.1 < q.1 := by
  rw [List.isChain_map]

theorem interpolator_table (other : Pchip ℝ) {pts : List (ℝ × ℝ)} (h : Table pts) :
    Pchip.interpolator other (vector (pts.map Prod.fst)) (vector (pts.map Prod.snd)) = .ok (toSpline (Pchip.pieces (Pchip.knots pts))) := by
  rw [interpolator_vectors, if_pos ⟨by simpa using h.long, by simp, table_abscissae.2 h.ascending⟩]
  have : (pts.map Prod.fst).zip (pts.map Prod.snd) = pts := by
    rw [List.zip_map']; exact List.map_id pts
  rw [this]

/-! ### The interpolant -/

private theorem monotone_bounds {f f' : ℝ → ℝ} {a b : ℝ} (hf : ∀ x, HasDerivAt f (f' x) x) {x : ℝ} (hx : x ∈ Set.Icc a b)
    (h : ∀ t ∈ Set.Icc a b, 0 ≤ f' t) : f a ≤ f x ∧ f x ≤ f b := by
  have hm : MonotoneOn f (Set.Icc a b) := by
    refine monotoneOn_of_deriv_nonneg (convex_Icc a b) (fun t _ => (hf t).continuousAt.continuousWithinAt)
      (fun t _ => (hf t).differentiableAt.differentiableWithinAt) fun t ht => ?_
    rw [(hf t).deriv]
    exact h t (interior_subset ht)
  have hab := hx.1.trans hx.2
  exact ⟨hm ⟨le_refl _, hab⟩ hx hx.1, hm hx ⟨hab, le_refl _⟩ hx.2⟩

theorem pieces_monotone {pts : List (ℝ × ℝ)} (h : Table pts) : MonotoneThrough pts (eval (Pchip.pieces (Pchip.knots pts)))
    (eval (PPoly.deriv (Pchip.pieces (Pchip.knots pts)))) (eval (PPoly.deriv (PPoly.deriv (Pchip.pieces (Pchip.knots pts))))) := by
  have hA := Pchip.knots_ascending h.ascending
  have hg := Pchip.pieces_glued (Pchip.knots pts)
  have hg' : PPoly.deriv (Pchip.pieces (Pchip.knots pts)) =
      Pchip.gluedBy (fun a b => polyDer (Pchip.hermite a b).2) (Pchip.knots pts) := by rw [hg, Pchip.deriv_glued]
  have hinc : Increasing (Pchip.pieces (Pchip.knots pts)) := by rw [hg]; exact Pchip.glued_increasing hA
  have hinc' : Increasing (PPoly.deriv (Pchip.pieces (Pchip.knots pts))) := by rw [hg']; exact Pchip.glued_increasing hA
  have hj : Joined (Pchip.pieces (Pchip.knots pts)) := by
    rw [hg]; exact Pchip.glued_joined (V := Pchip.Knot.y) Pchip.hermite_left (fun a b => Pchip.hermite_right) hA
  have hj' : Joined (PPoly.deriv (Pchip.pieces (Pchip.knots pts))) := by
    rw [hg']; exact Pchip.glued_joined (V := Pchip.Knot.d) Pchip.hermite_deriv_left (fun a b => Pchip.hermite_deriv_right) hA
  have hd := deriv_deriv_joined _ hinc hj hj'
  have seg : ∀ a b : Pchip.Knot ℝ, [a, b] <:+: Pchip.knots pts → ∀ x ∈ Set.Icc a.x b.x,
      eval (Pchip.pieces (Pchip.knots pts)) x = polyEval (Pchip.hermite a b).2 (x - a.x) := fun a b hab x hx => by
    rw [hg]; exact Pchip.glued_eval (V := Pchip.Knot.y) Pchip.hermite_left (fun a b => Pchip.hermite_right) hA hab hx
  have seg' : ∀ a b : Pchip.Knot ℝ, [a, b] <:+: Pchip.knots pts → ∀ x ∈ Set.Icc a.x b.x,
      eval (PPoly.deriv (Pchip.pieces (Pchip.knots pts))) x = polyEval (polyDer (Pchip.hermite a b).2) (x - a.x) := fun a b hab x hx => by
    rw [hg']; exact Pchip.glued_eval (V := Pchip.Knot.d) Pchip.hermite_deriv_left (fun a b => Pchip.hermite_deriv_right) hA hab hx
  have ends : ∀ p q, [p, q] <:+: pts → p.1 < q.1 ∧ eval (Pchip.pieces (Pchip.knots pts)) p.1 = p.2 ∧
      eval (Pchip.pieces (Pchip.knots pts)) q.1 = q.2 := by
    intro p q hpq
    obtain ⟨a, b, hab, rfl, rfl⟩ := Pchip.knots_infix h.long hpq
    have hlt : a.x < b.x := Pchip.chain_infix hA hab
    refine ⟨hlt, ?_, ?_⟩
    · rw [seg a b hab a.x ⟨le_refl _, hlt.le⟩, sub_self, Pchip.hermite_left]
    · rw [seg a b hab b.x ⟨hlt.le, le_refl _⟩, Pchip.hermite_right hlt]
  have direction : ∀ p q, [p, q] <:+: pts → ∀ x ∈ Set.Icc p.1 q.1, (p.2 ≤ q.2 → 0 ≤ eval (PPoly.deriv (Pchip.pieces (Pchip.knots pts))) x) ∧
      (q.2 ≤ p.2 → eval (PPoly.deriv (Pchip.pieces (Pchip.knots pts))) x ≤ 0) := by
    intro p q hpq x hx
    obtain ⟨a, b, hab, rfl, rfl⟩ := Pchip.knots_infix h.long hpq
    obtain ⟨hlt, la, lb⟩ := Pchip.chain_infix (Pchip.knots_neighbours pts h.ascending) hab
    rw [seg' a b hab x hx]
    have hm := Pchip.hermite_monotone hlt la lb hx
    have hp : 0 < b.x - a.x := sub_pos.2 hlt
    exact ⟨fun hy => hm.1 (div_nonneg (sub_nonneg.2 hy) hp.le), fun hy => hm.2 (div_nonpos_of_nonpos_of_nonneg (sub_nonpos.2 hy) hp.le)⟩
  refine ⟨?_, hd, joined_continuous _ hinc' hj', ?_, fun x => deriv_deriv_right _ x, ?_, direction, ?_, ?_⟩
  · intro p hp
    rcases Pchip.mem_infix h.long hp with ⟨q, hq⟩ | ⟨q, hq⟩
    · exact (ends p q hq).2.1
    · exact (ends q p hq).2.2
  · intro x hx
    refine deriv_deriv _ x fun hmem => ?_
    rw [hg'] at hmem
    have sub : ∀ (K : List (Pchip.Knot ℝ)) (G : Pchip.Knot ℝ → Pchip.Knot ℝ → List ℝ), x ∈ (Pchip.gluedBy G K).map Prod.fst → ∃ k ∈ K, x = k.x := by
      intro K G
      induction K with
      | nil => simp [Pchip.gluedBy]
      | cons a K ih =>
        cases K with
        | nil => simp [Pchip.gluedBy]
        | cons b K =>
          rw [Pchip.gluedBy, List.map_cons, List.mem_cons]
          rintro (rfl | hm)
          · exact ⟨a, by simp, rfl⟩
          · obtain ⟨k, hk, e⟩ := ih hm
            exact ⟨k, List.mem_cons_of_mem _ hk, e⟩
    obtain ⟨k, hk, e⟩ := sub _ _ (by
      unfold PPoly.interior at hmem
      rw [List.map_tail] at hmem
      exact List.mem_of_mem_tail hmem)
    refine hx (k.x, k.y) ?_ e
    rw [← Pchip.knots_points pts h.long]
    exact List.mem_map.2 ⟨k, hk, rfl⟩
  · intro p q hpq x hx
    obtain ⟨-, ep, eq⟩ := ends p q hpq
    rcases le_total p.2 q.2 with hy | hy
    · have := monotone_bounds hd hx fun t ht => (direction p q hpq t ht).1 hy
      rw [ep, eq] at this
      rwa [min_eq_left hy, max_eq_right hy]
    · have := monotone_bounds (f := fun x => -eval (Pchip.pieces (Pchip.knots pts)) x) (fun t => (hd t).neg) hx
        fun t ht => neg_nonneg.2 ((direction p q hpq t ht).2 hy)
      simp only [ep, eq] at this
      rw [min_eq_right hy, max_eq_left hy]
      exact ⟨by linarith [this.2], by linarith [this.1]⟩
  · intro p q hpq x hx
    obtain ⟨a, b, hab, rfl, rfl⟩ := Pchip.knots_infix h.long hpq
    obtain ⟨hlt, la, lb⟩ := Pchip.chain_infix (Pchip.knots_neighbours pts h.ascending) hab
    have hp : 0 < b.x - a.x := sub_pos.2 hlt
    rw [seg' a b hab x hx]
    have hs := mul_le_mul_of_nonneg_right (Pchip.hermite_steep hlt la lb hx) hp.le
    rwa [Pchip.rise, abs_div, abs_of_pos hp, mul_assoc, div_mul_cancel₀ _ hp.ne'] at hs
  · intro w w0 hw p q hpq x hx
    obtain ⟨a, b, hab, rfl, rfl⟩ := Pchip.knots_infix h.long hpq
    rw [seg' a b hab x hx]
    exact Pchip.hermite_close (Pchip.chain_infix hA hab) (Pchip.chain_infix (Pchip.knots_close w w0 pts h.ascending hw) hab) hx

/-! ### C97 -/

/-- **C97**: `set_velocity` with a table of velocities. The call is accepted, and afterwards the three queries succeed everywhere and give a
function through the points of the table, its slope and its curvature, without any overshoot. -/
theorem table_velocity (ext : Ext ℝ) (other : Pchip ℝ) (hext : ext.pchip = Pchip.interpolator other) (o : Obj ℝ) (pts : List (ℝ × ℝ))
    (h : Table pts) (a b : Arg ℝ) : ∃ (o' : Obj ℝ) (u du d2u : ℝ → ℝ), o.setVelocity ext (tableArg pts) a b = (o', .ok ()) ∧
      o' = { o with vel := o'.vel } ∧ (∀ x, o'.vel.uE x = .ok (u x) ∧ o'.vel.duE x = .ok (du x) ∧ o'.vel.d2uE x = .ok (d2u x)) ∧ MonotoneThrough pts u du d2u := by
  have hi := interpolator_table other h
  have hn : ¬ pts.length < 2 := not_lt.2 h.long
  refine ⟨{ o with vel := ⟨some (.fn fun x => .ok (eval (Pchip.pieces (Pchip.knots pts)) x)),
    some (.fn fun x => .ok (eval (PPoly.deriv (Pchip.pieces (Pchip.knots pts))) x)),
    some (.fn fun x => .ok (eval (PPoly.deriv (PPoly.deriv (Pchip.pieces (Pchip.knots pts)))) x))⟩ }, _, _, _, ?_, rfl, ?_, pieces_monotone h⟩
  · simp only [Obj.setVelocity, tableArg, setVelocity, hext, hi]
    simp only [vector, List.length_map, ne_eq, not_true_eq_false, if_false, hn, setVelCallable, Spline.toCallable]
    rfl
  · intro x
    simp [VelState.uE, VelState.duE, VelState.d2uE, VelState.rawU, VelState.rawDu, VelState.rawD2u, callOpt, Vel.call, toSpline]

/-- **C97**: a table is accepted exactly if it has at least two points and its abscissae increase; otherwise the call raises ValueError
and leaves the object as it was. -/
theorem table_velocity_accepted_iff (ext : Ext ℝ) (other : Pchip ℝ) (hext : ext.pchip = Pchip.interpolator other) (o : Obj ℝ)
    (pts : List (ℝ × ℝ)) (a b : Arg ℝ) : ((o.setVelocity ext (tableArg pts) a b).2 = .ok () ↔ Table pts) ∧
      (¬ Table pts → o.setVelocity ext (tableArg pts) a b = (o, .error .valueError)) := by
  have key : ¬ Table pts → o.setVelocity ext (tableArg pts) a b = (o, .error .valueError) := by
    intro h
    have hr : setVelocity ext.pchip o.vel (tableArg pts) a b = (o.vel, .error .valueError) := by
      simp only [tableArg, setVelocity, hext, interpolator_vectors]
      simp only [vector, List.length_map, ne_eq, not_true_eq_false, if_false]
      by_cases h1 : pts.length < 2
      · rw [if_pos h1]
      · rw [if_neg h1, if_neg fun hc => h ⟨hc.1, table_abscissae.1 hc.2.2⟩]
    simp only [Obj.setVelocity, hr]
  refine ⟨⟨fun hok => ?_, fun h => ?_⟩, key⟩
  · by_contra h
    rw [key h] at hok
    cases hok
  · obtain ⟨o', u, du, d2u, e, -⟩ := table_velocity ext other hext o pts h a b
    rw [e]

/-- **C97** for a table of slopes with a start value: the slope goes through the points without overshoot and the velocity is the start
value plus its integral from the first abscissa on. -/
theorem table_slope (ext : Ext ℝ) (other : Pchip ℝ) (hext : ext.pchip = Pchip.interpolator other) (o : Obj ℝ) (start : ℝ)
    (pts : List (ℝ × ℝ)) (h : Table pts) (b : Arg ℝ) : ∃ (o' : Obj ℝ) (u du d2u d3u : ℝ → ℝ),
      o.setVelocity ext (.num start) (tableArg pts) b = (o', .ok ()) ∧ o' = { o with vel := o'.vel } ∧
      (∀ x, o'.vel.uE x = .ok (u x) ∧ o'.vel.duE x = .ok (du x) ∧ o'.vel.d2uE x = .ok (d2u x)) ∧ MonotoneThrough pts du d2u d3u ∧
      (∀ x, HasDerivAt u (du x) x) ∧ u (firstX pts) = start ∧ ∀ x, u x = start + ∫ t in firstX pts..x, du t := by
  have hA := Pchip.knots_ascending h.ascending
  have hg := Pchip.pieces_glued (Pchip.knots pts)
  have hinc : Increasing (Pchip.pieces (Pchip.knots pts)) := by rw [hg]; exact Pchip.glued_increasing hA
  have hj : Joined (Pchip.pieces (Pchip.knots pts)) := by
    rw [hg]; exact Pchip.glued_joined (V := Pchip.Knot.y) Pchip.hermite_left (fun a b => Pchip.hermite_right) hA
  have hM := pieces_monotone h
  have hi := interpolator_table other h
  rw [← hext] at hi
  obtain ⟨q, rest, hp⟩ : ∃ q rest, Pchip.pieces (Pchip.knots pts) = (firstX pts, q) :: rest := by
    have hl := h.long
    match pts, hl with
    | [p, q], _ => exact ⟨_, _, rfl⟩
    | p :: q :: r :: l, _ => exact ⟨_, _, rfl⟩
  rw [hp] at hinc hj hM hi
  obtain ⟨o', u, du, d2u, h1, h2, h3, -, -, -, h4⟩ := PPoly.scalar_velocity_integral ext o start _ _ b _ q rest hinc hi
  obtain ⟨o'', u', du', h1', h2', h4', h5, h6⟩ := PPoly.scalar_velocity_integral_joined ext o start _ _ b _ q rest hinc hj hi
  rw [h1] at h1'
  obtain rfl : o' = o'' := (Prod.mk.inj h1').1
  have hu : u' = u := funext fun x => by have := (h2' x).1; rw [(h2 x).1] at this; exact (Except.ok.inj this).symm
  have hdu : du' = du := by rw [h4, h4']
  rw [hu, hdu] at h5
  rw [hu, hdu] at h6
  refine ⟨o', u, du, d2u, eval (PPoly.deriv (PPoly.deriv ((firstX pts, q) :: rest))), h1, ?_, h2, ?_, h5, h3, h6⟩
  · simp only [Obj.setVelocity, setVelocity, hi, Prod.mk.injEq, and_true] at h1
    rw [← h1]
  · have hd2 : d2u = eval (PPoly.deriv ((firstX pts, q) :: rest)) := by
      funext x
      have := (h2 x).2.2
      have e := h1
      simp only [Obj.setVelocity, setVelocity, tableArg, hi, Prod.mk.injEq, and_true] at e
      rw [← e] at this
      simpa [VelState.d2uE, VelState.rawD2u, callOpt, Vel.call, toSpline] using this.symm
    rw [h4, hd2]
    exact hM

end IBL
