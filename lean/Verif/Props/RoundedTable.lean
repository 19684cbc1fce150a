import Verif.Lemmas.PchipRound
import Verif.Props.Pchip

/-! C127: a velocity given by a table, in arithmetic with rounding. -/

set_option linter.unusedSectionVars false

namespace IBL
open PPoly Rounding

variable {R : Rounding}

/-- The table as real numbers. -/
def valTable (pts : List (R.F × R.F)) : List (ℝ × ℝ) := pts.map fun p => (p.1.val, p.2.val)

private theorem valTable_eq (pts : List (R.F × R.F)) : valTable pts = pts.map Pchip.valPoint := rfl

private theorem F_increasing (l : List R.F) : Pchip.increasing l = true ↔ (l.map Rounding.F.val).IsChain (· < ·) := by
  induction l with
  | nil => simp [Pchip.increasing]
  | cons a l ih =>
    cases l with
    | nil => simp [Pchip.increasing]
    | cons b l =>
      have : (!PyCmp.le (b - a) (lit 0 : R.F)) = true ↔ a.val < b.val := by
        rw [Bool.not_eq_true', ← Bool.not_eq_true, F_le, val_zero, not_le, val_sub, rd_pos_iff, sub_pos]
      rw [Pchip.increasing, Bool.and_eq_true, this, ih]
      simp [List.isChain_cons_cons]

private theorem F_finite (l : List R.F) : l.all Pchip.isFinite = true := by
  rw [List.all_eq_true]
  intro x _
  simp [Pchip.isFinite, R.rd_zero]

private theorem F_ascending {pts : List (R.F × R.F)} :
    ((pts.map Prod.fst).map Rounding.F.val).IsChain (· < ·) ↔ (valTable pts).IsChain fun p q => p.1 < q.1 := by
  rw [List.map_map, valTable, List.isChain_map, List.isChain_map]; rfl

private theorem F_interpolator (other : Pchip R.F) (pts : List (R.F × R.F)) :
    Pchip.interpolator other (vector (pts.map Prod.fst)) (vector (pts.map Prod.snd)) =
      if 2 ≤ pts.length ∧ (valTable pts).IsChain (fun p q => p.1 < q.1) then .ok (toSpline (Pchip.pieces (Pchip.knots pts)))
      else .error .valueError := by
  have hz : (pts.map Prod.fst).zip (pts.map Prod.snd) = pts := by
    rw [List.zip_map']; exact List.map_id pts
  simp only [Pchip.interpolator, vector, F_finite, Bool.and_self, Bool.not_true, Bool.false_eq_true, if_false, List.length_map, ne_eq,
    not_true_eq_false, hz]
  by_cases h1 : pts.length < 2
  · rw [if_pos h1, if_neg (fun h => by omega)]
  rw [if_neg h1]
  by_cases h3 : Pchip.increasing (pts.map Prod.fst) = true
  · have h4 : 2 ≤ pts.length ∧ (valTable pts).IsChain (fun p q => p.1 < q.1) := ⟨not_lt.1 h1, F_ascending.1 ((F_increasing _).1 h3)⟩
    simp [h3, h4]
  · have h4 : ¬ (2 ≤ pts.length ∧ (valTable pts).IsChain (fun p q => p.1 < q.1)) :=
      fun h => h3 ((F_increasing _).2 (F_ascending.2 h.2))
    rw [if_neg h4]
    simp [h3]

private theorem table_iff (pts : List (R.F × R.F)) :
    Table (valTable pts) ↔ 2 ≤ pts.length ∧ (valTable pts).IsChain (fun p q => p.1 < q.1) :=
  ⟨fun h => ⟨by simpa [valTable] using h.long, h.ascending⟩, fun h => ⟨by simpa [valTable] using h.1, h.2⟩⟩

private theorem F_set (other : Pchip R.F) (s : VelState R.F) {pts : List (R.F × R.F)} (h : Table (valTable pts)) (a b : Arg R.F) :
    setVelocity (Pchip.interpolator other) s (tableArg pts) a b =
      (⟨some (.fn fun x => .ok (eval (Pchip.pieces (Pchip.knots pts)) x)),
        some (.fn fun x => .ok (eval (PPoly.deriv (Pchip.pieces (Pchip.knots pts))) x)),
        some (.fn fun x => .ok (eval (PPoly.deriv (PPoly.deriv (Pchip.pieces (Pchip.knots pts)))) x))⟩, .ok ()) := by
  have h' := (table_iff pts).1 h
  have hn : ¬ pts.length < 2 := not_lt.2 h'.1
  simp only [tableArg, setVelocity, F_interpolator, if_pos h']
  simp only [vector, List.length_map, ne_eq, not_true_eq_false, if_false, hn, setVelCallable, Spline.toCallable]
  rfl

/-- **C127**: with rounding a table is accepted exactly if it has at least two points and the abscissae increase (no matter how little);
otherwise the call raises ValueError and changes nothing. -/
theorem rounded_table_accepted_iff (other : Pchip R.F) (s : VelState R.F) (pts : List (R.F × R.F)) (a b : Arg R.F) :
    ((setVelocity (Pchip.interpolator other) s (tableArg pts) a b).2 = .ok () ↔ Table (valTable pts)) ∧
    (¬ Table (valTable pts) → setVelocity (Pchip.interpolator other) s (tableArg pts) a b = (s, .error .valueError)) := by
  have key : ¬ Table (valTable pts) → setVelocity (Pchip.interpolator other) s (tableArg pts) a b = (s, .error .valueError) := by
    intro h
    rw [table_iff] at h
    simp only [tableArg, setVelocity, F_interpolator, if_neg h]
    simp only [vector, List.length_map, ne_eq, not_true_eq_false, if_false]
    split_ifs <;> rfl
  refine ⟨⟨fun h => ?_, fun h => by rw [F_set other s h]⟩, key⟩
  by_contra hh
  rw [key hh] at h
  cases h

/-! ### Values -/

private theorem poly_zero (c : R.F) (cs : List R.F) {z : R.F} (hz : z.val = 0) : polyEval (c :: cs) z = c := by
  have first : (lit 0 : R.F) + c * lit 1 = c := by
    ext; rw [val_add, val_mul, val_one, val_zero, mul_one, c.rep, zero_add, c.rep]
  have stay : ∀ (cs : List R.F) (y : R.F), y.val = 0 → polySum z c y cs = c := by
    intro cs
    induction cs with
    | nil => intro _ _; rfl
    | cons e cs ih =>
      intro y hy
      have : c + e * y = c := by ext; rw [val_add, val_mul, hy, mul_zero, R.rd_zero, add_zero, c.rep]
      rw [polySum, this, ih _ (by rw [val_mul, hy, zero_mul, R.rd_zero])]
  rw [polyEval, polySum, first, stay _ _ (by rw [val_mul, hz, mul_zero, R.rd_zero])]

private theorem poly_der_zero (c d : R.F) (cs : List R.F) {z : R.F} (hz : z.val = 0) : polyEval (polyDer (c :: d :: cs)) z = d := by
  have o : (lit ((1 : ℕ) : ℚ) : R.F) * d = d := by
    ext; rw [Nat.cast_one, val_mul, val_one, one_mul, d.rep]
  rw [polyDer, derFrom, poly_zero _ _ hz, o]

private theorem glued_asc {pts : List (R.F × R.F)} (h : Table (valTable pts)) :
    (Pchip.knots pts).IsChain fun a b => a.x.val < b.x.val := by
  have h' := (table_iff pts).1 h
  have h2 := h'.2
  rw [valTable, List.isChain_map, ← Pchip.knots_points pts h'.1, List.isChain_map] at h2
  exact h2

private theorem real_set (other : Pchip ℝ) (s : VelState ℝ) {pts : List (ℝ × ℝ)} (h : Table pts) (a b : Arg ℝ) :
    setVelocity (Pchip.interpolator other) s (tableArg pts) a b =
      (⟨some (.fn fun x => .ok (eval (Pchip.pieces (Pchip.knots pts)) x)),
        some (.fn fun x => .ok (eval (PPoly.deriv (Pchip.pieces (Pchip.knots pts))) x)),
        some (.fn fun x => .ok (eval (PPoly.deriv (PPoly.deriv (Pchip.pieces (Pchip.knots pts)))) x))⟩, .ok ()) := by
  have hi := interpolator_table other h
  have hn : ¬ pts.length < 2 := not_lt.2 h.long
  simp only [tableArg, setVelocity, hi]
  simp only [vector, List.length_map, ne_eq, not_true_eq_false, if_false, hn, setVelCallable, Spline.toCallable]
  rfl

private theorem eval_close {pts : List (R.F × R.F)} (h : Table (valTable pts)) {p q : R.F × R.F} (hpq : [p, q] <:+: pts) {x : R.F}
    (h0 : p.1.val ≤ x.val) (h1 : x.val ≤ q.1.val) :
    |(eval (Pchip.pieces (Pchip.knots pts)) x).val - eval (Pchip.pieces (Pchip.knots (valTable pts))) x.val| ≤
        500 * R.eps * (|p.2.val| + |q.2.val|) ∧
    |(eval (PPoly.deriv (Pchip.pieces (Pchip.knots pts))) x).val - eval (PPoly.deriv (Pchip.pieces (Pchip.knots (valTable pts)))) x.val| ≤
        1050 * R.eps * |secant (p.1.val, p.2.val) (q.1.val, q.2.val)| := by
  have h' := (table_iff pts).1 h
  have e0 := R.eps_nonneg
  obtain ⟨za, zb, hz, rfl, rfl⟩ := Pchip.twins_infix h'.1 hpq
  have hchain : pts.IsChain fun p q => p.1.val < q.1.val := by
    have := h'.2; rwa [valTable, List.isChain_map] at this
  have ht := Pchip.chain_infix (Pchip.knots_twins hchain) hz
  have lenf : (Pchip.knots pts).length = (Pchip.knots (valTable pts)).length := by
    rw [Pchip.knots_length pts h'.1, Pchip.knots_length _ h.long, valTable, List.length_map]
  have hf : [za.1, zb.1] <:+: Pchip.knots pts := by
    have := hz.map Prod.fst
    rw [← valTable_eq, List.map_fst_zip lenf.le] at this
    exact this
  have hr : [za.2, zb.2] <:+: Pchip.knots (valTable pts) := by
    have := hz.map Prod.snd
    rw [← valTable_eq, List.map_snd_zip lenf.ge] at this
    exact this
  have hn := Pchip.chain_infix (Pchip.knots_neighbours _ h.ascending) hr
  have hA := Pchip.knots_ascending h.ascending
  obtain ⟨ax, ay, bx, by', ad, bd⟩ := id ht
  have hx : x.val ∈ Set.Icc za.2.x zb.2.x := ⟨by rw [ax]; exact h0, by rw [bx]; exact h1⟩
  have hd1 : PPoly.deriv (Pchip.pieces (Pchip.knots pts)) =
      Pchip.gluedBy (fun a b => polyDer (Pchip.hermite a b).2) (Pchip.knots pts) := by rw [Pchip.pieces_glued, Pchip.deriv_glued]
  have hd2 : PPoly.deriv (Pchip.pieces (Pchip.knots (valTable pts))) =
      Pchip.gluedBy (fun a b => polyDer (Pchip.hermite a b).2) (Pchip.knots (valTable pts)) := by
    rw [Pchip.pieces_glued, Pchip.deriv_glued]
  have er := Pchip.glued_eval (G := fun a b => (Pchip.hermite a b).2) (V := Pchip.Knot.y) Pchip.hermite_left
    (fun a b => Pchip.hermite_right) hA hr hx
  have erd := Pchip.glued_eval (G := fun a b => polyDer (Pchip.hermite a b).2) (V := Pchip.Knot.d) Pchip.hermite_deriv_left
    (fun a b => Pchip.hermite_deriv_right) hA hr hx
  have sec : secant (za.1.x.val, za.1.y.val) (zb.1.x.val, zb.1.y.val) = Pchip.rise za.2 zb.2 := by
    rw [Pchip.rise, ax, ay, bx, by']; rfl
  obtain ⟨c1, c2⟩ := Pchip.hermite_rounded ht hn hx
  rw [ay, by'] at c1
  simp only
  rw [sec]
  refine ⟨?_, ?_⟩
  · rw [Pchip.pieces_glued (Pchip.knots pts), Pchip.pieces_glued (Pchip.knots (valTable pts)), er]
    rcases Pchip.F_glued_eval (fun a b => (Pchip.hermite a b).2) (glued_asc h) hf h0 h1 with ⟨e, -⟩ | ⟨c, hxb, e⟩
    · rw [e]; exact c1
    · have hz0 : (x - zb.1.x).val = 0 := by rw [val_sub, hxb, sub_self, R.rd_zero]
      have hv : polyEval (Pchip.hermite zb.1 c).2 (x - zb.1.x) = zb.1.y := poly_zero _ _ hz0
      rw [e, hv, show x.val - za.2.x = zb.2.x - za.2.x by rw [bx, hxb], Pchip.hermite_right hn.1, by', sub_self, abs_zero]
      positivity
  · rw [hd1, hd2, erd]
    rcases Pchip.F_glued_eval (fun a b => polyDer (Pchip.hermite a b).2) (glued_asc h) hf h0 h1 with ⟨e, -⟩ | ⟨c, hxb, e⟩
    · rw [e]; exact c2
    · have hz0 : (x - zb.1.x).val = 0 := by rw [val_sub, hxb, sub_self, R.rd_zero]
      have hv : polyEval (polyDer (Pchip.hermite zb.1 c).2) (x - zb.1.x) = zb.1.d := poly_der_zero _ _ _ hz0
      rw [e, hv, show x.val - za.2.x = zb.2.x - za.2.x by rw [bx, hxb], Pchip.hermite_deriv_right hn.1]
      refine bd.trans (mul_le_mul_of_nonneg_right ?_ (abs_nonneg _))
      linarith

/-- **C127**: with rounding, velocity and slope between two neighbouring points of an accepted table differ from those of exact arithmetic
by at most 500 rounding errors of the two tabulated values and 1050 of the slope of the line between them. The exact ones go through the
points and stay between them. -/
theorem rounded_table_velocity (other : Pchip R.F) (otherR : Pchip ℝ) (s : VelState R.F) (sR : VelState ℝ) (pts : List (R.F × R.F))
    (h : Table (valTable pts)) (a b : Arg R.F) (aR bR : Arg ℝ) : ∃ (s' : VelState R.F) (sR' : VelState ℝ) (u du d2u : ℝ → ℝ),
      setVelocity (Pchip.interpolator other) s (tableArg pts) a b = (s', .ok ()) ∧
      setVelocity (Pchip.interpolator otherR) sR (tableArg (valTable pts)) aR bR = (sR', .ok ()) ∧
      (∀ x, sR'.uE x = .ok (u x) ∧ sR'.duE x = .ok (du x)) ∧ MonotoneThrough (valTable pts) u du d2u ∧
      ∀ p q, [p, q] <:+: pts → ∀ x : R.F, p.1.val ≤ x.val → x.val ≤ q.1.val → ∃ v dv : R.F, s'.uE x = .ok v ∧ s'.duE x = .ok dv ∧
        |v.val - u x.val| ≤ 500 * R.eps * (|p.2.val| + |q.2.val|) ∧
        |dv.val - du x.val| ≤ 1050 * R.eps * |secant (p.1.val, p.2.val) (q.1.val, q.2.val)| :=
  ⟨_, _, _, _, _, F_set other s h a b, real_set otherR sR h aR bR, fun _ => ⟨rfl, rfl⟩, pieces_monotone h,
    fun _ _ hpq _ h0 h1 => ⟨_, _, rfl, rfl, eval_close h hpq h0 h1⟩⟩

/-- **C127**: with rounding, the velocity is exactly the tabulated one at every point but the last, and nearly so there; between two
neighbouring points it leaves the range of their values by rounding errors only. -/
theorem rounded_table_points (other : Pchip R.F) (s : VelState R.F) (pts : List (R.F × R.F)) (h : Table (valTable pts)) (a b : Arg R.F)
    (s' : VelState R.F) (hs : setVelocity (Pchip.interpolator other) s (tableArg pts) a b = (s', .ok ())) (p q : R.F × R.F)
    (hpq : [p, q] <:+: pts) :
    s'.uE p.1 = .ok p.2 ∧ (∃ v, s'.uE q.1 = .ok v ∧ |v.val - q.2.val| ≤ 500 * R.eps * (|p.2.val| + |q.2.val|)) ∧
    ∀ x : R.F, p.1.val ≤ x.val → x.val ≤ q.1.val → ∃ v, s'.uE x = .ok v ∧
      min p.2.val q.2.val - 500 * R.eps * (|p.2.val| + |q.2.val|) ≤ v.val ∧
      v.val ≤ max p.2.val q.2.val + 500 * R.eps * (|p.2.val| + |q.2.val|) := by
  rw [F_set other s h] at hs
  obtain rfl := (Prod.mk.inj hs).1
  have h' := (table_iff pts).1 h
  have hm := pieces_monotone h
  have hpqR : [(p.1.val, p.2.val), (q.1.val, q.2.val)] <:+: valTable pts :=
    hpq.map fun p : R.F × R.F => (p.1.val, p.2.val)
  have hlt : p.1.val < q.1.val := Pchip.chain_infix h.ascending hpqR
  refine ⟨?_, ⟨_, rfl, ?_⟩, fun x h0 h1 => ⟨_, rfl, ?_⟩⟩
  · obtain ⟨za, zb, hz, rfl, rfl⟩ := Pchip.twins_infix h'.1 hpq
    have lenf : (Pchip.knots pts).length = (Pchip.knots (valTable pts)).length := by
      rw [Pchip.knots_length pts h'.1, Pchip.knots_length _ h.long, valTable, List.length_map]
    have hf : [za.1, zb.1] <:+: Pchip.knots pts := by
      have := hz.map Prod.fst
      rw [← valTable_eq, List.map_fst_zip lenf.le] at this
      exact this
    have e : eval (Pchip.pieces (Pchip.knots pts)) za.1.x = za.1.y := by
      rw [Pchip.pieces_glued]
      rcases Pchip.F_glued_eval (fun a b => (Pchip.hermite a b).2) (glued_asc h) hf (le_refl _) hlt.le with ⟨e, -⟩ | ⟨c, hxb, -⟩
      · rw [e]
        exact poly_zero _ _ (by rw [val_sub, sub_self, R.rd_zero])
      · exact absurd hxb hlt.ne
    exact congrArg Except.ok e
  · have := (eval_close h hpq hlt.le (le_refl _)).1
    rw [hm.through (q.1.val, q.2.val) (hpqR.subset (by simp))] at this
    exact this
  · have := (abs_le.1 (eval_close h hpq h0 h1).1)
    obtain ⟨b1, b2⟩ := hm.between _ _ hpqR x.val ⟨h0, h1⟩
    exact ⟨by linarith [this.1], by linarith [this.2]⟩

/-- A table that meets the hypotheses, in binary arithmetic with any precision of at least ten digits. -/
example (R : Rounding) : Table (valTable [((lit 0 : R.F), (lit 1 : R.F)), (lit 1, lit 3), (lit 4, lit 2)]) := by
  have h4 : (lit 4 : R.F).val = 4 := by simpa using val_int (R := R) 4 (by norm_num)
  refine ⟨by simp [valTable], ?_⟩
  simp only [valTable, List.map_cons, List.map_nil, List.isChain_cons_cons, List.isChain_singleton, and_true, val_zero, val_one, h4]
  norm_num

end IBL
