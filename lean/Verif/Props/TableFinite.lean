import Verif.Lemmas.PchipFinite
import Verif.Props.Pchip

/-!
C110: tables of velocities in arithmetic with NaN and infinities (`Flt ℝ`). A table with an entry that is not a finite number is refused; an
accepted table gives finite velocities at all finite locations, those of C97.
-/

namespace IBL
open PPoly Flt

/-- The table has finite entries only, namely the points `r`, of which there are at least two, from left to right. -/
def FiniteTable (pts : List (Flt ℝ × Flt ℝ)) (r : List (ℝ × ℝ)) : Prop :=
  Table r ∧ pts.length = r.length ∧ ∀ p ∈ pts.zip r, p.1.1 = fin p.2.1 ∧ p.1.2 = fin p.2.2

private theorem finite_eq {pts : List (Flt ℝ × Flt ℝ)} {r : List (ℝ × ℝ)} (hl : pts.length = r.length)
    (h : ∀ p ∈ pts.zip r, p.1.1 = fin p.2.1 ∧ p.1.2 = fin p.2.2) : pts = r.map Pchip.finPoint := by
  induction pts generalizing r with
  | nil => cases r with
    | nil => rfl
    | cons => simp at hl
  | cons p pts ih =>
    cases r with
    | nil => simp at hl
    | cons q r =>
      have h1 := h (p, q) (by simp)
      have h2 := ih (r := r) (by simpa using hl) fun a ha => h a (by simp [ha])
      obtain ⟨a, b⟩ := p
      simp only at h1
      simp only [List.map_cons, Pchip.finPoint, h2, h1.1, h1.2]

private theorem isFinite_iff (a : Flt ℝ) : Pchip.isFinite a = true ↔ ∃ r, a = fin r := by
  cases a with
  | fin q => simp [Pchip.isFinite]
  | nan => exact ⟨fun h => (by cases h), fun ⟨r, h⟩ => (by cases h)⟩
  | pinf => exact ⟨fun h => (by cases h), fun ⟨r, h⟩ => (by cases h)⟩
  | ninf => exact ⟨fun h => (by cases h), fun ⟨r, h⟩ => (by cases h)⟩

private theorem increasing_fin (l : List ℝ) : Pchip.increasing (l.map fin) = true ↔ l.IsChain (· < ·) := by
  induction l with
  | nil => simp [Pchip.increasing]
  | cons a l ih =>
    cases l with
    | nil => simp [Pchip.increasing]
    | cons b l =>
      rw [List.map_cons] at ih
      rw [List.map_cons, List.map_cons, Pchip.increasing, Bool.and_eq_true, ih, List.isChain_cons_cons, fin_sub, lit_fin, fin_le]
      simp

private theorem all_finite {pts : List (Flt ℝ × Flt ℝ)}
    (h : ((pts.map Prod.fst).all Pchip.isFinite && (pts.map Prod.snd).all Pchip.isFinite) = true) : ∃ r : List (ℝ × ℝ), pts = r.map Pchip.finPoint := by
  induction pts with
  | nil => exact ⟨[], rfl⟩
  | cons p pts ih =>
    simp only [List.map_cons, List.all_cons, Bool.and_eq_true] at h ih
    obtain ⟨⟨h1, h2⟩, h3, h4⟩ := h
    obtain ⟨r, hr⟩ := ih ⟨h2, h4⟩
    obtain ⟨x, hx⟩ := (isFinite_iff _).1 h1
    obtain ⟨y, hy⟩ := (isFinite_iff _).1 h3
    exact ⟨(x, y) :: r, by rw [List.map_cons, ← hr, Pchip.finPoint, ← hx, ← hy]⟩

private theorem points_finite (r : List (ℝ × ℝ)) :
    (((r.map Pchip.finPoint).map Prod.fst).all Pchip.isFinite && ((r.map Pchip.finPoint).map Prod.snd).all Pchip.isFinite) = true := by
  rw [Bool.and_eq_true, List.all_eq_true, List.all_eq_true]
  refine ⟨fun a ha => ?_, fun a ha => ?_⟩
  all_goals
    simp only [List.map_map, List.mem_map, Function.comp] at ha
    obtain ⟨p, -, rfl⟩ := ha
    exact (isFinite_iff _).2 ⟨_, rfl⟩

private theorem interpolator_finite (other : Pchip (Flt ℝ)) {r : List (ℝ × ℝ)} (h : Table r) :
    Pchip.interpolator other (vector ((r.map Pchip.finPoint).map Prod.fst)) (vector ((r.map Pchip.finPoint).map Prod.snd)) =
      .ok (toSpline (Pchip.finPieces (Pchip.pieces (Pchip.knots r)))) := by
  have hx : (r.map Pchip.finPoint).map Prod.fst = (r.map Prod.fst).map fin := by simp [List.map_map, Function.comp, Pchip.finPoint]
  have hz : ((r.map Pchip.finPoint).map Prod.fst).zip ((r.map Pchip.finPoint).map Prod.snd) = r.map Pchip.finPoint := by
    rw [List.zip_map']; exact List.map_id _
  have hi : Pchip.increasing ((r.map Pchip.finPoint).map Prod.fst) = true := by
    rw [hx, increasing_fin, List.isChain_map]; exact h.ascending
  have hn : ¬ r.length < 2 := not_lt.2 h.long
  simp only [Pchip.interpolator, vector, List.length_map, hn, if_false, ne_eq, not_true_eq_false, points_finite, Bool.not_true,
    Bool.false_eq_true, hi, hz]
  rw [Pchip.knots_fin h.ascending, Pchip.pieces_fin (Pchip.knots_ascending h.ascending)]

private theorem interpolator_refuses (other : Pchip (Flt ℝ)) {pts : List (Flt ℝ × Flt ℝ)} (h : ¬ ∃ r, Table r ∧ pts = r.map Pchip.finPoint) :
    Pchip.interpolator other (vector (pts.map Prod.fst)) (vector (pts.map Prod.snd)) = .error .valueError := by
  simp only [Pchip.interpolator, vector, List.length_map, ne_eq, not_true_eq_false, if_false]
  split_ifs with h1 h2 h3
  · rfl
  · rfl
  · rfl
  · exfalso
    rw [Bool.not_eq_true, Bool.not_eq_false'] at h2
    obtain ⟨r, rfl⟩ := all_finite h2
    rw [Bool.not_eq_true, Bool.not_eq_false'] at h3
    have hx : (r.map Pchip.finPoint).map Prod.fst = (r.map Prod.fst).map fin := by simp [List.map_map, Function.comp, Pchip.finPoint]
    rw [hx, increasing_fin, List.isChain_map] at h3
    exact h ⟨r, ⟨by rw [List.length_map] at h1; omega, h3⟩, rfl⟩

private theorem spline_fin (p : Pieces ℝ) (x : ℝ) : (toSpline (Pchip.finPieces p)).call (fin x) = fin ((toSpline p).call x) ∧
    (toSpline (Pchip.finPieces p)).d1 (fin x) = fin ((toSpline p).d1 x) ∧ (toSpline (Pchip.finPieces p)).d2 (fin x) = fin ((toSpline p).d2 x) ∧
    (toSpline (Pchip.finPieces p)).anti (fin x) = fin ((toSpline p).anti x) := by
  have h0 : (lit 0 : Flt ℝ) = fin (lit 0 : ℝ) := rfl
  simp only [toSpline, Pchip.deriv_fin, Pchip.eval_fin, h0, Pchip.anti_fin, and_self]

private theorem pieces_full {r : List (ℝ × ℝ)} (h : Table r) : Pchip.pieces (Pchip.knots r) ≠ [] ∧
    ∀ a ∈ Pchip.pieces (Pchip.knots r), a.2.length = 4 := by
  have len : ∀ K : List (Pchip.Knot ℝ), ∀ a ∈ Pchip.pieces K, a.2.length = 4 := by
    intro K
    induction K with
    | nil => intro a ha; simp [Pchip.pieces] at ha
    | cons k K ih =>
      cases K with
      | nil => intro a ha; simp [Pchip.pieces] at ha
      | cons l K =>
        intro a ha
        simp only [Pchip.pieces, List.mem_cons] at ha
        rcases ha with rfl | ha
        · rfl
        · exact ih a ha
  refine ⟨?_, len _⟩
  have hl := h.long
  match r, hl with
  | [a, b], _ => simp [Pchip.knots, Pchip.pieces]
  | a :: b :: c :: rest, _ => simp [Pchip.knots, Pchip.pieces]

private theorem spline_nan {r : List (ℝ × ℝ)} (h : Table r) :
    (toSpline (Pchip.finPieces (Pchip.pieces (Pchip.knots r)))).call nan = nan ∧
    (toSpline (Pchip.finPieces (Pchip.pieces (Pchip.knots r)))).d1 nan = nan ∧
    (toSpline (Pchip.finPieces (Pchip.pieces (Pchip.knots r)))).d2 nan = nan := by
  obtain ⟨hne, hl⟩ := pieces_full h
  generalize Pchip.pieces (Pchip.knots r) = p at hne hl
  simp only [toSpline, Pchip.deriv_fin]
  have key : ∀ q : Pieces ℝ, q ≠ [] → (∀ a ∈ q, 2 ≤ a.2.length) → eval (Pchip.finPieces q) nan = nan := fun q h1 h2 => by
    refine Pchip.eval_nan _ (by simpa [Pchip.finPieces] using h1) fun a ha => ?_
    simp only [Pchip.finPieces, List.mem_map] at ha
    obtain ⟨b, hb, rfl⟩ := ha
    simpa using h2 b hb
  have d0 : ∀ (q : List ℝ) n, (derFrom n q).length = q.length := by
    intro q
    induction q with
    | nil => intro _; rfl
    | cons c q ih => intro n; simp [derFrom, ih]
  have d : ∀ q : List ℝ, (polyDer q).length = q.length - 1 := by
    intro q; cases q <;> simp [polyDer, d0]
  refine ⟨key _ hne fun a ha => ?_, key _ (by simpa [PPoly.deriv] using hne) fun a ha => ?_,
    key _ (by simpa [PPoly.deriv] using hne) fun a ha => ?_⟩
  · rw [hl a ha]; norm_num
  · simp only [PPoly.deriv, List.mem_map] at ha
    obtain ⟨b, hb, rfl⟩ := ha
    rw [d, hl b hb]; norm_num
  · simp only [PPoly.deriv, List.mem_map] at ha
    obtain ⟨b, ⟨c, hc, rfl⟩, rfl⟩ := ha
    rw [d, d, hl c hc]

/-- **C110**: a table is accepted exactly if all its entries are finite numbers, it has at least two points and its abscissae increase;
otherwise the call raises ValueError and leaves the object as it was. -/
theorem extended_table_accepted_iff (ext : Ext (Flt ℝ)) (other : Pchip (Flt ℝ)) (hext : ext.pchip = Pchip.interpolator other)
    (o : Obj (Flt ℝ)) (pts : List (Flt ℝ × Flt ℝ)) (a b : Arg (Flt ℝ)) :
    ((o.setVelocity ext (tableArg pts) a b).2 = .ok () ↔ ∃ r, FiniteTable pts r) ∧
    (¬ (∃ r, FiniteTable pts r) → o.setVelocity ext (tableArg pts) a b = (o, .error .valueError)) := by
  have key : ¬ (∃ r, FiniteTable pts r) → o.setVelocity ext (tableArg pts) a b = (o, .error .valueError) := by
    intro h
    have h' : ¬ ∃ r, Table r ∧ pts = r.map Pchip.finPoint := by
      rintro ⟨r, hr, rfl⟩
      refine h ⟨r, hr, by simp, fun p hp => ?_⟩
      rw [List.zip_map_left, List.mem_map] at hp
      obtain ⟨⟨x, y⟩, hxy, rfl⟩ := hp
      have := List.of_mem_zip hxy
      have hxe : x = y := by
        clear h this
        induction r with
        | nil => simp at hxy
        | cons c r ih =>
          simp only [List.zip_cons_cons, List.mem_cons, Prod.mk.injEq] at hxy
          rcases hxy with ⟨rfl, rfl⟩ | hxy
          · rfl
          · clear hr
            have : ∀ l : List (ℝ × ℝ), (x, y) ∈ l.zip l → x = y := by
              intro l
              induction l with
              | nil => simp
              | cons d l ih => simp only [List.zip_cons_cons, List.mem_cons, Prod.mk.injEq]; rintro (⟨rfl, rfl⟩ | h) <;> [rfl; exact ih h]
            exact this r hxy
      subst hxe
      exact ⟨rfl, rfl⟩
    have hr : setVelocity ext.pchip o.vel (tableArg pts) a b = (o.vel, .error .valueError) := by
      simp only [tableArg, setVelocity, hext, interpolator_refuses other h']
      simp only [vector, List.length_map, ne_eq, not_true_eq_false, if_false]
      split_ifs <;> rfl
    simp only [Obj.setVelocity, hr]
  refine ⟨⟨fun hok => ?_, fun ⟨r, hr, hl, he⟩ => ?_⟩, key⟩
  · by_contra h
    rw [key h] at hok
    cases hok
  · rw [finite_eq hl he]
    have hn : ¬ r.length < 2 := not_lt.2 hr.long
    simp only [Obj.setVelocity, tableArg, setVelocity, hext, interpolator_finite other hr]
    simp only [vector, List.length_map, ne_eq, not_true_eq_false, if_false, hn, setVelCallable, Spline.toCallable]

/-- **C110**: what an accepted table gives. At every finite location the three queries return finite numbers, those of a function through the
points without overshoot, its slope and its curvature (C97); at an undefined location they return NaN. -/
theorem extended_table_velocity (ext : Ext (Flt ℝ)) (other : Pchip (Flt ℝ)) (hext : ext.pchip = Pchip.interpolator other) (o : Obj (Flt ℝ))
    (pts : List (Flt ℝ × Flt ℝ)) (r : List (ℝ × ℝ)) (h : FiniteTable pts r) (a b : Arg (Flt ℝ)) :
    ∃ (o' : Obj (Flt ℝ)) (u du d2u : ℝ → ℝ), o.setVelocity ext (tableArg pts) a b = (o', .ok ()) ∧ MonotoneThrough r u du d2u ∧
      (∀ x, o'.vel.uE (fin x) = .ok (fin (u x)) ∧ o'.vel.duE (fin x) = .ok (fin (du x)) ∧ o'.vel.d2uE (fin x) = .ok (fin (d2u x))) ∧
      o'.vel.uE nan = .ok nan ∧ o'.vel.duE nan = .ok nan ∧ o'.vel.d2uE nan = .ok nan := by
  obtain ⟨hr, hl, he⟩ := h
  rw [finite_eq hl he]
  have hn : ¬ r.length < 2 := not_lt.2 hr.long
  refine ⟨{ o with vel := ⟨some (.fn fun x => .ok ((toSpline (Pchip.finPieces (Pchip.pieces (Pchip.knots r)))).call x)),
    some (.fn fun x => .ok ((toSpline (Pchip.finPieces (Pchip.pieces (Pchip.knots r)))).d1 x)),
    some (.fn fun x => .ok ((toSpline (Pchip.finPieces (Pchip.pieces (Pchip.knots r)))).d2 x))⟩ }, _, _, _, ?_, pieces_monotone hr, fun x => ?_, ?_⟩
  · simp only [Obj.setVelocity, tableArg, setVelocity, hext, interpolator_finite other hr]
    simp only [vector, List.length_map, ne_eq, not_true_eq_false, if_false, hn, setVelCallable, Spline.toCallable]
  · obtain ⟨h1, h2, h3, -⟩ := spline_fin (Pchip.pieces (Pchip.knots r)) x
    simp only [VelState.uE, VelState.duE, VelState.d2uE, VelState.rawU, VelState.rawDu, VelState.rawD2u, callOpt, Vel.call, h1, h2, h3]
    simp [toSpline]
  · obtain ⟨h1, h2, h3⟩ := spline_nan hr
    simp only [VelState.uE, VelState.duE, VelState.d2uE, VelState.rawU, VelState.rawDu, VelState.rawD2u, callOpt, Vel.call, h1, h2, h3]
    simp

/-- **C110** for a table of slopes with a start value that is a finite number. -/
theorem extended_table_slope (ext : Ext (Flt ℝ)) (other : Pchip (Flt ℝ)) (hext : ext.pchip = Pchip.interpolator other) (o : Obj (Flt ℝ))
    (start : ℝ) (pts : List (Flt ℝ × Flt ℝ)) (r : List (ℝ × ℝ)) (h : FiniteTable pts r) (b : Arg (Flt ℝ)) :
    ∃ (o' : Obj (Flt ℝ)) (u du d2u d3u : ℝ → ℝ), o.setVelocity ext (.num (fin start)) (tableArg pts) b = (o', .ok ()) ∧
      MonotoneThrough r du d2u d3u ∧ (∀ x, HasDerivAt u (du x) x) ∧ u (firstX r) = start ∧
      (∀ x, o'.vel.uE (fin x) = .ok (fin (u x)) ∧ o'.vel.duE (fin x) = .ok (fin (du x)) ∧ o'.vel.d2uE (fin x) = .ok (fin (d2u x))) := by
  obtain ⟨hr, hl, he⟩ := h
  rw [finite_eq hl he]
  let otherR : Pchip ℝ := fun _ _ => .error .valueError
  let extR : Ext ℝ := ⟨Pchip.interpolator otherR, fun _ _ => (id, id)⟩
  let oR : Obj ℝ := ⟨.head, 1, .empty, .manual 0 1 1 1 1, [], none, none⟩
  obtain ⟨o', u, du, d2u, d3u, h1, -, h2, h3, h4, h5, -⟩ := table_slope extR otherR rfl oR start r hr .none
  have hs := h1
  simp only [Obj.setVelocity, setVelocity, tableArg, extR, interpolator_table otherR hr, Prod.mk.injEq, and_true] at hs
  refine ⟨{ o with vel := ⟨some (.fn fun x => .ok ((toSpline (Pchip.finPieces (Pchip.pieces (Pchip.knots r)))).anti x + fin start)),
    some (.fn fun x => .ok ((toSpline (Pchip.finPieces (Pchip.pieces (Pchip.knots r)))).call x)),
    some (.fn fun x => .ok ((toSpline (Pchip.finPieces (Pchip.pieces (Pchip.knots r)))).d1 x))⟩ }, u, du, d2u, d3u, ?_, h3, h4, h5, fun x => ?_⟩
  · simp only [Obj.setVelocity, tableArg, setVelocity, hext, interpolator_finite other hr]
  · have := h2 x
    rw [← hs] at this
    simp only [VelState.uE, VelState.duE, VelState.d2uE, VelState.rawU, VelState.rawDu, VelState.rawD2u, callOpt, Vel.call, Option.isNone_some,
      Bool.false_eq_true, if_false, Except.ok.injEq] at this
    obtain ⟨h1, h2, h3, h4⟩ := spline_fin (Pchip.pieces (Pchip.knots r)) x
    simp only [VelState.uE, VelState.duE, VelState.d2uE, VelState.rawU, VelState.rawDu, VelState.rawD2u, callOpt, Vel.call, h1, h2, h4, fin_add]
    simp [this.1, this.2.1, this.2.2]

/-- A table with an infinite velocity is refused, one of two finite points is accepted. -/
example (ext : Ext (Flt ℝ)) (other : Pchip (Flt ℝ)) (hext : ext.pchip = Pchip.interpolator other) (o : Obj (Flt ℝ)) :
    o.setVelocity ext (tableArg [(fin 0, fin 1), (fin 1, pinf)]) .none .none = (o, .error .valueError) ∧
    FiniteTable [(fin 0, fin 1), (fin 1, fin 3)] [(0, 1), (1, 3)] := by
  refine ⟨(extended_table_accepted_iff ext other hext o _ _ _).2 ?_, ⟨by norm_num, by simp⟩, rfl, by simp⟩
  rintro ⟨r, -, hl, he⟩
  match r, hl with
  | [p, q], _ =>
    have := (he ((fin 1, pinf), q) (by simp)).2
    cases this

end IBL
