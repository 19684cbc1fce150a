import Verif.Props.XFoilTable

/-! C123: the dump of the mirrored airfoil. -/

namespace IBL.XFoil
open Spec
section real
variable [PySpecial ℝ]

/-- The row of the airfoil mirrored at the axis `y = 0`, with the arc length counted from the other end of a contour of length `L`: the edge velocity
is counted along the contour and changes its sign, and with it the mass and the kinetic energy defect, in which it has an odd power. -/
def Pt.mirror (L : ℝ) (p : Pt ℝ) : Pt ℝ := { p with s := L - p.s, y := -p.y, u := -p.u, mass := -p.mass, ke := -p.ke }

/-- `y` changes its sign, everything else stays. -/
def mirrored (q : Quantity) (l : List ℝ) : List ℝ := if q = .y then l.map Neg.neg else l

/-- The other surface. -/
def Surface.other : Surface → Surface
  | .upper => .lower
  | .lower => .upper
  | .wake => .wake

theorem Pt.mirror_mirror (L : ℝ) (p : Pt ℝ) : (p.mirror L).mirror L = p := by
  simp [Pt.mirror]

/-- The rows of the mirrored airfoil, in the order of its contour. -/
theorem mirror_rows (L : ℝ) (us ls : List (Pt ℝ)) (a b : Pt ℝ) : ((us ++ a :: b :: ls).reverse.map (Pt.mirror L)) =
    (ls.reverse.map (Pt.mirror L)) ++ b.mirror L :: a.mirror L :: us.reverse.map (Pt.mirror L) := by
  simp

/-- The dump of the mirrored airfoil is a clean dump too. -/
theorem mirror_clean {fl : Floats ℝ} {content content' : Text} {us ls : List (Pt ℝ)} {a b : Pt ℝ} (C : CleanDump fl content us ls a b) (L : ℝ)
    (hrows : ∃ air wk ws, Sections (readlines content') air wk ∧ Rows fl air ((us ++ a :: b :: ls).reverse.map (Pt.mirror L)) ∧ WakeRows fl wk ws ∧
      (ws.map Wake.s).Pairwise (· ≤ ·)) :
    CleanDump fl content' (ls.reverse.map (Pt.mirror L)) (us.reverse.map (Pt.mirror L)) (b.mirror L) (a.mirror L) where
  rows := by rw [← mirror_rows]; exact hrows
  before p hp := by
    have : ∃ q ∈ b :: ls, q.mirror L = p := by
      simp only [List.mem_append, List.mem_map, List.mem_reverse, List.mem_singleton] at hp
      rcases hp with ⟨q, hq, rfl⟩ | rfl
      · exact ⟨q, by simp [hq], rfl⟩
      · exact ⟨b, by simp, rfl⟩
    obtain ⟨q, hq, rfl⟩ := this
    exact neg_pos.2 (C.after q hq)
  after p hp := by
    have : ∃ q ∈ us ++ [a], q.mirror L = p := by
      simp only [List.mem_cons, List.mem_map, List.mem_reverse] at hp
      rcases hp with rfl | ⟨q, hq, rfl⟩
      · exact ⟨a, by simp, rfl⟩
      · exact ⟨q, by simp [hq], rfl⟩
    obtain ⟨q, hq, rfl⟩ := this
    exact neg_neg_of_pos (C.before q hq)
  arc := by
    rw [← mirror_rows, List.pairwise_map, List.pairwise_map, List.pairwise_reverse]
    exact (List.pairwise_map.1 C.arc).imp fun h => by simpa [Pt.mirror] using h

private theorem surface_other {r r' : Reader ℝ} {P P' : List (Pt ℝ)} (hu : r'.uRef = r.uRef)
    (hP : P' = P.map fun p => { p with y := -p.y }) (q : Quantity) : r'.surface P' q = mirrored q (r.surface P q) := by
  subst hP
  cases q <;> simp [Reader.surface, gather_eq, mirrored, hu, Function.comp_def]

/-- **C123**: an airfoil and its mirror image. When the rows of one dump are those of the other in the opposite order, mirrored, both are read, and
for the same reference velocity every array of either surface of the one equals that array of the other surface of the other, except that `y` has the
opposite sign. -/
theorem mirror_exchanges (hinf : InfAdm ℝ) (fl : Floats ℝ) (fs : Files) (name name' content content' : Text) (us ls : List (Pt ℝ)) (a b : Pt ℝ)
    (hn : name ≠ []) (hn' : name' ≠ []) (hc : fs name = .ok content) (hc' : fs name' = .ok content') (C : CleanDump fl content us ls a b) (L : ℝ)
    (hrows : ∃ air wk ws, Sections (readlines content') air wk ∧ Rows fl air ((us ++ a :: b :: ls).reverse.map (Pt.mirror L)) ∧ WakeRows fl wk ws ∧
      (ws.map Wake.s).Pairwise (· ≤ ·)) (v : ℝ) (hv : 0 < v) :
    ∃ r r' ρ ρ' : Reader ℝ, Reader.load fl fs name = (r, .ok ()) ∧ Reader.load fl fs name' = (r', .ok ()) ∧
      r.step fl (.setURef v) = (ρ, .ok ()) ∧ r'.step fl (.setURef v) = (ρ', .ok ()) ∧
      ∀ sf, sf ≠ .wake → ∀ q, ∃ l, ρ.array q sf = some l ∧ ρ'.array q sf.other = some (mirrored q l) := by
  have C' := mirror_clean C L hrows
  obtain ⟨r, ρ, hr, hρ, -⟩ := clean_tables hinf fl fs name content us ls a b hn hc C v hv
  obtain ⟨r', ρ', hr', hρ', -⟩ := clean_tables hinf fl fs name' content' _ _ _ _ hn' hc' C' v hv
  refine ⟨r, r', ρ, ρ', hr, hr', hρ, hρ', ?_⟩
  obtain ⟨p, hp, B, hp0, hps, -, -, hup, hlo⟩ := clean_points hn hc C hr
  obtain ⟨p', hp', B', hp0', hps', -, -, hup', hlo'⟩ := clean_points hn' hc' C' hr'
  have hset : ∀ r : Reader ℝ, r.step fl (.setURef v) = ({ r with uRef := v }, .ok ()) := fun r => by simp [Reader.step, hv]
  have e1 : { r with uRef := v } = ρ := congrArg Prod.fst ((hset r).symm.trans hρ)
  have e2 : { r' with uRef := v } = ρ' := congrArg Prod.fst ((hset r').symm.trans hρ')
  have ha0 : 0 < a.u := C.before a (by simp)
  have hb0 : b.u < 0 := C.after b (by simp)
  have hd : a.u - b.u ≠ 0 := by linarith
  have key : p' = { p with s := L - p.s, y := -p.y } := by
    have ht : (b.mirror L).u / ((b.mirror L).u - (a.mirror L).u) = 1 - a.u / (a.u - b.u) := by
      have : (-b.u - -a.u) ≠ 0 := by intro h; apply hd; linarith
      simp only [Pt.mirror]
      field_simp
      ring
    rw [ht] at hp'
    rw [hp', hp]
    generalize a.u / (a.u - b.u) = t
    simp only [interpolated, Pt.flip, Pt.mirror, real_abs, real_lit, Pt.mk.injEq]
    push_cast
    refine ⟨by ring, ?_, by ring, ?_, by ring, by ring, by ring, by ring, by ring, by ring, by ring, by ring⟩
    · rw [← abs_neg]; congr 1; ring
    · rw [← abs_neg]; congr 1; ring
  subst e1 e2
  rintro (_ | _ | _) hsf q
  · refine ⟨_, rfl, congrArg some (surface_other rfl ?_ q)⟩
    show r'.lowerPts = r.upperPts.map _
    rw [hup, hlo', key]
    simp [Pt.at, Pt.flip, Pt.mirror, Function.comp_def]
  · refine ⟨_, rfl, congrArg some (surface_other rfl ?_ q)⟩
    show r'.upperPts = r.lowerPts.map _
    rw [hlo, hup', key]
    simp [Pt.at, Pt.flip, Pt.mirror, Function.comp_def]
  · exact absurd rfl hsf

/-- **C123**: a symmetric airfoil without incidence, that is, a dump whose rows are their own mirror image. Every array of the lower surface equals
that of the upper surface, except that `y` has the opposite sign. -/
theorem symmetric_surfaces (hinf : InfAdm ℝ) (fl : Floats ℝ) (fs : Files) (name content : Text) (us ls : List (Pt ℝ)) (a b : Pt ℝ)
    (hn : name ≠ []) (hc : fs name = .ok content) (C : CleanDump fl content us ls a b) (L : ℝ)
    (hsym : (us ++ a :: b :: ls).reverse.map (Pt.mirror L) = us ++ a :: b :: ls) (v : ℝ) (hv : 0 < v) :
    ∃ r ρ : Reader ℝ, Reader.load fl fs name = (r, .ok ()) ∧ r.step fl (.setURef v) = (ρ, .ok ()) ∧
      ∀ q, ∃ l, ρ.array q .upper = some l ∧ ρ.array q .lower = some (mirrored q l) := by
  obtain ⟨r, r', ρ, ρ', hr, hr', hρ, hρ', h⟩ := mirror_exchanges hinf fl fs name name content content us ls a b hn hn hc hc C L
    (by rw [hsym]; exact C.rows) v hv
  rw [hr] at hr'
  cases hr'
  rw [hρ] at hρ'
  cases hρ'
  exact ⟨r, ρ, hr, hρ, fun q => h .upper (by simp) q⟩

/-! A symmetric dump: two rows, at arc length zero and one. -/

private def rowU : Text := "0 1 1 1 1 1 1 1 1 1 1 1\n".toList
private def rowL : Text := "1 1 -1 -1 1 1 1 1 1 1 -1 -1\n".toList
private noncomputable def ptU : Pt ℝ := ⟨0, 1, 1, 1, 1, 1, 1, 1, 1, 1, 1, 1⟩
private noncomputable def ptL : Pt ℝ := ⟨1, 1, -1, -1, 1, 1, 1, 1, 1, 1, -1, -1⟩

private theorem rowU_mk (hinf : InfAdm ℝ) : Pt.mk' exFloat rowU = .ok ptU := by
  rw [mk'_iff hinf exFloat _ (by decide)]
  refine ⟨?_, ?_⟩
  · rw [numbers_iff, show rowU.split = ["0".toList, "1".toList, "1".toList, "1".toList, "1".toList, "1".toList, "1".toList, "1".toList, "1".toList,
      "1".toList, "1".toList, "1".toList] by decide, mapM_some_iff]
    have h1 : exFloat "1".toList = some 1 := by simp [exFloat]
    have h0 : exFloat "0".toList = some 0 := by simp [exFloat]
    exact (.cons h0 (.cons h1 (.cons h1 (.cons h1 (.cons h1 (.cons h1 (.cons h1 (.cons h1 (.cons h1 (.cons h1 (.cons h1 (.cons h1 .nil))))))))))))
  · refine ⟨?_, ?_, ?_, ?_, ?_, ?_⟩ <;> rw [Bool.eq_false_iff] <;> simp [ptU]

private theorem rowL_mk (hinf : InfAdm ℝ) : Pt.mk' exFloat rowL = .ok ptL := by
  rw [mk'_iff hinf exFloat _ (by decide)]
  refine ⟨?_, ?_⟩
  · rw [numbers_iff, show rowL.split = ["1".toList, "1".toList, "-1".toList, "-1".toList, "1".toList, "1".toList, "1".toList, "1".toList, "1".toList,
      "1".toList, "-1".toList, "-1".toList] by decide, mapM_some_iff]
    have h1 : exFloat "1".toList = some 1 := by simp [exFloat]
    have hm : exFloat "-1".toList = some (-1) := by simp [exFloat]
    exact (.cons h1 (.cons h1 (.cons hm (.cons hm (.cons h1 (.cons h1 (.cons h1 (.cons h1 (.cons h1 (.cons h1 (.cons hm (.cons hm .nil))))))))))))
  · refine ⟨?_, ?_, ?_, ?_, ?_, ?_⟩ <;> rw [Bool.eq_false_iff] <;> simp [ptL]

example (hinf : InfAdm ℝ) : CleanDump exFloat (rowU ++ rowL) [] [] ptU ptL where
  rows := by
    refine ⟨[rowU, rowL], [], [], ?_, .cons (rowU_mk hinf) (.cons (rowL_mk hinf) .nil), .nil, by simp⟩
    rw [show readlines (rowU ++ rowL) = [rowU, rowL] by decide]
    refine ⟨⟨[], by simp, .inl ⟨rfl, ?_⟩⟩, by simp, by simp, fun _ => .inr ⟨_, rfl, by decide⟩⟩
    rintro l ⟨⟩
    decide
  before := by simp [ptU]
  after := by simp [ptL]
  arc := by simp [ptU, ptL]

example : ([] ++ ptU :: ptL :: []).reverse.map (Pt.mirror 1) = [] ++ ptU :: ptL :: [] := by
  simp [Pt.mirror, ptU, ptL]

end real
end IBL.XFoil
