import Verif.Props.XFoilStagnation
import Verif.Props.XFoilExamples
import Verif.Props.TableFlow

/-! C102: from an XFoil dump to the layer. The edge velocities of a surface as a velocity table. -/

namespace IBL.XFoil
open Spec PPoly
section real
variable [PySpecial ℝ]

/-- A dump with a positive velocity in every row before the stagnation point and a negative one in every row after it, and with increasing arc length. -/
structure CleanDump (fl : Floats ℝ) (content : Text) (us ls : List (Pt ℝ)) (a b : Pt ℝ) : Prop where
  rows : ∃ air wk ws, Sections (readlines content) air wk ∧ Rows fl air (us ++ a :: b :: ls) ∧ WakeRows fl wk ws ∧
    (ws.map Wake.s).Pairwise (· ≤ ·)
  before : ∀ p ∈ us ++ [a], 0 < p.u
  after : ∀ p ∈ b :: ls, p.u < 0
  arc : ((us ++ a :: b :: ls).map Pt.s).Pairwise (· < ·)

/-- The arc length at which the straight line through the velocities of two rows is zero. -/
noncomputable def zeroS (a b : Pt ℝ) : ℝ := a.s + (b.s - a.s) * (a.u / (a.u - b.u))

/-- Distance from the stagnation point and speed, for the rows of one surface in the order in which the flow passes them. -/
noncomputable def passed (v : ℝ) (us ls : List (Pt ℝ)) (a b : Pt ℝ) : Surface → List (ℝ × ℝ)
  | .upper => (a :: us.reverse).map fun q => (zeroS a b - q.s, v * q.u)
  | .lower => (b :: ls).map fun q => (q.s - zeroS a b, v * -q.u)
  | .wake => []

private theorem surface_eq (r : Reader ℝ) (pts : List (Pt ℝ)) : r.surface pts .s = pts.map Pt.s ∧ r.surface pts .uE = pts.map (r.uRef * ·.u) := by
  constructor <;> simp [Reader.surface, gather_eq]

/-- What the reader holds after a clean dump was read. -/
theorem clean_points {fl : Floats ℝ} {fs : Files} {name content : Text} {us ls : List (Pt ℝ)} {a b : Pt ℝ} (hn : name ≠ [])
    (hc : fs name = .ok content) (C : CleanDump fl content us ls a b) {r : Reader ℝ} (h : Reader.load fl fs name = (r, .ok ())) :
    ∃ p : Pt ℝ, p = interpolated a b.flip (a.u / (a.u - b.u)) ∧ Between (a.u / (a.u - b.u)) a b p ∧ p.u = 0 ∧ p.s = zeroS a b ∧ a.s < p.s ∧ p.s < b.s ∧
      r.upperPts = (p :: a :: us.reverse).map (Pt.at (p.s - ·)) ∧ r.lowerPts = (p :: (b :: ls).map Pt.flip).map (Pt.at (· - p.s)) := by
  obtain ⟨air, wk, ws, hs, hrows, -, -⟩ := C.rows
  obtain ⟨content', air', wk', us', ls', ws', hc', hld⟩ := load_ok fl fs name hn r h
  rw [hc] at hc'
  cases hc'
  have hsec : (air, wk) = (air', wk') := by
    have h1 := dumpData_sections _ _ _ hs
    rw [dumpData_sections _ _ _ hld.sections] at h1
    exact (Except.ok.inj h1).symm
  obtain ⟨rfl, rfl⟩ := Prod.mk.inj hsec
  have hab : a.s < b.s := by
    have := C.arc
    rw [List.pairwise_map, List.pairwise_append] at this
    exact (List.pairwise_cons.1 this.2.1).1 b (by simp)
  have hsplit : us' = us ++ [a] ∧ ls' = b :: ls := by
    cases hld.divided with
    | none a' hga hls hrows' hu =>
      exfalso
      have e := rows_functional hrows hrows'
      have := lt_false.1 (hu b (by rw [← e]; simp))
      rw [real_lit, Rat.cast_zero] at this
      linarith [C.after b (by simp)]
    | «at» b' lr hls hrows' hu hb =>
      have e := rows_functional hrows hrows'
      have hu' : ∀ p ∈ us', 0 ≤ p.u := fun p hp => by
        have := lt_false.1 (hu p hp)
        rwa [real_lit, Rat.cast_zero] at this
      have hb' : b'.u < 0 := by simpa using hb
      rw [hls, show us ++ a :: b :: ls = (us ++ [a]) ++ b :: ls by simp] at e
      rcases List.append_eq_append_iff.1 e with ⟨x, h1, h2⟩ | ⟨x, h1, h2⟩
      · cases x with
        | nil => simp only [List.append_nil, List.nil_append] at h1 h2; exact ⟨h1, by rw [hls, h2]⟩
        | cons y x =>
          exfalso
          rw [List.cons_append] at h2
          obtain ⟨rfl, -⟩ := List.cons.inj h2
          have := hu' b (by rw [h1]; simp)
          linarith [C.after b (by simp)]
      · cases x with
        | nil => simp only [List.append_nil, List.nil_append] at h1 h2; exact ⟨h1.symm, by rw [hls, h2]⟩
        | cons y x =>
          exfalso
          rw [List.cons_append] at h2
          obtain ⟨rfl, -⟩ := List.cons.inj h2
          have := C.before b' (by rw [h1]; simp)
          linarith
  obtain ⟨rfl, rfl⟩ := hsplit
  have ha0 : 0 < a.u := C.before a (by simp)
  have hb0 : b.u < 0 := C.after b (by simp)
  cases hld.placed with
  | shared a' rest hus h0 hup hlo cu ca cl =>
    exfalso
    simp only [List.reverse_append, List.reverse_singleton, List.singleton_append] at hus
    obtain ⟨rfl, -⟩ := List.cons.inj hus
    have : a.u = 0 := by simpa using h0
    linarith
  | between a' b' ru rl hus hls h0 frac hf p0 p hp0 hp hup hlo cu cl =>
    simp only [List.reverse_append, List.reverse_singleton, List.singleton_append] at hus
    obtain ⟨rfl, rfl⟩ := List.cons.inj hus
    obtain ⟨rfl, rfl⟩ := List.cons.inj hls
    rw [frac_real ha0 hb0] at hf
    cases Except.ok.inj hf
    obtain ⟨k1, k2, k3, k4, k5⟩ := interpolated_between ha0 hb0
    have hpe := interpolate_ok _ _ _ _ _ hp
    rw [← hpe] at k1 k3
    refine ⟨p, hpe, k1, k3, by rw [k1.s, zeroS]; ring, ?_, ?_, by rw [hup]; simp, hlo⟩
    · rw [k1.s]; nlinarith
    · rw [k1.s]; nlinarith

theorem clean_surfaces {fl : Floats ℝ} {fs : Files} {name content : Text} {us ls : List (Pt ℝ)} {a b : Pt ℝ} (hn : name ≠ [])
    (hc : fs name = .ok content) (C : CleanDump fl content us ls a b) {r : Reader ℝ} (h : Reader.load fl fs name = (r, .ok ())) :
    ∃ p : Pt ℝ, Between (a.u / (a.u - b.u)) a b p ∧ p.u = 0 ∧ p.s = zeroS a b ∧ a.s < p.s ∧ p.s < b.s ∧ r.upperPts = (p :: a :: us.reverse).map (Pt.at (p.s - ·)) ∧
      r.lowerPts = (p :: (b :: ls).map Pt.flip).map (Pt.at (· - p.s)) :=
  let ⟨p, _, hp⟩ := clean_points hn hc C h
  ⟨p, hp⟩

/-- The two arrays `s` and `u_e` of a surface as a table. -/
def SurfaceTable (r : Reader ℝ) (sf : Surface) (pts : List (ℝ × ℝ)) : Prop :=
  r.array .s sf = some (pts.map Prod.fst) ∧ r.array .uE sf = some (pts.map Prod.snd)

/-- **C102**: a clean dump is read, and for any reference velocity the arrays of both surfaces are tables that begin with velocity zero at
arc length zero and have positive velocities from there on. -/
theorem clean_tables (hinf : InfAdm ℝ) (fl : Floats ℝ) (fs : Files) (name content : Text) (us ls : List (Pt ℝ)) (a b : Pt ℝ) (hn : name ≠ [])
    (hc : fs name = .ok content) (C : CleanDump fl content us ls a b) (v : ℝ) (hv : 0 < v) :
    ∃ r r' : Reader ℝ, Reader.load fl fs name = (r, .ok ()) ∧ r.step fl (.setURef v) = (r', .ok ()) ∧
      ∀ sf, sf ≠ .wake → SurfaceTable r' sf ((0, 0) :: passed v us ls a b sf) ∧ Table ((0, 0) :: passed v us ls a b sf) ∧
        ∀ p ∈ passed v us ls a b sf, 0 < p.2 := by
  obtain ⟨air, wk, ws, hs, hrows, hw, hwm⟩ := C.rows
  obtain ⟨r, hr⟩ := wellformed_read hinf fl fs name content hn hc air wk hs us ls a b ws hrows hw
    (fun p hp => (C.before p (by simp [hp])).le) (C.before a (by simp)) (C.after b (by simp)) (C.arc.imp fun h => h.le) hwm
  obtain ⟨p, -, hp0, hps, hap, hpb, hup, hlo⟩ := clean_surfaces hn hc C hr
  have hset : r.step fl (.setURef v) = ({ r with uRef := v }, .ok ()) := by
    simp [Reader.step, hv]
  have harc := C.arc
  rw [show us ++ a :: b :: ls = (us ++ [a]) ++ (b :: ls) by simp, List.map_append, List.pairwise_append] at harc
  obtain ⟨m1, m2, -⟩ := harc
  refine ⟨r, _, hr, hset, fun sf hsf => ?_⟩
  cases sf with
  | wake => exact absurd rfl hsf
  | upper =>
    simp only [passed, ← hps]
    refine ⟨⟨?_, ?_⟩, ⟨by simp, ?_⟩, ?_⟩
    · show some _ = _
      rw [(surface_eq _ _).1]
      show some (r.upperPts.map Pt.s) = _
      rw [hup]
      simp [Pt.at, Function.comp_def]
    · show some _ = _
      rw [(surface_eq _ _).2]
      show some (r.upperPts.map (v * ·.u)) = _
      rw [hup]
      simp [Pt.at, Function.comp_def, hp0]
    · refine List.Pairwise.isChain (List.pairwise_cons.2 ⟨fun q hq => ?_, ?_⟩)
      · obtain ⟨k, hk, rfl⟩ := List.mem_map.1 hq
        rcases List.mem_cons.1 hk with rfl | hk
        · exact sub_pos.2 hap
        · rw [List.map_append, List.pairwise_append] at m1
          exact sub_pos.2 ((m1.2.2 k.s (List.mem_map_of_mem (List.mem_reverse.1 hk)) a.s (by simp)).trans hap)
      · rw [show a :: us.reverse = (us ++ [a]).reverse by simp, List.pairwise_map, List.pairwise_reverse]
        exact (List.pairwise_map.1 m1).imp fun h => by simpa using h
    · intro q hq
      obtain ⟨k, hk, rfl⟩ := List.mem_map.1 hq
      refine mul_pos hv (C.before k ?_)
      simp only [List.mem_cons, List.mem_reverse] at hk
      simp only [List.mem_append, List.mem_singleton]
      tauto
  | lower =>
    simp only [passed, ← hps]
    refine ⟨⟨?_, ?_⟩, ⟨by simp, ?_⟩, ?_⟩
    · show some _ = _
      rw [(surface_eq _ _).1]
      show some (r.lowerPts.map Pt.s) = _
      rw [hlo]
      simp [Pt.at, Pt.flip, Function.comp_def]
    · show some _ = _
      rw [(surface_eq _ _).2]
      show some (r.lowerPts.map (v * ·.u)) = _
      rw [hlo]
      simp [Pt.at, Pt.flip, Function.comp_def, hp0]
    · refine List.Pairwise.isChain (List.pairwise_cons.2 ⟨fun q hq => ?_, ?_⟩)
      · obtain ⟨k, hk, rfl⟩ := List.mem_map.1 hq
        rcases List.mem_cons.1 hk with rfl | hk
        · exact sub_pos.2 hpb
        · rw [List.map_cons, List.pairwise_cons] at m2
          exact sub_pos.2 (hpb.trans (m2.1 k.s (List.mem_map_of_mem hk)))
      · rw [List.pairwise_map]
        exact (List.pairwise_map.1 m2).imp fun h => by simpa using h
    · intro q hq
      obtain ⟨k, hk, rfl⟩ := List.mem_map.1 hq
      exact mul_pos hv (by linarith [C.after k hk])

/-- **C102**: from the dump to the layer. A clean dump is read; the arrays `s` and `u_e` of either surface, for any reference velocity, are
accepted as the velocity table of any method object; `u_e` is then zero at the stagnation point, is the dumped velocity times the reference
velocity at every other row, and is nowhere negative on the surface; and for Thwaites' methods the equation over the surface, from any
positive start value, has exactly one solution. -/
theorem dump_to_layer (hinf : InfAdm ℝ) (fl : Floats ℝ) (fs : Files) (name content : Text) (us ls : List (Pt ℝ)) (a b : Pt ℝ) (hn : name ≠ [])
    (hc : fs name = .ok content) (C : CleanDump fl content us ls a b) (v : ℝ) (hv : 0 < v) (ext : Ext ℝ) (other : Pchip ℝ)
    (hext : ext.pchip = Pchip.interpolator other) (y z : Arg ℝ) :
    ∃ r r' : Reader ℝ, Reader.load fl fs name = (r, .ok ()) ∧ r.step fl (.setURef v) = (r', .ok ()) ∧
      ∀ sf, sf ≠ .wake → ∃ S U : List ℝ, r'.array .s sf = some S ∧ r'.array .uE sf = some U ∧
        ∀ o : Obj ℝ, ∃ o', o.setVelocity ext (.pair (vector S) (vector U)) y z = (o', .ok ()) ∧
          o'.vel.uE 0 = .ok 0 ∧ (∀ q ∈ passed v us ls a b sf, o'.vel.uE q.1 = .ok q.2) ∧
          (∀ x, 0 ≤ x → x ≤ S.getLastD 0 → ∃ w, o'.vel.uE x = .ok w ∧ 0 ≤ w) ∧
          ∀ m, 0 < o.nu → o.fits = some m → o.cls = .thwaitesLinear ∨ o.cls = .thwaitesNonlinear ∧ TameFit m → ∀ F0 : ℝ, 0 < F0 →
            ∃ F : ℝ → ℝ, F 0 = F0 ∧ (∀ x ∈ Set.Icc 0 (S.getLastD 0), SatisfiesOde o' F x ∧ 0 < F x) ∧
              ∀ G : ℝ → ℝ, G 0 = F0 → (∀ x ∈ Set.Icc 0 (S.getLastD 0), SatisfiesOde o' G x) → ∀ x ∈ Set.Icc 0 (S.getLastD 0), G x = F x := by
  obtain ⟨r, r', hr, hset, hsf⟩ := clean_tables hinf fl fs name content us ls a b hn hc C v hv
  refine ⟨r, r', hr, hset, fun sf hne => ?_⟩
  obtain ⟨⟨hS, hU⟩, T, hpos⟩ := hsf sf hne
  generalize passed v us ls a b sf = rest at hS hU T hpos ⊢
  have hfirst : firstX ((0, 0) :: rest) = 0 := by simp [firstX]
  have hpos' : ∀ q ∈ ((0, 0) :: rest : List (ℝ × ℝ)), 0 ≤ q.2 := by
    intro q hq
    rcases List.mem_cons.1 hq with rfl | hq
    · exact le_rfl
    · exact (hpos q hq).le
  have hl0 : 0 ≤ lastX ((0, 0) :: rest) := by
    obtain ⟨q, hq, e⟩ : ∃ q ∈ ((0, 0) :: rest : List (ℝ × ℝ)), q.1 = lastX ((0, 0) :: rest) := by
      refine ⟨((0, 0) :: rest : List (ℝ × ℝ)).getLast (by simp), List.getLast_mem _, ?_⟩
      rw [lastX, List.getLastD_eq_getLast?, List.getLast?_map, List.getLast?_eq_getLast_of_ne_nil (by simp)]
      rfl
    rw [← e]
    rcases List.mem_cons.1 hq with rfl | hq
    · exact le_rfl
    · haveI : Trans (fun p q : ℝ × ℝ => p.1 < q.1) (fun p q : ℝ × ℝ => p.1 < q.1) (fun p q : ℝ × ℝ => p.1 < q.1) := ⟨fun h k => lt_trans h k⟩
      have := List.isChain_iff_pairwise.1 T.ascending
      exact ((List.pairwise_cons.1 this).1 q hq).le
  refine ⟨_, _, hS, hU, fun o => ?_⟩
  obtain ⟨o', u, du, d2u, e, ho, hq, M⟩ := table_velocity ext other hext o _ T y z
  refine ⟨o', e, ?_, ?_, ?_, ?_⟩
  · rw [(hq 0).1, M.through (0, 0) (by simp)]
  · intro q hq'
    rw [(hq q.1).1, M.through q (by simp [hq'])]
  · intro x h0 h1
    exact ⟨u x, (hq x).1, (M.bounds T ⟨hfirst.trans_le h0, h1⟩).1 0 hpos'⟩
  · intro m hnu hf hcls F0 h0
    exact table_thwaites_determined ext other hext o o' _ y z m T hpos' e hnu hf hcls 0 _ F0 hfirst.le hl0 le_rfl h0

/-! A dump that meets the hypotheses: two rows, at arc length zero and one. -/

/-- A row with the arc length and velocity given. -/
def exRowS (s u : String) : Text := (s ++ " 1 1 " ++ u ++ " 1 1 1 1 1 1 1 1\n").toList
/-- Its record. -/
noncomputable def exPtS (s u : ℝ) : Pt ℝ := ⟨s, 1, 1, u, 1, 1, 1, 1, 1, 1, 1, 1⟩

private theorem exRowS_mk (hinf : InfAdm ℝ) (k w : String) (s u : ℝ) (h0 : 0 ≤ s) (hs : (exRowS k w).split = [k.toList, "1".toList, "1".toList, w.toList,
    "1".toList, "1".toList, "1".toList, "1".toList, "1".toList, "1".toList, "1".toList, "1".toList]) (hne : exRowS k w ≠ [])
    (hk : exFloat k.toList = some s) (hu : exFloat w.toList = some u) : Pt.mk' exFloat (exRowS k w) = .ok (exPtS s u) := by
  rw [mk'_iff hinf exFloat _ hne]
  refine ⟨?_, ?_⟩
  · rw [numbers_iff, hs, mapM_some_iff]
    have h1 : exFloat "1".toList = some 1 := by simp [exFloat]
    exact (.cons hk (.cons h1 (.cons h1 (.cons hu (.cons h1 (.cons h1 (.cons h1 (.cons h1 (.cons h1 (.cons h1 (.cons h1 (.cons h1 .nil))))))))))))
  · refine ⟨?_, ?_, ?_, ?_, ?_, ?_⟩ <;> rw [Bool.eq_false_iff] <;> simp [exPtS, h0]

/-- A clean dump. -/
theorem exClean (hinf : InfAdm ℝ) : CleanDump exFloat (exRowS "0" "1" ++ exRowS "1" "-1") [] [] (exPtS 0 1) (exPtS 1 (-1)) where
  rows := by
    refine ⟨[exRowS "0" "1", exRowS "1" "-1"], [], [], ?_, .cons (exRowS_mk hinf "0" "1" 0 1 le_rfl (by decide) (by decide) (by simp [exFloat]) (by simp [exFloat]))
      (.cons (exRowS_mk hinf "1" "-1" 1 (-1) zero_le_one (by decide) (by decide) (by simp [exFloat]) (by simp [exFloat])) .nil), .nil, by simp⟩
    rw [show readlines (exRowS "0" "1" ++ exRowS "1" "-1") = [exRowS "0" "1", exRowS "1" "-1"] by decide]
    refine ⟨⟨[], by simp, .inl ⟨rfl, ?_⟩⟩, by simp, by simp, fun _ => .inr ⟨_, rfl, by decide⟩⟩
    rintro l ⟨⟩
    decide
  before := by simp [exPtS]
  after := by simp [exPtS]
  arc := by simp [exPtS]

end real
end IBL.XFoil
