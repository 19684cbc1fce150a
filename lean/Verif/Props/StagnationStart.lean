import Verif.Props.TableFlow
import Verif.Props.XFoilTable

/-!
C112: starting a layer at the stagnation point of a table of velocities, with the stagnation condition of the similarity solution. The slope
that scipy's interpolator gives at the first point decides whether this works.
-/

namespace IBL
open PPoly

/-- A table that starts with velocity zero and has positive velocities from there on. -/
structure StagTable (x0 : ℝ) (rest : List (ℝ × ℝ)) : Prop where
  table : Table ((x0, 0) :: rest)
  positive : ∀ p ∈ rest, 0 < p.2

/-- The slope at zero of the parabola through the origin, `(s, u)` and `(s', u')`. -/
noncomputable def parabolaSlope (s u s' u' : ℝ) : ℝ := (u * s' ^ 2 - u' * s ^ 2) / (s * s' * (s' - s))

/-- It is that slope. -/
theorem parabolaSlope_spec {s u s' u' : ℝ} (hs : s ≠ 0) (hs' : s' ≠ 0) (hd : s' ≠ s) :
    ∃ k, parabolaSlope s u s' u' * s + k * s ^ 2 = u ∧ parabolaSlope s u s' u' * s' + k * s' ^ 2 = u' := by
  have : s' - s ≠ 0 := sub_ne_zero.2 hd
  refine ⟨(u' * s - u * s') / (s * s' * (s' - s)), ?_, ?_⟩ <;> (rw [parabolaSlope]; field_simp; ring)

private theorem sign_real (v : ℝ) : Pchip.sign v = if 0 < v then 1 else if v < 0 then -1 else v := by
  simp [Pchip.sign, PyCmp.gt]

private theorem signsDiffer_pos {a b : ℝ} (hb : 0 < b) : Pchip.signsDiffer a b = true ↔ a ≤ 0 := by
  rw [Pchip.signsDiffer, sign_real, sign_real, if_pos hb]
  simp only [Bool.not_eq_true', Bool.eq_false_iff, ne_eq, real_eq]
  split_ifs with h1 h2
  · simp [h1]
  · simp only [not_lt] at h1; constructor
    · exact fun _ => h1
    · intro _; norm_num
  · simp only [not_lt] at h1 h2
    exact ⟨fun _ => h1, fun _ => by linarith⟩

private theorem signsDiffer_pos' {a b : ℝ} (ha : 0 < a) : Pchip.signsDiffer a b = true ↔ b ≤ 0 := by
  rw [← signsDiffer_pos ha]
  simp only [Pchip.signsDiffer, Bool.not_eq_true', Bool.eq_false_iff, ne_eq, real_eq]
  exact not_congr eq_comm

/-- The end slope, for a rising first segment. -/
private theorem edgeCase_rising {h0 h1 m0 m1 : ℝ} (hh0 : 0 < h0) (hh1 : 0 < h1) (hm : 0 < m0) :
    Pchip.edgeCase h0 h1 m0 m1 = max 0 (min (((2 * h0 + h1) * m0 - h0 * m1) / (h0 + h1)) (3 * m0)) := by
  have e : (lit 2 : ℝ) = 2 := by simp
  have e3 : (lit 3 : ℝ) = 3 := by simp
  have e0 : (lit 0 : ℝ) = 0 := by simp
  simp only [Pchip.edgeCase, e, e3, e0]
  set d := ((2 * h0 + h1) * m0 - h0 * m1) / (h0 + h1) with hd
  by_cases h1' : d ≤ 0
  · rw [if_pos ((signsDiffer_pos hm).2 h1'), max_eq_left ((min_le_left _ _).trans h1')]
  · rw [if_neg (by rw [signsDiffer_pos hm]; exact h1')]
    rw [not_le] at h1'
    have ha : PyCmp.abs d = d := by simp [abs_of_pos h1']
    have hb : PyCmp.abs m0 = m0 := by simp [abs_of_pos hm]
    rw [ha, hb, max_eq_right (le_min h1'.le (by linarith))]
    by_cases h2 : m1 ≤ 0
    · have := (signsDiffer_pos' hm).2 h2
      rw [this, Bool.true_and]
      by_cases h3 : 3 * m0 < d
      · rw [if_pos (by simpa [PyCmp.gt] using h3), min_eq_right h3.le]
      · rw [if_neg (by simpa [PyCmp.gt] using h3), min_eq_left (not_lt.1 h3)]
    · have : Pchip.signsDiffer m0 m1 = false := by
        rw [Bool.eq_false_iff, Ne, signsDiffer_pos' hm]; exact h2
      rw [this, Bool.false_and, if_neg (by simp), min_eq_left]
      rw [not_le] at h2
      rw [hd, div_le_iff₀ (by linarith)]
      nlinarith [mul_pos hh0 h2, mul_pos hh0 hm, mul_pos hh1 hm]

/-- The slope of the interpolant at the first point is that of the first knot. -/
private theorem first_slope {pts : List (ℝ × ℝ)} (h : Table pts) {k k' : Pchip.Knot ℝ} {rest : List (Pchip.Knot ℝ)}
    (hk : Pchip.knots pts = k :: k' :: rest) : eval (PPoly.deriv (Pchip.pieces (Pchip.knots pts))) k.x = k.d := by
  have hA := Pchip.knots_ascending h.ascending
  have hg' : PPoly.deriv (Pchip.pieces (Pchip.knots pts)) =
      Pchip.gluedBy (fun a b => polyDer (Pchip.hermite a b).2) (Pchip.knots pts) := by rw [Pchip.pieces_glued, Pchip.deriv_glued]
  have hin : [k, k'] <:+: Pchip.knots pts := by rw [hk]; exact ⟨[], rest, rfl⟩
  have hlt : k.x < k'.x := Pchip.chain_infix hA hin
  rw [hg', Pchip.glued_eval (V := Pchip.Knot.d) Pchip.hermite_deriv_left (fun a b => Pchip.hermite_deriv_right) hA hin ⟨le_rfl, hlt.le⟩, sub_self,
    Pchip.hermite_deriv_left]

/-- The slope at the stagnation point: of the straight line if there is one more point, otherwise of the parabola through the first three
points, but at least zero and at most three times that of the first segment. -/
noncomputable def stagSlope (x0 : ℝ) : List (ℝ × ℝ) → ℝ
  | [] => 0
  | [p] => p.2 / (p.1 - x0)
  | p :: q :: _ => max 0 (min (parabolaSlope (p.1 - x0) p.2 (q.1 - x0) q.2) (3 * (p.2 / (p.1 - x0))))

private theorem pieces_stagSlope {x0 : ℝ} {rest : List (ℝ × ℝ)} (S : StagTable x0 rest) :
    eval (PPoly.deriv (Pchip.pieces (Pchip.knots ((x0, 0) :: rest)))) x0 = stagSlope x0 rest := by
  have hasc := S.table.ascending
  rcases rest with _ | ⟨p, _ | ⟨q, rest⟩⟩
  · have := S.table.long; simp at this
  · rw [show x0 = (⟨x0, 0, Pchip.chord (x0, 0) p⟩ : Pchip.Knot ℝ).x from rfl]
    refine (first_slope S.table (k := ⟨x0, 0, Pchip.chord (x0, 0) p⟩) rfl).trans ?_
    simp [Pchip.chord, stagSlope]
  · rw [List.isChain_cons_cons, List.isChain_cons_cons] at hasc
    have h1 : 0 < p.1 - x0 := sub_pos.2 hasc.1
    have h2 : 0 < q.1 - p.1 := sub_pos.2 hasc.2.1
    have hp := S.positive p (by simp)
    refine (first_slope S.table (k := ⟨x0, 0, Pchip.edgeCase (Pchip.len (x0, 0) p) (Pchip.len p q) (Pchip.chord (x0, 0) p) (Pchip.chord p q)⟩) rfl).trans ?_
    have hm : 0 < Pchip.chord (x0, 0) p := by simpa [Pchip.chord] using div_pos hp h1
    show Pchip.edgeCase _ _ _ _ = _
    rw [edgeCase_rising (h0 := Pchip.len (x0, 0) p) (h1 := Pchip.len p q) h1 h2 hm, stagSlope]
    have h3 : 0 < q.1 - x0 := by linarith
    congr 2
    · have := h1.ne'
      have := h2.ne'
      have := h3.ne'
      have h4 : q.1 - x0 - (p.1 - x0) ≠ 0 := by rw [sub_sub_sub_cancel_right]; exact h2.ne'
      have h5 : p.1 - x0 + (q.1 - p.1) ≠ 0 := by rw [show p.1 - x0 + (q.1 - p.1) = q.1 - x0 by ring]; exact h3.ne'
      simp only [Pchip.len, Pchip.chord, parabolaSlope, sub_zero]
      field_simp
      ring
    · simp [Pchip.chord]

/-- The slope at the stagnation point is positive exactly if the second velocity is below the parabola through the origin and the first. -/
theorem stagSlope_pos_iff {x0 : ℝ} {rest : List (ℝ × ℝ)} (S : StagTable x0 rest) :
    (0 ≤ stagSlope x0 rest) ∧ (0 < stagSlope x0 rest ↔ ∀ p q l, rest = p :: q :: l → q.2 * (p.1 - x0) ^ 2 < p.2 * (q.1 - x0) ^ 2) := by
  have hasc := S.table.ascending
  rcases rest with _ | ⟨p, _ | ⟨q, rest⟩⟩
  · have := S.table.long; simp at this
  · rw [List.isChain_cons_cons] at hasc
    have : 0 < stagSlope x0 [p] := div_pos (S.positive p (by simp)) (sub_pos.2 hasc.1)
    exact ⟨this.le, fun _ p q l h => by simp at h, fun _ => this⟩
  · rw [List.isChain_cons_cons, List.isChain_cons_cons] at hasc
    have h1 : 0 < p.1 - x0 := sub_pos.2 hasc.1
    have h2 : 0 < q.1 - p.1 := sub_pos.2 hasc.2.1
    have h3 : 0 < q.1 - x0 := by linarith
    have hp := S.positive p (by simp)
    have hden : 0 < (p.1 - x0) * (q.1 - x0) * (q.1 - x0 - (p.1 - x0)) := mul_pos (mul_pos h1 h3) (by linarith)
    have hc : 0 < 3 * (p.2 / (p.1 - x0)) := by positivity
    refine ⟨le_max_left _ _, ?_⟩
    rw [stagSlope, lt_max_iff, lt_min_iff, parabolaSlope, div_pos_iff_of_pos_right hden]
    constructor
    · rintro (h | ⟨h, -⟩) p' q' l e
      · exact absurd h (lt_irrefl _)
      · obtain ⟨rfl, rfl, -⟩ : p = p' ∧ q = q' ∧ rest = l := by simpa using e
        linarith
    · intro h
      have := h p q rest rfl
      exact .inr ⟨by linarith, hc⟩

/-- **C112**: what `du_e` answers at the stagnation point of an accepted table. -/
theorem stagnation_slope (ext : Ext ℝ) (other : Pchip ℝ) (hext : ext.pchip = Pchip.interpolator other) (o : Obj ℝ) {x0 : ℝ}
    {rest : List (ℝ × ℝ)} (S : StagTable x0 rest) (a b : Arg ℝ) :
    ∃ o', o.setVelocity ext (tableArg ((x0, 0) :: rest)) a b = (o', .ok ()) ∧ o' = { o with vel := o'.vel } ∧ o'.vel.uE x0 = .ok 0 ∧
      o'.vel.duE x0 = .ok (stagSlope x0 rest) := by
  obtain ⟨o', u, du, d2u, e, ho, hq, M⟩ := table_velocity ext other hext o _ S.table a b
  refine ⟨o', e, ho, ?_, ?_⟩
  · rw [(hq x0).1, M.through (x0, 0) (by simp)]
  · have hi := interpolator_table other S.table
    have hn : ¬ ((x0, 0) :: rest).length < 2 := not_lt.2 S.table.long
    rw [← pieces_stagSlope S]
    simp only [Obj.setVelocity, tableArg, setVelocity, hext, hi] at e
    simp only [vector, List.length_map, ne_eq, not_true_eq_false, if_false, hn, setVelCallable, Spline.toCallable] at e
    rw [← (Prod.mk.inj e).1]
    simp [VelState.duE, VelState.rawDu, callOpt, Vel.call, toSpline]

/-- The start vector of an integration is that of the stagnation point similarity solution (`f''(0)` = 1.23259, momentum thickness 0.29235
in similarity units, shape factor 2.2162) for the velocity slope `k`: for Head's method thickness and shape factor, for Thwaites' methods the
squared thickness over the viscosity. -/
def SimilarityStart (cls : Cls) (nu k : ℝ) (y0 : List ℝ) : Prop :=
  ∃ m, 0 < m ∧ m ^ 2 * (4.2162 * k) = nu * (0.29235 * 1.23259) ∧ y0 = match cls with
    | .head => [m, 2.2162]
    | _ => [m ^ 2 / nu]

/-- The full claim: at the stagnation point of every table the stagnation condition gives the start of the layer. -/
def StagnationStarts [PySpecial ℝ] (ext : Ext ℝ) : Prop :=
  ∀ (o : Obj ℝ) (x0 : ℝ) (rest : List (ℝ × ℝ)) (d n : ℝ) (xe : ℝ), StagTable x0 rest → 0 < o.nu → o.ic = .stag d n →
    ∃ o' p, o.setVelocity ext (tableArg ((x0, 0) :: rest)) .none .none = (o', .ok ()) ∧ (o'.prepare x0 xe .none).2 = .ok p ∧
      ∃ k > 0, o'.vel.duE x0 = .ok k ∧ SimilarityStart o.cls o.nu k p.y0

private theorem prepare_stag {o : Obj ℝ} {d n x0 k : ℝ} (hnu : 0 < o.nu) (hic : o.ic = .stag d n) (hk : o.vel.duE x0 = .ok k) (xe : ℝ) (te : TermArg ℝ) :
    (k = 0 → (o.prepare x0 xe te).2 = .error .zeroDivision) ∧
    (0 < k → ∃ p, (o.prepare x0 xe te).2 = .ok p ∧ p.x0 = x0 ∧ p.x1 = xe ∧ p.events = o.events ++ te.toList ∧ SimilarityStart o.cls o.nu k p.y0) := by
  have hnle : PyCmp.le o.nu (lit 0) = false := by rw [Bool.eq_false_iff]; simpa using hnu
  have hH : (IC.stagShapeD : ℝ) = 2.2162 := by simp only [IC.stagShapeD, real_lit]; norm_num
  have hE : (IC.stagEtaM : ℝ) = 0.29235 := by simp only [IC.stagEtaM, real_lit]; norm_num
  have hF : (IC.stagFpp0 : ℝ) = 1.23259 := by simp only [IC.stagFpp0, real_lit]; norm_num
  have h2 : (lit 2 : ℝ) = 2 := by simp
  constructor
  · rintro rfl
    have hz : pyDiv (o.nu * (0.29235 : ℝ) * 1.23259) ((2.2162 + 2) * 0) = .error .zeroDivision := by simp [pyDiv]
    unfold Obj.prepare
    simp only [hic, IC.setNu, hnle, Bool.false_eq_true, if_false, hk, IC.setDu, Obj.startVector, IC.deltaM, hH, hE, hF, h2, hz, bind, Except.bind]
    split <;> rename_i h
    · split at h <;> simp_all
    · split at h <;> simp_all
  · intro hk0
    have hne : ((2.2162 : ℝ) + 2) * k ≠ 0 := by positivity
    have hz : pyDiv (o.nu * (0.29235 : ℝ) * 1.23259) ((2.2162 + 2) * k) = .ok (o.nu * 0.29235 * 1.23259 / ((2.2162 + 2) * k)) := by
      simp [pyDiv, hk0.ne']; norm_num
    have hzn : ∀ v : ℝ, pyDiv v o.nu = .ok (v / o.nu) := fun v => by simp [pyDiv, hnu.ne']
    set m := Real.sqrt (o.nu * 0.29235 * 1.23259 / ((2.2162 + 2) * k)) with hm
    have hq : 0 < o.nu * 0.29235 * 1.23259 / ((2.2162 + 2) * k) := by positivity
    have hm0 : 0 < m := Real.sqrt_pos.2 hq
    have hm2 : m ^ 2 * (4.2162 * k) = o.nu * (0.29235 * 1.23259) := by
      rw [hm, Real.sq_sqrt hq.le]
      field_simp
      norm_num
    have hsq : PySqrt.sqrt (o.nu * 0.29235 * 1.23259 / ((2.2162 + 2) * k)) = m := rfl
    unfold Obj.prepare
    rcases o with ⟨cls, nu, vel, ic, ev, fits, sol⟩
    simp only at hnle hic hk hz hzn hsq hm2 hm ⊢
    cases cls <;>
    · simp only [hic, IC.setNu, hnle, Bool.false_eq_true, if_false, hk, IC.setDu, Obj.startVector, IC.deltaM, IC.shapeD, hH, hE, hF, h2, hz, hzn, hsq, bind, Except.bind,
        pure, Except.pure]
      refine ⟨_, rfl, rfl, rfl, rfl, m, hm0, hm2, ?_⟩
      simp [pow_two]

/-- **C112** where it holds: the layer starts from the stagnation point similarity solution exactly if the second velocity of the table is below
the parabola through the stagnation point and the first velocity; otherwise `du_e` is zero there and starting raises ZeroDivisionError
(missing: those tables). -/
theorem stagnation_start_partial [PySpecial ℝ] (ext : Ext ℝ) (other : Pchip ℝ) (hext : ext.pchip = Pchip.interpolator other) (o : Obj ℝ) {x0 : ℝ}
    {rest : List (ℝ × ℝ)} (S : StagTable x0 rest) (a b : Arg ℝ) (hnu : 0 < o.nu) {d n : ℝ} (hic : o.ic = .stag d n) :
    ∃ o' k, o.setVelocity ext (tableArg ((x0, 0) :: rest)) a b = (o', .ok ()) ∧ o'.vel.uE x0 = .ok 0 ∧ o'.vel.duE x0 = .ok k ∧ 0 ≤ k ∧
      (0 < k ↔ ∀ p q l, rest = p :: q :: l → q.2 * (p.1 - x0) ^ 2 < p.2 * (q.1 - x0) ^ 2) ∧ ∀ xe te,
      (k = 0 → (o'.prepare x0 xe te).2 = .error .zeroDivision ∧ ∀ ivp, (o'.solve x0 xe te ivp).2 = .error .zeroDivision) ∧
      (0 < k → ∃ p, (o'.prepare x0 xe te).2 = .ok p ∧ p.x0 = x0 ∧ p.x1 = xe ∧ SimilarityStart o.cls o.nu k p.y0) := by
  obtain ⟨o', e, ho, hu, hdu⟩ := stagnation_slope ext other hext o S a b
  obtain ⟨h1, h2⟩ := stagSlope_pos_iff S
  have hnu' : 0 < o'.nu := by rw [ho]; exact hnu
  have hic' : o'.ic = .stag d n := by rw [ho]; exact hic
  refine ⟨o', _, e, hu, hdu, h1, h2, fun xe te => ⟨fun h => ?_, fun h => ?_⟩⟩
  · have hp := (prepare_stag hnu' hic' hdu xe te).1 h
    refine ⟨hp, fun ivp => ?_⟩
    rw [Obj.solve]
    rcases hq : o'.prepare x0 xe te with ⟨o2, e | p⟩
    · rw [hq] at hp
      cases Except.error.inj hp
      rfl
    · rw [hq] at hp
      cases hp
  · obtain ⟨p, hp, hx0, hx1, -, hs⟩ := (prepare_stag hnu' hic' hdu xe te).2 h
    refine ⟨p, hp, hx0, hx1, ?_⟩
    rw [ho] at hs
    exact hs

/-- A table that rises too late: the velocities 1 and 5 at the distances 1 and 2. -/
theorem lateTable : StagTable 0 [(1, 1), (2, 5)] := by
  refine ⟨⟨by simp, by simp⟩, ?_⟩
  simp

/-- The full claim is false. -/
theorem stagnation_start_fails [PySpecial ℝ] (ext : Ext ℝ) (other : Pchip ℝ) (hext : ext.pchip = Pchip.interpolator other) : ¬ StagnationStarts ext := by
  intro h
  obtain ⟨o', p, e, -, k, hk, hd, -⟩ := h ⟨.thwaitesLinear, 1, VelState.empty, .stag 0 1, [], none, none⟩ 0 [(1, 1), (2, 5)] 0 1 1 lateTable one_pos rfl
  obtain ⟨o2, k2, e2, -, hd2, -, h2, -⟩ := stagnation_start_partial ext other hext ⟨.thwaitesLinear, 1, VelState.empty, .stag 0 1, [], none, none⟩ lateTable .none .none
    one_pos rfl
  rw [e] at e2
  obtain rfl := (Prod.mk.inj e2).1
  rw [hd] at hd2
  obtain rfl := Except.ok.inj hd2
  have := h2.1 hk (1, 1) (2, 5) [] rfl
  norm_num at this

/-- A table that starts as it should: velocities that rise less and less, as on the nose of an airfoil. -/
example : StagTable 0 [(1, 1), (2, 1.5), (3, 1.6)] ∧ ∀ p q l, [(1, 1), (2, 1.5), (3, 1.6)] = p :: q :: l → q.2 * (p.1 - 0) ^ 2 < p.2 * (q.1 - 0 : ℝ) ^ 2 := by
  refine ⟨⟨⟨by simp, by norm_num [List.isChain_cons_cons]⟩, by norm_num⟩, fun p q l h => ?_⟩
  obtain ⟨rfl, rfl, -⟩ : (1, 1) = p ∧ (2, 1.5) = q ∧ [(3, 1.6)] = l := by simpa using h
  norm_num

namespace XFoil

/-- **C112** for an XFoil dump: the arrays of either surface of a clean dump are such a table. -/
theorem dump_stagnation_table [PySpecial ℝ] (hinf : InfAdm ℝ) (fl : Floats ℝ) (fs : Files) (name content : Text) (us ls : List (Pt ℝ)) (a b : Pt ℝ)
    (hn : name ≠ []) (hc : fs name = .ok content) (C : CleanDump fl content us ls a b) (v : ℝ) (hv : 0 < v) :
    ∃ r r' : Reader ℝ, Reader.load fl fs name = (r, .ok ()) ∧ r.step fl (.setURef v) = (r', .ok ()) ∧
      ∀ sf, sf ≠ .wake → SurfaceTable r' sf ((0, 0) :: passed v us ls a b sf) ∧ StagTable 0 (passed v us ls a b sf) := by
  obtain ⟨r, r', hr, hset, h⟩ := clean_tables hinf fl fs name content us ls a b hn hc C v hv
  exact ⟨r, r', hr, hset, fun sf hsf => ⟨(h sf hsf).1, (h sf hsf).2.1, (h sf hsf).2.2⟩⟩

end XFoil
end IBL
