import Verif.Lemmas.XFoilForward
import Verif.Props.XFoilReader

/-! C43, C44, C58: the stagnation point, and which files are read. -/

set_option linter.unusedSectionVars false

namespace IBL.XFoil
open Spec

section generic
variable {α : Type} [Add α] [Sub α] [Mul α] [Div α] [Neg α] [PyLit α] [PyCmp α] [PySpecial α]

/-- The result of the interpolation. -/
def interpolated (up lo : Pt α) (frac : α) : Pt α :=
  ⟨frac * lo.s + (lit 1 - frac) * up.s, PyCmp.abs (-frac * lo.x + (lit 1 - frac) * up.x), frac * lo.y + (lit 1 - frac) * up.y,
    PyCmp.abs (-frac * lo.u + (lit 1 - frac) * up.u), frac * lo.deltaD + (lit 1 - frac) * up.deltaD, frac * lo.deltaM + (lit 1 - frac) * up.deltaM,
    frac * lo.cf + (lit 1 - frac) * up.cf, frac * lo.shapeD + (lit 1 - frac) * up.shapeD, frac * lo.shapeK + (lit 1 - frac) * up.shapeK,
    frac * lo.mom + (lit 1 - frac) * up.mom, frac * lo.mass + (lit 1 - frac) * up.mass, frac * lo.ke + (lit 1 - frac) * up.ke⟩

theorem interpolate_forward (p0 up lo : Pt α) (frac : α) (h : (interpolated up lo frac).Adm) :
    p0.sets (interpolate up lo frac) = (interpolated up lo frac, .ok ()) := by
  obtain ⟨h1, h2, h3, h4, h5, h6⟩ := h
  simp only [interpolated] at h1 h2 h3 h4 h5 h6
  simp [interpolate, Pt.sets, Pt.set, h1, h2, h3, h4, h5, h6, interpolated]

theorem interpolate_ok (p0 p up lo : Pt α) (frac : α) (h : p0.sets (interpolate up lo frac) = (p, .ok ())) : p = interpolated up lo frac := by
  have h' := h
  simp only [interpolate, Pt.sets, Pt.set] at h
  by_cases h1 : PyCmp.lt (frac * lo.s + (lit 1 - frac) * up.s) (lit 0) = true
  · simp [h1] at h
  by_cases h2 : PyCmp.lt (frac * lo.deltaD + (lit 1 - frac) * up.deltaD) (lit 0) = true
  · simp [h1, h2] at h
  by_cases h3 : PyCmp.lt (frac * lo.deltaM + (lit 1 - frac) * up.deltaM) (lit 0) = true
  · simp [h1, h2, h3] at h
  by_cases h4 : PyCmp.lt (frac * lo.cf + (lit 1 - frac) * up.cf) (lit 0) = true
  · simp [h1, h2, h3, h4] at h
  by_cases h5 : PyCmp.le (frac * lo.shapeD + (lit 1 - frac) * up.shapeD) (lit 0) = true
  · simp [h1, h2, h3, h4, h5] at h
  by_cases h6 : PyCmp.le (frac * lo.shapeK + (lit 1 - frac) * up.shapeK) (lit 0) = true
  · simp [h1, h2, h3, h4, h5, h6] at h
  rw [interpolate_forward p0 up lo frac ⟨Bool.eq_false_iff.2 h1, Bool.eq_false_iff.2 h2, Bool.eq_false_iff.2 h3, Bool.eq_false_iff.2 h4, Bool.eq_false_iff.2 h5,
    Bool.eq_false_iff.2 h6⟩] at h'
  exact (congrArg Prod.fst h').symm

/-- The division of the lines is determined. -/
theorem dumpData_sections (lines air wk : List Text) (h : Sections lines air wk) : dumpData lines = .ok (air, wk) := by
  obtain ⟨⟨hdr, hsp, hhdr⟩, hne, hw, hnw⟩ := h
  cases lines with
  | nil => exact absurd rfl hne
  | cons l t =>
    have hstart : hdr.length = if l.head? = some '#' then 1 else 0 := by
      rcases hhdr with ⟨e, h⟩ | ⟨x, e, h⟩
      · subst e; rw [if_neg (h l rfl)]; rfl
      · subst e
        simp only [List.cons_append, List.nil_append, List.cons.injEq] at hsp
        rw [hsp.1, if_pos h]; rfl
    simp only [dumpData]
    by_cases hwk : wk = []
    · have hk : ¬ (0 < List.findIdx (fun l : Text => decide (l.length < 80)) (l :: t) ∧
          List.findIdx (fun l : Text => decide (l.length < 80)) (l :: t) < (l :: t).length) := by
        rcases hnw hwk with hall | ⟨x, hx, hs⟩
        · have : List.findIdx (fun l : Text => decide (l.length < 80)) (l :: t) = (l :: t).length := by
            rw [List.findIdx_eq_length]
            intro x hx; simpa using hall x hx
          omega
        · cases hx
          rw [List.findIdx_cons]; simp [hs]
      rw [if_neg hk, ← hstart, hsp, hwk, List.append_nil, List.drop_left]
    · obtain ⟨pre, w, post, hpne, hpre, hlong, hwp, hws⟩ := hw hwk
      have hk : List.findIdx (fun l : Text => decide (l.length < 80)) (l :: t) = pre.length := by
        rw [hpre, List.findIdx_append]
        have : List.findIdx (fun l : Text => decide (l.length < 80)) pre = pre.length := by
          rw [List.findIdx_eq_length]
          intro x hx; simpa using hlong x hx
        rw [this, if_neg (lt_irrefl _), hwp, List.findIdx_cons]
        simp [hws]
      have hpos : 0 < pre.length := List.length_pos_iff.2 hpne
      have hlen : pre.length < (l :: t).length := by rw [hpre, hwp]; simp
      rw [hk, if_pos ⟨hpos, hlen⟩, ← hstart]
      have hpa : pre = hdr ++ air := by
        rw [hpre] at hsp
        exact List.append_cancel_right hsp
      congr 2
      · rw [hpre, List.take_left, hpa, List.drop_left]
      · rw [hpre, List.drop_left]

end generic

section real
variable [PySpecial ℝ]

/-- `p` lies on the straight line between `a` and `b`, at the fraction `t` from `a`, in everything except `x`. -/
structure Between (t : ℝ) (a b p : Pt ℝ) : Prop where
  s : p.s = (1 - t) * a.s + t * b.s
  y : p.y = (1 - t) * a.y + t * b.y
  u : p.u = (1 - t) * a.u + t * b.u
  deltaD : p.deltaD = (1 - t) * a.deltaD + t * b.deltaD
  deltaM : p.deltaM = (1 - t) * a.deltaM + t * b.deltaM
  cf : p.cf = (1 - t) * a.cf + t * b.cf
  shapeD : p.shapeD = (1 - t) * a.shapeD + t * b.shapeD
  shapeK : p.shapeK = (1 - t) * a.shapeK + t * b.shapeK

/-- The momentum, mass and kinetic energy defects are interpolated with those of the lower row as it is stored, with mass and kinetic energy defects
mirrored. -/
structure BetweenDefects (t : ℝ) (a b p : Pt ℝ) : Prop where
  mom : p.mom = (1 - t) * a.mom + t * b.mom
  mass : p.mass = (1 - t) * a.mass + t * -b.mass
  ke : p.ke = (1 - t) * a.ke + t * -b.ke

theorem frac_real {a b : Pt ℝ} (ha : 0 < a.u) (hb : b.u < 0) : pyDiv a.u (a.u + b.flip.u) = .ok (a.u / (a.u - b.u)) := by
  have hne : a.u - b.u ≠ 0 := by linarith
  have e : a.u + b.flip.u = a.u - b.u := by simp [Pt.flip]; ring
  rw [pyDiv, e, if_neg (by simpa using hne)]

theorem interpolated_between {a b : Pt ℝ} (ha : 0 < a.u) (hb : b.u < 0) :
    Between (a.u / (a.u - b.u)) a b (interpolated a b.flip (a.u / (a.u - b.u))) ∧
      BetweenDefects (a.u / (a.u - b.u)) a b (interpolated a b.flip (a.u / (a.u - b.u))) ∧
      (interpolated a b.flip (a.u / (a.u - b.u))).u = 0 ∧ 0 < a.u / (a.u - b.u) ∧ a.u / (a.u - b.u) < 1 := by
  have hd : 0 < a.u - b.u := by linarith
  have hu : (interpolated a b.flip (a.u / (a.u - b.u))).u = 0 := by
    simp only [interpolated, Pt.flip, real_abs, real_lit]
    push_cast
    rw [abs_eq_zero]
    field_simp
    ring
  refine ⟨⟨?_, ?_, ?_, ?_, ?_, ?_, ?_, ?_⟩, ⟨?_, ?_, ?_⟩, hu, div_pos ha hd, (div_lt_one hd).2 (by linarith)⟩
  case refine_3 => rw [hu]; field_simp; ring
  all_goals (simp only [interpolated, Pt.flip, real_lit]; push_cast; ring)

/-- C43: unless a row with zero velocity is used, the stagnation point is the first point of both surfaces, it has zero edge velocity, and everything
except `x` (see `stagnation_x_wrong`) lies between its two neighbouring rows at the same fraction. -/
theorem stagnation_partial (fl : Floats ℝ) (fs : Files) (name : Text) (hn : name ≠ []) (r : Reader ℝ) (h : Reader.load fl fs name = (r, .ok ())) :
    ∃ content air wk ps, fs name = .ok content ∧ Sections (readlines content) air wk ∧ Rows fl air ps ∧
      ((∃ a ∈ ps, a.u = 0 ∧ ∀ q, r.upperPts.head? = some q ∨ r.lowerPts.head? = some q → q.SameButS a) ∨
      ∃ us ls a b t stag, ps = us ++ a :: b :: ls ∧ 0 < a.u ∧ b.u < 0 ∧ 0 < t ∧ t < 1 ∧ Between t a b stag ∧ BetweenDefects t a b stag ∧ stag.u = 0 ∧
        r.upperPts.head? = some { stag with s := 0 } ∧ r.lowerPts.head? = some { stag with s := 0 }) := by
  obtain ⟨content, air, wk, us, ls, ws, hc, hld⟩ := load_ok fl fs name hn r h
  cases hld.placed with
  | shared a rest hus h0 hup hlo cu ca cl =>
    have hmem : a ∈ us := by rw [← List.mem_reverse, hus]; simp
    obtain ⟨ps, hrows, hps⟩ : ∃ ps, Rows fl air ps ∧ a ∈ ps := by
      cases hld.divided with
      | «at» b lr hls hrows hu hb => exact ⟨_, hrows, List.mem_append_left _ hmem⟩
      | none a' hga hls hrows hu => exact ⟨_, hrows, hmem⟩
    refine ⟨content, air, wk, ps, hc, hld.sections, hrows, .inl ⟨a, hps, by simpa using h0, ?_⟩⟩
    rintro q (hq | hq)
    · rw [hup] at hq; cases hq; rfl
    · rw [hlo] at hq; cases hq; rfl
  | between a b ru rl hus hls h0 frac hf p0 p hp0 hp hup hlo cu cl =>
    have hne : a.u ≠ 0 := by
      intro e
      rw [Bool.eq_false_iff] at h0
      exact h0 (by simpa using e)
    have hmem : a ∈ us := by rw [← List.mem_reverse, hus]; simp
    have husa : us = ru.reverse ++ [a] := by rw [← List.reverse_reverse us, hus]; simp
    have hpe := interpolate_ok _ _ _ _ _ hp
    cases hld.divided with
    | «at» b' lr hls' hrows hu hb =>
      rw [hls] at hls'
      obtain ⟨rfl, rfl⟩ := List.cons.inj hls'
      have hb0 : b.u < 0 := by simpa using hb
      have ha0 : 0 < a.u := by
        have := lt_false.1 (hu a hmem)
        rw [real_lit, Rat.cast_zero] at this
        exact lt_of_le_of_ne this hne.symm
      rw [frac_real ha0 hb0] at hf
      cases Except.ok.inj hf
      obtain ⟨k1, k2, k3, k4, k5⟩ := interpolated_between ha0 hb0
      refine ⟨content, air, wk, _, hc, hld.sections, hrows, .inr ⟨ru.reverse, rl, a, b, _, p, ?_, ha0, hb0, k4, k5, ?_, ?_, ?_, ?_, ?_⟩⟩
      · rw [husa, hls]; simp
      · rw [hpe]; exact k1
      · rw [hpe]; exact k2
      · rw [hpe]; exact k3
      · rw [hup]; simp [Pt.at]
      · rw [hlo]; simp [Pt.at]
    | none a' hga hls' hrows hu =>
      exfalso
      rw [hls] at hls'
      obtain ⟨rfl, rfl⟩ := List.cons.inj hls'
      rw [husa, List.getLast?_append] at hga
      simp at hga
      subst hga
      have : a.u + a.flip.u = 0 := by simp [Pt.flip]
      simp [pyDiv, this] at hf

/-- C58: a dump file is read if its rows are admissible, the velocity is positive before some place and negative from there on at least at the first
row, and arc length does not decrease in the airfoil and in the wake. -/
theorem wellformed_read (hinf : InfAdm ℝ) (fl : Floats ℝ) (fs : Files) (name content : Text) (hn : name ≠ []) (hc : fs name = .ok content)
    (air wk : List Text) (hs : Sections (readlines content) air wk) (us ls : List (Pt ℝ)) (a b : Pt ℝ) (ws : List (Wake ℝ))
    (hrows : Rows fl air (us ++ a :: b :: ls)) (hw : WakeRows fl wk ws) (hu : ∀ p ∈ us, 0 ≤ p.u) (ha : 0 < a.u) (hb : b.u < 0)
    (hmono : ((us ++ a :: b :: ls).map Pt.s).Pairwise (· ≤ ·)) (hwm : (ws.map Wake.s).Pairwise (· ≤ ·)) :
    ∃ r, Reader.load fl fs name = (r, .ok ()) := by
  obtain ⟨k1, k2, k3, k4, k5⟩ := interpolated_between ha hb
  set t := a.u / (a.u - b.u) with ht
  have hall : ∀ p ∈ us ++ a :: b :: ls, p.Adm := by
    intro p hp
    obtain ⟨row, _, h⟩ := rows_mem hrows hp
    exact Pt.mk'_adm hinf fl row p h
  have haA := hall a (by simp)
  have hbA := hall b (by simp)
  have le0 : ∀ {x : ℝ}, PyCmp.lt x (lit 0) = false ↔ 0 ≤ x := by intro x; rw [lt_false, real_lit, Rat.cast_zero]
  have lt0 : ∀ {x : ℝ}, PyCmp.le x (lit 0) = false ↔ 0 < x := by
    intro x; rw [Bool.eq_false_iff, Ne, real_le, not_le, real_lit, Rat.cast_zero]
  have cle : ∀ {x y : ℝ}, 0 ≤ x → 0 ≤ y → 0 ≤ (1 - t) * x + t * y := fun hx hy =>
    add_nonneg (mul_nonneg (by linarith) hx) (mul_nonneg k4.le hy)
  have clt : ∀ {x y : ℝ}, 0 < x → 0 < y → 0 < (1 - t) * x + t * y := fun hx hy =>
    add_pos (mul_pos (by linarith) hx) (mul_pos k4 hy)
  have hadm : (interpolated a b.flip t).Adm := by
    refine ⟨?_, ?_, ?_, ?_, ?_, ?_⟩
    · rw [le0, k1.s]; exact cle (le0.1 haA.s) (le0.1 hbA.s)
    · rw [le0, k1.deltaD]; exact cle (le0.1 haA.deltaD) (le0.1 hbA.deltaD)
    · rw [le0, k1.deltaM]; exact cle (le0.1 haA.deltaM) (le0.1 hbA.deltaM)
    · rw [le0, k1.cf]; exact cle (le0.1 haA.cf) (le0.1 hbA.cf)
    · rw [lt0, k1.shapeD]; exact clt (lt0.1 haA.shapeD) (lt0.1 hbA.shapeD)
    · rw [lt0, k1.shapeK]; exact clt (lt0.1 haA.shapeK) (lt0.1 hbA.shapeK)
  rw [List.pairwise_map, List.pairwise_append] at hmono
  obtain ⟨m1, m2, m3⟩ := hmono
  rw [List.pairwise_cons] at m2
  obtain ⟨m2, m4⟩ := m2
  rw [List.pairwise_cons] at m4
  have hab : a.s ≤ b.s := m2 b (by simp)
  have hsa : a.s ≤ (interpolated a b.flip t).s := by
    rw [k1.s]; nlinarith
  have hsb : (interpolated a b.flip t).s ≤ b.s := by
    rw [k1.s]; nlinarith
  obtain ⟨airU, airL, rfl, hU, hL⟩ : ∃ x y, air = x ++ y ∧ Rows fl x (us ++ [a]) ∧ Rows fl y (b :: ls) := by
    rw [show us ++ a :: b :: ls = (us ++ [a]) ++ (b :: ls) by simp] at hrows
    refine ⟨air.take (us ++ [a]).length, air.drop (us ++ [a]).length, (List.take_append_drop _ _).symm, ?_, ?_⟩
    · have := List.forall₂_take (us ++ [a]).length hrows
      rwa [List.take_left] at this
    · have := rows_drop hrows (us ++ [a]).length
      rwa [List.drop_left] at this
  refine load_forward hn hc (dumpData_sections _ _ _ hs) hU hL ?_ (by simpa using hb) ?_ (frac_real ha hb) (p0 := Pt.infs) ?_
    (interpolate_forward _ _ _ _ hadm) ?_ ?_ hw ?_
  · intro q hq
    rw [le0]
    rcases List.mem_append.1 hq with hq | hq
    · exact hu q hq
    · rw [List.mem_singleton.1 hq]; exact ha.le
  · rw [Bool.eq_false_iff]; simpa using ha.ne'
  · rw [Pt.mk', row_empty hinf]
  · intro q hq
    rw [le0, sub_nonneg]
    rcases List.mem_cons.1 hq with rfl | hq
    · exact le_rfl
    · rcases List.mem_append.1 hq with hq | hq
      · exact (m3 q hq a (by simp)).trans hsa
      · rw [List.mem_singleton.1 hq]; exact hsa
  · intro q hq
    rw [le0, sub_nonneg]
    rcases List.mem_cons.1 hq with rfl | hq
    · exact le_rfl
    · rcases List.mem_cons.1 hq with rfl | hq
      · exact hsb
      · exact hsb.trans (m4.1 q hq)
  · rintro w rest rfl v hv
    rw [le0, sub_nonneg]
    rw [List.pairwise_map, List.pairwise_cons] at hwm
    rcases List.mem_cons.1 hv with rfl | hv
    · exact le_rfl
    · exact hwm.1 v hv

/-- C44 is false: a file whose last row before the lower surface has exactly zero velocity raises ValueError, unless that row has zero arc length. -/
theorem zero_velocity_rejected (fl : Floats ℝ) (fs : Files) (name content : Text) (hn : name ≠ []) (hc : fs name = .ok content)
    (air wk : List Text) (hs : Sections (readlines content) air wk) (us ls : List (Pt ℝ)) (a b : Pt ℝ)
    (hrows : Rows fl air (us ++ a :: b :: ls)) (hu : ∀ p ∈ us, 0 ≤ p.u) (ha : a.u = 0) (hb : b.u < 0) (hpos : a.s ≠ 0) :
    (Reader.load fl fs name).2 = .error .valueError := by
  have hsa : 0 ≤ a.s := by
    obtain ⟨row, _, h⟩ := rows_mem hrows (p := a) (by simp)
    have := mk'_s h
    rwa [lt_false, real_lit, Rat.cast_zero] at this
  obtain ⟨airU, airL, rfl, hU, hL⟩ : ∃ x y, air = x ++ y ∧ Rows fl x (us ++ [a]) ∧ Rows fl y (b :: ls) := by
    rw [show us ++ a :: b :: ls = (us ++ [a]) ++ (b :: ls) by simp] at hrows
    refine ⟨air.take (us ++ [a]).length, air.drop (us ++ [a]).length, (List.take_append_drop _ _).symm, ?_, ?_⟩
    · have := List.forall₂_take (us ++ [a]).length hrows
      rwa [List.take_left] at this
    · have := rows_drop hrows (us ++ [a]).length
      rwa [List.drop_left] at this
  refine load_zero_error hn hc (dumpData_sections _ _ _ hs) hU hL ?_ (by simpa using hb) (by simpa using ha) ?_
  · intro q hq
    rw [lt_false, real_lit, Rat.cast_zero]
    rcases List.mem_append.1 hq with hq | hq
    · exact hu q hq
    · rw [List.mem_singleton.1 hq, ha]
  · have : 0 < a.s := lt_of_le_of_ne hsa hpos.symm
    simpa using this

/-- C44, the part that holds: in a file that is read, a last row before the lower surface with zero velocity is the first point of both surfaces,
with zero arc length. -/
theorem zero_velocity_partial (fl : Floats ℝ) (fs : Files) (name content : Text) (hn : name ≠ []) (hc : fs name = .ok content)
    (air wk : List Text) (hs : Sections (readlines content) air wk) (us ls : List (Pt ℝ)) (a b : Pt ℝ)
    (hrows : Rows fl air (us ++ a :: b :: ls)) (hu : ∀ p ∈ us, 0 ≤ p.u) (ha : a.u = 0) (hb : b.u < 0) (r : Reader ℝ)
    (h : Reader.load fl fs name = (r, .ok ())) :
    r.upperPts.head? = some a ∧ r.lowerPts.head? = some a ∧ a.s = 0 := by
  have hs0 : a.s = 0 := by
    by_contra hne
    have := zero_velocity_rejected fl fs name content hn hc air wk hs us ls a b hrows hu ha hb hne
    rw [h] at this; cases this
  obtain ⟨content', air', wk', us', ls', ws, hc', hld⟩ := load_ok fl fs name hn r h
  rw [hc] at hc'
  cases Except.ok.inj hc'
  have hd := dumpData_sections _ _ _ hs
  rw [dumpData_sections _ _ _ hld.sections] at hd
  obtain ⟨rfl, rfl⟩ : air' = air ∧ wk' = wk := by
    have := Except.ok.inj hd; exact ⟨congrArg Prod.fst this, congrArg Prod.snd this⟩
  have huse : us' = us ++ [a] := by
    cases hld.divided with
    | «at» b' lr hls hr hu' hb' =>
      have e := rows_functional hr hrows
      rw [show us ++ a :: b :: ls = (us ++ [a]) ++ (b :: ls) by simp, hls] at e
      have hb1 : b'.u < 0 := by simpa using hb'
      rcases List.append_eq_append_iff.1 e with ⟨c, e1, e2⟩ | ⟨c, e1, e2⟩
      · cases c with
        | nil => simpa using e1.symm
        | cons x c =>
          exfalso
          have hx : x = b' := by simpa using (List.cons.inj e2).1.symm
          have hm : x ∈ us ++ [a] := by rw [e1]; simp
          rw [hx] at hm
          rcases List.mem_append.1 hm with hm | hm
          · exact absurd (hu _ hm) (by linarith)
          · rw [List.mem_singleton.1 hm] at hb1; linarith
      · cases c with
        | nil => simpa using e1
        | cons x c =>
          exfalso
          have hx : x = b := by simpa using (List.cons.inj e2).1.symm
          have hm : x ∈ us' := by rw [e1]; simp
          have := hu' x hm
          rw [lt_false, real_lit, Rat.cast_zero, hx] at this
          linarith
    | none a' hga hls hr hu' =>
      exfalso
      have e := rows_functional hr hrows
      have := hu' b (by rw [e]; simp)
      rw [lt_false, real_lit, Rat.cast_zero] at this
      linarith
  cases hld.placed with
  | shared a' rest hus h0 hup hlo =>
    rw [huse, List.reverse_append] at hus
    simp only [List.reverse_cons, List.reverse_nil, List.nil_append, List.cons_append, List.cons.injEq] at hus
    obtain ⟨rfl, _⟩ := hus
    have e : a.at (fun s => a.s - s - a.s) = a := by simp [Pt.at, hs0]; rw [← hs0]
    rw [hup, hlo, e]
    exact ⟨rfl, rfl, hs0⟩
  | between a' b' ru rl hus hls h0 =>
    exfalso
    rw [huse, List.reverse_append] at hus
    simp only [List.reverse_cons, List.reverse_nil, List.nil_append, List.cons_append, List.cons.injEq] at hus
    obtain ⟨rfl, _⟩ := hus
    rw [Bool.eq_false_iff] at h0
    exact h0 (by simpa using ha)

end real
end IBL.XFoil
