import Verif.Model.StanfordCase
import Verif.Lemmas.Text

/-! What the steps of reading a station do when they succeed. -/

set_option linter.unusedSectionVars false

namespace IBL.Stanford
variable {α : Type} [Add α] [Sub α] [Mul α] [Div α] [PyLit α] [PyCmp α] [PySpecial α] [PySqrt α] [PyPow α]

/-- The attributes whose setters reject values that are not positive. -/
def Field.guarded : Field → Bool
  | .x | .due | .cf | .cfLt | .cfExp | .beta => false
  | _ => true

/-- Assignment without check. -/
def Station.put (p : Station α) (a : Field × α) : Station α :=
  match a.1 with
  | .x => { p with x := a.2 } | .ue => { p with ue := a.2 } | .due => { p with due := a.2 } | .deltaM => { p with deltaM := a.2 }
  | .shapeD => { p with shapeD := a.2 } | .shapeK => { p with shapeK := a.2 } | .shapeEq => { p with shapeEq := a.2 } | .cf => { p with cf := a.2 }
  | .cfLt => { p with cfLt := a.2 } | .cfExp => { p with cfExp := a.2 } | .beta => { p with beta := a.2 } | .uStar => { p with uStar := a.2 }
  | .nu => { p with nu := a.2 } | .deltaD => { p with deltaD := a.2 } | .deltaK => { p with deltaK := a.2 } | .deltaC => { p with deltaC := a.2 }
  | .reM => { p with reM := a.2 } | .reD => { p with reD := a.2 }

/-- The setter accepts the value. -/
def passes (a : Field × α) : Prop := a.1.guarded = true → PyCmp.le a.2 (lit 0) = false

theorem set_ok {p : Station α} {f : Field} {v : α} (h : passes (f, v)) : p.set f v = (p.put (f, v), .ok ()) := by
  cases f <;> simp_all [Station.set, Station.put, passes, Field.guarded]

theorem set_error {p : Station α} {f : Field} {v : α} (h : ¬ passes (f, v)) : p.set f v = (p, .error .valueError) := by
  cases f <;> simp_all [Station.set, passes, Field.guarded]

theorem sets_ok_iff : ∀ (l : List (Field × α)) (p q : Station α), p.sets l = (q, .ok ()) ↔ (∀ a ∈ l, passes a) ∧ q = l.foldl Station.put p
  | [], p, q => by simp [Station.sets, eq_comm]
  | (f, v) :: l, p, q => by
    rw [Station.sets]
    by_cases h : passes (f, v)
    · rw [set_ok h]; simp [sets_ok_iff l, h]
    · rw [set_error h]; simp [h]

theorem sets_error : ∀ (l : List (Field × α)) (p q : Station α) (e : Exc), p.sets l = (q, .error e) → e = .valueError ∧ ∃ a ∈ l, ¬ passes a
  | [], p, q, e, h => by simp [Station.sets] at h
  | (f, v) :: l, p, q, e, h => by
    rw [Station.sets] at h
    by_cases hp : passes (f, v)
    · rw [set_ok hp] at h
      obtain ⟨he, a, ha, hn⟩ := sets_error l _ _ _ h
      exact ⟨he, a, by simp [ha], hn⟩
    · rw [set_error hp] at h
      simp only [Prod.mk.injEq, Except.error.injEq] at h
      exact ⟨h.2.symm, (f, v), by simp, hp⟩

/-- The station after a summary row has been read into a new object. -/
def Summary.station (s : Summary α) : Station α :=
  { (Station.blank : Station α) with
    x := s.x, ue := s.ui, due := s.dui, deltaM := s.theta, shapeD := s.h, shapeK := s.hs, shapeEq := s.g, cf := s.cf, cfLt := s.cflt,
    cfExp := s.cfe, beta := s.beta, deltaD := s.h * s.theta, deltaK := s.hs * s.theta, uStar := s.ui * PySqrt.sqrt (lit (1 / 2) * s.cf) }

/-- The values of a summary row (in SI) that the setters accept. -/
structure Summary.Good (s : Summary α) : Prop where
  ui : PyCmp.le s.ui (lit 0) = false
  theta : PyCmp.le s.theta (lit 0) = false
  h : PyCmp.le s.h (lit 0) = false
  hs : PyCmp.le s.hs (lit 0) = false
  g : PyCmp.le s.g (lit 0) = false
  dels : PyCmp.le (s.h * s.theta) (lit 0) = false
  enth : PyCmp.le (s.hs * s.theta) (lit 0) = false
  us : PyCmp.le (s.ui * PySqrt.sqrt (lit (1 / 2) * s.cf)) (lit 0) = false

theorem resetSummary_ok (fl : Floats α) (p q : Station α) (si : Bool) (row : Text) :
    p.resetSummary fl si row = (q, .ok ()) ↔ ∃ s, Summary.ofRow fl row = some s ∧ (s.toSI si).Good ∧
      q = { p with x := (s.toSI si).x, ue := (s.toSI si).ui, due := (s.toSI si).dui, deltaM := (s.toSI si).theta, shapeD := (s.toSI si).h,
                   shapeK := (s.toSI si).hs, shapeEq := (s.toSI si).g, cf := (s.toSI si).cf, cfLt := (s.toSI si).cflt,
                   cfExp := (s.toSI si).cfe, beta := (s.toSI si).beta, deltaD := (s.toSI si).h * (s.toSI si).theta,
                   deltaK := (s.toSI si).hs * (s.toSI si).theta,
                   uStar := (s.toSI si).ui * PySqrt.sqrt (lit (1 / 2) * (s.toSI si).cf) } := by
  rw [Station.resetSummary]
  rcases hr : Summary.ofRow fl row with _ | s
  · simp
  simp only [Option.some.injEq, exists_eq_left']
  generalize s.toSI si = t
  split
  · rename_i q' e h
    obtain ⟨_, a, ha, hn⟩ := sets_error _ _ _ _ h
    simp only [Prod.mk.injEq, reduceCtorEq, and_false, false_iff, not_and]
    intro hg
    exfalso; apply hn
    simp only [Summary.assignments, List.mem_cons, List.not_mem_nil, or_false] at ha
    rcases ha with rfl | rfl | rfl | rfl | rfl | rfl | rfl | rfl | rfl | rfl | rfl <;> simp [passes, Field.guarded, hg.ui, hg.theta, hg.h, hg.hs, hg.g]
  · rename_i q' h
    obtain ⟨hp, rfl⟩ := (sets_ok_iff _ _ _).1 h
    rw [sets_ok_iff]
    simp only [Summary.assignments, List.mem_cons, List.not_mem_nil, or_false, forall_eq_or_imp, forall_eq, passes, Field.guarded, Station.derived,
      List.foldl_cons, List.foldl_nil, Station.put, forall_const, Bool.false_eq_true, false_imp_iff, true_and] at hp ⊢
    constructor
    · rintro ⟨hd, rfl⟩
      exact ⟨⟨hp.1, hp.2.1, hp.2.2.1, hp.2.2.2.1, hp.2.2.2.2.1, hd.1, hd.2.1, hd.2.2⟩, rfl⟩
    · rintro ⟨hg, rfl⟩
      exact ⟨⟨hg.dels, hg.enth, hg.us⟩, rfl⟩

/-- The values of a station summary row (in SI) that the setters accept. -/
structure Detail.Good (d : Detail α) : Prop where
  us : PyCmp.le d.us (lit 0) = false
  ui : PyCmp.le d.ui (lit 0) = false
  v : PyCmp.le d.v (lit 0) = false
  theta : PyCmp.le d.theta (lit 0) = false
  dels : PyCmp.le d.dels (lit 0) = false
  enth : PyCmp.le d.enth (lit 0) = false
  clth : PyCmp.le d.clth (lit 0) = false
  h : PyCmp.le d.h (lit 0) = false
  g : PyCmp.le d.g (lit 0) = false
  hs : PyCmp.le d.hs (lit 0) = false
  rtheta : PyCmp.le d.rtheta (lit 0) = false
  rdels : PyCmp.le d.rdels (lit 0) = false

/-- The comparisons of a station summary row `d` (in SI) with what has been read from the summary. -/
structure Station.Agrees (p : Station α) (d : Detail α) : Prop where
  x : differs d.x p.x (lit (2 / 1000)) = false
  ui : differs d.ui p.ue (lit (6 / 100)) = false
  theta : differs d.theta p.deltaM (lit (2 / 1000)) = false
  h : differs d.h p.shapeD (lit (2 / 1000)) = false
  hs : differs d.hs p.shapeK (lit (2 / 1000)) = false
  g : differs d.g p.shapeEq (lit (2 / 1000)) = false
  dels : differs d.dels (p.shapeD * p.deltaM) (lit (5 / 1000)) = false
  enth : differs d.enth (p.shapeK * p.deltaM) (lit (5 / 1000)) = false
  v : PyCmp.eq d.v (lit 0) = false
  rdels : differs d.rdels (p.ue * d.dels / d.v) (lit 5) = false
  rtheta : differs d.rtheta (p.ue * d.theta / d.v) (lit 5) = false
  us : differs d.us (p.ue * PySqrt.sqrt (lit (1 / 2) * p.cf)) (lit (5 / 1000)) = false

theorem guard_ok {b : Bool} {e : Exc} {f : Except Exc Unit} : (if b = true then .error e else f) = .ok () ↔ b = false ∧ f = .ok () := by
  cases b <;> simp

theorem check_ok (p : Station α) (d : Detail α) : p.check d = .ok () ↔ p.Agrees d := by
  rw [Station.check, guard_ok, guard_ok, guard_ok, guard_ok, guard_ok, guard_ok, guard_ok, guard_ok]
  simp only [pyDiv]
  by_cases hv : PyCmp.eq d.v (lit 0) = true
  · rw [if_pos hv]
    simp only [reduceCtorEq, and_false, false_iff]
    intro h
    rw [h.v] at hv; exact Bool.false_ne_true hv
  rw [if_neg hv, if_neg hv]
  simp only [guard_ok]
  rw [Bool.not_eq_true] at hv
  constructor
  · rintro ⟨h1, h2, h3, h4, h5, h6, h7, h8, h9, h10, h11, -⟩
    exact ⟨h1, h2, h3, h4, h5, h6, h7, h8, hv, h9, h10, h11⟩
  · rintro ⟨h1, h2, h3, h4, h5, h6, h7, h8, h9, h10, h11, h12⟩
    exact ⟨h1, h2, h3, h4, h5, h6, h7, h8, h10, h11, h12, trivial⟩

/-- The station with its detail attributes emptied and the derived ones recomputed, as at the start of `_reset_station_summary`. -/
def Station.refreshed (p : Station α) : Station α :=
  if PyCmp.eq p.x PySpecial.inf then
    { p with nu := PySpecial.inf, deltaC := PySpecial.inf, reM := PySpecial.inf, reD := PySpecial.inf, uStar := PySpecial.inf,
             deltaD := PySpecial.inf, deltaK := PySpecial.inf }
  else
    { p with nu := PySpecial.inf, deltaC := PySpecial.inf, reM := PySpecial.inf, reD := PySpecial.inf,
             uStar := p.ue * PySqrt.sqrt (lit (1 / 2) * p.cf), deltaD := p.shapeD * p.deltaM, deltaK := p.shapeK * p.deltaM }

/-- The attributes assigned from a station summary row (in SI). -/
def Station.detailed (p : Station α) (d : Detail α) : Station α :=
  { p with x := d.x, uStar := d.us, ue := d.ui, nu := d.v, deltaM := d.theta, deltaD := d.dels, deltaK := d.enth, deltaC := d.clth,
           shapeD := d.h, shapeEq := d.g, shapeK := d.hs, reM := d.rtheta, reD := d.rdels }

theorem resetDetail_eq (fl : Floats α) (p : Station α) (si : Bool) (row : Text)
    (hd : PyCmp.eq p.x PySpecial.inf = false → ∀ a ∈ p.derived, passes a) :
    p.resetDetail fl si row = (if row = [] then (p.refreshed, .ok ()) else
      match Detail.ofRow fl row with
      | none => (p.refreshed, .error .valueError)
      | some d =>
        match p.refreshed.check (d.toSI si) with
        | .error e => (p.refreshed, .error e)
        | .ok () => p.refreshed.sets (d.toSI si).assignments) := by
  rw [Station.resetDetail]
  have hfirst : (if PyCmp.eq p.x PySpecial.inf then
      (({ p with nu := PySpecial.inf, deltaC := PySpecial.inf, reM := PySpecial.inf, reD := PySpecial.inf, uStar := PySpecial.inf, deltaD := PySpecial.inf, deltaK := PySpecial.inf } : Station α), .ok ())
    else Station.sets { p with nu := PySpecial.inf, deltaC := PySpecial.inf, reM := PySpecial.inf, reD := PySpecial.inf } p.derived : Station α × Except Exc Unit)
      = (p.refreshed, .ok ()) := by
    rw [Station.refreshed]
    by_cases hx : PyCmp.eq p.x PySpecial.inf = true
    · rw [if_pos hx, if_pos hx]
    · rw [if_neg hx, if_neg hx, sets_ok_iff]
      exact ⟨hd (by simpa using hx), rfl⟩
  have hder : Station.derived { p with nu := PySpecial.inf, deltaC := PySpecial.inf, reM := PySpecial.inf, reD := PySpecial.inf } = p.derived := rfl
  simp only [hder]
  rw [hfirst]
  rfl

theorem resetDetail_ok (fl : Floats α) (p q : Station α) (si : Bool) (row : Text)
    (hd : PyCmp.eq p.x PySpecial.inf = false → ∀ a ∈ p.derived, passes a) :
    p.resetDetail fl si row = (q, .ok ()) ↔
      (row = [] ∧ q = p.refreshed) ∨
      (row ≠ [] ∧ ∃ d, Detail.ofRow fl row = some d ∧ p.refreshed.Agrees (d.toSI si) ∧ (d.toSI si).Good ∧ q = p.refreshed.detailed (d.toSI si)) := by
  rw [resetDetail_eq fl p si row hd]
  by_cases hrow : row = []
  · simp [hrow, eq_comm]
  rw [if_neg hrow]
  rcases hr : Detail.ofRow fl row with _ | d
  · simp [hrow]
  simp only [Option.some.injEq, exists_eq_left', hrow, false_and, false_or, ne_eq, not_false_eq_true, true_and]
  generalize d.toSI si = t
  rcases hc : p.refreshed.check t with e | u
  · have : ¬ p.refreshed.Agrees t := fun h => by rw [(check_ok _ _).2 h] at hc; cases hc
    simp [this]
  · have : p.refreshed.Agrees t := (check_ok _ _).1 hc
    simp only [this, true_and, sets_ok_iff]
    simp only [Detail.assignments, List.mem_cons, List.not_mem_nil, or_false, forall_eq_or_imp, forall_eq, passes, Field.guarded,
      List.foldl_cons, List.foldl_nil, Station.put, forall_const, Bool.false_eq_true, false_imp_iff, true_and]
    constructor
    · rintro ⟨⟨h1, h2, h3, h4, h5, h6, h7, h8, h9, h10, h11, h12⟩, rfl⟩
      exact ⟨⟨h1, h2, h3, h4, h5, h6, h7, h8, h9, h10, h11, h12⟩, rfl⟩
    · rintro ⟨⟨h1, h2, h3, h4, h5, h6, h7, h8, h9, h10, h11, h12⟩, rfl⟩
      exact ⟨⟨h1, h2, h3, h4, h5, h6, h7, h8, h9, h10, h11, h12⟩, rfl⟩

/-- The comparisons of a sample (in SI) with the station. -/
structure Station.Fits (p : Station α) (d : Sample α) : Prop where
  yplus : exceeds d.yplus (d.y * p.uStar / p.nu) (lit 1) = false
  ycd : exceeds d.ycd (d.y / p.deltaC) (lit (1 / 2)) = false
  uplus : exceeds d.uplus (p.ue * d.uoui / p.uStar) (lit (1 / 2)) = false
  udef : exceeds d.udef ((p.ue - p.ue * d.uoui) / p.uStar) (lit (1 / 2)) = false

theorem checkSample_ok (p : Station α) (d : Sample α) : p.checkSample d = .ok () ↔ p.Fits d := by
  rw [Station.checkSample, guard_ok, guard_ok, guard_ok, guard_ok]
  exact ⟨fun ⟨a, b, c, d, _⟩ => ⟨a, b, c, d⟩, fun ⟨a, b, c, d⟩ => ⟨a, b, c, d, rfl⟩⟩

/-- The profile arrays written from samples (in SI). -/
def Station.profiled (p : Station α) (ds : List (Sample α)) : Station α :=
  { p with yPlus := ds.map (·.yplus), uPlus := ds.map (·.uplus), y := ds.map (·.y), u := ds.map fun d => p.ue * d.uoui, yC := ds.map (·.ycd),
           uDef := ds.map (·.udef) }

theorem set_append_length {β : Type} (a b : List β) (c v : β) : (a ++ c :: b).set a.length v = a ++ v :: b := by
  rw [List.set_append_right _ _ (le_refl _)]; simp

theorem exists_cons_of_length {β : Type} {l : List β} {n : ℕ} (h : l.length = n + 1) : ∃ a t, l = a :: t ∧ t.length = n := by
  cases l with
  | nil => simp at h
  | cons a t => exact ⟨a, t, rfl, by simpa using h⟩

/-- A station in the middle of the loop: the samples `ds` are written, what follows in the arrays is not. -/
def Station.partly (p : Station α) (ds : List (Sample α)) (m0 m1 m2 m3 m4 m5 : List α) : Station α :=
  { p with yPlus := ds.map (·.yplus) ++ m0, uPlus := ds.map (·.uplus) ++ m1, y := ds.map (·.y) ++ m2,
           u := ds.map (fun d => p.ue * d.uoui) ++ m3, yC := ds.map (·.ycd) ++ m4, uDef := ds.map (·.udef) ++ m5 }

theorem readSamples_ok (fl : Floats α) (si : Bool) : ∀ (rows : List Text) (p q : Station α) (ds : List (Sample α)) (m0 m1 m2 m3 m4 m5 : List α),
    m0.length = rows.length → m1.length = rows.length → m2.length = rows.length → m3.length = rows.length → m4.length = rows.length →
    m5.length = rows.length →
    (Station.readSamples fl si (p.partly ds m0 m1 m2 m3 m4 m5) ds.length rows = (q, .ok ()) ↔
      ∃ es, rows.mapM (Sample.ofRow fl) = some es ∧ (∀ e ∈ es, p.Fits (e.toSI si)) ∧ q = p.profiled (ds ++ es.map (Sample.toSI si)))
  | [], p, q, ds, m0, m1, m2, m3, m4, m5, h0, h1, h2, h3, h4, h5 => by
    simp only [List.length_nil, List.length_eq_zero_iff] at h0 h1 h2 h3 h4 h5
    subst h0 h1 h2 h3 h4 h5
    simp [Station.readSamples, Station.partly, Station.profiled, eq_comm]
  | row :: rows, p, q, ds, m0, m1, m2, m3, m4, m5, h0, h1, h2, h3, h4, h5 => by
    obtain ⟨c0, n0, rfl, h0'⟩ := exists_cons_of_length h0
    obtain ⟨c1, n1, rfl, h1'⟩ := exists_cons_of_length h1
    obtain ⟨c2, n2, rfl, h2'⟩ := exists_cons_of_length h2
    obtain ⟨c3, n3, rfl, h3'⟩ := exists_cons_of_length h3
    obtain ⟨c4, n4, rfl, h4'⟩ := exists_cons_of_length h4
    obtain ⟨c5, n5, rfl, h5'⟩ := exists_cons_of_length h5
    rw [Station.readSamples]
    rcases hr : Sample.ofRow fl row with _ | d
    · simp [List.mapM_cons, hr]
    simp only
    have hF : ∀ e, (p.partly ds (c0 :: n0) (c1 :: n1) (c2 :: n2) (c3 :: n3) (c4 :: n4) (c5 :: n5)).Fits e ↔ p.Fits e :=
      fun e => ⟨fun ⟨a, b, c, d⟩ => ⟨a, b, c, d⟩, fun ⟨a, b, c, d⟩ => ⟨a, b, c, d⟩⟩
    rcases hc : (p.partly ds (c0 :: n0) (c1 :: n1) (c2 :: n2) (c3 :: n3) (c4 :: n4) (c5 :: n5)).checkSample (d.toSI si) with e | u
    · have hn : ¬ p.Fits (d.toSI si) := fun h => by rw [(checkSample_ok _ _).2 ((hF _).2 h)] at hc; cases hc
      simp only [Prod.mk.injEq, reduceCtorEq, and_false, false_iff]
      rintro ⟨es, hes, hf, _⟩
      rw [List.mapM_cons, hr] at hes
      simp only [Option.bind_eq_bind, Option.bind_some, Option.bind_eq_some_iff] at hes
      obtain ⟨es', _, h⟩ := hes
      cases h
      exact hn (hf d (by simp))
    · have hfit : p.Fits (d.toSI si) := (hF _).1 ((checkSample_ok _ _).1 hc)
      have ih := readSamples_ok fl si rows p q (ds ++ [d.toSI si]) n0 n1 n2 n3 n4 n5 h0' h1' h2' h3' h4' h5'
      simp only [Station.partly, List.map_append, List.map_cons, List.map_nil, List.append_assoc, List.singleton_append, List.length_append,
        List.length_singleton] at ih
      have e0 := set_append_length (ds.map (·.yplus)) n0 c0 (d.toSI si).yplus
      have e1 := set_append_length (ds.map (·.uplus)) n1 c1 (d.toSI si).uplus
      have e2 := set_append_length (ds.map (·.y)) n2 c2 (d.toSI si).y
      have e3 := set_append_length (ds.map (fun d => p.ue * d.uoui)) n3 c3 (p.ue * (d.toSI si).uoui)
      have e4 := set_append_length (ds.map (·.ycd)) n4 c4 (d.toSI si).ycd
      have e5 := set_append_length (ds.map (·.udef)) n5 c5 (d.toSI si).udef
      simp only [List.length_map] at e0 e1 e2 e3 e4 e5
      simp only [Station.partly, e0, e1, e2, e3, e4, e5]
      rw [ih]
      constructor
      · rintro ⟨es, hes, hf, rfl⟩
        refine ⟨d :: es, by simp [List.mapM_cons, hr, hes], ?_, by simp⟩
        intro e he; rcases List.mem_cons.1 he with rfl | he
        exacts [hfit, hf e he]
      · rintro ⟨es, hes, hf, rfl⟩
        rw [List.mapM_cons, hr] at hes
        simp only [Option.bind_eq_bind, Option.bind_some, Option.bind_eq_some_iff] at hes
        obtain ⟨es', hes', h⟩ := hes
        cases h
        exact ⟨es', hes', fun e he => hf e (by simp [he]), by simp⟩

theorem resetData_ok (fl : Floats α) (mem : Mem α) (p q : Station α) (si : Bool) (rows : List Text) :
    p.resetData fl mem si rows = (q, .ok ()) ↔
      ∃ es, rows.mapM (Sample.ofRow fl) = some es ∧ (∀ e ∈ es, p.Fits (e.toSI si)) ∧ q = p.profiled (es.map (Sample.toSI si)) := by
  have := readSamples_ok fl si rows p q [] (mem.empty 0 rows.length) (mem.empty 1 rows.length) (mem.empty 2 rows.length) (mem.empty 3 rows.length)
    (mem.empty 4 rows.length) (mem.empty 5 rows.length) (by simp [Mem.empty]) (by simp [Mem.empty]) (by simp [Mem.empty]) (by simp [Mem.empty])
    (by simp [Mem.empty]) (by simp [Mem.empty])
  simpa [Station.resetData, Station.partly] using this

/-- The station read from a summary row (in SI) alone. -/
def Summary.read (s : Summary α) : Station α := s.station.refreshed

/-- When the constructor succeeds and what it gives. -/
theorem mk_ok_iff (fl : Floats α) (mem : Mem α) (si : Bool) (a b : Text) (rows : List Text) (p : Station α) :
    Station.mk' fl mem si a b rows = .ok p ↔
      ∃ s es q, Summary.ofRow fl a = some s ∧ (s.toSI si).Good ∧
        ((b = [] ∧ q = (s.toSI si).read) ∨
          (b ≠ [] ∧ ∃ d, Detail.ofRow fl b = some d ∧ (s.toSI si).read.Agrees (d.toSI si) ∧ (d.toSI si).Good ∧
            q = (s.toSI si).read.detailed (d.toSI si))) ∧
        rows.mapM (Sample.ofRow fl) = some es ∧ (∀ e ∈ es, q.Fits (e.toSI si)) ∧ p = q.profiled (es.map (Sample.toSI si)) := by
  rw [Station.mk', Station.reset]
  constructor
  · intro h
    rcases h1 : Station.blank.resetSummary fl si a with ⟨p1, e | u⟩
    · simp [h1] at h
    obtain ⟨s, hs, hg, hp1⟩ := (resetSummary_ok _ _ _ _ _).1 h1
    simp only [h1] at h
    have hd : ∀ x ∈ p1.derived, passes x := by
      rw [hp1]
      simp only [Station.derived, List.mem_cons, List.not_mem_nil, or_false, forall_eq_or_imp, forall_eq, passes, Field.guarded, forall_const]
      exact ⟨hg.dels, hg.enth, hg.us⟩
    rcases h2 : p1.resetDetail fl si b with ⟨p2, e | u⟩
    · simp [h2] at h
    have h2' := (resetDetail_ok fl p1 p2 si b fun _ => hd).1 h2
    simp only [h2] at h
    rcases h3 : p2.resetData fl mem si rows with ⟨p3, e | u⟩
    · simp [h3] at h
    simp only [h3, Except.ok.injEq] at h
    subst h
    obtain ⟨es, hes, hf, hp3⟩ := (resetData_ok _ _ _ _ _ _).1 h3
    refine ⟨s, es, p2, hs, hg, ?_, hes, hf, hp3⟩
    have hst : p1 = (s.toSI si).station := hp1
    rw [hst] at h2'
    exact h2'
  · rintro ⟨s, es, q, hs, hg, hb, hes, hf, rfl⟩
    have h1 : Station.blank.resetSummary fl si a = ((s.toSI si).station, .ok ()) := (resetSummary_ok _ _ _ _ _).2 ⟨s, hs, hg, rfl⟩
    have hd : ∀ x ∈ (s.toSI si).station.derived, passes x := by
      simp only [Station.derived, List.mem_cons, List.not_mem_nil, or_false, forall_eq_or_imp, forall_eq, passes, Field.guarded, forall_const]
      exact ⟨hg.dels, hg.enth, hg.us⟩
    have h2 := (resetDetail_ok fl (s.toSI si).station q si b fun _ => hd).2 hb
    have h3 := (resetData_ok fl mem q _ si rows).2 ⟨es, hes, hf, rfl⟩
    simp only [h1, h2, h3]

end IBL.Stanford
