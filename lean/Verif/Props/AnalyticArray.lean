import Verif.Model.AnalyticArray
import Verif.Props.AnalyticFlow

/-! C105: the quantities of a similarity object on arrays of points and one point at a time. -/

set_option linter.unusedSectionVars false

namespace IBL.Analytic
variable {α : Type}

/-- The result `res` for an array of points is the array of the results `q` of the points; in particular it is an exception exactly if one of
those is. -/
def Pointwise {ι : Type} (pts : List ι) (q : ι → Except Exc α) (res : Except Exc (Nd α)) : Prop :=
  ∀ r, res = .ok r ↔ ∃ vs, r = .ar vs ∧ List.Forall₂ (fun p v => q p = .ok v) pts vs

section lists
variable {ι : Type}

private theorem pointwise_ok {pts : List ι} {q : ι → Except Exc α} {res : Except Exc (Nd α)} (g : ι → α) (h1 : res = .ok (.ar (pts.map g)))
    (h2 : ∀ p ∈ pts, q p = .ok (g p)) : Pointwise pts q res := by
  intro r
  have key : ∀ vs, List.Forall₂ (fun p v => q p = .ok v) pts vs ↔ pts.map g = vs := by
    clear h1
    induction pts with
    | nil => intro vs; simp [eq_comm]
    | cons p pts ih =>
      intro vs
      have hp := h2 p (by simp)
      cases vs with
      | nil => simp
      | cons v vs => simp only [List.forall₂_cons, List.map_cons, List.cons.injEq, hp, Except.ok.injEq, ih fun p hp => h2 p (by simp [hp])]
  simp only [key, h1, Except.ok.injEq]
  constructor
  · rintro rfl; exact ⟨_, rfl, rfl⟩
  · rintro ⟨vs, rfl, rfl⟩; rfl

private theorem pointwise_error {pts : List ι} {q : ι → Except Exc α} {res : Except Exc (Nd α)} (hne : pts ≠ []) (h1 : ∃ e, res = .error e)
    (h2 : ∀ p ∈ pts, ∃ e, q p = .error e) : Pointwise pts q res := by
  obtain ⟨e, h1⟩ := h1
  intro r
  rw [h1]
  constructor
  · intro h; simp at h
  · rintro ⟨vs, -, h⟩
    cases h with
    | nil => simp at hne
    | cons hp _ =>
      obtain ⟨e', h2⟩ := h2 _ List.mem_cons_self
      rw [h2] at hp; simp at hp

private theorem broadcast_same (f : α → α → α) (pts : List ι) (a b : ι → α) :
    broadcast f (pts.map a) (pts.map b) = .ok (pts.map fun p => f (a p) (b p)) := by
  unfold broadcast
  rw [if_pos (by simp)]
  congr 1
  induction pts with
  | nil => rfl
  | cons p pts ih => simp only [List.map_cons, List.zipWith_cons_cons, ih]

private theorem op_same (f : α → α → α) (pts : List ι) (a b : ι → α) :
    (Nd.ar (pts.map a)).op f (.ar (pts.map b)) = .ok (.ar (pts.map fun p => f (a p) (b p))) := by
  simp only [Nd.op, broadcast_same]; rfl

end lists

variable [Add α] [Sub α] [Mul α] [Div α] [Neg α] [PyLit α] [PyCmp α] [PySpecial α] [PySqrt α] [PyPow α]

/-- No point is at the origin (nor so close that the product with the constants of `_g` is zero). -/
def OffOrigin (s : Sim α) (xs : List α) : Prop :=
  ∀ x ∈ xs, PyCmp.eq x (lit 0) = false ∧ PyCmp.eq (s.gFactor * s.nuRef * x) (lit 0) = false

/-- **C105**, for one-dimensional arguments. -/
def ArraysAgree (s : Sim α) (rho : α) (xs : List α) : Prop :=
  Pointwise xs s.uE (s.uENd (.ar xs)) ∧ Pointwise xs s.vE (s.vENd (.ar xs)) ∧ Pointwise xs s.deltaD (s.deltaDNd (.ar xs)) ∧
  Pointwise xs s.deltaM (s.deltaMNd (.ar xs)) ∧ Pointwise xs s.deltaK (s.deltaKNd (.ar xs)) ∧ Pointwise xs s.deltaS (s.deltaSNd (.ar xs)) ∧
  Pointwise xs s.shapeD (s.shapeDNd (.ar xs)) ∧ Pointwise xs s.shapeK (s.shapeKNd (.ar xs)) ∧
  Pointwise xs (s.tauW · rho) (s.tauWNd (.ar xs) rho) ∧ Pointwise xs (s.dissipation · rho) (s.dissipationNd (.ar xs) rho)

/-- **C105**, for points of the plane: the coordinates of the points `pts` are passed as `X` and `Y`. -/
def PlaneAgrees (s : Sim α) (pts : List (α × α)) (X Y : Nd α) : Prop :=
  Pointwise pts (fun p => s.eta p.1 p.2) (s.etaNd X Y) ∧ Pointwise pts (fun p => s.u p.1 p.2) (s.uNd X Y) ∧
  Pointwise pts (fun p => s.v p.1 p.2) (s.vNd X Y)

/-- The two possibilities for the edge velocity and the transformation parameter. -/
private theorem alternatives (s : Sim α) (xs : List α) (h : OffOrigin s xs) :
    (∃ e, (∀ x, s.uE x = .error e) ∧ (∀ x, s.g x = .error e) ∧ (∀ x, s.gArray x = .error e) ∧ s.uENd (.ar xs) = .error e ∧ s.gNd (.ar xs) = .error e) ∨
    ∃ U G : α → α, (∀ x ∈ xs, s.uE x = .ok (U x)) ∧ (∀ x ∈ xs, s.g x = .ok (G x)) ∧ (∀ x, s.gArray x = .ok (G x)) ∧
      s.uENd (.ar xs) = .ok (.ar (xs.map U)) ∧ s.gNd (.ar xs) = .ok (.ar (xs.map G)) := by
  rcases hm : pyDiv s.beta (lit 2 * s.alpha - s.beta) with e | m
  · left
    refine ⟨e, fun x => ?_, fun x => ?_, fun x => ?_, ?_, ?_⟩ <;>
      simp only [Sim.g, Sim.gArray, Sim.gNd, Sim.uE, Sim.uENp, Sim.uENd, hm, bind, Except.bind]
  · right
    have hU : ∀ x ∈ xs, s.uE x = .ok (s.uRef * PyPow.pow x m) := fun x hx => by
      simp only [Sim.uE, hm, pyPow, (h x hx).1, bind, Except.bind, pure, Except.pure, Bool.false_and, Bool.false_eq_true, if_false]
    have hA : s.uENd (.ar xs) = .ok (.ar (xs.map fun x => s.uRef * PyPow.pow x m)) := by
      simp only [Sim.uENd, hm, bind, Except.bind, pure, Except.pure]
    refine ⟨fun x => s.uRef * PyPow.pow x m, fun x => PySqrt.sqrt (s.uRef * PyPow.pow x m / (s.gFactor * s.nuRef * x)), hU, fun x hx => ?_, fun x => ?_, hA, ?_⟩
    · simp only [Sim.g, hU x hx, pyDiv, (h x hx).2, bind, Except.bind, pure, Except.pure, Bool.false_eq_true, if_false]
    · simp only [Sim.gArray, Sim.uENp, hm, bind, Except.bind, pure, Except.pure]
    · simp only [Sim.gNd, hA, op_same, Nd.map, bind, Except.bind, pure, Except.pure, List.map_map]; rfl

/-- **C105**, the part that holds (missing: points at the origin). For every object in whatever state, on non-empty arrays. -/
theorem similarity_arrays_partial (s : Sim α) (rho : α) (xs : List α) (hx : xs ≠ []) (h : OffOrigin s xs) : ArraysAgree s rho xs := by
  have hD : Pointwise xs s.shapeD (s.shapeDNd (.ar xs)) := by
    rcases hq : pyDiv s.etaD s.etaM with e | q
    · exact pointwise_error hx ⟨e, by simp only [Sim.shapeDNd, hq, bind, Except.bind]⟩ fun _ _ => ⟨e, by simp only [Sim.shapeD, hq, bind, Except.bind]⟩
    · exact pointwise_ok (fun _ => q * lit 1) (by simp only [Sim.shapeDNd, hq, bind, Except.bind, pure, Except.pure, Nd.map])
        fun _ _ => by simp only [Sim.shapeD, hq, bind, Except.bind, pure, Except.pure]
  have hK : Pointwise xs s.shapeK (s.shapeKNd (.ar xs)) := by
    rcases hq : pyDiv s.etaK s.etaM with e | q
    · exact pointwise_error hx ⟨e, by simp only [Sim.shapeKNd, hq, bind, Except.bind]⟩ fun _ _ => ⟨e, by simp only [Sim.shapeK, hq, bind, Except.bind]⟩
    · exact pointwise_ok (fun _ => q * lit 1) (by simp only [Sim.shapeKNd, hq, bind, Except.bind, pure, Except.pure, Nd.map])
        fun _ _ => by simp only [Sim.shapeK, hq, bind, Except.bind, pure, Except.pure]
  rcases alternatives s xs h with ⟨e, h1, h2, -, h3, h4⟩ | ⟨U, G, h1, h2, -, h3, h4⟩
  · refine ⟨pointwise_error hx ⟨e, h3⟩ fun x _ => ⟨e, h1 x⟩, ?_, ?_, ?_, ?_, ?_, hD, hK, ?_, ?_⟩ <;>
      refine pointwise_error hx ⟨e, ?_⟩ fun x _ => ⟨e, ?_⟩ <;>
      simp only [Sim.vENd, Sim.deltaDNd, Sim.deltaMNd, Sim.deltaKNd, Sim.deltaSNd, Sim.tauWNd, Sim.dissipationNd, h3, h4,
        Sim.vE, Sim.deltaD, Sim.deltaM, Sim.deltaK, Sim.deltaS, Sim.tauW, Sim.dissipation, h1, h2, bind, Except.bind]
  · refine ⟨pointwise_ok U h3 h1, ?_, ?_, ?_, ?_, ?_, hD, hK, ?_, ?_⟩
    · exact pointwise_ok (fun x => s.nuRef * G x * s.etaD) (by simp only [Sim.vENd, h4, Nd.map, bind, Except.bind, pure, Except.pure, List.map_map]; rfl)
        fun x hx => by simp only [Sim.vE, h2 x hx, bind, Except.bind, pure, Except.pure]
    · exact pointwise_ok (fun x => s.etaD / G x) (by simp only [Sim.deltaDNd, h4, Nd.map, bind, Except.bind, pure, Except.pure, List.map_map]; rfl)
        fun x hx => by simp only [Sim.deltaD, h2 x hx, bind, Except.bind, pure, Except.pure]
    · exact pointwise_ok (fun x => s.etaM / G x) (by simp only [Sim.deltaMNd, h4, Nd.map, bind, Except.bind, pure, Except.pure, List.map_map]; rfl)
        fun x hx => by simp only [Sim.deltaM, h2 x hx, bind, Except.bind, pure, Except.pure]
    · exact pointwise_ok (fun x => s.etaK / G x) (by simp only [Sim.deltaKNd, h4, Nd.map, bind, Except.bind, pure, Except.pure, List.map_map]; rfl)
        fun x hx => by simp only [Sim.deltaK, h2 x hx, bind, Except.bind, pure, Except.pure]
    · exact pointwise_ok (fun x => s.etaS / G x) (by simp only [Sim.deltaSNd, h4, Nd.map, bind, Except.bind, pure, Except.pure, List.map_map]; rfl)
        fun x hx => by simp only [Sim.deltaS, h2 x hx, bind, Except.bind, pure, Except.pure]
    · exact pointwise_ok (fun x => rho * s.nuRef * U x * G x * s.fwPp)
        (by simp only [Sim.tauWNd, h3, h4, Nd.map, op_same, bind, Except.bind, pure, Except.pure, List.map_map, Function.comp_def])
        fun x hx => by simp only [Sim.tauW, h1 x hx, h2 x hx, bind, Except.bind, pure, Except.pure]
    · exact pointwise_ok (fun x => rho * s.nuRef * G x * (U x * U x) * (lit (1/2) * (s.alpha + lit 2 * s.beta) * s.etaK))
        (by simp only [Sim.dissipationNd, h3, h4, Nd.map, op_same, bind, Except.bind, pure, Except.pure, List.map_map, Function.comp_def])
        fun x hx => by simp only [Sim.dissipation, h1 x hx, h2 x hx, bind, Except.bind, pure, Except.pure]


/-- An operand that has the value `a p` at the point `p`. -/
private def Like {ι : Type} (pts : List ι) (a : ι → α) (N : Nd α) : Prop := N = .ar (pts.map a) ∨ ∃ c, N = .sc c ∧ ∀ p ∈ pts, a p = c

private theorem like_op {ι : Type} (f : α → α → α) {pts : List ι} {a b : ι → α} {N : Nd α} (h : Like pts a N) :
    N.op f (.ar (pts.map b)) = .ok (.ar (pts.map fun p => f (a p) (b p))) ∧ (Nd.ar (pts.map b)).op f N = .ok (.ar (pts.map fun p => f (b p) (a p))) := by
  rcases h with rfl | ⟨c, rfl, hc⟩
  · exact ⟨op_same f pts a b, op_same f pts b a⟩
  · simp only [Nd.op, List.map_map, Except.ok.injEq, Nd.ar.injEq]
    constructor <;> exact List.map_congr_left fun p hp => by simp only [Function.comp, hc p hp]

private theorem like_map {ι : Type} (f : α → α) {pts : List ι} {a : ι → α} {N : Nd α} (h : Like pts a N) : Like pts (fun p => f (a p)) (N.map f) := by
  rcases h with rfl | ⟨c, rfl, hc⟩
  · left; simp only [Nd.map, List.map_map]; rfl
  · right; exact ⟨f c, rfl, fun p hp => by simp only [hc p hp]⟩

/-- Either both the array and all points raise, or the values are those of `a`. -/
private def Alt {ι : Type} (pts : List ι) (q : ι → Except Exc α) (res : Except Exc (Nd α)) : Prop :=
  (∃ e, res = .error e ∧ ∀ p ∈ pts, ∃ e', q p = .error e') ∨ ∃ a N, res = .ok N ∧ Like pts a N ∧ ∀ p ∈ pts, q p = .ok (a p)

private theorem plane_core (s : Sim α) {pts : List (α × α)} (hne : pts ≠ []) {X Y : Nd α} (hu : Alt pts (fun p => s.uE p.1) (s.uENd X))
    (hg : Alt pts (fun p => s.g p.1) (s.gNd X))
    (he : (∃ e, s.etaNd X Y = .error e ∧ ∀ p ∈ pts, ∃ e', s.eta p.1 p.2 = .error e') ∨
      ∃ H : α × α → α, s.etaNd X Y = .ok (.ar (pts.map H)) ∧ ∀ p ∈ pts, s.eta p.1 p.2 = .ok (H p)) : PlaneAgrees s pts X Y := by
  have hemp : ∀ H : α × α → α, (pts.map H).isEmpty = false := fun H => by cases pts <;> simp at hne ⊢
  rcases he with ⟨e, he, hep⟩ | ⟨H, he, hep⟩
  · refine ⟨pointwise_error hne ⟨e, he⟩ hep, ?_, pointwise_error hne ⟨e, by simp only [Sim.vNd, he, bind, Except.bind]⟩ fun p hp => ?_⟩
    · rcases hu with ⟨e1, hu, hup⟩ | ⟨U, N, hu, -, hup⟩
      · refine pointwise_error hne ⟨e1, by simp only [Sim.uNd, hu, bind, Except.bind]⟩ fun p hp => ?_
        obtain ⟨e2, h2⟩ := hup p hp
        exact ⟨e2, by simp only [Sim.u, h2, bind, Except.bind]⟩
      · refine pointwise_error hne ⟨e, by simp only [Sim.uNd, hu, he, bind, Except.bind]⟩ fun p hp => ?_
        obtain ⟨e2, h2⟩ := hep p hp
        exact ⟨e2, by simp only [Sim.u, hup p hp, h2, bind, Except.bind]⟩
    · obtain ⟨e2, h2⟩ := hep p hp
      exact ⟨e2, by simp only [Sim.v, h2, bind, Except.bind]⟩
  · refine ⟨pointwise_ok H he hep, ?_, ?_⟩
    · rcases hu with ⟨e1, hu, hup⟩ | ⟨U, N, hu, hl, hup⟩
      · refine pointwise_error hne ⟨e1, by simp only [Sim.uNd, hu, bind, Except.bind]⟩ fun p hp => ?_
        obtain ⟨e2, h2⟩ := hup p hp
        exact ⟨e2, by simp only [Sim.u, h2, bind, Except.bind]⟩
      · rcases hf : s.f with _ | sol
        · exact pointwise_error hne ⟨.valueError, by simp only [Sim.uNd, hu, he, Sim.fNd, hf, bind, Except.bind]⟩
            fun p hp => ⟨.valueError, by simp only [Sim.u, hup p hp, hep p hp, Sim.fpAt, hf, bind, Except.bind]⟩
        · refine pointwise_ok (fun p => U p * (sol (H p)).2.1) ?_ fun p hp => by
            simp only [Sim.u, hup p hp, hep p hp, Sim.fpAt, hf, bind, Except.bind, pure, Except.pure]
          simp only [Sim.uNd, hu, he, Sim.fNd, hf, hemp, Bool.false_eq_true, if_false, bind, Except.bind, List.map_map]
          exact (like_op (· * ·) hl).1
    · rcases hg with ⟨e1, hg, hgp⟩ | ⟨G, N, hg, hl, hgp⟩
      · refine pointwise_error hne ⟨e1, by simp only [Sim.vNd, he, hg, bind, Except.bind]⟩ fun p hp => ?_
        obtain ⟨e2, h2⟩ := hgp p hp
        exact ⟨e2, by simp only [Sim.v, hep p hp, h2, bind, Except.bind]⟩
      · rcases hf : s.f with _ | sol
        · exact pointwise_error hne ⟨.valueError, by simp only [Sim.vNd, he, hg, Sim.fNd, hf, bind, Except.bind]⟩
            fun p hp => ⟨.valueError, by simp only [Sim.v, hgp p hp, hep p hp, Sim.fAt, hf, bind, Except.bind]⟩
        · rcases hr : pyDiv s.beta s.alpha with e | r
          · exact pointwise_error hne ⟨e, by simp only [Sim.vNd, he, hg, Sim.fNd, hf, hr, hemp, Bool.false_eq_true, if_false, bind, Except.bind]⟩
              fun p hp => ⟨e, by simp only [Sim.v, hgp p hp, hep p hp, Sim.fAt, hf, hr, bind, Except.bind]⟩
          · refine pointwise_ok (fun p => -(s.alpha * s.nuRef * G p * ((sol (H p)).1 + (r - lit 1) * H p * (sol (H p)).2.1))) ?_ fun p hp => by
              simp only [Sim.v, hgp p hp, hep p hp, Sim.fpAt, Sim.fAt, hf, hr, bind, Except.bind, pure, Except.pure]
            simp only [Sim.vNd, he, hg, Sim.fNd, hf, hr, hemp, Bool.false_eq_true, if_false, bind, Except.bind, pure, Except.pure]
            have e1 : (Nd.ar (pts.map H)).map (fun e => (r - lit 1) * e) = .ar (pts.map fun p => (r - lit 1) * H p) := by
              simp only [Nd.map, List.map_map]; rfl
            have e2 : (pts.map H).map (fun e => (sol e).1) = pts.map fun p => (sol (H p)).1 := by simp only [List.map_map]; rfl
            have e3 : (pts.map H).map (fun e => (sol e).2.1) = pts.map fun p => (sol (H p)).2.1 := by simp only [List.map_map]; rfl
            have e4 := (like_op (· * ·) (b := fun p => (sol (H p)).1 + (r - lit 1) * H p * (sol (H p)).2.1) (like_map (fun g => s.alpha * s.nuRef * g) hl)).1
            simp only [e1, e2, e3, op_same, e4, Except.ok.injEq]
            simp only [Nd.map, List.map_map]
            rfl

/-- **C105**, the part that holds for points of the plane given by two arrays of the same length (missing: points at the origin). -/
theorem plane_arrays_partial (s : Sim α) (pts : List (α × α)) (hne : pts ≠ []) (h : OffOrigin s (pts.map Prod.fst)) :
    PlaneAgrees s pts (.ar (pts.map Prod.fst)) (.ar (pts.map Prod.snd)) := by
  have mem : ∀ p ∈ pts, p.1 ∈ pts.map Prod.fst := fun p hp => List.mem_map.2 ⟨p, hp, rfl⟩
  rcases alternatives s _ h with ⟨e, h1, h2, h2', h3, h4⟩ | ⟨U, G, h1, h2, h2', h3, h4⟩
  · exact plane_core s hne (.inl ⟨e, h3, fun p _ => ⟨e, h1 _⟩⟩) (.inl ⟨e, h4, fun p _ => ⟨e, h2 _⟩⟩)
      (.inl ⟨e, by simp only [Sim.etaNd, h4, bind, Except.bind], fun p _ => ⟨e, by simp only [Sim.eta, h2', bind, Except.bind]⟩⟩)
  · refine plane_core s hne (.inr ⟨fun p => U p.1, _, h3, .inl (by simp only [List.map_map]; rfl), fun p hp => h1 _ (mem p hp)⟩)
      (.inr ⟨fun p => G p.1, _, h4, .inl (by simp only [List.map_map]; rfl), fun p hp => h2 _ (mem p hp)⟩)
      (.inr ⟨fun p => p.2 * G p.1, ?_, fun p hp => by simp only [Sim.eta, h2', bind, Except.bind, pure, Except.pure]⟩)
    simp only [Sim.etaNd, h4, bind, Except.bind, List.map_map]
    exact op_same (· * ·) pts Prod.snd fun p => G p.1

/-- **C105**, the same at a fixed distance from the wall. -/
theorem line_arrays_partial (s : Sim α) (xs : List α) (y : α) (hne : xs ≠ []) (h : OffOrigin s xs) :
    PlaneAgrees s (xs.map fun x => (x, y)) (.ar xs) (.sc y) := by
  have e0 : (xs.map fun x => (x, y)).map Prod.fst = xs := by simp [List.map_map, Function.comp_def]
  have hne' : (xs.map fun x => (x, y)) ≠ [] := by simpa using hne
  have mem : ∀ p ∈ xs.map (fun x => (x, y)), p.1 ∈ xs ∧ p.2 = y := fun p hp => by
    obtain ⟨x, hx, rfl⟩ := List.mem_map.1 hp
    exact ⟨hx, rfl⟩
  have lk : ∀ f : α → α, xs.map f = (xs.map fun x => (x, y)).map fun p => f p.1 := fun f => by simp only [List.map_map]; rfl
  rcases alternatives s _ h with ⟨e, h1, h2, h2', h3, h4⟩ | ⟨U, G, h1, h2, h2', h3, h4⟩
  · exact plane_core s hne' (.inl ⟨e, h3, fun p _ => ⟨e, h1 _⟩⟩) (.inl ⟨e, h4, fun p _ => ⟨e, h2 _⟩⟩)
      (.inl ⟨e, by simp only [Sim.etaNd, h4, bind, Except.bind], fun p _ => ⟨e, by simp only [Sim.eta, h2', bind, Except.bind]⟩⟩)
  · refine plane_core s hne' (.inr ⟨fun p => U p.1, _, h3, .inl (by rw [lk]), fun p hp => h1 _ (mem p hp).1⟩)
      (.inr ⟨fun p => G p.1, _, h4, .inl (by rw [lk]), fun p hp => h2 _ (mem p hp).1⟩)
      (.inr ⟨fun p => p.2 * G p.1, ?_, fun p hp => by simp only [Sim.eta, h2', bind, Except.bind, pure, Except.pure]⟩)
    simp only [Sim.etaNd, h4, bind, Except.bind, Nd.op, List.map_map]
    rfl

/-- **C105** for profiles: at one python float `x` and an array of distances from the wall there is no restriction. -/
theorem profile_arrays (s : Sim α) (x : α) (ys : List α) (hne : ys ≠ []) : PlaneAgrees s (ys.map fun y => (x, y)) (.sc x) (.ar ys) := by
  have hne' : (ys.map fun y => (x, y)) ≠ [] := by simpa using hne
  have mem : ∀ p ∈ ys.map (fun y => (x, y)), p.1 = x := fun p hp => by
    obtain ⟨y, hy, rfl⟩ := List.mem_map.1 hp
    rfl
  refine plane_core s hne' ?_ ?_ ?_
  · rcases hu : s.uE x with e | u
    · refine .inl ⟨e, ?_, fun p hp => ⟨e, by simp only [mem p hp, hu]⟩⟩
      simp only [Sim.uE, bind, Except.bind] at hu
      simp only [Sim.uENd, bind, Except.bind]
      rcases hm : pyDiv s.beta (lit 2 * s.alpha - s.beta) with e' | m <;> simp only [hm] at hu ⊢
      · simpa using hu
      · rcases hp : pyPow x m with e' | p <;> simp only [hp] at hu ⊢
        · simpa using hu
        · simp [pure, Except.pure] at hu
    · refine .inr ⟨fun _ => u, .sc u, ?_, .inr ⟨u, rfl, fun _ _ => rfl⟩, fun p hp => by simp only [mem p hp, hu]⟩
      simp only [Sim.uE, bind, Except.bind] at hu
      simp only [Sim.uENd, bind, Except.bind]
      rcases hm : pyDiv s.beta (lit 2 * s.alpha - s.beta) with e' | m <;> simp only [hm] at hu ⊢
      · simp at hu
      · rcases hp : pyPow x m with e' | p <;> simp only [hp] at hu ⊢
        · simp at hu
        · simp only [pure, Except.pure, Except.ok.injEq] at hu ⊢
          rw [hu]
  · rcases hg : s.g x with e | g
    · exact .inl ⟨e, by simp only [Sim.gNd, hg, bind, Except.bind], fun p hp => ⟨e, by simp only [mem p hp, hg]⟩⟩
    · exact .inr ⟨fun _ => g, .sc g, by simp only [Sim.gNd, hg, bind, Except.bind, pure, Except.pure], .inr ⟨g, rfl, fun _ _ => rfl⟩,
        fun p hp => by simp only [mem p hp, hg]⟩
  · rcases hg : s.gArray x with e | g
    · exact .inl ⟨e, by simp only [Sim.etaNd, hg, bind, Except.bind], fun p hp => ⟨e, by simp only [Sim.eta, mem p hp, hg, bind, Except.bind]⟩⟩
    · refine .inr ⟨fun p => p.2 * g, ?_, fun p hp => by simp only [Sim.eta, mem p hp, hg, bind, Except.bind, pure, Except.pure]⟩
      simp only [Sim.etaNd, hg, bind, Except.bind, pure, Except.pure, Nd.op, List.map_map]
      rfl

/-- Coordinates of different lengths, none of them 1, are refused. -/
theorem lengths_refused (s : Sim α) (xs ys : List α) (h : xs.length ≠ ys.length) (hx : xs.length ≠ 1) (hy : ys.length ≠ 1) :
    (∃ e, s.etaNd (.ar xs) (.ar ys) = .error e) ∧ (∃ e, s.uNd (.ar xs) (.ar ys) = .error e) ∧ ∃ e, s.vNd (.ar xs) (.ar ys) = .error e := by
  have key : ∃ e, s.etaNd (.ar xs) (.ar ys) = .error e := by
    rcases hm : pyDiv s.beta (lit 2 * s.alpha - s.beta) with e | m
    · exact ⟨e, by simp only [Sim.etaNd, Sim.gNd, Sim.uENd, hm, bind, Except.bind]⟩
    · have hA : s.uENd (.ar xs) = .ok (.ar (xs.map fun x => s.uRef * PyPow.pow x m)) := by
        simp only [Sim.uENd, hm, bind, Except.bind, pure, Except.pure]
      have hB : s.gNd (.ar xs) = .ok (.ar (xs.map fun x => PySqrt.sqrt (s.uRef * PyPow.pow x m / (s.gFactor * s.nuRef * x)))) := by
        simp only [Sim.gNd, hA, op_same, Nd.map, bind, Except.bind, pure, Except.pure, List.map_map]; rfl
      refine ⟨.valueError, ?_⟩
      simp only [Sim.etaNd, hB, bind, Except.bind, pure, Except.pure, Nd.op]
      have : ∀ bs : List α, bs.length = xs.length → broadcast (· * ·) ys bs = .error .valueError := by
        intro bs hb
        unfold broadcast
        rw [if_neg (by omega)]
        split
        · simp at hy
        · simp at hb; omega
        · rfl
      rw [this _ (by simp)]
  refine ⟨key, ?_, ?_⟩
  · obtain ⟨e, he⟩ := key
    rcases hu : s.uENd (.ar xs) with e' | u
    · exact ⟨e', by simp only [Sim.uNd, hu, bind, Except.bind]⟩
    · exact ⟨e, by simp only [Sim.uNd, hu, he, bind, Except.bind]⟩
  · obtain ⟨e, he⟩ := key
    exact ⟨e, by simp only [Sim.vNd, he, bind, Except.bind]⟩

/-! ### Exact arithmetic, and points at the origin -/

/-- Downstream of the origin there is no restriction, for every object that public calls can produce. -/
theorem downstream_off_origin [PySpecial ℝ] {s : Sim ℝ} (hr : Reached s) (hb : s.beta < 2) {xs : List ℝ} (hx : ∀ x ∈ xs, 0 < x) : OffOrigin s xs := by
  have hs := reached_inRange _ hr
  intro x h
  have h1 := hx x h
  have h2 : 0 < 2 - s.beta := by linarith
  have h3 := hs.nu_pos
  rw [gFactor_eq hs hb]
  have h4 : (2 - s.beta) * s.nuRef * x ≠ 0 := by positivity
  constructor <;> rw [Bool.eq_false_iff]
  · simpa using h1.ne'
  · simp only [ne_eq, real_eq, real_lit, Rat.cast_zero]; exact h4

/-- **C105** in exact arithmetic: downstream of the origin all quantities on arrays are those at the points. -/
theorem similarity_arrays_downstream [PySpecial ℝ] {s : Sim ℝ} (hr : Reached s) (hb : s.beta < 2) (rho : ℝ) {xs : List ℝ} (hne : xs ≠ [])
    (hx : ∀ x ∈ xs, 0 < x) : ArraysAgree s rho xs ∧ (∀ ys : List ℝ, ys.length = xs.length → PlaneAgrees s (xs.zip ys) (.ar xs) (.ar ys)) ∧
      ∀ y, PlaneAgrees s (xs.map fun x => (x, y)) (.ar xs) (.sc y) := by
  have h := downstream_off_origin hr hb hx
  refine ⟨similarity_arrays_partial s rho xs hne h, fun ys hl => ?_, fun y => line_arrays_partial s xs y hne h⟩
  have e1 : (xs.zip ys).map Prod.fst = xs := List.map_fst_zip (by omega)
  have e2 : (xs.zip ys).map Prod.snd = ys := List.map_snd_zip (by omega)
  have := plane_arrays_partial s (xs.zip ys) (by intro h0; rw [h0] at e1; exact hne e1.symm) (by rw [e1]; exact h)
  rwa [e1, e2] at this

example [PySpecial ℝ] : Reached sample ∧ sample.beta < 2 := ⟨.falknerSkan _ _ _ _ _ _ _ sample_made, by norm_num [sample]⟩

/-- Tools with a fixed profile. -/
noncomputable def fltTools : Tools (Flt ℝ) where
  ivp _ := .ok ⟨true, (.fin 0, .fin 1, .fin 1), fun _ => (.fin 0, .fin 1, .fin 1)⟩
  quad _ _ _ := .ok (.fin 1)
  root _ _ _ := .ok (true, .fin 1)

/-- **C105** is false of the code at the origin: for a Blasius object the displacement thickness at the python float 0 raises ZeroDivisionError, on
an array that contains 0 it is returned (as zero). -/
theorem similarity_arrays_fail :
    ¬ ∀ (s : Sim (Flt ℝ)) (rho : Flt ℝ) (xs : List (Flt ℝ)), Reached s → xs ≠ [] → ArraysAgree s rho xs := by
  intro H
  have hmk : ∃ s, mkBlasius fltTools (.fin 1) (.fin 1) (some (.fin 1)) (some (.fin 1)) = .ok s ∧ s.cls = .blasius ∧ s.alpha = .fin 1 ∧ s.beta = .fin 0 ∧
      s.nuRef = .fin 1 ∧ s.uRef = .fin 1 ∧ s.etaD = .fin 1 := by
    have h1 : ¬ (1:ℝ) ≤ 0 := by norm_num
    simp [mkBlasius, mkBase, Sim.setSolutionParameters, badParam, Sim.calculateSolution, search, fltTools, Sim.thicknesses, Sim.fwPp, pyDiv, h1,
      Flt.fin_div, bind, Except.bind, pure, Except.pure]
  obtain ⟨s, hmk, hc, ha, hb, hn, hu, hd⟩ := hmk
  obtain ⟨-, -, h, -⟩ := H s (.fin 1) [.fin 0] (.blasius _ _ _ _ _ _ hmk) (by simp)
  have hm : pyDiv s.beta (lit 2 * s.alpha - s.beta) = .ok (.fin 0) := by
    simp [pyDiv, ha, hb, Flt.fin_div]
  have hpow : PyPow.pow (.fin 0 : Flt ℝ) (.fin 0) = .fin 1 := by simp [PyPow.pow]
  have hg : s.gFactor * s.nuRef * .fin 0 = .fin 0 := by simp [Sim.gFactor, hc, hn]
  have hU : s.uENd (.ar [.fin 0]) = .ok (.ar [.fin 1]) := by
    simp only [Sim.uENd, hm, bind, Except.bind, pure, Except.pure, List.map_cons, List.map_nil, hpow, hu, Flt.fin_mul, mul_one]
  have h1 : s.deltaDNd (.ar [.fin 0]) = .ok (.ar [.fin 0]) := by
    have e1 : (.fin 1 / .fin 0 : Flt ℝ) = .pinf := by
      show Flt.div _ _ = _
      simp [Flt.div, Flt.infTimes, compare, compareOfLessAndEq]
      norm_num
    have e2 : PySqrt.sqrt (.pinf : Flt ℝ) = .pinf := rfl
    have e3 : (.fin 1 / .pinf : Flt ℝ) = .fin 0 := rfl
    have e4 := op_same (fun a b : Flt ℝ => a / b) [()] (fun _ => .fin 1) (fun _ => .fin 0)
    simp only [List.map_cons, List.map_nil, e1] at e4
    simp only [Sim.deltaDNd, Sim.gNd, hU, hg, List.map_cons, List.map_nil, bind, Except.bind, pure, Except.pure, e4, Nd.map, e2, e3, hd]
  obtain ⟨vs, hv, hp⟩ := (h _).1 h1
  have h2 : s.deltaD (.fin 0) = .error .zeroDivision := by
    have : s.uE (.fin 0) = .ok (.fin 1) := by
      simp only [Sim.uE, hm, bind, Except.bind, pure, Except.pure, pyPow, hpow, hu]
      simp
    simp only [Sim.deltaD, Sim.g, this, hg, pyDiv, bind, Except.bind, Flt.lit_fin, Flt.fin_eq]
    simp
  cases hp with
  | cons h0 _ => rw [h2] at h0; cases h0

end IBL.Analytic
