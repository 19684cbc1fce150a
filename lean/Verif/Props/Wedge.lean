import Verif.Props.FlatPlate

/-!
C113: the linear Thwaites method in a wedge flow `u_e = U x^p`. Without the 0.001 that the code adds to the velocity the layer would have
`delta_m^2 = 0.45 nu x / ((5 p + 1) u_e)` at every x if it has it at one.
-/

namespace IBL
open Fits

/-- The velocity is `U x^p` for positive `x`, and `du` is its slope. -/
structure WedgeFlow (u du : ℝ → ℝ) (U p : ℝ) : Prop where
  scale : 0 < U
  low : -1/5 < p
  high : p ≤ 1
  velocity : ∀ x, 0 < x → u x = U * x ^ p
  slope : ∀ x, 0 < x → HasDerivAt u (du x) x

theorem WedgeFlow.pos {u du : ℝ → ℝ} {U p : ℝ} (W : WedgeFlow u du U p) {x : ℝ} (hx : 0 < x) : 0 < u x := by
  rw [W.velocity x hx]
  exact mul_pos W.scale (Real.rpow_pos_of_pos hx p)

theorem WedgeFlow.slope_eq {u du : ℝ → ℝ} {U p : ℝ} (W : WedgeFlow u du U p) {x : ℝ} (hx : 0 < x) : du x * x = p * u x := by
  have h1 : HasDerivAt (fun t => U * t ^ p) (U * (p * x ^ (p - 1))) x := (Real.hasDerivAt_rpow_const (.inl hx.ne')).const_mul U
  have h2 : HasDerivAt u (U * (p * x ^ (p - 1))) x := by
    refine h1.congr_of_eventuallyEq ?_
    filter_upwards [lt_mem_nhds hx] with t ht
    exact W.velocity t ht
  rw [(W.slope x hx).unique h2, W.velocity x hx]
  have : x ^ p = x ^ (p - 1) * x := by rw [← Real.rpow_add_one hx.ne', sub_add_cancel]
  rw [this]
  ring

/-- The momentum thickness squared in Thwaites' similarity solution. -/
noncomputable def similarityThickness2 (nu p u x : ℝ) : ℝ := 0.45 * nu * x / ((5 * p + 1) * u)

/-- A solution of the linear Thwaites method in a wedge flow. -/
structure WedgeLayer (o : Obj ℝ) (u du F : ℝ → ℝ) (U p a b : ℝ) : Prop where
  linear : o.cls = .thwaitesLinear
  sol : o.sol = some fun t => [F t]
  uE : ∀ t, o.vel.uE t = .ok (u t)
  duE : ∀ t, o.vel.duE t = .ok (du t)
  nu : 0 < o.nu
  flow : WedgeFlow u du U p
  start : 0 < a
  ode : ∀ x ∈ Set.Icc a b, SatisfiesOde o F x

private theorem coeff (p s : ℝ) (hk : 0 < 5 * p + 1) :
    6 * p * (0.45 / (5 * p + 1)) + 0.45 / (5 * p + 1) * (1 - p) * (1 + s) = 0.45 + 0.45 / (5 * p + 1) * (1 - p) * s := by
  have h : 0.45 / (5 * p + 1) * (5 * p + 1) = 0.45 := div_mul_cancel₀ _ hk.ne'
  linear_combination h

section
open SolveIvp
variable {o : Obj ℝ} {u du F : ℝ → ℝ} {U p a b : ℝ}

private theorem WedgeLayer.rate (L : WedgeLayer o u du F U p a b) {x : ℝ} (hx : x ∈ Set.Icc a b) :
    HasDerivAt F ((0.45 - 6 * (F x * du x)) / (1/1000 + u x)) x := by
  obtain ⟨r, hr, hd⟩ := L.ode x hx
  have : o.rhs x [F x] = .ok [(0.45 - 6 * (F x * du x)) / (1/1000 + u x)] := by
    simp [Obj.rhs, L.linear, Obj.thwaitesRhs, Obj.calcF, Obj.calcLambda, L.uE, L.duE, bind, Except.bind, pure, Except.pure]
    norm_num
  rw [this] at hr
  simp only [Except.ok.injEq, List.cons.injEq, and_true] at hr
  rwa [hr]

/-- The excess of `K x / u` over the solution, in the weight that makes the linear equation exact. -/
private theorem WedgeLayer.excess (L : WedgeLayer o u du F U p a b) (K : ℝ) {x : ℝ} (hx : x ∈ Set.Icc a b) :
    HasDerivAt (fun t => (u t + 1/1000) ^ 6 * (K * (t / u t) - F t))
      ((u x + 1/1000) ^ 5 * (6 * p * K + K * (1 - p) * (1 + 1/1000 / u x) - 0.45)) x := by
  have hx0 : 0 < x := L.start.trans_le hx.1
  have hu := L.flow.pos hx0
  have hd := L.flow.slope x hx0
  have hs := L.flow.slope_eq hx0
  have h1 : HasDerivAt (fun t => (u t + 1/1000) ^ 6) (6 * (u x + 1/1000) ^ 5 * du x) x := by
    refine ((hd.add_const (1/1000)).fun_pow 6).congr_deriv ?_
    norm_num
  have h2 : HasDerivAt (fun t => K * (t / u t) - F t) (K * ((1 * u x - x * du x) / u x ^ 2) - (0.45 - 6 * (F x * du x)) / (1/1000 + u x)) x :=
    (((hasDerivAt_id x).fun_div hd hu.ne').const_mul K).sub (L.rate hx)
  refine (h1.mul h2).congr_deriv ?_
  have hne : (1/1000 + u x) ≠ 0 := by positivity
  have hdu : du x = p * u x / x := by field_simp; linarith
  rw [hdu]
  have hu' := hu.ne'
  have hx' := hx0.ne'
  have e : u x + 1/1000 = 1/1000 + u x := add_comm _ _
  rw [e]
  field_simp
  ring

private theorem WedgeLayer.above (L : WedgeLayer o u du F U p a b) {K : ℝ} (hK : ∀ x ∈ Set.Icc a b, 0.45 ≤ 6 * p * K + K * (1 - p) * (1 + 1/1000 / u x))
    (h0 : F a ≤ K * (a / u a)) : ∀ x ∈ Set.Icc a b, F x ≤ K * (x / u x) := by
  intro x hx
  have hpos : ∀ t ∈ Set.Icc a b, 0 < u t + 1/1000 := fun t ht => by have := L.flow.pos (L.start.trans_le ht.1); positivity
  have ha : a ∈ Set.Icc a b := ⟨le_rfl, hx.1.trans hx.2⟩
  have mono : MonotoneOn (fun t => (u t + 1/1000) ^ 6 * (K * (t / u t) - F t)) (Set.Icc a b) := by
    apply monotoneOn_of_deriv_nonneg (convex_Icc a b)
    · exact fun t ht => (L.excess K ht).continuousAt.continuousWithinAt
    · exact fun t ht => (L.excess K (interior_subset ht)).differentiableAt.differentiableWithinAt
    · intro t ht
      have ht' : t ∈ Set.Icc a b := interior_subset ht
      rw [(L.excess K ht').deriv]
      exact mul_nonneg (pow_pos (hpos t ht') 5).le (by linarith [hK t ht'])
  have h1 := mono ha hx hx.1
  have h2 : 0 ≤ (u x + 1/1000) ^ 6 * (K * (x / u x) - F x) := le_trans (mul_nonneg (pow_pos (hpos a ha) 6).le (by linarith)) h1
  have := nonneg_of_mul_nonneg_right h2 (pow_pos (hpos x hx) 6)
  linarith

private theorem WedgeLayer.belowK (L : WedgeLayer o u du F U p a b) {K : ℝ} (hK : ∀ x ∈ Set.Icc a b, 6 * p * K + K * (1 - p) * (1 + 1/1000 / u x) ≤ 0.45)
    (h0 : K * (a / u a) ≤ F a) : ∀ x ∈ Set.Icc a b, K * (x / u x) ≤ F x := by
  intro x hx
  have hpos : ∀ t ∈ Set.Icc a b, 0 < u t + 1/1000 := fun t ht => by have := L.flow.pos (L.start.trans_le ht.1); positivity
  have ha : a ∈ Set.Icc a b := ⟨le_rfl, hx.1.trans hx.2⟩
  have mono : AntitoneOn (fun t => (u t + 1/1000) ^ 6 * (K * (t / u t) - F t)) (Set.Icc a b) := by
    apply antitoneOn_of_deriv_nonpos (convex_Icc a b)
    · exact fun t ht => (L.excess K ht).continuousAt.continuousWithinAt
    · exact fun t ht => (L.excess K (interior_subset ht)).differentiableAt.differentiableWithinAt
    · intro t ht
      have ht' : t ∈ Set.Icc a b := interior_subset ht
      rw [(L.excess K ht').deriv]
      exact mul_nonpos_of_nonneg_of_nonpos (pow_pos (hpos t ht') 5).le (by linarith [hK t ht'])
  have h1 := mono ha hx hx.1
  have h2 : (u x + 1/1000) ^ 6 * (K * (x / u x) - F x) ≤ 0 := le_trans h1 (mul_nonpos_of_nonneg_of_nonpos (pow_pos (hpos a ha) 6).le (by linarith))
  have := nonpos_of_mul_nonpos_right h2 (pow_pos (hpos x hx) 6)
  linarith

private theorem deltaM_of (L : WedgeLayer o u du F U p a b) (t : ℝ) : o.deltaM t = .ok (Real.sqrt (F t * o.nu)) := by
  simp [Obj.deltaM, L.linear, Obj.comp, Obj.state, L.sol, bind, Except.bind, pure, Except.pure]

private theorem similarity_eq (L : WedgeLayer o u du F U p a b) {x : ℝ} :
    similarityThickness2 o.nu p (u x) x = 0.45 / (5 * p + 1) * (x / u x) * o.nu := by
  rw [similarityThickness2]
  have : 5 * p + 1 ≠ 0 := by have := L.flow.low; linarith
  by_cases h : u x = 0
  · simp [h]
  · field_simp

/-- The smallest velocity on `[a, b]` is that at one of the ends. -/
private theorem least_velocity (L : WedgeLayer o u du F U p a b) {x : ℝ} (hx : x ∈ Set.Icc a b) : min (u a) (u b) ≤ u x := by
  have hx0 := L.start.trans_le hx.1
  have hb0 := hx0.trans_le hx.2
  rw [L.flow.velocity a L.start, L.flow.velocity b hb0, L.flow.velocity x hx0]
  rcases le_total 0 p with h | h
  · exact (min_le_left _ _).trans (mul_le_mul_of_nonneg_left (Real.rpow_le_rpow L.start.le hx.1 h) L.flow.scale.le)
  · exact (min_le_right _ _).trans (mul_le_mul_of_nonneg_left (Real.rpow_le_rpow_of_nonpos hx0 hx.2 h) L.flow.scale.le)

/-- **C113** where it holds: a layer that starts with the similarity thickness has it at every x, but for a factor: it is never thicker, and
its squared thickness is less by at most the factor `1 + 0.001 (1 - p) / ((5 p + 1) v)` with `v` the smallest velocity (missing: the factor). In
stagnation flow, `p = 1`, there is no factor. -/
theorem wedge_similarity_partial (L : WedgeLayer o u du F U p a b) {d0 : ℝ} (h0 : o.deltaM a = .ok d0) (hd0 : 0 < d0)
    (hs : d0 ^ 2 = similarityThickness2 o.nu p (u a) a) : ∀ x ∈ Set.Icc a b, ∃ d, o.deltaM x = .ok d ∧ 0 < d ∧
      d ^ 2 ≤ similarityThickness2 o.nu p (u x) x ∧
      similarityThickness2 o.nu p (u x) x ≤ d ^ 2 * (1 + 0.001 * (1 - p) / ((5 * p + 1) * min (u a) (u b))) := by
  intro x hx
  have hq : 0 < 5 * p + 1 := by have := L.flow.low; linarith
  have h1p : 0 ≤ 1 - p := by have := L.flow.high; linarith
  have ha : a ∈ Set.Icc a b := ⟨le_rfl, hx.1.trans hx.2⟩
  have hx0 := L.start.trans_le hx.1
  have hua := L.flow.pos L.start
  have hux := L.flow.pos hx0
  have hub := L.flow.pos (hx0.trans_le hx.2)
  have hnu := L.nu
  obtain ⟨v, hv⟩ : ∃ v, v = min (u a) (u b) := ⟨_, rfl⟩
  have hv0 : 0 < v := by rw [hv]; exact lt_min hua hub
  have hle : ∀ t ∈ Set.Icc a b, v ≤ u t := fun t ht => by rw [hv]; exact least_velocity L ht
  rw [← hv]
  rw [deltaM_of L] at h0
  have e0 := Except.ok.inj h0
  have hF0 : 0 < F a := pos_of_mul_pos_left (Real.sqrt_pos.1 (by rw [e0]; exact hd0)) L.nu.le
  rw [← e0, Real.sq_sqrt (mul_pos hF0 L.nu).le, similarity_eq L] at hs
  have hFa : F a = 0.45 / (5 * p + 1) * (a / u a) := mul_right_cancel₀ L.nu.ne' hs
  have up := L.above (K := 0.45 / (5 * p + 1)) (fun t ht => by
    have hut := L.flow.pos (L.start.trans_le ht.1)
    have : 6 * p * (0.45 / (5 * p + 1)) + 0.45 / (5 * p + 1) * (1 - p) * (1 + 1/1000 / u t) = 0.45 + 0.45 / (5 * p + 1) * (1 - p) * (1/1000 / u t) := coeff p _ hq
    rw [this]
    have : 0 ≤ 0.45 / (5 * p + 1) * (1 - p) * (1/1000 / u t) := by positivity
    linarith) hFa.le x hx
  obtain ⟨r, hr⟩ : ∃ r, r = 0.001 * (1 - p) / ((5 * p + 1) * v) := ⟨_, rfl⟩
  have hr0 : 0 ≤ r := by rw [hr]; positivity
  have down := L.belowK (K := 0.45 / ((5 * p + 1) * (1 + r))) (fun t ht => by
    have hut := L.flow.pos (L.start.trans_le ht.1)
    have hvt := hle t ht
    have e : (5 * p + 1) * (1 + r) = 5 * p + 1 + (1 - p) * (1/1000 / v) := by rw [hr]; field_simp; ring
    have hden : 0 < 5 * p + 1 + (1 - p) * (1/1000 / v) := by positivity
    rw [e]
    have h3 : (1/1000 : ℝ) / u t ≤ 1/1000 / v := div_le_div_of_nonneg_left (by norm_num) hv0 hvt
    have : 6 * p * (0.45 / (5 * p + 1 + (1 - p) * (1/1000 / v))) + 0.45 / (5 * p + 1 + (1 - p) * (1/1000 / v)) * (1 - p) * (1 + 1/1000 / u t) =
        0.45 * (5 * p + 1 + (1 - p) * (1/1000 / u t)) / (5 * p + 1 + (1 - p) * (1/1000 / v)) := by
      generalize (1:ℝ)/1000 / v = s at hden
      generalize (1:ℝ)/1000 / u t = s'
      field_simp; ring
    rw [this, div_le_iff₀ hden]
    nlinarith [mul_le_mul_of_nonneg_left h3 h1p]) (by
    rw [hFa]
    refine mul_le_mul_of_nonneg_right ?_ (div_pos L.start hua).le
    refine div_le_div_of_nonneg_left (by norm_num) hq ?_
    nlinarith) x hx
  have hFx : 0 < F x := lt_of_lt_of_le (by positivity) down
  refine ⟨_, deltaM_of L x, Real.sqrt_pos.2 (mul_pos hFx hnu), ?_, ?_⟩
  · rw [Real.sq_sqrt (mul_pos hFx hnu).le, similarity_eq L]
    exact mul_le_mul_of_nonneg_right up hnu.le
  · rw [Real.sq_sqrt (mul_pos hFx hnu).le, similarity_eq L, ← hr]
    have : 0.45 / (5 * p + 1) * (x / u x) = 0.45 / ((5 * p + 1) * (1 + r)) * (x / u x) * (1 + r) := by field_simp
    rw [this]
    have h1r : 0 < 1 + r := by linarith
    nlinarith [mul_le_mul_of_nonneg_right down (mul_pos hnu h1r).le]

/-- **C113**, stagnation flow: there the thickness is the similarity one at every x. -/
theorem wedge_stagnation (L : WedgeLayer o u du F U 1 a b) {d0 : ℝ} (h0 : o.deltaM a = .ok d0) (hd0 : 0 < d0)
    (hs : d0 ^ 2 = similarityThickness2 o.nu 1 (u a) a) : ∀ x ∈ Set.Icc a b, ∃ d, o.deltaM x = .ok d ∧ 0 < d ∧
      d ^ 2 = similarityThickness2 o.nu 1 (u x) x := by
  intro x hx
  obtain ⟨d, h1, h2, h3, h4⟩ := wedge_similarity_partial L h0 hd0 hs x hx
  refine ⟨d, h1, h2, le_antisymm h3 ?_⟩
  simpa using h4

/-- The full claim: the similarity thickness is kept, whatever the exponent. -/
def WedgeSimilarity : Prop :=
  ∀ (o : Obj ℝ) (u du F : ℝ → ℝ) (U p a b : ℝ), WedgeLayer o u du F U p a b → ∀ d0, o.deltaM a = .ok d0 → 0 < d0 →
    d0 ^ 2 = similarityThickness2 o.nu p (u a) a → ∀ x ∈ Set.Icc a b, ∃ d, o.deltaM x = .ok d ∧ 0 < d ∧ d ^ 2 = similarityThickness2 o.nu p (u x) x

/-- A flat plate, `p = 0`, with the velocity 1, the viscosity 1 and the similarity thickness at `x = 1/2`. -/
private noncomputable def plateF : ℝ → ℝ := fun x => 0.225 + 0.45 / (1 + 1/1000) * (x - 1/2)
private noncomputable def plate : Obj ℝ where
  cls := .thwaitesLinear
  nu := 1
  vel := ⟨some (.fn fun _ => .ok 1), some (.fn fun _ => .ok 0), none⟩
  ic := .manual 0 1 0 (Real.sqrt 0.225) 0
  events := [.sepThwaites Fits.white]
  sol := some fun x => [plateF x]
  fits := some Fits.white

private theorem plate_layer : WedgeLayer plate (fun _ => 1) (fun _ => 0) plateF 1 0 (1/2) 1 where
  linear := rfl
  sol := rfl
  uE t := by simp [plate, VelState.uE, VelState.rawU, callOpt, Vel.call]
  duE t := by simp [plate, VelState.duE, VelState.rawDu, callOpt, Vel.call]
  nu := one_pos
  flow := ⟨one_pos, by norm_num, zero_le_one, fun x _ => by simp, fun x _ => hasDerivAt_const x 1⟩
  start := by norm_num
  ode x hx := by
    refine ⟨0.45 / (1 + 1/1000), ?_, ?_⟩
    · simp [plate, Obj.rhs, Obj.thwaitesRhs, Obj.calcF, Obj.calcLambda, VelState.uE, VelState.duE, VelState.rawU, VelState.rawDu, callOpt,
        Vel.call, bind, Except.bind, pure, Except.pure]
      norm_num
    · have := (((hasDerivAt_id x).sub_const (1/2)).const_mul (0.45 / (1 + 1/1000 : ℝ))).const_add 0.225
      exact this.congr_deriv (by ring)

private theorem plate_start : plate.deltaM (1/2) = .ok (Real.sqrt 0.225) ∧ (Real.sqrt 0.225) ^ 2 = similarityThickness2 plate.nu 0 1 (1/2) := by
  refine ⟨?_, ?_⟩
  · rw [deltaM_of plate_layer]
    simp [plateF, plate]
  · rw [Real.sq_sqrt (by norm_num)]
    norm_num [similarityThickness2, plate]

/-- The full claim is false: on the flat plate the layer comes out thinner. -/
theorem wedge_similarity_fails : ¬ WedgeSimilarity := by
  intro h
  obtain ⟨d, h1, -, h2⟩ := h plate _ _ plateF 1 0 (1/2) 1 plate_layer _ plate_start.1 (Real.sqrt_pos.2 (by norm_num)) plate_start.2 1 ⟨by norm_num, le_rfl⟩
  rw [deltaM_of plate_layer] at h1
  rw [← Except.ok.inj h1, Real.sq_sqrt (by norm_num [plateF, plate])] at h2
  norm_num [plateF, plate, similarityThickness2] at h2

/-- The hypotheses of `wedge_similarity_partial` hold there. -/
example : ∃ o u du F d0, WedgeLayer o u du F 1 0 (1/2) 1 ∧ o.deltaM (1/2) = .ok d0 ∧ 0 < d0 ∧ d0 ^ 2 = similarityThickness2 o.nu 0 (u (1/2)) (1/2) :=
  ⟨plate, _, _, plateF, _, plate_layer, plate_start.1, Real.sqrt_pos.2 (by norm_num), plate_start.2⟩

/-- **C113**, separation: with an exponent above -0.1, the value of Thwaites' theory, and fits whose wall shear is positive above
`lambda = -0.09`, a `solve` that starts with at most the similarity thickness and follows its solution does not report SEPARATED. -/
theorem wedge_attached (L : WedgeLayer o u du F U p a b) (hp : -1/10 < p) (m : Fits ℝ) (hm : ∀ lam, 0 < m.shearAt lam ↔ -9/100 < lam)
    (hF0 : 0 < F a) (hs : F a * o.nu ≤ similarityThickness2 o.nu p (u a) a) (stepper : Stepper ℝ) (root : RootFinder ℝ) (q : IvpProblem ℝ)
    (r : IntegrationResult ℝ) (R : SepRun o (.sepThwaites m) a b stepper root q r) (hab : a ≤ b) (hq : q.y0 = [F a])
    (hsteps : ∀ s ∈ (stepper q).steps, s.t ∈ Set.Icc a b ∧ s.y = [F s.t]) : r.status ≠ .separated := by
  have hk : 0 < 5 * p + 1 := by linarith
  have h1p : 0 ≤ 1 - p := by have := L.flow.high; linarith
  rw [similarity_eq L] at hs
  have up := L.above (K := 0.45 / (5 * p + 1)) (fun t ht => by
    have hut := L.flow.pos (L.start.trans_le ht.1)
    have : 6 * p * (0.45 / (5 * p + 1)) + 0.45 / (5 * p + 1) * (1 - p) * (1 + 1/1000 / u t) = 0.45 + 0.45 / (5 * p + 1) * (1 - p) * (1/1000 / u t) := coeff p _ hk
    rw [this]
    have : 0 ≤ 0.45 / (5 * p + 1) * (1 - p) * (1/1000 / u t) := by positivity
    linarith) (le_of_mul_le_mul_right hs L.nu)
  have hlow : ∀ t ∈ Set.Icc a b, 0 ≤ F t := fun t ht => by
    have := L.belowK (K := 0) (fun x _ => by norm_num) (by simpa using hF0.le) t ht
    simpa using this
  have hlam : ∀ t ∈ Set.Icc a b, -9/100 < F t * du t := fun t ht => by
    have ht0 := L.start.trans_le ht.1
    have hu := L.flow.pos ht0
    have hdu : du t = p * (u t / t) := by have := L.flow.slope_eq ht0; field_simp; linarith
    rw [hdu]
    have hut : 0 < u t / t := div_pos hu ht0
    rcases le_total 0 p with h | h
    · have := mul_nonneg (hlow t ht) (mul_nonneg h hut.le)
      linarith
    · have h1 : F t * (u t / t) ≤ 0.45 / (5 * p + 1) := by
        refine (mul_le_mul_of_nonneg_right (up t ht) hut.le).trans (le_of_eq ?_)
        field_simp
      have h2 : p * (0.45 / (5 * p + 1)) ≤ F t * (p * (u t / t)) := by nlinarith
      refine lt_of_lt_of_le ?_ h2
      rw [mul_div_assoc', lt_div_iff₀ hk]
      linarith
  have hv : ∀ t, o.eventValue (.sepThwaites m) t [F t] = .ok (m.shearAt (F t * du t)) := fun t =>
    (separation_event_value o m t (F t) (du t) (L.duE t)).1
  intro hsep
  rw [separation_reported_iff R _ (by rw [hq]; exact hv a) ((hm _).2 (hlam a ⟨le_rfl, hab⟩))] at hsep
  obtain ⟨s, hs', v, hval, hle⟩ := hsep
  obtain ⟨h1, h2⟩ := hsteps s hs'
  rw [h2, hv] at hval
  rw [← Except.ok.inj hval] at hle
  exact absurd ((hm _).2 (hlam _ h1)) (not_lt.2 hle)

private theorem plate_prepare : ∃ o' p, plate.prepare (1/2) 1 .none = (o', .ok p) ∧ p.y0 = [0.225] ∧ p.x0 = 1/2 ∧
    p.events = [.sepThwaites Fits.white] := by
  have h : Real.sqrt 0.225 * Real.sqrt 0.225 = 0.225 := Real.mul_self_sqrt (by norm_num)
  have hd : plate.vel.duE (1/2) = .ok 0 := plate_layer.duE _
  have hs : ({ plate with ic := .manual 0 1 0 (Real.sqrt 0.225) 0 } : Obj ℝ).startVector = .ok [0.225] := by
    simp [plate, Obj.startVector, IC.deltaM, pyDiv, bind, Except.bind, pure, Except.pure, h]
  have hn : plate.ic.setNu plate.nu = .ok (.manual 0 1 0 (Real.sqrt 0.225) 0) := by simp [plate, IC.setNu]
  rw [Obj.prepare, hn]
  simp only [hd, IC.setDu, hs]
  exact ⟨_, _, rfl, rfl, rfl, by simp [plate, TermArg.toList]⟩

/-- A run to which `wedge_attached` applies: the flat plate with White's fits. -/
example : ∃ (o : Obj ℝ) (u du F : ℝ → ℝ) (stepper : Stepper ℝ) (root : RootFinder ℝ) (q : IvpProblem ℝ) (r : IntegrationResult ℝ),
    WedgeLayer o u du F 1 0 (1/2) 1 ∧ 0 < F (1/2) ∧ F (1/2) * o.nu ≤ similarityThickness2 o.nu 0 (u (1/2)) (1/2) ∧
    SepRun o (.sepThwaites Fits.white) (1/2) 1 stepper root q r ∧ q.y0 = [F (1/2)] ∧ ∀ s ∈ (stepper q).steps, s.t ∈ Set.Icc (1/2) 1 ∧ s.y = [F s.t] := by
  have hval : ∀ x y, plate.eventValue (.sepThwaites Fits.white) x [y] = .ok (Fits.white.shearAt (y * 0)) := fun x y =>
    (separation_event_value plate Fits.white x y 0 (plate_layer.duE x)).1
  obtain ⟨root, -, htot⟩ := bracketRoot_exists
  obtain ⟨o', p, hp, hy, hx, he⟩ := plate_prepare
  obtain ⟨r, hr⟩ := solve_total plate.eventValue (SepWit.one fun t => [plateF t]) root hp htot
    (by rw [he, hy, hx]; intro e h; simp only [List.mem_singleton] at h; subst h; exact ⟨_, hval _ _⟩)
    (by
      rw [he]; intro s hs e h
      simp only [SepWit.one, List.mem_singleton] at h hs
      subst h; subst hs; exact ⟨_, hval 1 _⟩)
    (by intro x h; cases h)
  have hF : plateF (1/2) = 0.225 := by simp [plateF]
  refine ⟨plate, _, _, plateF, _, root, p, r, plate_layer, by rw [hF]; norm_num, ?_, ⟨rfl, rfl, by rw [hp], hr, ?_⟩, by rw [hy, hF], ?_⟩
  · rw [hF]
    norm_num [similarityThickness2, plate]
  · intro s hs
    simp only [SepWit.one, List.mem_singleton] at hs
    subst hs; exact ⟨_, hval 1 _⟩
  · intro s hs
    simp only [SepWit.one, List.mem_singleton] at hs
    subst hs
    exact ⟨⟨by norm_num, le_rfl⟩, rfl⟩

end
end IBL
