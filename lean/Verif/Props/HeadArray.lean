import Verif.Lemmas.Flt
import Verif.Model.HeadArray

/-!
C27 and C28: `tau_w` and `v_e` of Head's method on floats and on arrays, and what they write into.
-/

set_option linter.unusedSectionVars false

namespace IBL.HeadArr
variable {α : Type} [Add α] [Sub α] [Mul α] [Div α] [Neg α] [PyLit α] [PyCmp α] [PyPow α]

/-! ### C27 -/

/-- What `v_e` is at one point, in terms of the edge velocity, its slope and the solution there; `fl` is the floor on the velocity. -/
def vEPoint (fl : α → α) (nu u du dm h : α) : α :=
  let p := Head.rates nu (fl u) du dm (Head.odeClamp h)
  du * h * dm + u * p.2 * dm + u * h * p.1

/-- What `tau_w` is at one point. -/
def tauPoint (nu rho u dm h : α) : α :=
  lit (1/2) * rho * (Head.floorArray u * Head.floorArray u) * ludwiegTillman (Head.floorArray u * dm / nu) h

private theorem map2_map (xs : List α) (f : α → α → α) (g k : α → α) :
    Num.map2 f (.v (xs.map g)) (.v (xs.map k)) = .ok (.v (xs.map fun a => f (g a) (k a))) := by
  simp [Num.map2, List.zipWith_map, List.zipWith_self]
private theorem store_map (xs : List α) (g k : α → α) :
    Num.store (.v (xs.map g)) (.v (xs.map k)) = .ok (.v (xs.map k)) := by
  simp [Num.store]
private theorem map_map' (xs : List α) (f g : α → α) : Num.map f (.v (xs.map g)) = .v (xs.map fun a => f (g a)) := by
  simp [Num.map, Function.comp_def]
private theorem bind_ok' {β γ : Type} (b : β) (f : β → Except Exc γ) : (Except.ok b >>= f) = f b := rfl

private theorem read_set_last (hp : Heap α) (a b : List α) : ((hp ++ [a]).set hp.length b) = hp ++ [b] := by
  rw [List.set_append_right _ _ (le_refl _)]; simp

/-- `tau_w` on an array: every element is the value at its point, for callables that return new arrays. Any arithmetic. -/
theorem tau_w_array (u : α → α) (sol : α → α × α) (nu rho : α) (hp : Heap α) (r : ℕ) (xs : List α) (hr : hp[r]? = some xs) :
    tauW (elementwise u) sol nu hp (.arr r) rho = .ok
      (hp ++ [xs.map fun a => Head.floorArray (u a)], .v (xs.map fun a => tauPoint nu rho (u a) (sol a).1 (sol a).2)) := by
  simp only [tauW, elementwise, floorInPlace, Val.read, hr, Option.getD_some, bind_ok', Num.map,
    List.getElem?_concat_length, read_set_last, List.map_map, map2_map, Function.comp_def]
  rfl

/-- `tau_w` on a float raises, whatever the velocity, if the callable maps floats to floats. -/
theorem tau_w_scalar_raises (u : α → α) (sol : α → α × α) (nu rho : α) (hp : Heap α) (a : α) :
    tauW (elementwise u) sol nu hp (.flt a) rho = .error .typeError := rfl

/-- `v_e` at a float. -/
theorem v_e_scalar (u du : α → α) (sol : α → α × α) (nu : α) (hp : Heap α) (a : α) :
    vE (elementwise u) (elementwise du) sol nu hp (.flt a) =
      .ok (hp, .s (vEPoint Head.floorScalar nu (u a) (du a) (sol a).1 (sol a).2)) := rfl

/-- `v_e` on an array: every element is computed like a single point, but with the other floor. -/
theorem v_e_array (u du : α → α) (sol : α → α × α) (nu : α) (hp : Heap α) (r : ℕ) (xs : List α) (hr : hp[r]? = some xs) :
    ∃ extra, vE (elementwise u) (elementwise du) sol nu hp (.arr r) =
      .ok (hp ++ extra, .v (xs.map fun a => vEPoint Head.floorArray nu (u a) (du a) (sol a).1 (sol a).2)) := by
  have hlt : r < hp.length := by
    by_contra h
    rw [List.getElem?_eq_none (not_lt.1 h)] at hr
    cases hr
  have hr' : ∀ e : List (List α), (hp ++ e)[r]? = some xs := fun e => by
    rw [List.getElem?_append_left hlt, hr]
  have g1 : ∀ (a : List α) (e : List (List α)), (hp ++ (a :: e))[hp.length]? = some a := fun a e => by simp
  have g2 : ∀ (a b : List α) (e : List (List α)), (hp ++ (a :: b :: e))[hp.length + 1]? = some b := fun a b e => by
    rw [List.getElem?_append_right (by omega)]; simp
  have g3 : ∀ (a b c : List α) (e : List (List α)), (hp ++ (a :: b :: c :: e))[hp.length + 2]? = some c := fun a b c e => by
    rw [List.getElem?_append_right (by omega)]; simp
  have g4 : ∀ (a b c d : List α) (e : List (List α)), (hp ++ (a :: b :: c :: d :: e))[hp.length + 3]? = some d :=
    fun a b c d e => by
    rw [List.getElem?_append_right (by omega)]; simp
  have l1 : ∀ e : List (List α), (hp ++ e).length = hp.length + e.length := fun e => by simp
  refine ⟨[xs.map fun a => Head.floorArray (u a), xs.map du, xs.map u, xs.map du], ?_⟩
  simp only [vE, odeImpl, elementwise, floorOde, floorInPlace, Val.read, hr, hr', Option.getD_some, bind_ok', pure, Except.pure,
    Num.map, List.map_map, read_set_last, List.append_assoc, List.cons_append, List.nil_append, l1,
    List.length_cons, List.length_nil, Nat.zero_add, Nat.reduceAdd, g1, g2, g3, g4, map2_map, store_map, Function.comp_def]
  rfl

/-- **C27** for the transpiration velocity: the array result is the list of the results for the single points. -/
def TranspirationAgrees (u du : α → α) (sol : α → α × α) (nu : α) (xs : List α) : Prop :=
  ∃ (vs : List α) (hp' : Heap α), vE (elementwise u) (elementwise du) sol nu [xs] (.arr 0) = .ok (hp', .v vs) ∧
    List.Forall₂ (fun a v => vE (elementwise u) (elementwise du) sol nu [xs] (.flt a) = .ok ([xs], .s v)) xs vs

/-- **C27** for the wall shear. -/
def ShearAgrees (u : α → α) (sol : α → α × α) (nu rho : α) (xs : List α) : Prop :=
  ∃ (vs : List α) (hp' : Heap α), tauW (elementwise u) sol nu [xs] (.arr 0) rho = .ok (hp', .v vs) ∧
    List.Forall₂ (fun a v => tauW (elementwise u) sol nu [xs] (.flt a) rho = .ok ([xs], .s v)) xs vs

/-- **C27**, the part that holds: `v_e` agrees where the edge velocity exceeds -0.001 everywhere. Any solution, any number of points. -/
theorem transpiration_agrees_partial (u du : ℝ → ℝ) (sol : ℝ → ℝ × ℝ) (nu : ℝ) (xs : List ℝ)
    (hu : ∀ a ∈ xs, -(1/1000) < u a) : TranspirationAgrees u du sol nu xs := by
  obtain ⟨e, he⟩ := v_e_array u du sol nu [xs] 0 xs rfl
  refine ⟨_, _, he, ?_⟩
  rw [List.forall₂_map_right_iff]
  apply List.forall₂_same.2
  intro a ha
  rw [v_e_scalar]
  have : Head.floorScalar (u a) = Head.floorArray (u a) := by
    have h := hu a ha
    simp only [Head.floorScalar, Head.floorArray, real_gt, real_lt, real_lit, real_abs]
    push_cast
    by_cases h1 : u a < 1/1000
    · rw [if_pos h1, if_pos (abs_lt.2 ⟨h, h1⟩)]
    · rw [if_neg h1, if_neg fun h2 => h1 (abs_lt.1 h2).2]
  simp only [vEPoint, this]

/-- **C27** is false for `v_e` in reversed flow: with u_e = -1 the array result is NaN and the single result a finite number. -/
theorem transpiration_agrees_fails :
    ¬ ∀ (u du : Flt ℝ → Flt ℝ) (sol : Flt ℝ → Flt ℝ × Flt ℝ) (nu : Flt ℝ) (xs : List (Flt ℝ)), TranspirationAgrees u du sol nu xs := by
  intro H
  obtain ⟨vs, hp', h1, h2⟩ := H (fun _ => .fin (-1)) (fun _ => .fin 0) (fun _ => (.fin 1, .fin 2)) (.fin 1) [.fin 0]
  obtain ⟨e, he⟩ := v_e_array (fun _ => .fin (-1)) (fun _ => .fin 0) (fun _ => (.fin 1, .fin 2)) (.fin 1) [[Flt.fin 0]] 0
    [(Flt.fin 0 : Flt ℝ)] rfl
  rw [he] at h1
  simp only [Except.ok.injEq, Prod.mk.injEq, Num.v.injEq, List.map_cons, List.map_nil] at h1
  obtain ⟨-, rfl⟩ := h1
  simp only [List.forall₂_cons, List.forall₂_nil_left_iff, and_true] at h2
  rw [v_e_scalar] at h2
  simp only [Except.ok.injEq, Prod.mk.injEq, Num.s.injEq, true_and] at h2
  -- the array result
  have hfa : Head.floorArray (.fin (-1) : Flt ℝ) = .fin (-1) := by
    have : PyCmp.abs (.fin (-1) : Flt ℝ) = .fin (max (-1) (- -1)) := rfl
    simp only [Head.floorArray, this, Flt.lit_fin, Flt.fin_lt, decide_eq_true_eq]
    norm_num
  have hfs : Head.floorScalar (.fin (-1) : Flt ℝ) = .fin (1/1000) := by
    simp only [Head.floorScalar, PyCmp.gt, Flt.lit_fin, Flt.fin_lt, decide_eq_true_eq]
    norm_num
  have hcl : Head.odeClamp (.fin 2 : Flt ℝ) = .fin 2 := by
    simp only [Head.odeClamp, Flt.lit_fin, Flt.fin_lt, decide_eq_true_eq]
    norm_num
  have hpow : (PyPow.pow (.fin (-1)) (.fin ((268/1000 : ℚ) : ℝ)) : Flt ℝ) = .nan := by
    refine Flt.pow_neg_nan _ _ (by norm_num) fun n hn => ?_
    push_cast at hn
    have h3 : ((1000 * n : ℤ) : ℝ) = ((268 : ℤ) : ℝ) := by push_cast; linarith
    have h4 : 1000 * n = 268 := by exact_mod_cast h3
    omega
  have hre : ∀ u : ℝ, (Flt.fin u * Flt.fin 1 / Flt.fin 1 : Flt ℝ) = .fin u := fun u => by
    rw [Flt.fin_mul, Flt.fin_div _ _ one_ne_zero]; norm_num
  have nmul : ∀ a : Flt ℝ, (Flt.nan * a : Flt ℝ) = .nan := fun a => by cases a <;> rfl
  have muln : ∀ a : Flt ℝ, (a * Flt.nan : Flt ℝ) = .nan := fun a => by cases a <;> rfl
  have ndiv : ∀ a : Flt ℝ, (Flt.nan / a : Flt ℝ) = .nan := fun a => by cases a <;> rfl
  have divn : ∀ a : Flt ℝ, (a / Flt.nan : Flt ℝ) = .nan := fun a => by cases a <;> rfl
  have nsub : ∀ a : Flt ℝ, (Flt.nan - a : Flt ℝ) = .nan := fun a => by cases a <;> rfl
  have addn : ∀ a : Flt ℝ, (a + Flt.nan : Flt ℝ) = .nan := fun a => by cases a <;> rfl
  have harr : vEPoint Head.floorArray (.fin 1) (.fin (-1)) (.fin 0) (.fin 1) (.fin 2) = (.nan : Flt ℝ) := by
    simp only [vEPoint, hfa, hcl, Head.rates, hre, ludwiegTillman, Flt.lit_fin, hpow, nmul, muln, divn, nsub, addn]
  -- the single result
  have h10 : (0:ℝ) < ((10:ℚ):ℝ) := by norm_num
  have hth : (0:ℝ) < 1/1000 := by norm_num
  have hsc : ∃ q : ℝ, vEPoint Head.floorScalar (.fin 1) (.fin (-1)) (.fin 0) (.fin 1) (.fin 2) = (.fin q : Flt ℝ) := by
    have hcs : Head.clampShape (.fin 2 : Flt ℝ) = .fin 2 := by
      simp only [Head.clampShape, Flt.lit_fin, Flt.fin_le, decide_eq_true_eq]
      norm_num
    have h13 : (0:ℝ) < 2 - ((6778/10000 : ℚ) : ℝ) := by norm_num
    have hp1 : ∀ b : ℝ, (2 - ((6778/10000 : ℚ) : ℝ)) ^ b ≠ 0 := fun b => (Real.rpow_pos_of_pos h13 b).ne'
    have hle : ¬ (2:ℝ) ≤ ((16/10 : ℚ) : ℝ) := by norm_num
    have hgt : ((16/10 : ℚ) : ℝ) < 2 := by norm_num
    have he : Head.h1 (.fin 2 : Flt ℝ) =
        .fin (((Head.dHigh : ℚ) : ℝ) + ((15501/10000 : ℚ) : ℝ) / (2 - ((6778/10000 : ℚ) : ℝ)) ^ ((3064/1000 : ℚ) : ℝ)) := by
      simp only [Head.h1, hcs, Head.h1High, Flt.lit_fin, Flt.fin_le, PyCmp.gt, Flt.fin_lt, decide_eq_true_eq, if_neg hle, if_pos hgt,
        Flt.fin_sub, Flt.fin_pow_pos _ _ h13, Flt.fin_div _ _ (hp1 _), Flt.fin_add]
    have hep : ∃ q : ℝ, q ≠ 0 ∧ Head.h1p (.fin 2 : Flt ℝ) = .fin q := by
      refine ⟨-((15501/10000 : ℚ) : ℝ) * ((3064/1000 : ℚ) : ℝ) / (2 - ((6778/10000 : ℚ) : ℝ)) ^ (((3064/1000 : ℚ) : ℝ) + ((1:ℚ):ℝ)), ?_, ?_⟩
      rotate_left
      · simp only [Head.h1p, hcs, Flt.lit_fin, Flt.fin_le, PyCmp.gt, Flt.fin_lt, decide_eq_true_eq, if_neg hle, if_pos hgt,
          Flt.fin_sub, Flt.fin_add, Flt.fin_neg, Flt.fin_mul, Flt.fin_pow_pos _ _ h13, Flt.fin_div _ _ (hp1 _)]
      · exact div_ne_zero (by norm_num) (hp1 _)
    obtain ⟨q, hq, hep⟩ := hep
    have hent : ∃ q : ℝ, Head.entrainment (Head.h1 (.fin 2 : Flt ℝ)) = .fin q := by
      have h3 : (3:ℝ) < ((Head.dHigh : ℚ) : ℝ) + ((15501/10000 : ℚ) : ℝ) / (2 - ((6778/10000 : ℚ) : ℝ)) ^ ((3064/1000 : ℚ) : ℝ) := by
        have : 0 < ((15501/10000 : ℚ) : ℝ) / (2 - ((6778/10000 : ℚ) : ℝ)) ^ ((3064/1000 : ℚ) : ℝ) :=
          div_pos (by norm_num) (Real.rpow_pos_of_pos h13 _)
        have : (3:ℝ) < ((Head.dHigh : ℚ) : ℝ) := by rw [Head.dHigh]; norm_num
        linarith
      rw [he]
      generalize ((Head.dHigh : ℚ) : ℝ) + ((15501/10000 : ℚ) : ℝ) / (2 - ((6778/10000 : ℚ) : ℝ)) ^ ((3064/1000 : ℚ) : ℝ) = e at h3
      have hle : ¬ e ≤ ((3:ℚ):ℝ) := by push_cast; linarith
      have hpos : 0 < e - ((3:ℚ):ℝ) := by push_cast; linarith
      simp only [Head.entrainment, Flt.lit_fin, Flt.fin_le, decide_eq_true_eq, if_neg hle, Flt.fin_sub, Flt.fin_pow_pos _ _ hpos,
        Flt.fin_div _ _ (Real.rpow_pos_of_pos hpos _).ne']
      exact ⟨_, rfl⟩
    obtain ⟨q2, hent⟩ := hent
    have hcf : ∃ q : ℝ, ludwiegTillman (.fin (1/1000)) (.fin 2 : Flt ℝ) = .fin q := by
      simp only [ludwiegTillman, Flt.lit_fin, Flt.fin_mul, Flt.fin_pow_pos _ _ hth, Flt.fin_pow_pos _ _ h10]
      rw [Flt.fin_div _ _ (mul_ne_zero (Real.rpow_pos_of_pos hth _).ne' (Real.rpow_pos_of_pos h10 _).ne')]
      exact ⟨_, rfl⟩
    obtain ⟨q3, hcf⟩ := hcf
    have hn1 : (1/1000 : ℝ) ≠ 0 := by norm_num
    have hn2 : q * (1/1000) * 1 ≠ 0 := mul_ne_zero (mul_ne_zero hq hn1) one_ne_zero
    simp only [vEPoint, hfs, hcl, Head.rates, hre, hcf, hent, hep]
    rw [he]
    simp only [Flt.lit_fin, Flt.fin_mul, Flt.fin_add, Flt.fin_sub, Flt.fin_div _ _ hn1, Flt.fin_div _ _ hn2]
    exact ⟨_, rfl⟩
  obtain ⟨q, hq⟩ := hsc
  rw [hq, harr] at h2
  cases h2

/-- **C27** is false for `tau_w`, always: at a float it raises. -/
theorem shear_agrees_fails (u : α → α) (sol : α → α × α) (nu rho a : α) (xs : List α) : ¬ ShearAgrees u sol nu rho (a :: xs) := by
  rintro ⟨vs, hp', -, h2⟩
  cases h2 with
  | cons h _ => rw [tau_w_scalar_raises] at h; cases h

/-- **C27**, what holds of `tau_w`: an array gives what its elements give as arrays of length one. -/
theorem shear_pointwise_partial (u : α → α) (sol : α → α × α) (nu rho : α) (xs : List α) :
    ∃ (vs : List α) (hp' : Heap α), tauW (elementwise u) sol nu [xs] (.arr 0) rho = .ok (hp', .v vs) ∧
      List.Forall₂ (fun a v => ∃ hp'', tauW (elementwise u) sol nu [[a]] (.arr 0) rho = .ok (hp'', .v [v])) xs vs := by
  refine ⟨_, _, tau_w_array u sol nu rho [xs] 0 xs rfl, ?_⟩
  rw [List.forall₂_map_right_iff]
  apply List.forall₂_same.2
  intro a _
  exact ⟨_, tau_w_array u sol nu rho [[a]] 0 [a] rfl⟩

/-! ### C28 -/

/-- A callable that does not itself write into existing arrays. -/
def Harmless (f : ArrFn α) : Prop := ∀ hp x hp' v, f hp x = .ok (hp', v) → ∃ e, hp' = hp ++ e

/-- A callable that returns only floats and new arrays. -/
def ReturnsNew (f : ArrFn α) : Prop := ∀ hp x hp' r, f hp x = .ok (hp', .arr r) → hp.length ≤ r

/-- All arrays that existed before have their contents afterwards. -/
def Untouched (hp hp' : Heap α) : Prop := ∀ i, i < hp.length → hp'[i]? = hp[i]?

omit [Add α] [Sub α] [Mul α] [Div α] [Neg α] [PyLit α] [PyCmp α] [PyPow α] in
theorem Untouched.trans {a b c : Heap α} (h1 : Untouched a b) (h2 : Untouched b c) (hl : a.length ≤ b.length) : Untouched a c :=
  fun i hi => (h2 i (by omega)).trans (h1 i hi)
omit [Add α] [Sub α] [Mul α] [Div α] [Neg α] [PyLit α] [PyCmp α] [PyPow α] in
theorem Untouched.append (a e : Heap α) : Untouched a (a ++ e) := fun i hi => by rw [List.getElem?_append_left hi]

/-- **C28**: queries leave all existing arrays alone if the callables do. -/
def QueriesReadOnly (α : Type) [Add α] [Sub α] [Mul α] [Div α] [Neg α] [PyLit α] [PyCmp α] [PyPow α] : Prop :=
  ∀ (u du : ArrFn α) (sol : α → α × α) (nu rho : α) (hp : Heap α) (x : Val α), Harmless u → Harmless du →
    (∀ hp' n, tauW u sol nu hp x rho = .ok (hp', n) → Untouched hp hp') ∧
    (∀ hp' n, vE u du sol nu hp x = .ok (hp', n) → Untouched hp hp')

/-- **C28** is false: with the stagnation flow `lambda x: x` the wall shear query changes 0 to 0.001 in the caller's array. -/
theorem query_writes_argument (sol : ℝ → ℝ × ℝ) (nu rho : ℝ) :
    ∃ n, tauW identity sol nu [[0, 1]] (.arr 0) rho = .ok ([[1/1000, 1]], n) := by
  have f0 : Head.floorArray (0:ℝ) = 1/1000 := by
    simp only [Head.floorArray, real_lt, real_abs, real_lit]; norm_num
  have f1 : Head.floorArray (1:ℝ) = 1 := by
    simp only [Head.floorArray, real_lt, real_abs, real_lit]; norm_num
  simp only [tauW, identity, floorInPlace, bind_ok', Val.read, List.getElem?_cons_zero, Option.getD_some, List.map_cons, List.map_nil,
    List.set_cons_zero, f0, f1, Num.map, Num.map2, List.length_cons, List.length_nil, if_true, List.zipWith_cons_cons,
    List.zipWith_nil_left, pure, Except.pure]
  exact ⟨_, rfl⟩

theorem queries_read_only_fails : ¬ QueriesReadOnly ℝ := by
  intro H
  have hid : Harmless (identity : ArrFn ℝ) := fun hp x hp' v h => by
    simp only [identity, Except.ok.injEq, Prod.mk.injEq] at h
    exact ⟨[], by rw [← h.1]; simp⟩
  obtain ⟨n, hn⟩ := query_writes_argument (fun _ => (1, 2)) 1 1
  have := (H identity identity (fun _ => (1, 2)) 1 1 [[0, 1]] (.arr 0) hid hid).1 _ _ hn 0 (by simp)
  simp only [List.getElem?_cons_zero, Option.some.injEq, List.cons.injEq, and_true] at this
  norm_num at this

omit [Add α] [Sub α] [Mul α] [Div α] [Neg α] [PyPow α] in
private theorem floor_untouched (hp0 hp : Heap α) (v : Val α) (hp' : Heap α) (v' : Val α) (h0 : Untouched hp0 hp)
    (hv : ∀ r, v = .arr r → hp0.length ≤ r) (h : floorInPlace hp v = .ok (hp', v')) :
    Untouched hp0 hp' ∧ hp'.length = hp.length ∧ v' = v := by
  cases v with
  | flt a => simp [floorInPlace] at h
  | int a => simp [floorInPlace] at h
  | arr r =>
    simp only [floorInPlace, Except.ok.injEq, Prod.mk.injEq] at h
    obtain ⟨rfl, rfl⟩ := h
    refine ⟨fun i hi => ?_, by simp, rfl⟩
    have := hv r rfl
    rw [List.getElem?_set_ne (by omega)]
    exact h0 i hi

private theorem bind_inv {β γ : Type} {x : Except Exc β} {f : β → Except Exc γ} {c : γ} (h : (x >>= f) = .ok c) :
    ∃ b, x = .ok b ∧ f b = .ok c := by
  cases x with
  | error e => cases h
  | ok b => exact ⟨b, rfl, h⟩

/-- **C28**, the part that holds: nothing is modified if the velocity callable returns floats or new arrays. Any arithmetic. -/
theorem queries_read_only_partial (u du : ArrFn α) (sol : α → α × α) (nu rho : α) (hp : Heap α) (x : Val α)
    (hu : Harmless u) (hun : ReturnsNew u) (hdu : Harmless du) :
    (∀ hp' n, tauW u sol nu hp x rho = .ok (hp', n) → Untouched hp hp') ∧
    (∀ hp' n, vE u du sol nu hp x = .ok (hp', n) → Untouched hp hp') := by
  constructor
  · intro hp' n h
    simp only [tauW] at h
    obtain ⟨⟨h1, v1⟩, e1, h'⟩ := bind_inv h
    obtain ⟨⟨h2, v2⟩, e2, h'⟩ := bind_inv h'
    obtain ⟨re, -, h'⟩ := bind_inv h'
    obtain ⟨cf, -, h'⟩ := bind_inv h'
    obtain ⟨rr, -, h'⟩ := bind_inv h'
    simp only [pure, Except.pure, Except.ok.injEq, Prod.mk.injEq] at h'
    have hl := h'.1
    clear h' h
    obtain ⟨e, rfl⟩ := hu _ _ _ _ e1
    have := (floor_untouched hp _ v1 h2 v2 (Untouched.append hp e) (fun r hr => by subst hr; exact hun _ _ _ _ e1) e2).1
    rw [← hl]; exact this
  · intro hp' n h
    simp only [vE] at h
    obtain ⟨⟨h1, f0, f1⟩, e1, h⟩ := bind_inv h
    obtain ⟨⟨h2, uv⟩, e2, h⟩ := bind_inv h
    obtain ⟨⟨h3, dv⟩, e3, h⟩ := bind_inv h
    have hfin : h3 = hp' := by
      obtain ⟨_, -, h⟩ := bind_inv h
      obtain ⟨_, -, h⟩ := bind_inv h
      obtain ⟨_, -, h⟩ := bind_inv h
      obtain ⟨_, -, h⟩ := bind_inv h
      obtain ⟨_, -, h⟩ := bind_inv h
      obtain ⟨_, -, h⟩ := bind_inv h
      obtain ⟨_, -, h⟩ := bind_inv h
      obtain ⟨_, -, h⟩ := bind_inv h
      simp only [pure, Except.pure, Except.ok.injEq, Prod.mk.injEq] at h
      exact h.1
    have hode : Untouched hp h1 ∧ hp.length ≤ h1.length := by
      simp only [odeImpl] at e1
      obtain ⟨⟨k1, v1⟩, g1, e1⟩ := bind_inv e1
      obtain ⟨⟨k2, v2⟩, g2, e1⟩ := bind_inv e1
      obtain ⟨⟨k3, v3⟩, g3, e1⟩ := bind_inv e1
      have hk : k3 = h1 := by
        iterate 18
          obtain ⟨_, -, e1⟩ := bind_inv e1
        simp only [pure, Except.pure, Except.ok.injEq, Prod.mk.injEq] at e1
        exact e1.1
      obtain ⟨e, rfl⟩ := hu _ _ _ _ g1
      have hfl : Untouched hp k2 ∧ hp.length ≤ k2.length := by
        cases v1 with
        | flt a =>
          simp only [floorOde, Except.ok.injEq, Prod.mk.injEq] at g2
          rw [← g2.1]; exact ⟨Untouched.append hp e, by simp⟩
        | int a => simp [floorOde, floorInPlace] at g2
        | arr r =>
          have := floor_untouched hp _ (.arr r) k2 v2 (Untouched.append hp e)
            (fun r' hr => by cases hr; exact hun _ _ _ _ g1) g2
          exact ⟨this.1, by rw [this.2.1]; simp⟩
      obtain ⟨e', rfl⟩ := hdu _ _ _ _ g3
      rw [← hk]
      exact ⟨hfl.1.trans (Untouched.append _ _) hfl.2, by simp; omega⟩
    obtain ⟨e, rfl⟩ := hu _ _ _ _ e2
    obtain ⟨e', rfl⟩ := hdu _ _ _ _ e3
    rw [← hfin]
    refine hode.1.trans ?_ hode.2
    rw [List.append_assoc]
    exact Untouched.append _ _

/-- Non-vacuity: elementwise callables (formulas, splines) meet the hypotheses, and then both queries succeed on arrays. -/
theorem elementwise_ok (f : α → α) : Harmless (elementwise f : ArrFn α) ∧ ReturnsNew (elementwise f : ArrFn α) := by
  constructor
  · intro hp x hp' v h
    cases x <;> simp only [elementwise, Except.ok.injEq, Prod.mk.injEq] at h
    · exact ⟨[], by rw [← h.1]; simp⟩
    · exact ⟨[], by rw [← h.1]; simp⟩
    · exact ⟨_, h.1.symm⟩
  · intro hp x hp' r h
    cases x <;> simp only [elementwise, Except.ok.injEq, Prod.mk.injEq, reduceCtorEq, and_false, Val.arr.injEq] at h
    omega

end IBL.HeadArr
