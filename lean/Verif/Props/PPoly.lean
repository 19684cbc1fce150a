import Mathlib.Analysis.Calculus.Deriv.Pow
import Mathlib.Analysis.Calculus.Deriv.Add
import Mathlib.Analysis.Calculus.Deriv.Mul
import Mathlib.Analysis.Calculus.Deriv.Shift
import Mathlib.MeasureTheory.Integral.IntervalIntegral.FundThmCalculus
import Verif.Lemmas.PolyEval
import Verif.Model.Method

/-!
C11: a velocity given by its start value and a tabulated slope. For every piecewise polynomial slope with increasing breakpoints.
-/

namespace IBL.PPoly

/-! ### One polynomial -/

private theorem int_deriv (n : ℕ) (cs : List ℝ) (t : ℝ) :
    HasDerivAt (fun t => t ^ (n + 1) * polyEval (intFrom n cs) t) (t ^ n * polyEval cs t) t := by
  induction cs generalizing n with
  | nil => simpa [polyEval_nil, polyEval_cons, intFrom] using hasDerivAt_const t (0:ℝ)
  | cons c cs ih =>
    have h1 := ((hasDerivAt_pow (n + 1) t).mul_const (c / (n + 1 : ℝ))).add (ih (n + 1))
    have hn : (n + 1 : ℝ) ≠ 0 := by positivity
    have e : (fun t : ℝ => t ^ (n + 1) * polyEval (intFrom n (c :: cs)) t) =
        (fun t => t ^ (n + 1) * (c / (n + 1 : ℝ))) + fun t => t ^ (n + 1 + 1) * polyEval (intFrom (n + 1) cs) t := by
      funext t
      simp only [intFrom, polyEval_nil, polyEval_cons, real_lit, Pi.add_apply]
      push_cast
      ring
    rw [e]
    refine h1.congr_deriv ?_
    simp only [polyEval_nil, polyEval_cons]
    push_cast
    field_simp
    ring

private theorem polyInt_deriv (c : ℝ) (cs : List ℝ) (t : ℝ) : HasDerivAt (polyEval (polyInt c cs)) (polyEval cs t) t := by
  have h := (int_deriv 0 cs t).const_add c
  refine HasDerivAt.congr_deriv (f := fun t => c + t ^ (0 + 1) * polyEval (intFrom 0 cs) t) h (by simp) |>.congr_of_eventuallyEq ?_
  exact Filter.Eventually.of_forall fun t => by simp [polyInt, polyEval_nil, polyEval_cons]

private theorem der_deriv (n : ℕ) (cs : List ℝ) (t : ℝ) :
    HasDerivAt (fun t => t ^ (n + 1) * polyEval cs t) (t ^ n * polyEval (derFrom (n + 1) cs) t) t := by
  induction cs generalizing n with
  | nil => simpa [polyEval_nil, polyEval_cons, derFrom] using hasDerivAt_const t (0:ℝ)
  | cons c cs ih =>
    have h1 := ((hasDerivAt_pow (n + 1) t).mul_const c).add (ih (n + 1))
    have e : (fun t : ℝ => t ^ (n + 1) * polyEval (c :: cs) t) =
        (fun t => t ^ (n + 1) * c) + fun t => t ^ (n + 1 + 1) * polyEval cs t := by
      funext t
      simp only [polyEval_nil, polyEval_cons, Pi.add_apply]
      ring
    rw [e]
    refine h1.congr_deriv ?_
    simp only [polyEval_nil, polyEval_cons, derFrom, real_lit]
    push_cast
    ring

theorem polyDer_deriv (cs : List ℝ) (t : ℝ) : HasDerivAt (polyEval cs) (polyEval (polyDer cs) t) t := by
  cases cs with
  | nil =>
    rw [show (polyEval [] : ℝ → ℝ) = fun _ => 0 from funext polyEval_nil]
    simpa [polyEval_nil, polyDer] using hasDerivAt_const t (0:ℝ)
  | cons c cs =>
    have h := (der_deriv 0 cs t).const_add c
    refine HasDerivAt.congr_deriv (f := fun t => c + t ^ (0 + 1) * polyEval cs t) h (by simp [polyDer]) |>.congr_of_eventuallyEq ?_
    exact Filter.Eventually.of_forall fun t => by simp [polyEval_nil, polyEval_cons]

theorem shifted {f : ℝ → ℝ} {f' x x0 : ℝ} (h : HasDerivAt f f' (x - x0)) : HasDerivAt (fun x => f (x - x0)) f' x := by
  simpa using HasDerivAt.comp_sub_const x x0 h

/-! ### Pieces -/

/-- The breakpoints strictly increase. -/
def Increasing : Pieces ℝ → Prop
  | [] => True
  | [_] => True
  | (x0, _) :: (x1, q1) :: rest => x0 < x1 ∧ Increasing ((x1, q1) :: rest)

/-- Neighbouring pieces have the same value at their common breakpoint. -/
def Joined : Pieces ℝ → Prop
  | [] => True
  | [_] => True
  | (x0, q) :: (x1, q1) :: rest => polyEval q (x1 - x0) = polyEval q1 0 ∧ Joined ((x1, q1) :: rest)

/-- The interior breakpoints. -/
def interior (p : Pieces ℝ) : List ℝ := p.tail.map Prod.fst

theorem eval_cons2 (x0 x1 : ℝ) (q q1 : List ℝ) (rest : Pieces ℝ) (x : ℝ) :
    eval ((x0, q) :: (x1, q1) :: rest) x = if x1 ≤ x then eval ((x1, q1) :: rest) x else polyEval q (x - x0) := by
  simp only [eval, real_lt]
  by_cases h : x < x1
  · rw [if_pos h, if_neg (not_le.2 h)]
  · rw [if_neg h, if_pos (not_lt.1 h)]

theorem anti_cons (c x0 : ℝ) (q : List ℝ) (rest : Pieces ℝ) : ∃ r, anti c ((x0, q) :: rest) = (x0, polyInt c q) :: r ∧
    (rest = [] → r = []) := by
  cases rest with
  | nil => exact ⟨[], rfl, fun _ => rfl⟩
  | cons a rest => exact ⟨_, rfl, fun h => by cases h⟩

/-- The value at the first breakpoint. -/
theorem eval_first (x0 : ℝ) (q : List ℝ) (rest : Pieces ℝ) (hinc : Increasing ((x0, q) :: rest)) :
    eval ((x0, q) :: rest) x0 = polyEval q 0 := by
  cases rest with
  | nil => simp [eval]
  | cons a rest =>
    obtain ⟨x1, q1⟩ := a
    rw [eval_cons2, if_neg (not_le.2 hinc.1)]; simp

theorem anti_increasing (c : ℝ) (p : Pieces ℝ) (h : Increasing p) : Increasing (anti c p) := by
  induction p generalizing c with
  | nil => trivial
  | cons a rest ih =>
    obtain ⟨x0, q⟩ := a
    cases rest with
    | nil => trivial
    | cons b rest =>
      obtain ⟨x1, q1⟩ := b
      obtain ⟨r, hr, -⟩ := anti_cons (polyEval (polyInt c q) (x1 - x0)) x1 q1 rest
      have := ih (polyEval (polyInt c q) (x1 - x0)) h.2
      simp only [anti]
      rw [hr] at this ⊢
      exact ⟨h.1, this⟩

theorem anti_joined (c : ℝ) (p : Pieces ℝ) : Joined (anti c p) := by
  induction p generalizing c with
  | nil => trivial
  | cons a rest ih =>
    obtain ⟨x0, q⟩ := a
    cases rest with
    | nil => trivial
    | cons b rest =>
      obtain ⟨x1, q1⟩ := b
      obtain ⟨r, hr, -⟩ := anti_cons (polyEval (polyInt c q) (x1 - x0)) x1 q1 rest
      have := ih (polyEval (polyInt c q) (x1 - x0))
      simp only [anti]
      rw [hr] at this ⊢
      exact ⟨by simp [polyInt, polyEval_nil, polyEval_cons], this⟩

/-- Joined pieces give a continuous function. -/
theorem joined_continuous (p : Pieces ℝ) (hinc : Increasing p) (hj : Joined p) : Continuous (eval p) := by
  induction p with
  | nil => exact continuous_const
  | cons a rest ih =>
    obtain ⟨x0, q⟩ := a
    have hq : Continuous fun x => polyEval q (x - x0) :=
      continuous_iff_continuousAt.2 fun x => (shifted (polyDer_deriv q (x - x0))).continuousAt
    cases rest with
    | nil => simpa [eval] using hq
    | cons b rest =>
      obtain ⟨x1, q1⟩ := b
      have e : eval ((x0, q) :: (x1, q1) :: rest) = fun x => if x1 ≤ x then eval ((x1, q1) :: rest) x else polyEval q (x - x0) :=
        funext fun x => eval_cons2 x0 x1 q q1 rest x
      rw [e]
      refine (ih hinc.2 hj.2).if_le hq continuous_const continuous_id ?_
      intro x hx
      rw [← hx, eval_first x1 q1 rest hinc.2, hj.1]

private theorem deriv_piecewise {f g f' g' : ℝ → ℝ} {x1 x : ℝ} (hne : x ≠ x1) (hf : HasDerivAt f (f' x) x) (hg : x1 < x → HasDerivAt g (g' x) x) :
    HasDerivAt (fun x => if x1 ≤ x then g x else f x) (if x1 ≤ x then g' x else f' x) x := by
  rcases lt_or_gt_of_ne hne with h | h
  · rw [if_neg (not_le.2 h)]
    refine hf.congr_of_eventuallyEq ?_
    filter_upwards [Iio_mem_nhds h] with t ht
    rw [if_neg (not_le.2 ht)]
  · rw [if_pos h.le]
    refine (hg h).congr_of_eventuallyEq ?_
    filter_upwards [Ioi_mem_nhds h] with t ht
    rw [if_pos (le_of_lt ht)]

/-- Away from the interior breakpoints the antiderivative has the function as derivative. -/
theorem anti_deriv (c : ℝ) (p : Pieces ℝ) (hinc : Increasing p) (x : ℝ) (hx : x ∉ interior p) :
    HasDerivAt (eval (anti c p)) (eval p x) x := by
  induction p generalizing c with
  | nil => simpa [anti, eval] using hasDerivAt_const x (0:ℝ)
  | cons a rest ih =>
    obtain ⟨x0, q⟩ := a
    cases rest with
    | nil => exact shifted (polyInt_deriv c q (x - x0))
    | cons b rest =>
      obtain ⟨x1, q1⟩ := b
      have hx1 : x ≠ x1 := fun h => hx (by simp [interior, h])
      have hx2 : x ∉ interior ((x1, q1) :: rest) := fun h => hx (by
        simp only [interior, List.tail_cons, List.map_cons, List.mem_cons] at h ⊢; exact .inr h)
      obtain ⟨r, hr, -⟩ := anti_cons (polyEval (polyInt c q) (x1 - x0)) x1 q1 rest
      have e : eval (anti c ((x0, q) :: (x1, q1) :: rest)) = fun x => if x1 ≤ x then
          eval (anti (polyEval (polyInt c q) (x1 - x0)) ((x1, q1) :: rest)) x else polyEval (polyInt c q) (x - x0) := by
        funext x
        simp only [anti]
        rw [hr, eval_cons2]
      rw [e, eval_cons2]
      exact deriv_piecewise (f' := fun x => polyEval q (x - x0)) (g' := eval ((x1, q1) :: rest)) hx1
        (shifted (polyInt_deriv c q (x - x0))) fun _ => ih _ hinc.2 hx2

/-- If the pieces join, this holds at the breakpoints as well. -/
theorem anti_deriv_joined (c : ℝ) (p : Pieces ℝ) (hinc : Increasing p) (hj : Joined p) (x : ℝ) :
    HasDerivAt (eval (anti c p)) (eval p x) x := by
  induction p generalizing c with
  | nil => simpa [anti, eval] using hasDerivAt_const x (0:ℝ)
  | cons a rest ih =>
    obtain ⟨x0, q⟩ := a
    cases rest with
    | nil => exact shifted (polyInt_deriv c q (x - x0))
    | cons b rest =>
      obtain ⟨x1, q1⟩ := b
      obtain ⟨r, hr, -⟩ := anti_cons (polyEval (polyInt c q) (x1 - x0)) x1 q1 rest
      have e : eval (anti c ((x0, q) :: (x1, q1) :: rest)) = fun x => if x1 ≤ x then
          eval (anti (polyEval (polyInt c q) (x1 - x0)) ((x1, q1) :: rest)) x else polyEval (polyInt c q) (x - x0) := by
        funext x
        simp only [anti]
        rw [hr, eval_cons2]
      have hf := shifted (polyInt_deriv c q (x - x0))
      have hg := ih (polyEval (polyInt c q) (x1 - x0)) hinc.2 hj.2
      rw [e, eval_cons2]
      by_cases hx1 : x = x1
      · subst hx1
        rw [if_pos (le_refl _), eval_first x q1 rest hinc.2]
        rw [eval_first x q1 rest hinc.2] at hg
        rw [hj.1] at hf
        have hgv : eval (anti (polyEval (polyInt c q) (x - x0)) ((x, q1) :: rest)) x = polyEval (polyInt c q) (x - x0) := by
          have hi := anti_increasing (polyEval (polyInt c q) (x - x0)) _ hinc.2
          rw [hr] at hi ⊢
          rw [eval_first _ _ _ hi]
          simp [polyInt, polyEval_nil, polyEval_cons]
        have h1 : HasDerivWithinAt (fun t => if x ≤ t then
            eval (anti (polyEval (polyInt c q) (x - x0)) ((x, q1) :: rest)) t else polyEval (polyInt c q) (t - x0))
            (polyEval q1 0) (Set.Ici x) x := hg.hasDerivWithinAt.congr
          (fun t ht => if_pos ht) (if_pos (le_refl _))
        have h2 : HasDerivWithinAt (fun t => if x ≤ t then
            eval (anti (polyEval (polyInt c q) (x - x0)) ((x, q1) :: rest)) t else polyEval (polyInt c q) (t - x0))
            (polyEval q1 0) (Set.Iic x) x := by
          refine hf.hasDerivWithinAt.congr (fun t ht => ?_) ?_
          · rcases eq_or_lt_of_le (Set.mem_Iic.1 ht) with h | h
            · rw [h, if_pos (le_refl _), hgv]
            · rw [if_neg (not_le.2 h)]
          · rw [if_pos (le_refl _), hgv]
        have := h2.union h1
        rwa [Set.Iic_union_Ici, hasDerivWithinAt_univ] at this
      · exact deriv_piecewise (f' := fun x => polyEval q (x - x0)) (g' := eval ((x1, q1) :: rest)) hx1 hf fun _ => hg

/-- Away from the interior breakpoints `derivative()` is the derivative. -/
theorem deriv_deriv (p : Pieces ℝ) (x : ℝ) (hx : x ∉ interior p) : HasDerivAt (eval p) (eval (deriv p) x) x := by
  induction p with
  | nil => simpa [deriv, eval] using hasDerivAt_const x (0:ℝ)
  | cons a rest ih =>
    obtain ⟨x0, q⟩ := a
    cases rest with
    | nil => exact shifted (polyDer_deriv q (x - x0))
    | cons b rest =>
      obtain ⟨x1, q1⟩ := b
      have hx1 : x ≠ x1 := fun h => hx (by simp [interior, h])
      have hx2 : x ∉ interior ((x1, q1) :: rest) := fun h => hx (by
        simp only [interior, List.tail_cons, List.map_cons, List.mem_cons] at h ⊢; exact .inr h)
      have e : eval ((x0, q) :: (x1, q1) :: rest) = fun x => if x1 ≤ x then eval ((x1, q1) :: rest) x else polyEval q (x - x0) :=
        funext fun x => eval_cons2 x0 x1 q q1 rest x
      have e2 : eval (deriv ((x0, q) :: (x1, q1) :: rest)) x = if x1 ≤ x then eval (deriv ((x1, q1) :: rest)) x else
          polyEval (polyDer q) (x - x0) := by
        simp only [deriv, List.map_cons]
        exact eval_cons2 _ _ _ _ _ _
      rw [e, e2]
      exact deriv_piecewise (f' := fun x => polyEval (polyDer q) (x - x0)) (g' := eval (deriv ((x1, q1) :: rest))) hx1
        (shifted (polyDer_deriv q (x - x0))) fun _ => ih hx2

/-- If the pieces and their derivatives join, `derivative()` is the derivative at the breakpoints as well. -/
theorem deriv_deriv_joined (p : Pieces ℝ) (hinc : Increasing p) (hj : Joined p) (hd : Joined (deriv p)) (x : ℝ) :
    HasDerivAt (eval p) (eval (deriv p) x) x := by
  induction p with
  | nil => simpa [deriv, eval] using hasDerivAt_const x (0:ℝ)
  | cons a rest ih =>
    obtain ⟨x0, q⟩ := a
    cases rest with
    | nil => exact shifted (polyDer_deriv q (x - x0))
    | cons b rest =>
      obtain ⟨x1, q1⟩ := b
      have e : eval ((x0, q) :: (x1, q1) :: rest) = fun x => if x1 ≤ x then eval ((x1, q1) :: rest) x else polyEval q (x - x0) :=
        funext fun x => eval_cons2 x0 x1 q q1 rest x
      have e2 : eval (deriv ((x0, q) :: (x1, q1) :: rest)) x = if x1 ≤ x then eval (deriv ((x1, q1) :: rest)) x else
          polyEval (polyDer q) (x - x0) := by
        simp only [deriv, List.map_cons]
        exact eval_cons2 _ _ _ _ _ _
      have hf := shifted (polyDer_deriv q (x - x0))
      have hg := ih hinc.2 hj.2 hd.2
      rw [e, e2]
      by_cases hx1 : x = x1
      · subst hx1
        have hgv := eval_first x q1 rest hinc.2
        have hi' : Increasing (deriv ((x, q1) :: rest)) := by
          have := hinc.2
          generalize (x, q1) :: rest = l at this
          induction l with
          | nil => trivial
          | cons a l ih =>
            cases l with
            | nil => trivial
            | cons b l => exact ⟨this.1, ih this.2⟩
        have hgd : eval (deriv ((x, q1) :: rest)) x = polyEval (polyDer q1) 0 := eval_first x (polyDer q1) (deriv rest) hi'
        rw [if_pos (le_refl _), hgd]
        rw [hgd] at hg
        rw [show polyEval (polyDer q) (x - x0) = polyEval (polyDer q1) 0 from hd.1] at hf
        have h1 : HasDerivWithinAt (fun t => if x ≤ t then eval ((x, q1) :: rest) t else polyEval q (t - x0))
            (polyEval (polyDer q1) 0) (Set.Ici x) x := hg.hasDerivWithinAt.congr (fun t ht => if_pos ht) (if_pos (le_refl _))
        have h2 : HasDerivWithinAt (fun t => if x ≤ t then eval ((x, q1) :: rest) t else polyEval q (t - x0))
            (polyEval (polyDer q1) 0) (Set.Iic x) x := by
          refine hf.hasDerivWithinAt.congr (fun t ht => ?_) ?_
          · rcases eq_or_lt_of_le (Set.mem_Iic.1 ht) with h | h
            · rw [h, if_pos (le_refl _), hgv, hj.1]
            · rw [if_neg (not_le.2 h)]
          · rw [if_pos (le_refl _), hgv, hj.1]
        have := h2.union h1
        rwa [Set.Iic_union_Ici, hasDerivWithinAt_univ] at this
      · exact deriv_piecewise (f' := fun x => polyEval (polyDer q) (x - x0)) (g' := eval (deriv ((x1, q1) :: rest))) hx1 hf fun _ => hg

/-- `derivative()` is everywhere the derivative to the right. -/
theorem deriv_deriv_right (p : Pieces ℝ) (x : ℝ) : HasDerivWithinAt (eval p) (eval (deriv p) x) (Set.Ici x) x := by
  induction p with
  | nil => simpa [deriv, eval] using hasDerivWithinAt_const x (Set.Ici x) (0:ℝ)
  | cons a rest ih =>
    obtain ⟨x0, q⟩ := a
    cases rest with
    | nil => exact (shifted (polyDer_deriv q (x - x0))).hasDerivWithinAt
    | cons b rest =>
      obtain ⟨x1, q1⟩ := b
      have e : eval ((x0, q) :: (x1, q1) :: rest) = fun x => if x1 ≤ x then eval ((x1, q1) :: rest) x else polyEval q (x - x0) :=
        funext fun x => eval_cons2 x0 x1 q q1 rest x
      have e2 : eval (deriv ((x0, q) :: (x1, q1) :: rest)) x = if x1 ≤ x then eval (deriv ((x1, q1) :: rest)) x else
          polyEval (polyDer q) (x - x0) := by
        simp only [deriv, List.map_cons]
        exact eval_cons2 _ _ _ _ _ _
      rw [e, e2]
      by_cases h : x1 ≤ x
      · rw [if_pos h]
        exact ih.congr (fun t ht => if_pos (h.trans ht)) (if_pos h)
      · rw [if_neg h]
        refine HasDerivAt.hasDerivWithinAt ((shifted (polyDer_deriv q (x - x0))).congr_of_eventuallyEq ?_)
        filter_upwards [Iio_mem_nhds (not_le.1 h)] with t ht
        rw [if_neg (not_le.2 ht)]

/-- Adding a number to all constant coefficients of an antiderivative adds it to the value. -/
theorem addConst_eval (a c : ℝ) (p : Pieces ℝ) (hp : p ≠ []) (x : ℝ) : eval (addConst a (anti c p)) x = eval (anti c p) x + a := by
  induction p generalizing c with
  | nil => exact absurd rfl hp
  | cons b rest ih =>
    obtain ⟨x0, q⟩ := b
    cases rest with
    | nil => simp [anti, addConst, eval, polyInt, polyEval_nil, polyEval_cons]; ring
    | cons b rest =>
      obtain ⟨x1, q1⟩ := b
      have := ih (polyEval (polyInt c q) (x1 - x0)) (by simp)
      obtain ⟨r, hr, -⟩ := anti_cons (polyEval (polyInt c q) (x1 - x0)) x1 q1 rest
      simp only [anti]
      rw [hr] at this ⊢
      simp only [addConst, List.map_cons] at this ⊢
      rw [eval_cons2, eval_cons2, this]
      split_ifs
      · rfl
      · simp [polyInt, polyEval_nil, polyEval_cons]; ring

/-! ### C11 -/

/-- **C11**. `set_velocity` is called with the number `a` and a table for the slope, whose interpolant is the piecewise polynomial `p` with
first breakpoint `x0`. The call is accepted, and afterwards the queries `u_e`, `du_e`, `d2u_e` succeed everywhere and: the velocity at
the first abscissa is `a`, the velocity is continuous, its derivative is `du_e` inside every interval, the derivative of `du_e`
is `d2u_e` there. -/
theorem scalar_velocity_integral (ext : Ext ℝ) (o : Obj ℝ) (a : ℝ) (xs ys : Arr ℝ) (d2 : Arg ℝ) (x0 : ℝ) (q : List ℝ) (rest : Pieces ℝ)
    (hinc : Increasing ((x0, q) :: rest)) (hp : ext.pchip xs ys = .ok (toSpline ((x0, q) :: rest))) :
    ∃ (o' : Obj ℝ) (u du d2u : ℝ → ℝ), o.setVelocity ext (.num a) (.pair xs ys) d2 = (o', .ok ()) ∧
      (∀ x, o'.vel.uE x = .ok (u x) ∧ o'.vel.duE x = .ok (du x) ∧ o'.vel.d2uE x = .ok (d2u x)) ∧
      u x0 = a ∧ Continuous u ∧
      (∀ x, x ∉ rest.map Prod.fst → HasDerivAt u (du x) x) ∧
      (∀ x, x ∉ rest.map Prod.fst → HasDerivAt du (d2u x) x) ∧
      du = eval ((x0, q) :: rest) := by
  have hs : o.setVelocity ext (.num a) (.pair xs ys) d2 = ({ o with vel := ⟨some (.fn fun x => .ok ((toSpline ((x0, q) :: rest)).anti x + a)),
      some (.fn fun x => .ok ((toSpline ((x0, q) :: rest)).call x)),
      some (.fn fun x => .ok ((toSpline ((x0, q) :: rest)).d1 x))⟩ }, .ok ()) := by
    simp only [Obj.setVelocity, setVelocity, hp]
  refine ⟨_, fun x => eval (anti 0 ((x0, q) :: rest)) x + a, eval ((x0, q) :: rest), eval (deriv ((x0, q) :: rest)), hs, ?_, ?_, ?_, ?_, ?_,
    rfl⟩
  · intro x
    refine ⟨?_, ?_, ?_⟩
    · simp [VelState.uE, VelState.rawU, callOpt, Vel.call, toSpline]
    · simp [VelState.duE, VelState.rawDu, callOpt, Vel.call, toSpline]
    · simp [VelState.d2uE, VelState.rawD2u, callOpt, Vel.call, toSpline]
  · obtain ⟨r, hr, -⟩ := anti_cons 0 x0 q rest
    have hi := anti_increasing 0 _ hinc
    dsimp only
    rw [hr] at hi ⊢
    rw [eval_first _ _ _ hi]
    simp [polyInt, polyEval_nil, polyEval_cons]
  · exact (joined_continuous _ (anti_increasing 0 _ hinc) (anti_joined 0 _)).add continuous_const
  · intro x hx
    exact (anti_deriv 0 _ hinc x hx).add_const a
  · intro x hx
    exact deriv_deriv _ x hx

/-- **C11** for a slope whose pieces join, as those of an interpolant do: the derivative relation holds at every point and the velocity is the
start value plus the integral of the slope. -/
theorem scalar_velocity_integral_joined (ext : Ext ℝ) (o : Obj ℝ) (a : ℝ) (xs ys : Arr ℝ) (d2 : Arg ℝ) (x0 : ℝ) (q : List ℝ)
    (rest : Pieces ℝ) (hinc : Increasing ((x0, q) :: rest)) (hj : Joined ((x0, q) :: rest))
    (hp : ext.pchip xs ys = .ok (toSpline ((x0, q) :: rest))) :
    ∃ (o' : Obj ℝ) (u du : ℝ → ℝ), o.setVelocity ext (.num a) (.pair xs ys) d2 = (o', .ok ()) ∧
      (∀ x, o'.vel.uE x = .ok (u x) ∧ o'.vel.duE x = .ok (du x)) ∧ du = eval ((x0, q) :: rest) ∧
      (∀ x, HasDerivAt u (du x) x) ∧ (∀ x, u x = a + ∫ t in x0..x, du t) := by
  obtain ⟨o', u, du, d2u, h1, h2, h3, -, -, -, h4⟩ := scalar_velocity_integral ext o a xs ys d2 x0 q rest hinc hp
  have hu : u = fun x => eval (anti 0 ((x0, q) :: rest)) x + a := by
    have hs : o.setVelocity ext (.num a) (.pair xs ys) d2 = ({ o with vel := ⟨some (.fn fun x => .ok ((toSpline ((x0, q) :: rest)).anti x + a)),
      some (.fn fun x => .ok ((toSpline ((x0, q) :: rest)).call x)),
      some (.fn fun x => .ok ((toSpline ((x0, q) :: rest)).d1 x))⟩ }, .ok ()) := by
      simp only [Obj.setVelocity, setVelocity, hp]
    rw [hs] at h1
    simp only [Prod.mk.injEq, and_true] at h1
    funext x
    have := (h2 x).1
    rw [← h1] at this
    simpa [VelState.uE, VelState.rawU, callOpt, Vel.call, toSpline] using this.symm
  have hd : ∀ x, HasDerivAt u (du x) x := fun x => by
    rw [hu, h4]; exact (anti_deriv_joined 0 _ hinc hj x).add_const a
  refine ⟨o', u, du, h1, fun x => ⟨(h2 x).1, (h2 x).2.1⟩, h4, hd, fun x => ?_⟩
  have hc : Continuous du := by rw [h4]; exact joined_continuous _ hinc hj
  rw [intervalIntegral.integral_eq_sub_of_hasDerivAt (fun t _ => hd t) (hc.intervalIntegrable _ _), h3]
  ring

/-- Non-vacuity: slope 1 + t up to 1, then 2 - t^2 shifted; increasing and joined. -/
example : Increasing [(0, [1, 1]), (1, [2, 0, -1])] ∧ Joined [(0, [1, 1]), (1, [2, 0, -1])] := by
  simp [Increasing, Joined, polyEval_nil, polyEval_cons]
  norm_num

end IBL.PPoly
