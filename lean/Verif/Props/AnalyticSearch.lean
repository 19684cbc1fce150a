import Verif.Props.Analytic

/-! C34: the search for the parameters of a similarity solution. -/

set_option linter.unusedSectionVars false

namespace IBL.Analytic

section generic
variable {α : Type} [Add α] [Sub α] [Mul α] [Div α] [Neg α] [PyLit α] [PyCmp α] [PySpecial α]

/-- What a successful `set_solution_parameters` did: it solved the similarity equation on the new `[0, eta_inf]`, started with some `f''(0)`. -/
theorem set_ok (s : Sim α) (t : Tools α) (e fw : Option α) (h : (s.setSolutionParameters t e fw).2 = .ok ()) :
    ∃ (eta w : α) (c1 c2 : Bool) (r : Result α), search (s.endValues t) e fw = .ok (eta, w, c1, c2) ∧
      t.ivp ⟨s.plainRhs, eta, (lit 0, lit 0, w)⟩ = .ok r ∧ r.success = true ∧ badParam e = false ∧ badParam fw = false ∧
      (s.setSolutionParameters t e fw).1.etaInf = eta ∧ (s.setSolutionParameters t e fw).1.f = some r.sol ∧
      ({ s with etaInf := eta, f := some r.sol } : Sim α).thicknesses t r.sol = s.setSolutionParameters t e fw := by
  simp only [Sim.setSolutionParameters] at h ⊢
  cases he : badParam e with
  | true => simp [he] at h
  | false =>
  cases hf : badParam fw with
  | true => simp [he, hf] at h
  | false =>
  simp only [he, hf, Sim.calculateSolution] at h ⊢
  cases hs : search (s.endValues t) e fw with
  | error x => simp [hs] at h
  | ok v =>
    obtain ⟨eta, w, c1, c2⟩ := v
    simp only [hs] at h ⊢
    have hr : ({ s with etaInf := eta } : Sim α).plainRhs = s.plainRhs := rfl
    rw [hr] at h ⊢
    cases hi : t.ivp ⟨s.plainRhs, eta, (lit 0, lit 0, w)⟩ with
    | error x => simp [hi] at h
    | ok r =>
      simp only [hi] at h ⊢
      cases hsu : r.success with
      | false => simp [hsu] at h
      | true =>
        simp only [hsu, if_true] at h ⊢
        refine ⟨eta, w, c1, c2, r, rfl, hi, hsu, trivial, trivial, ?_, ?_, rfl⟩
        all_goals
          simp only [Bool.false_eq_true, if_false, Sim.thicknesses] at h ⊢
          split
          · rfl
          · split
            · rfl
            · split
              · rfl
              · split <;> rfl

/-! ### Supplied values are kept -/

private theorem outer_given_eta (solve : α → α → Except Exc (α × α)) (g : Bool) (n : ℕ) (o : Outer α) (h : PyCmp.eq o.curr o.prev = true)
    (o' : Outer α) (h2 : outerLoop solve g n o = .ok o') : o'.curr = o.curr := by
  cases n with
  | zero => simp only [outerLoop, Except.ok.injEq] at h2; rw [h2]
  | succ n =>
    simp only [outerLoop] at h2
    split at h2
    · cases h2
    · simp only [h, Bool.true_or, if_true, Except.ok.injEq] at h2
      rw [← h2]

private theorem inner_given_fw (solve : α → Except Exc (α × α)) (n : ℕ) (i : Inner α) (h : PyCmp.eq i.prev i.curr = true)
    (i' : Inner α) (h2 : innerLoop solve n i = .ok i') : i'.prev = i.prev ∧ i'.curr = i.curr := by
  cases n with
  | zero => simp only [innerLoop, Except.ok.injEq] at h2; rw [h2]; exact ⟨rfl, rfl⟩
  | succ n =>
    simp only [innerLoop] at h2
    split at h2
    · cases h2
    · simp only [h, Bool.true_or, if_true, Except.ok.injEq] at h2
      rw [← h2]; exact ⟨rfl, rfl⟩

theorem outer_given_fw (solve : α → α → Except Exc (α × α)) (n : ℕ) (o : Outer α) (h : PyCmp.eq o.fwPrev o.fwPrev = true)
    (o' : Outer α) (h2 : outerLoop solve true n o = .ok o') : o'.fwCurr = o.fwPrev ∨ n = 0 := by
  suffices H : ∀ n (o : Outer α), PyCmp.eq o.fwPrev o.fwPrev = true → outerLoop solve true n o = .ok o' →
      o'.fwCurr = o.fwPrev ∨ (n = 0 ∧ o' = o) by
    rcases H n o h h2 with h3 | h3
    · exact .inl h3
    · exact .inr h3.1
  intro n
  induction n with
  | zero => intro o _ h2; simp only [outerLoop, Except.ok.injEq] at h2; exact .inr ⟨rfl, h2.symm⟩
  | succ n ih =>
    intro o h h2
    simp only [outerLoop, if_true] at h2
    split at h2
    · cases h2
    · next i hi =>
      have hk := inner_given_fw _ _ _ (by exact h) i hi
      simp only at hk
      split at h2
      · simp only [Except.ok.injEq] at h2
        rw [← h2]; exact .inl hk.2
      · rcases ih _ (by simp only; rw [hk.1]; exact h) h2 with h3 | ⟨_, h3⟩
        · left; rw [h3]; exact hk.1
        · left; rw [h3]; exact hk.2

/-- **C34**, the part about supplied values: a supplied `eta_inf` (equal to itself, so not NaN) is the resulting `eta_inf`. Any tools and arithmetic. -/
theorem supplied_eta_kept (s : Sim α) (t : Tools α) (eta : α) (fw : Option α) (hn : PyCmp.eq eta eta = true)
    (h : (s.setSolutionParameters t (some eta) fw).2 = .ok ()) : (s.setSolutionParameters t (some eta) fw).1.etaInf = eta := by
  obtain ⟨eta', w, c1, c2, r, h1, -, -, -, -, h2, -⟩ := set_ok s t _ fw h
  rw [h2]
  cases fw with
  | some w' => simp only [search, Except.ok.injEq, Prod.mk.injEq] at h1; exact h1.1.symm
  | none =>
    simp only [search, Option.getD_some, Option.isSome_some, if_true] at h1
    split at h1
    · cases h1
    · split at h1
      · cases h1
      · next o ho =>
        have := outer_given_eta _ _ _ _ (by exact hn) o ho
        simp only [Except.ok.injEq, Prod.mk.injEq] at h1
        rw [← h1.1, this]

/-- **C34**, the part about supplied values: with a supplied `fw_pp` the reported profile is the integrator's solution started with `f''(0)` equal
to it, on the reported `eta_inf`. -/
theorem supplied_fw_kept (s : Sim α) (t : Tools α) (w : α) (e : Option α) (hn : PyCmp.eq w w = true)
    (h : (s.setSolutionParameters t e (some w)).2 = .ok ()) :
    ∃ r, t.ivp ⟨s.plainRhs, (s.setSolutionParameters t e (some w)).1.etaInf, (lit 0, lit 0, w)⟩ = .ok r ∧
      (s.setSolutionParameters t e (some w)).1.f = some r.sol := by
  obtain ⟨eta', w', c1, c2, r, h1, h2, -, -, -, h3, h4, -⟩ := set_ok s t e _ h
  have hw : w' = w := by
    cases e with
    | some e' => simp only [search, Except.ok.injEq, Prod.mk.injEq] at h1; exact h1.2.1.symm
    | none =>
      simp only [search, Option.getD_some, Option.isSome_some] at h1
      split at h1
      · cases h1
      · split at h1
        · cases h1
        · next o ho =>
          simp only [Except.ok.injEq, Prod.mk.injEq] at h1
          rcases outer_given_fw _ _ _ (by exact hn) o ho with h5 | h5
          · rw [← h1.2.1, h5]
          · cases h5
  rw [h3, h4, ← hw]
  exact ⟨r, h2, rfl⟩

/-! ### The search never reports that it did not converge -/

private theorem inner_total (solve : α → Except Exc (α × α)) (h : ∀ a, ∃ r, solve a = .ok r) (n : ℕ) (i : Inner α) :
    ∃ i', innerLoop solve n i = .ok i' := by
  induction n generalizing i with
  | zero => exact ⟨i, rfl⟩
  | succ n ih =>
    obtain ⟨⟨f1, f2⟩, hr⟩ := h i.curr
    simp only [innerLoop, hr]
    split
    · exact ⟨_, rfl⟩
    · exact ih _

private theorem outer_total (solve : α → α → Except Exc (α × α)) (h : ∀ a b, ∃ r, solve a b = .ok r) (g : Bool) (n : ℕ) (o : Outer α) :
    ∃ o', outerLoop solve g n o = .ok o' := by
  induction n generalizing o with
  | zero => exact ⟨o, rfl⟩
  | succ n ih =>
    simp only [outerLoop]
    obtain ⟨i, hi⟩ := inner_total (solve o.curr) (h o.curr) 100
      ⟨o.fwPrev, if g = true then o.fwPrev else lit (101/100) * o.fwPrev, o.f1Prev, lit 0, false⟩
    rw [hi]
    dsimp only
    split
    · exact ⟨_, rfl⟩
    · exact ih _

/-- If the integrations themselves succeed the search returns, whatever it found. -/
theorem search_total (solve : α → α → Except Exc (α × α)) (h : ∀ a b, ∃ r, solve a b = .ok r) (e fw : Option α) :
    ∃ r, search solve e fw = .ok r := by
  unfold search
  split
  · exact ⟨_, rfl⟩
  · obtain ⟨⟨f1, f2⟩, hr⟩ := h (e.getD (lit 1)) (fw.getD (lit 1))
    simp only [hr]
    obtain ⟨o, ho⟩ := outer_total solve h fw.isSome 100 ⟨e.getD (lit 1), if e.isSome then e.getD (lit 1) else lit (101/100) * e.getD (lit 1),
      f2, fw.getD (lit 1), lit 0, f1, false, false⟩
    rw [ho]
    exact ⟨_, rfl⟩

/-- If integrator, quadrature and root finder succeed, `set_solution_parameters` returns normally for all admissible parameters, no matter how far the
end conditions are from being met. -/
theorem search_never_reports (s : Sim α) (t : Tools α) (e fw : Option α)
    (h1 : ∀ p, ∃ r, t.ivp p = .ok r ∧ r.success = true) (h2 : ∀ f a b, ∃ k, t.quad f a b = .ok k)
    (h3 : ∀ f a b, ∃ r, t.root f a b = .ok (true, r)) (he : badParam e = false) (hf : badParam fw = false)
    (hd : PyCmp.eq (s.alpha + s.beta) (lit 0) = false) : (s.setSolutionParameters t e fw).2 = .ok () := by
  have hs : ∀ a b, ∃ r, s.endValues t a b = .ok r := fun a b => by
    obtain ⟨r, hr, hr2⟩ := h1 ⟨s.scaledRhs a, lit 1, (lit 0, lit 0, b)⟩
    exact ⟨_, by simp [Sim.endValues, hr, hr2]; rfl⟩
  obtain ⟨⟨eta, w, c1, c2⟩, hv⟩ := search_total _ hs e fw
  obtain ⟨r, hr, hr2⟩ := h1 ⟨s.plainRhs, eta, (lit 0, lit 0, w)⟩
  obtain ⟨k, hk⟩ := h2 (fun eta => lit 2 * (r.sol eta).1 * (r.sol eta).2.1 * (r.sol eta).2.2) (lit 0) eta
  obtain ⟨q, hq⟩ := h3 (fun eta => lit (99/100) - (r.sol eta).2.1) (lit 0) eta
  have hp : ({ s with etaInf := eta } : Sim α).plainRhs = s.plainRhs := rfl
  simp only [Sim.setSolutionParameters, he, hf, Sim.calculateSolution, hv, hp, hr, hr2, Sim.thicknesses, pyDiv]
  simp only [hd, hk, hq, Bool.false_eq_true, if_false, if_true]

end generic

/-! ### C34 fails -/

section fails
variable [PySpecial ℝ]

/-- An integrator whose answers do not contradict each other: the dense solution ends where the last column says, it starts with the start vector,
and integrating the rescaled equation over `[0, 1]` ends at the same values as integrating the equation over `[0, eta]`. -/
def Coherent (t : Tools ℝ) : Prop :=
  (∀ p r, t.ivp p = .ok r → r.success = true → p.tEnd ≠ 0 → r.sol p.tEnd = r.yEnd ∧ r.sol 0 = p.y0) ∧
  ∀ (s : Sim ℝ) (eta : ℝ) (y0 : V3 ℝ) r r', t.ivp ⟨s.scaledRhs eta, 1, y0⟩ = .ok r → t.ivp ⟨s.plainRhs, eta, y0⟩ = .ok r' →
    r.success = true → r'.success = true → r.yEnd = r'.yEnd

/-- **C34**, the part about convergence: a normal return means that the end conditions hold to the tolerance 1e-8, or that both parameters were supplied. -/
def SearchConverges : Prop :=
  ∀ (s : Sim ℝ) (t : Tools ℝ) (e fw : Option ℝ), Reached s → Coherent t → (s.setSolutionParameters t e fw).2 = .ok () →
    (e.isSome ∧ fw.isSome) ∨
    ∃ p q, (s.setSolutionParameters t e fw).1.fpAt (s.setSolutionParameters t e fw).1.etaInf = .ok p ∧
      (s.setSolutionParameters t e fw).1.fppAt (s.setSolutionParameters t e fw).1.etaInf = .ok q ∧
      |1 - p| < 1/100000000 ∧ |q| < 1/100000000

/-- An integrator that succeeds, with `f' = 1` and `f'' = 1 + eta^2` at the end. -/
noncomputable def stubborn : Tools ℝ where
  ivp p := .ok ⟨true, (0, 1, 1 + ((p.rhs (0, 1, 0)).1 * p.tEnd) ^ 2), fun eta =>
    if eta = 0 then p.y0 else (0, 1, 1 + ((p.rhs (0, 1, 0)).1 * eta) ^ 2)⟩
  quad _ _ _ := .ok 1
  root _ _ _ := .ok (true, 1)

theorem stubborn_coherent : Coherent stubborn := by
  constructor
  · intro p r h _ hp
    cases h
    simp [hp]
  · intro s eta y0 r r' h h' _ _
    cases h
    cases h'
    simp [Sim.scaledRhs, Sim.plainRhs]

/-- **C34** is false: nothing is supplied, every integration succeeds, and the call returns although `f''` at the end is at least 1. -/
theorem search_converges_fails : ¬ SearchConverges := fun H => by
  have hd : PyCmp.eq ((sample).alpha + sample.beta) (lit 0) = false := by
    rw [Bool.eq_false_iff]; simp [sample]
  have hok := search_never_reports sample stubborn none none (fun p => ⟨_, rfl, rfl⟩) (fun f a b => ⟨1, rfl⟩)
    (fun f a b => ⟨1, rfl⟩) rfl rfl hd
  rcases H sample stubborn none none (.falknerSkan _ _ _ _ _ _ _ sample_made) stubborn_coherent hok with h | ⟨p, q, hp, hq, ha, hb⟩
  · cases h.1
  · obtain ⟨eta, w, c1, c2, r, h1, h2, -, -, -, h3, h4, -⟩ := set_ok sample stubborn none none hok
    rw [h3] at hp hq
    simp only [Sim.fpAt, Sim.fppAt, h4, Except.ok.injEq] at hp hq
    cases h2
    by_cases h0 : eta = 0
    · simp only [h0, if_true, real_lit, Rat.cast_zero] at hp
      rw [← hp] at ha
      norm_num at ha
    · simp only [if_neg h0] at hq
      rw [← hq] at hb
      have := (abs_lt.1 hb).2
      have h7 : 0 ≤ ((sample.plainRhs (0, 1, 0)).1 * eta) ^ 2 := sq_nonneg _
      linarith

end fails

/-! ### What holds when only one parameter is searched -/

section exact

private theorem inner_done (solve : ℝ → Except Exc (ℝ × ℝ)) (n : ℕ) (i : Inner ℝ) (f1 f2 : ℝ) (h : solve i.curr = .ok (f1, f2))
    (hc : (PyCmp.eq i.prev i.curr || PyCmp.lt (PyCmp.abs (lit 1 - f1)) (lit (1/100000000))) = true) :
    innerLoop solve (n + 1) i = .ok { i with f2 := f2, converged := true } := by
  simp only [innerLoop, h, hc, if_true]

private theorem inner_more (solve : ℝ → Except Exc (ℝ × ℝ)) (n : ℕ) (i : Inner ℝ) (f1 f2 : ℝ) (h : solve i.curr = .ok (f1, f2))
    (hc : (PyCmp.eq i.prev i.curr || PyCmp.lt (PyCmp.abs (lit 1 - f1)) (lit (1/100000000))) = false) :
    innerLoop solve (n + 1) i =
      innerLoop solve n ⟨i.curr, i.curr + (lit 1 - f1) * (i.curr - i.prev) / (f1 - i.f1Prev), f1, f2, false⟩ := by
  simp only [innerLoop, h, hc, Bool.false_eq_true, if_false]

private theorem inner_converged (E : ℝ → ℝ × ℝ) (hinj : Function.Injective fun w => (E w).1) (n : ℕ) (i : Inner ℝ) (hne : i.prev ≠ i.curr)
    (hf : i.f1Prev = (E i.prev).1) (hc : i.converged = false) (i' : Inner ℝ) (h : innerLoop (fun w => .ok (E w)) n i = .ok i')
    (hconv : i'.converged = true) : |1 - (E i'.curr).1| < 1/100000000 ∧ i'.f2 = (E i'.curr).2 := by
  induction n generalizing i with
  | zero =>
    simp only [innerLoop, Except.ok.injEq] at h
    rw [← h, hc] at hconv; cases hconv
  | succ n ih =>
    have he : PyCmp.eq i.prev i.curr = false := by rw [Bool.eq_false_iff]; simpa using hne
    simp only [innerLoop, he, Bool.false_or] at h
    split at h
    · next hlt =>
      simp only [Except.ok.injEq] at h
      rw [← h]
      rw [real_lt, real_abs, real_lit, real_lit] at hlt
      push_cast at hlt
      exact ⟨hlt, rfl⟩
    · next hlt =>
      rw [real_lt, real_abs, real_lit, real_lit] at hlt
      push_cast at hlt
      refine ih _ ?_ rfl rfl h
      simp only [real_lit]
      push_cast
      have h1 : 1 - (E i.curr).1 ≠ 0 := fun h0 => hlt (by rw [h0]; norm_num)
      have h2 : i.curr - i.prev ≠ 0 := sub_ne_zero.2 hne.symm
      have h3 : (E i.curr).1 - i.f1Prev ≠ 0 := by
        rw [hf]; exact sub_ne_zero.2 fun h => hne (hinj h).symm
      have : (1 - (E i.curr).1) * (i.curr - i.prev) / ((E i.curr).1 - i.f1Prev) ≠ 0 := by positivity
      intro h4
      exact this (by linarith)

/-- **C34**, what holds: with a supplied `eta_inf` the search for `fw_pp` ends with `|1 - f'(eta_inf)| < 1e-8` unless it used up its 100
rounds (flag false). Exact arithmetic; the end value of `f'` depends on `f''(0)` in a one-to-one way. The other end condition is not looked at. -/
theorem eta_supplied_converged_partial (E : ℝ → ℝ → ℝ × ℝ) (eta : ℝ) (hinj : Function.Injective fun w => (E eta w).1) (eta' w : ℝ) (c1 : Bool)
    (h : search (fun a b => .ok (E a b)) (some eta) none = .ok (eta', w, c1, true)) : eta' = eta ∧ |1 - (E eta w).1| < 1/100000000 := by
  simp only [search, Option.getD_some, Option.getD_none, Option.isSome_some, Option.isSome_none, if_true] at h
  rw [outerLoop] at h
  simp only [Bool.false_eq_true, if_false] at h
  have he : PyCmp.eq eta eta = true := by simp
  simp only [he, Bool.true_or, if_true] at h
  split at h
  · cases h
  · next o ho =>
    split at ho
    · cases ho
    · next i hi =>
      simp only [Except.ok.injEq, Prod.mk.injEq] at h ho
      rw [← ho] at h
      simp only at h
      obtain ⟨h1, h2, -, h4⟩ := h
      refine ⟨h1.symm, ?_⟩
      have := inner_converged (E eta) hinj 100 _ (by simp only [real_lit]; push_cast; norm_num) rfl rfl i hi h4
      rw [← h2]; exact this.1

private theorem outer_converged (E : ℝ → ℝ × ℝ) (hinj : Function.Injective fun a => (E a).2) (n : ℕ) (o : Outer ℝ) (hne : o.prev ≠ o.curr)
    (hf : o.f2Prev = (E o.prev).2) (hc : o.converged = false) (o' : Outer ℝ)
    (h : outerLoop (fun a _ => .ok (E a)) true n o = .ok o') (hconv : o'.converged = true) :
    |(E o'.curr).2| < 1/100000000 := by
  induction n generalizing o with
  | zero =>
    simp only [outerLoop, Except.ok.injEq] at h
    rw [← h, hc] at hconv; cases hconv
  | succ n ih =>
    have he : PyCmp.eq o.curr o.prev = false := by rw [Bool.eq_false_iff]; simpa using hne.symm
    have hw2 : PyCmp.eq o.fwPrev o.fwPrev = true := by simp
    rw [outerLoop] at h
    rw [inner_done _ 99 _ (E o.curr).1 (E o.curr).2 rfl (by simp only [if_true, hw2, Bool.true_or])] at h
    simp only [if_true, he, Bool.false_or] at h
    split at h
    · next hlt =>
      simp only [Except.ok.injEq] at h
      rw [← h]
      rw [real_lt, real_abs, real_lit] at hlt
      push_cast at hlt
      exact hlt
    · next hlt =>
      rw [real_lt, real_abs, real_lit] at hlt
      push_cast at hlt
      refine ih _ ?_ rfl rfl h
      simp only
      have h1 : -(E o.curr).2 ≠ 0 := fun h0 => hlt (by rw [neg_eq_zero.1 h0]; norm_num)
      have h2 : o.curr - o.prev ≠ 0 := sub_ne_zero.2 hne.symm
      have h3 : (E o.curr).2 - o.f2Prev ≠ 0 := by
        rw [hf]; exact sub_ne_zero.2 fun h => hne (hinj h).symm
      have : -(E o.curr).2 * (o.curr - o.prev) / ((E o.curr).2 - o.f2Prev) ≠ 0 := div_ne_zero (mul_ne_zero h1 h2) h3
      intro h4
      exact this (by linarith)

/-- **C34**, what holds: with a supplied `fw_pp` the search for `eta_inf` ends with `|f''(eta_inf)| < 1e-8` unless it used up its 100 rounds (flag false).
Exact arithmetic; `E a` are the end values for `eta_inf = a` with this `fw_pp`, the second of which determines `a`. The other end condition is
not looked at. -/
theorem fw_supplied_converged_partial (E : ℝ → ℝ × ℝ) (w : ℝ) (hinj : Function.Injective fun a => (E a).2) (eta w' : ℝ) (c2 : Bool)
    (h : search (fun a _ => .ok (E a)) none (some w) = .ok (eta, w', true, c2)) : |(E eta).2| < 1/100000000 := by
  simp only [search, Option.getD_some, Option.getD_none, Option.isSome_some, Option.isSome_none] at h
  simp only [Bool.false_eq_true, if_false] at h
  split at h
  · cases h
  · next o ho =>
    simp only [Except.ok.injEq, Prod.mk.injEq] at h
    obtain ⟨h1, h2, h3, -⟩ := h
    have := outer_converged E hinj 100 _ (by simp only [real_lit]; push_cast; norm_num) rfl rfl o ho h3
    rw [← h1]; exact this

/-- Non-vacuity: with `f'(eta_inf) = f''(0)` as end value the first search succeeds. -/
example : ∃ eta' w c1, search (fun a b : ℝ => .ok (b, a)) (some 3) none = .ok (eta', w, c1, true) := by
  have e1 : PyCmp.eq (3:ℝ) 3 = true := by simp
  have e2 : PyCmp.eq (1:ℝ) (101/100) = false := by rw [Bool.eq_false_iff]; norm_num
  have e3 : PyCmp.lt (PyCmp.abs ((1:ℝ) - 101/100)) (1/100000000) = false := by
    rw [Bool.eq_false_iff, ne_eq, real_lt, real_abs]; norm_num
  have e4 : PyCmp.lt (PyCmp.abs ((1:ℝ) - 1)) (1/100000000) = true := by
    rw [real_lt, real_abs]; norm_num
  have e5 : (101/100 + (1 - 101/100) * (101/100 - 1) / (101/100 - 1) : ℝ) = 1 := by norm_num
  refine ⟨3, 1, true, ?_⟩
  simp only [search, Option.getD_some, Option.getD_none, Option.isSome_some, Option.isSome_none, if_true, real_lit]
  push_cast
  rw [outerLoop, inner_more _ 99 _ (101/100) 3 (by simp) (by simp only [real_lit]; push_cast; simp only [mul_one]; rw [e2, e3]; rfl)]
  simp only [Bool.false_eq_true, if_false, real_lit]
  push_cast
  simp only [mul_one, e5]
  rw [inner_done _ 98 _ 1 3 (by simp) (by simp only [real_lit]; push_cast; rw [e4, Bool.or_true])]
  simp only [e1, Bool.true_or, if_true]

end exact
end IBL.Analytic
