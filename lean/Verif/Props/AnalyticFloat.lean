import Verif.Props.AnalyticUnits
import Verif.Props.ViscosityFloat

/-! C150: reference values of similarity solutions in rounded arithmetic. Multiplying them by powers of four changes no rounding. -/

set_option linter.unusedSectionVars false

namespace IBL.Analytic

variable {R : Rounding} [PyPow R.F] [PySpecial R.F]

/-- The answers of `s'` are those of `s` for `4 ^ m` times the reference velocity and `4 ^ n` times the viscosity, to the last digit and with the same
exceptions: the velocities parallel to the wall are `4 ^ m` times as large, distances from the wall `2 ^ (n - m)` times, velocities away from it `2 ^ (n + m)`
times, wall shear `2 ^ (n + 3 m)` and dissipation `2 ^ (n + 5 m)` times. -/
structure InReferences (m n : ℤ) (s s' : Sim R.F) : Prop where
  edge : ∀ x, s'.uE x = (s.uE x).map (times (2 * m)) ∧ s'.vE x = (s.vE x).map (times (n + m))
  inside : ∀ x y, s'.eta x (times (n - m) y) = s.eta x y ∧ s'.u x (times (n - m) y) = (s.u x y).map (times (2 * m)) ∧
    s'.v x (times (n - m) y) = (s.v x y).map (times (n + m))
  thickness : ∀ x, s'.deltaD x = (s.deltaD x).map (times (n - m)) ∧ s'.deltaM x = (s.deltaM x).map (times (n - m)) ∧
    s'.deltaK x = (s.deltaK x).map (times (n - m)) ∧ s'.deltaS x = (s.deltaS x).map (times (n - m))
  shape : ∀ x, s'.shapeD x = s.shapeD x ∧ s'.shapeK x = s.shapeK x
  stress : ∀ x rho, s'.tauW x rho = (s.tauW x rho).map (times (n + 3 * m))
  loss : ∀ x rho, s'.dissipation x rho = (s.dissipation x rho).map (times (n + 5 * m))

theorem times_times (m n : ℤ) (a : R.F) : times m (times n a) = times (m + n) a := by
  apply Rounding.F.ext; show 2 ^ m * (2 ^ n * a.val) = 2 ^ (m + n) * a.val; rw [zpow_add₀ two_ne_zero, mul_assoc]

theorem times_zero (a : R.F) : times 0 a = a := by
  apply Rounding.F.ext; show 2 ^ (0:ℤ) * a.val = a.val; simp

theorem times_neg (n : ℤ) (a : R.F) : -(times n a) = times n (-a) := by
  apply Rounding.F.ext; show -(2 ^ n * a.val) = 2 ^ n * (-a.val); ring

theorem div_times (n : ℤ) (a b : R.F) : a / times n b = times (-n) (a / b) := by
  have h : a = times n (times (-n) a) := by rw [times_times, add_neg_cancel, times_zero]
  conv_lhs => rw [h]
  rw [times_div_times, times_div]

theorem pyDiv_both (m n : ℤ) (a b : R.F) : pyDiv (times m a) (times n b) = (pyDiv a b).map (times (m - n)) := by
  simp only [pyDiv, eq_times, div_times, times_div, times_times]
  split_ifs
  · rfl
  · simp only [Except.map]; congr 2; ring

private theorem refs_scaled (s : Sim R.F) (m n : ℤ) : InReferences m n s (refs (times (2 * m) s.uRef) (times (2 * n) s.nuRef) s) := by
  obtain ⟨s', hs'⟩ : ∃ s', s' = refs (times (2 * m) s.uRef) (times (2 * n) s.nuRef) s := ⟨_, rfl⟩
  have hu : s'.uRef = times (2 * m) s.uRef := by rw [hs']; rfl
  have hn : s'.nuRef = times (2 * n) s.nuRef := by rw [hs']; rfl
  have hd : s'.etaD = s.etaD := by rw [hs']; rfl
  have hm : s'.etaM = s.etaM := by rw [hs']; rfl
  have hK : s'.etaK = s.etaK := by rw [hs']; rfl
  have hS : s'.etaS = s.etaS := by rw [hs']; rfl
  have hB : s'.beta = s.beta := by rw [hs']; rfl
  have hA : s'.alpha = s.alpha := by rw [hs']; rfl
  have hg : s'.gFactor = s.gFactor := by rw [hs']; rfl
  have hfw : s'.fwPp = s.fwPp := by rw [hs']; rfl
  have hf : s'.fAt = s.fAt := by rw [hs']; rfl
  have hfp : s'.fpAt = s.fpAt := by rw [hs']; rfl
  have hsh : ∀ x, s'.shapeD x = s.shapeD x ∧ s'.shapeK x = s.shapeK x := fun x => by rw [hs']; exact ⟨rfl, rfl⟩
  rw [← hs']
  clear hs'
  have e1 : ∀ x, s'.uE x = (s.uE x).map (times (2 * m)) := fun x => by
    simp only [Sim.uE, hB, hA, hu, bind, Except.bind, pure, Except.pure, times_mul]
    rcases pyDiv s.beta (lit 2 * s.alpha - s.beta) with e | a
    · rfl
    dsimp only
    rcases pyPow x a with e | b <;> rfl
  have e1' : ∀ x, s'.uENp x = (s.uENp x).map (times (2 * m)) := fun x => by
    simp only [Sim.uENp, hB, hA, hu, bind, Except.bind, pure, Except.pure, times_mul]
    rcases pyDiv s.beta (lit 2 * s.alpha - s.beta) with e | a <;> rfl
  have e2 : ∀ x, s'.g x = (s.g x).map (times (m - n)) := fun x => by
    simp only [Sim.g, hg, hn, e1, bind, Except.bind, pure, Except.pure]
    rcases s.uE x with e | a
    · rfl
    simp only [Except.map, mul_times, times_mul, pyDiv_both]
    rcases pyDiv a (s.gFactor * s.nuRef * x) with e | b
    · rfl
    simp only [Except.map]
    rw [show 2 * m - 2 * n = 2 * (m - n) by ring, sqrt_times]
  have e2' : ∀ x, s'.gArray x = (s.gArray x).map (times (m - n)) := fun x => by
    simp only [Sim.gArray, hg, hn, e1', bind, Except.bind, pure, Except.pure]
    rcases s.uENp x with e | a
    · rfl
    simp only [Except.map, mul_times, times_mul, times_div, div_times, times_times]
    rw [show -(2 * n) + 2 * m = 2 * (m - n) by ring, sqrt_times]
  have e3 : ∀ x y, s'.eta x (times (n - m) y) = s.eta x y := fun x y => by
    simp only [Sim.eta, e2', bind, Except.bind, pure, Except.pure]
    rcases s.gArray x with e | a
    · rfl
    simp only [Except.map, times_mul, mul_times, times_times]
    rw [show m - n + (n - m) = 0 by ring, times_zero]
  have e4 : ∀ (q : R.F) x, (do let g ← s'.g x; return q / g : Except Exc R.F) = (do let g ← s.g x; return q / g : Except Exc R.F).map (times (n - m)) := by
    intro q x
    rw [e2]
    rcases s.g x with e | a
    · rfl
    simp only [Except.map, bind, Except.bind, pure, Except.pure, div_times]
    congr 2; ring
  refine ⟨fun x => ⟨e1 x, ?_⟩, fun x y => ⟨e3 x y, ?_, ?_⟩, fun x => ⟨?_, ?_, ?_, ?_⟩, hsh, fun x rho => ?_, fun x rho => ?_⟩
  · simp only [Sim.vE, e2, hn, hd, bind, Except.bind, pure, Except.pure]
    rcases s.g x with e | a
    · rfl
    simp only [Except.map, times_mul, mul_times, times_times]
    congr 2; ring
  · simp only [Sim.u, e1, e3, hfp, bind, Except.bind, pure, Except.pure]
    rcases s.uE x with e | a
    · rfl
    simp only [Except.map]
    rcases s.eta x y with e | b
    · rfl
    dsimp only
    rcases s.fpAt b with e | c
    · rfl
    simp only [times_mul]
  · simp only [Sim.v, e2, e3, hf, hfp, hB, hA, hn, bind, Except.bind, pure, Except.pure]
    rcases s.eta x y with e | b
    · rfl
    dsimp only
    rcases s.g x with e | a
    · rfl
    simp only [Except.map]
    rcases s.fAt b with e | c
    · rfl
    dsimp only
    rcases pyDiv s.beta s.alpha with e | d
    · rfl
    dsimp only
    rcases s.fpAt b with e | w
    · rfl
    simp only [times_mul, mul_times, times_times, times_neg]
    congr 2; ring
  · simp only [Sim.deltaD, hd]; exact e4 _ x
  · simp only [Sim.deltaM, hm]; exact e4 _ x
  · simp only [Sim.deltaK, hK]; exact e4 _ x
  · simp only [Sim.deltaS, hS]; exact e4 _ x
  · simp only [Sim.tauW, e1, e2, hn, hfw, bind, Except.bind, pure, Except.pure]
    rcases s.uE x with e | a
    · rfl
    simp only [Except.map]
    rcases s.g x with e | b
    · rfl
    simp only [times_mul, mul_times, times_times]
    congr 2; ring
  · simp only [Sim.dissipation, e1, e2, hn, hA, hB, hK, bind, Except.bind, pure, Except.pure]
    rcases s.g x with e | b
    · rfl
    simp only [Except.map]
    rcases s.uE x with e | a
    · rfl
    simp only [times_mul, mul_times, times_times]
    congr 2; ring

/-- **C150**, for objects: setting the reference values to multiples by powers of four scales all answers exactly. -/
theorem float_similarity_set {s : Sim R.F} (hu : PyCmp.le s.uRef (lit 0) = false) (hn : PyCmp.le s.nuRef (lit 0) = false) (m n : ℤ) :
    (s.step (.setURef (times (2 * m) s.uRef))).2 = .ok () ∧
    ((s.step (.setURef (times (2 * m) s.uRef))).1.step (.setNuRef (times (2 * n) s.nuRef))).2 = .ok () ∧
    InReferences m n s ((s.step (.setURef (times (2 * m) s.uRef))).1.step (.setNuRef (times (2 * n) s.nuRef))).1 := by
  have h1 : s.step (.setURef (times (2 * m) s.uRef)) = ({ s with uRef := times (2 * m) s.uRef }, .ok ()) := by
    simp only [Sim.step, Sim.setURef, le_times, hu, Bool.false_eq_true, if_false]
  rw [h1]
  have h2 : ({ s with uRef := times (2 * m) s.uRef } : Sim R.F).step (.setNuRef (times (2 * n) s.nuRef)) =
      (refs (times (2 * m) s.uRef) (times (2 * n) s.nuRef) s, .ok ()) := by
    simp only [Sim.step, Sim.setNuRef, le_times, hn, Bool.false_eq_true, if_false, refs]
  rw [h2]
  exact ⟨rfl, rfl, refs_scaled s m n⟩

private theorem scaled_of_map {mk mk' : Except Exc (Sim R.F)} {u nu : R.F} {m n : ℤ} (hm : mk' = mk.map (refs (times (2 * m) u) (times (2 * n) nu)))
    (h : ∀ s, mk = .ok s → s.uRef = u ∧ s.nuRef = nu) :
    (∀ x, mk = .error x ↔ mk' = .error x) ∧ ∀ s s', mk = .ok s → mk' = .ok s' → InReferences m n s s' := by
  subst hm
  refine ⟨fun x => ?_, fun s s' h1 h2 => ?_⟩
  · cases mk <;> simp [Except.map]
  · obtain ⟨rfl, rfl⟩ := h s h1
    rw [h1] at h2
    cases h2
    exact refs_scaled s m n

/-- **C150**: a Falkner-Skan object with `4 ^ m` times the reference velocity and `4 ^ n` times the viscosity exists exactly if the original one does, and its
answers are the scaled ones. -/
theorem float_falknerSkan (t : Tools R.F) (beta u nu : R.F) (fw e : Option R.F) (m n : ℤ) :
    (∀ x, mkFalknerSkan t beta u nu fw e = .error x ↔ mkFalknerSkan t beta (times (2 * m) u) (times (2 * n) nu) fw e = .error x) ∧
      ∀ s s', mkFalknerSkan t beta u nu fw e = .ok s → mkFalknerSkan t beta (times (2 * m) u) (times (2 * n) nu) fw e = .ok s' → InReferences m n s s' := by
  refine scaled_of_map (u := u) (nu := nu) ?_ fun s h => ?_
  · simp only [mkFalknerSkan]
    split
    · rfl
    · exact refs_base _ _ _ _ _ _ _ _ _ _ _ (le_times _ _) (le_times _ _)
  · simp only [mkFalknerSkan] at h
    split at h
    · cases h
    · exact (base_same h).2

/-- **C150** for Blasius objects. -/
theorem float_blasius (t : Tools R.F) (u nu : R.F) (fw e : Option R.F) (m n : ℤ) :
    (∀ x, mkBlasius t u nu fw e = .error x ↔ mkBlasius t (times (2 * m) u) (times (2 * n) nu) fw e = .error x) ∧
      ∀ s s', mkBlasius t u nu fw e = .ok s → mkBlasius t (times (2 * m) u) (times (2 * n) nu) fw e = .ok s' → InReferences m n s s' := by
  refine scaled_of_map (u := u) (nu := nu) ?_ fun s h => ?_
  · simp only [mkBlasius]
    split <;> exact refs_base _ _ _ _ _ _ _ _ _ _ _ (le_times _ _) (le_times _ _)
  · simp only [mkBlasius] at h
    split at h <;> exact (base_same h).2

/-- Non-vacuity: an object that has a displacement thickness at 1, which is doubled, exactly, in a fluid four times as viscous. -/
theorem float_similarity_case : ∃ (s : Sim R.F) (d : R.F), PyCmp.le s.uRef (lit 0) = false ∧ PyCmp.le s.nuRef (lit 0) = false ∧
    s.deltaD (lit 1) = .ok d ∧
    ∀ s', InReferences 0 1 s s' → ∃ d', s'.deltaD (lit 1) = .ok d' ∧ d'.val = 2 * d.val := by
  have le0 : PyCmp.le (lit 1 : R.F) (lit 0) = false := by
    rw [Bool.eq_false_iff, ne_eq, Rounding.F_le, Rounding.val_zero, Rounding.val_one]; norm_num
  have eq0 : PyCmp.eq (lit 1 : R.F) (lit 0) = false := by
    rw [Bool.eq_false_iff, ne_eq, Rounding.F_eq, Rounding.val_zero, Rounding.val_one]; norm_num
  have v2 : (lit 2 : R.F).val = 2 := by
    have := Rounding.val_int (R := R) 2 (by norm_num)
    exact_mod_cast this
  have v2' : R.rd 2 = 2 := by have := R.int 2 (by norm_num); push_cast at this; exact this
  have eq1 : PyCmp.eq (lit 2 * lit 1 - lit 0 : R.F) (lit 0) = false := by
    rw [Bool.eq_false_iff, ne_eq, Rounding.F_eq, Rounding.val_zero, Rounding.val_sub, Rounding.val_mul, Rounding.val_zero, Rounding.val_one, v2,
      mul_one, sub_zero, v2', v2']; norm_num
  have eq2 : PyCmp.eq (lit 2 * lit 1 * lit 1 : R.F) (lit 0) = false := by
    rw [Bool.eq_false_iff, ne_eq, Rounding.F_eq, Rounding.val_zero, Rounding.val_mul, Rounding.val_mul, Rounding.val_one, v2,
      mul_one, mul_one, v2', v2']; norm_num
  have key : ∀ s : Sim R.F, (∃ d, s.deltaD (lit 1) = .ok d) → PyCmp.le s.uRef (lit 0) = false → PyCmp.le s.nuRef (lit 0) = false →
      ∃ (s : Sim R.F) (d : R.F), PyCmp.le s.uRef (lit 0) = false ∧ PyCmp.le s.nuRef (lit 0) = false ∧ s.deltaD (lit 1) = .ok d ∧
      ∀ s', InReferences 0 1 s s' → ∃ d', s'.deltaD (lit 1) = .ok d' ∧ d'.val = 2 * d.val := by
    rintro s ⟨d, hd⟩ h1 h2
    refine ⟨s, d, h1, h2, hd, fun s' h => ?_⟩
    have := (h.thickness (lit 1)).1
    rw [hd] at this
    refine ⟨_, this, ?_⟩
    show (2:ℝ) ^ ((1:ℤ) - 0) * d.val = 2 * d.val
    norm_num
  refine key ⟨.blasius, lit 1, lit 1, lit 1, lit 0, lit 1, some fun _ => (lit 0, lit 1, lit 1), lit 1, lit 1, lit 1, lit 1, lit 1⟩ ?_ le0 le0
  simp only [Sim.deltaD, Sim.g, Sim.uE, Sim.gFactor, pyDiv, pyPow, eq0, eq1, eq2, bind, Except.bind, pure, Except.pure, Bool.false_eq_true, if_false,
    Bool.false_and, Except.ok.injEq, exists_eq']

end IBL.Analytic
