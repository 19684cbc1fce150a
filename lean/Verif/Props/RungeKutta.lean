import Verif.Lemmas.RungeKutta
import Verif.Props.SeparationExamples

/-!
C128: the integrator that `solve` uses always ends, and its steps are what the theorems about `solve` assume of an integrator.
-/

namespace IBL
open SolveIvp RungeKutta

/-! ### Specification -/

/-- One step of the method of Dormand and Prince from `(t, y)` with step length `h`, as in the textbooks (Hairer, Nørsett, Wanner, Table
II.5.2): seven slopes `k`, of which the first is the slope at the start and the last the slope at the end, and component `j` of the new state
is `y_j + h (35/384 k_1 + ...)`. -/
structure DormandPrince (f : ℝ → List ℝ → Except Exc (List ℝ)) (t h : ℝ) (y yNew : List ℝ) (k : Fin 7 → List ℝ) : Prop where
  size : yNew.length = y.length ∧ ∀ i, (k i).length = y.length
  k1 : f t y = .ok (k 0)
  k2 : ∃ w, f (t + h / 5) w = .ok (k 1) ∧ w.length = y.length ∧ ∀ j, w.getD j 0 = y.getD j 0 + h * (1/5 * (k 0).getD j 0)
  k3 : ∃ w, f (t + 3/10 * h) w = .ok (k 2) ∧ w.length = y.length ∧
    ∀ j, w.getD j 0 = y.getD j 0 + h * (3/40 * (k 0).getD j 0 + 9/40 * (k 1).getD j 0)
  k4 : ∃ w, f (t + 4/5 * h) w = .ok (k 3) ∧ w.length = y.length ∧
    ∀ j, w.getD j 0 = y.getD j 0 + h * (44/45 * (k 0).getD j 0 - 56/15 * (k 1).getD j 0 + 32/9 * (k 2).getD j 0)
  k5 : ∃ w, f (t + 8/9 * h) w = .ok (k 4) ∧ w.length = y.length ∧ ∀ j, w.getD j 0 = y.getD j 0 + h *
    (19372/6561 * (k 0).getD j 0 - 25360/2187 * (k 1).getD j 0 + 64448/6561 * (k 2).getD j 0 - 212/729 * (k 3).getD j 0)
  k6 : ∃ w, f (t + h) w = .ok (k 5) ∧ w.length = y.length ∧ ∀ j, w.getD j 0 = y.getD j 0 + h * (9017/3168 * (k 0).getD j 0
    - 355/33 * (k 1).getD j 0 + 46732/5247 * (k 2).getD j 0 + 49/176 * (k 3).getD j 0 - 5103/18656 * (k 4).getD j 0)
  k7 : f (t + h) yNew = .ok (k 6)
  new : ∀ j, yNew.getD j 0 = y.getD j 0 + h * (35/384 * (k 0).getD j 0 + 500/1113 * (k 2).getD j 0 + 125/192 * (k 3).getD j 0
    - 2187/6784 * (k 4).getD j 0 + 11/84 * (k 5).getD j 0)

/-- The error estimate of a step, component `j`: the difference to the embedded method of order four. -/
noncomputable def dpError (h : ℝ) (k : Fin 7 → List ℝ) (j : ℕ) : ℝ :=
  h * (-71/57600 * (k 0).getD j 0 + 71/16695 * (k 2).getD j 0 - 71/1920 * (k 3).getD j 0 + 17253/339200 * (k 4).getD j 0
    - 22/525 * (k 5).getD j 0 + 1/40 * (k 6).getD j 0)

/-- The interpolant of a step at the fraction `s` of its length, component `j`, as a difference to the start: the continuous extension of
fourth order that Shampine chose (Some practical Runge-Kutta formulas, 1986). -/
noncomputable def dpInterpolant (h s : ℝ) (k : Fin 7 → List ℝ) (j : ℕ) : ℝ :=
  h * ((s - 8048581381/2820520608 * s ^ 2 + 8663915743/2820520608 * s ^ 3 - 12715105075/11282082432 * s ^ 4) * (k 0).getD j 0
    + (131558114200/32700410799 * s ^ 2 - 68118460800/10900136933 * s ^ 3 + 87487479700/32700410799 * s ^ 4) * (k 2).getD j 0
    + (-1754552775/470086768 * s ^ 2 + 14199869525/1410260304 * s ^ 3 - 10690763975/1880347072 * s ^ 4) * (k 3).getD j 0
    + (127303824393/49829197408 * s ^ 2 - 318862633887/49829197408 * s ^ 3 + 701980252875/199316789632 * s ^ 4) * (k 4).getD j 0
    + (-282668133/205662961 * s ^ 2 + 2019193451/616988883 * s ^ 3 - 1453857185/822651844 * s ^ 4) * (k 5).getD j 0
    + (40617522/29380423 * s ^ 2 - 110615467/29380423 * s ^ 3 + 69997945/29380423 * s ^ 4) * (k 6).getD j 0)

/-- Accepted steps: each is a step of Dormand and Prince from the point before, goes forward, the error
estimate meets the tolerances, and the interpolant is the one above and matches the step at both ends. -/
def DpSteps (f : ℝ → List ℝ → Except Exc (List ℝ)) (atol rtol : ℝ) : ℝ × List ℝ → List (Step ℝ) → Prop
  | _, [] => True
  | a, s :: l => a.1 < s.t ∧ s.dense a.1 = a.2 ∧ s.dense s.t = s.y ∧
      (∃ k, DormandPrince f a.1 (s.t - a.1) a.2 s.y k ∧
        ∑ j ∈ Finset.range a.2.length, (dpError (s.t - a.1) k j / (atol + rtol * max |a.2.getD j 0| |s.y.getD j 0|)) ^ 2 < a.2.length ∧
        ∀ r, (s.dense (a.1 + r * (s.t - a.1))).length = a.2.length ∧
          ∀ j, (s.dense (a.1 + r * (s.t - a.1))).getD j 0 = a.2.getD j 0 + dpInterpolant (s.t - a.1) r k j) ∧
      DpSteps f atol rtol s.pt l

/-! ### Steps -/

private theorem stage {f : ℝ → List ℝ → Except Exc (List ℝ)} {t h : ℝ} {y k : List ℝ} {K : List (List ℝ)} {c : ℚ} {a : List ℚ}
    (hK : ∀ k ∈ K, k.length = y.length) (e : call f y.length (t + lit c * h) (vadd y ((comb y.length K a).map (· * h))) = .ok k) :
    k.length = y.length ∧ ∃ w, f (t + c * h) w = .ok k ∧ w.length = y.length ∧
      ∀ j, w.getD j 0 = y.getD j 0 + h * ((List.zip K a).map fun k => k.1.getD j 0 * (k.2 : ℝ)).sum := by
  obtain ⟨h1, h2⟩ := call_ok e
  refine ⟨h2, _, h1, length_vadd rfl (by rw [List.length_map, length_comb hK]), fun j => ?_⟩
  rw [getD_vadd (by rw [List.length_map, length_comb hK]), getD_map (· * h) (by simp), getD_comb hK]
  ring

/-- `rk_step` is the step of the textbooks. -/
theorem rkStep_textbook {f : ℝ → List ℝ → Except Exc (List ℝ)} {t h : ℝ} {y f0 yN fN : List ℝ} {K : List (List ℝ)} (h0 : f t y = .ok f0)
    (hf : f0.length = y.length) (e : rkStep f t y f0 h = .ok (yN, fN, K)) :
    ∃ k : Fin 7 → List ℝ, DormandPrince f t h y yN k ∧ K = [k 0, k 1, k 2, k 3, k 4, k 5, k 6] := by
  unfold rkStep at e
  split at e
  · cases e
  next K0 hK0 =>
  simp only [tableau, stages] at hK0
  split at hK0
  · cases hK0
  next k2 e2 =>
  split at hK0
  · cases hK0
  next k3 e3 =>
  split at hK0
  · cases hK0
  next k4 e4 =>
  split at hK0
  · cases hK0
  next k5 e5 =>
  split at hK0
  · cases hK0
  next k6 e6 =>
  cases hK0
  simp only at e
  split at e
  · cases e
  next k7 e7 =>
  cases e
  obtain ⟨l2, w2, c2, d2, g2⟩ := stage (by simpa using hf) e2
  obtain ⟨l3, w3, c3, d3, g3⟩ := stage (by simp [hf, l2]) e3
  obtain ⟨l4, w4, c4, d4, g4⟩ := stage (by simp [hf, l2, l3]) e4
  obtain ⟨l5, w5, c5, d5, g5⟩ := stage (by simp [hf, l2, l3, l4]) e5
  obtain ⟨l6, w6, c6, d6, g6⟩ := stage (by simp [hf, l2, l3, l4, l5]) e6
  obtain ⟨c7, l7⟩ := call_ok e7
  have hK6 : ∀ k ∈ [f0, k2, k3, k4, k5, k6], k.length = y.length := by simp [hf, l2, l3, l4, l5, l6]
  refine ⟨![f0, k2, k3, k4, k5, k6, fN], ⟨⟨?_, ?_⟩, h0, ?_, ?_, ?_, ?_, ?_, c7, ?_⟩, rfl⟩
  · exact length_vadd rfl (by rw [List.length_map]; exact length_comb hK6)
  · intro i; fin_cases i <;> simp [*]
  · refine ⟨w2, by rw [← show t + ((1/5 : ℚ) : ℝ) * h = t + h / 5 by push_cast; ring]; exact c2, d2, fun j => ?_⟩
    rw [g2 j]; simp; left; ring
  · refine ⟨w3, by rw [← show t + ((3/10 : ℚ) : ℝ) * h = t + 3/10 * h by push_cast; ring]; exact c3, d3, fun j => ?_⟩
    rw [g3 j]; simp; left; ring
  · refine ⟨w4, by rw [← show t + ((4/5 : ℚ) : ℝ) * h = t + 4/5 * h by push_cast; ring]; exact c4, d4, fun j => ?_⟩
    rw [g4 j]; simp; left; ring
  · refine ⟨w5, by rw [← show t + ((8/9 : ℚ) : ℝ) * h = t + 8/9 * h by push_cast; ring]; exact c5, d5, fun j => ?_⟩
    rw [g5 j]; simp; left; ring
  · refine ⟨w6, by rw [← show t + ((1 : ℚ) : ℝ) * h = t + h by push_cast; ring]; exact c6, d6, fun j => ?_⟩
    rw [g6 j]; simp; left; ring
  · intro j
    show (vadd y ((comb y.length [f0, k2, k3, k4, k5, k6] weights).map (h * ·))).getD j 0 = _
    rw [getD_vadd (by rw [List.length_map, length_comb hK6]), getD_map (h * ·) (by simp), getD_comb hK6]
    simp [weights]; left; ring

private theorem sum_sq (x : List ℝ) (c : ℝ) : x.foldl (fun s v => s + v * v) c = c + ∑ j ∈ Finset.range x.length, (x.getD j 0) ^ 2 := by
  induction x generalizing c with
  | nil => simp
  | cons a x ih =>
    rw [List.foldl_cons, ih, List.length_cons, Finset.sum_range_succ']
    simp; ring

private theorem norm_value (x : List ℝ) : RungeKutta.norm x = Real.sqrt (∑ j ∈ Finset.range x.length, (x.getD j 0) ^ 2) / Real.sqrt x.length := by
  simp only [RungeKutta.norm, real_sqrt, real_pow, real_lit, sum_sq]
  rw [Real.sqrt_eq_rpow x.length]
  push_cast
  rw [zero_add]

private theorem npMax_real (a b : ℝ) : npMax a b = max a b := by
  unfold npMax
  simp only [real_eq, real_le, if_true]
  rcases le_total a b with h | h
  · rw [max_eq_right h]; split_ifs with h'
    · exact le_antisymm h h'
    · rfl
  · rw [max_eq_left h, if_pos h]

/-- The tolerances that are used: `rtol` is raised to 100 machine epsilons if it is smaller. -/
noncomputable def effectiveRtol (rtol : ℝ) : ℝ := max rtol (100 / 2 ^ 52)

private theorem relTol_real (p : IvpProblem ℝ) : relTol p = effectiveRtol p.rtol := by
  unfold relTol effectiveRtol
  simp only [real_lt, real_lit]
  push_cast
  split_ifs with h
  · rw [max_eq_right h.le]
  · rw [max_eq_left (not_lt.1 h)]

/-- What the step size control works with: the root mean square of the error estimate in units of the tolerances. -/
theorem error_value {p : IvpProblem ℝ} {s : St ℝ} {q : Trial ℝ} {k : Fin 7 → List ℝ} {h' : ℝ} 
    (dp : DormandPrince p.rhs s.t (q.t - s.t) s.y q.y k) (hK : q.K = [k 0, k 1, k 2, k 3, k 4, k 5, k 6])
    (ht : trial p s h' = .ok q) :
    q.err = Real.sqrt (∑ j ∈ Finset.range s.y.length, (dpError (q.t - s.t) k j /
      (p.atol + effectiveRtol p.rtol * max |s.y.getD j 0| |q.y.getD j 0|)) ^ 2) / Real.sqrt s.y.length := by
  obtain ⟨q1, -, -, q4⟩ := trial_ok ht
  have hKl : ∀ x ∈ q.K, x.length = s.y.length := by
    rw [hK]; simp [dp.size.2]
  rw [q4]
  have hlen : (vdiv ((comb s.y.length q.K errorWeights).map (· * q.h)) (scale p s.y q.y)).length = s.y.length := by
    simp [vdiv, scale, length_comb hKl, dp.size.1]
  rw [norm_value, hlen]
  refine congrArg (Real.sqrt · / _) (Eq.symm (Finset.sum_congr rfl fun j hj => ?_))
  have hj := Finset.mem_range.1 hj
  have hj' : j < q.y.length := by rw [dp.size.1]; exact hj
  have hc : j < (comb s.y.length q.K errorWeights).length := by rw [length_comb hKl]; exact hj
  have hcd := getD_comb (a := errorWeights) hKl j
  simp only [List.getD_eq_getElem?_getD, List.getElem?_eq_getElem hc, Option.getD_some] at hcd
  have : (vdiv ((comb s.y.length q.K errorWeights).map (· * q.h)) (scale p s.y q.y)).getD j 0 =
      (comb s.y.length q.K errorWeights)[j] * q.h / (p.atol + max |s.y[j]| |q.y[j]| * effectiveRtol p.rtol) := by
    simp [vdiv, scale, List.getD_eq_getElem?_getD, List.getElem?_zipWith, List.getElem?_eq_getElem hc, List.getElem?_eq_getElem hj,
      List.getElem?_eq_getElem hj', npMax_real, relTol_real]
  rw [this, hcd, q1, hK]
  simp only [List.getD_eq_getElem?_getD, List.getElem?_eq_getElem hj, List.getElem?_eq_getElem hj', Option.getD_some]
  simp only [errorWeights, dpError, List.zip_cons_cons, List.zip_nil_right, List.map_cons, List.map_nil, List.sum_cons, List.sum_nil,
    List.getD_eq_getElem?_getD]
  push_cast
  ring

/-- The test that accepts a step, in terms of the error estimate and the tolerances. -/
theorem error_small {p : IvpProblem ℝ} {s : St ℝ} {q : Trial ℝ} {k : Fin 7 → List ℝ} {h' : ℝ} (hn : s.y.length ≠ 0)
    (dp : DormandPrince p.rhs s.t (q.t - s.t) s.y q.y k) (hK : q.K = [k 0, k 1, k 2, k 3, k 4, k 5, k 6])
    (ht : trial p s h' = .ok q) :
    q.err < 1 ↔ ∑ j ∈ Finset.range s.y.length, (dpError (q.t - s.t) k j / (p.atol + effectiveRtol p.rtol * max |s.y.getD j 0| |q.y.getD j 0|)) ^ 2
      < s.y.length := by
  have hn' : (0:ℝ) < s.y.length := by exact_mod_cast Nat.pos_of_ne_zero hn
  rw [error_value dp hK ht, div_lt_one (Real.sqrt_pos.2 hn'), Real.sqrt_lt_sqrt_iff (Finset.sum_nonneg fun _ _ => sq_nonneg _)]

private theorem interpolant {f : ℝ → List ℝ → Except Exc (List ℝ)} {t t' : ℝ} {y yN : List ℝ} {k : Fin 7 → List ℝ} {K : List (List ℝ)}
    (hne : t' ≠ t) (dp : DormandPrince f t (t' - t) y yN k) (hK : K = [k 0, k 1, k 2, k 3, k 4, k 5, k 6]) (r : ℝ) :
    (denseOutput t t' y K (t + r * (t' - t))).length = y.length ∧
    ∀ j, (denseOutput t t' y K (t + r * (t' - t))).getD j 0 = y.getD j 0 + dpInterpolant (t' - t) r k j := by
  have hKl : ∀ x ∈ K, x.length = y.length := by
    rw [hK]; simp [dp.size.2]
  obtain ⟨h1, h2⟩ := length_dense (tO := t) (tN := t') (t := t + r * (t' - t)) rfl hKl
  refine ⟨h1, fun j => ?_⟩
  have hr : (t + r * (t' - t) - t) / (t' - t) = r := by
    rw [add_sub_cancel_left, mul_div_assoc, div_self (sub_ne_zero.2 hne), mul_one]
  rw [h2 j, hr]
  simp only [getD_comb hKl]
  rw [hK]
  simp only [denseWeights, dpInterpolant, List.getD_cons_zero, List.getD_cons_succ, List.zip_cons_cons, List.zip_nil_right, List.map_cons,
    List.map_nil, List.sum_cons, List.sum_nil]
  push_cast
  ring

/-- What holds between two steps of a run in the positive direction. -/
private structure Inv (p : IvpProblem ℝ) (s : St ℝ) : Prop where
  forward : direction p = 1
  before : s.t < p.x1
  ne : s.y.length ≠ 0
  slope : p.rhs s.t s.y = .ok s.f
  size : s.f.length = s.y.length

private theorem accepted {p : IvpProblem ℝ} {m : ℝ} {s s' : St ℝ} {st : Step ℝ} {rej : Bool} {h : ℝ} (I : Inv p s) (hm : 0 < m)
    (T : Tries p m s rej h (.accepted s' st)) :
    s.t < st.t ∧ st.t ≤ p.x1 ∧ st.y.length = s.y.length ∧ st.dense s.t = s.y ∧ st.dense st.t = st.y ∧
    (∃ k, DormandPrince p.rhs s.t (st.t - s.t) s.y st.y k ∧ ∑ j ∈ Finset.range s.y.length, (dpError (st.t - s.t) k j /
      (p.atol + effectiveRtol p.rtol * max |s.y.getD j 0| |st.y.getD j 0|)) ^ 2 < s.y.length ∧
      ∀ r, (st.dense (s.t + r * (st.t - s.t))).length = s.y.length ∧
        ∀ j, (st.dense (s.t + r * (st.t - s.t))).getD j 0 = s.y.getD j 0 + dpInterpolant (st.t - s.t) r k j) ∧
    s'.t = st.t ∧ s'.y = st.y ∧ p.rhs s'.t s'.y = .ok s'.f ∧ s'.f.length = s'.y.length := by
  obtain ⟨h', q, rej', h1, h2, h3, rfl, rfl⟩ := tries_accepted T
  obtain ⟨q1, q2, q3, -⟩ := trial_ok h2
  rw [I.forward, q1, one_mul, one_mul] at q2
  have hlt : s.t < q.t := by
    have : 0 < q.t - s.t := by rw [q2]; exact lt_min (lt_of_lt_of_le hm h1) (by linarith [I.before])
    linarith
  have hle : q.t ≤ p.x1 := by
    have : q.t - s.t ≤ p.x1 - s.t := by rw [q2]; exact min_le_right _ _
    linarith
  obtain ⟨k, dp, hK⟩ := rkStep_textbook I.slope I.size q3
  obtain ⟨-, r2, r3, r4, -⟩ := rkStep_ok rfl I.size q3
  have hs : p.rhs q.t q.y = .ok q.f := by rw [← r4]; congr 1; ring
  exact ⟨hlt, hle, dp.size.1, dense_left rfl r3, dense_right rfl I.size hlt.ne' q3, ⟨k, dp, (error_small I.ne dp hK h2).1 h3,
    interpolant hlt.ne' dp hK⟩, rfl, rfl, hs,
    r2.trans dp.size.1.symm⟩

private theorem steps_contract {gap : ℝ → ℝ → ℝ} {m : ℝ} (hg : Spaced gap m) {p : IvpProblem ℝ} {s : St ℝ} {r : Run ℝ}
    (S : Steps gap p s r) (I : Inv p s) :
    DpSteps p.rhs p.atol (effectiveRtol p.rtol) (s.t, s.y) r.steps ∧
    (∀ st ∈ r.steps, s.t < st.t ∧ st.t ≤ p.x1 ∧ st.y.length = s.y.length) ∧
    (r.ending = .reached ↔ ∃ st, r.steps.getLast? = some st ∧ st.t = p.x1) ∧
    (∀ msg, r.ending = .failed msg → msg = tooSmallMessage) := by
  have hm : ∀ t, 0 < minStep gap p t := fun t => lt_of_lt_of_le (by linarith [hg.1]) (minStep_ge hg p t)
  induction S with
  | trivial h =>
    rcases h with h | h
    · exact absurd h I.ne
    · simp only [real_eq] at h; exact absurd h I.before.ne
  | small => exact ⟨trivial, by simp, by simp, by simp [eq_comm]⟩
  | raised => exact ⟨trivial, by simp, by simp, by simp⟩
  | last _ _ T c =>
    obtain ⟨a1, a2, a3, a4, a5, a6, a7, a8, -⟩ := accepted I (hm _) T
    have : _ = p.x1 := le_antisymm a2 (by
      rw [real_ge, I.forward, real_lit] at c; push_cast at c; linarith [a7])
    exact ⟨⟨a1, a4, a5, a6, trivial⟩, by simpa using ⟨a1, a2, a3⟩, by simpa using this, by simp⟩
  | @more s s' st run _ _ T c _ ih =>
    obtain ⟨a1, a2, a3, a4, a5, a6, a7, a8, a9, a10⟩ := accepted I (hm _) T
    have hb : s'.t < p.x1 := by
      have c' : ¬ PyCmp.ge (direction p * (s'.t - p.x1)) (lit 0) = true := by rw [c]; simp
      rw [real_ge, I.forward, real_lit] at c'; push_cast at c'; linarith
    obtain ⟨i1, i2, i3, i4⟩ := ih ⟨I.forward, hb, by rw [a8, a3]; exact I.ne, a9, a10⟩
    have hp : s'.t = st.t ∧ s'.y = st.y := ⟨a7, a8⟩
    refine ⟨⟨a1, a4, a5, a6, by rw [hp.1, hp.2] at i1; exact i1⟩, ?_, ?_, i4⟩
    · intro x hx
      rcases List.mem_cons.1 hx with rfl | hx
      · exact ⟨a1, a2, a3⟩
      · obtain ⟨b1, b2, b3⟩ := i2 x hx
        exact ⟨by linarith, b2, by rw [b3, a8, a3]⟩
    · rw [i3]
      show _ ↔ ∃ st', (st :: run.steps).getLast? = some st' ∧ _
      rcases hr : run.steps with _ | ⟨x, l⟩
      · simp only [List.getLast?_nil, List.getLast?_singleton]
        constructor
        · rintro ⟨_, h, _⟩; cases h
        · rintro ⟨st', h, h'⟩
          cases h
          exact absurd h' (by rw [← a7]; exact hb.ne)
      · rw [List.getLast?_cons_cons]

theorem start_state {p : IvpProblem ℝ} {s : St ℝ} (h : start p = .ok s) :
    s.t = p.x0 ∧ s.y = p.y0 ∧ p.rhs p.x0 p.y0 = .ok s.f ∧ s.f.length = p.y0.length := by
  unfold start at h
  split_ifs at h
  split at h
  · cases h
  next f hf =>
  obtain ⟨h1, h2⟩ := call_ok hf
  split at h
  · cases h
  · cases h; exact ⟨rfl, rfl, h1, h2⟩

theorem DpSteps.consistent {f : ℝ → List ℝ → Except Exc (List ℝ)} {a r : ℝ} : ∀ {b : ℝ × List ℝ} {l : List (Step ℝ)},
    DpSteps f a r b l → Consistent b l
  | _, [], _ => trivial
  | _, _ :: _, ⟨h1, h2, h3, _, h5⟩ => ⟨h1, h2, h3, DpSteps.consistent h5⟩

/-- **C128**, the integrator: RK45 with numbers that are spaced by at least `m` ends for every problem, in one way only, after at most
`|x1 - x0| / (10 m) + 2` steps. -/
theorem rk45_ends {gap : ℝ → ℝ → ℝ} {m : ℝ} (hg : Spaced gap m) (p : IvpProblem ℝ) :
    ∃! r, Runs gap p r ∧ (r.steps.length : ℝ) ≤ |p.x1 - p.x0| / (10 * m) + 2 := by
  obtain ⟨r, h1, h2⟩ := runs_end hg p
  exact ⟨r, ⟨h1, h2⟩, fun r' h => runs_unique h.1 h1⟩

/-- **C128**, its steps: from `x0` to `x1 > x0` every accepted step is a step of Dormand and Prince whose error estimate meets the
tolerances, the steps go forward inside the interval, and success is reported exactly if the last one ends at `x1`. -/
theorem rk45_steps {gap : ℝ → ℝ → ℝ} {m : ℝ} (hg : Spaced gap m) {p : IvpProblem ℝ} {r : Run ℝ} (R : Runs gap p r) (hx : p.x0 < p.x1)
    (hy : p.y0 ≠ []) :
    DpSteps p.rhs p.atol (effectiveRtol p.rtol) (p.x0, p.y0) r.steps ∧
    (∀ st ∈ r.steps, p.x0 < st.t ∧ st.t ≤ p.x1 ∧ st.y.length = p.y0.length) ∧
    (r.ending = .reached ↔ ∃ st, r.steps.getLast? = some st ∧ st.t = p.x1) ∧
    (∀ msg, r.ending = .failed msg → msg = "Required step size is less than spacing between numbers.") := by
  cases R with
  | raised => exact ⟨trivial, by simp, by simp, by simp⟩
  | @run s r hs S =>
    obtain ⟨h1, h2, h3, h4⟩ := start_state hs
    have := steps_contract hg S ⟨by
      rcases direction_spec p with h | h
      · exact h.1
      · linarith [h.2], by rw [h1]; exact hx, by rw [h2]; simpa using hy, by rw [h1, h2]; exact h3, by rw [h2]; exact h4⟩
    rwa [h1, h2] at this

/-! ### `solve` with RK45 -/

/-- A right hand side that returns a rate for every component at every state. -/
def Defined (p : IvpProblem ℝ) : Prop := ∀ t y, y.length = p.y0.length → ∃ v, p.rhs t y = .ok v ∧ v.length = p.y0.length

private theorem call_total {p : IvpProblem ℝ} (D : Defined p) (t : ℝ) {y : List ℝ} (hy : y.length = p.y0.length) :
    ∃ v, call p.rhs p.y0.length t y = .ok v ∧ v.length = p.y0.length := by
  obtain ⟨v, h1, h2⟩ := D t y hy
  exact ⟨v, by simp [call, h1, h2], h2⟩

private theorem stages_total {p : IvpProblem ℝ} (D : Defined p) (t h : ℝ) {y : List ℝ} (hy : y.length = p.y0.length) :
    ∀ (rows : List (ℚ × List ℚ)) (K : List (List ℝ)), (∀ k ∈ K, k.length = p.y0.length) →
      ∃ K', stages p.rhs t y h rows K = .ok K' ∧ ∀ k ∈ K', k.length = p.y0.length
  | [], K, hK => ⟨K, rfl, hK⟩
  | (c, a) :: rows, K, hK => by
    obtain ⟨v, h1, h2⟩ := call_total D (t + lit c * h) (y := vadd y ((comb p.y0.length K a).map (· * h)))
      (length_vadd hy (by rw [List.length_map, length_comb hK]))
    rw [stages, hy, h1]
    exact stages_total D t h hy rows (K ++ [v]) (by
      intro q hq
      rcases List.mem_append.1 hq with h' | h'
      · exact hK q h'
      · rw [List.mem_singleton.1 h', h2])

private theorem trial_total {p : IvpProblem ℝ} (D : Defined p) {s : St ℝ} (hy : s.y.length = p.y0.length) (hf : s.f.length = p.y0.length)
    (h : ℝ) : ∃ q, trial p s h = .ok q ∧ q.y.length = p.y0.length ∧ q.f.length = p.y0.length := by
  have key : ∀ h, ∃ v, rkStep p.rhs s.t s.y s.f h = .ok v := fun h => by
    obtain ⟨K, h1, h2⟩ := stages_total D s.t h hy tableau [s.f] (by simpa using hf)
    unfold rkStep
    rw [h1]
    simp only
    obtain ⟨v, h3, -⟩ := call_total D (s.t + h) (y := vadd s.y ((comb p.y0.length K weights).map (h * ·)))
      (length_vadd hy (by rw [List.length_map, length_comb h2]))
    rw [hy, h3]
    exact ⟨_, rfl⟩
  rcases hq : trial p s h with e | q
  · unfold trial at hq
    simp only at hq
    obtain ⟨v, hv⟩ := key ((if PyCmp.gt (direction p * (s.t + h * direction p - p.x1)) (lit 0) then p.x1 else s.t + h * direction p) - s.t)
    rw [hv] at hq
    cases hq
  · obtain ⟨-, -, h3, -⟩ := trial_ok hq
    obtain ⟨r1, r2, -⟩ := rkStep_ok hy hf h3
    exact ⟨q, rfl, r1, r2⟩

private theorem tries_total {p : IvpProblem ℝ} (D : Defined p) {m : ℝ} {s : St ℝ} (hy : s.y.length = p.y0.length)
    (hf : s.f.length = p.y0.length) {rej : Bool} {h : ℝ} {o : RungeKutta.Outcome ℝ} (T : Tries p m s rej h o) : ∀ e, o ≠ .raised e := by
  induction T with
  | small => simp
  | raised _ h2 =>
    obtain ⟨q, hq, -⟩ := trial_total D hy hf _
    rw [hq] at h2; cases h2
  | accept => simp
  | reject _ _ _ _ ih => exact ih

private theorem steps_total {gap : ℝ → ℝ → ℝ} {p : IvpProblem ℝ} (D : Defined p) {s : St ℝ} {r : Run ℝ} (S : Steps gap p s r) :
    s.y.length = p.y0.length → s.f.length = p.y0.length → (∀ e, r.ending ≠ .raised e) ∧ ∀ st ∈ r.steps, st.y.length = p.y0.length := by
  induction S with
  | trivial => intro hy _; exact ⟨by simp, by simpa using hy⟩
  | small => intros; simp
  | raised _ _ T => intro hy hf; exact absurd rfl (tries_total D hy hf T _)
  | last _ _ T _ =>
    intro hy hf
    obtain ⟨h', q, rej', -, h2, -, rfl, rfl⟩ := tries_accepted T
    obtain ⟨q', hq, h3, -⟩ := trial_total D hy hf h'
    rw [hq] at h2; cases h2
    exact ⟨by simp, by simpa using h3⟩
  | more _ _ T _ _ ih =>
    intro hy hf
    obtain ⟨h', q, rej', -, h2, -, rfl, rfl⟩ := tries_accepted T
    obtain ⟨q', hq, h3, h4⟩ := trial_total D hy hf h'
    rw [hq] at h2; cases h2
    obtain ⟨i1, i2⟩ := ih h3 h4
    exact ⟨i1, by simpa using ⟨h3, i2⟩⟩

/-- If the right hand side is defined everywhere, RK45 raises nothing. -/
theorem rk45_no_exception {gap : ℝ → ℝ → ℝ} {p : IvpProblem ℝ} {r : Run ℝ} (D : Defined p) (ha : 0 ≤ p.atol) (R : Runs gap p r) :
    (∀ e, r.ending ≠ .raised e) ∧ ∀ st ∈ r.steps, st.y.length = p.y0.length := by
  cases R with
  | raised h =>
    exfalso
    obtain ⟨f, h1, h2⟩ := call_total D p.x0 (y := p.y0) rfl
    have hfin : (p.y0.all Pchip.isFinite) = true := by simp [Pchip.isFinite]
    have hat : PyCmp.lt p.atol (lit 0) = false := by simpa [PyCmp.lt] using ha
    have hi : ∃ v, initialStep p f = .ok v := by
      have key : ∀ h e, call p.rhs p.y0.length (p.x0 + h * direction p) (vadd p.y0 (f.map (h * direction p * ·))) ≠ .error e := fun h e => by
        obtain ⟨v, h3, -⟩ := call_total D (p.x0 + h * direction p) (y := vadd p.y0 (f.map (h * direction p * ·)))
          (length_vadd rfl (by rw [List.length_map, h2]))
        rw [h3]; simp
      unfold initialStep
      simp only
      split
      · exact ⟨_, rfl⟩
      · split
        · next he => exact absurd he (key _ _)
        · exact ⟨_, rfl⟩
    obtain ⟨v, hv⟩ := hi
    unfold start at h
    simp only [hfin, hat, h1, hv, Bool.not_true, Bool.false_eq_true, if_false] at h
    cases h
  | run hs S =>
    obtain ⟨-, h2, -, h4⟩ := start_state hs
    exact steps_total D S (by rw [h2]) h4

/-- The velocity is defined everywhere, and the functions of the nonlinear method are set. -/
structure Everywhere (o : Obj ℝ) : Prop where
  uE : ∀ t, ∃ u, o.vel.uE t = .ok u
  duE : ∀ t, ∃ d, o.vel.duE t = .ok d
  fits : o.cls = .thwaitesNonlinear → o.fits ≠ none

/-- An event that returns a number for every state with `n` components. -/
def Event.Total (o : Obj ℝ) (n : ℕ) (e : Event ℝ) : Prop := ∀ t y, y.length = n → ∃ v, o.eventValue e t y = .ok v

/-- The size of the state of a method: momentum thickness, for Head also the shape factor. -/
def Cls.size : Cls → ℕ
  | .head => 2
  | _ => 1

theorem prepare_problem {o o' : Obj ℝ} {x0 x1 : ℝ} {te : TermArg ℝ} {p : IvpProblem ℝ} (h : o.prepare x0 x1 te = (o', .ok p)) :
    p.rhs = o'.rhs ∧ o'.cls = o.cls ∧ o'.vel = o.vel ∧ o'.fits = o.fits ∧ p.y0.length = o.cls.size ∧ p.events = o.events ++ te.toList ∧
    p.x0 = x0 ∧ p.x1 = x1 ∧ p.atol = 1/100000000000 := by
  unfold Obj.prepare at h
  split at h
  · cases h
  · simp only at h
    split at h
    · cases h
    · split at h
      · cases h
      · next y0 hy =>
        cases h
        refine ⟨rfl, rfl, rfl, rfl, ?_, rfl, rfl, rfl, by simp⟩
        show y0.length = _
        unfold Obj.startVector at hy
        rcases hc : o.cls <;> rw [hc] at hy <;> simp only [bind, Except.bind, pure, Except.pure] at hy <;>
          (repeat' split at hy) <;> first | (cases hy; rfl) | cases hy

theorem rhs_defined {o : Obj ℝ} (E : Everywhere o) (t : ℝ) (y : List ℝ) (hy : y.length = o.cls.size) :
    ∃ v, o.rhs t y = .ok v ∧ v.length = o.cls.size := by
  obtain ⟨u, hu⟩ := E.uE t
  obtain ⟨d, hd⟩ := E.duE t
  rcases hc : o.cls
  all_goals rw [hc] at hy
  · match y, hy with
    | [F], _ =>
      exact ⟨_, by simp only [Obj.rhs, hc, Obj.thwaitesRhs, Obj.calcF, Obj.calcLambda, hu, hd, bind, Except.bind, pure, Except.pure]; rfl, rfl⟩
  · match y, hy with
    | [F], _ =>
      rcases hf : o.fits with _ | m
      · exact absurd hf (E.fits hc)
      · exact ⟨_, by simp only [Obj.rhs, hc, Obj.thwaitesRhs, Obj.calcF, Obj.calcLambda, hu, hd, hf, bind, Except.bind, pure, Except.pure]; rfl,
          rfl⟩
  · match y, hy with
    | [a, b], _ =>
      exact ⟨_, by simp only [Obj.rhs, hc, Obj.headRhs, hu, hd, bind, Except.bind, pure, Except.pure]; rfl, rfl⟩

/-- The separation events of the methods return a number wherever the velocity is defined. -/
theorem separation_total {o : Obj ℝ} (E : Everywhere o) (m : Fits ℝ) (c : ℝ) :
    Event.Total o 1 (.sepThwaites m) ∧ Event.Total o 2 (.sepHead c) := by
  constructor
  · intro t y hy
    obtain ⟨d, hd⟩ := E.duE t
    match y, hy with
    | [F], _ => exact ⟨_, by simp only [Obj.eventValue, Obj.calcLambda, hd, bind, Except.bind, pure, Except.pure]; rfl⟩
  · intro t y hy
    match y, hy with
    | [a, b], _ => exact ⟨_, rfl⟩

/-- **C128**: with a velocity that is defined everywhere and events that return numbers, `solve` with scipy's RK45 always comes to an end, and
raises only what the preparation (initial condition, velocity at the start) raises: once the integration starts a result is returned,
whatever the interval, the start values and the flow. -/
theorem rk45_solve_returns {o : Obj ℝ} (E : Everywhere o) (x0 x1 : ℝ) (te : TermArg ℝ)
    (hev : ∀ e ∈ o.events ++ te.toList, Event.Total o o.cls.size e) {root : RootFinder ℝ} (hroot : ∀ f a b, ∃ x, root f a b = .ok x)
    {gap : ℝ → ℝ → ℝ} {m : ℝ} (hg : Spaced gap m) :
    ∃ stepper : Stepper ℝ, (∀ p, Runs gap p (stepper p)) ∧
      ((∃ e, (o.prepare x0 x1 te).2 = .error e ∧ (o.solve x0 x1 te (ivp o.eventValue stepper root)).2 = .error e) ∨
       ∃ p r, (o.prepare x0 x1 te).2 = .ok p ∧ (o.solve x0 x1 te (ivp o.eventValue stepper root)).2 = .ok r) := by
  choose stepper hst using fun p => runs_end hg p
  refine ⟨stepper, fun p => (hst p).1, ?_⟩
  rcases hp : o.prepare x0 x1 te with ⟨o', e | p⟩
  · left; exact ⟨e, rfl, by unfold Obj.solve; rw [hp]⟩
  · right
    obtain ⟨h1, h2, h3, h4, h5, h6, -, -, h9⟩ := prepare_problem hp
    have E' : Everywhere o' := ⟨by rw [h3]; exact E.uE, by rw [h3]; exact E.duE, by rw [h2, h4]; exact E.fits⟩
    have D : Defined p := fun t y hy => by
      rw [h1, h5, ← h2]; exact rhs_defined E' t y (by rw [hy, h5, h2])
    obtain ⟨n1, n2⟩ := rk45_no_exception D (by rw [h9]; norm_num) (hst p).1
    obtain ⟨r, hr⟩ := solve_total o.eventValue stepper root hp hroot (fun e he => hev e (by rwa [← h6]) _ _ h5)
      (fun s hs e he => hev e (by rwa [← h6]) _ _ (by rw [n2 s hs, h5])) n1
    exact ⟨p, r, rfl, hr⟩

/-- **C128** for the runs that C64-C68 speak of: integrating downstream, the steps of RK45 are what is assumed there. -/
theorem rk45_consistent {o o' : Obj ℝ} {x0 x1 : ℝ} {te : TermArg ℝ} {p : IvpProblem ℝ} (hp : o.prepare x0 x1 te = (o', .ok p)) (hx : x0 < x1)
    {gap : ℝ → ℝ → ℝ} {m : ℝ} (hg : Spaced gap m) {r : Run ℝ} (R : Runs gap p r) :
    Consistent (x0, p.y0) r.steps ∧ ∀ st ∈ r.steps, st.t ∈ Set.Ioc x0 x1 := by
  obtain ⟨-, -, -, -, h5, -, h7, h8, -⟩ := prepare_problem hp
  obtain ⟨c1, c2, -, -⟩ := rk45_steps hg R (by rw [h7, h8]; exact hx) (by
    intro h
    rw [h] at h5
    rcases hc : o.cls <;> rw [hc] at h5 <;> simp [Cls.size] at h5)
  rw [h7] at c1
  exact ⟨c1.consistent, fun st hs => by rw [← h7, ← h8]; exact ⟨(c2 st hs).1, (c2 st hs).2.1⟩⟩

/-! ### A concrete case -/

/-- The hypotheses are met: numbers spaced by 2^-1074, as doubles are, and the decelerated flows of `SeparationExamples`. -/
theorem rk45_example : Spaced (fun _ _ => 2⁻¹ ^ 1074) (2⁻¹ ^ 1074) ∧ Everywhere SepWit.thw ∧ Everywhere (SepWit.hd 1) ∧
    (∀ e ∈ SepWit.thw.events ++ (TermArg.none : TermArg ℝ).toList, Event.Total SepWit.thw SepWit.thw.cls.size e) ∧
    (∀ e ∈ (SepWit.hd 1).events ++ (TermArg.none : TermArg ℝ).toList, Event.Total (SepWit.hd 1) (SepWit.hd 1).cls.size e) ∧
    ∃ p, (SepWit.thw.prepare 0 1 .none).2 = .ok p ∧ p.x0 < p.x1 ∧ p.y0 ≠ [] := by
  have E1 : Everywhere SepWit.thw := ⟨fun t => ⟨_, by simp [SepWit.thw, VelState.uE, callOpt, Vel.call]; rfl⟩,
    fun t => ⟨_, by simp [SepWit.thw, VelState.duE, VelState.rawDu, callOpt, Vel.call]; rfl⟩, by simp [SepWit.thw]⟩
  have E2 : Everywhere (SepWit.hd 1) := ⟨fun t => ⟨_, by simp [SepWit.hd, VelState.uE, callOpt, Vel.call]; rfl⟩,
    fun t => ⟨_, by simp [SepWit.hd, VelState.duE, VelState.rawDu, callOpt, Vel.call]; rfl⟩, by simp [SepWit.hd]⟩
  refine ⟨⟨by positivity, fun _ _ => le_refl _⟩, E1, E2, ?_, ?_, ?_⟩
  · intro e he
    simp only [SepWit.thw, TermArg.toList, List.append_nil, List.mem_singleton] at he
    subst he; exact (separation_total E1 _ 0).1
  · intro e he
    simp only [SepWit.hd, TermArg.toList, List.append_nil, List.mem_singleton] at he
    subst he; exact (separation_total E2 Fits.white _).2
  · obtain ⟨o', p, hp, hy, hx, -⟩ := SepWit.thw_prepare
    obtain ⟨-, -, -, -, -, -, -, h8, -⟩ := prepare_problem hp
    exact ⟨p, by rw [hp], by rw [hx, h8]; norm_num, by rw [hy]; simp⟩

end IBL
