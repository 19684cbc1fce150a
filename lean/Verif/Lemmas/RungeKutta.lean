import Verif.Model.RungeKutta

/-!
Facts about scipy's RK45 in exact arithmetic: the steps match their interpolants, and the step size control ends.
-/

namespace IBL.RungeKutta
open SolveIvp

/-! ### Vectors -/

theorem ext_getD {a b : List ℝ} (h : a.length = b.length) (hj : ∀ j < a.length, a.getD j 0 = b.getD j 0) : a = b := by
  refine List.ext_getElem h fun j h1 h2 => ?_
  have := hj j h1
  simpa [List.getD_eq_getElem?_getD, List.getElem?_eq_getElem h1, List.getElem?_eq_getElem h2] using this

theorem length_vadd {a b : List ℝ} {n : ℕ} (ha : a.length = n) (hb : b.length = n) : (vadd a b).length = n := by
  simp [vadd, ha, hb]

theorem getD_vadd {a b : List ℝ} (h : a.length = b.length) (j : ℕ) : (vadd a b).getD j 0 = a.getD j 0 + b.getD j 0 := by
  rcases lt_or_ge j a.length with hj | hj
  · have hb : j < b.length := h ▸ hj
    simp [vadd, List.getD_eq_getElem?_getD, List.getElem?_eq_getElem hj, List.getElem?_eq_getElem hb, List.getElem?_zipWith]
  · have hb : b.length ≤ j := h ▸ hj
    simp [vadd, List.getD_eq_getElem?_getD, List.getElem?_eq_none hj, List.getElem?_eq_none hb, List.getElem?_zipWith]

theorem getD_map {a : List ℝ} (g : ℝ → ℝ) (hg : g 0 = 0) (j : ℕ) : (a.map g).getD j 0 = g (a.getD j 0) := by
  rcases lt_or_ge j a.length with hj | hj
  · simp [List.getD_eq_getElem?_getD, List.getElem?_eq_getElem hj]
  · simp [List.getD_eq_getElem?_getD, List.getElem?_eq_none hj, hg]

theorem getD_zero (n j : ℕ) : (List.replicate n (0:ℝ)).getD j 0 = 0 := by
  simp only [List.getD_eq_getElem?_getD, List.getElem?_replicate]; split_ifs <;> rfl

private theorem foldl_vadd (n : ℕ) : ∀ (l : List (List ℝ × ℚ)) (acc : List ℝ), acc.length = n → (∀ k ∈ l, k.1.length = n) →
    (l.foldl (fun acc k => vadd acc (k.1.map (· * lit k.2))) acc).length = n ∧
    ∀ j, (l.foldl (fun acc k => vadd acc (k.1.map (· * lit k.2))) acc).getD j 0 =
      acc.getD j 0 + (l.map fun k => k.1.getD j 0 * (k.2 : ℝ)).sum
  | [], acc, h, _ => ⟨h, fun j => by simp⟩
  | k :: l, acc, h, hl => by
    have hk : (k.1.map (· * (lit k.2 : ℝ))).length = n := by simpa using hl k (by simp)
    obtain ⟨h1, h2⟩ := foldl_vadd n l (vadd acc (k.1.map (· * lit k.2))) (length_vadd h hk) fun q hq => hl q (by simp [hq])
    refine ⟨h1, fun j => ?_⟩
    rw [List.foldl_cons, h2 j, getD_vadd (by rw [h, hk]), getD_map (· * (lit k.2 : ℝ)) (by simp)]
    simp only [real_lit, List.map_cons, List.sum_cons]
    ring

theorem length_comb {n : ℕ} {K : List (List ℝ)} {a : List ℚ} (hK : ∀ k ∈ K, k.length = n) : (comb n K a).length = n :=
  (foldl_vadd n _ _ (by simp) fun _ hk => hK _ (List.of_mem_zip hk).1).1

theorem getD_comb {n : ℕ} {K : List (List ℝ)} {a : List ℚ} (hK : ∀ k ∈ K, k.length = n) (j : ℕ) :
    (comb n K a).getD j 0 = ((List.zip K a).map fun k => k.1.getD j 0 * (k.2 : ℝ)).sum := by
  rw [comb, (foldl_vadd n _ _ (by simp) fun _ hk => hK _ (List.of_mem_zip hk).1).2 j]
  have : (List.replicate n (lit 0 : ℝ)).getD j 0 = 0 := by simpa using getD_zero n j
  rw [this, zero_add]

private theorem foldl_vadd' (n : ℕ) : ∀ (l : List (List ℝ × ℝ)) (acc : List ℝ), acc.length = n → (∀ k ∈ l, k.1.length = n) →
    (l.foldl (fun acc k => vadd acc (k.1.map (· * k.2))) acc).length = n ∧
    ∀ j, (l.foldl (fun acc k => vadd acc (k.1.map (· * k.2))) acc).getD j 0 = acc.getD j 0 + (l.map fun k => k.1.getD j 0 * k.2).sum
  | [], acc, h, _ => ⟨h, fun j => by simp⟩
  | k :: l, acc, h, hl => by
    have hk : (k.1.map (· * k.2)).length = n := by simpa using hl k (by simp)
    obtain ⟨h1, h2⟩ := foldl_vadd' n l (vadd acc (k.1.map (· * k.2))) (length_vadd h hk) fun q hq => hl q (by simp [hq])
    refine ⟨h1, fun j => ?_⟩
    rw [List.foldl_cons, h2 j, getD_vadd (by rw [h, hk]), getD_map (· * k.2) (by simp)]
    simp only [List.map_cons, List.sum_cons]
    ring

/-! ### One step -/

theorem call_ok {rhs : ℝ → List ℝ → Except Exc (List ℝ)} {n : ℕ} {t : ℝ} {y v : List ℝ} (h : call rhs n t y = .ok v) :
    rhs t y = .ok v ∧ v.length = n := by
  unfold call at h
  split at h
  · cases h
  · split_ifs at h with h'
    cases h; exact ⟨by assumption, h'⟩

private theorem stages_ok {rhs : ℝ → List ℝ → Except Exc (List ℝ)} {t h : ℝ} {y : List ℝ} {n : ℕ} (hy : y.length = n) :
    ∀ (rows : List (ℚ × List ℚ)) (K K' : List (List ℝ)), (∀ k ∈ K, k.length = n) → stages rhs t y h rows K = .ok K' →
      (∀ k ∈ K', k.length = n) ∧ K'.length = K.length + rows.length
  | [], K, K', hK, e => by cases e; exact ⟨hK, rfl⟩
  | (c, a) :: rows, K, K', hK, e => by
    rw [stages] at e
    split at e
    · cases e
    · next k hk =>
      obtain ⟨h1, h2⟩ := stages_ok hy rows (K ++ [k]) K' (by
        intro q hq
        rcases List.mem_append.1 hq with h' | h'
        · exact hK q h'
        · rw [List.mem_singleton.1 h', (call_ok hk).2, hy]) e
      exact ⟨h1, by rw [h2]; simp; omega⟩

/-- What a step is made of: six stages, the new state, and the slope there. -/
theorem rkStep_ok {rhs : ℝ → List ℝ → Except Exc (List ℝ)} {t h : ℝ} {y f yN fN : List ℝ} {K : List (List ℝ)} {n : ℕ} (hy : y.length = n)
    (hf : f.length = n) (e : rkStep rhs t y f h = .ok (yN, fN, K)) :
    yN.length = n ∧ fN.length = n ∧ (∀ k ∈ K, k.length = n) ∧ rhs (t + h) yN = .ok fN ∧
    ∃ a b c d g i, K = [a, b, c, d, g, i, fN] ∧ yN = vadd y ((comb n [a, b, c, d, g, i] weights).map (h * ·)) := by
  unfold rkStep at e
  split at e
  · cases e
  · next K0 hK0 =>
    obtain ⟨h1, h2⟩ := stages_ok hy _ _ _ (by simpa using hf) hK0
    simp only at e
    split at e
    · cases e
    · next f1 hf1 =>
      cases e
      have hyN : (vadd y ((comb y.length K0 weights).map (h * ·))).length = n :=
        length_vadd hy (by rw [List.length_map, length_comb (fun k hk => (h1 k hk).trans hy.symm), hy])
      obtain ⟨k1, k2⟩ := call_ok hf1
      refine ⟨hyN, k2.trans hy, ?_, k1, ?_⟩
      · intro k hk
        rcases List.mem_append.1 hk with h' | h'
        · exact h1 k h'
        · rw [List.mem_singleton.1 h', k2, hy]
      · simp only [List.length_cons, List.length_nil, tableau] at h2
        match K0, h2 with
        | [a, b, c, d, g, i], _ => exact ⟨a, b, c, d, g, i, rfl, by rw [hy]⟩

theorem length_dense {tO tN t : ℝ} {y : List ℝ} {K : List (List ℝ)} {n : ℕ} (hy : y.length = n) (hK : ∀ k ∈ K, k.length = n) :
    (denseOutput tO tN y K t).length = n ∧ ∀ j, (denseOutput tO tN y K t).getD j 0 = y.getD j 0 + (tN - tO) *
      ((comb n K (denseWeights.getD 0 [])).getD j 0 * ((t - tO) / (tN - tO)) + (comb n K (denseWeights.getD 1 [])).getD j 0 *
        ((t - tO) / (tN - tO)) ^ 2 + (comb n K (denseWeights.getD 2 [])).getD j 0 * ((t - tO) / (tN - tO)) ^ 3 +
        (comb n K (denseWeights.getD 3 [])).getD j 0 * ((t - tO) / (tN - tO)) ^ 4) := by
  subst hy
  set x := (t - tO) / (tN - tO) with hx
  set l : List (List ℝ × ℝ) := List.zip (denseWeights.map (comb y.length K)) [x, x * x, x * x * x, x * x * x * x] with hl
  obtain ⟨h1, h2⟩ := foldl_vadd' y.length l (List.replicate y.length (lit 0)) (by simp) (by
    intro k hk
    obtain ⟨w, -, hw⟩ := List.mem_map.1 (List.of_mem_zip (hl ▸ hk)).1
    rw [← hw, length_comb hK])
  have hd : denseOutput tO tN y K t = vadd ((l.foldl (fun acc k => vadd acc (k.1.map (· * k.2))) (List.replicate y.length (lit 0))).map
    ((tN - tO) * ·)) y := by rw [denseOutput]
  refine ⟨by rw [hd]; exact length_vadd (by rw [List.length_map, h1]) rfl, fun j => ?_⟩
  rw [hd, getD_vadd (by rw [List.length_map, h1]), getD_map ((tN - tO) * ·) (by simp), h2 j]
  have h0 : (List.replicate y.length (lit 0 : ℝ)).getD j 0 = 0 := by simpa using getD_zero y.length j
  rw [h0, hl]
  simp only [denseWeights, List.map_cons, List.map_nil, List.zip_cons_cons, List.zip_nil_right, List.sum_cons, List.sum_nil,
    List.getD_cons_zero, List.getD_cons_succ]
  ring

/-- The interpolant of a step starts at the old state. -/
theorem dense_left {tO tN : ℝ} {y : List ℝ} {K : List (List ℝ)} {n : ℕ} (hy : y.length = n) (hK : ∀ k ∈ K, k.length = n) :
    denseOutput tO tN y K tO = y := by
  obtain ⟨h1, h2⟩ := length_dense (tO := tO) (tN := tN) (t := tO) hy hK
  refine ext_getD (h1.trans hy.symm) fun j _ => ?_
  rw [h2 j]; simp

/-- The interpolant of a step ends at the new state. -/
theorem dense_right {rhs : ℝ → List ℝ → Except Exc (List ℝ)} {tO tN : ℝ} {y f yN fN : List ℝ} {K : List (List ℝ)} {n : ℕ}
    (hy : y.length = n) (hf : f.length = n) (hne : tN ≠ tO) (e : rkStep rhs tO y f (tN - tO) = .ok (yN, fN, K)) :
    denseOutput tO tN y K tN = yN := by
  obtain ⟨hyN, -, hK, -, a, b, c, d, g, i, hKe, hyNe⟩ := rkStep_ok hy hf e
  obtain ⟨h1, h2⟩ := length_dense (tO := tO) (tN := tN) (t := tN) hy hK
  have hK6 : ∀ k ∈ [a, b, c, d, g, i], k.length = n := fun k hk => hK k (by rw [hKe]; simp at hk ⊢; tauto)
  refine ext_getD (h1.trans hyN.symm) fun j _ => ?_
  rw [h2 j, hyNe, getD_vadd (by rw [List.length_map, length_comb hK6, hy]), getD_map ((tN - tO) * ·) (by simp), div_self (sub_ne_zero.2 hne)]
  simp only [getD_comb hK, getD_comb hK6]
  rw [hKe]
  simp only [denseWeights, weights, List.getD_cons_zero, List.getD_cons_succ, List.zip_cons_cons, List.zip_nil_right, List.map_cons,
    List.map_nil, List.sum_cons, List.sum_nil]
  push_cast
  ring

/-! ### Trials -/

/-- The direction of integration is 1 or -1, and the end lies in that direction. -/
theorem direction_spec (p : IvpProblem ℝ) : (direction p = 1 ∧ p.x0 ≤ p.x1) ∨ (direction p = -1 ∧ p.x1 < p.x0) := by
  unfold direction
  by_cases h : p.x1 = p.x0
  · left; simp [h]
  · rcases lt_or_gt_of_ne h with h' | h'
    · right; simp [PyCmp.eq, h, PyCmp.gt, PyCmp.lt, not_lt.2 h'.le, h']
    · left; simp [PyCmp.eq, h, PyCmp.gt, PyCmp.lt, h', h'.le]

theorem direction_sq (p : IvpProblem ℝ) : direction p * direction p = 1 := by
  rcases direction_spec p with h | h <;> rw [h.1] <;> norm_num

/-- A trial goes the proposed distance, or to the end of the interval if that is nearer. -/
theorem trial_ok {p : IvpProblem ℝ} {s : St ℝ} {h : ℝ} {q : Trial ℝ} (e : trial p s h = .ok q) :
    q.h = q.t - s.t ∧ direction p * q.h = min h (direction p * (p.x1 - s.t)) ∧ rkStep p.rhs s.t s.y s.f (q.t - s.t) = .ok (q.y, q.f, q.K) ∧
    q.err = norm (vdiv ((comb s.y.length q.K errorWeights).map (· * q.h)) (scale p s.y q.y)) := by
  have hd := direction_sq p
  unfold trial at e
  simp only at e
  split at e
  · cases e
  · next y f K hk =>
    cases e
    refine ⟨rfl, ?_, hk, rfl⟩
    simp only [real_gt, real_lit]
    push_cast
    have he : direction p * (s.t + h * direction p - p.x1) = h - direction p * (p.x1 - s.t) := by linear_combination h * hd
    by_cases hc : 0 < direction p * (s.t + h * direction p - p.x1)
    · rw [if_pos hc, min_eq_right (by linarith)]
    · rw [if_neg hc, min_eq_left (by linarith)]
      linear_combination h * hd

theorem trial_abs {p : IvpProblem ℝ} {s : St ℝ} {h : ℝ} {q : Trial ℝ} (hh : 0 < h) (hs : 0 < direction p * (p.x1 - s.t))
    (e : trial p s h = .ok q) : |q.h| = direction p * q.h ∧ 0 < direction p * q.h ∧ |q.h| ≤ h := by
  obtain ⟨-, h2, -, -⟩ := trial_ok e
  have hp : 0 < direction p * q.h := by rw [h2]; exact lt_min hh hs
  have ha : |q.h| = direction p * q.h := by
    rw [← abs_of_pos hp, abs_mul]
    rcases direction_spec p with h' | h' <;> rw [h'.1] <;> norm_num
  exact ⟨ha, hp, by rw [ha, h2]; exact min_le_left _ _⟩

theorem growth_pos (rej : Bool) {err : ℝ} (h : 0 ≤ err) : 0 < growth rej err := by
  have hf : 0 < (if PyCmp.eq err (lit 0) then (lit 10 : ℝ) else pyMin (lit 10) (control err)) := by
    by_cases h0 : err = 0
    · simp [h0]
    · have hp : 0 < err := lt_of_le_of_ne h (Ne.symm h0)
      have hc : 0 < control err := by
        simp only [control, real_lit, real_pow]
        exact mul_pos (by norm_num) (Real.rpow_pos_of_pos hp _)
      rw [if_neg (by simpa using h0)]
      unfold pyMin
      split_ifs
      · exact hc
      · norm_num
  unfold growth
  simp only
  split_ifs
  · rename_i hr h0
    unfold pyMin; split_ifs <;> norm_num
  · rename_i hr h0
    rw [if_neg h0] at hf
    unfold pyMin at hf ⊢
    split_ifs at hf ⊢ <;> first | exact hf | norm_num
  · norm_num
  · rename_i hr h0
    rwa [if_neg h0] at hf

theorem shrink_le {err : ℝ} (h : 1 ≤ err) : 0 < pyMax (lit (1/5)) (control err) ∧ pyMax (lit (1/5)) (control err) ≤ (9/10 : ℝ) := by
  have hc : control err ≤ 9/10 := by
    simp only [control, real_lit, real_pow]
    have : err ^ (((-(1/5) : ℚ)) : ℝ) ≤ 1 := Real.rpow_le_one_of_one_le_of_nonpos h (by norm_num)
    push_cast at this ⊢
    nlinarith
  unfold pyMax
  split_ifs with hif
  · refine ⟨?_, hc⟩
    simp only [real_gt, real_lit] at hif
    refine lt_trans ?_ hif
    norm_num
  · norm_num

theorem norm_nonneg (x : List ℝ) : 0 ≤ norm x := by
  simp only [norm, real_sqrt, real_pow, real_lit]
  exact div_nonneg (Real.sqrt_nonneg _) (Real.rpow_nonneg (by positivity) _)

/-! ### The step size control ends -/

private theorem tries_end_aux {p : IvpProblem ℝ} {m : ℝ} (hm : 0 < m) {s : St ℝ} (hs : 0 < direction p * (p.x1 - s.t)) :
    ∀ (k : ℕ) (rej : Bool) (h : ℝ), h < m * (10/9) ^ k → ∃ o, Tries p m s rej h o
  | 0, rej, h, hh => ⟨_, .small (by simpa using hh)⟩
  | k + 1, rej, h, hh => by
    by_cases h1 : h < m
    · exact ⟨_, .small (by simpa using h1)⟩
    have h1' : PyCmp.lt h m = false := by simpa [PyCmp.lt] using h1
    rcases ht : trial p s h with e | q
    · exact ⟨_, .raised h1' ht⟩
    by_cases h2 : q.err < 1
    · exact ⟨_, .accept h1' ht (by simpa using h2)⟩
    have h2' : PyCmp.lt q.err (lit 1) = false := by simpa [PyCmp.lt] using h2
    obtain ⟨c1, c2, c3⟩ := trial_abs (lt_of_lt_of_le hm (not_lt.1 h1)) hs ht
    obtain ⟨g1, g2⟩ := shrink_le (not_lt.1 h2)
    obtain ⟨o, ho⟩ := tries_end_aux hm hs k true (|q.h| * pyMax (lit (1/5)) (control q.err)) (by
      have : |q.h| * pyMax (lit (1/5)) (control q.err) ≤ h * (9/10) :=
        mul_le_mul c3 g2 g1.le (le_trans (abs_nonneg _) c3)
      rw [pow_succ] at hh
      nlinarith)
    exact ⟨o, .reject h1' ht h2' ho⟩

/-- Whatever the right hand side, the loop over step lengths ends. -/
theorem tries_end {p : IvpProblem ℝ} {m : ℝ} (hm : 0 < m) {s : St ℝ} (hs : 0 < direction p * (p.x1 - s.t)) (rej : Bool) (h : ℝ) :
    ∃ o, Tries p m s rej h o := by
  obtain ⟨k, hk⟩ := pow_unbounded_of_one_lt (h / m) (by norm_num : (1:ℝ) < 10/9)
  exact tries_end_aux hm hs k rej h (by rw [div_lt_iff₀ hm] at hk; linarith)

/-- An accepted step: made from a trial of at least the smallest length whose error estimate is below 1. -/
theorem tries_accepted {p : IvpProblem ℝ} {m : ℝ} {s : St ℝ} {rej : Bool} {h : ℝ} {s' : St ℝ} {st : Step ℝ}
    (T : Tries p m s rej h (.accepted s' st)) : ∃ h' q rej', m ≤ h' ∧ trial p s h' = .ok q ∧ q.err < 1 ∧
      s' = ⟨q.t, q.y, q.f, |q.h| * growth rej' q.err⟩ ∧ st = ⟨q.t, q.y, denseOutput s.t q.t s.y q.K⟩ := by
  generalize ho : Outcome.accepted s' st = o at T
  induction T with
  | small => cases ho
  | raised => cases ho
  | @accept rej h q h1 h2 h3 =>
    cases ho
    exact ⟨h, q, rej, by simpa [PyCmp.lt] using h1, h2, by simpa using h3, rfl, rfl⟩
  | reject _ _ _ _ ih => exact ih ho

theorem tries_unique {p : IvpProblem ℝ} {m : ℝ} {s : St ℝ} {rej : Bool} {h : ℝ} {o o' : Outcome ℝ} (T : Tries p m s rej h o)
    (T' : Tries p m s rej h o') : o = o' := by
  induction T with
  | small h1 =>
    cases T' with
    | small => rfl
    | raised h1' => simp_all
    | accept h1' => simp_all
    | reject h1' => simp_all
  | raised h1 h2 =>
    cases T' with
    | small h1' => simp_all
    | raised h1' h2' => rw [h2] at h2'; cases h2'; rfl
    | accept h1' h2' => rw [h2] at h2'; cases h2'
    | reject h1' h2' => rw [h2] at h2'; cases h2'
  | accept h1 h2 h3 =>
    cases T' with
    | small h1' => simp_all
    | raised h1' h2' => rw [h2] at h2'; cases h2'
    | accept h1' h2' => rw [h2] at h2'; cases h2'; rfl
    | reject h1' h2' h3' => rw [h2] at h2'; cases h2'; rw [h3] at h3'; cases h3'
  | reject h1 h2 h3 _ ih =>
    cases T' with
    | small h1' => simp_all
    | raised h1' h2' => rw [h2] at h2'; cases h2'
    | accept h1' h2' h3' => rw [h2] at h2'; cases h2'; rw [h3] at h3'; cases h3'
    | reject h1' h2' _ h4' => rw [h2] at h2'; cases h2'; exact ih h4'

theorem steps_unique {gap : ℝ → ℝ → ℝ} {p : IvpProblem ℝ} {s : St ℝ} {r r' : Run ℝ} (S : Steps gap p s r) (S' : Steps gap p s r') :
    r = r' := by
  induction S generalizing r' with
  | trivial h =>
    cases S' with
    | trivial => rfl
    | small a b => rcases h with h | h <;> simp_all
    | raised a b => rcases h with h | h <;> simp_all
    | last a b => rcases h with h | h <;> simp_all
    | more a b => rcases h with h | h <;> simp_all
  | small a b T =>
    cases S' with
    | trivial h => rcases h with h | h <;> simp_all
    | small => rfl
    | raised _ _ T' => cases tries_unique T T'
    | last _ _ T' => cases tries_unique T T'
    | more _ _ T' => cases tries_unique T T'
  | raised a b T =>
    cases S' with
    | trivial h => rcases h with h | h <;> simp_all
    | small _ _ T' => cases tries_unique T T'
    | raised _ _ T' => cases tries_unique T T'; rfl
    | last _ _ T' => cases tries_unique T T'
    | more _ _ T' => cases tries_unique T T'
  | last a b T c =>
    cases S' with
    | trivial h => rcases h with h | h <;> simp_all
    | small _ _ T' => cases tries_unique T T'
    | raised _ _ T' => cases tries_unique T T'
    | last _ _ T' => cases tries_unique T T'; rfl
    | more _ _ T' c' => cases tries_unique T T'; rw [c] at c'; cases c'
  | more a b T c _ ih =>
    cases S' with
    | trivial h => rcases h with h | h <;> simp_all
    | small _ _ T' => cases tries_unique T T'
    | raised _ _ T' => cases tries_unique T T'
    | last _ _ T' c' => cases tries_unique T T'; rw [c] at c'; cases c'
    | more _ _ T' c' S' => cases tries_unique T T'; rw [ih S']

theorem runs_unique {gap : ℝ → ℝ → ℝ} {p : IvpProblem ℝ} {r r' : Run ℝ} (S : Runs gap p r) (S' : Runs gap p r') : r = r' := by
  cases S with
  | raised h => cases S' with
    | raised h' => rw [h] at h'; cases h'; rfl
    | run h' => rw [h] at h'; cases h'
  | run h S => cases S' with
    | raised h' => rw [h] at h'; cases h'
    | run h' S' => rw [h] at h'; cases h'; exact steps_unique S S'

/-! ### Runs end -/

/-- The smallest distance of two floats: the one thing that is assumed about the spacing of the numbers. -/
def Spaced (gap : ℝ → ℝ → ℝ) (m : ℝ) : Prop := 0 < m ∧ ∀ t d, m ≤ gap t d

theorem minStep_ge {gap : ℝ → ℝ → ℝ} {m : ℝ} (hg : Spaced gap m) (p : IvpProblem ℝ) (t : ℝ) : 10 * m ≤ minStep gap p t := by
  have := hg.2 t (direction p)
  simp only [minStep, real_lit]; push_cast; linarith

private theorem accepted_progress {gap : ℝ → ℝ → ℝ} {m : ℝ} (hg : Spaced gap m) {p : IvpProblem ℝ} {s s' : St ℝ} {st : Step ℝ} {rej : Bool}
    {h : ℝ} (hs : 0 < direction p * (p.x1 - s.t)) (T : Tries p (minStep gap p s.t) s rej h (.accepted s' st)) :
    s'.t = p.x1 ∨ (10 * m ≤ direction p * (s'.t - s.t) ∧ 0 ≤ direction p * (p.x1 - s'.t)) := by
  obtain ⟨h', q, rej', h1, h2, -, rfl, -⟩ := tries_accepted T
  obtain ⟨q1, q2, -, -⟩ := trial_ok h2
  have hd := direction_sq p
  have hge := minStep_ge hg p s.t
  show q.t = p.x1 ∨ _
  rw [q1] at q2
  rcases le_total h' (direction p * (p.x1 - s.t)) with hc | hc
  · rw [min_eq_left hc] at q2
    right
    refine ⟨by show _ ≤ direction p * (q.t - s.t); linarith, ?_⟩
    show 0 ≤ direction p * (p.x1 - q.t)
    have : direction p * (p.x1 - q.t) = direction p * (p.x1 - s.t) - direction p * (q.t - s.t) := by ring
    linarith
  · rw [min_eq_right hc] at q2
    left
    have h0 : direction p ≠ 0 := fun h0 => by rw [h0] at hd; norm_num at hd
    have := mul_left_cancel₀ h0 q2
    linarith

private theorem steps_end_aux {gap : ℝ → ℝ → ℝ} {m : ℝ} (hg : Spaced gap m) (p : IvpProblem ℝ) : ∀ (k : ℕ) (s : St ℝ),
    0 ≤ direction p * (p.x1 - s.t) → direction p * (p.x1 - s.t) ≤ k * (10 * m) → ∃ r, Steps gap p s r ∧ r.steps.length ≤ k + 1 := by
  have hd := direction_sq p
  have h0 : direction p ≠ 0 := fun h0 => by rw [h0] at hd; norm_num at hd
  intro k
  induction k with
  | zero =>
    intro s h1 h2
    have : direction p * (p.x1 - s.t) = 0 := le_antisymm (by simpa using h2) h1
    have : p.x1 - s.t = 0 := by rcases mul_eq_zero.1 this with h | h; exacts [absurd h h0, h]
    exact ⟨_, .trivial (.inr (by simp; linarith)), by simp⟩
  | succ k ih =>
    intro s h1 h2
    by_cases hy : s.y.length = 0
    · exact ⟨_, .trivial (.inl hy), by simp⟩
    by_cases ht : s.t = p.x1
    · exact ⟨_, .trivial (.inr (by simpa using ht)), by simp⟩
    have ht' : PyCmp.eq s.t p.x1 = false := by simpa [PyCmp.eq] using ht
    have hpos : 0 < direction p * (p.x1 - s.t) := lt_of_le_of_ne h1 (Ne.symm (mul_ne_zero h0 (sub_ne_zero.2 (Ne.symm ht))))
    obtain ⟨o, ho⟩ := tries_end (p := p) (lt_of_lt_of_le (by linarith [hg.1] : 0 < 10 * m) (minStep_ge hg p s.t)) hpos false
      (firstTry (minStep gap p s.t) s.hAbs)
    cases o with
    | tooSmall => exact ⟨_, .small hy ht' ho, by simp⟩
    | raised e => exact ⟨_, .raised hy ht' ho, by simp⟩
    | accepted s' st =>
      by_cases hl : 0 ≤ direction p * (s'.t - p.x1)
      · exact ⟨_, .last hy ht' ho (by simpa using hl), by simp⟩
      · rcases accepted_progress hg hpos ho with hc | ⟨c1, c2⟩
        · rw [hc] at hl; simp at hl
        · obtain ⟨r, hr, hlen⟩ := ih s' c2 (by
            have : direction p * (p.x1 - s'.t) = direction p * (p.x1 - s.t) - direction p * (s'.t - s.t) := by ring
            push_cast at h2
            linarith)
          exact ⟨_, .more hy ht' ho (by simpa [PyCmp.ge, PyCmp.le] using hl) hr, by simpa using hlen⟩

/-- A run of RK45 ends, after at most one step more than the length of the interval contains smallest steps. -/
theorem runs_end {gap : ℝ → ℝ → ℝ} {m : ℝ} (hg : Spaced gap m) (p : IvpProblem ℝ) :
    ∃ r, Runs gap p r ∧ (r.steps.length : ℝ) ≤ |p.x1 - p.x0| / (10 * m) + 2 := by
  rcases hs : start p with e | s
  · exact ⟨_, .raised hs, by simp; have := hg.1; positivity⟩
  have hst : s.t = p.x0 := by
    unfold start at hs
    split_ifs at hs
    split at hs
    · cases hs
    · split at hs <;> cases hs
      rfl
  have hm : 0 < 10 * m := by linarith [hg.1]
  have hdist : direction p * (p.x1 - s.t) = |p.x1 - p.x0| := by
    rw [hst]
    rcases direction_spec p with h | h
    · rw [h.1, abs_of_nonneg (by linarith)]; ring
    · rw [h.1, abs_of_neg (by linarith)]; ring
  obtain ⟨r, hr, hlen⟩ := steps_end_aux hg p ⌈|p.x1 - p.x0| / (10 * m)⌉₊ s (by rw [hdist]; exact abs_nonneg _) (by
    rw [hdist]
    exact (div_le_iff₀ hm).1 (Nat.le_ceil _))
  refine ⟨r, .run hs hr, ?_⟩
  have := Nat.ceil_lt_add_one (a := |p.x1 - p.x0| / (10 * m)) (by positivity)
  have h' : (r.steps.length : ℝ) ≤ (⌈|p.x1 - p.x0| / (10 * m)⌉₊ : ℝ) + 1 := by exact_mod_cast hlen
  linarith

end IBL.RungeKutta
