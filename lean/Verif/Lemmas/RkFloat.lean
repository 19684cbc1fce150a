import Verif.Model.RungeKutta
import Verif.Round
import Mathlib.Algebra.Order.Archimedean.Basic

/-!
Facts about scipy's RK45 in arithmetic with rounding: the step size control and the sequence of steps end. The first sections hold in any
arithmetic.
-/

set_option linter.unusedSectionVars false

namespace IBL.RkFloat
open SolveIvp RungeKutta

section
variable {α : Type} [Add α] [Sub α] [Mul α] [Div α] [Neg α] [PyLit α] [PyCmp α] [PySqrt α] [PyPow α]

/-! ### A run is determined by the problem -/

theorem tries_unique {p : IvpProblem α} {m : α} {s : St α} {rej : Bool} {h : α} {o o' : RungeKutta.Outcome α} (T : Tries p m s rej h o)
    (T' : Tries p m s rej h o') : o = o' := by
  induction T with
  | small h1 =>
    cases T' with
    | small => rfl
    | raised h1' => simp_all
    | accept h1' => simp_all
    | reject h1' => simp_all
  | raised h1 h2 =>
    cases T' with
    | small h1' => simp_all
    | raised h1' h2' => rw [h2] at h2'; cases h2'; rfl
    | accept h1' h2' => rw [h2] at h2'; cases h2'
    | reject h1' h2' => rw [h2] at h2'; cases h2'
  | accept h1 h2 h3 =>
    cases T' with
    | small h1' => simp_all
    | raised h1' h2' => rw [h2] at h2'; cases h2'
    | accept h1' h2' => rw [h2] at h2'; cases h2'; rfl
    | reject h1' h2' h3' => rw [h2] at h2'; cases h2'; rw [h3] at h3'; cases h3'
  | reject h1 h2 h3 _ ih =>
    cases T' with
    | small h1' => simp_all
    | raised h1' h2' => rw [h2] at h2'; cases h2'
    | accept h1' h2' h3' => rw [h2] at h2'; cases h2'; rw [h3] at h3'; cases h3'
    | reject h1' h2' _ h4' => rw [h2] at h2'; cases h2'; exact ih h4'

theorem steps_unique {gap : α → α → α} {p : IvpProblem α} {s : St α} {r r' : Run α} (S : Steps gap p s r) (S' : Steps gap p s r') :
    r = r' := by
  induction S generalizing r' with
  | trivial h =>
    cases S' with
    | trivial => rfl
    | small a b => rcases h with h | h <;> simp_all
    | raised a b => rcases h with h | h <;> simp_all
    | last a b => rcases h with h | h <;> simp_all
    | more a b => rcases h with h | h <;> simp_all
  | small a b T =>
    cases S' with
    | trivial h => rcases h with h | h <;> simp_all
    | small => rfl
    | raised _ _ T' => cases tries_unique T T'
    | last _ _ T' => cases tries_unique T T'
    | more _ _ T' => cases tries_unique T T'
  | raised a b T =>
    cases S' with
    | trivial h => rcases h with h | h <;> simp_all
    | small _ _ T' => cases tries_unique T T'
    | raised _ _ T' => cases tries_unique T T'; rfl
    | last _ _ T' => cases tries_unique T T'
    | more _ _ T' => cases tries_unique T T'
  | last a b T c =>
    cases S' with
    | trivial h => rcases h with h | h <;> simp_all
    | small _ _ T' => cases tries_unique T T'
    | raised _ _ T' => cases tries_unique T T'
    | last _ _ T' => cases tries_unique T T'; rfl
    | more _ _ T' c' => cases tries_unique T T'; rw [c] at c'; cases c'
  | more a b T c _ ih =>
    cases S' with
    | trivial h => rcases h with h | h <;> simp_all
    | small _ _ T' => cases tries_unique T T'
    | raised _ _ T' => cases tries_unique T T'
    | last _ _ T' c' => cases tries_unique T T'; rw [c] at c'; cases c'
    | more _ _ T' c' S' => cases tries_unique T T'; rw [ih S']

theorem runs_unique {gap : α → α → α} {p : IvpProblem α} {r r' : Run α} (S : Runs gap p r) (S' : Runs gap p r') : r = r' := by
  cases S with
  | raised h => cases S' with
    | raised h' => rw [h] at h'; cases h'; rfl
    | run h' => rw [h] at h'; cases h'
  | run h S => cases S' with
    | raised h' => rw [h] at h'; cases h'
    | run h' S' => rw [h] at h'; cases h'; exact steps_unique S S'

/-! ### A right hand side that raises nothing -/

private theorem length_vadd {a b : List α} {n : ℕ} (ha : a.length = n) (hb : b.length = n) : (vadd a b).length = n := by
  simp [vadd, ha, hb]

private theorem length_fold (n : ℕ) : ∀ (l : List (List α × ℚ)) (acc : List α), acc.length = n → (∀ k ∈ l, k.1.length = n) →
    (l.foldl (fun acc k => vadd acc (k.1.map (· * lit k.2))) acc).length = n
  | [], _, h, _ => h
  | k :: l, acc, h, hl => by
    rw [List.foldl_cons]
    exact length_fold n l _ (length_vadd h (by rw [List.length_map]; exact hl k (by simp))) fun k' hk => hl k' (by simp [hk])

private theorem length_comb {n : ℕ} {K : List (List α)} {a : List ℚ} (hK : ∀ k ∈ K, k.length = n) : (comb n K a).length = n :=
  length_fold n _ _ (by simp) fun _ hk => hK _ (List.of_mem_zip hk).1

/-- A right hand side that returns a rate for every component at every state. -/
def Defined (p : IvpProblem α) : Prop := ∀ t y, y.length = p.y0.length → ∃ v, p.rhs t y = .ok v ∧ v.length = p.y0.length

private theorem call_total {p : IvpProblem α} (D : Defined p) (t : α) {y : List α} (hy : y.length = p.y0.length) :
    ∃ v, call p.rhs p.y0.length t y = .ok v ∧ v.length = p.y0.length := by
  obtain ⟨v, h1, h2⟩ := D t y hy
  exact ⟨v, by simp [call, h1, h2], h2⟩

private theorem stages_total {p : IvpProblem α} (D : Defined p) (t h : α) {y : List α} (hy : y.length = p.y0.length) :
    ∀ (rows : List (ℚ × List ℚ)) (K : List (List α)), (∀ k ∈ K, k.length = p.y0.length) →
      ∃ K', stages p.rhs t y h rows K = .ok K' ∧ ∀ k ∈ K', k.length = p.y0.length
  | [], K, hK => ⟨K, rfl, hK⟩
  | (c, a) :: rows, K, hK => by
    obtain ⟨v, h1, h2⟩ := call_total D (t + lit c * h) (y := vadd y ((comb p.y0.length K a).map (· * h)))
      (length_vadd hy (by rw [List.length_map, length_comb hK]))
    rw [stages, hy, h1]
    exact stages_total D t h hy rows (K ++ [v]) (by
      intro q hq
      rcases List.mem_append.1 hq with h' | h'
      · exact hK q h'
      · rw [List.mem_singleton.1 h', h2])

private theorem trial_total {p : IvpProblem α} (D : Defined p) {s : St α} (hy : s.y.length = p.y0.length) (hf : s.f.length = p.y0.length)
    (h : α) : ∃ q, trial p s h = .ok q ∧ q.y.length = p.y0.length ∧ q.f.length = p.y0.length := by
  have key : ∀ h, ∃ y f K, rkStep p.rhs s.t s.y s.f h = .ok (y, f, K) ∧ y.length = p.y0.length ∧ f.length = p.y0.length := fun h => by
    obtain ⟨K, h1, h2⟩ := stages_total D s.t h hy tableau [s.f] (by simpa using hf)
    unfold rkStep
    rw [h1]
    simp only
    have hl := length_vadd hy (b := (comb p.y0.length K weights).map (h * ·)) (by rw [List.length_map, length_comb h2])
    obtain ⟨v, h3, h4⟩ := call_total D (s.t + h) hl
    rw [hy, h3]
    exact ⟨_, _, _, rfl, hl, h4⟩
  unfold trial
  simp only
  obtain ⟨y, f, K, hv, h1, h2⟩ := key ((if PyCmp.gt (direction p * (s.t + h * direction p - p.x1)) (lit 0) then p.x1 else s.t + h * direction p) - s.t)
  rw [hv]
  exact ⟨_, rfl, h1, h2⟩

private theorem tries_total {p : IvpProblem α} (D : Defined p) {m : α} {s : St α} (hy : s.y.length = p.y0.length)
    (hf : s.f.length = p.y0.length) {rej : Bool} {h : α} {o : RungeKutta.Outcome α} (T : Tries p m s rej h o) : (∀ e, o ≠ .raised e) ∧
      ∀ s' st, o = .accepted s' st → s'.y.length = p.y0.length ∧ s'.f.length = p.y0.length ∧ st.y.length = p.y0.length := by
  induction T with
  | small => simp
  | raised _ h2 =>
    obtain ⟨q, hq, -⟩ := trial_total D hy hf _
    rw [hq] at h2; cases h2
  | @accept rej h q _ h2 _ =>
    obtain ⟨q', hq, h3, h4⟩ := trial_total D hy hf h
    rw [hq] at h2; cases h2
    refine ⟨by simp, fun s' st e => ?_⟩
    cases e
    exact ⟨h3, h4, h3⟩
  | reject _ _ _ _ ih => exact ih

private theorem steps_total {gap : α → α → α} {p : IvpProblem α} (D : Defined p) {s : St α} {r : Run α} (S : Steps gap p s r) :
    s.y.length = p.y0.length → s.f.length = p.y0.length → (∀ e, r.ending ≠ .raised e) ∧ ∀ st ∈ r.steps, st.y.length = p.y0.length := by
  induction S with
  | trivial => intro hy _; exact ⟨by simp, by simpa using hy⟩
  | small => intros; simp
  | raised _ _ T => intro hy hf; exact absurd rfl ((tries_total D hy hf T).1 _)
  | last _ _ T _ =>
    intro hy hf
    obtain ⟨-, -, h3⟩ := (tries_total D hy hf T).2 _ _ rfl
    exact ⟨by simp, by simpa using h3⟩
  | more _ _ T _ _ ih =>
    intro hy hf
    obtain ⟨h1, h2, h3⟩ := (tries_total D hy hf T).2 _ _ rfl
    obtain ⟨i1, i2⟩ := ih h1 h2
    exact ⟨i1, by simpa using ⟨h3, i2⟩⟩

theorem start_state {p : IvpProblem α} {s : St α} (h : start p = .ok s) : s.t = p.x0 ∧ s.y = p.y0 ∧ s.f.length = p.y0.length := by
  unfold start at h
  split_ifs at h
  split at h
  · cases h
  next f hf =>
  have : f.length = p.y0.length := by
    unfold call at hf
    split at hf
    · cases hf
    · split_ifs at hf with h'
      cases hf; exact h'
  split at h
  · cases h
  · cases h; exact ⟨rfl, rfl, this⟩

/-- If the right hand side is defined everywhere and the start state is finite, RK45 raises nothing. -/
theorem no_exception {gap : α → α → α} {p : IvpProblem α} {r : Run α} (D : Defined p) (hfin : p.y0.all Pchip.isFinite = true)
    (hat : PyCmp.lt p.atol (lit 0) = false) (R : Runs gap p r) :
    (∀ e, r.ending ≠ .raised e) ∧ ∀ st ∈ r.steps, st.y.length = p.y0.length := by
  cases R with
  | raised h =>
    exfalso
    obtain ⟨f, h1, h2⟩ := call_total D p.x0 (y := p.y0) rfl
    have hi : ∃ v, initialStep p f = .ok v := by
      have key : ∀ h e, call p.rhs p.y0.length (p.x0 + h * direction p) (vadd p.y0 (f.map (h * direction p * ·))) ≠ .error e := fun h e => by
        obtain ⟨v, h3, -⟩ := call_total D (p.x0 + h * direction p) (y := vadd p.y0 (f.map (h * direction p * ·)))
          (length_vadd rfl (by rw [List.length_map, h2]))
        rw [h3]; simp
      unfold initialStep
      simp only
      split
      · exact ⟨_, rfl⟩
      · split
        · next he => exact absurd he (key _ _)
        · exact ⟨_, rfl⟩
    obtain ⟨v, hv⟩ := hi
    unfold start at h
    simp only [hfin, hat, h1, hv, Bool.not_true, Bool.false_eq_true, if_false] at h
    cases h
  | run hs S =>
    obtain ⟨-, h2, h4⟩ := start_state hs
    exact steps_total D S (by rw [h2]) h4

end

/-! ### Rounding: one trial -/

variable {R : Rounding} [PyPow R.F]

/-- The direction as a real number. -/
theorem direction_spec (p : IvpProblem R.F) : ∃ σ : ℝ, (direction p).val = σ ∧ ((σ = 1 ∧ p.x0.val ≤ p.x1.val) ∨ (σ = -1 ∧ p.x1.val < p.x0.val)) := by
  unfold direction
  split_ifs with h1 h2
  · exact ⟨1, Rounding.val_one, .inl ⟨rfl, ((Rounding.F_eq _ _).1 h1).ge⟩⟩
  · exact ⟨1, Rounding.val_one, .inl ⟨rfl, ((Rounding.F_gt _ _).1 h2).le⟩⟩
  · refine ⟨-1, by rw [Rounding.val_neg, Rounding.val_one], .inr ⟨rfl, lt_of_le_of_ne (not_lt.1 fun h => h2 ((Rounding.F_gt _ _).2 h)) fun h => h1 ((Rounding.F_eq _ _).2 h)⟩⟩

private theorem sgn_rep {σ : ℝ} (hσ : σ = 1 ∨ σ = -1) (x : R.F) : R.rd (x.val * σ) = σ * x.val := by
  rcases hσ with rfl | rfl
  · rw [mul_one, one_mul, x.rep]
  · rw [mul_neg_one, R.neg, x.rep, neg_one_mul]

private theorem sgn_abs {σ x : ℝ} (hσ : σ = 1 ∨ σ = -1) : |σ * x| = |x| := by
  rcases hσ with rfl | rfl <;> simp

private theorem rd_sgn {σ x : ℝ} (hσ : σ = 1 ∨ σ = -1) : R.rd (σ * x) = σ * R.rd x := by
  rcases hσ with rfl | rfl
  · simp
  · rw [neg_one_mul, R.neg, neg_one_mul]

private theorem sgn_sq {σ : ℝ} (hσ : σ = 1 ∨ σ = -1) (x : ℝ) : σ * (σ * x) = x := by
  rcases hσ with rfl | rfl <;> ring

/-- A trial goes where the rounded sum of position and proposed length is, or to the end of the interval if that is nearer. -/
theorem trial_ok {p : IvpProblem R.F} {σ : ℝ} (hd : (direction p).val = σ) (hσ : σ = 1 ∨ σ = -1) {s : St R.F} {h : R.F} {q : Trial R.F} (e : trial p s h = .ok q) :
    q.h = q.t - s.t ∧ ((q.t = p.x1 ∧ 0 < σ * (R.rd (s.t.val + σ * h.val) - p.x1.val)) ∨
      (q.t.val = R.rd (s.t.val + σ * h.val) ∧ σ * (R.rd (s.t.val + σ * h.val) - p.x1.val) ≤ 0)) := by
  unfold trial at e
  simp only at e
  split at e
  · cases e
  · next y f K hk =>
    cases e
    refine ⟨rfl, ?_⟩
    have ev : (s.t + h * direction p).val = R.rd (s.t.val + σ * h.val) := by
      rw [Rounding.val_add, Rounding.val_mul, hd, sgn_rep hσ]
    have eg : PyCmp.gt (direction p * (s.t + h * direction p - p.x1)) (lit 0) = true ↔ 0 < σ * (R.rd (s.t.val + σ * h.val) - p.x1.val) := by
      rw [Rounding.F_gt, Rounding.val_zero, Rounding.val_mul, Rounding.rd_pos_iff, hd, Rounding.val_sub, ev, ← rd_sgn hσ, Rounding.rd_pos_iff]
    by_cases hc : 0 < σ * (R.rd (s.t.val + σ * h.val) - p.x1.val)
    · left
      simp only [eg.2 hc, if_true]
      exact ⟨trivial, hc⟩
    · right
      simp only [mt eg.1 hc]
      exact ⟨ev, not_lt.1 hc⟩

/-- The numbers near `t` are spaced by at least `eps |t|`, as those of binary arithmetic with relative error `eps` are, and by at least `m`. -/
def FloatGaps (gap : R.F → R.F → R.F) (m : ℝ) : Prop := 0 < m ∧ ∀ t d, m ≤ (gap t d).val ∧ R.eps * |t.val| ≤ (gap t d).val

/-- The distance to the rounded sum. -/
private theorem reach {σ : ℝ} (hσ : σ = 1 ∨ σ = -1) {t g h : ℝ} (h0 : 0 ≤ h) (hg : R.eps * |t| ≤ g) :
    (1 - R.eps) * h - g ≤ σ * (R.rd (t + σ * h) - t) ∧ σ * (R.rd (t + σ * h) - t) ≤ (1 + R.eps) * h + g := by
  have h1 := R.rel (t + σ * h)
  have h2 : |t + σ * h| ≤ |t| + h := by
    have := abs_add_le t (σ * h)
    rwa [sgn_abs hσ, abs_of_nonneg h0] at this
  have h3 := mul_le_mul_of_nonneg_left h2 R.eps_nonneg
  have h4 : |σ * (R.rd (t + σ * h) - (t + σ * h))| ≤ R.eps * (|t| + h) := by rw [sgn_abs hσ]; exact h1.trans h3
  have h5 : σ * (R.rd (t + σ * h) - t) = σ * (R.rd (t + σ * h) - (t + σ * h)) + h := by
    have := sgn_sq hσ h
    linear_combination this
  have h6 := abs_le.1 h4
  constructor <;> linarith [h6.1, h6.2]

theorem minStep_ge {gap : R.F → R.F → R.F} {m : ℝ} (hg : FloatGaps gap m) (p : IvpProblem R.F) (t : R.F) :
    ∃ g : ℝ, m ≤ g ∧ R.eps * |t.val| ≤ g ∧ (1 - R.eps) * (10 * g) ≤ (minStep gap p t).val := by
  refine ⟨(gap t (direction p)).val, (hg.2 _ _).1, (hg.2 _ _).2, ?_⟩
  have h10 : (lit 10 : R.F).val = 10 := by have := Rounding.val_int (R := R) 10 (by norm_num); push_cast at this; exact this
  rw [minStep, Rounding.val_mul, h10]
  have := (hg.2 t (direction p)).1
  exact (Rounding.rd_bounds (by linarith [hg.1])).1

/-- The function that the step size control raises error estimates to a power with: at most 1 for estimates that are not accepted. -/
def PowAtMostOne (R : Rounding) [PyPow R.F] : Prop := ∀ e : R.F, 1 ≤ e.val → (PyPow.pow e (lit (-(1/5))) : R.F).val ≤ 1

private theorem shrink_le (hpow : PowAtMostOne R) {err : R.F} (h : 1 ≤ err.val) :
    0 ≤ (pyMax (lit (1/5)) (control err)).val ∧ (pyMax (lit (1/5)) (control err)).val ≤ 9/10 * (1 + R.eps) := by
  have h5 : (lit (1/5) : R.F).val = R.rd (1/5) := by rw [Rounding.val_lit]; push_cast; rfl
  have h9 : (lit (9/10) : R.F).val = R.rd (9/10) := by rw [Rounding.val_lit]; push_cast; rfl
  have a1 : 0 ≤ R.rd (1/5) := Rounding.rd_nonneg (by norm_num)
  have a2 : R.rd (1/5) ≤ R.rd (9/10) := R.mono (by norm_num)
  have a3 : R.rd (9/10) ≤ (1 + R.eps) * (9/10) := (Rounding.rd_bounds (by norm_num)).2
  have a4 : 0 ≤ R.rd (9/10) := Rounding.rd_nonneg (by norm_num)
  have hc : (control err).val ≤ R.rd (9/10) := by
    rw [RungeKutta.control, Rounding.val_mul, h9]
    conv_rhs => rw [← R.idem]
    refine R.mono ?_
    have := mul_le_mul_of_nonneg_left (hpow err h) a4
    linarith
  unfold pyMax
  split_ifs with hgt
  · have := (Rounding.F_gt _ _).1 hgt
    rw [h5] at this
    exact ⟨by linarith, by linarith⟩
  · rw [h5]; exact ⟨a1, by linarith⟩

/-- After a rejected trial the proposed length is at most 0.995 times the one before. -/
private theorem shrinks (hpow : PowAtMostOne R) {p : IvpProblem R.F} {σ : ℝ} (hd : (direction p).val = σ) (hσ : σ = 1 ∨ σ = -1) {s : St R.F} {h : R.F}
    {q : Trial R.F} (hs : 0 < σ * (p.x1.val - s.t.val)) {g : ℝ} (hg : R.eps * |s.t.val| ≤ g) (hg0 : 0 ≤ g) (hm : (1 - R.eps) * (10 * g) ≤ h.val)
    (h0 : 0 < h.val) (e : trial p s h = .ok q) (herr : 1 ≤ q.err.val) :
    (PyCmp.abs q.h * pyMax (lit (1/5)) (control q.err)).val ≤ 995/1000 * h.val := by
  obtain ⟨q1, q2⟩ := trial_ok hd hσ e
  obtain ⟨r1, r2⟩ := reach (R := R) hσ (t := s.t.val) h0.le hg
  have heps := R.small
  have he0 := R.eps_nonneg
  have hgh : g ≤ h.val * (1001/10000 + 1/100000) := by
    have : (999/1000) * (10 * g) ≤ (1 - R.eps) * (10 * g) := mul_le_mul_of_nonneg_right (by linarith) (by linarith)
    linarith
  have d1 : |q.t.val - s.t.val| ≤ (1 + R.eps) * h.val + g := by
    rw [← sgn_abs (x := q.t.val - s.t.val) hσ]
    rcases q2 with ⟨a, b⟩ | ⟨a, -⟩
    · rw [a, abs_of_pos hs]
      have : σ * (p.x1.val - s.t.val) = σ * (R.rd (s.t.val + σ * h.val) - s.t.val) - σ * (R.rd (s.t.val + σ * h.val) - p.x1.val) := by ring
      linarith
    · rw [a, abs_of_nonneg]
      · exact r2
      · have : (999/1000) * h.val ≤ (1 - R.eps) * h.val := mul_le_mul_of_nonneg_right (by linarith) h0.le
        linarith
  have e1 : R.eps * h.val ≤ 1/1000 * h.val := mul_le_mul_of_nonneg_right heps h0.le
  have d2 : |q.t.val - s.t.val| ≤ 11012/10000 * h.val := by linarith
  have d3 : |q.h.val| ≤ 1001/1000 * (11012/10000 * h.val) := by
    rw [q1, Rounding.val_sub]
    have w1 := R.rel (q.t.val - s.t.val)
    have w2 : |R.rd (q.t.val - s.t.val)| ≤ |R.rd (q.t.val - s.t.val) - (q.t.val - s.t.val)| + |q.t.val - s.t.val| := by
      simpa using abs_add_le (R.rd (q.t.val - s.t.val) - (q.t.val - s.t.val)) (q.t.val - s.t.val)
    have w3 := mul_le_mul_of_nonneg_right heps (abs_nonneg (q.t.val - s.t.val))
    linarith
  obtain ⟨c1, c2⟩ := shrink_le hpow herr
  have c3 : (pyMax (lit (1/5)) (control q.err)).val ≤ 9009/10000 := by linarith
  rw [Rounding.val_mul, Rounding.val_abs]
  have m1 : |q.h.val| * (pyMax (lit (1/5)) (control q.err)).val ≤ 1001/1000 * (11012/10000 * h.val) * (9009/10000) :=
    mul_le_mul d3 c3 c1 (by positivity)
  have m2 := (Rounding.rd_bounds (R := R) (mul_nonneg (abs_nonneg q.h.val) c1)).2
  have m3 := mul_le_mul_of_nonneg_right heps (mul_nonneg (abs_nonneg q.h.val) c1)
  linarith

private theorem tries_end_aux (hpow : PowAtMostOne R) {p : IvpProblem R.F} {σ : ℝ} (hd : (direction p).val = σ) (hσ : σ = 1 ∨ σ = -1) {s : St R.F} {M : R.F}
    (hs : 0 < σ * (p.x1.val - s.t.val)) {g : ℝ} (hg : R.eps * |s.t.val| ≤ g) (hg0 : 0 ≤ g) (hM : (1 - R.eps) * (10 * g) ≤ M.val) (hM0 : 0 < M.val) :
    ∀ (k : ℕ) (rej : Bool) (h : R.F), h.val < M.val * (1000/995) ^ k → ∃ o, Tries p M s rej h o
  | 0, rej, h, hh => ⟨_, .small ((Rounding.F_lt _ _).2 (by simpa using hh))⟩
  | k + 1, rej, h, hh => by
    by_cases h1 : PyCmp.lt h M = true
    · exact ⟨_, .small h1⟩
    have h1' := Bool.eq_false_iff.2 h1
    have hle : M.val ≤ h.val := not_lt.1 fun h' => h1 ((Rounding.F_lt _ _).2 h')
    rcases ht : trial p s h with e | q
    · exact ⟨_, .raised h1' ht⟩
    by_cases h2 : PyCmp.lt q.err (lit 1) = true
    · exact ⟨_, .accept h1' ht h2⟩
    have herr : 1 ≤ q.err.val := not_lt.1 fun h' => h2 ((Rounding.F_lt _ _).2 (by rw [Rounding.val_one]; exact h'))
    obtain ⟨o, ho⟩ := tries_end_aux hpow hd hσ hs hg hg0 hM hM0 k true (PyCmp.abs q.h * pyMax (lit (1/5)) (control q.err)) (by
      have := shrinks hpow hd hσ hs hg hg0 (hM.trans hle) (hM0.trans_le hle) ht herr
      rw [pow_succ] at hh
      linarith)
    exact ⟨o, .reject h1' ht (Bool.eq_false_iff.2 h2) ho⟩

/-- Whatever the right hand side, the loop over step lengths ends. -/
private theorem tries_end (hpow : PowAtMostOne R) {p : IvpProblem R.F} {σ : ℝ} (hd : (direction p).val = σ) (hσ : σ = 1 ∨ σ = -1) {s : St R.F} {M : R.F}
    (hs : 0 < σ * (p.x1.val - s.t.val)) {g : ℝ} (hg : R.eps * |s.t.val| ≤ g) (hg0 : 0 ≤ g) (hM : (1 - R.eps) * (10 * g) ≤ M.val) (hM0 : 0 < M.val)
    (rej : Bool) (h : R.F) : ∃ o, Tries p M s rej h o := by
  obtain ⟨k, hk⟩ := pow_unbounded_of_one_lt (h.val / M.val) (by norm_num : (1:ℝ) < 1000/995)
  exact tries_end_aux hpow hd hσ hs hg hg0 hM hM0 k rej h (by rw [div_lt_iff₀ hM0] at hk; linarith)

private theorem tries_accepted {p : IvpProblem R.F} {m : R.F} {s : St R.F} {rej : Bool} {h : R.F} {out : RungeKutta.Outcome R.F} (T : Tries p m s rej h out) :
    ∀ s' st, out = .accepted s' st → ∃ (h : R.F) (q : Trial R.F), m.val ≤ h.val ∧ trial p s h = .ok q ∧ s'.t = q.t ∧ st.t = q.t := by
  induction T with
  | small => intro _ _ h; cases h
  | raised => intro _ _ h; cases h
  | @accept rej h q h1 h2 h3 =>
    intro s' st e
    cases e
    refine ⟨h, q, ?_, h2, rfl, rfl⟩
    by_contra hc
    exact absurd ((Rounding.F_lt _ _).2 (not_le.1 hc)) (by rw [h1]; simp)
  | reject _ _ _ _ ih => exact ih

/-! ### The steps -/

/-- An accepted step ends at the end of the interval, or goes on by several smallest distances without passing it. -/
private theorem accepted_progress {gap : R.F → R.F → R.F} {m : ℝ} (hg : FloatGaps gap m) {p : IvpProblem R.F} {σ : ℝ} (hd : (direction p).val = σ)
    (hσ : σ = 1 ∨ σ = -1) {s s' : St R.F} {st : Step R.F} {rej : Bool} {h : R.F}
    (T : Tries p (minStep gap p s.t) s rej h (.accepted s' st)) :
    s'.t = st.t ∧ (st.t = p.x1 ∨ (8 * m ≤ σ * (st.t.val - s.t.val) ∧ 0 ≤ σ * (p.x1.val - st.t.val))) := by
  obtain ⟨h', q, h1, h2, h3, h4⟩ := tries_accepted T _ _ rfl
  obtain ⟨g, g1, g2, g3⟩ := minStep_ge hg p s.t
  have heps := R.small
  have hg0 : 0 < g := hg.1.trans_le g1
  have b1 : (999/1000) * (10 * g) ≤ (1 - R.eps) * (10 * g) := mul_le_mul_of_nonneg_right (by linarith) (by linarith)
  have h0 : 0 ≤ h'.val := by linarith
  obtain ⟨r1, -⟩ := reach (R := R) hσ (t := s.t.val) h0 g2
  have b2 : (999/1000) * h'.val ≤ (1 - R.eps) * h'.val := mul_le_mul_of_nonneg_right (by linarith) h0
  rw [h3, h4]
  refine ⟨rfl, ?_⟩
  rcases (trial_ok hd hσ h2).2 with ⟨a, -⟩ | ⟨a, b⟩
  · exact .inl a
  · right
    rw [a]
    refine ⟨by linarith, ?_⟩
    have : σ * (p.x1.val - R.rd (s.t.val + σ * h'.val)) = -(σ * (R.rd (s.t.val + σ * h'.val) - p.x1.val)) := by ring
    linarith

private theorem end_test {p : IvpProblem R.F} {σ : ℝ} (hd : (direction p).val = σ) (hσ : σ = 1 ∨ σ = -1) (t : R.F) :
    PyCmp.ge (direction p * (t - p.x1)) (lit 0) = true ↔ σ * (p.x1.val - t.val) ≤ 0 := by
  rw [Rounding.F_ge, Rounding.val_zero, Rounding.val_mul, hd, Rounding.val_sub, ← rd_sgn hσ, R.idem,
    show σ * (p.x1.val - t.val) = -(σ * (t.val - p.x1.val)) by ring, ← not_lt, Rounding.rd_neg_iff, not_lt]
  constructor <;> intro h <;> linarith

private theorem sgn_ne {σ : ℝ} (hσ : σ = 1 ∨ σ = -1) : σ ≠ 0 := by rcases hσ with rfl | rfl <;> norm_num

private theorem steps_end_aux (hpow : PowAtMostOne R) {gap : R.F → R.F → R.F} {m : ℝ} (hg : FloatGaps gap m) (p : IvpProblem R.F) {σ : ℝ}
    (hd : (direction p).val = σ) (hσ : σ = 1 ∨ σ = -1) : ∀ (k : ℕ) (s : St R.F),
    0 ≤ σ * (p.x1.val - s.t.val) → σ * (p.x1.val - s.t.val) ≤ k * (8 * m) → ∃ r, Steps gap p s r ∧ r.steps.length ≤ k + 1 := by
  have h0 := sgn_ne hσ
  intro k
  induction k with
  | zero =>
    intro s h1 h2
    have : σ * (p.x1.val - s.t.val) = 0 := le_antisymm (by simpa using h2) h1
    have : p.x1.val - s.t.val = 0 := by rcases mul_eq_zero.1 this with h | h; exacts [absurd h h0, h]
    exact ⟨_, .trivial (.inr ((Rounding.F_eq _ _).2 (by linarith))), by simp⟩
  | succ k ih =>
    intro s h1 h2
    by_cases hy : s.y.length = 0
    · exact ⟨_, .trivial (.inl hy), by simp⟩
    by_cases ht : PyCmp.eq s.t p.x1 = true
    · exact ⟨_, .trivial (.inr ht), by simp⟩
    have ht' := Bool.eq_false_iff.2 ht
    have hpos : 0 < σ * (p.x1.val - s.t.val) := lt_of_le_of_ne h1 (Ne.symm (mul_ne_zero h0 (sub_ne_zero.2 fun h => ht ((Rounding.F_eq _ _).2 h.symm))))
    obtain ⟨g, g1, g2, g3⟩ := minStep_ge hg p s.t
    have hg0 : 0 < g := hg.1.trans_le g1
    obtain ⟨o, ho⟩ := tries_end hpow hd hσ hpos g2 hg0.le g3 (lt_of_lt_of_le (mul_pos (by linarith [R.small]) (by linarith)) g3) false
      (firstTry (minStep gap p s.t) s.hAbs)
    cases o with
    | tooSmall => exact ⟨_, .small hy ht' ho, by simp⟩
    | raised e => exact ⟨_, .raised hy ht' ho, by simp⟩
    | accepted s' st =>
      by_cases hl : PyCmp.ge (direction p * (s'.t - p.x1)) (lit 0) = true
      · exact ⟨_, .last hy ht' ho hl, by simp⟩
      · obtain ⟨c0, hc | ⟨c1, c2⟩⟩ := accepted_progress hg hd hσ ho
        · exact absurd ((end_test hd hσ _).2 (by rw [c0, hc]; simp)) hl
        · rw [← c0] at c1 c2
          obtain ⟨r, hr, hlen⟩ := ih s' c2 (by
            have : σ * (p.x1.val - s'.t.val) = σ * (p.x1.val - s.t.val) - σ * (s'.t.val - s.t.val) := by ring
            push_cast at h2
            linarith)
          exact ⟨_, .more hy ht' ho (Bool.eq_false_iff.2 hl) hr, by simpa using hlen⟩

/-- A run of RK45 ends, after at most one step more than the length of the interval contains eightfold smallest distances. -/
theorem runs_end (hpow : PowAtMostOne R) {gap : R.F → R.F → R.F} {m : ℝ} (hg : FloatGaps gap m) (p : IvpProblem R.F) :
    ∃ r, Runs gap p r ∧ (r.steps.length : ℝ) ≤ |p.x1.val - p.x0.val| / (8 * m) + 2 := by
  rcases hs : start p with e | s
  · exact ⟨_, .raised hs, by simp; have := hg.1; positivity⟩
  obtain ⟨hst, -, -⟩ := start_state hs
  have hm : 0 < 8 * m := by linarith [hg.1]
  obtain ⟨σ, hd, hc⟩ := direction_spec p
  have hσ : σ = 1 ∨ σ = -1 := by rcases hc with h | h; exacts [.inl h.1, .inr h.1]
  have hdist : σ * (p.x1.val - s.t.val) = |p.x1.val - p.x0.val| := by
    rw [hst]
    rcases hc with h | h
    · rw [h.1, abs_of_nonneg (by linarith)]; ring
    · rw [h.1, abs_of_neg (by linarith)]; ring
  obtain ⟨r, hr, hlen⟩ := steps_end_aux hpow hg p hd hσ ⌈|p.x1.val - p.x0.val| / (8 * m)⌉₊ s (by rw [hdist]; exact abs_nonneg _) (by
    rw [hdist]
    exact (div_le_iff₀ hm).1 (Nat.le_ceil _))
  refine ⟨r, .run hs hr, ?_⟩
  have := Nat.ceil_lt_add_one (a := |p.x1.val - p.x0.val| / (8 * m)) (by positivity)
  have h' : (r.steps.length : ℝ) ≤ (⌈|p.x1.val - p.x0.val| / (8 * m)⌉₊ : ℝ) + 1 := by exact_mod_cast hlen
  linarith

/-- From `t` on the positions go strictly forward and not past the end. -/
theorem steps_forward {gap : R.F → R.F → R.F} {m : ℝ} (hg : FloatGaps gap m) {p : IvpProblem R.F} {σ : ℝ} (hd : (direction p).val = σ)
    (hσ : σ = 1 ∨ σ = -1) {s : St R.F} {r : Run R.F} (S : Steps gap p s r) : 0 < σ * (p.x1.val - s.t.val) →
    (s.t :: r.steps.map Step.t).Pairwise (fun a b => σ * a.val < σ * b.val) ∧ (∀ st ∈ r.steps, σ * st.t.val ≤ σ * p.x1.val) ∧
    (r.ending = .reached ↔ p.x1 ∈ s.t :: r.steps.map Step.t) := by
  have h8 : 0 < 8 * m := by linarith [hg.1]
  have ne : ∀ {s : St R.F}, 0 < σ * (p.x1.val - s.t.val) → p.x1 ≠ s.t := fun h e => by rw [e] at h; simp at h
  induction S with
  | trivial h =>
    intro h1
    simp
    linarith
  | small a b => intro h1; simp [ne h1]
  | raised a b => intro h1; simp [ne h1]
  | @last s s' st a b T c =>
    intro h1
    obtain ⟨c0, hc⟩ := accepted_progress hg hd hσ T
    have e : st.t = p.x1 := by
      rcases hc with hc | ⟨c1, c2⟩
      · exact hc
      · have := (end_test hd hσ _).1 c
        rw [c0] at this
        have h3 : σ * (p.x1.val - st.t.val) = 0 := le_antisymm this c2
        ext
        rcases mul_eq_zero.1 h3 with h | h
        · exact absurd h (sgn_ne hσ)
        · linarith
    simp [e]
    linarith
  | @more s s' st run a b T c S ih =>
    intro h1
    obtain ⟨c0, hc⟩ := accepted_progress hg hd hσ T
    have h3 : 0 < σ * (p.x1.val - s'.t.val) := not_le.1 fun h => by rw [(end_test hd hσ _).2 h] at c; cases c
    have h4 : σ * s.t.val < σ * st.t.val := by
      rcases hc with hc | ⟨c1, c2⟩
      · rw [c0, hc] at h3; simp at h3
      · linarith
    obtain ⟨i1, i2, i3⟩ := ih h3
    rw [c0] at i1 i3
    rw [List.map_cons]
    refine ⟨List.pairwise_cons.2 ⟨fun t ht => ?_, i1⟩, fun st' h' => ?_, ?_⟩
    · rcases List.mem_cons.1 ht with rfl | ht
      · exact h4
      · exact h4.trans ((List.pairwise_cons.1 i1).1 t ht)
    · rcases List.mem_cons.1 h' with rfl | h'
      · rw [c0] at h3; linarith
      · exact i2 st' h'
    · rw [i3]
      conv_rhs => rw [List.mem_cons]
      simp only [ne h1, false_or]

end IBL.RkFloat
