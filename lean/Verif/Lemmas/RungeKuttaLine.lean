import Verif.Lemmas.RungeKutta

/-!
RK45 on a problem whose slope is the same all along a straight line through the start: the line is followed exactly.
-/

namespace IBL.RungeKutta
open SolveIvp

/-- The straight line through `(x0, y0)` with slope `c`. -/
def line (x0 : ℝ) (y0 c : List ℝ) (t : ℝ) : List ℝ := List.zipWith (fun y c => y + (t - x0) * c) y0 c

theorem length_line {x0 t : ℝ} {y0 c : List ℝ} (hc : c.length = y0.length) : (line x0 y0 c t).length = y0.length := by simp [line, hc]

theorem getD_line {x0 t : ℝ} {y0 c : List ℝ} (hc : c.length = y0.length) (j : ℕ) :
    (line x0 y0 c t).getD j 0 = y0.getD j 0 + (t - x0) * c.getD j 0 := by
  rcases lt_or_ge j y0.length with hj | hj
  · have hb : j < c.length := hc ▸ hj
    simp [line, List.getD_eq_getElem?_getD, List.getElem?_eq_getElem hj, List.getElem?_eq_getElem hb, List.getElem?_zipWith]
  · have hb : c.length ≤ j := hc ▸ hj
    simp [line, List.getD_eq_getElem?_getD, List.getElem?_eq_none hj, List.getElem?_eq_none hb, List.getElem?_zipWith]

theorem line_start {x0 : ℝ} {y0 c : List ℝ} (hc : c.length = y0.length) : line x0 y0 c x0 = y0 :=
  ext_getD (length_line hc) fun j _ => by rw [getD_line hc]; ring

theorem line_add {x0 t s : ℝ} {y0 c v : List ℝ} (hc : c.length = y0.length) (hv : v.length = y0.length)
    (h : ∀ j, v.getD j 0 = s * c.getD j 0) : vadd (line x0 y0 c t) v = line x0 y0 c (t + s) := by
  refine ext_getD (by rw [length_vadd (length_line hc) hv, length_line hc]) fun j _ => ?_
  rw [getD_vadd (by rw [length_line hc, hv]), getD_line hc, getD_line hc, h]
  ring

private theorem zip_sum (w : ℝ) (c : List ℝ) (j : ℕ) (hw : c.getD j 0 = w) : ∀ (K : List (List ℝ)) (a : List ℚ), (∀ k ∈ K, k = c) →
    a.length = K.length → ((List.zip K a).map fun k => k.1.getD j 0 * (k.2 : ℝ)).sum = ((a.sum : ℚ) : ℝ) * w
  | [], [], _, _ => by simp
  | k :: K, x :: a, hK, hl => by
    simp only [List.zip_cons_cons, List.map_cons, List.sum_cons]
    rw [zip_sum w c j hw K a (fun q hq => hK q (by simp [hq])) (by simpa using hl), hK k (by simp), hw]
    push_cast; ring
  | [], _ :: _, _, hl => by simp at hl
  | _ :: _, [], _, hl => by simp at hl

theorem getD_comb_same {n : ℕ} {K : List (List ℝ)} {a : List ℚ} {c : List ℝ} (hc : c.length = n) (hK : ∀ k ∈ K, k = c)
    (hl : a.length = K.length) (j : ℕ) : (comb n K a).getD j 0 = ((a.sum : ℚ) : ℝ) * c.getD j 0 := by
  rw [getD_comb (fun k hk => by rw [hK k hk, hc])]
  exact zip_sum _ c j rfl K a hK hl

/-- The nodes of the remaining rows of a tableau are the sums of the rows. -/
def Good : ℕ → List (ℚ × List ℚ) → Prop
  | _, [] => True
  | k, (x, a) :: rows => a.length = k ∧ a.sum = x ∧ 0 ≤ x ∧ x ≤ 1 ∧ Good (k + 1) rows

theorem good_tableau : Good 1 tableau := by
  simp only [Good, tableau]
  norm_num

/-- A problem whose slope along the line `line x0 y0 c` is `c`. -/
structure Straight (p : IvpProblem ℝ) (c : List ℝ) : Prop where
  forward : p.x0 < p.x1
  ne : p.y0 ≠ []
  size : c.length = p.y0.length
  slope : ∀ t ∈ Set.Icc p.x0 p.x1, p.rhs t (line p.x0 p.y0 c t) = .ok c
  atol : 0 ≤ p.atol

variable {p : IvpProblem ℝ} {c : List ℝ}

theorem Straight.direction (S : Straight p c) : direction p = 1 := by
  rcases direction_spec p with h | h
  · exact h.1
  · linarith [h.2, S.forward]

private theorem call_line (S : Straight p c) {t : ℝ} (ht : t ∈ Set.Icc p.x0 p.x1) :
    call p.rhs p.y0.length t (line p.x0 p.y0 c t) = .ok c := by
  unfold call; rw [S.slope t ht]; simp [S.size]

private theorem stages_line (S : Straight p c) {t h : ℝ} (hh : 0 ≤ h) (ht : p.x0 ≤ t) (hth : t + h ≤ p.x1) :
    ∀ (rows : List (ℚ × List ℚ)) (K : List (List ℝ)), (∀ k ∈ K, k = c) → Good K.length rows →
      ∃ K', stages p.rhs t (line p.x0 p.y0 c t) h rows K = .ok K' ∧ (∀ k ∈ K', k = c) ∧ K'.length = K.length + rows.length
  | [], K, hK, _ => ⟨K, rfl, hK, rfl⟩
  | (x, a) :: rows, K, hK, hg => by
    obtain ⟨g1, g2, g3, g4, g5⟩ := hg
    have hx0 : (0:ℝ) ≤ x := by exact_mod_cast g3
    have hx1 : (x:ℝ) ≤ 1 := by exact_mod_cast g4
    have hlen : ∀ k ∈ K, k.length = p.y0.length := fun k hk => by rw [hK k hk, S.size]
    have hv : vadd (line p.x0 p.y0 c t) ((comb p.y0.length K a).map (· * h)) = line p.x0 p.y0 c (t + lit x * h) := by
      refine line_add S.size (by rw [List.length_map, length_comb hlen]) fun j => ?_
      rw [getD_map (· * h) (by simp), getD_comb_same S.size hK g1, g2]
      simp only [real_lit]; ring
    obtain ⟨K', h1, h2, h3⟩ := stages_line S hh ht hth rows (K ++ [c]) (by
      intro k hk
      rcases List.mem_append.1 hk with h' | h'
      · exact hK k h'
      · exact List.mem_singleton.1 h') (by simpa using g5)
    refine ⟨K', ?_, h2, by rw [h3]; simp; omega⟩
    rw [stages, length_line S.size, hv, call_line S ⟨?_, ?_⟩]
    · exact h1
    · simp only [real_lit]; nlinarith [mul_nonneg hx0 hh]
    · simp only [real_lit]; nlinarith [mul_le_mul_of_nonneg_right hx1 hh]

private theorem rkStep_line (S : Straight p c) {t h : ℝ} (hh : 0 ≤ h) (ht : p.x0 ≤ t) (hth : t + h ≤ p.x1) :
    ∃ K, rkStep p.rhs t (line p.x0 p.y0 c t) c h = .ok (line p.x0 p.y0 c (t + h), c, K) ∧ (∀ k ∈ K, k = c) ∧ K.length = 7 := by
  obtain ⟨K, h1, h2, h3⟩ := stages_line S hh ht hth tableau [c] (by simp) good_tableau
  have h6 : K.length = 6 := by rw [h3]; rfl
  have hlen : ∀ k ∈ K, k.length = p.y0.length := fun k hk => by rw [h2 k hk, S.size]
  have hv : vadd (line p.x0 p.y0 c t) ((comb p.y0.length K weights).map (h * ·)) = line p.x0 p.y0 c (t + h) := by
    refine line_add S.size (by rw [List.length_map, length_comb hlen]) fun j => ?_
    rw [getD_map (h * ·) (by simp), getD_comb_same S.size h2 (by rw [h6]; rfl)]
    have : (weights.sum : ℚ) = 1 := by norm_num [weights]
    rw [this]; push_cast; ring
  refine ⟨K ++ [c], ?_, ?_, by simp [h6]⟩
  · unfold rkStep
    rw [h1]
    simp only
    rw [length_line S.size, hv, call_line S ⟨by linarith, hth⟩]
  · intro k hk
    rcases List.mem_append.1 hk with h' | h'
    · exact h2 k h'
    · exact List.mem_singleton.1 h'

private theorem norm_zero (x : List ℝ) (h : ∀ v ∈ x, v = 0) : norm x = 0 := by
  have : x.foldl (fun s v => s + v * v) (lit 0 : ℝ) = 0 := by
    have : ∀ (x : List ℝ) (s : ℝ), (∀ v ∈ x, v = 0) → x.foldl (fun s v => s + v * v) s = s := fun x => by
      induction x with
      | nil => intros; rfl
      | cons a x ih => intro s h; rw [List.foldl_cons, ih _ fun v hv => h v (by simp [hv]), h a (by simp)]; ring
    rw [this x _ h]; simp
  simp only [norm, this, real_sqrt, Real.sqrt_zero, zero_div]

/-- On the line, every trial ends on the line, without estimated error, and its interpolant is the line. -/
theorem trial_line (S : Straight p c) {s : St ℝ} (ht0 : p.x0 ≤ s.t) (ht1 : s.t < p.x1) (hy : s.y = line p.x0 p.y0 c s.t) (hf : s.f = c)
    {h : ℝ} (hh : 0 < h) : ∃ q, trial p s h = .ok q ∧ s.t < q.t ∧ q.t ≤ p.x1 ∧ q.y = line p.x0 p.y0 c q.t ∧ q.f = c ∧ q.err = 0 ∧
      ∀ t, denseOutput s.t q.t s.y q.K t = line p.x0 p.y0 c t := by
  set tN := if PyCmp.gt (RungeKutta.direction p * (s.t + h * RungeKutta.direction p - p.x1)) (lit 0) then p.x1
    else s.t + h * RungeKutta.direction p with htN
  have htN' : s.t < tN ∧ tN ≤ p.x1 := by
    rw [htN, S.direction]
    simp only [real_gt, real_lit]
    split_ifs with hc
    · exact ⟨ht1, le_refl _⟩
    · push_cast at hc; constructor <;> linarith
  obtain ⟨K, h1, h2, h3⟩ := rkStep_line S (t := s.t) (h := tN - s.t) (by linarith [htN'.1]) ht0 (by linarith [htN'.2])
  rw [show s.t + (tN - s.t) = tN by ring] at h1
  have hlen : ∀ k ∈ K, k.length = p.y0.length := fun k hk => by rw [h2 k hk, S.size]
  refine ⟨⟨tN, line p.x0 p.y0 c tN, c, K, tN - s.t, norm (vdiv ((comb s.y.length K errorWeights).map (· * (tN - s.t)))
    (scale p s.y (line p.x0 p.y0 c tN)))⟩, ?_, htN'.1, htN'.2, rfl, rfl, ?_, fun t => ?_⟩
  · unfold trial
    simp only
    rw [← htN, hf, hy, h1]
  · refine norm_zero _ fun v hv => ?_
    obtain ⟨j, hj, rfl⟩ := List.mem_iff_getElem.1 hv
    have hyl : s.y.length = p.y0.length := by rw [hy, length_line S.size]
    have hjl : j < (comb s.y.length K errorWeights).length := by
      rw [hyl, length_comb hlen]
      simp only [vdiv, List.length_zipWith, List.length_map, hyl, length_comb hlen] at hj
      omega
    have hz := getD_comb_same (a := errorWeights) S.size h2 (by rw [h3]; rfl) j
    rw [← hyl] at hz
    simp only [List.getD_eq_getElem?_getD, List.getElem?_eq_getElem hjl, Option.getD_some] at hz
    have : (errorWeights.sum : ℚ) = 0 := by norm_num [errorWeights]
    rw [this] at hz
    simp [vdiv, hz]
  · show denseOutput s.t tN s.y K t = _
    obtain ⟨d1, d2⟩ := length_dense (tO := s.t) (tN := tN) (t := t) (y := s.y) (n := p.y0.length) (K := K)
      (by rw [hy, length_line S.size]) hlen
    refine ext_getD (by rw [d1, length_line S.size]) fun j _ => ?_
    have s0 : ((denseWeights.getD 0 []).sum : ℚ) = 1 := by norm_num [denseWeights]
    have s1 : ((denseWeights.getD 1 []).sum : ℚ) = 0 := by norm_num [denseWeights]
    have s2 : ((denseWeights.getD 2 []).sum : ℚ) = 0 := by norm_num [denseWeights]
    have s3 : ((denseWeights.getD 3 []).sum : ℚ) = 0 := by norm_num [denseWeights]
    rw [d2 j, getD_comb_same S.size h2 (by rw [h3]; rfl), getD_comb_same S.size h2 (by rw [h3]; rfl),
      getD_comb_same S.size h2 (by rw [h3]; rfl), getD_comb_same S.size h2 (by rw [h3]; rfl), s0, s1, s2, s3, hy, getD_line S.size,
      getD_line S.size]
    have : tN - s.t ≠ 0 := by linarith [htN'.1]
    push_cast
    field_simp
    ring

private theorem tries_line (S : Straight p c) {m : ℝ} (hm : 0 < m) {s : St ℝ} (ht0 : p.x0 ≤ s.t) (ht1 : s.t < p.x1)
    (hy : s.y = line p.x0 p.y0 c s.t) (hf : s.f = c) {rej : Bool} {h : ℝ} (hh : m ≤ h) {o : Outcome ℝ} (T : Tries p m s rej h o) :
    ∃ s' st, o = .accepted s' st ∧ s'.t = st.t ∧ s.t < st.t ∧ st.t ≤ p.x1 ∧ st.y = line p.x0 p.y0 c st.t ∧
      (∀ t, st.dense t = line p.x0 p.y0 c t) ∧ s'.y = st.y ∧ s'.f = c := by
  obtain ⟨q, h1, h2, h3, h4, h5, h6, h7⟩ := trial_line S ht0 ht1 hy hf (lt_of_lt_of_le hm hh)
  cases T with
  | small hs => simp only [real_lt] at hs; linarith
  | raised _ he => rw [h1] at he; cases he
  | accept _ he _ => rw [h1] at he; cases he; exact ⟨_, _, rfl, rfl, h2, h3, h4, h7, rfl, h5⟩
  | reject _ he herr _ =>
    rw [h1] at he; cases he
    rw [h6] at herr
    simp [PyCmp.lt] at herr

private theorem steps_line (S : Straight p c) {gap : ℝ → ℝ → ℝ} {m : ℝ} (hg : Spaced gap m) {s : St ℝ} {r : Run ℝ} (R : Steps gap p s r) :
    p.x0 ≤ s.t → s.t < p.x1 → s.y = line p.x0 p.y0 c s.t → s.f = c →
    r.ending = .reached ∧ r.steps ≠ [] ∧ ∀ st ∈ r.steps, st.t ∈ Set.Ioc p.x0 p.x1 ∧ st.y = line p.x0 p.y0 c st.t ∧
      ∀ t, st.dense t = line p.x0 p.y0 c t := by
  have hm : ∀ t, 0 < minStep gap p t := fun t => lt_of_lt_of_le (by linarith [hg.1]) (minStep_ge hg p t)
  have hft : ∀ m h : ℝ, m ≤ firstTry m h := fun m h => by
    unfold firstTry; simp only [real_lt]; split_ifs with h'
    · exact le_refl _
    · exact not_lt.1 h'
  induction R with
  | trivial h =>
    intro _ ht1 hy _
    rcases h with h | h
    · rw [hy, length_line S.size] at h
      exact absurd (List.length_eq_zero_iff.1 h) S.ne
    · simp only [real_eq] at h; linarith
  | small _ _ T => intro h0 h1 hy hf; obtain ⟨_, _, h, _⟩ := tries_line S (hm _) h0 h1 hy hf (hft _ _) T; cases h
  | raised _ _ T => intro h0 h1 hy hf; obtain ⟨_, _, h, _⟩ := tries_line S (hm _) h0 h1 hy hf (hft _ _) T; cases h
  | last _ _ T _ =>
    intro h0 h1 hy hf
    obtain ⟨_, _, h, a1, a2, a3, a4, a5, a6, a7⟩ := tries_line S (hm _) h0 h1 hy hf (hft _ _) T
    cases h
    refine ⟨rfl, by simp, ?_⟩
    intro x hx
    rw [List.mem_singleton.1 hx]
    exact ⟨⟨by linarith, a3⟩, a4, a5⟩
  | @more s s' st run _ _ T hc _ ih =>
    intro h0 h1 hy hf
    obtain ⟨_, _, h, a1, a2, a3, a4, a5, a6, a7⟩ := tries_line S (hm _) h0 h1 hy hf (hft _ _) T
    cases h
    have hlt : s'.t < p.x1 := by
      by_contra hn
      have : s'.t = p.x1 := le_antisymm (by rw [a1]; exact a3) (not_lt.1 hn)
      rw [this] at hc
      simp [PyCmp.ge, PyCmp.le] at hc
    obtain ⟨i1, i2, i3⟩ := ih (by rw [a1]; linarith) hlt (by rw [a6, a1]; exact a4) a7
    refine ⟨i1, by simp, ?_⟩
    intro x hx
    rcases List.mem_cons.1 hx with rfl | hx
    · exact ⟨⟨by linarith, a3⟩, a4, a5⟩
    · exact i3 x hx

private theorem start_line (S : Straight p c) : ∃ h, start p = .ok ⟨p.x0, p.y0, c, h⟩ := by
  have hle := S.forward.le
  have h0 : call p.rhs p.y0.length p.x0 p.y0 = .ok c := by
    have := call_line S (t := p.x0) ⟨le_refl _, hle⟩
    rwa [line_start S.size] at this
  have hfin : (p.y0.all Pchip.isFinite) = true := by simp [Pchip.isFinite]
  have hat : PyCmp.lt p.atol (lit 0) = false := by simpa [PyCmp.lt] using S.atol
  have key : ∀ h e, h ≤ |p.x1 - p.x0| → 0 ≤ h →
      call p.rhs p.y0.length (p.x0 + h * RungeKutta.direction p) (vadd p.y0 (c.map (h * RungeKutta.direction p * ·))) ≠ .error e := fun h e hh hh0 => by
    rw [abs_of_pos (by linarith [S.forward])] at hh
    have hv : vadd (line p.x0 p.y0 c p.x0) (c.map (h * RungeKutta.direction p * ·)) = line p.x0 p.y0 c (p.x0 + h * RungeKutta.direction p) :=
      line_add S.size (by rw [List.length_map, S.size]) fun j => by rw [getD_map (h * RungeKutta.direction p * ·) (by simp)]
    rw [line_start S.size] at hv
    rw [hv, S.direction, mul_one, call_line S ⟨by linarith, by linarith⟩]; simp
  have hpm : ∀ a b : ℝ, 0 ≤ a → 0 ≤ b → pyMin a b ≤ b ∧ 0 ≤ pyMin a b := fun a b ha hb => by
    unfold pyMin; simp only [real_lt]; split_ifs with h
    · exact ⟨le_refl _, hb⟩
    · exact ⟨not_lt.1 h, ha⟩
  have hi : ∃ v, initialStep p c = .ok v := by
    unfold initialStep
    simp only
    split
    · exact ⟨_, rfl⟩
    · split
      · next he =>
        refine absurd he (key _ _ (hpm _ _ ?_ (abs_nonneg _)).1 (hpm _ _ ?_ (abs_nonneg _)).2) <;>
        · split_ifs
          · simp
          · exact div_nonneg (mul_nonneg (by simp) (norm_nonneg _)) (norm_nonneg _)
      · exact ⟨_, rfl⟩
  obtain ⟨v, hv⟩ := hi
  refine ⟨v, ?_⟩
  unfold start
  simp only [hfin, hat, h0, hv, Bool.not_true, Bool.false_eq_true, if_false]

/-- RK45 follows the line to the end of the interval. -/
theorem runs_line (S : Straight p c) {gap : ℝ → ℝ → ℝ} {m : ℝ} (hg : Spaced gap m) {r : Run ℝ} (R : Runs gap p r) :
    r.ending = .reached ∧ r.steps ≠ [] ∧ ∀ st ∈ r.steps, st.t ∈ Set.Ioc p.x0 p.x1 ∧ st.y = line p.x0 p.y0 c st.t ∧
      ∀ t, st.dense t = line p.x0 p.y0 c t := by
  obtain ⟨h, hs⟩ := start_line S
  cases R with
  | raised he => rw [hs] at he; cases he
  | run he R =>
    rw [hs] at he; cases he
    exact steps_line S hg R (le_refl _) S.forward (line_start S.size).symm rfl

end IBL.RungeKutta
