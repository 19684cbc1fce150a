import Verif.Lemmas.RkRound
import Verif.Props.RungeKuttaOrder

/-!
C140: `solve` of the linear Thwaites method in rounded arithmetic, from start to end: velocities, right hand side, every operation of RK45 and
of its dense output, and the query afterwards.
-/

set_option linter.unusedSectionVars false

namespace IBL
open SolveIvp RungeKutta Expansion RkAffine RkRound

variable {R : Rounding}

/-! ### The steps -/

/-- On the interval the numbers are spaced such that ten spacings can be added: what RK45 takes for its smallest step moves every number upwards. -/
def Advances (gap : R.F → R.F → R.F) (x0 x1 : ℝ) : Prop := ∀ t : R.F, x0 ≤ t.val → t.val < x1 → t.val < (t + lit 10 * gap t (lit 1)).val

/-- Consecutive steps, each computed from the one before. -/
private def Chain (g : R.F → R.F → R.F) (x1 : ℝ) : R.F → R.F → R.F → List (Step R.F) → Prop
  | _, _, _, [] => True
  | t, y, f, s :: l => t.val < s.t.val ∧ s.t.val ≤ x1 ∧ s.y = [cN g t y f (s.t - t)] ∧
      (∀ x, s.dense x = [dense g t y f (s.t - t) ((x - t) / (s.t - t))]) ∧
      Chain g x1 s.t (cN g t y f (s.t - t)) (g (t + (s.t - t)) (cN g t y f (s.t - t))) l

private theorem tries_accepted_F [PyPow R.F] {p : IvpProblem R.F} {m : R.F} {s : St R.F} {rej : Bool} {h : R.F} {out : RungeKutta.Outcome R.F} (T : Tries p m s rej h out) :
    ∀ s' st, out = .accepted s' st → ∃ (h : R.F) (q : Trial R.F), m.val ≤ h.val ∧ trial p s h = .ok q ∧ s'.t = q.t ∧ s'.y = q.y ∧ s'.f = q.f ∧
      st = ⟨q.t, q.y, denseOutput s.t q.t s.y q.K⟩ := by
  induction T with
  | small => intro _ _ h; cases h
  | raised => intro _ _ h; cases h
  | @accept rej h q h1 h2 h3 =>
    intro s' st e
    cases e
    refine ⟨h, q, ?_, h2, rfl, rfl, rfl, rfl⟩
    by_contra hc
    exact absurd ((Rounding.F_lt _ _).2 (not_le.1 hc)) (by rw [h1]; simp)
  | reject _ _ _ _ ih => exact ih

private theorem direction_up [PyPow R.F] {p : IvpProblem R.F} (hx : p.x0.val < p.x1.val) : direction p = lit 1 := by
  have : PyCmp.eq p.x1 p.x0 = false := by
    rw [← Bool.not_eq_true, Rounding.F_eq]; exact hx.ne'
  unfold direction
  rw [this, (Rounding.F_gt _ _).2 hx]
  simp

private theorem one_mul_F (x : R.F) : lit 1 * x = x := by
  ext
  rw [Rounding.val_mul, Rounding.val_one, one_mul, x.rep]

private theorem mul_one_F (x : R.F) : x * lit 1 = x := by
  ext
  rw [Rounding.val_mul, Rounding.val_one, mul_one, x.rep]

/-- What an accepted trial has computed. -/
private theorem trial_step [PyPow R.F] {gap : R.F → R.F → R.F} {p : IvpProblem R.F} (hg : Advances gap p.x0.val p.x1.val) (hx : p.x0.val < p.x1.val) {s : St R.F} {y f h : R.F} {q : Trial R.F}
    (hy : s.y = [y]) (hf : s.f = [f]) (ht0 : p.x0.val ≤ s.t.val) (ht : s.t.val < p.x1.val) (hh : (minStep gap p s.t).val ≤ h.val) (hq : trial p s h = .ok q) :
    s.t.val < q.t.val ∧ q.t.val ≤ p.x1.val ∧ q.y = [cN (single p.rhs) s.t y f (q.t - s.t)] ∧
    q.f = [single p.rhs (s.t + (q.t - s.t)) (cN (single p.rhs) s.t y f (q.t - s.t))] ∧
    ∀ x, denseOutput s.t q.t s.y q.K x = [dense (single p.rhs) s.t y f (q.t - s.t) ((x - s.t) / (q.t - s.t))] := by
  unfold trial at hq
  rw [direction_up hx, hy, hf] at hq
  simp only [one_mul_F, mul_one_F] at hq
  obtain ⟨tN, etN⟩ : ∃ tN, tN = if PyCmp.gt (s.t + h - p.x1) (lit 0) = true then p.x1 else s.t + h := ⟨_, rfl⟩
  rw [← etN] at hq
  have hmove : s.t.val < (s.t + h).val := by
    have h1 := hg s.t ht0 ht
    rw [minStep, direction_up hx] at hh
    refine h1.trans_le ?_
    rw [Rounding.val_add, Rounding.val_add]
    exact R.mono (by linarith)
  have hN : s.t.val < tN.val ∧ tN.val ≤ p.x1.val := by
    split at etN
    · rw [etN]; exact ⟨ht, le_rfl⟩
    · next hc =>
      rw [etN]
      refine ⟨hmove, ?_⟩
      rw [Rounding.F_gt, Rounding.val_zero, Rounding.val_sub, Rounding.rd_pos_iff] at hc
      linarith
  rcases hr : rkStep p.rhs s.t [y] [f] (tN - s.t) with e | ⟨a, b, K⟩
  · rw [hr] at hq; cases hq
  rw [hr] at hq
  obtain ⟨r1, r2, r3⟩ := rkStep_single hr
  have e := Except.ok.inj hq
  rw [← e, hy]
  exact ⟨hN.1, hN.2, r1, r2, fun x => r3 tN x rfl⟩

private theorem steps_chain [PyPow R.F] {gap : R.F → R.F → R.F} {p : IvpProblem R.F} (hg : Advances gap p.x0.val p.x1.val) (hx : p.x0.val < p.x1.val) {s : St R.F} {r : Run R.F}
    (S : Steps gap p s r) : ∀ y f, s.y = [y] → s.f = [f] → p.x0.val ≤ s.t.val → s.t.val < p.x1.val →
    Chain (single p.rhs) p.x1.val s.t y f r.steps ∧ (r.ending = .reached → r.steps ≠ []) := by
  induction S with
  | @trivial s h =>
    intro y f hy hf ht0 ht
    rcases h with h | h
    · rw [hy] at h; simp at h
    · rw [Rounding.F_eq] at h; exact absurd h ht.ne
  | small => exact fun _ _ _ _ _ _ => ⟨trivial, by simp⟩
  | raised => exact fun _ _ _ _ _ _ => ⟨trivial, by simp⟩
  | @last s s' st h1 h2 T h3 =>
    intro y f hy hf ht0 ht
    obtain ⟨h, q, a1, a2, a3, a4, a5, a6⟩ := tries_accepted_F T _ _ rfl
    obtain ⟨b1, b2, b3, b4, b5⟩ := trial_step hg hx hy hf ht0 ht a1 a2
    rw [a6]
    exact ⟨⟨b1, b2, b3, b5, trivial⟩, by simp⟩
  | @more s s' st run h1 h2 T h3 S ih =>
    intro y f hy hf ht0 ht
    obtain ⟨h, q, a1, a2, a3, a4, a5, a6⟩ := tries_accepted_F T _ _ rfl
    obtain ⟨b1, b2, b3, b4, b5⟩ := trial_step hg hx hy hf ht0 ht a1 a2
    have lt : s'.t.val < p.x1.val := by
      rw [direction_up hx, one_mul_F, ← Bool.not_eq_true, Rounding.F_ge, Rounding.val_zero, Rounding.val_sub, not_le, Rounding.rd_neg_iff] at h3
      linarith
    obtain ⟨c1, -⟩ := ih _ _ (a4.trans b3) (a5.trans b4) (by rw [a3]; exact ht0.trans b1.le) lt
    rw [a3] at c1
    rw [a6]
    exact ⟨⟨b1, b2, b3, b5, c1⟩, by simp⟩

private theorem runs_chain [PyPow R.F] {gap : R.F → R.F → R.F} {p : IvpProblem R.F} (hg : Advances gap p.x0.val p.x1.val) (hx : p.x0.val < p.x1.val) {r : Run R.F} {y0 : R.F} (hy : p.y0 = [y0])
    (S : Runs gap p r) : Chain (single p.rhs) p.x1.val p.x0 y0 (single p.rhs p.x0 y0) r.steps ∧ (r.ending = .reached → r.steps ≠ []) := by
  cases S with
  | raised => exact ⟨trivial, by simp⟩
  | @run s r hs S =>
    unfold start at hs
    split at hs
    · cases hs
    split at hs
    · cases hs
    rw [hy] at hs
    rcases hc : call p.rhs [y0].length p.x0 [y0] with e | f
    · rw [hc] at hs; cases hs
    rw [hc] at hs
    simp only at hs
    rcases hi : initialStep p f with e | h
    · rw [hi] at hs; cases hs
    rw [hi] at hs
    have e := Except.ok.inj hs
    have ef : f = _ := call_single (rhs := p.rhs) (by simpa using hc)
    subst e
    exact steps_chain hg hx S _ _ rfl ef le_rfl hx

/-! ### The error of all steps -/

/-- No step is longer than `h`. -/
private def Short (h : ℝ) : ℝ → List (Step R.F) → Prop
  | _, [] => True
  | t, s :: l => s.t.val - t ≤ h ∧ Short h s.t.val l

/-- Along all steps the computed states and interpolants are within `e` of `Y`. -/
private def Near' (Y : ℝ → ℝ) (e : ℝ) : ℝ → List (Step R.F) → Prop
  | _, [] => True
  | t, s :: l => t < s.t.val ∧ (∃ v : R.F, s.y = [v] ∧ |v.val - Y s.t.val| ≤ e) ∧
      (∀ x : R.F, t ≤ x.val → x.val ≤ s.t.val → ∃ v : R.F, s.dense x = [v] ∧ |v.val - Y x.val| ≤ e) ∧ Near' Y e s.t.val l

set_option maxHeartbeats 1000000 in
private theorem chain_near {a b Y : ℝ → ℝ} {x0 x1 x2 W C0 e0 C L M h δ η B : ℝ} {n : ℕ} (hC : 0 ≤ C) (hL : 0 ≤ L) (hM : 0 ≤ M) (hδ : 0 ≤ δ)
    (step : ∀ i : Cfg a b x0 x1 x2 W C0 e0,
      |(cN i.g i.t i.y i.f i.h).val - (i.y.val + i.H * phi a b i.t.val i.H i.y.val)| ≤ C * i.R.eps + i.H * (C * i.E) ∧
      ∀ x : i.R.F, i.t.val ≤ x.val → x.val ≤ i.tN.val →
        |(dense i.g i.t i.y i.f i.h ((x - i.t) / i.h)).val - (i.y.val + i.H * psi a b i.t.val i.H i.y.val ((x.val - i.t.val) / i.H))| ≤
          C * i.R.eps + i.H * (C * i.E))
    (loc : ∀ t h, Dom x0 x1 t h → |Y t + h * phi a b t h (Y t) - Y (t + h)| ≤ M * h ^ 6 ∧
      ∀ s, 0 ≤ s → s ≤ 1 → |Y t + h * psi a b t h (Y t) s - Y (t + s * h)| ≤ M * h ^ 5)
    (lip : ∀ t h y z, Dom x0 x1 t h → |phi a b t h y - phi a b t h z| ≤ L * |y - z| ∧
      ∀ s, 0 ≤ s → s ≤ 1 → |psi a b t h y s - psi a b t h z s| ≤ L * |y - z|)
    (hd : 0 ≤ η) (small : R.eps + η ≤ e0) {g : R.F → R.F → R.F}
    (close : ∀ s w, s.val ∈ Set.Icc x0 x2 → |(g s w).val - (a s.val + b s.val * w.val)| ≤ η * (1 + |w.val|))
    (slope : ∀ t tN y : R.F, x0 ≤ t.val → t.val < tN.val → tN.val ≤ x1 → |y.val| ≤ W →
      |(g (t + (tN - t)) y).val - (a tN.val + b tN.val * y.val)| ≤ C0 * (R.eps + η))
    (hB : Real.exp (L * (x1 - x0)) * (δ + (M * h ^ 5 + C * (R.eps + η)) * (x1 - x0) + n * (C * R.eps)) ≤ B) (hYW : ∀ x ∈ Set.Icc x0 x1, |Y x| + B ≤ W) :
    ∀ (l : List (Step R.F)) (t y f : R.F) (k : ℕ), Chain g x1 t y f l → Short h t.val l → k + l.length ≤ n → x0 ≤ t.val → t.val ≤ x1 →
      |f.val - (a t.val + b t.val * y.val)| ≤ C0 * (R.eps + η) →
      |y.val - Y t.val| ≤ Real.exp (L * (t.val - x0)) * (δ + (M * h ^ 5 + C * (R.eps + η)) * (t.val - x0) + k * (C * R.eps)) →
      Near' Y (B + M * h ^ 5) t.val l
  | [], _, _, _, _, _, _, _, _, _, _, _ => trivial
  | s :: l, t, y, f, k, ⟨h1, h2, h3, h4, h5⟩, ⟨m1, m2⟩, hk, ht0, ht1, hf, hy => by
    have e0 : 0 ≤ R.eps := R.eps_nonneg
    have hk' : k + 1 + l.length ≤ n := by simp at hk; omega
    obtain ⟨H, eH⟩ : ∃ H, H = s.t.val - t.val := ⟨_, rfl⟩
    have Hpos : 0 < H := by rw [eH]; linarith
    have Hh : H ≤ h := by rw [eH]; exact m1
    have hh : 0 ≤ h := Hpos.le.trans Hh
    have H5 : H ^ 5 ≤ h ^ 5 := pow_le_pow_left₀ Hpos.le Hh 5
    obtain ⟨P, eP⟩ : ∃ P, P = M * h ^ 5 + C * (R.eps + η) := ⟨_, rfl⟩
    have P0 : 0 ≤ P := by rw [eP]; positivity
    obtain ⟨Q, eQ⟩ : ∃ Q, Q = C * R.eps := ⟨_, rfl⟩
    have Q0 : 0 ≤ Q := by rw [eQ]; positivity
    rw [← eP, ← eQ] at hB hy
    -- the bounds at all points are below that at the end
    have bound : ∀ (z : ℝ) (j : ℕ), x0 ≤ z → z ≤ x1 → j ≤ n → Real.exp (L * (z - x0)) * (δ + P * (z - x0) + j * Q) ≤ B := fun z j z0 z1 hj => by
      refine le_trans (mul_le_mul (Real.exp_le_exp.2 (mul_le_mul_of_nonneg_left (by linarith) hL)) ?_ ?_ (Real.exp_pos _).le) hB
      · have q1 : P * (z - x0) ≤ P * (x1 - x0) := mul_le_mul_of_nonneg_left (by linarith) P0
        have q2 : (j:ℝ) * Q ≤ n * Q := mul_le_mul_of_nonneg_right (by exact_mod_cast hj) Q0
        linarith
      · have : 0 ≤ P * (z - x0) := mul_nonneg P0 (by linarith)
        positivity
    have yW : |y.val| ≤ W := by
      have q1 := bound t.val k ht0 ht1 (by omega)
      have q2 := hYW t.val ⟨ht0, ht1⟩
      have q3 := abs_add_le (y.val - Y t.val) (Y t.val)
      rw [sub_add_cancel] at q3
      linarith
    obtain ⟨a1, a2⟩ := step ⟨R, η, hd, small, g, close, t, s.t, y, f, ht0, h1, h2, yW, hf⟩
    simp only [Cfg.h, Cfg.H, Cfg.E, ← eH] at a1 a2
    have dom : Dom x0 x1 t.val H := ⟨ht0, Hpos.le, by rw [eH]; linarith⟩
    have ht' : t.val + H = s.t.val := by rw [eH]; ring
    have exp1 : 1 + L * H ≤ Real.exp (L * H) := by linarith [Real.add_one_le_exp (L * H)]
    have carry : (1 + L * H) * |y.val - Y t.val| ≤ Real.exp (L * (s.t.val - x0)) * (δ + P * (t.val - x0) + k * Q) := by
      calc (1 + L * H) * |y.val - Y t.val| ≤ Real.exp (L * H) * (Real.exp (L * (t.val - x0)) * (δ + P * (t.val - x0) + k * Q)) :=
            mul_le_mul exp1 hy (abs_nonneg _) (Real.exp_pos _).le
        _ = _ := by rw [← mul_assoc, ← Real.exp_add]; congr 2; rw [eH]; ring
    have hexp : 1 ≤ Real.exp (L * (s.t.val - x0)) := Real.one_le_exp (mul_nonneg hL (by linarith))
    -- the new errors of the step
    have fresh : Q + H * (C * (R.eps + η)) + M * H ^ 6 ≤ Real.exp (L * (s.t.val - x0)) * (P * H + Q) := by
      have q1 : M * H ^ 6 ≤ M * h ^ 5 * H := by
        rw [show M * H ^ 6 = M * H ^ 5 * H by ring]
        exact mul_le_mul_of_nonneg_right (mul_le_mul_of_nonneg_left H5 hM) Hpos.le
      have q2 : Q + H * (C * (R.eps + η)) + M * H ^ 6 ≤ P * H + Q := by rw [eP, add_mul]; linarith [mul_comm H (C * (R.eps + η))]
      exact q2.trans (le_mul_of_one_le_left (add_nonneg (mul_nonneg P0 Hpos.le) Q0) hexp)
    have total : Real.exp (L * (s.t.val - x0)) * (δ + P * (t.val - x0) + k * Q) + Real.exp (L * (s.t.val - x0)) * (P * H + Q) =
        Real.exp (L * (s.t.val - x0)) * (δ + P * (s.t.val - x0) + (k + 1 : ℕ) * Q) := by
      rw [← ht']; push_cast; ring
    have next : |(cN g t y f (s.t - t)).val - Y s.t.val| ≤ Real.exp (L * (s.t.val - x0)) * (δ + P * (s.t.val - x0) + (k + 1 : ℕ) * Q) := by
      have i1 := (loc t.val H dom).1
      have i2 := (lip t.val H y.val (Y t.val) dom).1
      have j1 : |H * (phi a b t.val H y.val - phi a b t.val H (Y t.val))| ≤ H * (L * |y.val - Y t.val|) := by
        rw [abs_mul, abs_of_pos Hpos]; exact mul_le_mul_of_nonneg_left i2 Hpos.le
      have e : (cN g t y f (s.t - t)).val - Y s.t.val = ((cN g t y f (s.t - t)).val - (y.val + H * phi a b t.val H y.val)) +
          ((y.val - Y t.val) + H * (phi a b t.val H y.val - phi a b t.val H (Y t.val)) + (Y t.val + H * phi a b t.val H (Y t.val) - Y (t.val + H))) := by
        rw [ht']; ring
      rw [e]
      have q1 := abs_add_le ((cN g t y f (s.t - t)).val - (y.val + H * phi a b t.val H y.val))
        ((y.val - Y t.val) + H * (phi a b t.val H y.val - phi a b t.val H (Y t.val)) + (Y t.val + H * phi a b t.val H (Y t.val) - Y (t.val + H)))
      have q2 := abs_add_three (y.val - Y t.val) (H * (phi a b t.val H y.val - phi a b t.val H (Y t.val))) (Y t.val + H * phi a b t.val H (Y t.val) - Y (t.val + H))
      rw [← total]
      rw [← eQ] at a1
      have q5 : |y.val - Y t.val| + H * (L * |y.val - Y t.val|) = (1 + L * H) * |y.val - Y t.val| := by ring
      linarith
    have inB := bound s.t.val (k + 1) (by linarith) h2 (by omega)
    have hM5 : 0 ≤ M * h ^ 5 := by positivity
    refine ⟨h1, ⟨_, h3, (next.trans inB).trans (by linarith)⟩, fun x x1' x2' => ⟨_, h4 x, ?_⟩, ?_⟩
    · have b1 := a2 x x1' x2'
      obtain ⟨r, er⟩ : ∃ r, r = (x.val - t.val) / H := ⟨_, rfl⟩
      rw [← er, ← eQ] at b1
      have r0 : 0 ≤ r := by rw [er]; exact div_nonneg (by linarith) Hpos.le
      have r1 : r ≤ 1 := by rw [er, div_le_one Hpos, eH]; linarith
      have xr : t.val + r * H = x.val := by rw [er]; field_simp; ring
      have i1 := (loc t.val H dom).2 r r0 r1
      have i2 := (lip t.val H y.val (Y t.val) dom).2 r r0 r1
      have j1 : |H * (psi a b t.val H y.val r - psi a b t.val H (Y t.val) r)| ≤ H * (L * |y.val - Y t.val|) := by
        rw [abs_mul, abs_of_pos Hpos]; exact mul_le_mul_of_nonneg_left i2 Hpos.le
      generalize (dense g t y f (s.t - t) ((x - t) / (s.t - t))).val = v at b1 ⊢
      have e : v - Y x.val = (v - (y.val + H * psi a b t.val H y.val r)) +
          ((y.val - Y t.val) + H * (psi a b t.val H y.val r - psi a b t.val H (Y t.val) r) + (Y t.val + H * psi a b t.val H (Y t.val) r - Y (t.val + r * H))) := by
        rw [xr]; ring
      rw [e]
      have q1 := abs_add_le (v - (y.val + H * psi a b t.val H y.val r))
        ((y.val - Y t.val) + H * (psi a b t.val H y.val r - psi a b t.val H (Y t.val) r) + (Y t.val + H * psi a b t.val H (Y t.val) r - Y (t.val + r * H)))
      have q2 := abs_add_three (y.val - Y t.val) (H * (psi a b t.val H y.val r - psi a b t.val H (Y t.val) r)) (Y t.val + H * psi a b t.val H (Y t.val) r - Y (t.val + r * H))
      have q3 : M * H ^ 5 ≤ M * h ^ 5 := mul_le_mul_of_nonneg_left H5 hM
      have q4 : 0 ≤ M * H ^ 6 := by positivity
      have q5 : |y.val - Y t.val| + H * (L * |y.val - Y t.val|) = (1 + L * H) * |y.val - Y t.val| := by ring
      rw [← total] at inB
      linarith
    · rw [eP, eQ] at next
      refine chain_near hC hL hM hδ step loc lip hd small close slope (by rw [← eP, ← eQ]; exact hB) hYW l s.t _ _ (k + 1) h5 m2 hk' (by linarith) h2 ?_ next
      have cW : |(cN g t y f (s.t - t)).val| ≤ W := by
        rw [← eP, ← eQ] at next
        have q2 := hYW s.t.val ⟨by linarith, h2⟩
        have q3 := abs_add_le ((cN g t y f (s.t - t)).val - Y s.t.val) (Y s.t.val)
        rw [sub_add_cancel] at q3
        linarith
      exact slope t s.t _ ht0 h1 h2 cW

set_option maxHeartbeats 1000000 in
/-- The same with all constants gathered in one. -/
private theorem affine_near {a b Y : ℝ → ℝ} {x0 x1 x2 B D V : ℝ} (hx : x0 < x1) (h12 : x1 < x2) (na : Nice a x0 x2 B D) (nb : Nice b x0 x2 B D)
    (hV : ∀ x ∈ Set.Icc x0 x1, |Y x| ≤ V) {M L : ℝ} (hM : 0 ≤ M) (hL : 0 ≤ L)
    (loc : ∀ t h, Dom x0 x1 t h → |Y t + h * phi a b t h (Y t) - Y (t + h)| ≤ M * h ^ 6 ∧
      ∀ s, 0 ≤ s → s ≤ 1 → |Y t + h * psi a b t h (Y t) s - Y (t + s * h)| ≤ M * h ^ 5)
    (lip : ∀ t h y z, Dom x0 x1 t h → |phi a b t h y - phi a b t h z| ≤ L * |y - z| ∧
      ∀ s, 0 ≤ s → s ≤ 1 → |psi a b t h y s - psi a b t h z s| ≤ L * |y - z|) :
    ∃ K, 0 ≤ K ∧ ∀ (R : Rounding) (g : R.F → R.F → R.F) (η δ h : ℝ) (n : ℕ) (X0 y0 : R.F) (l : List (Step R.F)), 0 ≤ η → 0 ≤ δ → X0.val = x0 →
      (∀ s w, s.val ∈ Set.Icc x0 x2 → |(g s w).val - (a s.val + b s.val * w.val)| ≤ η * (1 + |w.val|)) →
      Chain g x1 X0 y0 (g X0 y0) l → Short h x0 l → l.length ≤ n → |y0.val - Y x0| ≤ δ → K * (h ^ 5 + n * R.eps + η + δ) ≤ 1 →
      Near' Y (K * (h ^ 5 + n * R.eps + η + δ)) x0 l := by
  have hV0 : 0 ≤ V := (abs_nonneg _).trans (hV x0 ⟨le_rfl, hx.le⟩)
  obtain ⟨e1, C0, he1, hC0, hCW, slope⟩ := stored_slope (W := V + 1) h12 (by linarith) na nb
  obtain ⟨e0, C, he0, -, hC, step⟩ := step_close (W := V + 1) (C0 := C0) h12 na nb
  obtain ⟨G, eG⟩ : ∃ G, G = Real.exp (L * (x1 - x0)) := ⟨_, rfl⟩
  have G1 : 1 ≤ G := by rw [eG]; exact Real.one_le_exp (mul_nonneg hL (by linarith))
  obtain ⟨X, eX⟩ : ∃ X, X = x1 - x0 := ⟨_, rfl⟩
  have X0' : 0 < X := by rw [eX]; linarith
  have k1 : 0 ≤ G * (1 + M * X + C * X + C) := by positivity
  have k2 : 0 < e0⁻¹ := inv_pos.2 he0
  have k3 : 0 < e1⁻¹ := inv_pos.2 he1
  refine ⟨G * (1 + M * X + C * X + C) + M + e0⁻¹ + e1⁻¹, by positivity, fun R g η δ h n X0 y0 l hη hδ eX0 close ch sh hn hy0 hK => ?_⟩
  rcases l with _ | ⟨s, l⟩
  · trivial
  have n1 : (1:ℝ) ≤ n := by
    have : 1 ≤ n := by simp at hn; omega
    exact_mod_cast this
  have ep := R.eps_nonneg
  have en : R.eps ≤ n * R.eps := le_mul_of_one_le_left ep n1
  have h0 : 0 ≤ h := by
    have q1 := ch.1
    have q2 := sh.1
    rw [eX0] at q1
    linarith
  have h5 : 0 ≤ h ^ 5 := pow_nonneg h0 5
  obtain ⟨S, eS⟩ : ∃ S, S = h ^ 5 + n * R.eps + η + δ := ⟨_, rfl⟩
  rw [← eS] at hK ⊢
  have S0 : 0 ≤ S := by rw [eS]; positivity
  have j1 : 0 ≤ G * (1 + M * X + C * X + C) * S := mul_nonneg k1 S0
  have j2 : 0 ≤ M * S := mul_nonneg hM S0
  have j3 : 0 ≤ e0⁻¹ * S := mul_nonneg k2.le S0
  have j4 : 0 ≤ e1⁻¹ * S := mul_nonneg k3.le S0
  have split : (G * (1 + M * X + C * X + C) + M + e0⁻¹ + e1⁻¹) * S = G * (1 + M * X + C * X + C) * S + M * S + e0⁻¹ * S + e1⁻¹ * S := by ring
  have small : ∀ e : ℝ, 0 < e → e⁻¹ * S ≤ 1 → R.eps + η ≤ e := fun e he hs => by
    have q1 : S ≤ e := by
      have := mul_le_mul_of_nonneg_left hs he.le
      rwa [← mul_assoc, mul_inv_cancel₀ he.ne', one_mul, mul_one] at this
    linarith
  have hbound : G * (δ + (M * h ^ 5 + C * (R.eps + η)) * X + n * (C * R.eps)) + M * h ^ 5 ≤ (G * (1 + M * X + C * X + C) + M + e0⁻¹ + e1⁻¹) * S := by
    have q1 : δ + (M * h ^ 5 + C * (R.eps + η)) * X + n * (C * R.eps) ≤ (1 + M * X + C * X + C) * S := by
      have t1 : δ ≤ S := by rw [eS]; linarith [mul_nonneg (zero_le_one.trans n1) ep]
      have t2 : M * h ^ 5 * X ≤ M * X * S := by
        rw [show M * h ^ 5 * X = M * X * h ^ 5 by ring]
        exact mul_le_mul_of_nonneg_left (by rw [eS]; linarith [mul_nonneg (zero_le_one.trans n1) ep]) (mul_nonneg hM X0'.le)
      have t3 : C * (R.eps + η) * X ≤ C * X * S := by
        rw [show C * (R.eps + η) * X = C * X * (R.eps + η) by ring]
        exact mul_le_mul_of_nonneg_left (by rw [eS]; linarith) (mul_nonneg hC X0'.le)
      have t4 : n * (C * R.eps) ≤ C * S := by
        rw [show (n:ℝ) * (C * R.eps) = C * (n * R.eps) by ring]
        exact mul_le_mul_of_nonneg_left (by rw [eS]; linarith) hC
      linarith
    have q2 := mul_le_mul_of_nonneg_left q1 (zero_le_one.trans G1)
    have q3 : M * h ^ 5 ≤ M * S := mul_le_mul_of_nonneg_left (by rw [eS]; linarith [mul_nonneg (zero_le_one.trans n1) ep]) hM
    linarith [mul_assoc G (1 + M * X + C * X + C) S, add_mul (G * (1 + M * X + C * X + C) + M + e0⁻¹) e1⁻¹ S, add_mul (G * (1 + M * X + C * X + C) + M) e0⁻¹ S,
      add_mul (G * (1 + M * X + C * X + C)) M S]
  have hB1 : G * (δ + (M * h ^ 5 + C * (R.eps + η)) * X + n * (C * R.eps)) ≤ 1 := by
    have : 0 ≤ M * h ^ 5 := mul_nonneg hM h5
    linarith
  have y0W : |y0.val| ≤ V + 1 := by
    have q1 := hV x0 ⟨le_rfl, hx.le⟩
    have q2 := abs_add_le (y0.val - Y x0) (Y x0)
    rw [sub_add_cancel] at q2
    have q3 : δ ≤ G * (δ + (M * h ^ 5 + C * (R.eps + η)) * X + n * (C * R.eps)) := by
      have : 0 ≤ (M * h ^ 5 + C * (R.eps + η)) * X + n * (C * R.eps) := by positivity
      have q4 := le_mul_of_one_le_left (show 0 ≤ δ + (M * h ^ 5 + C * (R.eps + η)) * X + n * (C * R.eps) by linarith) G1
      linarith
    linarith
  have near := chain_near (R := R) (a := a) (b := b) (Y := Y) (x0 := x0) (x1 := x1) (x2 := x2) (W := V + 1) (C0 := C0) (e0 := e0) (C := C) (L := L) (M := M) (h := h) (δ := δ)
    (η := η) (B := G * (δ + (M * h ^ 5 + C * (R.eps + η)) * X + n * (C * R.eps))) (n := n) hC hL hM hδ step loc lip hη (small e0 he0 (by linarith)) (g := g) close
    (slope R η hη (small e1 he1 (by linarith)) g close) (by rw [eG, eX]) (fun x hx' => by linarith [hV x hx']) (s :: l) X0 y0 (g X0 y0) 0
    ch (by rw [eX0]; exact sh) (by simpa using hn) eX0.ge (by rw [eX0]; exact hx.le) ?_ ?_
  · rw [eX0] at near
    exact mono hbound near
  · refine (close X0 y0 (by rw [eX0]; exact ⟨le_rfl, by linarith⟩)).trans ?_
    rw [mul_comm]
    refine mul_le_mul (by linarith) (by linarith) hη hC0
  · rw [eX0]
    simpa using hy0
where
  mono {Y : ℝ → ℝ} {R : Rounding} {e e' : ℝ} (h : e ≤ e') : ∀ {l : List (Step R.F)} {t : ℝ}, Near' Y e t l → Near' Y e' t l
    | [], _, _ => trivial
    | _ :: _, _, ⟨h1, ⟨v, h2, h3⟩, h4, h5⟩ => ⟨h1, ⟨v, h2, h3.trans h⟩, fun x a b => by
        obtain ⟨w, g1, g2⟩ := h4 x a b
        exact ⟨w, g1, g2.trans h⟩, mono h h5⟩

/-! ### The right hand side and the start value -/

/-- Computed velocities at a point. -/
private structure At (u du : ℝ → ℝ) (x0 x2 e0 : ℝ) where
  R : Rounding
  δ : ℝ
  δ0 : 0 ≤ δ
  small : R.eps + δ ≤ e0
  t : ℝ
  mt : t ∈ Set.Icc x0 x2
  y : R.F
  v : R.F
  dv : R.F
  hv : |v.val - u t| ≤ δ
  hdv : |dv.val - du t| ≤ δ

/-- The right hand side of the linear Thwaites method as it is computed. -/
private theorem rhs_close {u du : ℝ → ℝ} {x0 x2 w U : ℝ} (hw : 0 < w) (hlo : ∀ x ∈ Set.Icc x0 x2, w ≤ 1/1000 + u x) (hU : ∀ x ∈ Set.Icc x0 x2, |u x| ≤ U)
    (hdU : ∀ x ∈ Set.Icc x0 x2, |du x| ≤ U) : ∃ e0 C, 0 < e0 ∧ 0 ≤ C ∧ ∀ (R : Rounding) (δ : ℝ), 0 ≤ δ → R.eps + δ ≤ e0 → ∀ (t : ℝ) (y v dv : R.F), t ∈ Set.Icc x0 x2 →
      |v.val - u t| ≤ δ → |dv.val - du t| ≤ δ →
      |((lit (45/100) - lit 6 * (y * dv)) / (lit (1/1000) + v) : R.F).val - (45/100 / (1/1000 + u t) + -6 * du t / (1/1000 + u t) * y.val)| ≤
        C * (R.eps + δ) * (1 + |y.val|) := by
  have base : ∀ e0, e0 ≤ 1 → Cl (fun i : At u du x0 x2 e0 => i.R.eps + i.δ) (fun i => (lit (1/1000) + i.v : i.R.F).val) (fun i => 1/1000 + u i.t) := fun e0 h01 => by
    have p0 : ∀ i : At u du x0 x2 e0, 0 ≤ i.R.eps + i.δ := fun i => add_nonneg i.R.eps_nonneg i.δ0
    have h1 : ∀ i : At u du x0 x2 e0, i.R.eps + i.δ ≤ 1 := fun i => i.small.trans h01
    have hr : ∀ i : At u du x0 x2 e0, i.R.eps ≤ i.R.eps + i.δ := fun i => le_add_of_nonneg_right i.δ0
    have cv : Cl (fun i : At u du x0 x2 e0 => i.R.eps + i.δ) (fun i => i.v.val) (fun i => u i.t) :=
      ⟨max 1 U, le_max_of_le_left zero_le_one, fun i => ⟨(i.hv.trans (le_add_of_nonneg_left i.R.eps_nonneg)).trans (le_mul_of_one_le_left (p0 i) (le_max_left _ _)),
        (hU _ i.mt).trans (le_max_right _ _)⟩⟩
    have cl : Cl (fun i : At u du x0 x2 e0 => i.R.eps + i.δ) (fun i => i.R.rd ((1/1000 : ℚ) : ℝ)) (fun _ => ((1/1000 : ℚ) : ℝ)) :=
      (Cl.exact p0 (x := fun _ => ((1/1000 : ℚ) : ℝ)) (C := |((1/1000 : ℚ) : ℝ)|) fun _ => le_rfl).rd hr h1
    exact ((cl.add cv).rd hr h1).congr (fun i => rfl) (fun i => by push_cast; ring)
  obtain ⟨Cd, hCd, hd⟩ := base 1 le_rfl
  obtain ⟨e0, he0, he1, hed⟩ : ∃ e0, 0 < e0 ∧ e0 ≤ 1 ∧ Cd * e0 ≤ w / 2 := by
    refine ⟨min 1 (w / 2 / (Cd + 1)), lt_min one_pos (by positivity), min_le_left _ _, ?_⟩
    have h1 : min 1 (w / 2 / (Cd + 1)) ≤ w / 2 / (Cd + 1) := min_le_right _ _
    have h2 : (Cd + 1) * (w / 2 / (Cd + 1)) = w / 2 := by field_simp
    have h3 : 0 < w / 2 / (Cd + 1) := by positivity
    nlinarith
  have p0 : ∀ i : At u du x0 x2 e0, 0 ≤ i.R.eps + i.δ := fun i => add_nonneg i.R.eps_nonneg i.δ0
  have h1 : ∀ i : At u du x0 x2 e0, i.R.eps + i.δ ≤ 1 := fun i => i.small.trans he1
  have hr : ∀ i : At u du x0 x2 e0, i.R.eps ≤ i.R.eps + i.δ := fun i => le_add_of_nonneg_right i.δ0
  have den : ∀ i : At u du x0 x2 e0, w / 2 ≤ (lit (1/1000) + i.v : i.R.F).val := fun i => by
    have q1 := (hd ⟨i.R, i.δ, i.δ0, i.small.trans he1, i.t, i.mt, i.y, i.v, i.dv, i.hv, i.hdv⟩).1
    have q2 : Cd * (i.R.eps + i.δ) ≤ Cd * e0 := mul_le_mul_of_nonneg_left i.small hCd
    have q3 := hlo i.t i.mt
    have q4 := (abs_le.1 q1).1
    linarith
  have cinv := (base e0 he1).inv p0 (w := w / 2) (by positivity) den (fun i => by linarith [hlo i.t i.mt])
  have cdv : Cl (fun i : At u du x0 x2 e0 => i.R.eps + i.δ) (fun i => i.dv.val) (fun i => du i.t) :=
    ⟨max 1 U, le_max_of_le_left zero_le_one, fun i => ⟨(i.hdv.trans (le_add_of_nonneg_left i.R.eps_nonneg)).trans (le_mul_of_one_le_left (p0 i) (le_max_left _ _)),
      (hdU _ i.mt).trans (le_max_right _ _)⟩⟩
  obtain ⟨θ0, -, g0, f0⟩ := Cl.factor (R := fun i : At u du x0 x2 e0 => i.R) hr (fun _ => (45/100 : ℝ))
  obtain ⟨θ1, -, g1, f1⟩ := Cl.factor (R := fun i : At u du x0 x2 e0 => i.R) hr (fun i => i.y.val * i.dv.val)
  obtain ⟨θ2, -, g2, f2⟩ := Cl.factor (R := fun i : At u du x0 x2 e0 => i.R) hr (fun i => 6 * i.R.rd (i.y.val * i.dv.val))
  obtain ⟨θ3, -, g3, f3⟩ := Cl.factor (R := fun i : At u du x0 x2 e0 => i.R) hr (fun i => i.R.rd (45/100) - i.R.rd (6 * i.R.rd (i.y.val * i.dv.val)))
  obtain ⟨θ4, -, g4, f4⟩ := Cl.factor (R := fun i : At u du x0 x2 e0 => i.R) hr
    (fun i => i.R.rd (i.R.rd (45/100) - i.R.rd (6 * i.R.rd (i.y.val * i.dv.val))) / (lit (1/1000) + i.v : i.R.F).val)
  have ct : Cl (fun i : At u du x0 x2 e0 => i.R.eps + i.δ) (fun i => (1 + θ3 i) * (lit (1/1000) + i.v : i.R.F).val⁻¹ * (1 + θ4 i)) (fun i => (1/1000 + u i.t)⁻¹) :=
    ((f3.mul h1 cinv).mul h1 f4).congr (fun _ => rfl) (fun i => by ring)
  have cA := (((Cl.exact p0 (x := fun _ => (45/100:ℝ)) (C := |(45/100:ℝ)|) fun _ => le_rfl)).mul h1 f0).mul h1 ct
  have cB := (((((Cl.exact p0 (x := fun _ => (-6:ℝ)) (C := |(-6:ℝ)|) fun _ => le_rfl)).mul h1 cdv).mul h1 f1).mul h1 f2).mul h1 ct
  obtain ⟨CA, hCA, hA⟩ := cA
  obtain ⟨CB, hCB, hB⟩ := cB
  refine ⟨e0, max CA CB, he0, le_max_of_le_left hCA, fun R δ hδ hsm t y v dv mt hv hdv => ?_⟩
  obtain ⟨i, ei⟩ : ∃ i : At u du x0 x2 e0, i = ⟨R, δ, hδ, hsm, t, mt, y, v, dv, hv, hdv⟩ := ⟨_, rfl⟩
  have a1 := (hA i).1
  have b1 := (hB i).1
  have val : (((lit (45/100) - lit 6 * (i.y * i.dv)) / (lit (1/1000) + i.v) : i.R.F)).val =
      45/100 * (1 + θ0 i) * ((1 + θ3 i) * (lit (1/1000) + i.v : i.R.F).val⁻¹ * (1 + θ4 i)) +
        -6 * i.dv.val * (1 + θ1 i) * (1 + θ2 i) * ((1 + θ3 i) * (lit (1/1000) + i.v : i.R.F).val⁻¹ * (1 + θ4 i)) * i.y.val := by
    have six : (lit 6 : i.R.F).val = 6 := by
      have := Rounding.val_int (R := i.R) 6 (by norm_num)
      simpa using this
    have l45 : (lit (45/100) : i.R.F).val = i.R.rd (45/100) := by rw [Rounding.val_lit]; push_cast; rfl
    rw [Rounding.val_div, Rounding.val_sub, Rounding.val_mul, Rounding.val_mul, six, l45, g4, g3, g2, g1, g0, div_eq_mul_inv]
    ring
  subst ei
  rw [val]
  simp only at a1 b1 ⊢
  generalize 45/100 * (1 + θ0 _) * _ = A at a1 ⊢
  generalize -6 * dv.val * _ * _ * _ = B at b1 ⊢
  have e : A + B * y.val - (45/100 / (1/1000 + u t) + -6 * du t / (1/1000 + u t) * y.val) =
      (A - 45/100 * 1 * (1/1000 + u t)⁻¹) + (B - -6 * du t * 1 * 1 * (1/1000 + u t)⁻¹) * y.val := by ring
  rw [e]
  refine (abs_add_le _ _).trans ?_
  rw [abs_mul]
  have pe : 0 ≤ R.eps + δ := add_nonneg R.eps_nonneg hδ
  have q1 := a1.trans (mul_le_mul_of_nonneg_right (le_max_left CA CB) pe)
  have q2 := mul_le_mul_of_nonneg_right (b1.trans (mul_le_mul_of_nonneg_right (le_max_right CA CB) pe)) (abs_nonneg y.val)
  linarith

private structure Begin (nu d0 : ℝ) where
  R : Rounding
  δ : ℝ
  δ0 : 0 ≤ δ
  small : δ ≤ 1/2
  d : R.F
  hd : |d.val - d0| ≤ δ

/-- The start value as it is computed. -/
private theorem start_close (nu d0 : ℝ) : ∃ C, 0 ≤ C ∧ ∀ (R : Rounding) (δ : ℝ) (d n : R.F), 0 ≤ δ → δ ≤ 1/2 → |d.val - d0| ≤ δ → n.val = nu →
    |(d * d / n).val - d0 * d0 / nu| ≤ C * (R.eps + δ) := by
  have p0 : ∀ i : Begin nu d0, 0 ≤ i.R.eps + i.δ := fun i => add_nonneg i.R.eps_nonneg i.δ0
  have h1 : ∀ i : Begin nu d0, i.R.eps + i.δ ≤ 1 := fun i => by linarith [i.R.small, i.small]
  have hr : ∀ i : Begin nu d0, i.R.eps ≤ i.R.eps + i.δ := fun i => le_add_of_nonneg_right i.δ0
  have cd : Cl (fun i : Begin nu d0 => i.R.eps + i.δ) (fun i => i.d.val) (fun _ => d0) :=
    ⟨max 1 |d0|, le_max_of_le_left zero_le_one, fun i => ⟨(i.hd.trans (le_add_of_nonneg_left i.R.eps_nonneg)).trans (le_mul_of_one_le_left (p0 i) (le_max_left _ _)), le_max_right _ _⟩⟩
  have cn : Cl (fun i : Begin nu d0 => i.R.eps + i.δ) (fun _ => nu⁻¹) (fun _ => nu⁻¹) := Cl.exact p0 (C := |nu⁻¹|) fun _ => le_rfl
  obtain ⟨C, hC, h⟩ := (((cd.mul h1 cd).rd hr h1).mul h1 cn).rd (R := fun i => i.R) hr h1
  refine ⟨C, hC, fun R δ d n hδ hs hd hn => ?_⟩
  have := (h ⟨R, δ, hδ, hs, d, hd⟩).1
  rw [Rounding.val_div, Rounding.val_mul, hn, div_eq_mul_inv, div_eq_mul_inv]
  exact this

/-! ### The stored solution -/

/-- At most `n` steps begin at `e` or before, and none of these is longer than `h`. -/
def FewShortSteps (n : ℕ) (h e : ℝ) (x0 : R.F) (l : List (Step R.F)) : Prop :=
  ∀ pre s post, l = pre ++ s :: post → (lastPt (x0, []) pre).1.val ≤ e → s.t.val - (lastPt (x0, []) pre).1.val ≤ h ∧ pre.length < n

private theorem lastPt_state {t : R.F} {y z : List R.F} : ∀ l : List (Step R.F), (lastPt (t, y) l).1 = (lastPt (t, z) l).1
  | [] => rfl
  | _ :: _ => rfl

private theorem lastPt_append {a : R.F × List R.F} {s : Step R.F} : ∀ pre : List (Step R.F), lastPt a (pre ++ [s]) = s.pt
  | [] => rfl
  | q :: pre => lastPt_append (a := q.pt) pre

private theorem chain_up {g : R.F → R.F → R.F} {x1 : ℝ} : ∀ {l : List (Step R.F)} {t y f : R.F} {z : List R.F}, Chain g x1 t y f l →
    (∀ pre post, l = pre ++ post → (lastPt (t, z) pre).1.val ≤ (lastPt (t, z) l).1.val) ∧ t.val ≤ (lastPt (t, z) l).1.val
  | [], t, _, _, z, _ => ⟨fun pre post h => by
      obtain ⟨rfl, -⟩ := List.append_eq_nil_iff.1 h.symm
      exact le_rfl, le_rfl⟩
  | s :: l, t, y, f, z, ⟨h1, h2, h3, h4, h5⟩ => by
    obtain ⟨i1, i2⟩ := chain_up (z := s.y) h5
    refine ⟨fun pre post h => ?_, h1.le.trans i2⟩
    rcases pre with _ | ⟨q, pre⟩
    · exact h1.le.trans i2
    · simp only [List.cons_append, List.cons.injEq] at h
      obtain ⟨rfl, h⟩ := h
      exact i1 pre post h

private theorem chain_take {g : R.F → R.F → R.F} {x1 : ℝ} : ∀ {l l' : List (Step R.F)} {t y f : R.F}, Chain g x1 t y f (l ++ l') → Chain g x1 t y f l
  | [], _, _, _, _, _ => trivial
  | _ :: _, _, _, _, _, ⟨h1, h2, h3, h4, h5⟩ => ⟨h1, h2, h3, h4, chain_take h5⟩

private theorem chain_mono {g : R.F → R.F → R.F} {x1 x1' : ℝ} (hx : x1 ≤ x1') : ∀ {l : List (Step R.F)} {t y f : R.F}, Chain g x1 t y f l → Chain g x1' t y f l
  | [], _, _, _, _ => trivial
  | _ :: _, _, _, _, ⟨h1, h2, h3, h4, h5⟩ => ⟨h1, h2.trans hx, h3, h4, chain_mono hx h5⟩

private theorem chain_end {g : R.F → R.F → R.F} {x1 : ℝ} : ∀ {l : List (Step R.F)} {t y f : R.F} {z : List R.F}, t.val ≤ x1 → Chain g x1 t y f l → (lastPt (t, z) l).1.val ≤ x1
  | [], _, _, _, _, h, _ => h
  | s :: _, _, _, _, _, _, ⟨_, h2, _, _, h5⟩ => chain_end (z := s.y) h2 h5

private theorem short_of {h : ℝ} : ∀ (l : List (Step R.F)) (t : R.F), (∀ pre s post, l = pre ++ s :: post → s.t.val - (lastPt (t, []) pre).1.val ≤ h) → Short h t.val l
  | [], _, _ => trivial
  | s :: l, t, H => ⟨H [] s l rfl, short_of l s.t fun pre q post e => by
      have := H (s :: pre) q post (by rw [e]; rfl)
      rwa [show (lastPt (t, []) (s :: pre)).1 = (lastPt (s.t, []) pre).1 from lastPt_state pre] at this⟩

private theorem near_dense {Y : ℝ → ℝ} {e : ℝ} : ∀ {l : List (Step R.F)} {t : R.F} {z : List R.F}, Near' Y e t.val l → l ≠ [] → ∀ x : R.F, t.val ≤ x.val →
    x.val ≤ (lastPt (t, z) l).1.val → ∃ v : R.F, denseAt true l x = [v] ∧ |v.val - Y x.val| ≤ e
  | [], _, _, _, h, _, _, _ => absurd rfl h
  | [s], _, _, ⟨_, _, h3, _⟩, _, x, x1, x2 => h3 x x1 x2
  | s :: s' :: l, t, z, ⟨h1, h2, h3, h4⟩, _, x, x1, x2 => by
    unfold denseAt
    by_cases hx : x.val ≤ s.t.val
    · rw [(Rounding.F_le _ _).2 hx]
      exact h3 x x1 hx
    · have : PyCmp.le x s.t = false := by rw [← Bool.not_eq_true, Rounding.F_le]; exact hx
      rw [this]
      exact near_dense (z := s.y) h4 (by simp) x (not_le.1 hx).le x2

private theorem linear_start_F [PyPow R.F] {o o' : Obj R.F} {X0 X1 d0 : R.F} {te : TermArg R.F} {p : IvpProblem R.F} (hp : o.prepare X0 X1 te = (o', .ok p))
    (hc : o.cls = .thwaitesLinear) (hnu : o.nu.val ≠ 0) (hd : o'.ic.deltaM = .ok d0) :
    p.rhs = o'.rhs ∧ o'.cls = o.cls ∧ o'.vel = o.vel ∧ o'.nu = o.nu ∧ p.x0 = X0 ∧ p.x1 = X1 ∧ p.y0 = [d0 * d0 / o.nu] := by
  unfold Obj.prepare at hp
  split at hp
  · cases hp
  · simp only at hp
    split at hp
    · cases hp
    · split at hp
      · cases hp
      · next y0 hy =>
        cases hp
        refine ⟨rfl, rfl, rfl, rfl, rfl, rfl, ?_⟩
        simp only [Obj.startVector, hc, hd, pyDiv, bind, Except.bind, pure, Except.pure] at hy
        rw [if_neg (by rw [Rounding.F_eq, Rounding.val_zero]; exact hnu)] at hy
        exact (Except.ok.inj hy).symm

private theorem nice_of_smooth {f : ℝ → ℝ} {x0 x2 : ℝ} (hx : x0 < x2) (hf : ContDiffOn ℝ 5 f (Set.Icc x0 x2)) : ∃ B D, Nice f x0 x2 B D := by
  obtain ⟨B, hB⟩ := isCompact_Icc.exists_bound_of_continuousOn hf.continuousOn
  obtain ⟨D, hD⟩ := isCompact_Icc.exists_bound_of_continuousOn (hf.continuousOn_derivWithin (uniqueDiffOn_Icc hx) (by norm_num))
  have hD0 : 0 ≤ D := (_root_.norm_nonneg _).trans (hD x0 ⟨le_rfl, hx.le⟩)
  refine ⟨B, D, hD0, hB, fun s hs s' hs' => ?_⟩
  exact (convex_Icc x0 x2).norm_image_sub_le_of_norm_derivWithin_le (hf.differentiableOn (by norm_num)) hD hs' hs

private theorem nice_weaken {f : ℝ → ℝ} {x0 x2 B D B' D' : ℝ} (h : Nice f x0 x2 B D) (hB : B ≤ B') (hD : D ≤ D') : Nice f x0 x2 B' D' :=
  ⟨h.hD.trans hD, fun s hs => (h.bound s hs).trans hB, fun s hs s' hs' => (h.lip s hs s' hs').trans (mul_le_mul_of_nonneg_right hD (abs_nonneg _))⟩

/-! ### C140 -/

/-- The velocity and its derivative as an object computes them are within `δ` of the functions `u` and `du` on an interval. -/
def ComputesWithin (δ : ℝ) (o : Obj R.F) (u du : ℝ → ℝ) (x0 x2 : ℝ) : Prop :=
  ∀ t : R.F, t.val ∈ Set.Icc x0 x2 → (∃ v, o.vel.uE t = .ok v ∧ |v.val - u t.val| ≤ δ) ∧ ∃ v, o.vel.duE t = .ok v ∧ |v.val - du t.val| ≤ δ

set_option maxHeartbeats 1000000 in
/-- **C140**: for every flow that is six times continuously differentiable up to a point behind `x1`, every viscosity and every start thickness there
is a constant `K` such that for every arithmetic with rounding, every successful `solve` of the linear Thwaites method with RK45 in that
arithmetic to `x1` or an earlier end, whatever the termination event, the root finder, the spacing of the numbers and the power function that the step size control uses:
the momentum thickness reported anywhere between the start and the reported end differs from Thwaites' integral by at most
`K (h ^ 5 + n eps + δ)`, where at most `n` steps were taken on the way to that end, none longer than `h`, the relative error of an
operation is at most `eps`, and the velocities and the start thickness are computed with an error of at most `δ`; provided this bound
is at most 1. -/
theorem rk45_rounded {u du : ℝ → ℝ} {x0 x1 x2 nu d0 : ℝ} (hu : ∀ x, HasDerivAt u (du x) x) (hu6 : ContDiffOn ℝ 6 u (Set.Icc x0 x2))
    (hu0 : ∀ x ∈ Set.Icc x0 x2, -(1/1000) < u x) (hx : x0 < x1) (h12 : x1 < x2) (hnu : 0 < nu) (hd0 : 0 < d0) :
    ∃ K, 0 < K ∧ ∀ (R : Rounding) [PyPow R.F] (o o' o'' : Obj R.F) (X0 X1 dm : R.F) (te : TermArg R.F) (gap : R.F → R.F → R.F) (stepper : Stepper R.F)
      (root : RootFinder R.F) (p : IvpProblem R.F) (r : IntegrationResult R.F) (δ h : ℝ) (n : ℕ),
      o.cls = .thwaitesLinear → o.nu.val = nu → X0.val = x0 → x0 < X1.val → X1.val ≤ x1 → ComputesWithin δ o u du x0 x2 → Advances gap x0 X1.val →
      Runs gap p (stepper p) → (∀ g a b x, root g a b = .ok x → x.val ∈ Set.uIcc a.val b.val) → o.prepare X0 X1 te = (o', .ok p) →
      o'.ic.deltaM = .ok dm → |dm.val - d0| ≤ δ → o.solve X0 X1 te (ivp o.eventValue stepper root) = (o'', .ok r) → r.success = true →
      FewShortSteps n h r.xEnd.val X0 (stepper p).steps → K * (h ^ 5 + n * R.eps + δ) ≤ 1 →
      ∀ x : R.F, x0 ≤ x.val → x.val ≤ r.xEnd.val →
        ∃ d, o''.deltaM x = .ok d ∧ |d.val - thwaitesTheta nu u x0 d0 x.val| ≤ K * (h ^ 5 + n * R.eps + δ) := by
  have hx2 : x0 < x2 := hx.trans h12
  -- the exact solution
  obtain ⟨F, hF0, hF, hFi⟩ := thwaites_linear_exists ⟨.thwaitesLinear, nu, ⟨some (.fn fun x => .ok (u x)), some (.fn fun x => .ok (du x)), none⟩,
    .manual 0 nu 0 d0 0, [], none, none⟩ u du x0 x2 (d0 * d0 / nu) rfl (fun _ => rfl) (fun _ => rfl) hu hu0 hx2.le
  obtain ⟨a, ea⟩ : ∃ a : ℝ → ℝ, ∀ x, a x = 45/100 / (1/1000 + u x) := ⟨_, fun _ => rfl⟩
  obtain ⟨b, eb⟩ : ∃ b : ℝ → ℝ, ∀ x, b x = -6 * du x / (1/1000 + u x) := ⟨_, fun _ => rfl⟩
  have hden : ∀ x ∈ Set.Icc x0 x2, 1/1000 + u x ≠ 0 := fun x hx' => by linarith [hu0 x hx']
  have ode : ∀ x ∈ Set.Icc x0 x2, HasDerivWithinAt F (a x + b x * F x) (Set.Icc x0 x2) x := fun x hx' => by
    obtain ⟨r, h1, h2⟩ := hF x hx'
    have h3 := hden x hx'
    have : a x + b x * F x = r := by
      simp only [Obj.rhs, Obj.thwaitesRhs, Obj.calcF, Obj.calcLambda, bind, Except.bind, pure, Except.pure, real_lit] at h1
      rw [ea, eb]
      have h4 := List.cons.inj (Except.ok.inj h1)
      rw [← h4.1]
      push_cast
      field_simp
      ring
    rw [this]; exact h2.hasDerivWithinAt
  have hu5 : ContDiffOn ℝ 5 u (Set.Icc x0 x2) := hu6.of_le (by norm_num)
  have hdu5 : ContDiffOn ℝ 5 du (Set.Icc x0 x2) := by
    have := (contDiffOn_succ_iff_derivWithin (n := 5) (uniqueDiffOn_Icc hx2)).1 (by rw [show (5 + 1 : WithTop ℕ∞) = 6 by norm_num]; exact hu6)
    exact this.2.2.congr fun x hx' => ((hu x).hasDerivWithinAt.derivWithin (uniqueDiffOn_Icc hx2 x hx')).symm
  have ha5 : ContDiffOn ℝ 5 a (Set.Icc x0 x2) := (contDiffOn_const.div (contDiffOn_const.add hu5) hden).congr fun x _ => ea x
  have hb5 : ContDiffOn ℝ 5 b (Set.Icc x0 x2) := ((contDiffOn_const.mul hdu5).div (contDiffOn_const.add hu5) hden).congr fun x _ => eb x
  obtain ⟨a1, a2, a3, a4, exa⟩ := Ex.of_contDiffOn hx2 ha5
  obtain ⟨b1, b2, b3, b4, exb⟩ := Ex.of_contDiffOn hx2 hb5
  obtain ⟨M, hM0, hM⟩ := local_error exa exb ode
  obtain ⟨L, hL0, hL⟩ := slopes_lipschitz (a := a) exb.bd
  have dom : ∀ {t h}, Dom x0 x1 t h → Dom x0 x2 t h := fun d => ⟨d.1, d.2.1, d.2.2.trans h12.le⟩
  obtain ⟨Ba, Da, na⟩ := nice_of_smooth hx2 ha5
  obtain ⟨Bb, Db, nb⟩ := nice_of_smooth hx2 hb5
  have hFc : ContinuousOn F (Set.Icc x0 x2) := fun x hx' => (ode x hx').continuousWithinAt
  obtain ⟨V, hV⟩ := isCompact_Icc.exists_bound_of_continuousOn hFc
  have hV' : ∀ x ∈ Set.Icc x0 x1, |F x| ≤ V := fun x hx' => hV x ⟨hx'.1, hx'.2.trans h12.le⟩
  have hV0 : 0 ≤ V := (abs_nonneg _).trans (hV' x0 ⟨le_rfl, hx.le⟩)
  obtain ⟨K0, hK0, near⟩ := affine_near (Y := F) hx h12 (nice_weaken na (le_max_left Ba Bb) (le_max_left Da Db)) (nice_weaken nb (le_max_right Ba Bb) (le_max_right Da Db)) hV' hM0 hL0
    (fun t h d => hM t h (dom d)) (fun t h y z d => hL t h y z (dom d))
  -- the exact solution stays away from zero
  have hpos : ∀ x ∈ Set.Icc x0 x2, 0 < F x := fun x hx' => by
    have h1 := hFi x hx'
    have h2 : 0 < u x + 1/1000 := by linarith [hu0 x hx']
    have h3 : 0 < u x0 + 1/1000 := by linarith [hu0 x0 ⟨le_refl _, hx2.le⟩]
    have h4 : 0 ≤ ∫ t in x0..x, (u t + 1/1000) ^ 5 := intervalIntegral.integral_nonneg hx'.1 fun t ht =>
      pow_nonneg (by linarith [hu0 t ⟨ht.1, ht.2.trans hx'.2⟩]) 5
    have h5 : 0 < F x * (u x + 1/1000) ^ 6 := by rw [h1]; positivity
    exact pos_of_mul_pos_left h5 (pow_pos h2 6).le
  obtain ⟨z, hz, hmin⟩ := isCompact_Icc.exists_isMinOn (Set.nonempty_Icc.2 hx2.le) hFc
  have hz0 := hpos z hz
  -- the velocities
  obtain ⟨zu, hzu, hminu⟩ := isCompact_Icc.exists_isMinOn (Set.nonempty_Icc.2 hx2.le) hu6.continuousOn
  obtain ⟨U1, hU1⟩ := isCompact_Icc.exists_bound_of_continuousOn hu6.continuousOn
  obtain ⟨U2, hU2⟩ := isCompact_Icc.exists_bound_of_continuousOn hdu5.continuousOn
  obtain ⟨e1, C1, he1, hC1, rc⟩ := rhs_close (u := u) (du := du) (x0 := x0) (x2 := x2) (w := 1/1000 + u zu) (U := max U1 U2) (by linarith [hu0 zu hzu])
    (fun x hx' => by linarith [isMinOn_iff.1 hminu x hx']) (fun x hx' => (hU1 x hx').trans (le_max_left _ _)) (fun x hx' => (hU2 x hx').trans (le_max_right _ _))
  obtain ⟨C2, hC2, sc⟩ := start_close nu d0
  -- the constants
  have sq : 0 < Real.sqrt (F z * nu) := Real.sqrt_pos.2 (mul_pos hz0 hnu)
  obtain ⟨K1, eK1⟩ : ∃ K1, K1 = K0 * (1 + C1 + C2) := ⟨_, rfl⟩
  have hK1 : 0 ≤ K1 := by rw [eK1]; positivity
  obtain ⟨Q, eQ⟩ : ∃ Q, Q = (nu * K1 + (V + 1) * nu) / Real.sqrt (F z * nu) := ⟨_, rfl⟩
  have hQ : 0 ≤ Q := by rw [eQ]; positivity
  have hVn : 0 ≤ Real.sqrt (V * nu) := Real.sqrt_nonneg _
  have e1' : 0 < e1⁻¹ := inv_pos.2 he1
  refine ⟨K1 + 2 * Q + Real.sqrt (V * nu) + e1⁻¹ + 2, by positivity, ?_⟩
  intro R _ o o' o'' X0 X1 dm te gap stepper root p r δ h n hc hon hX0 hX01 hX1 hvel hg hst hroot hp hd hdm hs hok few hK x x0' x1'
  obtain ⟨p1, p2, p3, p4, p5, p6, p7⟩ := linear_start_F hp hc (by rw [hon]; exact hnu.ne') hd
  have hδ : 0 ≤ δ := (abs_nonneg _).trans hdm
  obtain ⟨ch, hreach⟩ := runs_chain (by rw [p5, p6, hX0]; exact hg) (by rw [p5, p6, hX0]; exact hX01) p7 hst
  rw [p5, p6] at ch
  replace ch := chain_mono hX1 ch
  obtain ⟨used, rest, u1, u2, -, u4⟩ := solve_stores o.eventValue stepper root hp hs hok
  have chu := chain_take (u1 ▸ ch)
  have hne : used ≠ [] := by
    intro h0
    rcases u4 with ⟨hr, -⟩ | ⟨pre, s, e, e', -⟩
    · rw [hr, List.append_nil, h0] at u1
      have hnr : (stepper p).ending ≠ .reached := fun h => hreach h u1
      unfold Obj.solve at hs
      rw [hp] at hs
      simp only [ivp, u1, loop] at hs
      split at hs
      · cases hs
      · next sol hsol =>
        split at hsol
        · cases hsol
        · rcases he : (stepper p).ending with _ | msg | ex
          · exact hnr he
          · rw [he] at hsol
            simp only [Except.ok.injEq] at hsol
            subst hsol
            simp [evalResult] at hs
            rw [← hs.2] at hok
            cases hok
          · rw [he] at hsol; cases hsol
    · rw [h0] at e'
      simp at e'
  -- the reported end
  obtain ⟨ends, starts⟩ : r.xEnd.val ≤ (lastPt (X0, []) used).1.val ∧ ∀ pr st po, used = pr ++ st :: po → (lastPt (X0, []) pr).1.val ≤ r.xEnd.val := by
    rcases u4 with ⟨-, h1⟩ | ⟨pre, s, e, rfl, h1⟩
    · rw [h1, lastPt_state (z := [])]
      exact ⟨le_rfl, fun pr st po h => (chain_up chu).1 pr (st :: po) h⟩
    · have h2 := hroot _ _ _ _ h1
      have h3 := (chain_up (z := []) chu).1 pre [s] rfl
      rw [lastPt_append] at h3 ⊢
      rw [lastPt_state (z := []), Set.uIcc_of_le (show _ ≤ s.t.val from h3)] at h2
      refine ⟨h2.2, fun pr st po h => ?_⟩
      obtain ⟨q, s', hq⟩ := (List.eq_nil_or_concat' (st :: po)).resolve_left (by simp)
      rw [hq, ← List.append_assoc] at h
      have h4 := (List.append_inj' h rfl).1
      exact ((chain_up (z := []) (chain_take chu)).1 pr q h4).trans h2.1
  have fewu : ∀ pr st po, used = pr ++ st :: po → st.t.val - (lastPt (X0, []) pr).1.val ≤ h ∧ pr.length < n := fun pr st po e =>
    few pr st (po ++ rest) (by rw [u1, e, List.append_assoc, List.cons_append]) (starts pr st po e)
  have shu : Short h x0 used := by
    rw [← hX0]; exact short_of used X0 fun pr st po e => (fewu pr st po e).1
  have lenu : used.length ≤ n := by
    obtain ⟨q, s', hq⟩ := (List.eq_nil_or_concat' used).resolve_left hne
    have := (fewu q s' [] hq).2
    rw [hq, List.length_append]
    simpa using this
  have n1 : (1:ℝ) ≤ n := by
    have : 0 < used.length := List.length_pos_iff.2 hne
    have : 1 ≤ n := by omega
    exact_mod_cast this
  have h0 : 0 ≤ h := by
    rcases used with _ | ⟨st, l⟩
    · exact absurd rfl hne
    · have q1 := chu.1
      have q2 := shu.1
      rw [hX0] at q1
      linarith
  have h5 : 0 ≤ h ^ 5 := pow_nonneg h0 5
  have ep := R.eps_nonneg
  have en : R.eps ≤ n * R.eps := le_mul_of_one_le_left ep n1
  obtain ⟨S, eS⟩ : ∃ S, S = h ^ 5 + n * R.eps + δ := ⟨_, rfl⟩
  rw [← eS] at hK ⊢
  have S0 : 0 ≤ S := by rw [eS]; linarith
  have eS' : R.eps + δ ≤ S := by rw [eS]; linarith
  have split : (K1 + 2 * Q + Real.sqrt (V * nu) + e1⁻¹ + 2) * S = K1 * S + 2 * (Q * S) + Real.sqrt (V * nu) * S + e1⁻¹ * S + 2 * S := by ring
  have j1 : 0 ≤ K1 * S := mul_nonneg hK1 S0
  have j2 : 0 ≤ Q * S := mul_nonneg hQ S0
  have j3 : 0 ≤ Real.sqrt (V * nu) * S := mul_nonneg hVn S0
  have j4 : 0 ≤ e1⁻¹ * S := mul_nonneg e1'.le S0
  have Se1 : S ≤ e1 := by
    have := mul_le_mul_of_nonneg_left (show e1⁻¹ * S ≤ 1 by linarith) he1.le
    rwa [← mul_assoc, mul_inv_cancel₀ he1.ne', one_mul, mul_one] at this
  -- the computed right hand side
  have close : ∀ s w : R.F, s.val ∈ Set.Icc x0 x2 → |(single p.rhs s w).val - (a s.val + b s.val * w.val)| ≤ C1 * (R.eps + δ) * (1 + |w.val|) := fun s w hsw => by
    obtain ⟨⟨v, hv, hv'⟩, dv, hdv, hdv'⟩ := hvel s hsw
    have : single p.rhs s w = (lit (45/100) - lit 6 * (w * dv)) / (lit (1/1000) + v) := by
      simp only [single, p1, Obj.rhs, p2, hc, Obj.thwaitesRhs, Obj.calcF, Obj.calcLambda, p3, hv, hdv, bind, Except.bind, pure, Except.pure]
    rw [this, ea, eb]
    exact rc R δ hδ (eS'.trans Se1) s.val w v dv hsw hv' hdv'
  have start := sc R δ dm o.nu hδ (by linarith) hdm hon
  have pe : 0 ≤ R.eps + δ := add_nonneg ep hδ
  have total : K0 * (h ^ 5 + n * R.eps + C1 * (R.eps + δ) + C2 * (R.eps + δ)) ≤ K1 * S := by
    rw [eK1, mul_assoc]
    refine mul_le_mul_of_nonneg_left ?_ hK0
    have q1 := mul_le_mul_of_nonneg_left eS' hC1
    have q2 := mul_le_mul_of_nonneg_left eS' hC2
    have q3 : h ^ 5 + n * R.eps ≤ S := by rw [eS]; linarith
    linarith
  have N := near R (single p.rhs) (C1 * (R.eps + δ)) (C2 * (R.eps + δ)) h n X0 _ used (mul_nonneg hC1 pe) (mul_nonneg hC2 pe) hX0 close chu shu lenu
    (by rw [hF0]; exact start) (by linarith)
  rw [← hX0] at N
  obtain ⟨v, hv, hvF⟩ := near_dense (z := []) N hne x (by rw [hX0]; exact x0') (x1'.trans ends)
  replace hvF := hvF.trans total
  have hasc : ascending X0 [r.xEnd] = true := by
    show PyCmp.ge r.xEnd X0 = true
    rw [Rounding.F_ge, hX0]; exact x0'.trans x1'
  have hdmq : o''.deltaM x = .ok (PySqrt.sqrt (v * o.nu)) := by
    rw [u2, hasc]
    simp only [Obj.deltaM, p2, hc, Obj.comp, Obj.state, hv, p4, bind, Except.bind, pure, Except.pure, List.getElem?_cons_zero]
  refine ⟨_, hdmq, ?_⟩
  have hmx : x.val ∈ Set.Icc x0 x2 := ⟨x0', (x1'.trans (ends.trans (chain_end (by rw [hX0]; exact hx.le) chu))).trans h12.le⟩
  have hth : thwaitesTheta nu u x0 d0 x.val = Real.sqrt (F x.val * nu) := by
    have h2 : (u x.val + 1/1000) ≠ 0 := by linarith [hu0 x.val hmx]
    unfold thwaitesTheta
    congr 1
    rw [div_eq_iff (pow_ne_zero 6 h2)]
    have := hFi x.val hmx
    rw [show F x.val * nu * (u x.val + 1/1000) ^ 6 = nu * (F x.val * (u x.val + 1/1000) ^ 6) by ring, this]
    field_simp
  rw [hth, Rounding.val_sqrt, Rounding.val_mul, hon]
  have hFV : |F x.val| ≤ V := hV x.val hmx
  have vV : |v.val| ≤ V + 1 := by
    have q := abs_add_le (v.val - F x.val) (F x.val)
    rw [sub_add_cancel] at q
    linarith
  have P1 : |R.rd (v.val * nu) - F x.val * nu| ≤ (nu * K1 + (V + 1) * nu) * S := by
    have q1 := R.rel (v.val * nu)
    rw [abs_mul, abs_of_pos hnu] at q1
    have q2 : R.eps * (|v.val| * nu) ≤ S * ((V + 1) * nu) := mul_le_mul (by linarith) (mul_le_mul_of_nonneg_right vV hnu.le) (by positivity) S0
    have q3 : |v.val * nu - F x.val * nu| ≤ nu * (K1 * S) := by
      rw [← sub_mul, abs_mul, abs_of_pos hnu, mul_comm]
      exact mul_le_mul_of_nonneg_left hvF hnu.le
    have q4 := abs_sub_le (R.rd (v.val * nu)) (v.val * nu) (F x.val * nu)
    linarith
  have P2 : |Real.sqrt (R.rd (v.val * nu)) - Real.sqrt (F x.val * nu)| ≤ Q * S := by
    refine (sqrt_close (mul_pos hz0 hnu) (mul_le_mul_of_nonneg_right (hmin hmx) hnu.le) P1).trans (le_of_eq ?_)
    rw [eQ]; ring
  have P3 : Real.sqrt (F x.val * nu) ≤ Real.sqrt (V * nu) := Real.sqrt_le_sqrt (mul_le_mul_of_nonneg_right ((le_abs_self _).trans hFV) hnu.le)
  have P4 := R.rel (Real.sqrt (R.rd (v.val * nu)))
  rw [abs_of_nonneg (Real.sqrt_nonneg _)] at P4
  have P5 : R.eps * Real.sqrt (R.rd (v.val * nu)) ≤ Real.sqrt (V * nu) * S + Q * S := by
    have q1 : Real.sqrt (R.rd (v.val * nu)) ≤ Real.sqrt (V * nu) + Q * S := by linarith [(abs_le.1 P2).2]
    have q2 := mul_le_mul_of_nonneg_left q1 ep
    have q3 : R.eps * Real.sqrt (V * nu) ≤ S * Real.sqrt (V * nu) := mul_le_mul_of_nonneg_right (by linarith) hVn
    have q4 : R.eps * (Q * S) ≤ 1 * (Q * S) := mul_le_mul_of_nonneg_right (by linarith [R.small]) j2
    linarith
  have P6 := abs_sub_le (R.rd (Real.sqrt (R.rd (v.val * nu)))) (Real.sqrt (R.rd (v.val * nu))) (Real.sqrt (F x.val * nu))
  linarith

end IBL
