import Verif.Lemmas.RkAffine
import Verif.Model.RungeKutta
import Verif.Round

/-!
A step of RK45 in rounded arithmetic on an equation `y' = a(t) + b(t) y` whose right hand side is computed with errors: how far it is from the
exact step of Dormand and Prince. Constants are not written out; they are the same for all roundings, steps and states in question.
-/

set_option linter.unusedSectionVars false

namespace IBL.RkRound
open RungeKutta RkAffine Expansion

/-! ### Computed quantities that are close to exact ones -/

/-- The quantities `x` are within a multiple of `e` of the bounded quantities `x'`, with the same multiple for all members of the family. -/
def Cl {ι : Type} (e : ι → ℝ) (x x' : ι → ℝ) : Prop := ∃ C, 0 ≤ C ∧ ∀ i, |x i - x' i| ≤ C * e i ∧ |x' i| ≤ C

section
variable {ι : Type} {e x x' y y' : ι → ℝ}

theorem Cl.add (h : Cl e x x') (k : Cl e y y') : Cl e (fun i => x i + y i) (fun i => x' i + y' i) := by
  obtain ⟨C, hC, h⟩ := h
  obtain ⟨D, hD, k⟩ := k
  refine ⟨C + D, by positivity, fun i => ⟨?_, (abs_add_le _ _).trans (add_le_add (h i).2 (k i).2)⟩⟩
  rw [show x i + y i - (x' i + y' i) = (x i - x' i) + (y i - y' i) by ring, add_mul]
  exact (abs_add_le _ _).trans (add_le_add (h i).1 (k i).1)

theorem Cl.neg (h : Cl e x x') : Cl e (fun i => -x i) (fun i => -x' i) := by
  obtain ⟨C, hC, h⟩ := h
  refine ⟨C, hC, fun i => ⟨?_, by rw [abs_neg]; exact (h i).2⟩⟩
  rw [show -x i - -x' i = -(x i - x' i) by ring, abs_neg]
  exact (h i).1

theorem Cl.mul (h1 : ∀ i, e i ≤ 1) (h : Cl e x x') (k : Cl e y y') : Cl e (fun i => x i * y i) (fun i => x' i * y' i) := by
  obtain ⟨C, hC, h⟩ := h
  obtain ⟨D, hD, k⟩ := k
  refine ⟨3 * (C * D), by positivity, fun i => ⟨?_, ?_⟩⟩
  · have e1 : |x i| ≤ 2 * C := by
      have := abs_add_le (x i - x' i) (x' i)
      rw [sub_add_cancel] at this
      have := (h i).1.trans (mul_le_of_le_one_right hC (h1 i))
      linarith [(h i).2]
    rw [show x i * y i - x' i * y' i = x i * (y i - y' i) + y' i * (x i - x' i) by ring]
    refine (abs_add_le _ _).trans ?_
    rw [abs_mul, abs_mul]
    have j1 := mul_le_mul e1 (k i).1 (abs_nonneg _) (by positivity)
    have j2 := mul_le_mul (k i).2 (h i).1 (abs_nonneg _) hD
    linarith
  · rw [abs_mul]
    have := mul_le_mul (h i).2 (k i).2 (abs_nonneg _) hC
    have : 0 ≤ C * D := by positivity
    linarith

/-- Rounding the computed quantity. -/
theorem Cl.rd {R : ι → Rounding} (he : ∀ i, (R i).eps ≤ e i) (h1 : ∀ i, e i ≤ 1) (h : Cl e x x') : Cl e (fun i => (R i).rd (x i)) x' := by
  obtain ⟨C, hC, h⟩ := h
  refine ⟨3 * C, by positivity, fun i => ⟨?_, by linarith [(h i).2]⟩⟩
  have h0 : 0 ≤ e i := (R i).eps_nonneg.trans (he i)
  have e1 : |x i| ≤ 2 * C := by
    have := abs_add_le (x i - x' i) (x' i)
    rw [sub_add_cancel] at this
    have := (h i).1.trans (mul_le_of_le_one_right hC (h1 i))
    linarith [(h i).2]
  rw [show (R i).rd (x i) - x' i = ((R i).rd (x i) - x i) + (x i - x' i) by ring]
  refine (abs_add_le _ _).trans ?_
  have j1 := ((R i).rel (x i)).trans (mul_le_mul (he i) e1 (abs_nonneg _) h0)
  linarith [(h i).1]

theorem Cl.exact (h0 : ∀ i, 0 ≤ e i) {C : ℝ} (h : ∀ i, |x i| ≤ C) : Cl e x x :=
  ⟨max C 0, le_max_right _ _, fun i => ⟨by rw [sub_self, abs_zero]; exact mul_nonneg (le_max_right _ _) (h0 i), (h i).trans (le_max_left _ _)⟩⟩

theorem Cl.congr (h : Cl e x x') (h1 : ∀ i, x i = y i) (h2 : ∀ i, x' i = y' i) : Cl e y y' := by
  rw [← funext h1, ← funext h2]; exact h

/-- A computed value of a bounded Lipschitz function at a computed argument. -/
theorem Cl.lip (h0 : ∀ i, 0 ≤ e i) {f : ℝ → ℝ} {s : Set ℝ} {D B : ℝ} (hD : 0 ≤ D) (hf : ∀ a ∈ s, ∀ b ∈ s, |f a - f b| ≤ D * |a - b|) (hB : ∀ a ∈ s, |f a| ≤ B)
    (m : ∀ i, x i ∈ s) (m' : ∀ i, x' i ∈ s) (h : Cl e x x') : Cl e (fun i => f (x i)) (fun i => f (x' i)) := by
  obtain ⟨C, hC, h⟩ := h
  refine ⟨max (D * C) B, le_max_of_le_left (mul_nonneg hD hC), fun i => ⟨?_, (hB _ (m' i)).trans (le_max_right _ _)⟩⟩
  refine (hf _ (m i) _ (m' i)).trans ((mul_le_mul_of_nonneg_left (h i).1 hD).trans ?_)
  rw [← mul_assoc]
  exact mul_le_mul_of_nonneg_right (le_max_left _ _) (h0 i)

/-- The reciprocal of a quantity whose exact and computed values are not small. -/
theorem Cl.inv (h0 : ∀ i, 0 ≤ e i) {w : ℝ} (hw : 0 < w) (m : ∀ i, w ≤ x i) (m' : ∀ i, w ≤ x' i) (h : Cl e x x') : Cl e (fun i => (x i)⁻¹) (fun i => (x' i)⁻¹) := by
  obtain ⟨C, hC, h⟩ := h
  refine ⟨max (C * (w⁻¹ * w⁻¹)) w⁻¹, le_max_of_le_right (by positivity), fun i => ⟨?_, ?_⟩⟩
  · have p := hw.trans_le (m i)
    have p' := hw.trans_le (m' i)
    rw [show (x i)⁻¹ - (x' i)⁻¹ = -((x i - x' i) * ((x i)⁻¹ * (x' i)⁻¹)) by field_simp; ring, abs_neg, abs_mul,
      abs_of_pos (mul_pos (inv_pos.2 p) (inv_pos.2 p'))]
    have j := mul_le_mul (h i).1 (mul_le_mul (inv_anti₀ hw (m i)) (inv_anti₀ hw (m' i)) (inv_pos.2 p').le (inv_pos.2 hw).le)
      (mul_pos (inv_pos.2 p) (inv_pos.2 p')).le (mul_nonneg hC (h0 i))
    refine j.trans ?_
    rw [mul_right_comm]
    exact mul_le_mul_of_nonneg_right (le_max_left _ _) (h0 i)
  · rw [abs_of_pos (inv_pos.2 (hw.trans_le (m' i)))]
    exact (inv_anti₀ hw (m' i)).trans (le_max_right _ _)

end

/-- A rounded number is the exact one times a factor near 1. -/
theorem rd_factor (R : Rounding) (x : ℝ) : ∃ θ, |θ| ≤ R.eps ∧ R.rd x = x * (1 + θ) := by
  by_cases hx : x = 0
  · exact ⟨0, by simpa using R.eps_nonneg, by rw [hx, R.rd_zero]; ring⟩
  · refine ⟨(R.rd x - x) / x, ?_, by field_simp; ring⟩
    rw [abs_div, div_le_iff₀ (abs_pos.2 hx)]
    exact R.rel x

/-! ### The points of a step -/

/-- A step between two representable points of the interval, and a fraction of it. -/
private structure Part (x0 x1 : ℝ) where
  R : Rounding
  t : R.F
  tN : R.F
  c : ℚ
  h0 : x0 ≤ t.val
  h1 : t.val < tN.val
  h2 : tN.val ≤ x1
  c0 : 0 ≤ c
  c1 : c ≤ 1

private theorem Part.abs_t {x0 x1 : ℝ} (i : Part x0 x1) : |i.t.val| ≤ |x0| + |x1| := by
  have := i.h0; have := i.h1; have := i.h2
  exact abs_le.2 ⟨by linarith [neg_abs_le x0, abs_nonneg x1], by linarith [le_abs_self x1, abs_nonneg x0]⟩

private theorem Part.abs_tN {x0 x1 : ℝ} (i : Part x0 x1) : |i.tN.val| ≤ |x0| + |x1| := by
  have := i.h0; have := i.h1; have := i.h2
  exact abs_le.2 ⟨by linarith [neg_abs_le x0, abs_nonneg x1], by linarith [le_abs_self x1, abs_nonneg x0]⟩

/-- The points at which the slopes are computed. -/
theorem stage_time (x0 x1 : ℝ) : ∃ C, 0 ≤ C ∧ ∀ (R : Rounding) (t tN : R.F) (c : ℚ), x0 ≤ t.val → t.val < tN.val → tN.val ≤ x1 → 0 ≤ c → c ≤ 1 →
    |(t + lit c * (tN - t)).val - (t.val + c * (tN.val - t.val))| ≤ C * R.eps ∧ t.val ≤ (t + lit c * (tN - t)).val := by
  have he : ∀ i : Part x0 x1, 0 ≤ i.R.eps := fun i => i.R.eps_nonneg
  have h1 : ∀ i : Part x0 x1, i.R.eps ≤ 1 := fun i => i.R.small.trans (by norm_num)
  have hr : ∀ i : Part x0 x1, i.R.eps ≤ i.R.eps := fun i => le_rfl
  have ct : Cl (fun i : Part x0 x1 => i.R.eps) (fun i => i.t.val) (fun i => i.t.val) := Cl.exact he Part.abs_t
  have ctN : Cl (fun i : Part x0 x1 => i.R.eps) (fun i => i.tN.val) (fun i => i.tN.val) := Cl.exact he Part.abs_tN
  have cc : Cl (fun i : Part x0 x1 => i.R.eps) (fun i => (i.c : ℝ)) (fun i => (i.c : ℝ)) := Cl.exact he (C := 1) fun i => by
    rw [abs_of_nonneg (by exact_mod_cast i.c0)]; exact_mod_cast i.c1
  have ch : Cl (fun i : Part x0 x1 => i.R.eps) (fun i => (i.tN - i.t).val) (fun i => i.tN.val - i.t.val) :=
    ((ctN.add ct.neg).rd (R := fun i => i.R) hr h1).congr (fun i => by rw [Rounding.val_sub, sub_eq_add_neg]) (fun i => by ring)
  obtain ⟨C, hC, h⟩ := (ct.add (((cc.rd (R := fun i => i.R) hr h1).mul h1 ch).rd (R := fun i => i.R) hr h1)).rd (R := fun i => i.R) hr h1
  refine ⟨C, hC, fun R t tN c k0 k1 k2 k3 k4 => ⟨(h ⟨R, t, tN, c, k0, k1, k2, k3, k4⟩).1, ?_⟩⟩
  have j1 : 0 ≤ (lit c * (tN - t) : R.F).val := by
    rw [Rounding.val_mul, Rounding.val_lit, Rounding.val_sub]
    exact Rounding.rd_nonneg (mul_nonneg (Rounding.rd_nonneg (by exact_mod_cast k3)) (Rounding.rd_nonneg (by linarith)))
  rw [Rounding.val_add]
  calc t.val = R.rd t.val := t.rep.symm
    _ ≤ _ := R.mono (by linarith)


/-! ### A step as it is computed -/

section
variable {α : Type} [Add α] [Mul α] [PyLit α]

/-- The slopes of a step as they are computed, from the stored slope `f` at its start; `g` computes the right hand side. -/
def c2 (g : α → α → α) (t y f h : α) : α := g (t + lit (1/5) * h) (y + (lit 0 + f * lit (1/5)) * h)
@[inherit_doc c2]
def c3 (g : α → α → α) (t y f h : α) : α := g (t + lit (3/10) * h) (y + (lit 0 + f * lit (3/40) + c2 g t y f h * lit (9/40)) * h)
@[inherit_doc c2]
def c4 (g : α → α → α) (t y f h : α) : α := g (t + lit (4/5) * h) (y + (lit 0 + f * lit (44/45) + c2 g t y f h * lit (-56/15) + c3 g t y f h * lit (32/9)) * h)
@[inherit_doc c2]
def c5 (g : α → α → α) (t y f h : α) : α := g (t + lit (8/9) * h) (y + (lit 0 + f * lit (19372/6561) + c2 g t y f h * lit (-25360/2187) + c3 g t y f h * lit (64448/6561) + c4 g t y f h * lit (-212/729)) * h)
@[inherit_doc c2]
def c6 (g : α → α → α) (t y f h : α) : α := g (t + lit 1 * h) (y + (lit 0 + f * lit (9017/3168) + c2 g t y f h * lit (-355/33) + c3 g t y f h * lit (46732/5247) + c4 g t y f h * lit (49/176) + c5 g t y f h * lit (-5103/18656)) * h)
/-- The new state. -/
def cN (g : α → α → α) (t y f h : α) : α := y + h * (lit 0 + f * lit (35/384) + c2 g t y f h * lit 0 + c3 g t y f h * lit (500/1113) + c4 g t y f h * lit (125/192) + c5 g t y f h * lit (-2187/6784) + c6 g t y f h * lit (11/84))
@[inherit_doc c2]
def c7 (g : α → α → α) (t y f h : α) : α := g (t + h) (cN g t y f h)
/-- The coefficients of the interpolant. -/
def d1 (g : α → α → α) (t y f h : α) : α := lit 0 + f * lit 1 + c2 g t y f h * lit 0 + c3 g t y f h * lit 0 + c4 g t y f h * lit 0 + c5 g t y f h * lit 0 + c6 g t y f h * lit 0 + c7 g t y f h * lit 0
@[inherit_doc d1]
def d2 (g : α → α → α) (t y f h : α) : α := lit 0 + f * lit (-8048581381/2820520608) + c2 g t y f h * lit 0 + c3 g t y f h * lit (131558114200/32700410799) + c4 g t y f h * lit (-1754552775/470086768) + c5 g t y f h * lit (127303824393/49829197408) + c6 g t y f h * lit (-282668133/205662961) + c7 g t y f h * lit (40617522/29380423)
@[inherit_doc d1]
def d3 (g : α → α → α) (t y f h : α) : α := lit 0 + f * lit (8663915743/2820520608) + c2 g t y f h * lit 0 + c3 g t y f h * lit (-68118460800/10900136933) + c4 g t y f h * lit (14199869525/1410260304) + c5 g t y f h * lit (-318862633887/49829197408) + c6 g t y f h * lit (2019193451/616988883) + c7 g t y f h * lit (-110615467/29380423)
@[inherit_doc d1]
def d4 (g : α → α → α) (t y f h : α) : α := lit 0 + f * lit (-12715105075/11282082432) + c2 g t y f h * lit 0 + c3 g t y f h * lit (87487479700/32700410799) + c4 g t y f h * lit (-10690763975/1880347072) + c5 g t y f h * lit (701980252875/199316789632) + c6 g t y f h * lit (-1453857185/822651844) + c7 g t y f h * lit (69997945/29380423)
/-- The value of the interpolant at the fraction `x`. -/
def dense (g : α → α → α) (t y f h x : α) : α :=
  h * (lit 0 + d1 g t y f h * x + d2 g t y f h * (x * x) + d3 g t y f h * (x * x * x) + d4 g t y f h * (x * x * x * x)) + y

end

section
variable {α : Type} [Add α] [Sub α] [Mul α] [Div α] [Neg α] [PyLit α] [PyCmp α] [PySqrt α] [PyPow α]

/-- The right hand side of a single equation as a function. -/
def single (rhs : α → List α → Except Exc (List α)) (t y : α) : α :=
  match rhs t [y] with
  | .ok [v] => v
  | _ => lit 0

theorem call_single {rhs : α → List α → Except Exc (List α)} {t y : α} {v : List α} (h : call rhs 1 t [y] = .ok v) : v = [single rhs t y] := by
  unfold call at h
  unfold single
  rcases hr : rhs t [y] with e | w
  · rw [hr] at h; cases h
  · rw [hr] at h
    simp only at h
    split at h
    · next hl =>
      match w, hl with
      | [x], _ => exact (Except.ok.inj h).symm
    · cases h

/-- A step of RK45 for a single equation that does not raise. -/
theorem rkStep_single {rhs : α → List α → Except Exc (List α)} {t y f h : α} {q : List α × List α × List (List α)}
    (hq : rkStep rhs t [y] [f] h = .ok q) :
    q.1 = [cN (single rhs) t y f h] ∧ q.2.1 = [c7 (single rhs) t y f h] ∧
    ∀ tN x, h = tN - t → denseOutput t tN [y] q.2.2 x = [dense (single rhs) t y f h ((x - t) / h)] := by
  unfold rkStep at hq
  rcases hs : stages rhs t [y] h tableau [[f]] with e | K
  · rw [hs] at hq; cases hq
  rw [hs] at hq
  simp only at hq
  have st : ∀ {c : ℚ} {a : List ℚ} {rows : List (ℚ × List ℚ)} {M : List (List α)} {w : α}, stages rhs t [y] h ((c, a) :: rows) M = .ok K →
      vadd [y] ((comb [y].length M a).map (· * h)) = [w] →
      stages rhs t [y] h rows (M ++ [[single rhs (t + lit c * h) w]]) = .ok K := by
    intro c a rows M w h1 h2
    rw [stages, h2] at h1
    rcases hc : call rhs [y].length (t + lit c * h) [w] with e | v
    · rw [hc] at h1; cases h1
    · rw [hc] at h1
      rw [← call_single (by simpa using hc)]
      exact h1
  have s2 := st hs rfl
  have s3 := st s2 rfl
  have s4 := st s3 rfl
  have s5 := st s4 rfl
  have s6 := st s5 rfl
  have eK : K = [[f], [c2 (single rhs) t y f h], [c3 (single rhs) t y f h], [c4 (single rhs) t y f h], [c5 (single rhs) t y f h], [c6 (single rhs) t y f h]] :=
    (Except.ok.inj s6).symm
  have eN : vadd [y] ((comb [y].length K weights).map (h * ·)) = [cN (single rhs) t y f h] := by rw [eK]; rfl
  rw [eN] at hq
  rcases hc : call rhs [y].length (t + h) [cN (single rhs) t y f h] with e | v
  · rw [hc] at hq; cases hq
  rw [hc] at hq
  have ev : v = _ := call_single (rhs := rhs) (by simpa using hc)
  rw [ev] at hq
  have := Except.ok.inj hq
  subst this
  refine ⟨rfl, rfl, fun tN x hh => ?_⟩
  subst eK
  rw [hh]
  rfl

end


/-! ### Its distance from the exact step -/

/-- A step as it is computed, with a right hand side and a stored slope that are computed with errors. -/
structure Cfg (a b : ℝ → ℝ) (x0 x1 x2 W C0 e0 : ℝ) where
  R : Rounding
  d : ℝ
  d0 : 0 ≤ d
  small : R.eps + d ≤ e0
  g : R.F → R.F → R.F
  close : ∀ s w, s.val ∈ Set.Icc x0 x2 → |(g s w).val - (a s.val + b s.val * w.val)| ≤ d * (1 + |w.val|)
  t : R.F
  tN : R.F
  y : R.F
  f : R.F
  ht : x0 ≤ t.val
  hlt : t.val < tN.val
  hN : tN.val ≤ x1
  hy : |y.val| ≤ W
  hf : |f.val - (a t.val + b t.val * y.val)| ≤ C0 * (R.eps + d)

namespace Cfg
variable {a b : ℝ → ℝ} {x0 x1 x2 W C0 e0 : ℝ}

/-- The computed length of the step. -/
noncomputable def h (i : Cfg a b x0 x1 x2 W C0 e0) : i.R.F := i.tN - i.t
/-- The exact length of the step. -/
def H (i : Cfg a b x0 x1 x2 W C0 e0) : ℝ := i.tN.val - i.t.val
/-- The errors. -/
def E (i : Cfg a b x0 x1 x2 W C0 e0) : ℝ := i.R.eps + i.d

end Cfg

/-- On `[x0, x2]` the function is bounded by `B` and Lipschitz with constant `D`. -/
structure Nice (f : ℝ → ℝ) (x0 x2 B D : ℝ) : Prop where
  hD : 0 ≤ D
  bound : ∀ s ∈ Set.Icc x0 x2, |f s| ≤ B
  lip : ∀ s ∈ Set.Icc x0 x2, ∀ s' ∈ Set.Icc x0 x2, |f s - f s'| ≤ D * |s - s'|

open Cfg in
set_option maxHeartbeats 2000000 in
theorem slopes_close {a b : ℝ → ℝ} {x0 x1 x2 W C0 B D : ℝ} (h12 : x1 < x2) (na : Nice a x0 x2 B D) (nb : Nice b x0 x2 B D) : ∃ e0, 0 < e0 ∧ e0 ≤ 1 ∧
    Cl E (fun i : Cfg a b x0 x1 x2 W C0 e0 => i.f.val) (fun i => RkAffine.k1 a b i.t.val i.H i.y.val) ∧
    Cl E (fun i : Cfg a b x0 x1 x2 W C0 e0 => (c2 i.g i.t i.y i.f i.h).val) (fun i => RkAffine.k2 a b i.t.val i.H i.y.val) ∧
    Cl E (fun i : Cfg a b x0 x1 x2 W C0 e0 => (c3 i.g i.t i.y i.f i.h).val) (fun i => RkAffine.k3 a b i.t.val i.H i.y.val) ∧
    Cl E (fun i : Cfg a b x0 x1 x2 W C0 e0 => (c4 i.g i.t i.y i.f i.h).val) (fun i => RkAffine.k4 a b i.t.val i.H i.y.val) ∧
    Cl E (fun i : Cfg a b x0 x1 x2 W C0 e0 => (c5 i.g i.t i.y i.f i.h).val) (fun i => RkAffine.k5 a b i.t.val i.H i.y.val) ∧
    Cl E (fun i : Cfg a b x0 x1 x2 W C0 e0 => (c6 i.g i.t i.y i.f i.h).val) (fun i => RkAffine.k6 a b i.t.val i.H i.y.val) ∧
    Cl E (fun i : Cfg a b x0 x1 x2 W C0 e0 => (c7 i.g i.t i.y i.f i.h).val) (fun i => RkAffine.k7 a b i.t.val i.H i.y.val) := by
  obtain ⟨T, hT, time⟩ := stage_time x0 x1
  obtain ⟨e0, he0, he1, heT⟩ : ∃ e0, 0 < e0 ∧ e0 ≤ 1 ∧ T * e0 ≤ x2 - x1 := by
    refine ⟨min 1 ((x2 - x1) / (T + 1)), lt_min one_pos (div_pos (by linarith) (by linarith)), min_le_left _ _, ?_⟩
    have h1 : min 1 ((x2 - x1) / (T + 1)) ≤ (x2 - x1) / (T + 1) := min_le_right _ _
    have h2 : (T + 1) * ((x2 - x1) / (T + 1)) = x2 - x1 := by field_simp
    have h3 : 0 < (x2 - x1) / (T + 1) := div_pos (by linarith) (by linarith)
    nlinarith
  refine ⟨e0, he0, he1, ?_⟩
  have p0 : ∀ i : Cfg a b x0 x1 x2 W C0 e0, 0 ≤ i.E := fun i => add_nonneg i.R.eps_nonneg i.d0
  have h1 : ∀ i : Cfg a b x0 x1 x2 W C0 e0, i.E ≤ 1 := fun i => i.small.trans he1
  have hr : ∀ i : Cfg a b x0 x1 x2 W C0 e0, i.R.eps ≤ i.E := fun i => le_add_of_nonneg_right i.d0
  have clit : ∀ q : ℚ, Cl E (fun i : Cfg a b x0 x1 x2 W C0 e0 => i.R.rd q) (fun _ => (q : ℝ)) := fun q =>
    (Cl.exact p0 (x := fun _ => (q:ℝ)) (C := |(q:ℝ)|) fun _ => le_rfl).rd hr h1
  have mt : ∀ i : Cfg a b x0 x1 x2 W C0 e0, i.t.val ∈ Set.Icc x0 x2 := fun i => ⟨i.ht, by linarith [i.hlt, i.hN]⟩
  have Hpos : ∀ i : Cfg a b x0 x1 x2 W C0 e0, 0 ≤ i.H ∧ i.H ≤ x1 - x0 := fun i => ⟨by
    have := i.hlt
    unfold Cfg.H
    linarith, by
    have := i.hN; have := i.ht
    unfold Cfg.H
    linarith⟩
  have cy : Cl E (fun i : Cfg a b x0 x1 x2 W C0 e0 => i.y.val) (fun i => i.y.val) := Cl.exact p0 fun i => i.hy
  have cH : Cl E (fun i : Cfg a b x0 x1 x2 W C0 e0 => i.H) (fun i => i.H) := Cl.exact p0 (C := x1 - x0) fun i => by
    rw [abs_of_nonneg (Hpos i).1]; exact (Hpos i).2
  have ch : Cl E (fun i : Cfg a b x0 x1 x2 W C0 e0 => i.h.val) (fun i => i.H) := (cH.rd hr h1).congr (fun i => rfl) (fun _ => rfl)
  -- a computed slope at a point of the step
  have at_point : ∀ (s : ∀ i : Cfg a b x0 x1 x2 W C0 e0, i.R.F) (s' : Cfg a b x0 x1 x2 W C0 e0 → ℝ) (w : ∀ i : Cfg a b x0 x1 x2 W C0 e0, i.R.F)
      {w' : Cfg a b x0 x1 x2 W C0 e0 → ℝ}, (∀ i, (s i).val ∈ Set.Icc x0 x2) → (∀ i, s' i ∈ Set.Icc x0 x2) →
      Cl E (fun i => (s i).val) s' → Cl E (fun i => (w i).val) w' → Cl E (fun i => (i.g (s i) (w i)).val) (fun i => a (s' i) + b (s' i) * w' i) := by
    intro s s' w w' m m' hs hw
    have v1 : Cl E (fun i => a (s i).val + b (s i).val * (w i).val) (fun i => a (s' i) + b (s' i) * w' i) :=
      (Cl.lip p0 na.hD na.lip na.bound m m' hs).add ((Cl.lip p0 nb.hD nb.lip nb.bound m m' hs).mul h1 hw)
    obtain ⟨Cw, hCw, hw⟩ := hw
    obtain ⟨Cv, hCv, hv⟩ := v1
    refine ⟨Cv + (1 + 2 * Cw), by positivity, fun i => ⟨?_, by linarith [(hv i).2]⟩⟩
    have j1 := i.close (s i) (w i) (m i)
    have j2 : |(w i).val| ≤ 2 * Cw := by
      have := abs_add_le ((w i).val - w' i) (w' i)
      rw [sub_add_cancel] at this
      have := (hw i).1.trans (mul_le_of_le_one_right hCw (h1 i))
      linarith [(hw i).2]
    have j3 : i.d * (1 + |(w i).val|) ≤ (1 + 2 * Cw) * i.E := by
      rw [mul_comm]
      exact mul_le_mul (by linarith) (le_add_of_nonneg_left i.R.eps_nonneg) i.d0 (by positivity)
    have := abs_sub_le (i.g (s i) (w i)).val (a (s i).val + b (s i).val * (w i).val) (a (s' i) + b (s' i) * w' i)
    linarith [(hv i).1]
  have slope : ∀ (c : ℚ), 0 ≤ c → c ≤ 1 → ∀ (w : ∀ i : Cfg a b x0 x1 x2 W C0 e0, i.R.F) {w' : Cfg a b x0 x1 x2 W C0 e0 → ℝ},
      Cl E (fun i => (w i).val) w' →
      Cl E (fun i => (i.g (i.t + lit c * i.h) (w i)).val) (fun i => a (i.t.val + c * i.H) + b (i.t.val + c * i.H) * w' i) := by
    intro c k0 k1 w w' hw
    have kc0 : (0:ℝ) ≤ c := by exact_mod_cast k0
    have kc1 : (c:ℝ) ≤ 1 := by exact_mod_cast k1
    have hx : ∀ i : Cfg a b x0 x1 x2 W C0 e0, i.t.val + c * i.H ≤ x1 := fun i => by
      have h2 := i.hN
      have h3 := mul_le_of_le_one_left (Hpos i).1 kc1
      have h4 : i.t.val + i.H = i.tN.val := by unfold Cfg.H; ring
      linarith
    have tc : ∀ i : Cfg a b x0 x1 x2 W C0 e0, |(i.t + lit c * i.h).val - (i.t.val + c * i.H)| ≤ T * i.R.eps ∧ i.t.val ≤ (i.t + lit c * i.h).val :=
      fun i => time i.R i.t i.tN c i.ht i.hlt i.hN k0 k1
    refine at_point (fun i => i.t + lit c * i.h) (fun i => i.t.val + c * i.H) w (fun i => ⟨i.ht.trans (tc i).2, ?_⟩)
      (fun i => ⟨by linarith [i.ht, mul_nonneg kc0 (Hpos i).1], by linarith [hx i]⟩)
      ⟨max T (|x0| + |x1|), le_max_of_le_left hT, fun i => ⟨(tc i).1.trans (mul_le_mul (le_max_left _ _) (hr i) i.R.eps_nonneg (le_max_of_le_left hT)), ?_⟩⟩ hw
    · have j1 := (abs_le.1 (tc i).1).2
      have j2 : T * i.R.eps ≤ T * e0 := mul_le_mul_of_nonneg_left ((hr i).trans i.small) hT
      linarith [hx i]
    · refine le_max_of_le_right (abs_le.2 ⟨?_, ?_⟩)
      · linarith [neg_abs_le x0, abs_nonneg x1, i.ht, mul_nonneg kc0 (Hpos i).1]
      · linarith [le_abs_self x1, abs_nonneg x0, hx i]
  have k1 : Cl E (fun i : Cfg a b x0 x1 x2 W C0 e0 => i.f.val) (fun i => RkAffine.k1 a b i.t.val i.H i.y.val) := by
    have hB : 0 ≤ B ∨ IsEmpty (Cfg a b x0 x1 x2 W C0 e0) := by
      rcases isEmpty_or_nonempty (Cfg a b x0 x1 x2 W C0 e0) with h | ⟨⟨i⟩⟩
      · exact .inr h
      · exact .inl ((abs_nonneg _).trans (na.bound _ (mt i)))
    rcases hB with hB | hB
    · refine ⟨max |C0| (B + B * |W|), le_max_of_le_left (abs_nonneg _), fun i => ⟨?_, le_max_of_le_right ?_⟩⟩
      · exact i.hf.trans (mul_le_mul_of_nonneg_right ((le_abs_self _).trans (le_max_left _ _)) (p0 i))
      · show |a i.t.val + b i.t.val * i.y.val| ≤ B + B * |W|
        refine (abs_add_le _ _).trans (add_le_add (na.bound _ (mt i)) ?_)
        rw [abs_mul]
        exact mul_le_mul (nb.bound _ (mt i)) (i.hy.trans (le_abs_self _)) (abs_nonneg _) hB
    · exact ⟨0, le_rfl, fun i => hB.elim i⟩
  have w2 := (cy.add (((((clit 0).add ((k1.mul h1 (clit (1/5))).rd hr h1)).rd hr h1).mul h1 ch).rd hr h1)).rd hr h1
  have k2 : Cl E (fun i => (c2 i.g i.t i.y i.f i.h).val) (fun i => RkAffine.k2 a b i.t.val i.H i.y.val) :=
    (slope (1/5) (by norm_num) (by norm_num) (fun i => i.y + (lit 0 + i.f * lit (1/5)) * i.h) w2).congr
      (fun i => rfl) (fun i => by rw [RkAffine.k2]; push_cast; ring_nf)
  have w3 := (cy.add (((((((clit 0).add ((k1.mul h1 (clit (3/40))).rd hr h1)).rd hr h1).add ((k2.mul h1 (clit (9/40))).rd hr h1)).rd hr h1).mul h1 ch).rd hr h1)).rd hr h1
  have k3 : Cl E (fun i => (c3 i.g i.t i.y i.f i.h).val) (fun i => RkAffine.k3 a b i.t.val i.H i.y.val) :=
    (slope (3/10) (by norm_num) (by norm_num) (fun i => i.y + (lit 0 + i.f * lit (3/40) + c2 i.g i.t i.y i.f i.h * lit (9/40)) * i.h) w3).congr
      (fun i => rfl) (fun i => by rw [RkAffine.k3]; push_cast; ring_nf)
  have w4 := (cy.add (((((((((clit 0).add ((k1.mul h1 (clit (44/45))).rd hr h1)).rd hr h1).add ((k2.mul h1 (clit (-56/15))).rd hr h1)).rd hr h1).add ((k3.mul h1 (clit (32/9))).rd hr h1)).rd hr h1).mul h1 ch).rd hr h1)).rd hr h1
  have k4 : Cl E (fun i => (c4 i.g i.t i.y i.f i.h).val) (fun i => RkAffine.k4 a b i.t.val i.H i.y.val) :=
    (slope (4/5) (by norm_num) (by norm_num) (fun i => i.y + (lit 0 + i.f * lit (44/45) + c2 i.g i.t i.y i.f i.h * lit (-56/15) + c3 i.g i.t i.y i.f i.h * lit (32/9)) * i.h) w4).congr
      (fun i => rfl) (fun i => by rw [RkAffine.k4]; push_cast; ring_nf)
  have w5 := (cy.add (((((((((((clit 0).add ((k1.mul h1 (clit (19372/6561))).rd hr h1)).rd hr h1).add ((k2.mul h1 (clit (-25360/2187))).rd hr h1)).rd hr h1).add ((k3.mul h1 (clit (64448/6561))).rd hr h1)).rd hr h1).add ((k4.mul h1 (clit (-212/729))).rd hr h1)).rd hr h1).mul h1 ch).rd hr h1)).rd hr h1
  have k5 : Cl E (fun i => (c5 i.g i.t i.y i.f i.h).val) (fun i => RkAffine.k5 a b i.t.val i.H i.y.val) :=
    (slope (8/9) (by norm_num) (by norm_num) (fun i => i.y + (lit 0 + i.f * lit (19372/6561) + c2 i.g i.t i.y i.f i.h * lit (-25360/2187) + c3 i.g i.t i.y i.f i.h * lit (64448/6561) + c4 i.g i.t i.y i.f i.h * lit (-212/729)) * i.h) w5).congr
      (fun i => rfl) (fun i => by rw [RkAffine.k5]; push_cast; ring_nf)
  have w6 := (cy.add (((((((((((((clit 0).add ((k1.mul h1 (clit (9017/3168))).rd hr h1)).rd hr h1).add ((k2.mul h1 (clit (-355/33))).rd hr h1)).rd hr h1).add ((k3.mul h1 (clit (46732/5247))).rd hr h1)).rd hr h1).add ((k4.mul h1 (clit (49/176))).rd hr h1)).rd hr h1).add ((k5.mul h1 (clit (-5103/18656))).rd hr h1)).rd hr h1).mul h1 ch).rd hr h1)).rd hr h1
  have k6 : Cl E (fun i => (c6 i.g i.t i.y i.f i.h).val) (fun i => RkAffine.k6 a b i.t.val i.H i.y.val) :=
    (slope (1) (by norm_num) (by norm_num) (fun i => i.y + (lit 0 + i.f * lit (9017/3168) + c2 i.g i.t i.y i.f i.h * lit (-355/33) + c3 i.g i.t i.y i.f i.h * lit (46732/5247) + c4 i.g i.t i.y i.f i.h * lit (49/176) + c5 i.g i.t i.y i.f i.h * lit (-5103/18656)) * i.h) w6).congr
      (fun i => rfl) (fun i => by rw [RkAffine.k6]; push_cast; rw [one_mul]; ring_nf)
  have wN := (cy.add ((ch.mul h1 (((((((((((((clit 0).add ((k1.mul h1 (clit (35/384))).rd hr h1)).rd hr h1).add ((k2.mul h1 (clit (0))).rd hr h1)).rd hr h1).add ((k3.mul h1 (clit (500/1113))).rd hr h1)).rd hr h1).add ((k4.mul h1 (clit (125/192))).rd hr h1)).rd hr h1).add ((k5.mul h1 (clit (-2187/6784))).rd hr h1)).rd hr h1).add ((k6.mul h1 (clit (11/84))).rd hr h1)).rd hr h1)).rd hr h1)).rd hr h1
  have k7 : Cl E (fun i => (c7 i.g i.t i.y i.f i.h).val) (fun i => RkAffine.k7 a b i.t.val i.H i.y.val) :=
    (slope 1 (by norm_num) le_rfl (fun i => cN i.g i.t i.y i.f i.h) wN).congr
      (fun i => by
        have : (lit 1 * i.h : i.R.F) = i.h := by
          ext
          rw [Rounding.val_mul, Rounding.val_one, one_mul, i.h.rep]
        rw [this, c7]) (fun i => by rw [RkAffine.k7]; push_cast; rw [one_mul]; ring_nf)
  exact ⟨k1, k2, k3, k4, k5, k6, k7⟩


theorem Cl.comp {ι κ : Type} {e x x' : ι → ℝ} (φ : κ → ι) (h : Cl e x x') : Cl (fun i => e (φ i)) (fun i => x (φ i)) (fun i => x' (φ i)) := by
  obtain ⟨C, hC, h⟩ := h
  exact ⟨C, hC, fun i => h (φ i)⟩

/-- A factor near 1. -/
theorem Cl.factor {ι : Type} {R : ι → Rounding} {e : ι → ℝ} (he : ∀ i, (R i).eps ≤ e i) (x : ι → ℝ) : ∃ θ : ι → ℝ, (∀ i, |θ i| ≤ 1/1000) ∧ (∀ i, (R i).rd (x i) = x i * (1 + θ i)) ∧
    Cl e (fun i => 1 + θ i) (fun _ => 1) := by
  choose θ h1 h2 using fun i => rd_factor (R i) (x i)
  refine ⟨θ, fun i => (h1 i).trans (R i).small, h2, 1, zero_le_one, fun i => ⟨?_, by simp⟩⟩
  rw [add_sub_cancel_left, one_mul]
  exact (h1 i).trans (he i)

/-- The last operations of a step: the mean slope times the length is added to the old state. Errors of the slope are multiplied with the
length; the rounding of the sum is not. -/
theorem Cl.advance {ι : Type} {R : ι → Rounding} {e y H m m' : ι → ℝ} {W L : ℝ} (he : ∀ i, (R i).eps ≤ e i) (h1 : ∀ i, e i ≤ 1) (hy : ∀ i, |y i| ≤ W)
    (hH : ∀ i, 0 ≤ H i) (hL : ∀ i, H i ≤ L) (hm : Cl e m m') :
    ∃ C, 0 ≤ C ∧ ∀ i, |(R i).rd (y i + (R i).rd ((R i).rd (H i) * m i)) - (y i + H i * m' i)| ≤ C * (R i).eps + H i * (C * e i) := by
  obtain ⟨θ, -, e1, f1⟩ := Cl.factor he H
  obtain ⟨η, -, e2, f2⟩ := Cl.factor he (fun i => (R i).rd (H i) * m i)
  obtain ⟨C, hC, h⟩ := (hm.mul h1 f1).mul h1 f2
  have hP : ∀ i, (R i).rd ((R i).rd (H i) * m i) = H i * (m i * (1 + θ i) * (1 + η i)) := fun i => by rw [e2, e1]; ring
  have hP' : ∀ i, |(R i).rd ((R i).rd (H i) * m i) - H i * m' i| ≤ H i * (C * e i) := fun i => by
    rw [hP, ← mul_sub, abs_mul, abs_of_nonneg (hH i)]
    refine mul_le_mul_of_nonneg_left ?_ (hH i)
    simpa using (h i).1
  refine ⟨max C (|W| + |L| * (2 * C)), le_max_of_le_left hC, fun i => ?_⟩
  have e0 : 0 ≤ e i := (R i).eps_nonneg.trans (he i)
  have hm' : |m' i| ≤ C := by simpa using (h i).2
  have hHL : H i ≤ |L| := (hL i).trans (le_abs_self _)
  have b1 : |y i + (R i).rd ((R i).rd (H i) * m i)| ≤ |W| + |L| * (2 * C) := by
    have j1 : |(R i).rd ((R i).rd (H i) * m i)| ≤ |L| * (2 * C) := by
      have j2 := abs_add_le ((R i).rd ((R i).rd (H i) * m i) - H i * m' i) (H i * m' i)
      rw [sub_add_cancel, abs_mul (H i), abs_of_nonneg (hH i)] at j2
      have j3 : H i * |m' i| ≤ |L| * C := mul_le_mul hHL hm' (abs_nonneg _) (abs_nonneg _)
      have j4 : H i * (C * e i) ≤ |L| * C := mul_le_mul hHL (mul_le_of_le_one_right hC (h1 i)) (mul_nonneg hC e0) (abs_nonneg _)
      linarith [hP' i]
    exact (abs_add_le _ _).trans (add_le_add ((hy i).trans (le_abs_self _)) j1)
  have b2 := (R i).rel (y i + (R i).rd ((R i).rd (H i) * m i))
  have b3 : (R i).eps * |y i + (R i).rd ((R i).rd (H i) * m i)| ≤ max C (|W| + |L| * (2 * C)) * (R i).eps := by
    rw [mul_comm]
    exact mul_le_mul_of_nonneg_right (b1.trans (le_max_right _ _)) (R i).eps_nonneg
  have b4 : H i * (C * e i) ≤ H i * (max C (|W| + |L| * (2 * C)) * e i) :=
    mul_le_mul_of_nonneg_left (mul_le_mul_of_nonneg_right (le_max_left _ _) e0) (hH i)
  have b5 := abs_sub_le ((R i).rd (y i + (R i).rd ((R i).rd (H i) * m i))) (y i + (R i).rd ((R i).rd (H i) * m i)) (y i + H i * m' i)
  have b6 : |y i + (R i).rd ((R i).rd (H i) * m i) - (y i + H i * m' i)| ≤ H i * (C * e i) := by
    rw [add_sub_add_left_eq_sub]; exact hP' i
  linarith

/-- A step and a point in it. -/
private structure CfgX (a b : ℝ → ℝ) (x0 x1 x2 W C0 e0 : ℝ) where
  i : Cfg a b x0 x1 x2 W C0 e0
  x : i.R.F
  lo : i.t.val ≤ x.val
  hi : x.val ≤ i.tN.val

open Cfg in
set_option maxHeartbeats 2000000 in
/-- How far a computed step and its interpolant are from the exact step from the same state. -/
theorem step_close {a b : ℝ → ℝ} {x0 x1 x2 W C0 B D : ℝ} (h12 : x1 < x2) (na : Nice a x0 x2 B D) (nb : Nice b x0 x2 B D) : ∃ e0 C, 0 < e0 ∧ e0 ≤ 1 ∧ 0 ≤ C ∧
    ∀ i : Cfg a b x0 x1 x2 W C0 e0,
      |(cN i.g i.t i.y i.f i.h).val - (i.y.val + i.H * phi a b i.t.val i.H i.y.val)| ≤ C * i.R.eps + i.H * (C * i.E) ∧
      ∀ x : i.R.F, i.t.val ≤ x.val → x.val ≤ i.tN.val →
        |(dense i.g i.t i.y i.f i.h ((x - i.t) / i.h)).val - (i.y.val + i.H * psi a b i.t.val i.H i.y.val ((x.val - i.t.val) / i.H))| ≤
          C * i.R.eps + i.H * (C * i.E) := by
  obtain ⟨e0, he0, he1, k1, k2, k3, k4, k5, k6, k7⟩ := slopes_close (W := W) (C0 := C0) h12 na nb
  have p0 : ∀ i : Cfg a b x0 x1 x2 W C0 e0, 0 ≤ i.E := fun i => add_nonneg i.R.eps_nonneg i.d0
  have h1 : ∀ i : Cfg a b x0 x1 x2 W C0 e0, i.E ≤ 1 := fun i => i.small.trans he1
  have hr : ∀ i : Cfg a b x0 x1 x2 W C0 e0, i.R.eps ≤ i.E := fun i => le_add_of_nonneg_right i.d0
  have clit : ∀ q : ℚ, Cl E (fun i : Cfg a b x0 x1 x2 W C0 e0 => i.R.rd q) (fun _ => (q : ℝ)) := fun q =>
    (Cl.exact p0 (x := fun _ => (q:ℝ)) (C := |(q:ℝ)|) fun _ => le_rfl).rd hr h1
  have H0 : ∀ i : Cfg a b x0 x1 x2 W C0 e0, 0 < i.H := fun i => sub_pos.2 i.hlt
  have HL : ∀ i : Cfg a b x0 x1 x2 W C0 e0, i.H ≤ x1 - x0 := fun i => by
    have := i.hN; have := i.ht
    unfold Cfg.H
    linarith
  have mN : Cl E (fun i : Cfg a b x0 x1 x2 W C0 e0 => _) (fun i => phi a b i.t.val i.H i.y.val) :=
    (((((((((((((clit 0).add ((k1.mul h1 (clit (35/384))).rd hr h1)).rd hr h1).add ((k2.mul h1 (clit (0))).rd hr h1)).rd hr h1).add ((k3.mul h1 (clit (500/1113))).rd hr h1)).rd hr h1).add ((k4.mul h1 (clit (125/192))).rd hr h1)).rd hr h1).add ((k5.mul h1 (clit (-2187/6784))).rd hr h1)).rd hr h1).add ((k6.mul h1 (clit (11/84))).rd hr h1)).rd hr h1).congr (fun i => rfl) (fun i => by rw [phi]; push_cast; ring)
  obtain ⟨CN, hCN, aN⟩ := Cl.advance (R := fun i : Cfg a b x0 x1 x2 W C0 e0 => i.R) hr h1 (fun i => i.hy) (fun i => (H0 i).le) HL mN
  have m1 : Cl E (fun i : Cfg a b x0 x1 x2 W C0 e0 => (d1 i.g i.t i.y i.f i.h).val) (fun i => q1 a b i.t.val i.H i.y.val) :=
    (((((((((((((((clit 0).add ((k1.mul h1 (clit (1))).rd hr h1)).rd hr h1).add ((k2.mul h1 (clit (0))).rd hr h1)).rd hr h1).add ((k3.mul h1 (clit (0))).rd hr h1)).rd hr h1).add ((k4.mul h1 (clit (0))).rd hr h1)).rd hr h1).add ((k5.mul h1 (clit (0))).rd hr h1)).rd hr h1).add ((k6.mul h1 (clit (0))).rd hr h1)).rd hr h1).add ((k7.mul h1 (clit (0))).rd hr h1)).rd hr h1).congr (fun i => rfl) (fun i => by rw [q1]; push_cast; ring)
  have m2 : Cl E (fun i : Cfg a b x0 x1 x2 W C0 e0 => (d2 i.g i.t i.y i.f i.h).val) (fun i => q2 a b i.t.val i.H i.y.val) :=
    (((((((((((((((clit 0).add ((k1.mul h1 (clit (-8048581381/2820520608))).rd hr h1)).rd hr h1).add ((k2.mul h1 (clit (0))).rd hr h1)).rd hr h1).add ((k3.mul h1 (clit (131558114200/32700410799))).rd hr h1)).rd hr h1).add ((k4.mul h1 (clit (-1754552775/470086768))).rd hr h1)).rd hr h1).add ((k5.mul h1 (clit (127303824393/49829197408))).rd hr h1)).rd hr h1).add ((k6.mul h1 (clit (-282668133/205662961))).rd hr h1)).rd hr h1).add ((k7.mul h1 (clit (40617522/29380423))).rd hr h1)).rd hr h1).congr (fun i => rfl) (fun i => by rw [q2]; push_cast; ring)
  have m3 : Cl E (fun i : Cfg a b x0 x1 x2 W C0 e0 => (d3 i.g i.t i.y i.f i.h).val) (fun i => q3 a b i.t.val i.H i.y.val) :=
    (((((((((((((((clit 0).add ((k1.mul h1 (clit (8663915743/2820520608))).rd hr h1)).rd hr h1).add ((k2.mul h1 (clit (0))).rd hr h1)).rd hr h1).add ((k3.mul h1 (clit (-68118460800/10900136933))).rd hr h1)).rd hr h1).add ((k4.mul h1 (clit (14199869525/1410260304))).rd hr h1)).rd hr h1).add ((k5.mul h1 (clit (-318862633887/49829197408))).rd hr h1)).rd hr h1).add ((k6.mul h1 (clit (2019193451/616988883))).rd hr h1)).rd hr h1).add ((k7.mul h1 (clit (-110615467/29380423))).rd hr h1)).rd hr h1).congr (fun i => rfl) (fun i => by rw [q3]; push_cast; ring)
  have m4 : Cl E (fun i : Cfg a b x0 x1 x2 W C0 e0 => (d4 i.g i.t i.y i.f i.h).val) (fun i => q4 a b i.t.val i.H i.y.val) :=
    (((((((((((((((clit 0).add ((k1.mul h1 (clit (-12715105075/11282082432))).rd hr h1)).rd hr h1).add ((k2.mul h1 (clit (0))).rd hr h1)).rd hr h1).add ((k3.mul h1 (clit (87487479700/32700410799))).rd hr h1)).rd hr h1).add ((k4.mul h1 (clit (-10690763975/1880347072))).rd hr h1)).rd hr h1).add ((k5.mul h1 (clit (701980252875/199316789632))).rd hr h1)).rd hr h1).add ((k6.mul h1 (clit (-1453857185/822651844))).rd hr h1)).rd hr h1).add ((k7.mul h1 (clit (69997945/29380423))).rd hr h1)).rd hr h1).congr (fun i => rfl) (fun i => by rw [q4]; push_cast; ring)
  -- the fraction of the step
  let π : CfgX a b x0 x1 x2 W C0 e0 → Cfg a b x0 x1 x2 W C0 e0 := fun j => j.i
  have h1' : ∀ j : CfgX a b x0 x1 x2 W C0 e0, E (π j) ≤ 1 := fun j => h1 _
  have hr' : ∀ j : CfgX a b x0 x1 x2 W C0 e0, j.i.R.eps ≤ E (π j) := fun j => hr _
  have s01 : ∀ j : CfgX a b x0 x1 x2 W C0 e0, 0 ≤ (j.x.val - j.i.t.val) / j.i.H ∧ (j.x.val - j.i.t.val) / j.i.H ≤ 1 := fun j =>
    ⟨div_nonneg (sub_nonneg.2 j.lo) (H0 j.i).le, (div_le_one (H0 j.i)).2 (sub_le_sub_right j.hi _)⟩
  have cx : Cl (fun j => E (π j)) (fun j : CfgX a b x0 x1 x2 W C0 e0 => ((j.x - j.i.t) / j.i.h).val) (fun j => (j.x.val - j.i.t.val) / j.i.H) := by
    have c0 : Cl (fun j => E (π j)) (fun j : CfgX a b x0 x1 x2 W C0 e0 => (j.x.val - j.i.t.val) / j.i.H) (fun j => (j.x.val - j.i.t.val) / j.i.H) :=
      Cl.exact (fun j => p0 _) (C := 1) fun j => by rw [abs_of_nonneg (s01 j).1]; exact (s01 j).2
    obtain ⟨θ, -, e1, f1⟩ := Cl.factor (R := fun j : CfgX a b x0 x1 x2 W C0 e0 => j.i.R) hr' (fun j => j.x.val - j.i.t.val)
    obtain ⟨η, b2, e2, f2⟩ := Cl.factor (R := fun j : CfgX a b x0 x1 x2 W C0 e0 => j.i.R) hr' (fun j => j.i.H)
    have g2 := f2.inv (fun j => p0 _) (w := 1/2) (by norm_num) (fun j => by linarith [(abs_le.1 (b2 j)).1]) (fun _ => by norm_num)
    refine (((c0.mul h1' f1).mul h1' g2).rd (R := fun j => j.i.R) hr' h1').congr (fun j => ?_) (fun j => by ring)
    have hh : j.i.h.val = j.i.H * (1 + η j) := e2 j
    rw [Rounding.val_div, Rounding.val_sub, hh, e1]
    congr 1
    have : 1 + η j ≠ 0 := by linarith [(abs_le.1 (b2 j)).1]
    have := (H0 j.i).ne'
    field_simp
  have x2' := (cx.mul h1' cx).rd (R := fun j => j.i.R) hr' h1'
  have x3' := (x2'.mul h1' cx).rd (R := fun j => j.i.R) hr' h1'
  have x4' := (x3'.mul h1' cx).rd (R := fun j => j.i.R) hr' h1'
  have mD : Cl (fun j => E (π j)) (fun j : CfgX a b x0 x1 x2 W C0 e0 => _) (fun j => psi a b j.i.t.val j.i.H j.i.y.val ((j.x.val - j.i.t.val) / j.i.H)) :=
    ((((((((((clit 0).comp π).add (((m1.comp π).mul h1' cx).rd (R := fun j => j.i.R) hr' h1')).rd (R := fun j => j.i.R) hr' h1').add
      (((m2.comp π).mul h1' x2').rd (R := fun j => j.i.R) hr' h1')).rd (R := fun j => j.i.R) hr' h1').add
      (((m3.comp π).mul h1' x3').rd (R := fun j => j.i.R) hr' h1')).rd (R := fun j => j.i.R) hr' h1').add
      (((m4.comp π).mul h1' x4').rd (R := fun j => j.i.R) hr' h1')).rd (R := fun j => j.i.R) hr' h1').congr (fun j => rfl)
      (fun j => by rw [psi]; push_cast; ring)
  obtain ⟨CD, hCD, aD⟩ := Cl.advance (R := fun j : CfgX a b x0 x1 x2 W C0 e0 => j.i.R) hr' h1' (fun j => j.i.hy) (fun j => (H0 j.i).le) (fun j => HL j.i) mD
  have weaken : ∀ {C : ℝ} (i : Cfg a b x0 x1 x2 W C0 e0), C ≤ max CN CD → C * i.R.eps + i.H * (C * i.E) ≤ max CN CD * i.R.eps + i.H * (max CN CD * i.E) := fun i hC =>
    add_le_add (mul_le_mul_of_nonneg_right hC i.R.eps_nonneg) (mul_le_mul_of_nonneg_left (mul_le_mul_of_nonneg_right hC (p0 i)) (H0 i).le)
  refine ⟨e0, max CN CD, he0, he1, le_max_of_le_left hCN, fun i => ⟨(aN i).trans (weaken i (le_max_left _ _)), fun x l1 l2 => ?_⟩⟩
  refine le_trans (le_of_eq ?_) ((aD ⟨i, x, l1, l2⟩).trans (weaken i (le_max_right _ _)))
  congr 2
  exact congrArg i.R.rd (add_comm _ _)

/-- The slope stored at the end of a step, which was computed at a point that differs from the end by rounding. -/
theorem stored_slope {a b : ℝ → ℝ} {x0 x1 x2 W B D : ℝ} (h12 : x1 < x2) (hW : 0 ≤ W) (na : Nice a x0 x2 B D) (nb : Nice b x0 x2 B D) : ∃ e0 C, 0 < e0 ∧ 0 ≤ C ∧ 1 + W ≤ C ∧
    ∀ (R : Rounding) (d : ℝ), 0 ≤ d → R.eps + d ≤ e0 → ∀ (g : R.F → R.F → R.F), (∀ s w, s.val ∈ Set.Icc x0 x2 → |(g s w).val - (a s.val + b s.val * w.val)| ≤ d * (1 + |w.val|)) →
      ∀ t tN y : R.F, x0 ≤ t.val → t.val < tN.val → tN.val ≤ x1 → |y.val| ≤ W →
        |(g (t + (tN - t)) y).val - (a tN.val + b tN.val * y.val)| ≤ C * (R.eps + d) := by
  obtain ⟨T, hT, time⟩ := stage_time x0 x1
  refine ⟨(x2 - x1) / (T + 1), (1 + W) + D * T * (1 + W), div_pos (by linarith) (by linarith), by have := na.hD; positivity, by have := na.hD; linarith [show 0 ≤ D * T * (1 + W) by positivity],
    fun R d hd he g close t tN y h0 hlt h1 hy => ?_⟩
  have e1 : (lit 1 * (tN - t) : R.F) = tN - t := by
    ext
    rw [Rounding.val_mul, Rounding.val_one, one_mul, (tN - t).rep]
  obtain ⟨t1, t2⟩ := time R t tN 1 h0 hlt h1 zero_le_one le_rfl
  rw [e1] at t1 t2
  rw [Rat.cast_one, one_mul, show t.val + (tN.val - t.val) = tN.val by ring] at t1
  have heT : T * R.eps ≤ x2 - x1 := by
    have q1 : (T + 1) * ((x2 - x1) / (T + 1)) = x2 - x1 := by field_simp
    have q2 : R.eps ≤ (x2 - x1) / (T + 1) := by linarith
    have q3 := mul_le_mul_of_nonneg_left q2 (show 0 ≤ T + 1 by linarith)
    linarith [R.eps_nonneg]
  have m : (t + (tN - t)).val ∈ Set.Icc x0 x2 := ⟨h0.trans t2, by linarith [(abs_le.1 t1).2]⟩
  have m' : tN.val ∈ Set.Icc x0 x2 := ⟨by linarith, by linarith⟩
  have c := close (t + (tN - t)) y m
  generalize (t + (tN - t)) = s at *
  have l1 : |a s.val - a tN.val| ≤ D * (T * R.eps) := (na.lip _ m _ m').trans (mul_le_mul_of_nonneg_left t1 na.hD)
  have l2 : |b s.val - b tN.val| * |y.val| ≤ D * (T * R.eps) * W :=
    mul_le_mul ((nb.lip _ m _ m').trans (mul_le_mul_of_nonneg_left t1 na.hD)) hy (abs_nonneg _) (mul_nonneg na.hD (mul_nonneg hT R.eps_nonneg))
  have l3 : |a s.val + b s.val * y.val - (a tN.val + b tN.val * y.val)| ≤ D * (T * R.eps) + D * (T * R.eps) * W := by
    rw [show a s.val + b s.val * y.val - (a tN.val + b tN.val * y.val) = (a s.val - a tN.val) + (b s.val - b tN.val) * y.val by ring]
    refine (abs_add_le _ _).trans (add_le_add l1 ?_)
    rw [abs_mul]; exact l2
  have l4 : d * (1 + |y.val|) ≤ d * (1 + W) := mul_le_mul_of_nonneg_left (by linarith) hd
  have l5 := abs_sub_le (g s y).val (a s.val + b s.val * y.val) (a tN.val + b tN.val * y.val)
  have l6 : 0 ≤ D * T * (1 + W) * d := by have := na.hD; positivity
  have l7 : 0 ≤ (1 + W) * R.eps := mul_nonneg (by linarith) R.eps_nonneg
  nlinarith

end IBL.RkRound
