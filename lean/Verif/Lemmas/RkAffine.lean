import Verif.Lemmas.Expansion

/-!
The method of Dormand and Prince on `y' = a(t) + b(t) y`: its error is of sixth order in a step, that of its interpolant of fifth order, and
errors of the start value are passed on by at most a factor `1 + L h`. The coefficients of the expansions are written out; that they agree
with those of the exact solution are the order conditions of the method.
-/

namespace IBL.RkAffine
open Expansion

/-! ### The method on a scalar affine equation -/

/-- The slopes of a step. -/
noncomputable def k1 (a b : ℝ → ℝ) (t h y : ℝ) : ℝ :=
  a t + b t * y
@[inherit_doc k1]
noncomputable def k2 (a b : ℝ → ℝ) (t h y : ℝ) : ℝ :=
  a (t + 1/5 * h) + b (t + 1/5 * h) * (y + h * (1/5 * k1 a b t h y))
@[inherit_doc k1]
noncomputable def k3 (a b : ℝ → ℝ) (t h y : ℝ) : ℝ :=
  a (t + 3/10 * h) + b (t + 3/10 * h) * (y + h * ((3/40) * k1 a b t h y + (9/40) * k2 a b t h y))
@[inherit_doc k1]
noncomputable def k4 (a b : ℝ → ℝ) (t h y : ℝ) : ℝ :=
  a (t + 4/5 * h) + b (t + 4/5 * h) * (y + h * ((44/45) * k1 a b t h y + (-56/15) * k2 a b t h y + (32/9) * k3 a b t h y))
@[inherit_doc k1]
noncomputable def k5 (a b : ℝ → ℝ) (t h y : ℝ) : ℝ :=
  a (t + 8/9 * h) + b (t + 8/9 * h) * (y + h * ((19372/6561) * k1 a b t h y + (-25360/2187) * k2 a b t h y + (64448/6561) * k3 a b t h y + (-212/729) * k4 a b t h y))
@[inherit_doc k1]
noncomputable def k6 (a b : ℝ → ℝ) (t h y : ℝ) : ℝ :=
  a (t + h) + b (t + h) * (y + h * ((9017/3168) * k1 a b t h y + (-355/33) * k2 a b t h y + (46732/5247) * k3 a b t h y + (49/176) * k4 a b t h y + (-5103/18656) * k5 a b t h y))
@[inherit_doc k1]
noncomputable def k7 (a b : ℝ → ℝ) (t h y : ℝ) : ℝ :=
  a (t + h) + b (t + h) * (y + h * ((35/384) * k1 a b t h y + (500/1113) * k3 a b t h y + (125/192) * k4 a b t h y + (-2187/6784) * k5 a b t h y + (11/84) * k6 a b t h y))

/-- The mean slope of a step. -/
noncomputable def phi (a b : ℝ → ℝ) (t h y : ℝ) : ℝ :=
  (35/384) * k1 a b t h y + (500/1113) * k3 a b t h y + (125/192) * k4 a b t h y + (-2187/6784) * k5 a b t h y + (11/84) * k6 a b t h y

/-- The coefficients of the interpolant. -/
noncomputable def q1 (a b : ℝ → ℝ) (t h y : ℝ) : ℝ :=
  (1) * k1 a b t h y
@[inherit_doc q1]
noncomputable def q2 (a b : ℝ → ℝ) (t h y : ℝ) : ℝ :=
  (-8048581381/2820520608) * k1 a b t h y + (131558114200/32700410799) * k3 a b t h y + (-1754552775/470086768) * k4 a b t h y + (127303824393/49829197408) * k5 a b t h y + (-282668133/205662961) * k6 a b t h y + (40617522/29380423) * k7 a b t h y
@[inherit_doc q1]
noncomputable def q3 (a b : ℝ → ℝ) (t h y : ℝ) : ℝ :=
  (8663915743/2820520608) * k1 a b t h y + (-68118460800/10900136933) * k3 a b t h y + (14199869525/1410260304) * k4 a b t h y + (-318862633887/49829197408) * k5 a b t h y + (2019193451/616988883) * k6 a b t h y + (-110615467/29380423) * k7 a b t h y
@[inherit_doc q1]
noncomputable def q4 (a b : ℝ → ℝ) (t h y : ℝ) : ℝ :=
  (-12715105075/11282082432) * k1 a b t h y + (87487479700/32700410799) * k3 a b t h y + (-10690763975/1880347072) * k4 a b t h y + (701980252875/199316789632) * k5 a b t h y + (-1453857185/822651844) * k6 a b t h y + (69997945/29380423) * k7 a b t h y

/-- The mean slope of the interpolant up to the fraction `s` of the step. -/
noncomputable def psi (a b : ℝ → ℝ) (t h y s : ℝ) : ℝ :=
  q1 a b t h y * s + q2 a b t h y * s ^ 2 + q3 a b t h y * s ^ 3 + q4 a b t h y * s ^ 4

variable {x0 x1 : ℝ} {a b Y : ℝ → ℝ} {b0 b1 b2 b3 b4 g0 g1 g2 g3 g4 : ℝ → ℝ}

/-! ### Expansions of the slopes -/

private theorem bd_of {y : ℝ → ℝ} {f : ℝ → ℝ → ℝ} {c0 c1 c2 c3 c4 : ℝ → ℝ} (h : Ex x0 x1 f c0 c1 c2 c3 c4) (e : c0 = y) :
    Bd x0 x1 fun t _ => y t := e ▸ h.b0

set_option maxHeartbeats 1000000 in
private theorem ex1 (hG : Ex x0 x1 (fun t h => a (t + h) + b (t + h) * Y t) g0 g1 g2 g3 g4)
    (hb : Ex x0 x1 (fun t h => b (t + h)) b0 b1 b2 b3 b4) : Ex x0 x1 (fun t h => k1 a b t h (Y t))
    (fun t => g0 t)
    (fun _ => 0)
    (fun _ => 0)
    (fun _ => 0)
    (fun _ => 0) := by
  refine (hG.scale (c := 0) ⟨le_refl _, zero_le_one⟩).congr (fun t h _ => ?_) (fun _ => rfl) (fun t => ?_) (fun t => ?_) (fun t => ?_) (fun t => ?_)
  · simp [k1]
  all_goals simp

set_option maxHeartbeats 1000000 in
private theorem ex2 (hG : Ex x0 x1 (fun t h => a (t + h) + b (t + h) * Y t) g0 g1 g2 g3 g4)
    (hb : Ex x0 x1 (fun t h => b (t + h)) b0 b1 b2 b3 b4) : Ex x0 x1 (fun t h => k2 a b t h (Y t))
    (fun t => g0 t)
    (fun t => 1/5 * g1 t + 1/5 * b0 t * g0 t)
    (fun t => 1/25 * g2 t + 1/25 * b1 t * g0 t)
    (fun t => 1/125 * g3 t + 1/125 * b2 t * g0 t)
    (fun t => 1/625 * g4 t + 1/625 * b3 t * g0 t) := by
  have hc : (0:ℝ) ≤ 1/5 ∧ ((1/5 : ℝ)) ≤ 1 := by norm_num
  refine ((hG.scale hc).add ((hb.scale hc).mulStep ((ex1 hG hb).smul (1/5)))).congr
    (fun t h _ => ?_) (fun t => ?_) (fun t => ?_) (fun t => ?_) (fun t => ?_) (fun t => ?_)
  · rw [k2]; ring
  all_goals ring

set_option maxHeartbeats 1000000 in
private theorem ex3 (hG : Ex x0 x1 (fun t h => a (t + h) + b (t + h) * Y t) g0 g1 g2 g3 g4)
    (hb : Ex x0 x1 (fun t h => b (t + h)) b0 b1 b2 b3 b4) : Ex x0 x1 (fun t h => k3 a b t h (Y t))
    (fun t => g0 t)
    (fun t => 3/10 * g1 t + 3/10 * b0 t * g0 t)
    (fun t => 9/100 * g2 t + 9/200 * b0 t * g1 t + 9/200 * b0 t * b0 t * g0 t + 9/100 * b1 t * g0 t)
    (fun t => 27/1000 * g3 t + 9/1000 * b0 t * g2 t + 9/400 * b0 t * b1 t * g0 t + 27/2000 * b1 t * g1 t + 27/1000 * b2 t * g0 t)
    (fun t => 81/10000 * g4 t + 9/5000 * b0 t * g3 t + 117/20000 * b0 t * b2 t * g0 t + 27/10000 * b1 t * g2 t + 27/10000 * b1 t * b1 t * g0 t + 81/20000 * b2 t * g1 t + 81/10000 * b3 t * g0 t) := by
  have hc : (0:ℝ) ≤ 3/10 ∧ ((3/10 : ℝ)) ≤ 1 := by norm_num
  refine ((hG.scale hc).add ((hb.scale hc).mulStep (((ex1 hG hb).smul (3/40)).add ((ex2 hG hb).smul (9/40))))).congr
    (fun t h _ => ?_) (fun t => ?_) (fun t => ?_) (fun t => ?_) (fun t => ?_) (fun t => ?_)
  · rw [k3]; ring
  all_goals ring

set_option maxHeartbeats 1000000 in
private theorem ex4 (hG : Ex x0 x1 (fun t h => a (t + h) + b (t + h) * Y t) g0 g1 g2 g3 g4)
    (hb : Ex x0 x1 (fun t h => b (t + h)) b0 b1 b2 b3 b4) : Ex x0 x1 (fun t h => k4 a b t h (Y t))
    (fun t => g0 t)
    (fun t => 4/5 * g1 t + 4/5 * b0 t * g0 t)
    (fun t => 16/25 * g2 t + 8/25 * b0 t * g1 t + 8/25 * b0 t * b0 t * g0 t + 16/25 * b1 t * g0 t)
    (fun t => 64/125 * g3 t + 64/375 * b0 t * g2 t + 4/25 * b0 t * b0 t * g1 t + 4/25 * b0 t * b0 t * b0 t * g0 t + 32/75 * b0 t * b1 t * g0 t + 32/125 * b1 t * g1 t + 64/125 * b2 t * g0 t)
    (fun t => 256/625 * g4 t + 124/1875 * b0 t * g3 t + 4/125 * b0 t * b0 t * g2 t + 26/125 * b0 t * b0 t * b1 t * g0 t + 22/125 * b0 t * b1 t * g1 t + 508/1875 * b0 t * b2 t * g0 t + 256/1875 * b1 t * g2 t + 256/1875 * b1 t * b1 t * g0 t + 128/625 * b2 t * g1 t + 256/625 * b3 t * g0 t) := by
  have hc : (0:ℝ) ≤ 4/5 ∧ ((4/5 : ℝ)) ≤ 1 := by norm_num
  refine ((hG.scale hc).add ((hb.scale hc).mulStep ((((ex1 hG hb).smul (44/45)).add ((ex2 hG hb).smul (-56/15))).add ((ex3 hG hb).smul (32/9))))).congr
    (fun t h _ => ?_) (fun t => ?_) (fun t => ?_) (fun t => ?_) (fun t => ?_) (fun t => ?_)
  · rw [k4]; ring
  all_goals ring

set_option maxHeartbeats 1000000 in
private theorem ex5 (hG : Ex x0 x1 (fun t h => a (t + h) + b (t + h) * Y t) g0 g1 g2 g3 g4)
    (hb : Ex x0 x1 (fun t h => b (t + h)) b0 b1 b2 b3 b4) : Ex x0 x1 (fun t h => k5 a b t h (Y t))
    (fun t => g0 t)
    (fun t => 8/9 * g1 t + 8/9 * b0 t * g0 t)
    (fun t => 64/81 * g2 t + 32/81 * b0 t * g1 t + 32/81 * b0 t * b0 t * g0 t + 64/81 * b1 t * g0 t)
    (fun t => 512/729 * g3 t + 512/2187 * b0 t * g2 t + 424/1215 * b0 t * b0 t * g1 t + 424/1215 * b0 t * b0 t * b0 t * g0 t + 1280/2187 * b0 t * b1 t * g0 t + 256/729 * b1 t * g1 t + 512/729 * b2 t * g0 t)
    (fun t => 4096/6561 * g4 t + 1288/54675 * b0 t * g3 t + 424/10935 * b0 t * b0 t * g2 t - 848/18225 * b0 t * b0 t * b0 t * g1 t - 848/18225 * b0 t * b0 t * b0 t * b0 t * g0 t + 1484/3645 * b0 t * b0 t * b1 t * g0 t + 4028/10935 * b0 t * b1 t * g1 t + 55064/164025 * b0 t * b2 t * g0 t + 4096/19683 * b1 t * g2 t + 4096/19683 * b1 t * b1 t * g0 t + 2048/6561 * b2 t * g1 t + 4096/6561 * b3 t * g0 t) := by
  have hc : (0:ℝ) ≤ 8/9 ∧ ((8/9 : ℝ)) ≤ 1 := by norm_num
  refine ((hG.scale hc).add ((hb.scale hc).mulStep (((((ex1 hG hb).smul (19372/6561)).add ((ex2 hG hb).smul (-25360/2187))).add ((ex3 hG hb).smul (64448/6561))).add ((ex4 hG hb).smul (-212/729))))).congr
    (fun t h _ => ?_) (fun t => ?_) (fun t => ?_) (fun t => ?_) (fun t => ?_) (fun t => ?_)
  · rw [k5]; ring
  all_goals ring

set_option maxHeartbeats 1000000 in
private theorem ex6 (hG : Ex x0 x1 (fun t h => a (t + h) + b (t + h) * Y t) g0 g1 g2 g3 g4)
    (hb : Ex x0 x1 (fun t h => b (t + h)) b0 b1 b2 b3 b4) : Ex x0 x1 (fun t h => k6 a b t h (Y t))
    (fun t => g0 t)
    (fun t => g1 t + b0 t * g0 t)
    (fun t => g2 t + 1/2 * b0 t * g1 t + 1/2 * b0 t * b0 t * g0 t + b1 t * g0 t)
    (fun t => g3 t + 1/3 * b0 t * g2 t + 21/55 * b0 t * b0 t * g1 t + 21/55 * b0 t * b0 t * b0 t * g0 t + 5/6 * b0 t * b1 t * g0 t + 1/2 * b1 t * g1 t + b2 t * g0 t)
    (fun t => g4 t + 173/1650 * b0 t * g3 t + 7/110 * b0 t * b0 t * g2 t - 14/275 * b0 t * b0 t * b0 t * g1 t - 14/275 * b0 t * b0 t * b0 t * b0 t * g0 t + 119/220 * b0 t * b0 t * b1 t * g0 t + 21/44 * b0 t * b1 t * g1 t + 499/825 * b0 t * b2 t * g0 t + 1/3 * b1 t * g2 t + 1/3 * b1 t * b1 t * g0 t + 1/2 * b2 t * g1 t + b3 t * g0 t) := by
  have hc : (0:ℝ) ≤ 1 ∧ ((1 : ℝ)) ≤ 1 := by norm_num
  refine ((hG.scale hc).add ((hb.scale hc).mulStep ((((((ex1 hG hb).smul (9017/3168)).add ((ex2 hG hb).smul (-355/33))).add ((ex3 hG hb).smul (46732/5247))).add ((ex4 hG hb).smul (49/176))).add ((ex5 hG hb).smul (-5103/18656))))).congr
    (fun t h _ => ?_) (fun t => ?_) (fun t => ?_) (fun t => ?_) (fun t => ?_) (fun t => ?_)
  · rw [k6]; simp only [one_mul]; ring
  all_goals ring

set_option maxHeartbeats 1000000 in
private theorem ex7 (hG : Ex x0 x1 (fun t h => a (t + h) + b (t + h) * Y t) g0 g1 g2 g3 g4)
    (hb : Ex x0 x1 (fun t h => b (t + h)) b0 b1 b2 b3 b4) : Ex x0 x1 (fun t h => k7 a b t h (Y t))
    (fun t => g0 t)
    (fun t => g1 t + b0 t * g0 t)
    (fun t => g2 t + 1/2 * b0 t * g1 t + 1/2 * b0 t * b0 t * g0 t + b1 t * g0 t)
    (fun t => g3 t + 1/3 * b0 t * g2 t + 1/6 * b0 t * b0 t * g1 t + 1/6 * b0 t * b0 t * b0 t * g0 t + 5/6 * b0 t * b1 t * g0 t + 1/2 * b1 t * g1 t + b2 t * g0 t)
    (fun t => g4 t + 1/4 * b0 t * g3 t + 1/12 * b0 t * b0 t * g2 t + 1/24 * b0 t * b0 t * b0 t * g1 t + 1/24 * b0 t * b0 t * b0 t * b0 t * g0 t + 3/8 * b0 t * b0 t * b1 t * g0 t + 7/24 * b0 t * b1 t * g1 t + 3/4 * b0 t * b2 t * g0 t + 1/3 * b1 t * g2 t + 1/3 * b1 t * b1 t * g0 t + 1/2 * b2 t * g1 t + b3 t * g0 t) := by
  have hc : (0:ℝ) ≤ 1 ∧ ((1 : ℝ)) ≤ 1 := by norm_num
  refine ((hG.scale hc).add ((hb.scale hc).mulStep ((((((ex1 hG hb).smul (35/384)).add ((ex3 hG hb).smul (500/1113))).add ((ex4 hG hb).smul (125/192))).add ((ex5 hG hb).smul (-2187/6784))).add ((ex6 hG hb).smul (11/84))))).congr
    (fun t h _ => ?_) (fun t => ?_) (fun t => ?_) (fun t => ?_) (fun t => ?_) (fun t => ?_)
  · rw [k7]; simp only [one_mul]; ring
  all_goals ring

set_option maxHeartbeats 1000000 in
private theorem ex_phi (hG : Ex x0 x1 (fun t h => a (t + h) + b (t + h) * Y t) g0 g1 g2 g3 g4)
    (hb : Ex x0 x1 (fun t h => b (t + h)) b0 b1 b2 b3 b4) : Ex x0 x1 (fun t h => phi a b t h (Y t))
    (fun t => g0 t)
    (fun t => 1/2 * g1 t + 1/2 * b0 t * g0 t)
    (fun t => 1/3 * g2 t + 1/6 * b0 t * g1 t + 1/6 * b0 t * b0 t * g0 t + 1/3 * b1 t * g0 t)
    (fun t => 1/4 * g3 t + 1/12 * b0 t * g2 t + 1/24 * b0 t * b0 t * g1 t + 1/24 * b0 t * b0 t * b0 t * g0 t + 5/24 * b0 t * b1 t * g0 t + 1/8 * b1 t * g1 t + 1/4 * b2 t * g0 t)
    (fun t => 1/5 * g4 t + 1/20 * b0 t * g3 t + 1/60 * b0 t * b0 t * g2 t + 1/120 * b0 t * b0 t * b0 t * g1 t + 1/120 * b0 t * b0 t * b0 t * b0 t * g0 t + 3/40 * b0 t * b0 t * b1 t * g0 t + 7/120 * b0 t * b1 t * g1 t + 3/20 * b0 t * b2 t * g0 t + 1/15 * b1 t * g2 t + 1/15 * b1 t * b1 t * g0 t + 1/10 * b2 t * g1 t + 1/5 * b3 t * g0 t) := by
  refine ((((((ex1 hG hb).smul (35/384)).add ((ex3 hG hb).smul (500/1113))).add ((ex4 hG hb).smul (125/192))).add ((ex5 hG hb).smul (-2187/6784))).add ((ex6 hG hb).smul (11/84))).congr
    (fun t h _ => ?_) (fun t => ?_) (fun t => ?_) (fun t => ?_) (fun t => ?_) (fun t => ?_)
  · rw [phi]
  all_goals ring

set_option maxHeartbeats 1000000 in
private theorem ex_q1 (hG : Ex x0 x1 (fun t h => a (t + h) + b (t + h) * Y t) g0 g1 g2 g3 g4)
    (hb : Ex x0 x1 (fun t h => b (t + h)) b0 b1 b2 b3 b4) : Ex x0 x1 (fun t h => q1 a b t h (Y t))
    (fun t => g0 t)
    (fun _ => 0)
    (fun _ => 0)
    (fun _ => 0)
    (fun _ => 0) := by
  refine ((ex1 hG hb).smul (1)).congr
    (fun t h _ => ?_) (fun t => ?_) (fun t => ?_) (fun t => ?_) (fun t => ?_) (fun t => ?_)
  · rw [q1]
  all_goals ring

set_option maxHeartbeats 1000000 in
private theorem ex_q2 (hG : Ex x0 x1 (fun t h => a (t + h) + b (t + h) * Y t) g0 g1 g2 g3 g4)
    (hb : Ex x0 x1 (fun t h => b (t + h)) b0 b1 b2 b3 b4) : Ex x0 x1 (fun t h => q2 a b t h (Y t))
    (fun _ => 0)
    (fun t => 1/2 * g1 t + 1/2 * b0 t * g0 t)
    (fun _ => 0)
    (fun _ => 0)
    (fun t => 6275177/58760846 * g4 t + 3246669/146902115 * b0 t * g3 t + 1082223/146902115 * b0 t * b0 t * g2 t + 5112093/587608460 * b0 t * b0 t * b0 t * g1 t + 5112093/587608460 * b0 t * b0 t * b0 t * b0 t * g0 t + 11397501/293804230 * b0 t * b0 t * b1 t * g0 t + 1846611/58760846 * b0 t * b1 t * g1 t + 44362561/587608460 * b0 t * b2 t * g0 t + 6275177/176282538 * b1 t * g2 t + 6275177/176282538 * b1 t * b1 t * g0 t + 6275177/117521692 * b2 t * g1 t + 6275177/58760846 * b3 t * g0 t) := by
  refine (((((((ex1 hG hb).smul (-8048581381/2820520608)).add ((ex3 hG hb).smul (131558114200/32700410799))).add ((ex4 hG hb).smul (-1754552775/470086768))).add ((ex5 hG hb).smul (127303824393/49829197408))).add ((ex6 hG hb).smul (-282668133/205662961))).add ((ex7 hG hb).smul (40617522/29380423))).congr
    (fun t h _ => ?_) (fun t => ?_) (fun t => ?_) (fun t => ?_) (fun t => ?_) (fun t => ?_)
  · rw [q2]
  all_goals ring

set_option maxHeartbeats 1000000 in
private theorem ex_q3 (hG : Ex x0 x1 (fun t h => a (t + h) + b (t + h) * Y t) g0 g1 g2 g3 g4)
    (hb : Ex x0 x1 (fun t h => b (t + h)) b0 b1 b2 b3 b4) : Ex x0 x1 (fun t h => q3 a b t h (Y t))
    (fun _ => 0)
    (fun _ => 0)
    (fun t => 1/3 * g2 t + 1/6 * b0 t * g1 t + 1/6 * b0 t * b0 t * g0 t + 1/3 * b1 t * g0 t)
    (fun _ => 0)
    (fun t => -60756308/146902115 * g4 t - 11070755/117521692 * b0 t * g3 t - 11070755/352565076 * b0 t * b0 t * g2 t - 90725539/3525650760 * b0 t * b0 t * b0 t * g1 t - 90725539/3525650760 * b0 t * b0 t * b0 t * b0 t * g0 t - 179321277/1175216920 * b0 t * b0 t * b1 t * g0 t - 427256281/3525650760 * b0 t * b1 t * g1 t - 176866391/587608460 * b0 t * b2 t * g0 t - 60756308/440706345 * b1 t * g2 t - 60756308/440706345 * b1 t * b1 t * g0 t - 30378154/146902115 * b2 t * g1 t - 60756308/146902115 * b3 t * g0 t) := by
  refine (((((((ex1 hG hb).smul (8663915743/2820520608)).add ((ex3 hG hb).smul (-68118460800/10900136933))).add ((ex4 hG hb).smul (14199869525/1410260304))).add ((ex5 hG hb).smul (-318862633887/49829197408))).add ((ex6 hG hb).smul (2019193451/616988883))).add ((ex7 hG hb).smul (-110615467/29380423))).congr
    (fun t h _ => ?_) (fun t => ?_) (fun t => ?_) (fun t => ?_) (fun t => ?_) (fun t => ?_)
  · rw [q3]
  all_goals ring

set_option maxHeartbeats 1000000 in
private theorem ex_q4 (hG : Ex x0 x1 (fun t h => a (t + h) + b (t + h) * Y t) g0 g1 g2 g3 g4)
    (hb : Ex x0 x1 (fun t h => b (t + h)) b0 b1 b2 b3 b4) : Ex x0 x1 (fun t h => q4 a b t h (Y t))
    (fun _ => 0)
    (fun _ => 0)
    (fun _ => 0)
    (fun t => 1/4 * g3 t + 1/12 * b0 t * g2 t + 1/24 * b0 t * b0 t * g1 t + 1/24 * b0 t * b0 t * b0 t * g0 t + 5/24 * b0 t * b1 t * g0 t + 1/8 * b1 t * g1 t + 1/4 * b2 t * g0 t)
    (fun t => 148897577/293804230 * g4 t + 35873761/293804230 * b0 t * g3 t + 35873761/881412690 * b0 t * b0 t * g2 t + 22358351/881412690 * b0 t * b0 t * b0 t * g1 t + 22358351/881412690 * b0 t * b0 t * b0 t * b0 t * g0 t + 110936271/587608460 * b0 t * b0 t * b1 t * g0 t + 261061291/1762825380 * b0 t * b1 t * g1 t + 220645099/587608460 * b0 t * b2 t * g0 t + 148897577/881412690 * b1 t * g2 t + 148897577/881412690 * b1 t * b1 t * g0 t + 148897577/587608460 * b2 t * g1 t + 148897577/293804230 * b3 t * g0 t) := by
  refine (((((((ex1 hG hb).smul (-12715105075/11282082432)).add ((ex3 hG hb).smul (87487479700/32700410799))).add ((ex4 hG hb).smul (-10690763975/1880347072))).add ((ex5 hG hb).smul (701980252875/199316789632))).add ((ex6 hG hb).smul (-1453857185/822651844))).add ((ex7 hG hb).smul (69997945/29380423))).congr
    (fun t h _ => ?_) (fun t => ?_) (fun t => ?_) (fun t => ?_) (fun t => ?_) (fun t => ?_)
  · rw [q4]
  all_goals ring

/-! ### Errors of a step -/

set_option maxHeartbeats 2000000 in
/-- From a point of an exact solution the error of a step is of sixth order, and that of its interpolant of fifth order. -/
theorem local_error {a0 a1 a2 a3 a4 : ℝ → ℝ} (ha : Ex x0 x1 (fun t h => a (t + h)) a0 a1 a2 a3 a4)
    (hb : Ex x0 x1 (fun t h => b (t + h)) b0 b1 b2 b3 b4)
    (hY : ∀ x ∈ Set.Icc x0 x1, HasDerivWithinAt Y (a x + b x * Y x) (Set.Icc x0 x1) x) :
    ∃ C, 0 ≤ C ∧ ∀ t h, Dom x0 x1 t h → |Y t + h * phi a b t h (Y t) - Y (t + h)| ≤ C * h ^ 6 ∧
      ∀ s, 0 ≤ s → s ≤ 1 → |Y t + h * psi a b t h (Y t) s - Y (t + s * h)| ≤ C * h ^ 5 := by
  obtain ⟨g0, e0⟩ : ∃ g : ℝ → ℝ, ∀ t, g t = a0 t + b0 t * Y t := ⟨_, fun _ => rfl⟩
  obtain ⟨g1, e1⟩ : ∃ g : ℝ → ℝ, ∀ t, g t = a1 t + b1 t * Y t := ⟨_, fun _ => rfl⟩
  obtain ⟨g2, e2⟩ : ∃ g : ℝ → ℝ, ∀ t, g t = a2 t + b2 t * Y t := ⟨_, fun _ => rfl⟩
  obtain ⟨g3, e3⟩ : ∃ g : ℝ → ℝ, ∀ t, g t = a3 t + b3 t * Y t := ⟨_, fun _ => rfl⟩
  obtain ⟨g4, e4⟩ : ∃ g : ℝ → ℝ, ∀ t, g t = a4 t + b4 t * Y t := ⟨_, fun _ => rfl⟩
  obtain ⟨y1, f1⟩ : ∃ y : ℝ → ℝ, ∀ t, y t = g0 t :=
    ⟨_, fun _ => rfl⟩
  obtain ⟨y2, f2⟩ : ∃ y : ℝ → ℝ, ∀ t, y t = 1/2 * g1 t + 1/2 * b0 t * g0 t :=
    ⟨_, fun _ => rfl⟩
  obtain ⟨y3, f3⟩ : ∃ y : ℝ → ℝ, ∀ t, y t = 1/3 * g2 t + 1/6 * b0 t * g1 t + 1/6 * b0 t * b0 t * g0 t + 1/3 * b1 t * g0 t :=
    ⟨_, fun _ => rfl⟩
  obtain ⟨y4, f4⟩ : ∃ y : ℝ → ℝ, ∀ t, y t = 1/4 * g3 t + 1/12 * b0 t * g2 t + 1/24 * b0 t * b0 t * g1 t + 1/24 * b0 t * b0 t * b0 t * g0 t + 5/24 * b0 t * b1 t * g0 t + 1/8 * b1 t * g1 t + 1/4 * b2 t * g0 t :=
    ⟨_, fun _ => rfl⟩
  obtain ⟨y5, f5⟩ : ∃ y : ℝ → ℝ, ∀ t, y t = 1/5 * g4 t + 1/20 * b0 t * g3 t + 1/60 * b0 t * b0 t * g2 t + 1/120 * b0 t * b0 t * b0 t * g1 t + 1/120 * b0 t * b0 t * b0 t * b0 t * g0 t + 3/40 * b0 t * b0 t * b1 t * g0 t + 7/120 * b0 t * b1 t * g1 t + 3/20 * b0 t * b2 t * g0 t + 1/15 * b1 t * g2 t + 1/15 * b1 t * b1 t * g0 t + 1/10 * b2 t * g1 t + 1/5 * b3 t * g0 t :=
    ⟨_, fun _ => rfl⟩
  obtain ⟨bY, r1, r2, r3, r4, r5, C, hC0, hC⟩ := solution_expansion ha hb hY (e1 := y1) (e2 := y2) (e3 := y3) (e4 := y4) (e5 := y5)
    (fun t => by rw [f1, e0]) (fun t => by rw [f2, f1, e1, e0]; ring) (fun t => by rw [f3, f2, f1, e2, e1, e0]; ring)
    (fun t => by rw [f4, f3, f2, f1, e3, e2, e1, e0]; ring) (fun t => by rw [f5, f4, f3, f2, f1, e4, e3, e2, e1, e0]; ring)
  have hG : Ex x0 x1 (fun t h => a (t + h) + b (t + h) * Y t) g0 g1 g2 g3 g4 := by
    obtain ⟨R, hR, eR⟩ := hb.rem
    have hbY : Ex x0 x1 (fun t h => b (t + h) * Y t) (fun t => b0 t * Y t) (fun t => b1 t * Y t) (fun t => b2 t * Y t) (fun t => b3 t * Y t)
        (fun t => b4 t * Y t) :=
      ⟨hb.b0.mul bY, hb.b1.mul bY, hb.b2.mul bY, hb.b3.mul bY, hb.b4.mul bY, _, hR.mul bY, fun t h d => by rw [eR t h d]; ring⟩
    exact (ha.add hbY).congr (fun _ _ _ => rfl) e0 e1 e2 e3 e4
  obtain ⟨R0, hR0, s0⟩ := (ex_phi hG hb).rem
  obtain ⟨R1, hR1, s1⟩ := (ex_q1 hG hb).rem
  obtain ⟨R2, hR2, s2⟩ := (ex_q2 hG hb).rem
  obtain ⟨R3, hR3, s3⟩ := (ex_q3 hG hb).rem
  obtain ⟨R4, hR4, s4⟩ := (ex_q4 hG hb).rem
  obtain ⟨C0, hC00, hC0'⟩ := hR0.nonneg
  obtain ⟨C1, hC10, hC1'⟩ := ((Bd.step (x0 := x0) (x1 := x1)).mul hR1).nonneg
  obtain ⟨C2, hC20, hC2'⟩ := ((ex_q2 hG hb).b4.add (Bd.step.mul hR2)).nonneg
  obtain ⟨C3, hC30, hC3'⟩ := ((ex_q3 hG hb).b4.add (Bd.step.mul hR3)).nonneg
  obtain ⟨C4, hC40, hC4'⟩ := ((ex_q4 hG hb).b4.add (Bd.step.mul hR4)).nonneg
  obtain ⟨C5, hC50, hC5'⟩ := r5.nonneg
  obtain ⟨H, hH0, hH⟩ := (Bd.step (x0 := x0) (x1 := x1)).nonneg
  refine ⟨(C + C0) + (C1 + C2 + C3 + C4 + C5 + C * H), by positivity, fun t h d => ⟨?_, fun s hs0 hs1 => ?_⟩⟩
  · have h1 := hC t h d
    have h2 := hC0' t h d
    have h6 : 0 ≤ h ^ 6 := pow_nonneg d.2.1 6
    have e : Y t + h * phi a b t h (Y t) - Y (t + h) =
        h ^ 6 * R0 t h - (Y (t + h) - (Y t + h * (y1 t + y2 t * h + y3 t * h ^ 2 + y4 t * h ^ 3 + y5 t * h ^ 4))) := by
      rw [s0 t h d, f1, f2, f3, f4, f5]; ring
    rw [e]
    refine (abs_sub _ _).trans ?_
    rw [abs_mul, abs_of_nonneg h6]
    nlinarith [mul_le_mul_of_nonneg_left h2 h6, mul_nonneg (show 0 ≤ C1 + C2 + C3 + C4 + C5 + C * H by positivity) h6]
  · have d' : Dom x0 x1 t (s * h) := d.scale ⟨hs0, hs1⟩
    have h0 : 0 ≤ h := d.2.1
    have h1 := hC t (s * h) d'
    have h5 : 0 ≤ h ^ 5 := pow_nonneg h0 5
    obtain ⟨z1, hz1⟩ : ∃ z, z = h * R1 t h := ⟨_, rfl⟩
    have hb1 : |z1| ≤ C1 := by rw [hz1]; exact hC1' t h d
    have key : ∃ z2 z3 z4, |z2| ≤ C2 ∧ |z3| ≤ C3 ∧ |z4| ≤ C4 ∧ q2 a b t h (Y t) = y2 t * h + h ^ 4 * z2 ∧
        q3 a b t h (Y t) = y3 t * h ^ 2 + h ^ 4 * z3 ∧ q4 a b t h (Y t) = y4 t * h ^ 3 + h ^ 4 * z4 := by
      refine ⟨_, _, _, hC2' t h d, hC3' t h d, hC4' t h d, ?_, ?_, ?_⟩
      · rw [s2 t h d, f2]; ring
      · rw [s3 t h d, f3]; ring
      · rw [s4 t h d, f4]; ring
    obtain ⟨z2, z3, z4, hb2, hb3, hb4, t2, t3, t4⟩ := key
    have t1 : q1 a b t h (Y t) = y1 t + h ^ 4 * z1 := by rw [s1 t h d, hz1, f1]; ring
    have e : Y t + h * psi a b t h (Y t) s - Y (t + s * h) = h ^ 5 * (z1 * s + z2 * s ^ 2 + z3 * s ^ 3 + z4 * s ^ 4 - y5 t * s ^ 5) -
        (Y (t + s * h) - (Y t + s * h * (y1 t + y2 t * (s * h) + y3 t * (s * h) ^ 2 + y4 t * (s * h) ^ 3 + y5 t * (s * h) ^ 4))) := by
      rw [psi, t1, t2, t3, t4]; ring
    have small : ∀ {z c : ℝ} (n : ℕ), |z| ≤ c → |z * s ^ n| ≤ c := fun {z c} n hz => by
      rw [abs_mul, abs_of_nonneg (pow_nonneg hs0 n)]
      exact (mul_le_of_le_one_right (abs_nonneg _) (pow_le_one₀ hs0 hs1)).trans hz
    have hsum : |z1 * s + z2 * s ^ 2 + z3 * s ^ 3 + z4 * s ^ 4 - y5 t * s ^ 5| ≤ C1 + C2 + C3 + C4 + C5 := by
      have i1 := small 1 hb1
      rw [pow_one] at i1
      refine (abs_sub _ _).trans (add_le_add ((abs_add_le _ _).trans (add_le_add ((abs_add_le _ _).trans (add_le_add
        ((abs_add_le _ _).trans (add_le_add i1 (small 2 hb2))) (small 3 hb3))) (small 4 hb4))) (small 5 (hC5' t h d)))
    have h6 : (s * h) ^ 6 ≤ H * h ^ 5 := by
      have hh : h ≤ H := (le_abs_self h).trans (hH t h d)
      calc (s * h) ^ 6 ≤ h ^ 6 := pow_le_pow_left₀ (mul_nonneg hs0 h0) (mul_le_of_le_one_left h0 hs1) 6
        _ = h * h ^ 5 := by ring
        _ ≤ H * h ^ 5 := mul_le_mul_of_nonneg_right hh h5
    rw [e]
    refine (abs_sub _ _).trans ?_
    rw [abs_mul, abs_of_nonneg h5]
    have i1 := mul_le_mul_of_nonneg_left hsum h5
    have i2 := mul_le_mul_of_nonneg_left h6 hC0
    nlinarith [mul_nonneg (add_nonneg hC0 hC00) h5]

/-! ### Errors of the start value -/

private theorem lip1 (hb : Bd x0 x1 fun t h => b (t + h)) :
    ∃ M, Bd x0 x1 M ∧ ∀ t h y z, k1 a b t h y - k1 a b t h z = M t h * (y - z) := by
  refine ⟨fun t _ => b t, (hb.scale (c := 0) ⟨le_refl _, zero_le_one⟩).congr fun t h _ => by simp, fun t h y z => ?_⟩
  simp only [k1]; ring

private theorem lip2 (hb : Bd x0 x1 fun t h => b (t + h)) :
    ∃ M, Bd x0 x1 M ∧ ∀ t h y z, k2 a b t h y - k2 a b t h z = M t h * (y - z) := by
  obtain ⟨M1, hM1, e1⟩ := lip1 (a := a) hb
  refine ⟨_, (hb.scale (c := 1/5) (by norm_num)).mul ((Bd.const 1).add (Bd.step.mul ((Bd.const (1/5)).mul hM1))), fun t h y z => ?_⟩
  simp only [k2]
  linear_combination b (t + 1/5 * h) * h * ((1/5) * e1 t h y z)

private theorem lip3 (hb : Bd x0 x1 fun t h => b (t + h)) :
    ∃ M, Bd x0 x1 M ∧ ∀ t h y z, k3 a b t h y - k3 a b t h z = M t h * (y - z) := by
  obtain ⟨M1, hM1, e1⟩ := lip1 (a := a) hb
  obtain ⟨M2, hM2, e2⟩ := lip2 (a := a) hb
  refine ⟨_, (hb.scale (c := 3/10) (by norm_num)).mul ((Bd.const 1).add (Bd.step.mul (((Bd.const (3/40)).mul hM1).add ((Bd.const (9/40)).mul hM2)))), fun t h y z => ?_⟩
  simp only [k3]
  linear_combination b (t + 3/10 * h) * h * ((3/40) * e1 t h y z + (9/40) * e2 t h y z)

private theorem lip4 (hb : Bd x0 x1 fun t h => b (t + h)) :
    ∃ M, Bd x0 x1 M ∧ ∀ t h y z, k4 a b t h y - k4 a b t h z = M t h * (y - z) := by
  obtain ⟨M1, hM1, e1⟩ := lip1 (a := a) hb
  obtain ⟨M2, hM2, e2⟩ := lip2 (a := a) hb
  obtain ⟨M3, hM3, e3⟩ := lip3 (a := a) hb
  refine ⟨_, (hb.scale (c := 4/5) (by norm_num)).mul ((Bd.const 1).add (Bd.step.mul ((((Bd.const (44/45)).mul hM1).add ((Bd.const (-56/15)).mul hM2)).add ((Bd.const (32/9)).mul hM3)))), fun t h y z => ?_⟩
  simp only [k4]
  linear_combination b (t + 4/5 * h) * h * ((44/45) * e1 t h y z + (-56/15) * e2 t h y z + (32/9) * e3 t h y z)

private theorem lip5 (hb : Bd x0 x1 fun t h => b (t + h)) :
    ∃ M, Bd x0 x1 M ∧ ∀ t h y z, k5 a b t h y - k5 a b t h z = M t h * (y - z) := by
  obtain ⟨M1, hM1, e1⟩ := lip1 (a := a) hb
  obtain ⟨M2, hM2, e2⟩ := lip2 (a := a) hb
  obtain ⟨M3, hM3, e3⟩ := lip3 (a := a) hb
  obtain ⟨M4, hM4, e4⟩ := lip4 (a := a) hb
  refine ⟨_, (hb.scale (c := 8/9) (by norm_num)).mul ((Bd.const 1).add (Bd.step.mul (((((Bd.const (19372/6561)).mul hM1).add ((Bd.const (-25360/2187)).mul hM2)).add ((Bd.const (64448/6561)).mul hM3)).add ((Bd.const (-212/729)).mul hM4)))), fun t h y z => ?_⟩
  simp only [k5]
  linear_combination b (t + 8/9 * h) * h * ((19372/6561) * e1 t h y z + (-25360/2187) * e2 t h y z + (64448/6561) * e3 t h y z + (-212/729) * e4 t h y z)

private theorem lip6 (hb : Bd x0 x1 fun t h => b (t + h)) :
    ∃ M, Bd x0 x1 M ∧ ∀ t h y z, k6 a b t h y - k6 a b t h z = M t h * (y - z) := by
  obtain ⟨M1, hM1, e1⟩ := lip1 (a := a) hb
  obtain ⟨M2, hM2, e2⟩ := lip2 (a := a) hb
  obtain ⟨M3, hM3, e3⟩ := lip3 (a := a) hb
  obtain ⟨M4, hM4, e4⟩ := lip4 (a := a) hb
  obtain ⟨M5, hM5, e5⟩ := lip5 (a := a) hb
  refine ⟨_, (hb.scale (c := 1) (by norm_num)).mul ((Bd.const 1).add (Bd.step.mul ((((((Bd.const (9017/3168)).mul hM1).add ((Bd.const (-355/33)).mul hM2)).add ((Bd.const (46732/5247)).mul hM3)).add ((Bd.const (49/176)).mul hM4)).add ((Bd.const (-5103/18656)).mul hM5)))), fun t h y z => ?_⟩
  simp only [k6, one_mul]
  linear_combination b (t + h) * h * ((9017/3168) * e1 t h y z + (-355/33) * e2 t h y z + (46732/5247) * e3 t h y z + (49/176) * e4 t h y z + (-5103/18656) * e5 t h y z)

private theorem lip7 (hb : Bd x0 x1 fun t h => b (t + h)) :
    ∃ M, Bd x0 x1 M ∧ ∀ t h y z, k7 a b t h y - k7 a b t h z = M t h * (y - z) := by
  obtain ⟨M1, hM1, e1⟩ := lip1 (a := a) hb
  obtain ⟨M3, hM3, e3⟩ := lip3 (a := a) hb
  obtain ⟨M4, hM4, e4⟩ := lip4 (a := a) hb
  obtain ⟨M5, hM5, e5⟩ := lip5 (a := a) hb
  obtain ⟨M6, hM6, e6⟩ := lip6 (a := a) hb
  refine ⟨_, (hb.scale (c := 1) (by norm_num)).mul ((Bd.const 1).add (Bd.step.mul ((((((Bd.const (35/384)).mul hM1).add ((Bd.const (500/1113)).mul hM3)).add ((Bd.const (125/192)).mul hM4)).add ((Bd.const (-2187/6784)).mul hM5)).add ((Bd.const (11/84)).mul hM6)))), fun t h y z => ?_⟩
  simp only [k7, one_mul]
  linear_combination b (t + h) * h * ((35/384) * e1 t h y z + (500/1113) * e3 t h y z + (125/192) * e4 t h y z + (-2187/6784) * e5 t h y z + (11/84) * e6 t h y z)

private theorem lip_phi (hb : Bd x0 x1 fun t h => b (t + h)) :
    ∃ M, Bd x0 x1 M ∧ ∀ t h y z, phi a b t h y - phi a b t h z = M t h * (y - z) := by
  obtain ⟨M1, hM1, e1⟩ := lip1 (a := a) hb
  obtain ⟨M3, hM3, e3⟩ := lip3 (a := a) hb
  obtain ⟨M4, hM4, e4⟩ := lip4 (a := a) hb
  obtain ⟨M5, hM5, e5⟩ := lip5 (a := a) hb
  obtain ⟨M6, hM6, e6⟩ := lip6 (a := a) hb
  refine ⟨_, ((((((Bd.const (35/384)).mul hM1).add ((Bd.const (500/1113)).mul hM3)).add ((Bd.const (125/192)).mul hM4)).add ((Bd.const (-2187/6784)).mul hM5)).add ((Bd.const (11/84)).mul hM6)), fun t h y z => ?_⟩
  simp only [phi]
  linear_combination (35/384) * e1 t h y z + (500/1113) * e3 t h y z + (125/192) * e4 t h y z + (-2187/6784) * e5 t h y z + (11/84) * e6 t h y z

private theorem lip_q1 (hb : Bd x0 x1 fun t h => b (t + h)) :
    ∃ M, Bd x0 x1 M ∧ ∀ t h y z, q1 a b t h y - q1 a b t h z = M t h * (y - z) := by
  obtain ⟨M1, hM1, e1⟩ := lip1 (a := a) hb
  refine ⟨_, ((Bd.const (1)).mul hM1), fun t h y z => ?_⟩
  simp only [q1]
  linear_combination (1) * e1 t h y z

private theorem lip_q2 (hb : Bd x0 x1 fun t h => b (t + h)) :
    ∃ M, Bd x0 x1 M ∧ ∀ t h y z, q2 a b t h y - q2 a b t h z = M t h * (y - z) := by
  obtain ⟨M1, hM1, e1⟩ := lip1 (a := a) hb
  obtain ⟨M3, hM3, e3⟩ := lip3 (a := a) hb
  obtain ⟨M4, hM4, e4⟩ := lip4 (a := a) hb
  obtain ⟨M5, hM5, e5⟩ := lip5 (a := a) hb
  obtain ⟨M6, hM6, e6⟩ := lip6 (a := a) hb
  obtain ⟨M7, hM7, e7⟩ := lip7 (a := a) hb
  refine ⟨_, (((((((Bd.const (-8048581381/2820520608)).mul hM1).add ((Bd.const (131558114200/32700410799)).mul hM3)).add ((Bd.const (-1754552775/470086768)).mul hM4)).add ((Bd.const (127303824393/49829197408)).mul hM5)).add ((Bd.const (-282668133/205662961)).mul hM6)).add ((Bd.const (40617522/29380423)).mul hM7)), fun t h y z => ?_⟩
  simp only [q2]
  linear_combination (-8048581381/2820520608) * e1 t h y z + (131558114200/32700410799) * e3 t h y z + (-1754552775/470086768) * e4 t h y z + (127303824393/49829197408) * e5 t h y z + (-282668133/205662961) * e6 t h y z + (40617522/29380423) * e7 t h y z

private theorem lip_q3 (hb : Bd x0 x1 fun t h => b (t + h)) :
    ∃ M, Bd x0 x1 M ∧ ∀ t h y z, q3 a b t h y - q3 a b t h z = M t h * (y - z) := by
  obtain ⟨M1, hM1, e1⟩ := lip1 (a := a) hb
  obtain ⟨M3, hM3, e3⟩ := lip3 (a := a) hb
  obtain ⟨M4, hM4, e4⟩ := lip4 (a := a) hb
  obtain ⟨M5, hM5, e5⟩ := lip5 (a := a) hb
  obtain ⟨M6, hM6, e6⟩ := lip6 (a := a) hb
  obtain ⟨M7, hM7, e7⟩ := lip7 (a := a) hb
  refine ⟨_, (((((((Bd.const (8663915743/2820520608)).mul hM1).add ((Bd.const (-68118460800/10900136933)).mul hM3)).add ((Bd.const (14199869525/1410260304)).mul hM4)).add ((Bd.const (-318862633887/49829197408)).mul hM5)).add ((Bd.const (2019193451/616988883)).mul hM6)).add ((Bd.const (-110615467/29380423)).mul hM7)), fun t h y z => ?_⟩
  simp only [q3]
  linear_combination (8663915743/2820520608) * e1 t h y z + (-68118460800/10900136933) * e3 t h y z + (14199869525/1410260304) * e4 t h y z + (-318862633887/49829197408) * e5 t h y z + (2019193451/616988883) * e6 t h y z + (-110615467/29380423) * e7 t h y z

private theorem lip_q4 (hb : Bd x0 x1 fun t h => b (t + h)) :
    ∃ M, Bd x0 x1 M ∧ ∀ t h y z, q4 a b t h y - q4 a b t h z = M t h * (y - z) := by
  obtain ⟨M1, hM1, e1⟩ := lip1 (a := a) hb
  obtain ⟨M3, hM3, e3⟩ := lip3 (a := a) hb
  obtain ⟨M4, hM4, e4⟩ := lip4 (a := a) hb
  obtain ⟨M5, hM5, e5⟩ := lip5 (a := a) hb
  obtain ⟨M6, hM6, e6⟩ := lip6 (a := a) hb
  obtain ⟨M7, hM7, e7⟩ := lip7 (a := a) hb
  refine ⟨_, (((((((Bd.const (-12715105075/11282082432)).mul hM1).add ((Bd.const (87487479700/32700410799)).mul hM3)).add ((Bd.const (-10690763975/1880347072)).mul hM4)).add ((Bd.const (701980252875/199316789632)).mul hM5)).add ((Bd.const (-1453857185/822651844)).mul hM6)).add ((Bd.const (69997945/29380423)).mul hM7)), fun t h y z => ?_⟩
  simp only [q4]
  linear_combination (-12715105075/11282082432) * e1 t h y z + (87487479700/32700410799) * e3 t h y z + (-10690763975/1880347072) * e4 t h y z + (701980252875/199316789632) * e5 t h y z + (-1453857185/822651844) * e6 t h y z + (69997945/29380423) * e7 t h y z

/-- The mean slopes of a step and of its interpolant are Lipschitz continuous in the start value. -/
theorem slopes_lipschitz (hb : Bd x0 x1 fun t h => b (t + h)) : ∃ L, 0 ≤ L ∧ ∀ t h y z, Dom x0 x1 t h →
    |phi a b t h y - phi a b t h z| ≤ L * |y - z| ∧
    ∀ s, 0 ≤ s → s ≤ 1 → |psi a b t h y s - psi a b t h z s| ≤ L * |y - z| := by
  obtain ⟨M0, hM0, e0⟩ := lip_phi (a := a) hb
  obtain ⟨M1, hM1, e1⟩ := lip_q1 (a := a) hb
  obtain ⟨M2, hM2, e2⟩ := lip_q2 (a := a) hb
  obtain ⟨M3, hM3, e3⟩ := lip_q3 (a := a) hb
  obtain ⟨M4, hM4, e4⟩ := lip_q4 (a := a) hb
  obtain ⟨C0, hC0, b0⟩ := hM0.nonneg
  obtain ⟨C1, hC1, b1⟩ := hM1.nonneg
  obtain ⟨C2, hC2, b2⟩ := hM2.nonneg
  obtain ⟨C3, hC3, b3⟩ := hM3.nonneg
  obtain ⟨C4, hC4, b4⟩ := hM4.nonneg
  refine ⟨C0 + (C1 + C2 + C3 + C4), by positivity, fun t h y z d => ⟨?_, fun s hs0 hs1 => ?_⟩⟩
  · rw [e0, abs_mul]
    exact mul_le_mul_of_nonneg_right ((b0 t h d).trans (by linarith)) (abs_nonneg _)
  · have e : psi a b t h y s - psi a b t h z s = (M1 t h * s + M2 t h * s ^ 2 + M3 t h * s ^ 3 + M4 t h * s ^ 4) * (y - z) := by
      simp only [psi]
      linear_combination s * e1 t h y z + s ^ 2 * e2 t h y z + s ^ 3 * e3 t h y z + s ^ 4 * e4 t h y z
    have small : ∀ {z c : ℝ} (n : ℕ), |z| ≤ c → |z * s ^ n| ≤ c := fun {z c} n hz => by
      rw [abs_mul, abs_of_nonneg (pow_nonneg hs0 n)]
      exact (mul_le_of_le_one_right (abs_nonneg _) (pow_le_one₀ hs0 hs1)).trans hz
    rw [e, abs_mul]
    refine mul_le_mul_of_nonneg_right ?_ (abs_nonneg _)
    have i1 := small 1 (b1 t h d)
    rw [pow_one] at i1
    exact ((abs_add_le _ _).trans (add_le_add ((abs_add_le _ _).trans (add_le_add
        ((abs_add_le _ _).trans (add_le_add i1 (small 2 (b2 t h d)))) (small 3 (b3 t h d)))) (small 4 (b4 t h d)))).trans (by linarith)

end IBL.RkAffine
