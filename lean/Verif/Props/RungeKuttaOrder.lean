import Verif.Lemmas.RkAffine
import Verif.Props.DenseOutput
import Verif.Props.RungeKuttaExact
import Verif.Props.ThwaitesQuadrature

/-!
C131: how accurate `solve` of the linear Thwaites method is, from start to end: velocity, initial condition, scipy's RK45 with its step size
control and dense output, events, and the query afterwards, against Thwaites' integral.
-/

namespace IBL
open SolveIvp RungeKutta Expansion RkAffine

/-! ### One step -/

private theorem singleton {w : List ℝ} {v : ℝ} (h1 : w.length = 1) (h2 : w.getD 0 0 = v) : w = [v] := by
  match w, h1 with
  | [x], _ => simpa using h2

/-- On `y' = a(t) + b(t) y` a step of Dormand and Prince and its interpolant are those of `RkAffine`. -/
private theorem step_affine {f : ℝ → List ℝ → Except Exc (List ℝ)} {a b : ℝ → ℝ} {x0 x1 t h y : ℝ} {yN : List ℝ} {k : Fin 7 → List ℝ}
    (hf : ∀ t ∈ Set.Icc x0 x1, ∀ y, f t [y] = .ok [a t + b t * y]) (d : Dom x0 x1 t h) (dp : DormandPrince f t h [y] yN k) :
    yN = [y + h * phi a b t h y] ∧ ∀ s, dpInterpolant h s k 0 = h * psi a b t h y s := by
  have mem : ∀ c : ℝ, 0 ≤ c → c ≤ 1 → t + c * h ∈ Set.Icc x0 x1 := fun c h0 h1 => (d.scale ⟨h0, h1⟩).mem.2
  have val : ∀ {t' : ℝ} {w v : List ℝ} {y' : ℝ}, t' ∈ Set.Icc x0 x1 → f t' w = .ok v → w = [y'] → v = [a t' + b t' * y'] :=
    fun {t' w v y'} ht h1 h2 => by rw [h2, hf t' ht] at h1; exact (Except.ok.inj h1).symm
  have e1 : k 0 = [k1 a b t h y] := val d.mem.1 dp.k1 rfl
  obtain ⟨w2, p2, l2, g2⟩ := dp.k2
  have e2 : k 1 = [k2 a b t h y] := by
    rw [show t + h / 5 = t + 1/5 * h by ring] at p2
    exact val (mem _ (by norm_num) (by norm_num)) p2 (singleton l2 (by rw [g2 0, e1]; simp))
  obtain ⟨w3, p3, l3, g3⟩ := dp.k3
  have e3 : k 2 = [k3 a b t h y] := val (mem _ (by norm_num) (by norm_num)) p3 (singleton l3 (by rw [g3 0, e1, e2]; simp))
  obtain ⟨w4, p4, l4, g4⟩ := dp.k4
  have e4 : k 3 = [k4 a b t h y] := val (mem _ (by norm_num) (by norm_num)) p4 (singleton l4 (by rw [g4 0, e1, e2, e3]; simp only [List.getD_cons_zero]; ring))
  obtain ⟨w5, p5, l5, g5⟩ := dp.k5
  have e5 : k 4 = [k5 a b t h y] := val (mem _ (by norm_num) (by norm_num)) p5 (singleton l5 (by rw [g5 0, e1, e2, e3, e4]; simp only [List.getD_cons_zero]; ring))
  obtain ⟨w6, p6, l6, g6⟩ := dp.k6
  have e6 : k 5 = [k6 a b t h y] := val d.mem.2 p6 (singleton l6 (by rw [g6 0, e1, e2, e3, e4, e5]; simp only [List.getD_cons_zero]; ring))
  have eN : yN = [y + h * phi a b t h y] := singleton dp.size.1 (by rw [dp.new 0, e1, e3, e4, e5, e6, phi]; simp only [List.getD_cons_zero]; ring)
  have e7 : k 6 = [k7 a b t h y] := by
    have := val d.mem.2 dp.k7 eN
    rw [this, k7, phi]
  refine ⟨eN, fun s => ?_⟩
  rw [dpInterpolant, e1, e3, e4, e5, e6, e7, psi, q1, q2, q3, q4]
  simp only [List.getD_cons_zero]
  ring

/-! ### All steps -/

/-- No step is longer than `h`. -/
def StepsAtMost (h : ℝ) : ℝ → List (Step ℝ) → Prop
  | _, [] => True
  | t, s :: l => s.t - t ≤ h ∧ StepsAtMost h s.t l

/-- No step that begins at `e` or before is longer than `h`. -/
def StepsTo (h e : ℝ) : ℝ → List (Step ℝ) → Prop
  | _, [] => True
  | t, s :: l => t ≤ e → s.t - t ≤ h ∧ StepsTo h e s.t l

/-- No step that RK45 takes is longer than `h`. A call that reports success does not go on with the steps behind the end that it reports. -/
def ShortSteps (h x0 : ℝ) (r : IntegrationResult ℝ) (l : List (Step ℝ)) : Prop := (r.success = true → StepsTo h r.xEnd x0 l) ∧ (r.success = false → StepsAtMost h x0 l)

/-- Along all steps the interpolants are within `e` of the function `Y`. -/
private def Follows (Y : ℝ → ℝ) (e : ℝ) : ℝ → List (Step ℝ) → Prop
  | _, [] => True
  | t, s :: l => (∃ v : ℝ → ℝ, Continuous v ∧ (∀ x, s.dense x = [v x]) ∧ ∀ x ∈ Set.Icc t s.t, |v x - Y x| ≤ e) ∧ Follows Y e s.t l

private theorem Follows.split {Y : ℝ → ℝ} {e : ℝ} {y : List ℝ} {pre post : List (Step ℝ)} {s : Step ℝ} {t : ℝ} (F : Follows Y e t (pre ++ s :: post)) :
    ∃ v : ℝ → ℝ, Continuous v ∧ (∀ x, s.dense x = [v x]) ∧ ∀ x ∈ Set.Icc (lastPt (t, y) pre).1 s.t, |v x - Y x| ≤ e := by
  induction pre generalizing t y with
  | nil => exact F.1
  | cons q pre ih => exact ih (y := q.y) F.2

theorem covered {x : ℝ} : ∀ {l : List (Step ℝ)} {a : ℝ × List ℝ}, l ≠ [] → a.1 ≤ x → x ≤ (lastPt a l).1 →
    ∃ pre s post, l = pre ++ s :: post ∧ x ∈ Set.Icc (lastPt a pre).1 s.t
  | [], _, h, _, _ => absurd rfl h
  | s :: l, a, _, h1, h2 => by
    by_cases hx : x ≤ s.t
    · exact ⟨[], s, l, rfl, h1, hx⟩
    · have hl : l ≠ [] := by
        rintro rfl
        exact hx h2
      obtain ⟨pre, s', post, e, hm⟩ := covered (a := s.pt) hl (not_le.1 hx).le h2
      exact ⟨s :: pre, s', post, by rw [e]; rfl, hm⟩

theorem DpSteps.take {f : ℝ → List ℝ → Except Exc (List ℝ)} {atol rtol : ℝ} : ∀ {l l' : List (Step ℝ)} {a : ℝ × List ℝ}, DpSteps f atol rtol a (l ++ l') →
    DpSteps f atol rtol a l
  | [], _, _, _ => trivial
  | _ :: _, _, _, h => ⟨h.1, h.2.1, h.2.2.1, h.2.2.2.1, h.2.2.2.2.take⟩

theorem DpSteps.le_last {f : ℝ → List ℝ → Except Exc (List ℝ)} {atol rtol : ℝ} : ∀ {l : List (Step ℝ)} {a : ℝ × List ℝ}, DpSteps f atol rtol a l →
    a.1 ≤ (lastPt a l).1 ∧ ∀ s ∈ l, s.t ≤ (lastPt a l).1
  | [], _, _ => ⟨le_rfl, by simp⟩
  | s :: l, a, h => by
    obtain ⟨i1, i2⟩ := h.2.2.2.2.le_last
    refine ⟨h.1.le.trans i1, fun t ht => ?_⟩
    rcases List.mem_cons.1 ht with rfl | ht
    · exact i1
    · exact i2 t ht

theorem StepsAtMost.to {h e : ℝ} : ∀ {l : List (Step ℝ)} {t : ℝ}, StepsAtMost h t l → StepsTo h e t l
  | [], _, _ => trivial
  | _ :: _, _, H => fun _ => ⟨H.1, H.2.to⟩

theorem StepsAtMost.short {h x0 : ℝ} {r : IntegrationResult ℝ} {l : List (Step ℝ)} (H : StepsAtMost h x0 l) : ShortSteps h x0 r l := ⟨fun _ => H.to, fun _ => H⟩

/-- The steps up to the one that contains `e`. -/
theorem StepsTo.upto {f : ℝ → List ℝ → Except Exc (List ℝ)} {atol rtol h e : ℝ} {s : Step ℝ} {rest : List (Step ℝ)} : ∀ {pre : List (Step ℝ)} {a : ℝ × List ℝ},
    StepsTo h e a.1 (pre ++ s :: rest) → DpSteps f atol rtol a (pre ++ s :: rest) → (lastPt a pre).1 ≤ e → StepsAtMost h a.1 (pre ++ [s])
  | [], _, H, _, he => ⟨(H he).1, trivial⟩
  | _ :: pre, _, H, D, he => by
    have hq := D.2.2.2.2.take (l := pre).le_last.1
    have := H (D.1.le.trans (hq.trans he))
    exact ⟨this.1, StepsTo.upto this.2 D.2.2.2.2 he⟩

theorem steps_at_most {f : ℝ → List ℝ → Except Exc (List ℝ)} {c r x0 x1 : ℝ} : ∀ {a : ℝ × List ℝ} {l : List (Step ℝ)}, DpSteps f c r a l →
    x0 ≤ a.1 → (∀ s ∈ l, s.t ≤ x1) → StepsAtMost (x1 - x0) a.1 l
  | _, [], _, _, _ => trivial
  | a, s :: l, ⟨h1, _, _, _, h5⟩, h0, hl => by
    have := hl s (by simp)
    exact ⟨by linarith, steps_at_most (a := s.pt) h5 (h0.trans h1.le) fun q hq => hl q (by simp [hq])⟩

private theorem global_error {f : ℝ → List ℝ → Except Exc (List ℝ)} {a b Y : ℝ → ℝ} {x0 x1 C L atol rtol h : ℝ} (hC : 0 ≤ C) (hL : 0 ≤ L)
    (hf : ∀ t ∈ Set.Icc x0 x1, ∀ y, f t [y] = .ok [a t + b t * y])
    (loc : ∀ t h, Dom x0 x1 t h → |Y t + h * phi a b t h (Y t) - Y (t + h)| ≤ C * h ^ 6 ∧
      ∀ s, 0 ≤ s → s ≤ 1 → |Y t + h * psi a b t h (Y t) s - Y (t + s * h)| ≤ C * h ^ 5)
    (lip : ∀ t h y z, Dom x0 x1 t h → |phi a b t h y - phi a b t h z| ≤ L * |y - z| ∧
      ∀ s, 0 ≤ s → s ≤ 1 → |psi a b t h y s - psi a b t h z s| ≤ L * |y - z|) :
    ∀ (l : List (Step ℝ)) (t y : ℝ), DpSteps f atol rtol (t, [y]) l → (∀ s ∈ l, s.t ≤ x1) → x0 ≤ t → t ≤ x1 → StepsAtMost h t l →
      |y - Y t| ≤ Real.exp (L * (t - x0)) * (C * h ^ 5 * (t - x0)) →
      Follows Y (C * (Real.exp (L * (x1 - x0)) * (x1 - x0) + 1) * h ^ 5) t l
  | [], _, _, _, _, _, _, _, _ => trivial
  | s :: l, t, y, ⟨h1, _, _, ⟨k, dp, _, hd⟩, h5⟩, hx1, ht0, ht1, ⟨m1, m2⟩, hy => by
    have dom : Dom x0 x1 t (s.t - t) := ⟨ht0, by simpa using h1.le, by
      have := hx1 s (by simp)
      linarith⟩
    have hpos : 0 ≤ s.t - t := dom.2.1
    have hh : 0 ≤ h := hpos.trans m1
    obtain ⟨eN, eI⟩ := step_affine hf dom dp
    have hstep5 : (s.t - t) ^ 5 ≤ h ^ 5 := pow_le_pow_left₀ hpos m1 5
    set n := s.t - t with hn
    have exp1 : 1 + L * n ≤ Real.exp (L * n) := by linarith [Real.add_one_le_exp (L * n)]
    -- what becomes of the error at the start of the step
    have carry : (1 + L * n) * |y - Y t| ≤ Real.exp (L * (s.t - x0)) * (C * h ^ 5 * (t - x0)) := by
      calc (1 + L * n) * |y - Y t| ≤ Real.exp (L * n) * (Real.exp (L * (t - x0)) * (C * h ^ 5 * (t - x0))) :=
            mul_le_mul exp1 hy (abs_nonneg _) (Real.exp_pos _).le
        _ = Real.exp (L * (s.t - x0)) * (C * h ^ 5 * (t - x0)) := by
            rw [← mul_assoc, ← Real.exp_add]; congr 2; rw [hn]; ring
    have ht' : s.t = t + n := by rw [hn]; ring
    have hx0s : 0 ≤ s.t - x0 := by linarith
    have hexp : 1 ≤ Real.exp (L * (s.t - x0)) := Real.one_le_exp (mul_nonneg hL hx0s)
    have hCh : 0 ≤ C * h ^ 5 := mul_nonneg hC (pow_nonneg hh 5)
    have hmono : Real.exp (L * (s.t - x0)) ≤ Real.exp (L * (x1 - x0)) :=
      Real.exp_le_exp.2 (mul_le_mul_of_nonneg_left (by linarith [hx1 s (by simp)]) hL)
    -- the error at the end of the step
    have next : |y + n * phi a b t n y - Y s.t| ≤ Real.exp (L * (s.t - x0)) * (C * h ^ 5 * (s.t - x0)) := by
      have i1 := (loc t n dom).1
      have i2 := (lip t n y (Y t) dom).1
      have e : y + n * phi a b t n y - Y s.t = (y - Y t) + n * (phi a b t n y - phi a b t n (Y t)) + (Y t + n * phi a b t n (Y t) - Y (t + n)) := by
        rw [ht']; ring
      have j1 : |n * (phi a b t n y - phi a b t n (Y t))| ≤ n * (L * |y - Y t|) := by
        rw [abs_mul, abs_of_nonneg hpos]; exact mul_le_mul_of_nonneg_left i2 hpos
      have j2 : C * n ^ 6 ≤ Real.exp (L * (s.t - x0)) * (C * h ^ 5 * n) := by
        calc C * n ^ 6 = C * n ^ 5 * n := by ring
          _ ≤ C * h ^ 5 * n := mul_le_mul_of_nonneg_right (mul_le_mul_of_nonneg_left hstep5 hC) hpos
          _ ≤ _ := le_mul_of_one_le_left (mul_nonneg hCh hpos) hexp
      rw [e]
      refine (abs_add_three _ _ _).trans ?_
      have j3 : Real.exp (L * (s.t - x0)) * (C * h ^ 5 * (s.t - x0)) =
          Real.exp (L * (s.t - x0)) * (C * h ^ 5 * (t - x0)) + Real.exp (L * (s.t - x0)) * (C * h ^ 5 * n) := by rw [hn]; ring
      rw [j3]
      nlinarith [carry]
    have hnp : 0 < n := by rw [hn]; simpa using h1
    have at_frac : ∀ x, x = t + (x - t) / n * n := fun x => by field_simp; ring
    have hval : ∀ x, s.dense x = [y + dpInterpolant n ((x - t) / n) k 0] := fun x => by
      obtain ⟨l1, l2⟩ := hd ((x - t) / n)
      rw [← at_frac x] at l1 l2
      exact singleton l1 (l2 0)
    refine ⟨⟨_, ?_, hval, fun x hx => ?_⟩, ?_⟩
    · unfold dpInterpolant
      fun_prop
    · obtain ⟨r, hr0, hr1, rfl⟩ : ∃ r, 0 ≤ r ∧ r ≤ 1 ∧ x = t + r * n := by
        exact ⟨(x - t) / n, div_nonneg (by linarith [hx.1]) hpos, (div_le_one hnp).2 (by linarith [hx.2]), by field_simp; ring⟩
      have hr : (t + r * n - t) / n = r := by field_simp; ring
      rw [hr, eI]
      have i1 := (loc t n dom).2 r hr0 hr1
      have i2 := (lip t n y (Y t) dom).2 r hr0 hr1
      have j1 : |n * (psi a b t n y r - psi a b t n (Y t) r)| ≤ n * (L * |y - Y t|) := by
        rw [abs_mul, abs_of_nonneg hpos]; exact mul_le_mul_of_nonneg_left i2 hpos
      have e : y + n * psi a b t n y r - Y (t + r * n) = (y - Y t) + n * (psi a b t n y r - psi a b t n (Y t) r) +
          (Y t + n * psi a b t n (Y t) r - Y (t + r * n)) := by ring
      rw [e]
      refine (abs_add_three _ _ _).trans ?_
      have j2 : C * n ^ 5 ≤ C * h ^ 5 := mul_le_mul_of_nonneg_left hstep5 hC
      have j3 : Real.exp (L * (s.t - x0)) * (C * h ^ 5 * (t - x0)) ≤ Real.exp (L * (x1 - x0)) * (C * h ^ 5 * (x1 - x0)) :=
        mul_le_mul hmono (mul_le_mul_of_nonneg_left (by linarith) hCh) (mul_nonneg hCh (by linarith)) (Real.exp_pos _).le
      nlinarith [carry]
    · have h5' : DpSteps f atol rtol (s.t, [y + n * phi a b t n y]) l := by
        rw [← eN]; exact h5
      exact global_error hC hL hf loc lip l s.t _ h5' (fun q hq => hx1 q (by simp [hq])) (by linarith) (hx1 s (by simp)) m2 next

/-! ### C131 -/

/-- Thwaites' integral with the code's constants: the momentum thickness at `x` of the layer that starts at `x0` with thickness `d0`. The velocity
is raised by 0.001, as the code does to avoid dividing by zero. -/
noncomputable def thwaitesTheta (nu : ℝ) (u : ℝ → ℝ) (x0 d0 x : ℝ) : ℝ :=
  Real.sqrt ((d0 ^ 2 * (u x0 + 1/1000) ^ 6 + 45/100 * nu * ∫ t in x0..x, (u t + 1/1000) ^ 5) / (u x + 1/1000) ^ 6)

theorem dp_marches {f : ℝ → List ℝ → Except Exc (List ℝ)} {c r : ℝ} : ∀ {a : ℝ × List ℝ} {l : List (Step ℝ)}, DpSteps f c r a l →
    Marches true a l
  | _, [], _ => trivial
  | _, _ :: _, ⟨h1, h2, h3, _, h5⟩ => ⟨h1, h2, h3, dp_marches h5⟩

theorem linear_start {o o' : Obj ℝ} {x0 x1 d0 : ℝ} {te : TermArg ℝ} {p : IvpProblem ℝ} (hp : o.prepare x0 x1 te = (o', .ok p))
    (hc : o.cls = .thwaitesLinear) (hnu : 0 < o.nu) (hd : o'.ic.deltaM = .ok d0) :
    p.rhs = o'.rhs ∧ o'.cls = o.cls ∧ o'.vel = o.vel ∧ o'.nu = o.nu ∧ p.x0 = x0 ∧ p.x1 = x1 ∧ p.y0 = [d0 * d0 / o.nu] := by
  unfold Obj.prepare at hp
  split at hp
  · cases hp
  · simp only at hp
    split at hp
    · cases hp
    · split at hp
      · cases hp
      · next y0 hy =>
        cases hp
        refine ⟨rfl, rfl, rfl, rfl, rfl, rfl, ?_⟩
        simp only [Obj.startVector, hc, hd, pyDiv, bind, Except.bind, pure, Except.pure] at hy
        rw [if_neg (by simp; exact hnu.ne')] at hy
        exact (Except.ok.inj hy).symm

theorem sqrt_close {p q c e : ℝ} (hc : 0 < c) (hq : c ≤ q) (h : |p - q| ≤ e) : |Real.sqrt p - Real.sqrt q| ≤ e / Real.sqrt c := by
  have hs : 0 < Real.sqrt c := Real.sqrt_pos.2 hc
  have hsq : Real.sqrt c ≤ Real.sqrt q := Real.sqrt_le_sqrt hq
  rw [le_div_iff₀ hs]
  have h1 : |Real.sqrt p - Real.sqrt q| * Real.sqrt c ≤ |Real.sqrt p - Real.sqrt q| * (Real.sqrt p + Real.sqrt q) :=
    mul_le_mul_of_nonneg_left (by linarith [Real.sqrt_nonneg p]) (abs_nonneg _)
  refine h1.trans ?_
  rw [← abs_of_nonneg (add_nonneg (Real.sqrt_nonneg p) (Real.sqrt_nonneg q)), ← abs_mul]
  have hq0 : 0 ≤ q := hc.le.trans hq
  rcases le_total 0 p with hp | hp
  · rw [show (Real.sqrt p - Real.sqrt q) * (Real.sqrt p + Real.sqrt q) = Real.sqrt p ^ 2 - Real.sqrt q ^ 2 by ring, Real.sq_sqrt hp,
      Real.sq_sqrt hq0]
    exact h
  · rw [Real.sqrt_eq_zero_of_nonpos hp, zero_sub, zero_add, neg_mul, abs_neg, Real.mul_self_sqrt hq0, abs_of_nonneg hq0]
    have := abs_le.1 h
    linarith [this.1]

/-- **C131**, the steps: every state that RK45 computes for the linear Thwaites method, at the accepted points and in between, is within `K h ^ 5` of
the exact solution, where no step so far is longer than `h`. `K` depends on the flow, the interval and the start value only. -/
theorem rk45_follows {o : Obj ℝ} {u du : ℝ → ℝ} {x0 x1 d0 : ℝ} (hc : o.cls = .thwaitesLinear) (hnu : 0 < o.nu)
    (huE : ∀ t, o.vel.uE t = .ok (u t)) (hduE : ∀ t, o.vel.duE t = .ok (du t)) (hu : ∀ x, HasDerivAt u (du x) x)
    (hu6 : ContDiffOn ℝ 6 u (Set.Icc x0 x1)) (hu0 : ∀ x ∈ Set.Icc x0 x1, -(1/1000) < u x) (hx : x0 < x1) :
    ∃ (K : ℝ) (F : ℝ → ℝ), 0 ≤ K ∧ F x0 = d0 * d0 / o.nu ∧ (∀ x ∈ Set.Icc x0 x1, SatisfiesOde o F x) ∧
      (∀ x ∈ Set.Icc x0 x1, F x * (u x + 1/1000) ^ 6 = d0 * d0 / o.nu * (u x0 + 1/1000) ^ 6 + 45/100 * ∫ t in x0..x, (u t + 1/1000) ^ 5) ∧
      ∀ (te : TermArg ℝ) (gap : ℝ → ℝ → ℝ) (m : ℝ) (stepper : Stepper ℝ) (o' : Obj ℝ) (p : IvpProblem ℝ) (h : ℝ), Spaced gap m →
        (∀ p, Runs gap p (stepper p)) → o.prepare x0 x1 te = (o', .ok p) → o'.ic.deltaM = .ok d0 →
        ∀ (pre post : List (Step ℝ)) (s : Step ℝ), (stepper p).steps = pre ++ s :: post → StepsAtMost h x0 (pre ++ [s]) →
          ∃ v : ℝ → ℝ, Continuous v ∧ (∀ x, s.dense x = [v x]) ∧ ∀ x ∈ Set.Icc (lastPt (x0, p.y0) pre).1 s.t, |v x - F x| ≤ K * h ^ 5 := by
  -- the exact solution
  obtain ⟨F, hF0, hF, hFi⟩ := thwaites_linear_exists o u du x0 x1 (d0 * d0 / o.nu) hc huE hduE hu hu0 hx.le
  obtain ⟨a, ea⟩ : ∃ a : ℝ → ℝ, ∀ x, a x = 45/100 / (1/1000 + u x) := ⟨_, fun _ => rfl⟩
  obtain ⟨b, eb⟩ : ∃ b : ℝ → ℝ, ∀ x, b x = -6 * du x / (1/1000 + u x) := ⟨_, fun _ => rfl⟩
  have rhs_eq : ∀ {q : Obj ℝ}, q.cls = o.cls → q.vel = o.vel → ∀ t ∈ Set.Icc x0 x1, ∀ y, q.rhs t [y] = .ok [a t + b t * y] := by
    intro q h1 h2 t ht y
    have : (1/1000 + u t) ≠ 0 := by linarith [hu0 t ht]
    simp only [Obj.rhs, h1, hc, Obj.thwaitesRhs, Obj.calcF, Obj.calcLambda, h2, huE, hduE, bind, Except.bind, pure, Except.pure, real_lit, ea, eb]
    congr 2
    push_cast
    field_simp
    ring
  have ode : ∀ x ∈ Set.Icc x0 x1, HasDerivWithinAt F (a x + b x * F x) (Set.Icc x0 x1) x := fun x hx' => by
    obtain ⟨r, h1, h2⟩ := hF x hx'
    rw [rhs_eq rfl rfl x hx'] at h1
    have : a x + b x * F x = r := by simpa using h1
    rw [this]; exact h2.hasDerivWithinAt
  -- the coefficients of the equation are smooth
  have hden : ∀ x ∈ Set.Icc x0 x1, 1/1000 + u x ≠ 0 := fun x hx' => by linarith [hu0 x hx']
  have hu5 : ContDiffOn ℝ 5 u (Set.Icc x0 x1) := hu6.of_le (by norm_num)
  have hdu5 : ContDiffOn ℝ 5 du (Set.Icc x0 x1) := by
    have := (contDiffOn_succ_iff_derivWithin (n := 5) (uniqueDiffOn_Icc hx)).1 (by rw [show (5 + 1 : WithTop ℕ∞) = 6 by norm_num]; exact hu6)
    exact this.2.2.congr fun x hx' => ((hu x).hasDerivWithinAt.derivWithin (uniqueDiffOn_Icc hx x hx')).symm
  have ha5 : ContDiffOn ℝ 5 a (Set.Icc x0 x1) := (contDiffOn_const.div (contDiffOn_const.add hu5) hden).congr fun x _ => ea x
  have hb5 : ContDiffOn ℝ 5 b (Set.Icc x0 x1) := ((contDiffOn_const.mul hdu5).div (contDiffOn_const.add hu5) hden).congr fun x _ => eb x
  obtain ⟨a1, a2, a3, a4, exa⟩ := Ex.of_contDiffOn hx ha5
  obtain ⟨b1, b2, b3, b4, exb⟩ := Ex.of_contDiffOn hx hb5
  obtain ⟨C, hC0, hC⟩ := local_error exa exb ode
  obtain ⟨L, hL0, hL⟩ := slopes_lipschitz (a := a) exb.bd
  refine ⟨C * (Real.exp (L * (x1 - x0)) * (x1 - x0) + 1), F, mul_nonneg hC0 (by have := Real.exp_pos (L * (x1 - x0)); nlinarith [mul_nonneg this.le (sub_nonneg.2 hx.le)]), hF0, hF, hFi,
    fun te gap m stepper o' p h hg hst hp hd pre post s hsteps hmax => ?_⟩
  obtain ⟨p1, p2, p3, p4, p5, p6, p7⟩ := linear_start hp hc hnu hd
  obtain ⟨c1, c2, -⟩ := rk45_steps hg (hst p) (by rw [p5, p6]; exact hx) (by rw [p7]; simp)
  rw [p5, p7] at c1
  have fol := global_error (f := p.rhs) (Y := F) (x0 := x0) (x1 := x1) (h := h) hC0 hL0 (by rw [p1]; exact rhs_eq p2 p3) hC hL (pre ++ [s]) x0
    (d0 * d0 / o.nu) (DpSteps.take (l' := post) (by rw [List.append_assoc]; exact hsteps ▸ c1))
    (fun q hq => by rw [← p6]; exact (c2 q (by rw [hsteps]; simp at hq ⊢; tauto)).2.1) (le_refl _) hx.le hmax (by rw [hF0]; simp)
  exact Follows.split (y := p.y0) (pre := pre) (s := s) (post := []) fol

/-- **C131**: for every flow that is six times continuously differentiable and every start thickness there is a constant `C` such that after
every successful `solve` of the linear Thwaites method with RK45, whatever the termination event, the root finder and the spacing of the numbers,
the momentum thickness reported anywhere between the start and the reported end differs from Thwaites' integral by at most `C h ^ 5`, where
no step that the integrator took on the way to that end is longer than `h`. -/
theorem rk45_thwaites_fifth_order {o : Obj ℝ} {u du : ℝ → ℝ} {x0 x1 d0 : ℝ} (hc : o.cls = .thwaitesLinear) (hnu : 0 < o.nu)
    (huE : ∀ t, o.vel.uE t = .ok (u t)) (hduE : ∀ t, o.vel.duE t = .ok (du t)) (hu : ∀ x, HasDerivAt u (du x) x)
    (hu6 : ContDiffOn ℝ 6 u (Set.Icc x0 x1)) (hu0 : ∀ x ∈ Set.Icc x0 x1, -(1/1000) < u x) (hx : x0 < x1) (hd0 : 0 < d0) :
    ∃ C, ∀ (te : TermArg ℝ) (gap : ℝ → ℝ → ℝ) (m : ℝ) (stepper : Stepper ℝ) (root : RootFinder ℝ) (o' o'' : Obj ℝ) (p : IvpProblem ℝ)
      (r : IntegrationResult ℝ) (h : ℝ), Spaced gap m → (∀ p, Runs gap p (stepper p)) →
      (∀ g a b x, root g a b = .ok x → x ∈ Set.uIcc a b) → o.prepare x0 x1 te = (o', .ok p) → o'.ic.deltaM = .ok d0 →
      o.solve x0 x1 te (ivp o.eventValue stepper root) = (o'', .ok r) → r.success = true → StepsTo h r.xEnd x0 (stepper p).steps →
      ∀ x ∈ Set.Icc x0 r.xEnd, ∃ d, o''.deltaM x = .ok d ∧ |d - thwaitesTheta o.nu u x0 d0 x| ≤ C * h ^ 5 := by
  obtain ⟨K, F, hK0, hF0, hF, hFi, fol⟩ := rk45_follows (d0 := d0) hc hnu huE hduE hu hu6 hu0 hx
  -- the exact solution stays away from zero
  have hpos : ∀ x ∈ Set.Icc x0 x1, 0 < F x := fun x hx' => by
    have h1 := hFi x hx'
    have h2 : 0 < u x + 1/1000 := by linarith [hu0 x hx']
    have h3 : 0 < u x0 + 1/1000 := by linarith [hu0 x0 ⟨le_refl _, hx.le⟩]
    have h4 : 0 ≤ ∫ t in x0..x, (u t + 1/1000) ^ 5 := intervalIntegral.integral_nonneg hx'.1 fun t ht =>
      pow_nonneg (by linarith [hu0 t ⟨ht.1, ht.2.trans hx'.2⟩]) 5
    have h5 : 0 < F x * (u x + 1/1000) ^ 6 := by rw [h1]; positivity
    exact pos_of_mul_pos_left h5 (pow_pos h2 6).le
  have hFc : ContinuousOn F (Set.Icc x0 x1) := fun x hx' => by
    obtain ⟨r, -, h⟩ := hF x hx'
    exact h.continuousAt.continuousWithinAt
  obtain ⟨z, hz, hmin⟩ := isCompact_Icc.exists_isMinOn (Set.nonempty_Icc.2 hx.le) hFc
  have hz0 := hpos z hz
  refine ⟨o.nu * K / Real.sqrt (F z * o.nu),
    fun te gap m stepper root o' o'' p r h hg hst hroot hp hd hs hok hmax x hxx => ?_⟩
  obtain ⟨p1, p2, p3, p4, p5, p6, p7⟩ := linear_start hp hc hnu hd
  obtain ⟨c1, c2, c3, -⟩ := rk45_steps hg (hst p) (by rw [p5, p6]; exact hx) (by rw [p7]; simp)
  rw [p5, p7] at c1
  have hne : (stepper p).steps ≠ [] := by
    intro h0
    have hnr : (stepper p).ending ≠ .reached := fun h => by
      obtain ⟨st, h1, -⟩ := c3.1 h
      rw [h0] at h1; cases h1
    unfold Obj.solve at hs
    rw [hp] at hs
    simp only [ivp, h0, loop] at hs
    split at hs
    · cases hs
    · next sol hsol =>
      split at hsol
      · cases hsol
      · rcases he : (stepper p).ending with _ | msg | ex
        · exact hnr he
        · rw [he] at hsol
          simp only [Except.ok.injEq] at hsol
          subst hsol
          simp [evalResult] at hs
          rw [← hs.2] at hok
          cases hok
        · rw [he] at hsol; cases hsol
  obtain ⟨used, rest, u1, u2, -, -, u5, -, pre, s, u7, u8⟩ := stored_solution o.eventValue stepper root hp hs hok true
    (by rw [p7]; exact dp_marches c1) hne hroot
  obtain ⟨_, _, _, v2, -⟩ := solve_stores o.eventValue stepper root hp hs hok
  have last : ∀ (pre : List (Step ℝ)) (s : Step ℝ) (a : ℝ × List ℝ), lastPt a (pre ++ [s]) = s.pt := fun pre s => by
    induction pre with
    | nil => intro a; rfl
    | cons q pre ih => intro a; exact ih _
  have hle : x ≤ (lastPt (x0, p.y0) used).1 := by
    rw [u7, last]
    simp only [Between, if_true] at u8
    exact hxx.2.trans u8.2
  obtain ⟨pr, st, po, w1, w2⟩ := covered u2 hxx.1 hle
  have hsteps : (stepper p).steps = pr ++ st :: (po ++ rest) := by rw [u1, w1, List.append_assoc, List.cons_append]
  obtain ⟨w, -, v3, v4⟩ := fol te gap m stepper o' p h hg hst hp hd pr (po ++ rest) st hsteps
    (StepsTo.upto (a := (x0, p.y0)) (hsteps ▸ hmax) (by rw [p7]; exact hsteps ▸ c1) (w2.1.trans hxx.2))
  replace v3 := v3 x
  replace v4 := v4 x w2
  generalize w x = v at v3 v4
  have hstate := u5 pr st po w1 x (by simpa [Between] using w2)
  have hx1 : x ≤ x1 := by
    have : st ∈ (stepper p).steps := by rw [u1, w1]; simp
    exact w2.2.trans (by rw [← p6]; exact (c2 st this).2.1)
  have hmx : x ∈ Set.Icc x0 x1 := ⟨hxx.1, hx1⟩
  have hdm : o''.deltaM x = .ok (Real.sqrt (v * o.nu)) := by
    have q1 : o''.cls = .thwaitesLinear := by rw [v2, ← hc, ← p2]
    have q2 : o''.nu = o.nu := by rw [v2, ← p4]
    simp only [Obj.deltaM, q1, Obj.comp, hstate, v3, bind, Except.bind, pure, Except.pure, List.getElem?_cons_zero, q2, real_sqrt]
  refine ⟨_, hdm, ?_⟩
  have hth : thwaitesTheta o.nu u x0 d0 x = Real.sqrt (F x * o.nu) := by
    have h2 : (u x + 1/1000) ≠ 0 := by linarith [hu0 x hmx]
    unfold thwaitesTheta
    congr 1
    rw [div_eq_iff (pow_ne_zero 6 h2)]
    have := hFi x hmx
    rw [show F x * o.nu * (u x + 1/1000) ^ 6 = o.nu * (F x * (u x + 1/1000) ^ 6) by ring, this]
    field_simp
  rw [hth]
  refine (sqrt_close (c := F z * o.nu) (e := o.nu * (K * h ^ 5)) (mul_pos hz0 hnu)
    (mul_le_mul_of_nonneg_right (hmin hmx) hnu.le) ?_).trans (le_of_eq (by ring))
  rw [← sub_mul, abs_mul, abs_of_pos hnu, mul_comm]
  exact mul_le_mul_of_nonneg_left v4 hnu.le

/-- The hypotheses are met: stagnation flow `u_e = x` with viscosity 3, started with thickness 0.474..., numbers spaced as doubles are; `solve` over
`[0, 1]` succeeds and of course takes no step longer than 1. -/
theorem rk45_order_case : ∃ (o : Obj ℝ) (u du : ℝ → ℝ) (d0 : ℝ), o.cls = .thwaitesLinear ∧ 0 < o.nu ∧ (∀ t, o.vel.uE t = .ok (u t)) ∧
    (∀ t, o.vel.duE t = .ok (du t)) ∧ (∀ x, HasDerivAt u (du x) x) ∧ ContDiffOn ℝ 6 u (Set.Icc 0 1) ∧
    (∀ x ∈ Set.Icc (0:ℝ) 1, -(1/1000) < u x) ∧ 0 < d0 ∧
    ∃ (m : ℝ) (gap : ℝ → ℝ → ℝ) (stepper : Stepper ℝ) (root : RootFinder ℝ) (o' o'' : Obj ℝ) (p : IvpProblem ℝ) (r : IntegrationResult ℝ),
      Spaced gap m ∧ (∀ p, Runs gap p (stepper p)) ∧ (∀ g a b x, root g a b = .ok x → x ∈ Set.uIcc a b) ∧
      o.prepare 0 1 .none = (o', .ok p) ∧ o'.ic.deltaM = .ok d0 ∧ o.solve 0 1 .none (ivp o.eventValue stepper root) = (o'', .ok r) ∧
      r.success = true ∧ r.xEnd = 1 ∧ StepsAtMost 1 0 (stepper p).steps := by
  obtain ⟨⟨stepper, hst⟩, -, hu, hdu, h1, h2⟩ := rk45_exact_cases
  have hd0 : 0 < Real.sqrt (225/1000) := Real.sqrt_pos.2 (by norm_num)
  obtain ⟨o'', r, hs, hok, -, hend, -⟩ := rk45_stagnation (x0 := 0) (x1 := 1) rfl rfl rfl (by norm_num) hu hdu one_pos
    ⟨hd0.le, h1⟩ h2 rfl one_pos rk45_example.1 hst (fun _ a _ => .ok a)
  have hp : ∃ o' p, (⟨.thwaitesLinear, 3, ⟨some (.fn fun x => .ok x), some (.fn fun _ => .ok 1), none⟩,
        .manual 0 1 0 (Real.sqrt (225/1000)) 0, [.sepThwaites Fits.white], none, some Fits.white⟩ : Obj ℝ).prepare 0 1 .none = (o', .ok p) ∧
      o'.ic.deltaM = .ok (Real.sqrt (225/1000)) := by
    obtain ⟨o', h1, -, -, -, -, -, h2⟩ := prepare_thwaites (x0 := 0) (x1 := 1) (d := 1) rfl (by norm_num) (hdu 0) rfl
    exact ⟨o', _, h1, h2⟩
  obtain ⟨o', p, hp, hd⟩ := hp
  obtain ⟨p1, p2, p3, p4, p5, p6, p7⟩ := linear_start hp rfl (by norm_num) hd
  obtain ⟨c1, c2, -, -⟩ := rk45_steps rk45_example.1 (hst p) (by rw [p5, p6]; exact one_pos) (by rw [p7]; simp)
  refine ⟨_, fun t => t, fun _ => 1, _, rfl, by norm_num, hu, hdu, fun x => hasDerivAt_id x, contDiffOn_id, fun x hx => by linarith [hx.1], hd0,
    _, _, stepper, _, o', o'', p, r, rk45_example.1, hst, fun g a b x h => ?_, hp, hd, hs, hok, hend, ?_⟩
  · rw [← Except.ok.inj h]; exact Set.left_mem_uIcc
  · have := steps_at_most c1 (x0 := 0) (x1 := 1) (by rw [p5]) fun s hs => by rw [← p6]; exact (c2 s hs).2.1
    rw [p5] at this
    simpa using this

end IBL
