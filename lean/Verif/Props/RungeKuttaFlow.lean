import Verif.Props.RungeKuttaConverges
import Verif.Props.HeadError
import Verif.Props.HeadExamples
import Verif.Props.TableFlow

/-!
C135, continued: what `solve` stores converges for Thwaites' and Head's methods.
-/

namespace IBL
open SolveIvp RungeKutta Fits

/-! ### Specification -/

/-- The results of `solve` converge. There is a constant `C` such that the following holds for every call of `solve` from `x0` to some `x1'`, with start vector
`y0`, that returns: RK45 takes no step longer than `h`, and `C h <= 1`. If the call reports success, then `close` holds of the object, with the error `C h`, at
every `x` from the start to the end that is reported; if the call is to go beyond `x1`, at those that are at least `h` before `x1`. If the call is not to go beyond
`x1` and the numbers are so dense that `C` times their spacing does not exceed the absolute tolerance 1e-11 of the code, the call does report success: the end is
reached, or an event ended the integration. -/
def SolveConverges (o : Obj ℝ) (x0 x1 : ℝ) (y0 : List ℝ) (close : Obj ℝ → ℝ → ℝ → Prop) : Prop :=
  ∃ C, 0 < C ∧ ∀ (te : TermArg ℝ) (gap : ℝ → ℝ → ℝ) (m : ℝ) (stepper : Stepper ℝ) (root : RootFinder ℝ) (o' o'' : Obj ℝ) (p : IvpProblem ℝ)
    (r : IntegrationResult ℝ) (x1' h : ℝ), x0 < x1' → Spaced gap m → (∀ p, Runs gap p (stepper p)) →
    (∀ g a b x, root g a b = .ok x → x ∈ Set.uIcc a b) → o.prepare x0 x1' te = (o', .ok p) → p.y0 = y0 →
    o.solve x0 x1' te (ivp o.eventValue stepper root) = (o'', .ok r) → ShortSteps h x0 r (stepper p).steps → C * h ≤ 1 →
    (r.success = true → ∀ x ∈ Set.Icc x0 r.xEnd, x1' ≤ x1 ∨ x + h ≤ x1 → close o'' x (C * h)) ∧
    (x1' ≤ x1 → (∀ t ∈ Set.Icc x0 x1, C * gap t 1 ≤ 1 / 10 ^ 11) → r.success = true ∧
      ((r.status = .reachedEnd ∧ r.xEnd = x1') ∨ ∃ e ∈ o.events ++ te.toList, r.status = e.info.1))

/-- It is enough to show something with errors `A` times as large. -/
theorem SolveConverges.imp {o : Obj ℝ} {x0 x1 : ℝ} {y0 : List ℝ} {c1 c2 : Obj ℝ → ℝ → ℝ → Prop} (H : SolveConverges o x0 x1 y0 c1) {A : ℝ} (hA : 1 ≤ A)
    (h : ∀ s x e, c1 s x e → 0 ≤ e ∧ c2 s x (A * e)) : SolveConverges o x0 x1 y0 c2 := by
  obtain ⟨C, hC, H⟩ := H
  have hCA : C ≤ A * C := le_mul_of_one_le_left hC.le hA
  refine ⟨A * C, by positivity, fun te gap m stepper root o' o'' p r x1' δ hx1 hg hst hroot hp hy hs hmax hCh => ?_⟩
  have hCh' : C * δ ≤ 1 := by
    rcases le_total 0 δ with hd | hd
    · exact (mul_le_mul_of_nonneg_right hCA hd).trans hCh
    · linarith [mul_nonpos_of_nonneg_of_nonpos hC.le hd]
  obtain ⟨k1, k2⟩ := H te gap m stepper root o' o'' p r x1' δ hx1 hg hst hroot hp hy hs hmax hCh'
  refine ⟨fun hok x hx hb => ?_, fun hle hgap => k2 hle fun t ht => (mul_le_mul_of_nonneg_right hCA (hg.1.le.trans (hg.2 _ _))).trans (hgap t ht)⟩
  rw [mul_assoc]
  exact (h _ _ _ (k1 hok x hx hb)).2

/-- The same without a rate: however small `ε`, `close` holds with the error `ε` as soon as the steps and the spacing of the numbers do not exceed some `δ`. -/
def SolveApproaches (o : Obj ℝ) (x0 x1 : ℝ) (y0 : List ℝ) (close : Obj ℝ → ℝ → ℝ → Prop) : Prop :=
  ∀ ε, 0 < ε → ∃ δ, 0 < δ ∧ ∀ (te : TermArg ℝ) (gap : ℝ → ℝ → ℝ) (m : ℝ) (stepper : Stepper ℝ) (root : RootFinder ℝ) (o' o'' : Obj ℝ) (p : IvpProblem ℝ)
    (r : IntegrationResult ℝ) (x1' : ℝ), x0 < x1' → Spaced gap m → (∀ p, Runs gap p (stepper p)) →
    (∀ g a b x, root g a b = .ok x → x ∈ Set.uIcc a b) → o.prepare x0 x1' te = (o', .ok p) → p.y0 = y0 →
    o.solve x0 x1' te (ivp o.eventValue stepper root) = (o'', .ok r) → ShortSteps δ x0 r (stepper p).steps →
    (r.success = true → ∀ x ∈ Set.Icc x0 r.xEnd, x1' ≤ x1 ∨ x + δ ≤ x1 → close o'' x ε) ∧
    (x1' ≤ x1 → (∀ t ∈ Set.Icc x0 x1, gap t 1 ≤ δ) → r.success = true ∧
      ((r.status = .reachedEnd ∧ r.xEnd = x1') ∨ ∃ e ∈ o.events ++ te.toList, r.status = e.info.1))

/-! ### `solve` -/

theorem prepare_rhs {o o' : Obj ℝ} {x0 x1 : ℝ} {te : TermArg ℝ} {p : IvpProblem ℝ} (h : o.prepare x0 x1 te = (o', .ok p)) :
    p.rhs = o.rhs ∧ o'.cls = o.cls ∧ o'.nu = o.nu := by
  unfold Obj.prepare at h
  split at h
  · cases h
  · simp only at h
    split at h
    · cases h
    · split at h
      · cases h
      · cases h
        exact ⟨rfl, rfl, rfl⟩

private theorem last_append (pre : List (Step ℝ)) (s : Step ℝ) (a : ℝ × List ℝ) : lastPt a (pre ++ [s]) = s.pt := by
  induction pre generalizing a with
  | nil => rfl
  | cons q pre ih => exact ih _

theorem StaysWithin.at {φ : ℝ → List ℝ} {n : ℕ} {e t : ℝ} {y : List ℝ} {pre post : List (Step ℝ)} {s : Step ℝ}
    (W : StaysWithin φ n e t (pre ++ s :: post)) {x : ℝ} (hx : x ∈ Set.Icc (lastPt (t, y) pre).1 s.t) :
    (s.dense x).length = n ∧ ∀ j, |(s.dense x).getD j 0 - (φ x).getD j 0| ≤ e := by
  induction pre generalizing t y with
  | nil => exact W.1 x hx
  | cons q pre ih => exact ih (y := q.y) W.2 hx

/-- What a call of `solve` stores, when the steps of RK45 stay close to `φ`, and what it reports, when RK45 does not give up. -/
private theorem solve_run {o : Obj ℝ} {φ : ℝ → List ℝ} {n : ℕ} {x0 x1 : ℝ} (hlen : (φ x0).length = n) (hn : n ≠ 0) {te : TermArg ℝ} {gap : ℝ → ℝ → ℝ} {m : ℝ}
    {stepper : Stepper ℝ} {root : RootFinder ℝ} {o' o'' : Obj ℝ} {p : IvpProblem ℝ} {r : IntegrationResult ℝ} {x1' h ε : ℝ} (hx1 : x0 < x1') (hg : Spaced gap m)
    (hst : ∀ p, Runs gap p (stepper p)) (hroot : ∀ g a b x, root g a b = .ok x → x ∈ Set.uIcc a b) (hp : o.prepare x0 x1' te = (o', .ok p)) (hy : p.y0 = φ x0)
    (hs : o.solve x0 x1' te (ivp o.eventValue stepper root) = (o'', .ok r)) (hmax : ShortSteps h x0 r (stepper p).steps)
    (W : ∀ l l', (stepper p).steps = l ++ l' → (∀ s ∈ l, s.t ≤ x1) → StepsAtMost h x0 l → StaysWithin φ n ε x0 l) :
    (r.success = true → ∀ x ∈ Set.Icc x0 r.xEnd, x1' ≤ x1 ∨ x + h ≤ x1 → o''.cls = o.cls ∧ o''.nu = o.nu ∧ x ∈ Set.Icc x0 x1 ∧
      ∃ w, o''.state x = .ok w ∧ w.length = n ∧ ∀ j, |w.getD j 0 - (φ x).getD j 0| ≤ ε) ∧
    ((StepsAtMost h x0 (stepper p).steps → ∀ msg, (stepper p).ending ≠ .failed msg) → r.success = true ∧
      ((r.status = .reachedEnd ∧ r.xEnd = x1') ∨ ∃ e ∈ o.events ++ te.toList, r.status = e.info.1)) := by
  obtain ⟨h1, h2, h3⟩ := prepare_rhs hp
  obtain ⟨-, -, -, -, -, h6, h7, h8, -⟩ := prepare_problem hp
  have hx01 : p.x0 < p.x1 := by rw [h7, h8]; exact hx1
  have hyne : p.y0 ≠ [] := by
    intro h
    rw [hy] at h; rw [h] at hlen; exact hn hlen.symm
  obtain ⟨c1, c2, c3, -⟩ := rk45_steps hg (hst p) hx01 hyne
  rw [h7] at c1
  have out := solve_outcome o.eventValue stepper root hp hs
  constructor
  · intro hok x hxx hb
    have hne : (stepper p).steps ≠ [] := by
      intro h0
      cases out with
      | failed _ _ _ _ _ hf => rw [hok] at hf; cases hf
      | reached _ he _ _ _ =>
        obtain ⟨st, l1, -⟩ := c3.1 he
        rw [h0] at l1; cases l1
      | stopped pre rest s _ _ hsteps => rw [h0] at hsteps; cases pre <;> cases hsteps
    obtain ⟨used, rest, u1, u2, -, -, u5, -, pre, s, u7, u8⟩ := stored_solution o.eventValue stepper root hp hs hok true (dp_marches c1) hne hroot
    simp only [Between, if_true] at u8
    have hle : x ≤ (lastPt (x0, p.y0) used).1 := by
      rw [u7, last_append]
      exact hxx.2.trans u8.2
    obtain ⟨pr, st, po, w1, w2⟩ := covered u2 hxx.1 hle
    have e1 : (stepper p).steps = (pr ++ [st]) ++ (po ++ rest) := by rw [u1, w1]; simp
    have short : StepsAtMost h x0 (pr ++ [st]) := by
      have e2 : (stepper p).steps = pr ++ st :: (po ++ rest) := by rw [e1]; simp
      refine StepsTo.upto (a := (x0, p.y0)) (e2 ▸ hmax.1 hok) (e2 ▸ c1) (w2.1.trans hxx.2)
    have hlast : (lastPt (x0, p.y0) (pr ++ [st])).1 = st.t := by rw [last_append]; rfl
    have below : st.t ≤ x1 := by
      rcases hb with hb | hb
      · have := (c2 st (by rw [e1]; simp)).2.1
        rw [h8] at this
        exact this.trans hb
      · have : ∀ (pr : List (Step ℝ)) (a : ℝ × List ℝ), StepsAtMost h a.1 (pr ++ [st]) → st.t - (lastPt a pr).1 ≤ h := fun pr => by
          induction pr with
          | nil => exact fun _ H => H.1
          | cons q pr ih => exact fun _ H => ih _ H.2
        have := this pr (x0, p.y0) short
        linarith [w2.1]
    have hW := W (pr ++ [st]) (po ++ rest) e1 (fun s hs => ((e1 ▸ c1).take.le_last.2 s hs).trans (hlast.le.trans below)) short
    obtain ⟨k1, k2⟩ := hW.at (y := p.y0) w2
    obtain ⟨_, _, _, v2, -⟩ := solve_stores o.eventValue stepper root hp hs hok
    exact ⟨by rw [v2, ← h2], by rw [v2, ← h3], ⟨hxx.1, w2.2.trans below⟩, _, u5 pr st po w1 x (by simpa [Between] using w2), k1, k2⟩
  · intro nofail
    cases out with
    | failed msg _ he _ _ hok => exact absurd he (nofail (hmax.2 hok) msg)
    | reached _ he hs' hxe hok =>
      obtain ⟨st, l1, l2⟩ := c3.1 he
      refine ⟨hok, .inl ⟨hs', ?_⟩⟩
      obtain ⟨pre, e⟩ := List.getLast?_eq_some_iff.1 l1
      rw [hxe, e, last_append, ← h8]
      exact l2
    | stopped pre rest s i e' _ _ hi _ hst' _ hok =>
      refine ⟨hok, .inr ⟨e', ?_, hst'⟩⟩
      rw [← h6]
      exact List.mem_of_getElem? hi

/-- What `solve` stores, when the steps of RK45 stay close to `φ`. -/
theorem Tracks.solve_converges {o : Obj ℝ} {φ : ℝ → List ℝ} {n : ℕ} {x0 x1 : ℝ} (T : Tracks o.rhs φ n x0 x1) (hlen : (φ x0).length = n) (hn : n ≠ 0) :
    SolveConverges o x0 x1 (φ x0) fun o'' x e => o''.cls = o.cls ∧ o''.nu = o.nu ∧ x ∈ Set.Icc x0 x1 ∧
      ∃ w, o''.state x = .ok w ∧ w.length = n ∧ ∀ j, |w.getD j 0 - (φ x).getD j 0| ≤ e := by
  obtain ⟨C, hC, H⟩ := T
  refine ⟨C, hC, fun te gap m stepper root o' o'' p r x1' h hx1 hg hst hroot hp hy hs hmax hCh => ?_⟩
  obtain ⟨h1, -, -⟩ := prepare_rhs hp
  obtain ⟨-, -, -, -, -, -, h7, h8, h9⟩ := prepare_problem hp
  obtain ⟨W, nofail⟩ := H p gap m (stepper p) h h1 h7 (by rw [h8]; exact hx1) hy hg (hst p) hCh
  obtain ⟨k1, k2⟩ := solve_run hlen hn hx1 hg hst hroot hp hy hs hmax W
  refine ⟨k1, fun hle hgap => k2 fun short msg he => ?_⟩
  obtain ⟨q, -, q1, q2⟩ := nofail short (by rw [h9]; norm_num) (fun t ht => by
    rw [h9]
    exact (hgap t ht).trans (le_min (by norm_num) (by norm_num))) msg he
  rw [h8] at q1
  linarith

/-- The same without a rate. -/
theorem Approaches.solve_approaches {o : Obj ℝ} {φ : ℝ → List ℝ} {n : ℕ} {x0 x1 : ℝ} (T : Approaches o.rhs φ n x0 x1) (hlen : (φ x0).length = n) (hn : n ≠ 0) :
    SolveApproaches o x0 x1 (φ x0) fun o'' x e => o''.cls = o.cls ∧ o''.nu = o.nu ∧ x ∈ Set.Icc x0 x1 ∧
      ∃ w, o''.state x = .ok w ∧ w.length = n ∧ ∀ j, |w.getD j 0 - (φ x).getD j 0| ≤ e := by
  intro ε hε
  obtain ⟨δ, hδ, H⟩ := T ε (1 / 10 ^ 11) hε (by norm_num)
  refine ⟨δ, hδ, fun te gap m stepper root o' o'' p r x1' hx1 hg hst hroot hp hy hs hmax => ?_⟩
  obtain ⟨h1, -, -⟩ := prepare_rhs hp
  obtain ⟨-, -, -, -, -, -, h7, h8, h9⟩ := prepare_problem hp
  obtain ⟨W, nofail⟩ := H p gap m (stepper p) δ h1 h7 (by rw [h8]; exact hx1) hy hg (hst p) le_rfl
  obtain ⟨k1, k2⟩ := solve_run hlen hn hx1 hg hst hroot hp hy hs hmax W
  refine ⟨k1, fun hle hgap => k2 fun short msg he => ?_⟩
  obtain ⟨q, -, q1, q2⟩ := nofail short (by rw [h9]; norm_num) hgap msg he
  rw [h8] at q1
  linarith

/-- **C135** for `solve`, whatever the method: the equation of the object has a solution `φ` from the start value on, with slope of bounded change, near
which the right hand side is Lipschitz continuous. `solve` is asked to go to some point of the interval, takes no step longer than `h`, `C h <= 1`, and returns.
If it reports success, the solution it stores is within `C h` of `φ` from the start to the end that it reports. If the numbers are dense enough it does report
success: it reached the end, or was ended by an event. -/
theorem rk45_solve_converges {o : Obj ℝ} {φ g : ℝ → List ℝ} {n : ℕ} {x0 x1 D L ρ : ℝ} (P : SmoothPath o.rhs φ g n x0 x1 D L ρ) (hρ : 0 < ρ) (hx : x0 < x1)
    (hn : n ≠ 0) :
    SolveConverges o x0 x1 (φ x0) fun o'' x e => o''.cls = o.cls ∧ o''.nu = o.nu ∧ x ∈ Set.Icc x0 x1 ∧
      ∃ w, o''.state x = .ok w ∧ w.length = n ∧ ∀ j, |w.getD j 0 - (φ x).getD j 0| ≤ e :=
  (rk45_converges P hρ hx hn).solve_converges (P.size x0 ⟨le_rfl, hx.le⟩) hn

/-- Calls that meet the hypotheses in `SolveConverges` exist, however small the bound `1 / C` on the steps and the spacing `ε` of the numbers. -/
def Exercised (o : Obj ℝ) (x0 x1 : ℝ) (y0 : List ℝ) : Prop := ∀ C ε, 0 < C → 0 < ε →
  ∃ (te : TermArg ℝ) (stepper : Stepper ℝ) (root : RootFinder ℝ) (o' o'' : Obj ℝ) (p : IvpProblem ℝ) (r : IntegrationResult ℝ) (x1' h : ℝ), x1' ∈ Set.Ioc x0 x1 ∧
    Spaced (fun _ _ => ε) ε ∧ (∀ p, Runs (fun _ _ => ε) p (stepper p)) ∧ (∀ g a b x, root g a b = .ok x → x ∈ Set.uIcc a b) ∧
    o.prepare x0 x1' te = (o', .ok p) ∧ p.y0 = y0 ∧ o.solve x0 x1' te (ivp o.eventValue stepper root) = (o'', .ok r) ∧
    StepsAtMost h x0 (stepper p).steps ∧ C * h ≤ 1 ∧ 0 < h

theorem exercised {o : Obj ℝ} {y0 : List ℝ} {x0 x1 : ℝ} {te : TermArg ℝ} (hx : x0 < x1) (hn : y0 ≠ []) (E : Everywhere o)
    (hev : ∀ e ∈ o.events ++ te.toList, Event.Total o o.cls.size e)
    (hp : ∀ x, ∃ o' p, o.prepare x0 x te = (o', .ok p) ∧ p.y0 = y0) : Exercised o x0 x1 y0 := by
  intro C ε hC hε
  let root : RootFinder ℝ := fun _ a _ => .ok a
  have htot : ∀ f a b, ∃ x, root f a b = .ok x := fun _ a _ => ⟨a, rfl⟩
  have sp : Spaced (fun _ _ : ℝ => ε) ε := ⟨hε, fun _ _ => le_refl _⟩
  have hh : 0 < min (1 / C) (x1 - x0) := lt_min (by positivity) (by linarith)
  obtain ⟨stepper, hst, h⟩ := rk45_solve_returns E x0 (x0 + min (1 / C) (x1 - x0)) te hev htot sp
  obtain ⟨o', p, hp', hy⟩ := hp (x0 + min (1 / C) (x1 - x0))
  rcases h with ⟨e, h1, -⟩ | ⟨p', r, h1, h2⟩
  · rw [hp'] at h1; cases h1
  · obtain ⟨-, -, -, -, -, -, h7, h8, -⟩ := prepare_problem hp'
    obtain ⟨c1, c2, -, -⟩ := rk45_steps sp (hst p) (by rw [h7, h8]; linarith) (by rw [hy]; exact hn)
    rw [h7] at c1
    have st := steps_at_most c1 (le_refl x0) (fun s hs => by
      have := (c2 s hs).2.1
      rwa [h8] at this)
    refine ⟨te, stepper, root, o', _, p, r, x0 + min (1 / C) (x1 - x0), min (1 / C) (x1 - x0),
      ⟨by linarith, by linarith [min_le_right (1 / C) (x1 - x0)]⟩, sp, hst, ?_, hp', hy, Prod.ext rfl h2, ?_, ?_, hh⟩
    · rintro g a b x h
      cases h
      exact Set.left_mem_uIcc
    · rwa [add_sub_cancel_left] at st
    · calc C * min (1 / C) (x1 - x0) ≤ C * (1 / C) := mul_le_mul_of_nonneg_left (min_le_left _ _) hC.le
        _ = 1 := by field_simp

/-! ### Thwaites' methods -/

private theorem product_change {a b c d p q r s : ℝ} (h1 : |a - b| ≤ p) (h2 : |c - d| ≤ q) (h3 : |c| ≤ r) (h4 : |b| ≤ s) : |a * c - b * d| ≤ p * r + s * q := by
  rw [show a * c - b * d = (a - b) * c + b * (c - d) by ring]
  refine (abs_add_le _ _).trans (add_le_add ?_ ?_)
  · rw [abs_mul]; exact mul_le_mul h1 h3 (abs_nonneg _) ((abs_nonneg _).trans h1)
  · rw [abs_mul]; exact mul_le_mul h4 h2 (abs_nonneg _) ((abs_nonneg _).trans h4)

theorem LipOn.continuousOn {f : ℝ → ℝ} {a b : ℝ} (h : LipOn f a b) : ContinuousOn f (Set.Icc a b) := by
  obtain ⟨Λ, hΛ0, hΛ⟩ := h
  have : LipschitzOnWith ⟨Λ, hΛ0⟩ f (Set.Icc a b) := LipschitzOnWith.of_dist_le_mul fun x hx y hy => by
    rw [Real.dist_eq, Real.dist_eq]; exact hΛ x hx y hy
  exact this.continuousOn

theorem thwaites_path {o : Obj ℝ} {u du F Θ : ℝ → ℝ} {x0 x1 A B μ : ℝ} (hr : ∀ x z, o.rhs x [z] = .ok [Θ (z * du x) / (1/1000 + u x)])
    (hμ : 0 < μ) (hΘ : LipOn Θ A B) (hin : ∀ x ∈ Set.Icc x0 x1, F x * du x ∈ Set.Icc (A + μ) (B - μ)) (hu : ∀ x ∈ Set.Icc x0 x1, HasDerivWithinAt u (du x) (Set.Icc x0 x1) x) (hdu : LipOn du x0 x1)
    (hu0 : ∀ x ∈ Set.Icc x0 x1, -(1/1000) < u x) (hx : x0 < x1) (ode : ∀ x ∈ Set.Icc x0 x1, SatisfiesOde o F x) :
    ∃ D L ρ, 0 < ρ ∧ SmoothPath o.rhs (fun t => [F t]) (fun t => [Θ (F t * du t) / (1/1000 + u t)]) 1 x0 x1 D L ρ := by
  have hF : ∀ x ∈ Set.Icc x0 x1, HasDerivAt F (Θ (F x * du x) / (1/1000 + u x)) x := fun x hx => by
    obtain ⟨r, h1, h2⟩ := ode x hx
    rw [hr] at h1
    simp only [Except.ok.injEq, List.cons.injEq, and_true] at h1
    rw [h1]; exact h2
  have hFc : ContinuousOn F (Set.Icc x0 x1) := fun x hx => (hF x hx).continuousAt.continuousWithinAt
  have huc : ContinuousOn u (Set.Icc x0 x1) := fun x hx => (hu x hx).continuousWithinAt
  obtain ⟨Λ, hΛ0, hΛ⟩ := hdu
  have hduc : ContinuousOn du (Set.Icc x0 x1) := by
    have : LipschitzOnWith ⟨Λ, hΛ0⟩ du (Set.Icc x0 x1) := LipschitzOnWith.of_dist_le_mul fun x hx y hy => by
      rw [Real.dist_eq, Real.dist_eq]; exact hΛ x hx y hy
    exact this.continuousOn
  obtain ⟨w, V, hw, hV, hub, hdb⟩ := flow_bounds huc hduc hu0 hx.le
  obtain ⟨R, hR⟩ := isCompact_Icc.exists_bound_of_continuousOn hFc
  simp only [Real.norm_eq_abs] at hR
  have hR0 : 0 ≤ R := (abs_nonneg _).trans (hR x0 ⟨le_rfl, hx.le⟩)
  obtain ⟨K, hK0, hK⟩ := hΘ
  have hV1 : 0 < V + 1 := by positivity
  have inF : ∀ t ∈ Set.Icc x0 x1, F t * du t ∈ Set.Icc A B := fun t ht => ⟨by linarith [(hin t ht).1], by linarith [(hin t ht).2]⟩
  have inB : ∀ t ∈ Set.Icc x0 x1, ∀ z, |z - F t| ≤ μ / (V + 1) → z * du t ∈ Set.Icc A B := fun t ht z hz => by
    have h1 : |z * du t - F t * du t| ≤ μ := by
      rw [← sub_mul, abs_mul]
      calc _ ≤ μ / (V + 1) * (V + 1) := mul_le_mul hz ((hdb t ht).trans (by linarith)) (abs_nonneg _) (by positivity)
        _ = μ := by field_simp
    have h2 := abs_le.1 h1
    exact ⟨by linarith [(hin t ht).1, h2.1], by linarith [(hin t ht).2, h2.2]⟩
  have hx0 : x0 ∈ Set.Icc x0 x1 := ⟨le_rfl, hx.le⟩
  obtain ⟨T, hT⟩ : ∃ T, T = |Θ (F x0 * du x0)| + K * (|A| + |B| + (|A| + |B|)) := ⟨_, rfl⟩
  have hT0 : 0 ≤ T := by rw [hT]; positivity
  have hTb : ∀ t ∈ Set.Icc x0 x1, |Θ (F t * du t)| ≤ T := fun t ht => by
    have h1 := hK _ (inF t ht) _ (inF x0 hx0)
    have h4 : ∀ t ∈ Set.Icc x0 x1, |F t * du t| ≤ |A| + |B| := fun t ht => by
      rw [abs_le]
      exact ⟨by linarith [(inF t ht).1, neg_abs_le A, abs_nonneg B], by linarith [(inF t ht).2, le_abs_self B, abs_nonneg A]⟩
    have h2 := mul_le_mul_of_nonneg_left ((abs_sub _ _).trans (add_le_add (h4 t ht) (h4 x0 hx0))) hK0
    have h3 := abs_sub_abs_le_abs_sub (Θ (F t * du t)) (Θ (F x0 * du x0))
    rw [hT]; linarith
  have hwinv : ∀ t ∈ Set.Icc x0 x1, |(1/1000 + u t)⁻¹| ≤ w⁻¹ := fun t ht => by
    rw [abs_inv, abs_of_pos (hw.trans_le (hub t ht))]
    exact inv_anti₀ hw (hub t ht)
  have hFl : ∀ s ∈ Set.Icc x0 x1, ∀ t ∈ Set.Icc x0 x1, |F s - F t| ≤ T * w⁻¹ * |s - t| := fun s hs t ht => by
    have := (convex_Icc x0 x1).norm_image_sub_le_of_norm_hasDerivWithin_le (f := F) (C := T * w⁻¹) (fun z hz => (hF z hz).hasDerivWithinAt)
      (fun z hz => by
        rw [Real.norm_eq_abs, div_eq_mul_inv, abs_mul]
        exact mul_le_mul (hTb z hz) (hwinv z hz) (abs_nonneg _) hT0) ht hs
    simpa [Real.norm_eq_abs] using this
  have hul : ∀ s ∈ Set.Icc x0 x1, ∀ t ∈ Set.Icc x0 x1, |u s - u t| ≤ V * |s - t| := fun s hs t ht => by
    have := (convex_Icc x0 x1).norm_image_sub_le_of_norm_hasDerivWithin_le (f := u) (C := V) hu (fun z hz => by
        rw [Real.norm_eq_abs]; exact hdb z hz) ht hs
    simpa [Real.norm_eq_abs] using this
  refine ⟨K * (T * w⁻¹ * V + R * Λ) * w⁻¹ + T * (V * (w⁻¹ * w⁻¹)), K * V * w⁻¹, μ / (V + 1), by positivity, fun t ht => rfl, fun t ht => hr t _, fun t ht j => ?_, fun s hs t ht j => ?_,
    fun t ht y v δ hy hδ hd hv j => ?_⟩
  · rcases j with _ | j
    · exact (hF t ht).hasDerivWithinAt
    · simp only [List.getD_cons_succ, List.getD_nil]; exact hasDerivWithinAt_const _ _ _
  · rcases j with _ | j
    · show |Θ (F s * du s) / (1/1000 + u s) - Θ (F t * du t) / (1/1000 + u t)| ≤ _
      have a1 := product_change (hFl s hs t ht) (hΛ s hs t ht) (hdb s hs) (hR t ht)
      have a2 := (hK _ (inF s hs) _ (inF t ht)).trans (mul_le_mul_of_nonneg_left a1 hK0)
      have a3 : |(1/1000 + u s)⁻¹ - (1/1000 + u t)⁻¹| ≤ V * |s - t| * (w⁻¹ * w⁻¹) := by
        have n1 := (hw.trans_le (hub s hs)).ne'
        have n2 := (hw.trans_le (hub t ht)).ne'
        rw [inv_sub_inv n1 n2, div_eq_mul_inv, mul_inv, show 1/1000 + u t - (1/1000 + u s) = -(u s - u t) by ring, abs_mul, abs_mul, abs_neg]
        exact mul_le_mul (hul s hs t ht) (mul_le_mul (hwinv s hs) (hwinv t ht) (abs_nonneg _) (by positivity)) (by positivity) (by positivity)
      rw [div_eq_mul_inv, div_eq_mul_inv]
      refine (product_change a2 a3 (hwinv s hs) (hTb t ht)).trans (le_of_eq (by ring))
    · simp only [List.getD_cons_succ, List.getD_nil, sub_self, abs_zero]; positivity
  · obtain ⟨z, rfl⟩ := List.length_eq_one_iff.1 hy
    rw [hr] at hv
    cases hv
    have d0 : |z - F t| ≤ δ := hd 0
    have hδ0 : 0 ≤ δ := (abs_nonneg _).trans d0
    rcases j with _ | j
    · show |Θ (z * du t) / (1/1000 + u t) - Θ (F t * du t) / (1/1000 + u t)| ≤ _
      have a1 := hK _ (inB t ht z (d0.trans hδ)) _ (inF t ht)
      rw [← sub_mul, abs_mul] at a1
      rw [← sub_div, div_eq_mul_inv, abs_mul]
      calc _ ≤ K * (δ * V) * w⁻¹ := mul_le_mul (a1.trans (mul_le_mul_of_nonneg_left (mul_le_mul d0 (hdb t ht) (abs_nonneg _) hδ0) hK0)) (hwinv t ht)
            (abs_nonneg _) (by positivity)
        _ = _ := by ring
    · simp only [List.getD_cons_succ, List.getD_nil, sub_self, abs_zero]; positivity

/-- The wall shear of White's fits has a vertical tangent at its end, lambda = -0.09. Above it the term F of the nonlinear equation is Lipschitz continuous. -/
private theorem white_lip {p q : ℝ} (hp : -9/100 < p) : LipOn (Fits.white : Fits ℝ).fAt p q := by
  have e : Set.EqOn (Fits.white : Fits ℝ).fAt (fun l => 2 * ((l + 9/100) ^ (62/100 : ℝ) - l * (2 + (1/4 - l) * (414/100 + (1/4 - l) * (-835/10 + (1/4 - l) *
      (854 + (1/4 - l) * (-3337 + (1/4 - l) * 4576)))) + 2))) (Set.Icc p q) := fun l hl => by
    rw [fAt, shearAt, shapeAt, white_clip, max_eq_left (by linarith [hl.1])]
    simp only [Fits.white, real_pow, real_lit]
    norm_num
  have c : ContDiffOn ℝ 1 (fun l : ℝ => 2 * ((l + 9/100) ^ (62/100 : ℝ) - l * (2 + (1/4 - l) * (414/100 + (1/4 - l) * (-835/10 + (1/4 - l) *
      (854 + (1/4 - l) * (-3337 + (1/4 - l) * 4576)))) + 2))) (Set.Icc p q) := by
    refine contDiffOn_const.mul (ContDiffOn.sub ?_ (by fun_prop))
    exact ContDiffOn.rpow_const_of_ne (by fun_prop) fun l hl => by linarith [hl.1]
  obtain ⟨K, hK⟩ := c.exists_lipschitzOnWith one_ne_zero (convex_Icc p q) isCompact_Icc
  refine ⟨K, K.2, fun x hx y hy => ?_⟩
  rw [e hx, e hy]
  have := hK.dist_le_mul x hx y hy
  rwa [Real.dist_eq, Real.dist_eq] at this

/-- The two methods of Thwaites, the nonlinear one with any built-in fits, where lambda of a layer `F` stays above -0.09 if they are White's. -/
def Regular (o : Obj ℝ) (m : Fits ℝ) (F du : ℝ → ℝ) (x0 x1 : ℝ) : Prop :=
  o.cls = .thwaitesLinear ∨ o.cls = .thwaitesNonlinear ∧ o.fits = some m ∧ (TameFit m ∨ m = Fits.white ∧ ∀ x ∈ Set.Icc x0 x1, -9/100 < F x * du x)

theorem Regular.rate {o : Obj ℝ} {m : Fits ℝ} {u du F : ℝ → ℝ} {x0 x1 : ℝ} (hc : Regular o m F du x0 x1)
    (huE : ∀ t, o.vel.uE t = .ok (u t)) (hduE : ∀ t, o.vel.duE t = .ok (du t)) (hx : x0 ≤ x1) (hl : ContinuousOn (fun x => F x * du x) (Set.Icc x0 x1)) :
    ∃ (Θ : ℝ → ℝ) (A B μ : ℝ), (∀ x z, o.rhs x [z] = .ok [Θ (z * du x) / (1/1000 + u x)]) ∧ 0 < μ ∧ LipOn Θ A B ∧
      ∀ x ∈ Set.Icc x0 x1, F x * du x ∈ Set.Icc (A + μ) (B - μ) := by
  obtain ⟨R, hR⟩ := isCompact_Icc.exists_bound_of_continuousOn hl
  simp only [Real.norm_eq_abs] at hR
  have hR0 : 0 ≤ R := (abs_nonneg _).trans (hR x0 ⟨le_rfl, hx⟩)
  have hin : ∀ x ∈ Set.Icc x0 x1, F x * du x ∈ Set.Icc (-(R + 1) + 1) (R + 1 - 1) := fun x hx => by
    rw [neg_add_rev, neg_add_cancel_comm, add_sub_cancel_right, Set.mem_Icc, ← abs_le]; exact hR x hx
  rcases hc with hc | ⟨hc, hf, hm | ⟨rfl, hw⟩⟩
  · refine ⟨fun l => 45/100 - 6 * l, -(R + 1), R + 1, 1, fun x z => ?_, one_pos, ⟨6, by norm_num, fun x _ y _ => ?_⟩, hin⟩
    · simp [Obj.rhs, hc, Obj.thwaitesRhs, Obj.calcF, Obj.calcLambda, huE, hduE, bind, Except.bind, pure, Except.pure]
    · rw [show 45/100 - 6 * x - (45/100 - 6 * y) = -(6 * (x - y)) by ring, abs_neg, abs_mul]; norm_num
  · refine ⟨m.fAt, -(R + 1), R + 1, 1, fun x z => nonlinear_rhs hc hf huE hduE x z, one_pos, ?_, hin⟩
    rcases hm with rfl | rfl | ⟨cs, hcs, rfl⟩
    · exact sides_cb.lip (by positivity)
    · exact sides_drela.lip (by positivity)
    · exact (sides_spline hcs).lip (by positivity)
  · obtain ⟨z, hz, hmin⟩ := isCompact_Icc.exists_isMinOn (Set.nonempty_Icc.2 hx) hl
    have hz0 := hw z hz
    have hm : ∀ x ∈ Set.Icc x0 x1, F z * du z ≤ F x * du x := fun x hx => hmin hx
    obtain ⟨μ, hμ⟩ : ∃ μ, μ = (F z * du z + 9/100) / 2 := ⟨_, rfl⟩
    have hμ0 : 0 < μ := by rw [hμ]; linarith
    refine ⟨Fits.white.fAt, -9/100 + μ, R + μ, μ, fun x z => nonlinear_rhs hc hf huE hduE x z, hμ0, white_lip (by linarith), fun x hx => ⟨?_, ?_⟩⟩
    · linarith [hm x hx]
    · linarith [(abs_le.1 (hR x hx)).2]

/-- **C135** for Thwaites' methods, the nonlinear one with any built-in fits, White's however only for layers that stay above lambda = -0.09: a flow whose velocity
gradient is Lipschitz continuous and whose velocity stays above -0.001, and a positive solution `F` of the equation on `[x0, x1]`. Let `solve` return from a call for some end in that interval, started from
`F x0`, having taken no step longer than `h`, `C h <= 1`. If it reports success, `delta_m` is, from the start to the reported end, within `C h` of the momentum
thickness `sqrt(nu F)` of the exact layer; and it reports success if the numbers are dense enough. -/
theorem thwaites_converges {o : Obj ℝ} {m : Fits ℝ} {u du F : ℝ → ℝ} {x0 x1 : ℝ}
    (hc : Regular o m F du x0 x1) (hnu : 0 < o.nu) (huE : ∀ t, o.vel.uE t = .ok (u t)) (hduE : ∀ t, o.vel.duE t = .ok (du t))
    (hu : ∀ x ∈ Set.Icc x0 x1, HasDerivWithinAt u (du x) (Set.Icc x0 x1) x) (hdu : LipOn du x0 x1) (hu0 : ∀ x ∈ Set.Icc x0 x1, -(1/1000) < u x) (hx : x0 < x1)
    (ode : ∀ x ∈ Set.Icc x0 x1, SatisfiesOde o F x ∧ 0 < F x) :
    SolveConverges o x0 x1 [F x0] fun o'' x e => ∃ d, o''.deltaM x = .ok d ∧ |d - Real.sqrt (F x * o.nu)| ≤ e := by
  have hFc : ContinuousOn F (Set.Icc x0 x1) := fun x hx' => by
    obtain ⟨r, -, h⟩ := (ode x hx').1
    exact h.continuousAt.continuousWithinAt
  obtain ⟨Θ, A, B, μ, hr, hμ, hΘ, hin⟩ := hc.rate huE hduE hx.le (hFc.mul hdu.continuousOn)
  obtain ⟨D, L, ρ, hρ, P⟩ := thwaites_path hr hμ hΘ hin hu hdu hu0 hx fun x hx => (ode x hx).1
  obtain ⟨z, hz, hmin⟩ := isCompact_Icc.exists_isMinOn (Set.nonempty_Icc.2 hx.le) hFc
  have hz0 : 0 < F z * o.nu := mul_pos (ode z hz).2 hnu
  have hsq : 0 < Real.sqrt (F z * o.nu) := Real.sqrt_pos.2 hz0
  refine (rk45_solve_converges P hρ hx one_ne_zero).imp (A := max 1 (o.nu / Real.sqrt (F z * o.nu))) (le_max_left _ _) fun s x e ⟨q1, q2, mx, w, w1, w2, w3⟩ => ?_
  obtain ⟨v, rfl⟩ := List.length_eq_one_iff.1 w2
  have v0 : |v - F x| ≤ e := w3 0
  have e0 : 0 ≤ e := (abs_nonneg _).trans v0
  have hdm : s.deltaM x = .ok (Real.sqrt (v * o.nu)) := by
    rcases hc with hc | ⟨hc, -⟩ <;>
      simp only [Obj.deltaM, q1, hc, Obj.comp, w1, bind, Except.bind, pure, Except.pure, List.getElem?_cons_zero, q2, real_sqrt]
  refine ⟨e0, _, hdm, (sqrt_close (c := F z * o.nu) (e := o.nu * e) hz0 (mul_le_mul_of_nonneg_right (hmin mx) hnu.le) ?_).trans ?_⟩
  · rw [← sub_mul, abs_mul, abs_of_pos hnu, mul_comm]
    exact mul_le_mul_of_nonneg_left v0 hnu.le
  · calc _ = o.nu / Real.sqrt (F z * o.nu) * e := by ring
      _ ≤ _ := mul_le_mul_of_nonneg_right (le_max_right _ _) e0

/-! ### Tables -/

private theorem poly_continuous (q : List ℝ) : Continuous fun t => PPoly.polyEval q t := by
  induction q with
  | nil => simp only [PPoly.polyEval_nil]; exact continuous_const
  | cons c q ih => simp only [PPoly.polyEval_cons]; fun_prop

private theorem eval_bounded (q : PPoly.Pieces ℝ) (a b : ℝ) : ∃ B, ∀ x ∈ Set.Icc a b, |PPoly.eval q x| ≤ B := by
  induction q with
  | nil => exact ⟨0, fun x _ => by simp [PPoly.eval]⟩
  | cons hd tl ih =>
    obtain ⟨B, hB⟩ := ih
    obtain ⟨B', hB'⟩ := isCompact_Icc.exists_bound_of_continuousOn (s := Set.Icc a b) (f := fun x => PPoly.polyEval hd.2 (x - hd.1))
      ((poly_continuous hd.2).comp (continuous_id.sub continuous_const)).continuousOn
    refine ⟨max B B', fun x hx => ?_⟩
    rcases tl with _ | ⟨k, tl⟩
    · exact (hB' x hx).trans (le_max_right _ _)
    · simp only [PPoly.eval]
      split_ifs
      · exact (hB' x hx).trans (le_max_right _ _)
      · exact (hB x hx).trans (le_max_left _ _)

/-- The gradient of a tabulated velocity is Lipschitz continuous. -/
theorem table_slope_lip {pts : List (ℝ × ℝ)} (h : Table pts) (a b : ℝ) : LipOn (PPoly.eval (PPoly.deriv (Pchip.pieces (Pchip.knots pts)))) a b := by
  have M := pieces_monotone h
  obtain ⟨B, hB⟩ := eval_bounded (PPoly.deriv (PPoly.deriv (Pchip.pieces (Pchip.knots pts)))) a b
  have key : ∀ x y, x ≤ y → x ∈ Set.Icc a b → y ∈ Set.Icc a b →
      |PPoly.eval (PPoly.deriv (Pchip.pieces (Pchip.knots pts))) y - PPoly.eval (PPoly.deriv (Pchip.pieces (Pchip.knots pts))) x| ≤ |B| * (y - x) :=
    fun x y hxy hx hy => norm_image_sub_le_of_norm_deriv_right_le_segment (a := x) (b := y) M.slopeCont.continuousOn
      (fun t _ => M.curvatureRight t) (fun t ht => (hB t ⟨hx.1.trans ht.1, ht.2.le.trans hy.2⟩).trans (le_abs_self B)) y ⟨hxy, le_rfl⟩
  refine ⟨|B|, abs_nonneg _, fun x hx y hy => ?_⟩
  rcases le_total x y with hxy | hxy
  · rw [abs_sub_comm, abs_sub_comm x y, abs_of_nonneg (sub_nonneg.2 hxy)]; exact key x y hxy hx hy
  · rw [abs_of_nonneg (sub_nonneg.2 hxy)]; exact key y x hxy hy hx

/-- **C135** for tabulated velocities: a method object of Thwaites' linear method, or of the nonlinear method with any built-in fits but White's, is given a table
of velocities, none negative. Over any interval within the table, from every positive start value, the results converge to the one exact layer `F`. -/
theorem table_thwaites_converges (ext : Ext ℝ) (other : Pchip ℝ) (hext : ext.pchip = Pchip.interpolator other) (o o' : Obj ℝ)
    (pts : List (ℝ × ℝ)) (y z : Arg ℝ) (m : Fits ℝ) (h : Table pts) (hpos : ∀ p ∈ pts, 0 ≤ p.2)
    (hs : o.setVelocity ext (tableArg pts) y z = (o', .ok ())) (hnu : 0 < o.nu) (hf : o.fits = some m)
    (hc : o.cls = .thwaitesLinear ∨ o.cls = .thwaitesNonlinear ∧ TameFit m) (a b F0 : ℝ) (ha : firstX pts ≤ a) (hab : a < b)
    (hb : b ≤ lastX pts) (h0 : 0 < F0) :
    ∃ F : ℝ → ℝ, F a = F0 ∧ (∀ x ∈ Set.Icc a b, SatisfiesOde o' F x ∧ 0 < F x) ∧
      SolveConverges o' a b [F0] fun o'' x e => ∃ d, o''.deltaM x = .ok d ∧ |d - Real.sqrt (F x * o.nu)| ≤ e := by
  obtain ⟨F, k1, k2, -⟩ := table_thwaites_determined ext other hext o o' pts y z m h hpos hs hnu hf hc a b F0 ha hab.le hb h0
  have e : o.setVelocity ext (tableArg pts) y z = ({ o with vel := ⟨some (.fn fun x => .ok (PPoly.eval (Pchip.pieces (Pchip.knots pts)) x)),
      some (.fn fun x => .ok (PPoly.eval (PPoly.deriv (Pchip.pieces (Pchip.knots pts))) x)),
      some (.fn fun x => .ok (PPoly.eval (PPoly.deriv (PPoly.deriv (Pchip.pieces (Pchip.knots pts)))) x))⟩ }, .ok ()) := by
    have hi := interpolator_table other h
    have hn : ¬ pts.length < 2 := not_lt.2 h.long
    simp only [Obj.setVelocity, tableArg, setVelocity, hext, hi]
    simp only [vector, List.length_map, ne_eq, not_true_eq_false, if_false, hn, setVelCallable, Spline.toCallable]
    rfl
  rw [hs] at e
  obtain rfl := (Prod.mk.inj e).1
  have M := pieces_monotone h
  have key := thwaites_converges (m := m) (F := F) (x0 := a) (x1 := b) (u := PPoly.eval (Pchip.pieces (Pchip.knots pts)))
    (du := PPoly.eval (PPoly.deriv (Pchip.pieces (Pchip.knots pts)))) (by exact hc.imp id fun hc => ⟨hc.1, hf, .inl hc.2⟩) (by exact hnu)
    (fun t => by simp [VelState.uE, VelState.rawU, callOpt, Vel.call]) (fun t => by simp [VelState.duE, VelState.rawDu, callOpt, Vel.call])
    (fun x _ => (M.slope x).hasDerivWithinAt) (table_slope_lip h a b)
    (fun x hx => by linarith [(M.bounds h ⟨ha.trans hx.1, hx.2.trans hb⟩).1 0 hpos]) hab k2
  rw [k1] at key
  exact ⟨F, k1, k2, key⟩

/-! ### Head's method -/

theorem head_path {o : Obj ℝ} {u du d h : ℝ → ℝ} {x0 x1 : ℝ} (hc : o.cls = .head) (hnu : 0 < o.nu)
    (huE : ∀ t, o.vel.uE t = .ok (u t)) (hduE : ∀ t, o.vel.duE t = .ok (du t))
    (hu : ∀ x ∈ Set.Icc x0 x1, HasDerivWithinAt u (du x) (Set.Icc x0 x1) x) (hdu : LipOn du x0 x1) (hx : x0 < x1)
    (ode : ∀ x ∈ Set.Icc x0 x1, HeadOde o d h x ∧ 0 < d x) (side : (∀ x ∈ Set.Icc x0 x1, h x < 16/10) ∨ ∀ x ∈ Set.Icc x0 x1, 16/10 < h x) :
    ∃ g D L ρ, 0 < ρ ∧ SmoothPath o.rhs (fun t => [d t, h t]) g 2 x0 x1 D L ρ := by
  have hode := fun x hx => (ode x hx).1.derivs hc huE hduE
  have hdc : ContinuousOn d (Set.Icc x0 x1) := fun x hx => (hode x hx).1.continuousAt.continuousWithinAt
  have hhc : ContinuousOn h (Set.Icc x0 x1) := fun x hx => (hode x hx).2.continuousAt.continuousWithinAt
  have huc : ContinuousOn u (Set.Icc x0 x1) := fun x hx => (hu x hx).continuousWithinAt
  obtain ⟨Λ, hΛ0, hΛ⟩ := hdu
  have hduc : ContinuousOn du (Set.Icc x0 x1) := by
    have : LipschitzOnWith ⟨Λ, hΛ0⟩ du (Set.Icc x0 x1) := LipschitzOnWith.of_dist_le_mul fun x hx y hy => by
      rw [Real.dist_eq, Real.dist_eq]; exact hΛ x hx y hy
    exact this.continuousOn
  have ne := Set.nonempty_Icc.2 hx.le
  obtain ⟨z, hz, hzm⟩ := isCompact_Icc.exists_isMinOn ne hdc
  obtain ⟨z', hz', hzm'⟩ := isCompact_Icc.exists_isMinOn (f := fun x => |h x - 16/10|) ne (hhc.sub continuousOn_const).abs
  obtain ⟨Rd, hRd⟩ := isCompact_Icc.exists_bound_of_continuousOn hdc
  obtain ⟨Rh, hRh⟩ := isCompact_Icc.exists_bound_of_continuousOn hhc
  obtain ⟨W, hW⟩ := isCompact_Icc.exists_bound_of_continuousOn huc
  obtain ⟨V, hV⟩ := isCompact_Icc.exists_bound_of_continuousOn hduc
  simp only [Real.norm_eq_abs] at hRd hRh hW hV
  have hV0 : 0 ≤ V := (abs_nonneg _).trans (hV x0 ⟨le_rfl, hx.le⟩)
  have hdz := (ode z hz).2
  have hgz : 0 < |h z' - 16/10| := by
    rw [abs_pos]
    rcases side with s | s
    · have := s z' hz'; linarith
    · have := s z' hz'; linarith
  obtain ⟨ρ, hρ⟩ : ∃ ρ, ρ = min (d z / 2) (|h z' - 16/10| / 2) := ⟨_, rfl⟩
  have hρ0 : 0 < ρ := by rw [hρ]; exact lt_min (by linarith) (by linarith)
  have hρ1 : ρ ≤ d z / 2 := by rw [hρ]; exact min_le_left _ _
  have hρ2 : ρ ≤ |h z' - 16/10| / 2 := by rw [hρ]; exact min_le_right _ _
  obtain ⟨K, B, hB0, hKL, hKH, hB⟩ := headBox_rates o.nu (max W (1/1000)) V (d z / 2) (Rd + ρ) (max (Rh + ρ) (111/100)) hnu (by linarith)
  let Q : ℝ → ℝ → ℝ → ℝ × ℝ × ℝ × ℝ := fun x p q => (HeadBranch.U u x, du x, p, max q (111/100))
  have inBox : ∀ x ∈ Set.Icc x0 x1, ∀ p q, |p - d x| ≤ ρ → |q - h x| ≤ ρ → Q x p q ∈ headBox (max W (1/1000)) V (d z / 2) (Rd + ρ) (max (Rh + ρ) (111/100)) := by
    intro x hx p q hp hq
    have a1 := abs_le.1 hp
    have a2 := abs_le.1 hq
    have a3 : d z ≤ d x := hzm hx
    exact ⟨⟨le_max_right _ _, max_le_max ((le_abs_self _).trans (hW x hx)) le_rfl⟩, abs_le.1 (hV x hx),
      ⟨by show d z / 2 ≤ p; linarith [a1.1], by show p ≤ Rd + ρ; linarith [a1.2, (le_abs_self _).trans (hRd x hx)]⟩,
      le_max_right _ _, max_le_max (by linarith [a2.2, (le_abs_self _).trans (hRh x hx)]) le_rfl⟩
  obtain ⟨Φ, hΦ, hΦB, hr⟩ : ∃ Φ : ℝ × ℝ × ℝ × ℝ → ℝ × ℝ, LipschitzOnWith K Φ (headBox (max W (1/1000)) V (d z / 2) (Rd + ρ) (max (Rh + ρ) (111/100))) ∧
      (∀ P ∈ headBox (max W (1/1000)) V (d z / 2) (Rd + ρ) (max (Rh + ρ) (111/100)), ‖Φ P‖ ≤ B) ∧
      ∀ x ∈ Set.Icc x0 x1, ∀ p q, |q - h x| ≤ ρ → Head.rates o.nu (Head.floorScalar (u x)) (du x) p (Head.odeClamp q) = Φ (Q x p q) := by
    have far : ∀ x ∈ Set.Icc x0 x1, 2 * ρ ≤ |h x - 16/10| := fun x hx => by
      have : |h z' - 16/10| ≤ |h x - 16/10| := hzm' hx
      linarith
    rcases side with sd | sd
    · refine ⟨_, hKL, fun P hP => (hB P hP).1, fun x hx p q hq => HeadBranch.rates_P_low (u := u) (du := du) (dm := fun _ => p) (h := fun _ => q) (t := x) ?_⟩
      have a1 := far x hx
      rw [abs_of_neg (by linarith [sd x hx])] at a1
      linarith [(abs_le.1 hq).2]
    · refine ⟨_, hKH, fun P hP => (hB P hP).2, fun x hx p q hq => HeadBranch.rates_P_high (u := u) (du := du) (dm := fun _ => p) (h := fun _ => q) (t := x) ?_⟩
      have a1 := far x hx
      rw [abs_of_pos (by linarith [sd x hx])] at a1
      linarith [(abs_le.1 hq).1]
  have rhs : ∀ x ∈ Set.Icc x0 x1, ∀ p q, |q - h x| ≤ ρ → o.rhs x [p, q] = .ok [(Φ (Q x p q)).1, (Φ (Q x p q)).2] := fun x hx p q hq => by
    rw [← hr x hx p q hq]
    simp [Obj.rhs, hc, Obj.headRhs, huE, hduE, bind, Except.bind, pure, Except.pure]
  have self : ∀ t, |d t - d t| ≤ ρ ∧ |h t - h t| ≤ ρ := fun t => by simp [hρ0.le]
  have inPath : ∀ t ∈ Set.Icc x0 x1, Q t (d t) (h t) ∈ headBox (max W (1/1000)) V (d z / 2) (Rd + ρ) (max (Rh + ρ) (111/100)) := fun t ht =>
    inBox t ht _ _ (self t).1 (self t).2
  have der : ∀ t ∈ Set.Icc x0 x1, HasDerivAt d (Φ (Q t (d t) (h t))).1 t ∧ HasDerivAt h (Φ (Q t (d t) (h t))).2 t := fun t ht => by
    rw [← hr t ht _ _ (self t).2]; exact hode t ht
  have bd : ∀ t ∈ Set.Icc x0 x1, |(Φ (Q t (d t) (h t))).1| ≤ B ∧ |(Φ (Q t (d t) (h t))).2| ≤ B := fun t ht =>
    ⟨(norm_fst_le _).trans (hΦB _ (inPath t ht)), (norm_snd_le _).trans (hΦB _ (inPath t ht))⟩
  have mvt : ∀ {f f' : ℝ → ℝ} {c : ℝ}, (∀ t ∈ Set.Icc x0 x1, HasDerivWithinAt f (f' t) (Set.Icc x0 x1) t) → (∀ t ∈ Set.Icc x0 x1, |f' t| ≤ c) →
      ∀ s ∈ Set.Icc x0 x1, ∀ t ∈ Set.Icc x0 x1, |f s - f t| ≤ c * |s - t| := fun hf hb s hs t ht => by
    have := (convex_Icc x0 x1).norm_image_sub_le_of_norm_hasDerivWithin_le hf hb ht hs
    simpa [Real.norm_eq_abs] using this
  have ld := mvt (fun t ht => (der t ht).1.hasDerivWithinAt) fun t ht => (bd t ht).1
  have lh := mvt (fun t ht => (der t ht).2.hasDerivWithinAt) fun t ht => (bd t ht).2
  have lu := mvt hu hV
  have close : ∀ {P P' : ℝ × ℝ × ℝ × ℝ} {e : ℝ}, P ∈ headBox (max W (1/1000)) V (d z / 2) (Rd + ρ) (max (Rh + ρ) (111/100)) →
      P' ∈ headBox (max W (1/1000)) V (d z / 2) (Rd + ρ) (max (Rh + ρ) (111/100)) → |P.1 - P'.1| ≤ e → |P.2.1 - P'.2.1| ≤ e → |P.2.2.1 - P'.2.2.1| ≤ e →
      |P.2.2.2 - P'.2.2.2| ≤ e → |(Φ P).1 - (Φ P').1| ≤ K * e ∧ |(Φ P).2 - (Φ P').2| ≤ K * e := fun hP hP' h1 h2 h3 h4 => by
    have := hΦ.dist_le_mul _ hP _ hP'
    rw [Prod.dist_eq, Prod.dist_eq, Prod.dist_eq, Prod.dist_eq] at this
    simp only [Real.dist_eq] at this
    have b := this.trans (mul_le_mul_of_nonneg_left (max_le h1 (max_le h2 (max_le h3 h4))) (NNReal.coe_nonneg K))
    exact ⟨(le_max_left _ _).trans b, (le_max_right _ _).trans b⟩
  have tail : ∀ (a b : ℝ) (j : ℕ), [a, b].getD (j + 1 + 1) 0 = 0 := fun a b j => by simp
  refine ⟨fun t => [(Φ (Q t (d t) (h t))).1, (Φ (Q t (d t) (h t))).2], K * (V + Λ + B), K, ρ, hρ0, fun t ht => rfl, fun t ht => rhs t ht _ _ (self t).2,
    fun t ht j => ?_, fun s hs t ht j => ?_, fun t ht y v δ hy hδ hd hv j => ?_⟩
  · rcases j with _ | _ | j
    · exact (der t ht).1.hasDerivWithinAt
    · exact (der t ht).2.hasDerivWithinAt
    · simp only [tail]; exact hasDerivWithinAt_const _ _ _
  · have n0 := abs_nonneg (s - t)
    have e1 := mul_nonneg hV0 n0
    have e2 := mul_nonneg hΛ0 n0
    have e3 := mul_nonneg hB0 n0
    have key := close (e := (V + Λ + B) * |s - t|) (inPath s hs) (inPath t ht)
      ((abs_max_sub_max_le_abs _ _ _).trans ((lu s hs t ht).trans (by linarith)))
      ((hΛ s hs t ht).trans (by linarith)) ((ld s hs t ht).trans (by linarith)) ((abs_max_sub_max_le_abs _ _ _).trans ((lh s hs t ht).trans (by linarith)))
    rw [← mul_assoc] at key
    rcases j with _ | _ | j
    · exact key.1
    · exact key.2
    · simp only [tail, sub_self, abs_zero]; positivity
  · obtain ⟨p, q, rfl⟩ := List.length_eq_two.1 hy
    have d0 : |p - d t| ≤ δ := hd 0
    have d1 : |q - h t| ≤ δ := hd 1
    have hδ0 : 0 ≤ δ := (abs_nonneg _).trans d0
    rw [rhs t ht p q (d1.trans hδ)] at hv
    cases hv
    have key := close (e := δ) (inBox t ht p q (d0.trans hδ) (d1.trans hδ)) (inPath t ht) (by simpa [Q] using hδ0) (by simpa [Q] using hδ0) d0
      ((abs_max_sub_max_le_abs _ _ _).trans d1)
    rcases j with _ | _ | j
    · exact key.1
    · exact key.2
    · simp only [tail, sub_self, abs_zero]; positivity

/-- **C135** for Head's method: a flow whose velocity gradient is Lipschitz continuous and a solution of Head's equation whose thickness is positive and whose shape
factor stays on one side of 1.6, where the right hand side jumps. Momentum thickness and shape factor converge. -/
theorem head_converges {o : Obj ℝ} {u du d h : ℝ → ℝ} {x0 x1 : ℝ} (hc : o.cls = .head) (hnu : 0 < o.nu)
    (huE : ∀ t, o.vel.uE t = .ok (u t)) (hduE : ∀ t, o.vel.duE t = .ok (du t))
    (hu : ∀ x ∈ Set.Icc x0 x1, HasDerivWithinAt u (du x) (Set.Icc x0 x1) x) (hdu : LipOn du x0 x1) (hx : x0 < x1)
    (ode : ∀ x ∈ Set.Icc x0 x1, HeadOde o d h x ∧ 0 < d x) (side : (∀ x ∈ Set.Icc x0 x1, h x < 16/10) ∨ ∀ x ∈ Set.Icc x0 x1, 16/10 < h x) :
    SolveConverges o x0 x1 [d x0, h x0] fun o'' x e => ∃ d' h', o''.deltaM x = .ok d' ∧ o''.shapeD x = .ok h' ∧ |d' - d x| ≤ e ∧ |h' - h x| ≤ e := by
  obtain ⟨g, D, L, ρ, hρ, P⟩ := head_path hc hnu huE hduE hu hdu hx ode side
  refine (rk45_solve_converges P hρ hx two_ne_zero).imp le_rfl fun s x e ⟨q1, q2, mx, w, w1, w2, w3⟩ => ?_
  obtain ⟨p, q, rfl⟩ := List.length_eq_two.1 w2
  rw [one_mul]
  refine ⟨(abs_nonneg _).trans (w3 0), p, q, ?_, ?_, w3 0, w3 1⟩
  · simp only [Obj.deltaM, q1, hc, Obj.comp, w1, bind, Except.bind, pure, Except.pure, List.getElem?_cons_zero]
  · simp only [Obj.shapeD, q1, hc, Obj.comp, w1, bind, Except.bind, pure, Except.pure, List.getElem?_cons_zero, List.getElem?_cons_succ]

/-! ### Concrete cases -/

/-- The hypotheses of `table_thwaites_converges` about the table are met. -/
example : Table [(0, 1), (1, 1), (2, 2)] ∧ (∀ p ∈ [((0:ℝ), (1:ℝ)), (1, 1), (2, 2)], 0 ≤ p.2) ∧ firstX [((0:ℝ), (1:ℝ)), (1, 1), (2, 2)] ≤ 1/2 ∧
    (3/2:ℝ) ≤ lastX [((0:ℝ), (1:ℝ)), (1, 1), (2, 2)] :=
  ⟨bent_table, by simp, by simp [firstX], by simp [lastX]; norm_num⟩

/-- The hypotheses of `thwaites_converges` are met: `u_e = 1 - x` on [0, 1/2] with viscosity 1 and Drela's fits, started with the thickness 1. And calls of the kind
that it speaks of exist. -/
theorem thwaites_converges_case : ∃ (o : Obj ℝ) (u du F : ℝ → ℝ), (o.cls = .thwaitesNonlinear ∧ o.fits = some drela ∧ TameFit drela) ∧ 0 < o.nu ∧
    (∀ t, o.vel.uE t = .ok (u t)) ∧ (∀ t, o.vel.duE t = .ok (du t)) ∧ (∀ x ∈ Set.Icc 0 (1/2), HasDerivWithinAt u (du x) (Set.Icc 0 (1/2)) x) ∧ LipOn du 0 (1/2) ∧
    (∀ x ∈ Set.Icc (0:ℝ) (1/2), -(1/1000) < u x) ∧ (∀ x ∈ Set.Icc 0 (1/2), SatisfiesOde o F x ∧ 0 < F x) ∧ Exercised o 0 (1/2) [F 0] := by
  let o : Obj ℝ := ⟨.thwaitesNonlinear, 1, ⟨some (.fn fun x => .ok (1 - x)), some (.fn fun _ => .ok (-1)), none⟩, .manual 0 1 1 1 1, [], none, some drela⟩
  have huE : ∀ t, o.vel.uE t = .ok (1 - t) := fun t => by simp [o, VelState.uE, VelState.rawU, callOpt, Vel.call]
  have hduE : ∀ t, o.vel.duE t = .ok (-1) := fun t => by simp [o, VelState.duE, VelState.rawDu, callOpt, Vel.call]
  have hu0 : ∀ x ∈ Set.Icc (0:ℝ) (1/2), -(1/1000) < 1 - x := fun x hx => by have := hx.2; linarith
  obtain ⟨F, hF0, hode, hpos⟩ := thwaites_nonlinear_exists_partial o drela (fun x => 1 - x) (fun _ => -1) 0 (1/2) 1 (.inr (.inl rfl)) rfl rfl huE hduE
    (by fun_prop) (by fun_prop) hu0 (by norm_num) one_pos
  refine ⟨o, fun x => 1 - x, fun _ => -1, F, ⟨rfl, rfl, .inr (.inl rfl)⟩, one_pos, huE, hduE, fun x _ => ?_, ⟨0, le_rfl, fun x _ y _ => by simp⟩, hu0,
    fun x hx => ⟨hode x hx, hpos x hx⟩, exercised (te := .none) (by norm_num) (by simp)
      ⟨fun t => ⟨_, huE t⟩, fun t => ⟨_, hduE t⟩, fun _ => by simp [o]⟩ (by simp [o, TermArg.toList]) fun x => ?_⟩
  · exact ((hasDerivAt_id x).const_sub 1).hasDerivWithinAt
  · rw [hF0]
    simp [o, Obj.prepare, IC.setNu, VelState.duE, VelState.rawDu, callOpt, Vel.call, IC.setDu, Obj.startVector, IC.deltaM, pyDiv, bind,
      Except.bind, pure, Except.pure, TermArg.toList]
    norm_num
    exact ⟨_, _, ⟨rfl, rfl⟩, rfl⟩

/-- The same for White's fits in a uniform stream. -/
theorem white_converges_case : ∃ (o : Obj ℝ) (u du F : ℝ → ℝ), (o.cls = .thwaitesNonlinear ∧ o.fits = some Fits.white ∧ Regular o Fits.white F du 0 1) ∧ 0 < o.nu ∧
    (∀ t, o.vel.uE t = .ok (u t)) ∧ (∀ t, o.vel.duE t = .ok (du t)) ∧ (∀ x ∈ Set.Icc 0 1, HasDerivWithinAt u (du x) (Set.Icc 0 1) x) ∧ LipOn du 0 1 ∧
    (∀ x ∈ Set.Icc (0:ℝ) 1, -(1/1000) < u x) ∧ (∀ x ∈ Set.Icc 0 1, SatisfiesOde o F x ∧ 0 < F x) ∧ Exercised o 0 1 [F 0] := by
  let o : Obj ℝ := ⟨.thwaitesNonlinear, 1, ⟨some (.fn fun _ => .ok 1), some (.fn fun _ => .ok 0), none⟩, .manual 0 1 1 1 1, [], none, some Fits.white⟩
  have huE : ∀ t, o.vel.uE t = .ok 1 := fun t => by simp [o, VelState.uE, VelState.rawU, callOpt, Vel.call]
  have hduE : ∀ t, o.vel.duE t = .ok 0 := fun t => by simp [o, VelState.duE, VelState.rawDu, callOpt, Vel.call]
  have h0 : 0 < (Fits.white : Fits ℝ).fAt 0 := by
    rw [fAt, shearAt, white_clip, max_eq_left (by norm_num)]
    simp only [Fits.white, real_pow, real_lit, zero_mul, sub_zero]
    positivity
  refine ⟨o, fun _ => 1, fun _ => 0, fun x => 1 + Fits.white.fAt 0 / (1/1000 + 1) * x, ⟨rfl, rfl, .inr ⟨rfl, rfl, .inr ⟨rfl, fun x _ => by norm_num⟩⟩⟩, one_pos, huE, hduE,
    fun x _ => hasDerivWithinAt_const _ _ _, ⟨0, le_rfl, fun x _ y _ => by simp⟩, fun x _ => by norm_num, fun x hx => ⟨?_, ?_⟩,
    exercised (te := .none) (by norm_num) (by simp) ⟨fun t => ⟨_, huE t⟩, fun t => ⟨_, hduE t⟩, fun _ => by simp [o]⟩ (by simp [o, TermArg.toList]) fun x => ?_⟩
  · refine ⟨_, nonlinear_rhs rfl rfl huE hduE x _, ?_⟩
    rw [mul_zero]
    have := ((hasDerivAt_id x).const_mul (Fits.white.fAt 0 / (1/1000 + 1))).const_add 1
    rw [mul_one] at this
    exact this
  · have := hx.1
    positivity
  · simp [o, Obj.prepare, IC.setNu, VelState.duE, VelState.rawDu, callOpt, Vel.call, IC.setDu, Obj.startVector, IC.deltaM, pyDiv, bind,
      Except.bind, pure, Except.pure, TermArg.toList]
    try norm_num
    exact ⟨_, _, ⟨rfl, rfl⟩, rfl⟩

/-- The hypotheses of `head_converges` are met: a uniform stream, viscosity 1/1000, started with momentum thickness 1 and shape factor 2. And calls of the kind that it
speaks of exist. -/
theorem head_converges_case : ∃ (o : Obj ℝ) (u du d h : ℝ → ℝ) (b : ℝ), 0 < b ∧ o.cls = .head ∧ 0 < o.nu ∧
    (∀ t, o.vel.uE t = .ok (u t)) ∧ (∀ t, o.vel.duE t = .ok (du t)) ∧ (∀ x ∈ Set.Icc 0 b, HasDerivWithinAt u (du x) (Set.Icc 0 b) x) ∧ LipOn du 0 b ∧
    (∀ x ∈ Set.Icc 0 b, HeadOde o d h x ∧ 0 < d x) ∧ (∀ x ∈ Set.Icc 0 b, 16/10 < h x) ∧ Exercised o 0 b [d 0, h 0] := by
  obtain ⟨dm, h, b, hb, H, hd, hh, near⟩ := head_solution_at_exists (1/1000) 1 2 (1/4) (.manual 0 1 2 1 1) [] (by norm_num) one_pos (by norm_num) (by norm_num)
  have h0 := H 0 ⟨le_rfl, hb.le⟩
  refine ⟨_, _, _, dm, h, b, hb, h0.isHead, by norm_num, h0.uE, h0.duE, fun x hx => (H x hx).slope.hasDerivWithinAt, ⟨0, le_rfl, fun x _ y _ => by simp⟩,
    fun x hx => ⟨(H x hx).ode, by linarith [(abs_lt.1 (near x hx).1).1]⟩, fun x hx => by linarith [(abs_lt.1 (near x hx).2).1],
    exercised (te := .none) hb (by simp) ⟨fun t => ⟨_, h0.uE t⟩, fun t => ⟨_, h0.duE t⟩, fun hc => by cases hc⟩ (by simp [TermArg.toList]) fun x => ?_⟩
  rw [hd, hh]
  simp [Obj.prepare, IC.setNu, VelState.duE, VelState.rawDu, callOpt, Vel.call, IC.setDu, Obj.startVector, IC.deltaM, IC.shapeD, pyDiv, bind,
      Except.bind, pure, Except.pure, TermArg.toList]
  norm_num
  exact ⟨_, _, ⟨rfl, rfl⟩, rfl⟩

end IBL
