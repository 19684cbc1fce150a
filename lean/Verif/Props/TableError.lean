import Verif.Props.TableFlow
import Verif.Props.ThwaitesQuadrature

/-!
C119, C120: how accurate the velocity is that an object makes from a table of samples of a smooth velocity, and what that means for the
momentum thickness of Thwaites' linear method.
-/

namespace IBL

private theorem chain_range {pts : List (ℝ × ℝ)} (h : pts.IsChain fun p q => p.1 < q.1) : ∀ p ∈ pts, firstX pts ≤ p.1 ∧ p.1 ≤ lastX pts := by
  induction pts with
  | nil => simp
  | cons a l ih =>
    cases l with
    | nil => intro p hp; simp only [List.mem_singleton] at hp; subst hp; simp [firstX, lastX]
    | cons b l =>
      rw [List.isChain_cons_cons] at h
      have ih := ih h.2
      intro p hp
      rw [lastX_cons_cons, firstX_cons]
      rcases List.mem_cons.1 hp with rfl | hp
      · exact ⟨le_rfl, h.1.le.trans (ih b (by simp)).2⟩
      · obtain ⟨h1, h2⟩ := ih p hp
        rw [firstX_cons] at h1
        exact ⟨h.1.le.trans h1, h2⟩

theorem Table.range {pts : List (ℝ × ℝ)} (h : Table pts) : ∀ p ∈ pts, p.1 ∈ Set.Icc (firstX pts) (lastX pts) := chain_range h.ascending

/-! ### C119 -/

/-- The table holds the values at its abscissae, which are at most `d` apart, of a velocity `f` with slope `f'`; the slope changes by at most `B` per
unit length. -/
structure Samples (pts : List (ℝ × ℝ)) (f f' : ℝ → ℝ) (B d : ℝ) : Prop where
  table : Table pts
  values : ∀ p ∈ pts, p.2 = f p.1
  spacing : ∀ p q, [p, q] <:+: pts → q.1 - p.1 ≤ d
  slope : ∀ x ∈ Set.Icc (firstX pts) (lastX pts), HasDerivAt f (f' x) x
  bend : ∀ x ∈ Set.Icc (firstX pts) (lastX pts), ∀ y ∈ Set.Icc (firstX pts) (lastX pts), |f' x - f' y| ≤ B * |x - y|

section
variable {pts : List (ℝ × ℝ)} {f f' : ℝ → ℝ} {B d : ℝ}

private theorem Samples.lt (S : Samples pts f f' B d) {p q : ℝ × ℝ} (h : [p, q] <:+: pts) : p.1 < q.1 := Pchip.chain_infix S.table.ascending h

private theorem Samples.sub (S : Samples pts f f' B d) {p q : ℝ × ℝ} (h : [p, q] <:+: pts) : Set.Icc p.1 q.1 ⊆ Set.Icc (firstX pts) (lastX pts) :=
  Set.Icc_subset_Icc (S.table.range p (h.subset (by simp))).1 (S.table.range q (h.subset (by simp))).2

private theorem Samples.mean (S : Samples pts f f' B d) {p q : ℝ × ℝ} (h : [p, q] <:+: pts) : ∃ c ∈ Set.Icc p.1 q.1, f' c = secant p q := by
  obtain ⟨c, hc, e⟩ := exists_hasDerivAt_eq_slope f f' (S.lt h)
    (fun x hx => (S.slope x (S.sub h hx)).continuousAt.continuousWithinAt) fun x hx => S.slope x (S.sub h (Set.Ioo_subset_Icc_self hx))
  refine ⟨c, Set.Ioo_subset_Icc_self hc, ?_⟩
  rw [e, secant, S.values p (h.subset (by simp)), S.values q (h.subset (by simp))]

private theorem Samples.nonneg (S : Samples pts f f' B d) : 0 ≤ B ∧ 0 ≤ d := by
  have hl := S.table.long
  match pts, hl with
  | p :: q :: l, _ =>
    have hpq : [p, q] <:+: p :: q :: l := ⟨[], l, by simp⟩
    have h := S.lt hpq
    have hb := S.bend p.1 (S.table.range p (by simp)) q.1 (S.table.range q (by simp))
    have : 0 < |p.1 - q.1| := abs_pos.2 (by linarith)
    have h0 := (abs_nonneg _).trans hb
    exact ⟨nonneg_of_mul_nonneg_left h0 this, by linarith [S.spacing p q hpq]⟩

private theorem Samples.slopes (S : Samples pts f f' B d) {p q : ℝ × ℝ} (h : [p, q] <:+: pts) {x : ℝ} (hx : x ∈ Set.Icc p.1 q.1) :
    |secant p q - f' x| ≤ B * d := by
  obtain ⟨c, hc, e⟩ := S.mean h
  rw [← e]
  refine (S.bend c (S.sub h hc) x (S.sub h hx)).trans (mul_le_mul_of_nonneg_left ?_ S.nonneg.1)
  rw [abs_le]
  have := S.spacing p q h
  constructor <;> linarith [hc.1, hc.2, hx.1, hx.2]

/-- The function through the samples differs little from the sampled one. -/
theorem Samples.error (S : Samples pts f f' B d) {u du d2u : ℝ → ℝ} (M : MonotoneThrough pts u du d2u) :
    ∀ x ∈ Set.Icc (firstX pts) (lastX pts), |u x - f x| ≤ 5 * B * d ^ 2 ∧ |du x - f' x| ≤ 5 * B * d := by
  obtain ⟨hB, hd⟩ := S.nonneg
  have hw : ∀ p q r, [p, q, r] <:+: pts → |secant p q - secant q r| ≤ 2 * (B * d) := fun p q r h => by
    have h1 : [p, q] <:+: pts := List.IsInfix.trans ⟨[], [r], rfl⟩ h
    have h2 : [q, r] <:+: pts := List.IsInfix.trans ⟨[p], [], rfl⟩ h
    have a := S.slopes h1 (x := q.1) ⟨(S.lt h1).le, le_rfl⟩
    have b := S.slopes h2 (x := q.1) ⟨le_rfl, (S.lt h2).le⟩
    rw [abs_le] at a b ⊢
    constructor <;> linarith [a.1, a.2, b.1, b.2]
  have hslope : ∀ p q, [p, q] <:+: pts → ∀ x ∈ Set.Icc p.1 q.1, |du x - f' x| ≤ 5 * B * d := fun p q h x hx => by
    have a := M.near _ (by positivity) hw p q h x hx
    have b := S.slopes h hx
    rw [abs_le] at a b ⊢
    constructor <;> linarith [a.1, a.2, b.1, b.2]
  intro x hx
  obtain ⟨p, q, h, hx'⟩ := table_segment S.table hx
  refine ⟨?_, hslope p q h x hx'⟩
  have hp : u p.1 - f p.1 = 0 := by
    rw [M.through p (h.subset (by simp)), S.values p (h.subset (by simp)), sub_self]
  have key := Convex.norm_image_sub_le_of_norm_hasDerivWithin_le (f := fun t => u t - f t) (f' := fun t => du t - f' t) (C := 5 * B * d)
    (s := Set.Icc p.1 q.1) (x := p.1) (y := x) (fun t ht => ((M.slope t).sub (S.slope t (S.sub h ht))).hasDerivWithinAt)
    (fun t ht => hslope p q h t ht) (convex_Icc _ _) ⟨le_rfl, (S.lt h).le⟩ hx'
  rw [hp, sub_zero, Real.norm_eq_abs, Real.norm_eq_abs] at key
  refine key.trans ?_
  have : |x - p.1| ≤ d := by
    rw [abs_of_nonneg (by linarith [hx'.1])]
    linarith [S.spacing p q h, hx'.2]
  calc 5 * B * d * |x - p.1| ≤ 5 * B * d * d := mul_le_mul_of_nonneg_left this (by positivity)
    _ = 5 * B * d ^ 2 := by ring

/-- **C119**: `set_velocity` with a table of samples of a smooth velocity is accepted; afterwards `u_e` differs from the velocity sampled by at most
`5 B d^2` and `du_e` from its slope by at most `5 B d`, everywhere in the range of the table. -/
theorem sampled_velocity (ext : Ext ℝ) (other : Pchip ℝ) (hext : ext.pchip = Pchip.interpolator other) (o : Obj ℝ) (y z : Arg ℝ)
    (S : Samples pts f f' B d) : ∃ (o' : Obj ℝ) (u du : ℝ → ℝ), o.setVelocity ext (tableArg pts) y z = (o', .ok ()) ∧
      (∀ x, o'.vel.uE x = .ok (u x) ∧ o'.vel.duE x = .ok (du x)) ∧
      ∀ x ∈ Set.Icc (firstX pts) (lastX pts), |u x - f x| ≤ 5 * B * d ^ 2 ∧ |du x - f' x| ≤ 5 * B * d := by
  obtain ⟨o', u, du, d2u, e, -, hq, M⟩ := table_velocity ext other hext o pts S.table y z
  exact ⟨o', u, du, e, fun x => ⟨(hq x).1, (hq x).2.1⟩, S.error M⟩

end

/-- `n + 1` equidistant samples of `f` on `[a, b]`. -/
noncomputable def equidistant (f : ℝ → ℝ) (a b : ℝ) (n : ℕ) : List (ℝ × ℝ) :=
  (List.range (n + 1)).map fun i : ℕ => (a + (i : ℝ) * ((b - a) / n), f (a + (i : ℝ) * ((b - a) / n)))

/-- Equidistant samples are samples with that distance. -/
theorem equidistant_samples (f f' : ℝ → ℝ) (a b B : ℝ) (n : ℕ) (hab : a < b) (hn : 0 < n) (hf : ∀ x ∈ Set.Icc a b, HasDerivAt f (f' x) x)
    (hB : ∀ x ∈ Set.Icc a b, ∀ y ∈ Set.Icc a b, |f' x - f' y| ≤ B * |x - y|) :
    Samples (equidistant f a b n) f f' B ((b - a) / n) ∧ firstX (equidistant f a b n) = a ∧ lastX (equidistant f a b n) = b := by
  have hn' : (0:ℝ) < n := by exact_mod_cast hn
  have hst : 0 < (b - a) / n := div_pos (by linarith) hn'
  have hfirst : firstX (equidistant f a b n) = a := by
    simp [firstX, equidistant, List.range_succ_eq_map]
  have hlast : lastX (equidistant f a b n) = b := by
    have : lastX (equidistant f a b n) = a + n * ((b - a) / n) := by
      simp [lastX, equidistant, List.range_succ]
    rw [this]; field_simp; ring
  have step : ∀ p q, [p, q] <:+: equidistant f a b n → q.1 = p.1 + (b - a) / n := by
    rintro p q ⟨l, r, h⟩
    have hp : (equidistant f a b n)[l.length]? = some p := by rw [← h]; simp
    have hq : (equidistant f a b n)[l.length + 1]? = some q := by
      rw [← h, List.append_assoc, List.getElem?_append_right (by omega)]; simp
    simp only [equidistant, List.getElem?_map, Option.map_eq_some_iff, List.getElem?_eq_some_iff, List.getElem_range] at hp hq
    obtain ⟨i, ⟨_, rfl⟩, rfl⟩ := hp
    obtain ⟨j, ⟨_, rfl⟩, rfl⟩ := hq
    push_cast
    ring
  refine ⟨⟨⟨by simp [equidistant]; omega, ?_⟩, ?_, fun p q h => by rw [step p q h]; linarith, by rwa [hfirst, hlast], by rwa [hfirst, hlast]⟩, hfirst, hlast⟩
  · rw [List.isChain_iff_forall_rel_of_append_cons_cons]
    intro p q l r h
    have := step p q ⟨l, r, by rw [h]; simp⟩
    linarith
  · intro p hp
    simp only [equidistant, List.mem_map] at hp
    obtain ⟨i, -, rfl⟩ := hp
    rfl

/-- **C119**, convergence: so the velocity and its slope from ever finer tables of equidistant samples converge uniformly. -/
theorem equidistant_converges (ext : Ext ℝ) (other : Pchip ℝ) (hext : ext.pchip = Pchip.interpolator other) (o : Obj ℝ) (y z : Arg ℝ) (f f' : ℝ → ℝ)
    (a b B : ℝ) (hab : a < b) (hf : ∀ x ∈ Set.Icc a b, HasDerivAt f (f' x) x)
    (hB : ∀ x ∈ Set.Icc a b, ∀ y ∈ Set.Icc a b, |f' x - f' y| ≤ B * |x - y|) :
    ∀ e > 0, ∃ N, ∀ n ≥ N, ∃ (o' : Obj ℝ) (u du : ℝ → ℝ), o.setVelocity ext (tableArg (equidistant f a b n)) y z = (o', .ok ()) ∧
      ∀ x ∈ Set.Icc a b, o'.vel.uE x = .ok (u x) ∧ o'.vel.duE x = .ok (du x) ∧ |u x - f x| < e ∧ |du x - f' x| < e := by
  intro e he
  have hB0 : 0 ≤ B := by
    have := hB a ⟨le_rfl, hab.le⟩ b ⟨hab.le, le_rfl⟩
    exact nonneg_of_mul_nonneg_left ((abs_nonneg _).trans this) (abs_pos.2 (by linarith))
  obtain ⟨N, hN⟩ := exists_nat_gt ((b - a) + 5 * B * (b - a) / e)
  have hba : 0 < b - a := by linarith
  refine ⟨N, fun n hn => ?_⟩
  have hn' : (b - a) + 5 * B * (b - a) / e < n := hN.trans_le (by exact_mod_cast hn)
  have hq : 0 ≤ 5 * B * (b - a) / e := by positivity
  have hn0 : (0:ℝ) < n := by linarith
  obtain ⟨S, h1, h2⟩ := equidistant_samples f f' a b B n hab (by exact_mod_cast hn0) hf hB
  obtain ⟨o', u, du, hs, hu, herr⟩ := sampled_velocity ext other hext o y z S
  rw [h1, h2] at herr
  have hd1 : (b - a) / n ≤ 1 := by rw [div_le_one hn0]; linarith
  have hd0 : 0 ≤ (b - a) / n := by positivity
  have hlt : 5 * B * ((b - a) / n) < e := by
    rw [mul_div_assoc', div_lt_iff₀ hn0]
    have : 5 * B * (b - a) / e < n := by linarith
    rw [div_lt_iff₀ he] at this
    linarith
  refine ⟨o', u, du, hs, fun x hx => ⟨(hu x).1, (hu x).2, lt_of_le_of_lt ((herr x hx).1.trans ?_) hlt, lt_of_le_of_lt (herr x hx).2 hlt⟩⟩
  have : 0 ≤ 5 * B * ((b - a) / n) := by positivity
  nlinarith

/-! ### C120 -/

private theorem pow_diff {v w W e : ℝ} (n : ℕ) (hv : 0 ≤ v) (hw : 0 ≤ w) (hv' : v ≤ W) (hw' : w ≤ W) (h : |v - w| ≤ e) :
    |v ^ (n + 1) - w ^ (n + 1)| ≤ (n + 1) * W ^ n * e := by
  induction n with
  | zero => simpa using h
  | succ n ih =>
    have hW : 0 ≤ W := hv.trans hv'
    have he : 0 ≤ e := (abs_nonneg _).trans h
    have e1 : v ^ (n + 1 + 1) - w ^ (n + 1 + 1) = v * (v ^ (n + 1) - w ^ (n + 1)) + (v - w) * w ^ (n + 1) := by ring
    rw [e1]
    calc _ ≤ |v * (v ^ (n + 1) - w ^ (n + 1))| + |(v - w) * w ^ (n + 1)| := abs_add_le _ _
      _ = v * |v ^ (n + 1) - w ^ (n + 1)| + |v - w| * w ^ (n + 1) := by rw [abs_mul, abs_mul, abs_of_nonneg hv, abs_of_nonneg (pow_nonneg hw _)]
      _ ≤ W * ((n + 1) * W ^ n * e) + e * W ^ (n + 1) :=
          add_le_add (mul_le_mul hv' ih (abs_nonneg _) hW) (mul_le_mul h (pow_le_pow_left₀ hw hw' _) (pow_nonneg hw _) he)
      _ = _ := by push_cast; ring

/-- A solution of the linear method in a flow whose velocity, increased by 0.001, is between `w` and `W`. -/
structure LinearLayer (o : Obj ℝ) (u : ℝ → ℝ) (a b w W : ℝ) : Prop where
  linear : o.cls = .thwaitesLinear
  nu : 0 < o.nu
  solution : ∃ (m : Fits ℝ) (du F : ℝ → ℝ), ThwaitesSolution o m u du F ∧ (∀ x ∈ Set.Icc a b, HasDerivAt u (du x) x) ∧
    (∀ x ∈ Set.Icc a b, SatisfiesOde o F x) ∧ 0 < F a
  range : ∀ x ∈ Set.Icc a b, w ≤ u x + 1/1000 ∧ u x + 1/1000 ≤ W

/-- **C120**: two layers of the linear method that start with the same momentum thickness in flows whose velocities differ by at most `e`. -/
theorem thickness_error (o1 o2 : Obj ℝ) (u1 u2 : ℝ → ℝ) (a b w W e : ℝ) (hw : 0 < w) (L1 : LinearLayer o1 u1 a b w W) (L2 : LinearLayer o2 u2 a b w W)
    (hnu : o1.nu = o2.nu) (hstart : o1.deltaM a = o2.deltaM a) (he : ∀ x ∈ Set.Icc a b, |u1 x - u2 x| ≤ e) :
    ∀ x ∈ Set.Icc a b, ∃ d0 d1 d2, o1.deltaM a = .ok d0 ∧ o1.deltaM x = .ok d1 ∧ o2.deltaM x = .ok d2 ∧
      w ^ 6 * |d1 ^ 2 - d2 ^ 2| ≤ W ^ 4 * (6 * W * (d0 ^ 2 + d2 ^ 2) + 9/4 * o1.nu * (x - a)) * e := by
  intro x hx
  have sub : Set.Icc a x ⊆ Set.Icc a b := Set.Icc_subset_Icc_right hx.2
  obtain ⟨m1, du1, F1, S1, s1, ode1, p1⟩ := L1.solution
  obtain ⟨m2, du2, F2, S2, s2, ode2, p2⟩ := L2.solution
  obtain ⟨c0, d1, h0, h1, q1⟩ := thwaites_quadrature o1 m1 u1 du1 F1 a x hx.1 S1 L1.linear L1.nu (fun t ht => s1 t (sub ht))
    (fun t ht => by linarith [(L1.range t (sub ht)).1]) (fun t ht => ode1 t (sub ht)) p1
  obtain ⟨c0', d2, h0', h2, q2⟩ := thwaites_quadrature o2 m2 u2 du2 F2 a x hx.1 S2 L2.linear L2.nu (fun t ht => s2 t (sub ht))
    (fun t ht => by linarith [(L2.range t (sub ht)).1]) (fun t ht => ode2 t (sub ht)) p2
  have hc : c0 = c0' := by
    rw [hstart, h0'] at h0
    exact (Except.ok.inj h0).symm
  subst hc
  refine ⟨c0, d1, d2, h0, h1, h2, ?_⟩
  have ha : a ∈ Set.Icc a b := ⟨le_rfl, hx.1.trans hx.2⟩
  have diff : ∀ t ∈ Set.Icc a b, ∀ n : ℕ, |(u1 t + 1/1000) ^ (n + 1) - (u2 t + 1/1000) ^ (n + 1)| ≤ (n + 1) * W ^ n * e := fun t ht n =>
    pow_diff n (by linarith [(L1.range t ht).1]) (by linarith [(L2.range t ht).1]) (L1.range t ht).2 (L2.range t ht).2
      (by rw [add_sub_add_right_eq_sub]; exact he t ht)
  have hW : 0 < W := by linarith [(L1.range a ha).1, (L1.range a ha).2]
  have hint : ∀ (u du : ℝ → ℝ), (∀ t ∈ Set.Icc a b, HasDerivAt u (du t) t) →
      IntervalIntegrable (fun t => (u t + 1/1000) ^ 5) MeasureTheory.volume a x := fun u du hu => by
    apply ContinuousOn.intervalIntegrable
    rw [Set.uIcc_of_le hx.1]
    exact ((ContinuousOn.add (fun t ht => (hu t (sub ht)).continuousAt.continuousWithinAt) continuousOn_const).pow 5)
  have hI : |(∫ t in a..x, (u1 t + 1/1000) ^ 5) - ∫ t in a..x, (u2 t + 1/1000) ^ 5| ≤ 5 * W ^ 4 * e * (x - a) := by
    rw [← intervalIntegral.integral_sub (hint u1 du1 s1) (hint u2 du2 s2)]
    have := intervalIntegral.norm_integral_le_of_norm_le_const (a := a) (b := x) (C := 5 * W ^ 4 * e)
      (f := fun t => (u1 t + 1/1000) ^ 5 - (u2 t + 1/1000) ^ 5) fun t ht => by
        rw [Set.uIoc_of_le hx.1] at ht
        have := diff t ⟨ht.1.le, ht.2.trans hx.2⟩ 4
        norm_num at this ⊢
        exact this
    rwa [Real.norm_eq_abs, abs_of_nonneg (by linarith [hx.1] : 0 ≤ x - a)] at this
  have hA := diff a ha 5
  have hX := diff x hx 5
  norm_num at hA hX
  rw [← hnu] at q2
  have hw6 : w ^ 6 ≤ (u1 x + 1/1000) ^ 6 := pow_le_pow_left₀ hw.le (L1.range x hx).1 6
  have key : (d1 ^ 2 - d2 ^ 2) * (u1 x + 1/1000) ^ 6 = c0 ^ 2 * ((u1 a + 1/1000) ^ 6 - (u2 a + 1/1000) ^ 6) +
      45/100 * o1.nu * ((∫ t in a..x, (u1 t + 1/1000) ^ 5) - ∫ t in a..x, (u2 t + 1/1000) ^ 5) -
      d2 ^ 2 * ((u1 x + 1/1000) ^ 6 - (u2 x + 1/1000) ^ 6) := by linear_combination q1 - q2
  have hnn : 0 ≤ 45/100 * o1.nu := mul_nonneg (by norm_num) L1.nu.le
  calc w ^ 6 * |d1 ^ 2 - d2 ^ 2| ≤ (u1 x + 1/1000) ^ 6 * |d1 ^ 2 - d2 ^ 2| := mul_le_mul_of_nonneg_right hw6 (abs_nonneg _)
    _ = |(d1 ^ 2 - d2 ^ 2) * (u1 x + 1/1000) ^ 6| := by
        rw [abs_mul, abs_of_nonneg ((pow_pos hw 6).le.trans hw6), mul_comm]
    _ ≤ c0 ^ 2 * (6 * W ^ 5 * e) + 45/100 * o1.nu * (5 * W ^ 4 * e * (x - a)) + d2 ^ 2 * (6 * W ^ 5 * e) := by
        rw [key]
        refine (abs_sub _ _).trans (add_le_add ((abs_add_le _ _).trans (add_le_add ?_ ?_)) ?_)
        · rw [abs_mul, abs_of_nonneg (sq_nonneg c0)]
          exact mul_le_mul_of_nonneg_left hA (sq_nonneg _)
        · rw [abs_mul, abs_of_nonneg hnn]
          exact mul_le_mul_of_nonneg_left hI hnn
        · rw [abs_mul, abs_of_nonneg (sq_nonneg d2)]
          exact mul_le_mul_of_nonneg_left hX (sq_nonneg _)
    _ = _ := by ring

/-- An object with a table of velocities and a solution. -/
private theorem table_layer {ext : Ext ℝ} {other : Pchip ℝ} (hext : ext.pchip = Pchip.interpolator other) {o o' : Obj ℝ} {pts : List (ℝ × ℝ)}
    {f f' F : ℝ → ℝ} {B d : ℝ} {y z : Arg ℝ} {m : Fits ℝ} (S : Samples pts f f' B d) (hs : o.setVelocity ext (tableArg pts) y z = (o', .ok ()))
    (hc : o.cls = .thwaitesLinear) (hnu : 0 < o.nu) (hf : o.fits = some m) {a b w W : ℝ} (ha : firstX pts ≤ a) (hb : b ≤ lastX pts)
    (hr : ∀ x ∈ Set.Icc (firstX pts) (lastX pts), w ≤ f x + 1/1000 ∧ f x + 1/1000 ≤ W) (ode : ∀ x ∈ Set.Icc a b, SatisfiesOde o' F x) (h0 : 0 < F a) :
    ∃ u, LinearLayer { o' with sol := some fun t => [F t] } u a b w W ∧ ∀ x ∈ Set.Icc a b, |u x - f x| ≤ 5 * B * d ^ 2 := by
  obtain ⟨o'', u, du, d2u, e, ho, hq, M⟩ := table_velocity ext other hext o pts S.table y z
  rw [hs] at e
  obtain rfl : o' = o'' := (Prod.mk.inj e).1
  have hc' : o'.cls = .thwaitesLinear := by rw [ho]; exact hc
  have hnu' : 0 < o'.nu := by rw [ho]; exact hnu
  have hf' : o'.fits = some m := by rw [ho]; exact hf
  have sub : Set.Icc a b ⊆ Set.Icc (firstX pts) (lastX pts) := Set.Icc_subset_Icc ha hb
  refine ⟨u, ⟨hc', hnu', ⟨m, du, F, ⟨by simp [hc', Cls.isThwaites], hf', rfl, fun t => (hq t).1, fun t => (hq t).2.1⟩, fun x _ => M.slope x, ode, h0⟩,
    fun x hx => ?_⟩, fun x hx => (S.error M x (sub hx)).1⟩
  obtain ⟨h1, h2, -⟩ := M.bounds S.table (sub hx)
  have l1 := h1 (w - 1/1000) fun p hp => by
    rw [S.values p hp]; linarith [(hr p.1 (S.table.range p hp)).1]
  have l2 := h2 (W - 1/1000) fun p hp => by
    rw [S.values p hp]; linarith [(hr p.1 (S.table.range p hp)).2]
  constructor <;> linarith

/-- **C120**, tables: an object of the linear method is given a table of samples of the velocity `f`, another one (`o2`) the velocity `f` itself. If
both start with the same momentum thickness, the momentum thicknesses differ by a multiple of `d^2`, where `d` is the largest distance of neighbouring
samples. -/
theorem table_thickness_error (ext : Ext ℝ) (other : Pchip ℝ) (hext : ext.pchip = Pchip.interpolator other) (o o' o2 : Obj ℝ) (pts : List (ℝ × ℝ))
    (f f' F : ℝ → ℝ) (B d : ℝ) (y z : Arg ℝ) (m : Fits ℝ) (S : Samples pts f f' B d) (hs : o.setVelocity ext (tableArg pts) y z = (o', .ok ()))
    (hc : o.cls = .thwaitesLinear) (hnu : 0 < o.nu) (hf : o.fits = some m) (a b w W : ℝ) (ha : firstX pts ≤ a) (hb : b ≤ lastX pts) (hw : 0 < w)
    (hr : ∀ x ∈ Set.Icc (firstX pts) (lastX pts), w ≤ f x + 1/1000 ∧ f x + 1/1000 ≤ W) (ode : ∀ x ∈ Set.Icc a b, SatisfiesOde o' F x) (h0 : 0 < F a)
    (L2 : LinearLayer o2 f a b w W) (hnu2 : o2.nu = o.nu) (hstart : o2.deltaM a = { o' with sol := some fun t => [F t] }.deltaM a) :
    ∀ x ∈ Set.Icc a b, ∃ d0 d1 d2, o2.deltaM a = .ok d0 ∧ { o' with sol := some fun t => [F t] }.deltaM x = .ok d1 ∧ o2.deltaM x = .ok d2 ∧
      w ^ 6 * |d1 ^ 2 - d2 ^ 2| ≤ W ^ 4 * (6 * W * (d0 ^ 2 + d2 ^ 2) + 9/4 * o.nu * (x - a)) * (5 * B * d ^ 2) := by
  intro x hx
  obtain ⟨u, L1, he⟩ := table_layer hext S hs hc hnu hf ha hb hr ode h0
  have hn : o'.nu = o.nu := by
    obtain ⟨o'', u, du, d2u, e, ho, -⟩ := table_velocity ext other hext o pts S.table y z
    rw [hs] at e
    rw [(Prod.mk.inj e).1, ho]
  obtain ⟨d0, d1, d2, h1, h2, h3, h4⟩ := thickness_error _ o2 u f a b w W _ hw L1 L2 (by rw [hnu2]; exact hn) hstart.symm he x hx
  refine ⟨d0, d1, d2, by rw [hstart]; exact h1, h2, h3, ?_⟩
  simp only [hn] at h4
  exact h4

/-- A case: the velocity `1 + x^2` on `[0, 1]`, every number of equidistant samples. -/
theorem table_thickness_case (ext : Ext ℝ) (other : Pchip ℝ) (hext : ext.pchip = Pchip.interpolator other) (n : ℕ) (hn : 0 < n) :
    ∃ (o o' o2 : Obj ℝ) (F : ℝ → ℝ) (m : Fits ℝ),
      Samples (equidistant (fun x => 1 + x ^ 2) 0 1 n) (fun x => 1 + x ^ 2) (fun x => 2 * x) 2 (1 / n) ∧
      o.setVelocity ext (tableArg (equidistant (fun x => 1 + x ^ 2) 0 1 n)) .none .none = (o', .ok ()) ∧ o.cls = .thwaitesLinear ∧ 0 < o.nu ∧
      o.fits = some m ∧ (∀ x ∈ Set.Icc (0:ℝ) 1, (1:ℝ) ≤ 1 + x ^ 2 + 1/1000 ∧ (1:ℝ) + x ^ 2 + 1/1000 ≤ 3) ∧
      (∀ x ∈ Set.Icc (0:ℝ) 1, SatisfiesOde o' F x) ∧ 0 < F 0 ∧ LinearLayer o2 (fun x => 1 + x ^ 2) 0 1 1 3 ∧ o2.nu = o.nu ∧
      o2.deltaM 0 = { o' with sol := some fun t => [F t] }.deltaM 0 := by
  have hder : ∀ x : ℝ, HasDerivAt (fun x : ℝ => 1 + x ^ 2) (2 * x) x := fun x => by
    simpa using (hasDerivAt_pow 2 x).const_add 1
  obtain ⟨S, e1, e2⟩ := equidistant_samples (fun x => 1 + x ^ 2) (fun x => 2 * x) 0 1 2 n one_pos hn (fun x _ => hder x)
    (fun x _ y _ => by rw [← mul_sub, abs_mul, abs_two])
  rw [sub_zero] at S
  have hr : ∀ x ∈ Set.Icc (0:ℝ) 1, (1:ℝ) ≤ 1 + x ^ 2 + 1/1000 ∧ (1:ℝ) + x ^ 2 + 1/1000 ≤ 3 := fun x hx => by
    have := hx.1; have := hx.2
    constructor <;> nlinarith
  let o : Obj ℝ := ⟨.thwaitesLinear, 1, ⟨none, none, none⟩, .manual 0 1 1 1 1, [], none, some Fits.drela⟩
  obtain ⟨o', u, du, d2u, hs, ho, -⟩ := table_velocity ext other hext o _ S.table .none .none
  obtain ⟨F, hF0, hF, -⟩ := table_thwaites_determined ext other hext o o' _ .none .none Fits.drela S.table
    (fun p hp => by rw [S.values p hp]; positivity) hs one_pos rfl (.inl rfl) 0 1 1 (by rw [e1]) zero_le_one (by rw [e2]) one_pos
  let v : VelState ℝ := ⟨some (.fn fun x => .ok (1 + x ^ 2)), some (.fn fun x => .ok (2 * x)), none⟩
  have hv : ∀ t, v.uE t = .ok (1 + t ^ 2) := fun t => by simp [v, VelState.uE, VelState.rawU, callOpt, Vel.call]
  have hv' : ∀ t, v.duE t = .ok (2 * t) := fun t => by simp [v, VelState.duE, VelState.rawDu, callOpt, Vel.call]
  obtain ⟨G, hG0, hG, -⟩ := thwaites_linear_exists { o with vel := v } (fun x => 1 + x ^ 2) (fun x => 2 * x) 0 1 1 rfl hv hv' hder
    (fun x _ => by nlinarith [sq_nonneg x]) zero_le_one
  refine ⟨o, o', { o with vel := v, sol := some fun t => [G t] }, F, Fits.drela, S, hs, rfl, one_pos, rfl, hr, fun x hx => (hF x hx).1,
    by rw [hF0]; exact one_pos, ⟨rfl, one_pos, ⟨Fits.drela, fun x => 2 * x, G, ⟨rfl, rfl, rfl, hv, hv'⟩, fun x _ => hder x, hG, by rw [hG0]; exact one_pos⟩, hr⟩,
    rfl, ?_⟩
  have hc' : o'.cls = .thwaitesLinear := by rw [ho]
  have hnu' : o'.nu = 1 := by rw [ho]
  simp [Obj.deltaM, Obj.comp, Obj.state, hc', hnu', hF0, hG0, o, bind, Except.bind, pure, Except.pure]

end IBL
