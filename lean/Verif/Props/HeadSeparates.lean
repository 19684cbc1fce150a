import Verif.Props.HeadGlobal
import Verif.Props.Decelerated

/-!
C122: under persistent deceleration Head's layer separates.
-/

set_option linter.unusedSectionVars false

namespace IBL
open Set Filter Topology

namespace HeadBranch

private noncomputable abbrev EL : ℝ → ℝ := E (8234/10000) (11/10) (1287/1000) (33/10)
private noncomputable abbrev EH : ℝ → ℝ := E (15501/10000) (6778/10000) (3064/1000) (332254659218600974/10^17)
private noncomputable abbrev EpL : ℝ → ℝ := Ep (8234/10000) (11/10) (1287/1000)
private noncomputable abbrev EpH : ℝ → ℝ := Ep (15501/10000) (6778/10000) (3064/1000)

/-! ### Numbers -/

theorem E_anti {a b c d x y : ℝ} (ha : 0 ≤ a) (hc : 0 ≤ c) (hb : b < x) (hxy : x ≤ y) : E a b c d y ≤ E a b c d x := by
  unfold E
  have h0 : 0 < x - b := by linarith
  have h1 : (x - b) ^ c ≤ (y - b) ^ c := Real.rpow_le_rpow h0.le (by linarith) hc
  have := div_le_div_of_nonneg_left ha (Real.rpow_pos_of_pos h0 c) h1
  linarith

theorem Ep_neg {a b c x : ℝ} (ha : 0 < a) (hc : 0 < c) (hb : b < x) : Ep a b c x < 0 := by
  unfold Ep
  have : 0 < (x - b) ^ (c + 1) := Real.rpow_pos_of_pos (by linarith) _
  exact div_neg_of_neg_of_pos (by nlinarith) this

theorem E_deriv {a b c d x : ℝ} (hb : b < x) : HasDerivAt (E a b c d) (Ep a b c x) x := by
  have h0 : 0 < x - b := by linarith
  have h1 : HasDerivAt (fun x => (x - b) ^ (-c)) (1 * (-c) * (x - b) ^ (-c - 1)) x :=
    ((hasDerivAt_id x).sub_const b).rpow_const (.inl h0.ne')
  have h2 : HasDerivAt (fun x => d + a * (x - b) ^ (-c)) (a * (1 * (-c) * (x - b) ^ (-c - 1))) x := (h1.const_mul a).const_add d
  have e : Ep a b c x = a * (1 * (-c) * (x - b) ^ (-c - 1)) := by
    unfold Ep
    rw [show -c - 1 = -(c + 1) by ring, Real.rpow_neg h0.le]
    ring
  rw [e]
  refine h2.congr_of_eventuallyEq ?_
  filter_upwards [Ioi_mem_nhds hb] with y hy
  unfold E
  rw [Real.rpow_neg (by have : b < y := hy; linarith), div_eq_mul_inv]

theorem EL_start : EL (13/10) < 10 := by
  have h1 : (123/1000 : ℝ) < (2/10 : ℝ) ^ (1287/1000 : ℝ) := by
    have := Head.lt_rpow_of_lt_pow (x := 2/10) (r := 123/1000) (p := 13) (q := 10) (by norm_num) (by norm_num) (by norm_num) (by norm_num)
    push_cast at this
    exact this.trans_le (Real.rpow_le_rpow_of_exponent_ge (by norm_num) (by norm_num) (by norm_num))
  unfold EL E
  rw [show (13/10 - 11/10 : ℝ) = 2/10 by norm_num]
  have : (8234/10000 : ℝ) / (2/10 : ℝ) ^ (1287/1000 : ℝ) < 8234/10000 / (123/1000) :=
    div_lt_div_of_pos_left (by norm_num) (by norm_num) h1
  norm_num at this ⊢
  linarith

theorem EH_gt (x : ℝ) (hx : 16/10 ≤ x) : 332/100 < EH x := by
  unfold EH E
  have : 0 < (x - 6778/10000) ^ (3064/1000 : ℝ) := Real.rpow_pos_of_pos (by linarith) _
  have : (0:ℝ) < 15501/10000 / (x - 6778/10000) ^ (3064/1000 : ℝ) := by positivity
  have : (332/100:ℝ) < 332254659218600974/10^17 := by norm_num
  linarith

theorem EH_end (x : ℝ) (hx : 16/10 ≤ x) (hx' : x ≤ 24/10) : 36/10 < EH x := by
  refine lt_of_lt_of_le ?_ (E_anti (by norm_num) (by norm_num) (by linarith) hx')
  have h1 : (24/10 - 6778/10000 : ℝ) ^ (3064/1000 : ℝ) < 55/10 := by
    have := Head.rpow_lt_of_pow_lt (x := 17222/10000) (r := 55/10) (p := 31) (q := 10) (by norm_num) (by norm_num) (by norm_num) (by norm_num)
    push_cast at this
    rw [show (24/10 - 6778/10000 : ℝ) = 17222/10000 by norm_num]
    exact lt_of_le_of_lt (Real.rpow_le_rpow_of_exponent_le (by norm_num) (by norm_num)) this
  unfold E
  have h0 : 0 < (24/10 - 6778/10000 : ℝ) ^ (3064/1000 : ℝ) := Real.rpow_pos_of_pos (by norm_num) _
  have : (15501/10000 : ℝ) / (55/10) < 15501/10000 / (24/10 - 6778/10000 : ℝ) ^ (3064/1000 : ℝ) := div_lt_div_of_pos_left (by norm_num) h0 h1
  norm_num at this ⊢
  linarith

private noncomputable abbrev ent (e : ℝ) : ℝ := 306/10000 / (e - 3) ^ (6169/10000 : ℝ)

theorem ent_lt (e : ℝ) (he : 332/100 ≤ e) : ent e < 63/1000 := by
  refine lt_of_le_of_lt (ent_anti (by norm_num) he) ?_
  have h1 : (49/100 : ℝ) < (32/100 : ℝ) ^ (6169/10000 : ℝ) := by
    have := Head.lt_rpow_of_lt_pow (x := 32/100) (r := 49/100) (p := 5) (q := 8) (by norm_num) (by norm_num) (by norm_num) (by norm_num)
    push_cast at this
    exact this.trans_le (Real.rpow_le_rpow_of_exponent_ge (by norm_num) (by norm_num) (by norm_num))
  rw [show (332/100 - 3 : ℝ) = 32/100 by norm_num]
  have := div_lt_div_of_pos_left (show (0:ℝ) < 306/10000 by norm_num) (by norm_num) h1
  norm_num at this ⊢
  linarith

theorem ent_lt' (e : ℝ) (he : 36/10 ≤ e) : ent e < 43/1000 := by
  refine lt_of_le_of_lt (ent_anti (by norm_num) he) ?_
  have h1 : (72/100 : ℝ) < (6/10 : ℝ) ^ (6169/10000 : ℝ) := by
    have := Head.lt_rpow_of_lt_pow (x := 6/10) (r := 72/100) (p := 5) (q := 8) (by norm_num) (by norm_num) (by norm_num) (by norm_num)
    push_cast at this
    exact this.trans_le (Real.rpow_le_rpow_of_exponent_ge (by norm_num) (by norm_num) (by norm_num))
  rw [show (36/10 - 3 : ℝ) = 6/10 by norm_num]
  have := div_lt_div_of_pos_left (show (0:ℝ) < 306/10000 by norm_num) (by norm_num) h1
  norm_num at this ⊢
  linarith

/-! ### The rates -/

/-- The rate of H1 on either branch. -/
theorem h1_rate {a b c d nu v w m x : ℝ} (hE : Ep a b c x < 0) (hv : 0 < v) (hm : 0 < m) :
    Ep a b c x * (V a b c d nu (v, w, m, x)).2 = ent (E a b c d x) / m - E a b c d x * cf nu v m x / (2 * m) + (1 + x) * E a b c d x * w / v := by
  have hE' := hE.ne
  simp only [V, ent]
  generalize Ep a b c x = P at *
  generalize (306/10000 / (E a b c d x - 3) ^ (6169/10000 : ℝ) : ℝ) = n at *
  field_simp

/-- Where `-m w >= v / 100` it is at most `(100 ent - (1 + h) H1) (-w / v)`. -/
theorem h1_rate_le {a b c d nu v w m x : ℝ} (hn : 0 < nu) (hE : Ep a b c x < 0) (hE3 : 3 < E a b c d x) (hv : 0 < v) (hm : 0 < m)
    (hdec : v / 100 ≤ -(m * w)) :
    Ep a b c x * (V a b c d nu (v, w, m, x)).2 ≤ (100 * ent (E a b c d x) - (1 + x) * E a b c d x) * (-w / v) := by
  rw [h1_rate hE hv hm]
  have h1 : 0 ≤ E a b c d x * cf nu v m x / (2 * m) := by
    have := cf_pos (x := x) hn hv hm
    positivity
  have h2 : 0 < ent (E a b c d x) := div_pos (by norm_num) (Real.rpow_pos_of_pos (by linarith) _)
  have h3 : ent (E a b c d x) / m ≤ 100 * ent (E a b c d x) * (-w / v) := by
    have h5 : 1/100 ≤ m * (-w / v) := by rw [mul_div_assoc', le_div_iff₀ hv]; linarith
    generalize ent (E a b c d x) = n at h2 ⊢
    rw [div_le_iff₀ hm]
    nlinarith
  have h4 : (1 + x) * E a b c d x * w / v = -((1 + x) * E a b c d x * (-w / v)) := by ring
  rw [h4]
  linarith

/-- On the low branch. -/
theorem low_rate {nu v w m x : ℝ} (hn : 0 < nu) (hv : 0 < v) (hm : 0 < m) (hdec : v / 100 ≤ -(m * w)) (hx : 111/100 ≤ x) (hx' : x ≤ 16/10) :
    EpL x * (VL nu (v, w, m, x)).2 ≤ 5 * (w / v) ∧ 0 < (VL nu (v, w, m, x)).2 := by
  have hE : EpL x < 0 := Ep_neg (by norm_num) (by norm_num) (by linarith)
  obtain ⟨eL, -, e1, -, h1, -⟩ := at_branch
  have h2 : 53/10 < EL x := (h1.trans_le e1.ge).trans_le (E_anti (by norm_num) (by norm_num) (by linarith) hx')
  have h3 := h1_rate_le (d := 33/10) hn hE (lt_trans (by norm_num) h2) hv hm hdec
  have h4 := ent_lt' (EL x) (by linarith)
  have hw : 0 < -w / v := by
    refine div_pos ?_ hv
    have : 0 < m * -w := by have := div_pos hv (show (0:ℝ) < 100 by norm_num); linarith
    exact pos_of_mul_pos_right this hm.le
  have h5 : 100 * ent (EL x) - (1 + x) * EL x ≤ -5 := by nlinarith
  have h6 : EpL x * (VL nu (v, w, m, x)).2 ≤ -5 * (-w / v) := h3.trans (mul_le_mul_of_nonneg_right h5 hw.le)
  have h7 : EpL x * (VL nu (v, w, m, x)).2 < 0 := by linarith
  refine ⟨h6.trans_eq (by ring), ?_⟩
  by_contra hc
  exact absurd h7 (not_lt.2 (mul_nonneg_of_nonpos_of_nonpos hE.le (not_lt.1 hc)))

/-- On the high branch. -/
theorem high_rate {nu v w m x : ℝ} (hn : 0 < nu) (hv : 0 < v) (hm : 0 < m) (hdec : v / 100 ≤ -(m * w)) (hx : 16/10 ≤ x) :
    0 < (VH nu (v, w, m, x)).2 ∧ EpH x * (VH nu (v, w, m, x)).2 ≤ 49/10 * (w / v) := by
  have hE : EpH x < 0 := Ep_neg (by norm_num) (by norm_num) (by linarith)
  have h2 := EH_gt x hx
  have h3 := h1_rate_le (d := 332254659218600974/10^17) hn hE (lt_trans (by norm_num) h2) hv hm hdec
  have hw : 0 < -w / v := by
    refine div_pos ?_ hv
    have : 0 < m * -w := by have := div_pos hv (show (0:ℝ) < 100 by norm_num); linarith
    exact pos_of_mul_pos_right this hm.le
  have h5 : 100 * ent (EH x) - (1 + x) * EH x ≤ -(49/10) := by
    rcases le_or_gt x (24/10) with hx' | hx'
    · have h8 := EH_end x hx hx'
      have h9 := ent_lt' (EH x) h8.le
      nlinarith
    · have h4 := ent_lt (EH x) h2.le
      nlinarith
  have h6 : EpH x * (VH nu (v, w, m, x)).2 ≤ -(49/10) * (-w / v) := h3.trans (mul_le_mul_of_nonneg_right h5 hw.le)
  have h7 : EpH x * (VH nu (v, w, m, x)).2 < 0 := by linarith
  refine ⟨?_, h6.trans_eq (by ring)⟩
  by_contra hc
  exact absurd h7 (not_lt.2 (mul_nonneg_of_nonpos_of_nonpos hE.le (not_lt.1 hc)))

/-! ### Along a solution -/

/-- A continuous function whose slope is positive off a finite set increases strictly. -/
theorem strict_off {f : ℝ → ℝ} {X : Set ℝ} {a b : ℝ} (hX : X.Finite) (hc : ContinuousOn f (Icc a b))
    (hd : ∀ t ∈ Icc a b, t ∉ X → ∃ r, 0 < r ∧ HasDerivAt f r t) : StrictMonoOn f (Icc a b) := by
  have hmono : MonotoneOn f (Icc a b) := by
    intro x hx y hy hxy
    have sub : Icc x y ⊆ Icc a b := Icc_subset_Icc hx.1 hy.2
    have hex : ∀ t : ℝ, ∃ r, t ∈ Icc x y → t ∉ X → HasDerivAt f r t ∧ 0 ≤ r := fun t => by
      by_cases ht : t ∈ Icc x y ∧ t ∉ X
      · obtain ⟨r, h1, h2⟩ := hd t (sub ht.1) ht.2
        exact ⟨r, fun _ _ => ⟨h2, h1.le⟩⟩
      · exact ⟨0, fun h1 h2 => absurd ⟨h1, h2⟩ ht⟩
    choose r hr using hex
    exact barrier_off (lo := f x - 1) hX (by linarith) (hc.mono sub) (fun t h1 h2 => (hr t h1 h2).1) le_rfl
      (fun t h1 h2 _ _ => (hr t h1 h2).2) y ⟨hxy, le_rfl⟩
  intro x hx y hy hxy
  refine lt_of_le_of_ne (hmono hx hy hxy.le) fun he => ?_
  obtain ⟨z, hz, hzX⟩ : ∃ z ∈ Ioo x y, z ∉ X := by
    by_contra hcon
    push Not at hcon
    exact (Ioo_infinite hxy) (hX.subset hcon)
  obtain ⟨r, hr0, hd⟩ := hd z ⟨hx.1.trans hz.1.le, hz.2.le.trans hy.2⟩ hzX
  have hconst : f =ᶠ[𝓝 z] fun _ => f x := by
    filter_upwards [Ioo_mem_nhds hz.1 hz.2] with t ht
    have htm : t ∈ Icc a b := ⟨hx.1.trans ht.1.le, ht.2.le.trans hy.2⟩
    exact le_antisymm (by rw [he]; exact hmono htm hy ht.2.le) (hmono hx htm ht.1.le)
  have := hd.unique ((hasDerivAt_const z (f x)).congr_of_eventuallyEq hconst)
  linarith

/-- Persistent deceleration. -/
structure Slows (u du : ℝ → ℝ) (m0 a b : ℝ) : Prop where
  vel : ∀ x ∈ Icc a b, 1/1000 ≤ u x
  dec : ∀ x ∈ Icc a b, u x / 100 ≤ -(m0 * du x)

section along
variable {nu : ℝ} {u du dm h : ℝ → ℝ} {a b : ℝ} {X : Set ℝ}

theorem Sol.thicker (S : Sol nu u du dm h a b X) (hs : Slows u du (dm a) a b) : ∀ x ∈ Icc a b, dm a ≤ dm x := by
  intro x hx
  have ha : a ∈ Icc a b := ⟨le_rfl, hx.1.trans hx.2⟩
  refine barrier_off (lo := dm a - 1) S.fin (by linarith) S.cdm (fun t ht hn => S.mom t ht hn) le_rfl (fun t ht _ _ _ => ?_) x hx
  have h1 := hs.vel t ht
  have h2 := hs.dec t ht
  have hw : du t ≤ 0 := by
    by_contra hc
    have := mul_pos (S.pos a ha) (not_le.1 hc)
    linarith
  have h3 := cf_pos (x := max (h t) (111/100)) S.hn (U_pos u t) (S.pos t ht)
  have h4 : dm t * (2 + max (h t) (111/100)) * du t / U u t ≤ 0 :=
    div_nonpos_of_nonpos_of_nonneg (mul_nonpos_of_nonneg_of_nonpos
      (mul_nonneg (S.pos t ht).le (by have := le_max_right (h t) (111/100); linarith)) hw) (U_pos u t).le
  show 0 ≤ cf nu (U u t) (dm t) (max (h t) (111/100)) / 2 - dm t * (2 + max (h t) (111/100)) * du t / U u t
  linarith

theorem Sol.slows (S : Sol nu u du dm h a b X) (hs : Slows u du (dm a) a b) : ∀ x ∈ Icc a b, U u x = u x ∧ 0 < u x ∧ u x / 100 ≤ -(dm x * du x) := by
  intro x hx
  have h1 := hs.vel x hx
  have h2 := hs.dec x hx
  have h3 := S.thicker hs x hx
  have ha : a ∈ Icc a b := ⟨le_rfl, hx.1.trans hx.2⟩
  have hw : du x ≤ 0 := by
    by_contra hc
    have := mul_pos (S.pos a ha) (not_le.1 hc)
    linarith
  exact ⟨max_eq_left h1, by linarith, by nlinarith⟩

/-- The shape factor has a positive slope at the regular points. -/
theorem Sol.rising (S : Sol nu u du dm h a b X) (hs : Slows u du (dm a) a b) {x : ℝ} (hx : x ∈ Icc a b) (hn : x ∉ X) :
    ∃ r, 0 < r ∧ HasDerivAt h r x := by
  obtain ⟨e, hu, hd⟩ := S.slows hs x hx
  rw [← e] at hu hd
  rcases le_or_gt (h x) (16/10) with hl | hl
  · exact ⟨_, (low_rate S.hn hu (S.pos x hx) hd (le_max_right (h x) _) (max_low hl)).2, S.low x hx hn hl⟩
  · exact ⟨_, (high_rate S.hn hu (S.pos x hx) hd (max_high hl).le).1, S.high x hx hn hl⟩

theorem Sol.strict (S : Sol nu u du dm h a b X) (hs : Slows u du (dm a) a b) : StrictMonoOn h (Icc a b) :=
  strict_off S.fin S.ch fun _ hx hn => S.rising hs hx hn

/-- H1, made continuous. -/
noncomputable def G (x : ℝ) : ℝ := EL (min x (16/10)) + EH (max x (16/10))

theorem G_cont : ContinuousOn G (Ioi (11/10)) := by
  have h1 : ContinuousOn EL (Ioi (11/10)) := fun x hx => (E_deriv (a := 8234/10000) (b := 11/10) (c := 1287/1000) (d := 33/10) hx).continuousAt.continuousWithinAt
  have h2 : ContinuousOn EH (Ioi (6778/10000)) :=
    fun x hx => (E_deriv (a := 15501/10000) (b := 6778/10000) (c := 3064/1000) (d := 332254659218600974/10^17) hx).continuousAt.continuousWithinAt
  refine (h1.comp (f := fun x => min x (16/10)) (by fun_prop) fun x hx => ?_).add
    (h2.comp (f := fun x => max x (16/10)) (by fun_prop) fun x hx => ?_)
  · have hx' : (11/10 : ℝ) < x := hx
    exact lt_min hx' (by norm_num)
  · exact lt_of_lt_of_le (by norm_num) (le_max_right x (16/10))

/-- The velocity cannot fall to a quarter along a solution. -/
theorem Sol.quarter (S : Sol nu u du dm h a b X) (hs : Slows u du (dm a) a b) (hsl : ∀ x ∈ Icc a b, HasDerivAt u (du x) x) (h0 : 13/10 ≤ h a) :
    ∀ x ∈ Icc a b, u a < 4 * u x := by
  intro x hx
  have ha : a ∈ Icc a b := ⟨le_rfl, hx.1.trans hx.2⟩
  have hst := S.strict hs
  have hge : ∀ t ∈ Icc a b, 13/10 ≤ h t := fun t ht => h0.trans (hst.monotoneOn ha ht ht.1)
  set Y : Set ℝ := {t ∈ Icc a b | h t = 16/10} with hY
  have fY : Y.Finite := Set.Subsingleton.finite fun p hp q hq => hst.injOn hp.1 hq.1 (hp.2.trans hq.2.symm)
  have fin : (X ∪ Y).Finite := S.fin.union fY
  have cont : ContinuousOn (fun t => G (h t) - 49/10 * Real.log (u t)) (Icc a b) := by
    refine (G_cont.comp S.ch fun t ht => ?_).sub (ContinuousOn.mul continuousOn_const (S.cu.log fun t ht => ?_))
    · have := hge t ht; show (11/10 : ℝ) < h t; linarith
    · exact (S.slows hs t ht).2.1.ne'
  have hder : ∀ t, ∃ r, t ∈ Icc a b → t ∉ X ∪ Y → HasDerivAt (fun t => G (h t) - 49/10 * Real.log (u t)) r t ∧ r ≤ 0 := fun t => by
    by_cases hc : t ∈ Icc a b ∧ t ∉ X ∪ Y
    swap
    · exact ⟨0, fun h1 h2 => absurd ⟨h1, h2⟩ hc⟩
    obtain ⟨ht, hn⟩ := hc
    simp only [mem_union, not_or] at hn
    obtain ⟨e, hu, hd⟩ := S.slows hs t ht
    have hl := (hsl t ht).log hu.ne'
    have hu' := hu
    rw [← e] at hu hd
    rcases lt_trichotomy (h t) (16/10) with hlt | heq | hgt
    · have k := (low_rate S.hn hu (S.pos t ht) hd (le_max_right (h t) _) (max_low hlt.le)).1
      have hm : max (h t) (111/100) = h t := max_eq_left (by have := hge t ht; linarith)
      have k1 := S.low t ht hn.1 hlt.le
      have k2 := (E_deriv (a := 8234/10000) (b := 11/10) (c := 1287/1000) (d := 33/10) (x := h t) (by have := hge t ht; linarith)).comp t k1
      refine ⟨_, fun _ _ => ⟨((k2.add_const (EH (16/10))).sub (hl.const_mul (49/10))).congr_of_eventuallyEq ?_, ?_⟩⟩
      · filter_upwards [k1.continuousAt.eventually (gt_mem_nhds hlt)] with s hs
        simp only [G, min_eq_left hs.le, max_eq_right hs.le, Function.comp, Pi.sub_apply]
      · rw [hm, e] at k
        have k3 : P u du dm h t = (u t, du t, dm t, h t) := by simp only [P, e, hm]
        rw [k3]
        have : du t / u t ≤ 0 := by
          refine div_nonpos_of_nonpos_of_nonneg ?_ hu'.le
          by_contra hcc
          have := mul_pos (S.pos t ht) (not_le.1 hcc)
          linarith
        have k' : Ep (8234/10000) (11/10) (1287/1000) (h t) * (VL nu (u t, du t, dm t, h t)).2 ≤ 5 * (du t / u t) := k
        linarith
    · exact absurd ⟨ht, heq⟩ hn.2
    · have k := (high_rate S.hn hu (S.pos t ht) hd (max_high hgt).le).2
      have hm : max (h t) (111/100) = h t := max_eq_left (by have := hge t ht; linarith)
      have k1 := S.high t ht hn.1 hgt
      have k2 := (E_deriv (a := 15501/10000) (b := 6778/10000) (c := 3064/1000) (d := 332254659218600974/10^17) (x := h t) (by linarith)).comp t k1
      refine ⟨_, fun _ _ => ⟨((k2.const_add (EL (16/10))).sub (hl.const_mul (49/10))).congr_of_eventuallyEq ?_, ?_⟩⟩
      · filter_upwards [k1.continuousAt.eventually (lt_mem_nhds hgt)] with s hs
        simp only [G, min_eq_right hs.le, max_eq_left hs.le, Function.comp, Pi.sub_apply]
      · rw [hm, e] at k
        have k3 : P u du dm h t = (u t, du t, dm t, h t) := by simp only [P, e, hm]
        rw [k3]
        have k' : Ep (15501/10000) (6778/10000) (3064/1000) (h t) * (VH nu (u t, du t, dm t, h t)).2 ≤ 49/10 * (du t / u t) := k
        linarith
  choose r hr using hder
  have hQ := barrier_above_off (hi := G (h a) - 49/10 * Real.log (u a) + 1) fin (by linarith) cont (fun t h1 h2 => (hr t h1 h2).1) le_rfl
    (fun t h1 h2 _ _ => (hr t h1 h2).2) x hx
  obtain ⟨eL, eH, e1, e2, h1, h2, h3⟩ := at_branch
  have hGa : G (h a) < 10 + 531/100 := by
    have g1 : EL (min (h a) (16/10)) ≤ EL (13/10) := E_anti (by norm_num) (by norm_num) (by norm_num) (le_min h0 (by norm_num))
    have g2 : EH (max (h a) (16/10)) ≤ EH (16/10) := E_anti (by norm_num) (by norm_num) (by norm_num) (le_max_right _ _)
    have g3 := EL_start
    have e2' : EH (16/10) = eH := e2
    unfold G
    linarith
  have hGx : 53/10 + 332/100 < G (h x) := by
    have g1 : EL (16/10) ≤ EL (min (h x) (16/10)) := E_anti (by norm_num) (by norm_num)
      (lt_min (by have := hge x hx; linarith) (by norm_num)) (min_le_right _ _)
    have g2 := EH_gt (max (h x) (16/10)) (le_max_right _ _)
    have e1' : EL (16/10) = eL := e1
    unfold G
    linarith
  obtain ⟨-, hua, -⟩ := S.slows hs a ha
  obtain ⟨-, hux, -⟩ := S.slows hs x hx
  by_contra hc
  push Not at hc
  have hlog := Real.log_le_log (by linarith : 0 < 4 * u x) hc
  rw [Real.log_mul (by norm_num) hux.ne', show (4:ℝ) = 2 ^ 2 by norm_num, Real.log_pow] at hlog
  have := Real.log_two_gt_d9
  push_cast at hlog
  linarith

end along
end HeadBranch

open HeadBranch

/-- Such solutions are solutions in the sense of the lemmas above. -/
theorem HeadSolutionOn.toSol {o : Obj ℝ} {u du dm h : ℝ → ℝ} {a b : ℝ} (S : HeadSolutionOn o u du dm h a b) (hn : 0 < o.nu)
    (hdu : ContinuousOn du (Icc a b)) (h0 : 0 < dm a) : ∃ X, Sol o.nu u du dm h a b X := by
  obtain ⟨X, hX, k⟩ := S.ode
  exact ⟨X, Flow.sol ⟨S.isHead, S.uE, S.duE, hn, fun x hx => (S.slope x hx).continuousAt.continuousWithinAt, hdu⟩ hX S.dmCont S.hCont k h0⟩

/-- The reported shape factor is the second component. -/
theorem HeadSolutionOn.shape {o : Obj ℝ} {u du dm h : ℝ → ℝ} {a b : ℝ} (S : HeadSolutionOn o u du dm h a b) (x : ℝ) :
    o.shapeD x = .ok (h x) := by
  simp [Obj.shapeD, S.isHead, Obj.comp, Obj.state, S.sol, Bind.bind, Except.bind, Pure.pure, Except.pure]

/-- **C122**: where `-delta_m u_e' >= u_e / 100` with the momentum thickness at the start, the reported shape factor increases all along. -/
theorem head_shape_rises (o : Obj ℝ) (u du dm h : ℝ → ℝ) (a b : ℝ) (S : HeadSolutionOn o u du dm h a b) (hn : 0 < o.nu)
    (hdu : ContinuousOn du (Icc a b)) (h0 : 0 < dm a) (hu : ∀ x ∈ Icc a b, 1/1000 ≤ u x) (hdec : ∀ x ∈ Icc a b, u x / 100 ≤ -(dm a * du x)) :
    ∀ x ∈ Icc a b, ∀ y ∈ Icc a b, x < y → ∃ s t, o.shapeD x = .ok s ∧ o.shapeD y = .ok t ∧ s < t := by
  obtain ⟨X, H⟩ := S.toSol hn hdu h0
  exact fun x hx y hy hxy => ⟨_, _, S.shape x, S.shape y, H.strict ⟨hu, hdec⟩ hx hy hxy⟩

/-- **C122**: and from a shape factor of at least 1.3 no solution reaches a place where the velocity has fallen to a quarter. -/
theorem head_ends_before_quarter (o : Obj ℝ) (u du dm h : ℝ → ℝ) (a b : ℝ) (S : HeadSolutionOn o u du dm h a b) (hn : 0 < o.nu)
    (hdu : ContinuousOn du (Icc a b)) (h0 : 0 < dm a) (hh : 13/10 ≤ h a) (hu : ∀ x ∈ Icc a b, 1/1000 ≤ u x)
    (hdec : ∀ x ∈ Icc a b, u x / 100 ≤ -(dm a * du x)) : ∀ x ∈ Icc a b, u a / 4 < u x := by
  obtain ⟨X, H⟩ := S.toSol hn hdu h0
  intro x hx
  linarith [H.quarter ⟨hu, hdec⟩ S.slope hh x hx]

/-- **C122**: so if the velocity does fall to a quarter, there is a solution from every such start that ends, before that, where its shape factor is any
`crit` above the first one. There the separation criterion of the method is met, and nowhere before. -/
theorem head_separates (o : Obj ℝ) (u du : ℝ → ℝ) (a b m0 h0 crit : ℝ) (hc : o.cls = .head) (hn : 0 < o.nu) (huE : ∀ t, o.vel.uE t = .ok (u t))
    (hduE : ∀ t, o.vel.duE t = .ok (du t)) (hslope : ∀ x ∈ Icc a b, HasDerivAt u (du x) x) (hdu : ContinuousOn du (Icc a b)) (hab : a < b)
    (hm : 0 < m0) (hh : 13/10 ≤ h0) (hcrit : h0 < crit) (hu : ∀ x ∈ Icc a b, 1/1000 ≤ u x) (hdec : ∀ x ∈ Icc a b, u x / 100 ≤ -(m0 * du x))
    (hq : u b ≤ u a / 4) : ∃ c ∈ Ioo a b, ∃ dm h : ℝ → ℝ, dm a = m0 ∧ h a = h0 ∧
      HeadSolutionOn { o with sol := some fun t => [dm t, h t] } u du dm h a c ∧
      (∀ x ∈ Ico a c, ∃ v, o.eventValue (.sepHead crit) x [dm x, h x] = .ok v ∧ 0 < v) ∧
      o.eventValue (.sepHead crit) c [dm c, h c] = .ok 0 ∧ u a / 4 < u c := by
  obtain ⟨c, hc', dm, h, e1, e2, S, -, h1, h2⟩ := head_until_separation o u du a b m0 h0 crit hc hn huE hduE hslope hdu hab hm hcrit
  have sub : Icc a c ⊆ Icc a b := Icc_subset_Icc_right hc'.2
  have hlt : u a / 4 < u c := head_ends_before_quarter _ u du dm h a c S hn (hdu.mono sub) (by rw [e1]; exact hm) (by rw [e2]; exact hh)
    (fun x hx => hu x (sub hx)) (fun x hx => by rw [e1]; exact hdec x (sub hx)) c ⟨hc'.1.le, le_rfl⟩
  have hne : c ≠ b := fun e => by rw [e] at hlt; linarith
  refine ⟨c, ⟨hc'.1, lt_of_le_of_ne hc'.2 hne⟩, dm, h, e1, e2, S, fun x hx => ⟨crit - h x, rfl, by linarith [h1 x hx]⟩, ?_, hlt⟩
  have : o.eventValue (.sepHead crit) c [dm c, h c] = .ok (crit - h c) := rfl
  rw [this, h2.resolve_left hne, sub_self]

/-- **C122**: and this solution is the only one: two solutions with the same start agree as long as both last. -/
theorem head_separation_determined (o1 o2 : Obj ℝ) (u du d1 h1 d2 h2 : ℝ → ℝ) (a b : ℝ) (S1 : HeadSolutionOn o1 u du d1 h1 a b)
    (S2 : HeadSolutionOn o2 u du d2 h2 a b) (hnu : o1.nu = o2.nu) (hn : 0 < o1.nu) (hdu : ContinuousOn du (Icc a b)) (h0 : 0 < d1 a)
    (hd : d1 a = d2 a) (hh : h1 a = h2 a) (hu : ∀ x ∈ Icc a b, 1/1000 ≤ u x) (hdec : ∀ x ∈ Icc a b, u x / 100 ≤ -(d1 a * du x)) :
    ∀ x ∈ Icc a b, o1.deltaM x = o2.deltaM x ∧ o1.shapeD x = o2.shapeD x ∧ o1.deltaD x = o2.deltaD x := by
  obtain ⟨X1, H1⟩ := S1.toSol hn hdu h0
  obtain ⟨X2, H2⟩ := S2.toSol (hnu ▸ hn) hdu (hd ▸ h0)
  have key : ∀ {X : Set ℝ} {d h : ℝ → ℝ} {nu : ℝ}, Sol nu u du d h a b X → d a = d1 a → ∀ x ∈ Icc a b, 35/10000 ≤ loadAtBranch nu (u x) (du x) (d x) := by
    intro X d h nu H e x hx
    obtain ⟨k1, k2, k3⟩ := H.slows ⟨hu, by rw [e]; exact hdec⟩ x hx
    have k4 : 0 < ludwiegTillman (u x * d x / nu) (16/10) := by rw [cf_eq]; exact cf_pos H.hn k2 (H.pos x hx)
    have k1' : max (u x) (1/1000) = u x := k1
    unfold loadAtBranch
    rw [k1']
    have : 26/10 * d x * du x / u x ≤ -(26/1000) := by rw [div_le_iff₀ k2]; linarith
    linarith
  exact head_determined_partial o1 o2 u du d1 h1 d2 h2 a b S1 S2 hnu hn hdu h0 hd hh (fun x hx _ => .inr (key H1 rfl x hx))
    (fun x hx _ => .inr (by rw [hnu]; exact key H2 hd.symm x hx))

/-- A case: `u_e = 2 - x` on `[0, 1.5]` from the momentum thickness 1/10 and the shape factor 1.4. -/
example : ∃ c ∈ Ioo (0:ℝ) (3/2), ∃ dm h : ℝ → ℝ, dm 0 = 1/10 ∧ h 0 = 14/10 ∧ h c = 24/10 ∧ (1/2 : ℝ) < 2 - c ∧
    HeadSolutionOn ⟨.head, 1, ⟨some (.fn fun x => .ok (2 - x)), some (.fn fun _ => .ok (-1)), none⟩, .manual 0 1 1 1 1, [],
      some fun t => [dm t, h t], none⟩ (fun x => 2 - x) (fun _ => -1) dm h 0 c := by
  obtain ⟨c, hc, dm, h, e1, e2, S, -, h2, h3⟩ := head_separates
    ⟨.head, 1, ⟨some (.fn fun x => .ok (2 - x)), some (.fn fun _ => .ok (-1)), none⟩, .manual 0 1 1 1 1, [], none, none⟩
    (fun x => 2 - x) (fun _ => -1) 0 (3/2) (1/10) (14/10) (24/10) rfl one_pos
    (fun t => by simp [VelState.uE, VelState.rawU, callOpt, Vel.call]) (fun t => by simp [VelState.duE, VelState.rawDu, callOpt, Vel.call])
    (fun x _ => by simpa using (hasDerivAt_id x).const_sub 2) continuousOn_const (by norm_num) (by norm_num) (by norm_num) (by norm_num)
    (fun x hx => by have := hx.2; linarith) (fun x hx => by have := hx.1; norm_num; linarith) (by norm_num)
  have h4 : (24/10 : ℝ) - h c = 0 := Except.ok.inj h2
  exact ⟨c, hc, dm, h, e1, e2, by linarith, by linarith, S⟩

/-- **C121**, on a flat plate: at constant velocity, from a Reynolds number (of the momentum thickness) of at least 1 and from any shape factor, the
solution lasts to the end of every interval. -/
theorem head_plate_to_end (o : Obj ℝ) (v a b m0 h0 : ℝ) (hc : o.cls = .head) (hn : 0 < o.nu) (huE : ∀ t, o.vel.uE t = .ok v)
    (hduE : ∀ t, o.vel.duE t = .ok 0) (hab : a < b) (hv : 1/1000 ≤ v) (hm : 0 < m0) (hre : 1 ≤ v * m0 / o.nu) : ∃ dm h : ℝ → ℝ, dm a = m0 ∧ h a = h0 ∧
      HeadSolutionOn { o with sol := some fun t => [dm t, h t] } (fun _ => v) (fun _ => 0) dm h a b ∧ ∀ x ∈ Icc a b, h x ≤ max h0 2 := by
  obtain ⟨c, hc', dm, h, e1, e2, S, -, h1, h2⟩ := head_until_separation o (fun _ => v) (fun _ => 0) a b m0 h0 (max h0 2 + 1) hc hn huE hduE
    (fun x _ => hasDerivAt_const x v) continuousOn_const hab hm (by linarith [le_max_left h0 2])
  have h0' : 0 < dm a := by rw [e1]; exact hm
  have hdm : ∀ x ∈ Icc a c, dm a ≤ dm x := fun x hx => by
    rcases eq_or_lt_of_le hx.1 with e | e
    · rw [e]
    obtain ⟨d, d', k1, k2, -, k3⟩ := head_grows _ _ _ dm h a c S hn (fun _ _ => le_rfl) h0' a ⟨le_rfl, hc'.1.le⟩ x hx e
    have q : ∀ t, ({ o with sol := some fun t => [dm t, h t] } : Obj ℝ).deltaM t = .ok (dm t) := fun t => by
      simp [Obj.deltaM, hc, Obj.comp, Obj.state, Bind.bind, Except.bind, Pure.pure, Except.pure]
    rw [q] at k1 k2
    cases k1
    cases k2
    exact k3.le
  have hle : ∀ x ∈ Icc a c, h x ≤ max h0 2 := fun x hx => by
    obtain ⟨s, k1, k2⟩ := head_shape_bounded _ _ _ dm h a c 0 S hn h0' (fun _ _ => hv) (fun _ _ => le_rfl) (fun _ _ => le_rfl)
      (fun t ht => hre.trans (by
        have := hdm t ht
        rw [e1] at this
        show v * m0 / o.nu ≤ v * dm t / o.nu
        gcongr)) x hx
    rw [S.shape] at k1
    cases k1
    rwa [e2] at k2
  have hcb : c = b := h2.resolve_right fun e => by
    have := hle c ⟨hc'.1.le, le_rfl⟩
    rw [e] at this
    linarith
  rw [hcb] at S hle
  exact ⟨dm, h, e1, e2, S, hle⟩

end IBL
