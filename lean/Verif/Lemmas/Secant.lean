import Mathlib.Analysis.Calculus.Deriv.MeanValue
import Mathlib.Analysis.Calculus.Deriv.Pow
import Mathlib.Analysis.Calculus.Deriv.Inv
import Mathlib.Tactic.Linarith
import Mathlib.Tactic.FieldSimp
import Mathlib.Tactic.Positivity

/-! The secant iteration for `g x = 1` where `g` is increasing and concave and grows at least like `x^(2/3)`. -/

namespace IBL.Secant
open Set

/-- `g` is positive and increasing on the positive numbers, its slope `d` decreases, and `2/3 g/x ≤ d ≤ g/x`. -/
structure Shoot (g d : ℝ → ℝ) : Prop where
  pos : ∀ x, 0 < x → 0 < g x
  deriv : ∀ x, 0 < x → HasDerivAt g (d x) x
  anti : ∀ x y, 0 < x → x ≤ y → d y ≤ d x
  lower : ∀ x, 0 < x → 2/3 * g x ≤ x * d x
  upper : ∀ x, 0 < x → x * d x ≤ g x

variable {g d : ℝ → ℝ} (h : Shoot g d)
include h

theorem Shoot.dpos {x : ℝ} (hx : 0 < x) : 0 < d x := by
  have h1 := h.pos x hx
  have h2 := h.lower x hx
  by_contra hc
  have : x * d x ≤ 0 := mul_nonpos_of_nonneg_of_nonpos hx.le (not_lt.1 hc)
  linarith

/-- Mean value bounds. -/
theorem Shoot.slope {x y : ℝ} (hx : 0 < x) (hy : x ≤ y) : d y * (y - x) ≤ g y - g x ∧ g y - g x ≤ d x * (y - x) := by
  rcases eq_or_lt_of_le hy with e | hlt
  · subst e; simp
  · obtain ⟨c, hc, he⟩ := exists_hasDerivAt_eq_slope g d hlt (fun z hz => (h.deriv z (hx.trans_le hz.1)).continuousAt.continuousWithinAt)
      (fun z hz => h.deriv z (hx.trans hz.1))
    have hp : 0 < y - x := by linarith
    have e : g y - g x = d c * (y - x) := by rw [he]; field_simp
    have h1 := h.anti x c hx hc.1.le
    have h2 := h.anti c y (hx.trans hc.1) hc.2.le
    constructor <;> · rw [e]; gcongr

theorem Shoot.lt {x y : ℝ} (hx : 0 < x) (hy : x < y) : g x < g y := by
  have h1 := (h.slope hx hy.le).1
  have h2 := mul_pos (h.dpos (hx.trans hy)) (sub_pos.2 hy)
  linarith

theorem Shoot.le {x y : ℝ} (hx : 0 < x) (hy : x ≤ y) : g x ≤ g y := by
  rcases eq_or_lt_of_le hy with e | hlt
  · rw [e]
  · exact (h.lt hx hlt).le

/-- `g^3 / x^2` increases. -/
theorem Shoot.growth {x y : ℝ} (hx : 0 < x) (hy : x ≤ y) : g x ^ 3 * y ^ 2 ≤ g y ^ 3 * x ^ 2 := by
  have hd : ∀ z, 0 < z → HasDerivAt (fun z => g z ^ 3 / z ^ 2) ((3 * g z ^ 2 * d z * z ^ 2 - g z ^ 3 * (2 * z)) / (z ^ 2) ^ 2) z := fun z hz => by
    have h1 := ((h.deriv z hz).pow 3).div ((hasDerivAt_id z).pow 2) (by simp; exact hz.ne')
    refine h1.congr_deriv ?_
    simp
  have hm : MonotoneOn (fun z => g z ^ 3 / z ^ 2) (Icc x y) := by
    refine monotoneOn_of_hasDerivWithinAt_nonneg (convex_Icc x y) (fun z hz => (hd z (hx.trans_le hz.1)).continuousAt.continuousWithinAt)
      (fun z hz => (hd z (by rw [interior_Icc] at hz; exact hx.trans hz.1)).hasDerivWithinAt) fun z hz => ?_
    rw [interior_Icc] at hz
    have hz0 := hx.trans hz.1
    refine div_nonneg ?_ (by positivity)
    have h1 := h.lower z hz0
    have h2 := h.pos z hz0
    have : 0 ≤ g z ^ 2 * z * (3 * (z * d z) - 2 * g z) := mul_nonneg (by positivity) (by linarith)
    nlinarith
  have := hm (left_mem_Icc.2 hy) (right_mem_Icc.2 hy) hy
  simp only at this
  rw [div_le_div_iff₀ (by positivity) (by have := hx.trans_le hy; positivity)] at this
  exact this

/-- The slopes at two points differ by a factor that depends on the ratio of the points only. -/
theorem Shoot.ratio {x y k : ℝ} (hx : 0 < x) (hy : x ≤ y) (hk : 0 ≤ k) (hk3 : k ^ 3 * y ≤ x) : 2/3 * k * d x ≤ d y := by
  have py := hx.trans_le hy
  have gx := h.pos x hx
  have gy := h.pos y py
  have h1 := h.growth hx hy
  have h2 : (k * (g x * y)) ^ 3 ≤ (g y * x) ^ 3 := by
    calc (k * (g x * y)) ^ 3 = (g x ^ 3 * y ^ 2) * (k ^ 3 * y) := by ring
      _ ≤ (g y ^ 3 * x ^ 2) * x := by
        have : 0 ≤ k ^ 3 * y := by positivity
        gcongr
      _ = (g y * x) ^ 3 := by ring
  have h3 : k * (g x * y) ≤ g y * x := le_of_pow_le_pow_left₀ (by norm_num) (by positivity) h2
  have h4 := h.upper x hx
  have h5 := h.lower y py
  have h6 : 2/3 * k * d x * (x * y) ≤ d y * (x * y) := by
    calc 2/3 * k * d x * (x * y) = 2/3 * k * y * (x * d x) := by ring
      _ ≤ 2/3 * k * y * g x := by gcongr
      _ = 2/3 * (k * (g x * y)) := by ring
      _ ≤ 2/3 * (g y * x) := by gcongr
      _ = (2/3 * g y) * x := by ring
      _ ≤ (y * d y) * x := by gcongr
      _ = d y * (x * y) := by ring
  exact le_of_mul_le_mul_right h6 (by positivity)

omit h in
/-- The secant iterate. -/
noncomputable def next (g : ℝ → ℝ) (p c : ℝ) : ℝ := c + (1 - g c) * (c - p) / (g c - g p)

omit h in
theorem next_comm {p c : ℝ} (hne : g p ≠ g c) : next g p c = next g c p := by
  have h1 : g c - g p ≠ 0 := sub_ne_zero.2 hne.symm
  have h2 : g p - g c ≠ 0 := sub_ne_zero.2 hne
  have h3 : g p - g c = -(g c - g p) := by ring
  simp only [next]
  rw [h3, div_neg]
  field_simp
  ring

/-- Both points below the solution: the iterate is between the last point and the solution, and nearer by a factor. -/
theorem Shoot.below {p c r k : ℝ} (hp : 0 < p) (hpc : p < c) (hcr : c ≤ r) (hr : g r = 1) (hk : 0 ≤ k) (hk3 : k ^ 3 * r ≤ p) :
    c ≤ next g p c ∧ next g p c ≤ r ∧ r - next g p c ≤ (1 - 2/3 * k) * (r - c) := by
  have hc := hp.trans hpc
  have hm : 0 < g c - g p := sub_pos.2 (h.lt hp hpc)
  have hpc' : 0 < c - p := sub_pos.2 hpc
  obtain ⟨a1, a2⟩ := h.slope hp hpc.le
  obtain ⟨b1, b2⟩ := h.slope hc hcr
  rw [hr] at b1 b2
  have hrc : 0 ≤ r - c := sub_nonneg.2 hcr
  have q := h.ratio hp (hpc.le.trans hcr) hk hk3
  have dr := h.dpos (hc.trans_le hcr)
  have dc := h.dpos hc
  have dp := h.dpos hp
  have k1 : (1 - g c) * (c - p) / (g c - g p) ≤ r - c := by
    rw [div_le_iff₀ hm]
    calc (1 - g c) * (c - p) ≤ (d c * (r - c)) * (c - p) := by gcongr
      _ = (r - c) * (d c * (c - p)) := by ring
      _ ≤ (r - c) * (g c - g p) := by gcongr
  have k2 : 2/3 * k * (r - c) ≤ (1 - g c) * (c - p) / (g c - g p) := by
    rw [le_div_iff₀ hm]
    calc 2/3 * k * (r - c) * (g c - g p) ≤ 2/3 * k * (r - c) * (d p * (c - p)) := by gcongr
      _ = (2/3 * k * d p) * ((r - c) * (c - p)) := by ring
      _ ≤ d r * ((r - c) * (c - p)) := by
        have : 0 ≤ (r - c) * (c - p) := by positivity
        gcongr
      _ = (d r * (r - c)) * (c - p) := by ring
      _ ≤ (1 - g c) * (c - p) := by gcongr
  have k0 : 0 ≤ 2/3 * k * (r - c) := by positivity
  simp only [next]
  refine ⟨by linarith, by linarith, by linarith⟩

/-- The solution between the two points: the iterate is between the solution and the upper point, and nearer by a factor. -/
theorem Shoot.between {a b r k : ℝ} (ha : 0 < a) (har : a ≤ r) (hrb : r ≤ b) (hab : a < b) (hr : g r = 1) (hk : 0 ≤ k) (hk3 : k ^ 3 * b ≤ a) :
    r ≤ next g a b ∧ next g a b ≤ b ∧ next g a b - r ≤ (1 - 2/3 * k) * (b - r) := by
  have hb := ha.trans hab
  have hrp := ha.trans_le har
  have hm : 0 < g b - g a := sub_pos.2 (h.lt ha hab)
  have hba : 0 < b - a := sub_pos.2 hab
  obtain ⟨a1, a2⟩ := h.slope ha hab.le
  obtain ⟨b1, b2⟩ := h.slope ha har
  obtain ⟨c1, c2⟩ := h.slope hrp hrb
  rw [hr] at b1 b2 c1 c2
  have hrb' : 0 ≤ b - r := sub_nonneg.2 hrb
  have har' : 0 ≤ r - a := sub_nonneg.2 har
  have q := h.ratio ha hab.le hk hk3
  have dr := h.dpos hrp
  have da := h.dpos ha
  have gb : 0 ≤ g b - 1 := by have := h.le hrp hrb; linarith
  have e : next g a b = b - (g b - 1) * (b - a) / (g b - g a) := by simp only [next]; ring
  have k1 : (g b - 1) * (b - a) / (g b - g a) ≤ b - r := by
    rw [div_le_iff₀ hm]
    have : (g b - 1) * (r - a) ≤ (b - r) * (1 - g a) := by
      calc (g b - 1) * (r - a) ≤ (d r * (b - r)) * (r - a) := by gcongr
        _ = (b - r) * (d r * (r - a)) := by ring
        _ ≤ (b - r) * (1 - g a) := by gcongr
    nlinarith
  have k2 : 2/3 * k * (b - r) ≤ (g b - 1) * (b - a) / (g b - g a) := by
    rw [le_div_iff₀ hm]
    calc 2/3 * k * (b - r) * (g b - g a) ≤ 2/3 * k * (b - r) * (d a * (b - a)) := by gcongr
      _ = (2/3 * k * d a) * ((b - r) * (b - a)) := by ring
      _ ≤ d b * ((b - r) * (b - a)) := by
        have : 0 ≤ (b - r) * (b - a) := by positivity
        gcongr
      _ = (d b * (b - r)) * (b - a) := by ring
      _ ≤ (g b - 1) * (b - a) := by gcongr
  have k0 : 0 ≤ 2/3 * k * (b - r) := by positivity
  rw [e]
  refine ⟨by linarith, by linarith, by linarith⟩

/-- Both points above the solution: the iterate is below it, but not below a tenth of any upper bound `U` of the points with `g U ≤ 5/2`. -/
theorem Shoot.above {a b r U : ℝ} (hr0 : 0 < r) (hra : r ≤ a) (hab : a < b) (hbU : b ≤ U) (hU : g U ≤ 5/2) (hr : g r = 1) :
    U / 10 ≤ next g a b ∧ next g a b ≤ r := by
  have ha := hr0.trans_le hra
  have hb := ha.trans hab
  have hU0 := hb.trans_le hbU
  have hm : 0 < g b - g a := sub_pos.2 (h.lt ha hab)
  have hba : 0 < b - a := sub_pos.2 hab
  obtain ⟨a1, a2⟩ := h.slope ha hab.le
  obtain ⟨b1, b2⟩ := h.slope hr0 hra
  obtain ⟨c1, c2⟩ := h.slope ha (hab.le.trans hbU)
  rw [hr] at b1 b2
  have ga : 0 ≤ g a - 1 := by have := h.le hr0 hra; linarith
  have da := h.dpos ha
  have dU := h.dpos hU0
  have dUb := h.anti b U hb hbU
  have hra' : 0 ≤ a - r := sub_nonneg.2 hra
  have e : next g a b = a - (g a - 1) * (b - a) / (g b - g a) := by
    rw [next_comm (h.lt ha hab).ne]
    simp only [next]
    rw [show g a - g b = -(g b - g a) by ring, div_neg]
    ring
  have k1 : a - r ≤ (g a - 1) * (b - a) / (g b - g a) := by
    rw [le_div_iff₀ hm]
    calc (a - r) * (g b - g a) ≤ (a - r) * (d a * (b - a)) := by gcongr
      _ = (d a * (a - r)) * (b - a) := by ring
      _ ≤ (g a - 1) * (b - a) := by gcongr
  have k2 : (g a - 1) * (b - a) / (g b - g a) ≤ (g a - 1) / d U := by
    rw [div_le_div_iff₀ hm dU]
    have : d U * (b - a) ≤ g b - g a := le_trans (by gcongr) a1
    calc (g a - 1) * (b - a) * d U = (g a - 1) * (d U * (b - a)) := by ring
      _ ≤ (g a - 1) * (g b - g a) := by gcongr
  have k3 : (g a - 1) / d U ≤ a - U / 10 := by
    rw [div_le_iff₀ dU]
    have h1 := h.lower U hU0
    have h2 : U * d U ≥ 2/3 * g U := h1
    have h3 : g U - 1 ≤ 9/10 * (U * d U) := by linarith
    nlinarith
  rw [e]
  refine ⟨by linarith, by linarith⟩

end IBL.Secant
