import Verif.Props.StanfordStation
import Verif.Round

/-! C147, C148: the stations of the Stanford collection in rounded arithmetic. -/

set_option linter.unusedSectionVars false

namespace IBL.Stanford
open Spec

/-- The rounded number is the real one up to `k` units of rounding. -/
def Near (R : Rounding) (k : ℝ) (v : R.F) (x : ℝ) : Prop := |v.val - x| ≤ k * R.eps * |x|

/-- The conversion of a text to a float: the nearest one to the decimal number written. -/
def rounded (R : Rounding) (num : Floats ℝ) : Floats R.F := fun t => (num t).map R.round

/-- The square computed by `**` is that of its argument up to two units of rounding. -/
def Squares (R : Rounding) [PyPow R.F] : Prop := ∀ v : R.F, Near R 2 (PyPow.pow v (lit 2)) (v.val ^ 2)

variable {R : Rounding}

theorem near_iff {k : ℝ} (hk : 0 ≤ k) {v : R.F} {x : ℝ} : Near R k v x ↔ ∃ t : ℝ, v.val = x * (1 + t) ∧ |t| ≤ k * R.eps := by
  have hke : 0 ≤ k * R.eps := mul_nonneg hk R.eps_nonneg
  constructor
  · intro h
    rcases eq_or_ne x 0 with rfl | hx
    · have h0 : v.val = 0 := by
        rw [Near, abs_zero, mul_zero, sub_zero] at h
        exact abs_eq_zero.1 (le_antisymm h (abs_nonneg _))
      exact ⟨0, by simp [h0], by simpa using hke⟩
    · refine ⟨(v.val - x) / x, by field_simp; ring, ?_⟩
      rw [abs_div, div_le_iff₀ (abs_pos.2 hx)]
      exact h
  · rintro ⟨t, ht, hb⟩
    rw [Near, ht, show x * (1 + t) - x = t * x by ring, abs_mul]
    exact mul_le_mul_of_nonneg_right hb (abs_nonneg _)

theorem Near.mono {k l : ℝ} {v : R.F} {x : ℝ} (h : Near R k v x) (hkl : k ≤ l) : Near R l v x :=
  h.trans (mul_le_mul_of_nonneg_right (mul_le_mul_of_nonneg_right hkl R.eps_nonneg) (abs_nonneg _))

theorem near_round (x : ℝ) : Near R 1 (R.round x) x := by rw [Near, one_mul]; exact R.rel x

/-- Relative errors of a product. -/
theorem prod_err {s t k l m : ℝ} (hs : |s| ≤ k * R.eps) (ht : |t| ≤ l * R.eps) (hk : 0 ≤ k) (hm : k + l + k * l / 1000 ≤ m) :
    ∃ u, (1 + s) * (1 + t) = 1 + u ∧ |u| ≤ m * R.eps := by
  refine ⟨s + t + s * t, by ring, ?_⟩
  have he := R.eps_nonneg
  have hl : 0 ≤ l * R.eps := (abs_nonneg _).trans ht
  have h1 : |s * t| ≤ (k * R.eps) * (l * R.eps) := by rw [abs_mul]; exact mul_le_mul hs ht (abs_nonneg _) (mul_nonneg hk he)
  have h2 : (k * R.eps) * (l * R.eps) ≤ (k * (1 / 1000)) * (l * R.eps) :=
    mul_le_mul_of_nonneg_right (mul_le_mul_of_nonneg_left R.small hk) hl
  have h3 := abs_add_le (s + t) (s * t)
  have h4 := abs_add_le s t
  have h5 : (k + l + k * l / 1000) * R.eps ≤ m * R.eps := mul_le_mul_of_nonneg_right hm he
  nlinarith

/-- The result of an operation whose exact result is `y`. -/
theorem near_rd {k m : ℝ} (hk : 0 ≤ k) {y x : ℝ} (h : ∃ t, y = x * (1 + t) ∧ |t| ≤ k * R.eps) (hm : k + 1 + k / 1000 ≤ m) :
    Near R m (R.round y) x := by
  obtain ⟨t, rfl, ht⟩ := h
  obtain ⟨s, hs, hb⟩ := (near_iff zero_le_one).1 (near_round (R := R) (x * (1 + t)))
  have hm0 : 0 ≤ m := by nlinarith
  rw [near_iff hm0, hs]
  obtain ⟨u, hu, hub⟩ := prod_err (m := m) ht hb hk (by linarith)
  exact ⟨u, by rw [mul_assoc, hu], hub⟩

theorem Near.mul {k l m : ℝ} {v w : R.F} {x y : ℝ} (h1 : Near R k v x) (h2 : Near R l w y) (hk : 0 ≤ k) (hl : 0 ≤ l)
    (hm : (k + l + k * l / 1000) + 1 + (k + l + k * l / 1000) / 1000 ≤ m) : Near R m (v * w) (x * y) := by
  obtain ⟨s, hs, hsb⟩ := (near_iff hk).1 h1
  obtain ⟨t, ht, htb⟩ := (near_iff hl).1 h2
  obtain ⟨u, hu, hub⟩ := prod_err hsb htb hk le_rfl
  refine near_rd (y := v.val * w.val) (by positivity) ⟨u, ?_, hub⟩ hm
  rw [hs, ht, ← hu]; ring

theorem Near.inv {k m : ℝ} {v : R.F} {x : ℝ} (h : Near R k v x) (hk : 0 ≤ k) (hk2 : k ≤ 10)
    (hm : (1.02 * k) + 1 + (1.02 * k) / 1000 ≤ m) : Near R m (lit 1 / v) (1 / x) := by
  obtain ⟨t, ht, hb⟩ := (near_iff hk).1 h
  refine near_rd (y := (lit 1 : R.F).val / v.val) (k := 1.02 * k) (by positivity) ?_ hm
  rw [Rounding.val_one, ht]
  have he := R.eps_nonneg
  have hs := R.small
  have hke : k * R.eps ≤ 1 / 100 := by nlinarith
  have ht2 : |t| ≤ 1 / 100 := hb.trans hke
  have ht3 := abs_le.1 ht2
  have hpos : 0 < 1 + t := by linarith
  refine ⟨-t / (1 + t), ?_, ?_⟩
  · rcases eq_or_ne x 0 with rfl | hx
    · simp
    · field_simp; ring
  · rw [abs_div, abs_neg, abs_of_pos hpos, div_le_iff₀ hpos]
    have : 0 ≤ k * R.eps := mul_nonneg hk he
    nlinarith

theorem Near.sqrt {k m : ℝ} {v : R.F} {x : ℝ} (h : Near R k v x) (hk : 0 ≤ k) (hk2 : k ≤ 10) (hx : 0 ≤ x) (hm : k + 1 + k / 1000 ≤ m) :
    Near R m (PySqrt.sqrt v) (Real.sqrt x) := by
  obtain ⟨t, ht, hb⟩ := (near_iff hk).1 h
  refine near_rd (y := Real.sqrt v.val) hk ?_ hm
  have he := R.eps_nonneg
  have hs := R.small
  have hke : k * R.eps ≤ 1 / 100 := by nlinarith
  have ht3 := abs_le.1 (hb.trans hke)
  have hpos : 0 < 1 + t := by linarith
  refine ⟨Real.sqrt (1 + t) - 1, by rw [ht, Real.sqrt_mul hx]; ring, ?_⟩
  refine le_trans ?_ hb
  have h0 := Real.sqrt_nonneg (1 + t)
  have h1 := Real.sq_sqrt hpos.le
  have e : (Real.sqrt (1 + t) - 1) * (Real.sqrt (1 + t) + 1) = t := by linear_combination h1
  have e2 : |Real.sqrt (1 + t) - 1| * |Real.sqrt (1 + t) + 1| = |t| := by rw [← abs_mul, e]
  rw [← e2, abs_of_nonneg (by linarith : (0:ℝ) ≤ Real.sqrt (1 + t) + 1)]
  exact le_mul_of_one_le_right (abs_nonneg _) (by linarith)

theorem near_lit (q : ℚ) : Near R 1 (lit q : R.F) q := near_round _

theorem near_foot : Near R 1 (foot : R.F) 0.3048 := by
  have := near_lit (R := R) (3048 / 10000)
  rwa [show (((3048 / 10000 : ℚ)) : ℝ) = 0.3048 by push_cast; norm_num] at this

theorem near_inch : Near R 4.2 (inch : R.F) 0.0254 := by
  have h1 : Near R 2.1 (lit 1 / foot : R.F) (1 / 0.3048) := near_foot.inv zero_le_one (by norm_num) (by norm_num)
  have h0 : Near R 0 (lit 12 : R.F) 12 := by
    have := Rounding.val_int (R := R) 12 (by norm_num)
    norm_num at this
    rw [Near, Rounding.val_lit]; norm_num; exact sub_eq_zero.2 this
  have h2 : Near R 3.105 (lit 12 * (lit 1 / foot) : R.F) (12 * (1 / 0.3048)) := h0.mul h1 le_rfl (by norm_num) (by norm_num)
  have h3 := h2.inv (m := 4.2) (by norm_num) (by norm_num) (by norm_num)
  rwa [show (1:ℝ) / (12 * (1 / 0.3048)) = 0.0254 by norm_num] at h3

theorem near_foot2 [PyPow R.F] (hsq : Squares R) : Near R 4.1 (foot2 : R.F) (0.3048 ^ 2) := by
  obtain ⟨s, hs, hsb⟩ := (near_iff zero_le_one).1 (near_foot (R := R))
  obtain ⟨t, ht, htb⟩ := (near_iff zero_le_two).1 (hsq (foot : R.F))
  obtain ⟨u, hu, hub⟩ := prod_err (m := 2.01) hsb hsb zero_le_one (by norm_num)
  obtain ⟨w, hw, hwb⟩ := prod_err (m := 4.1) hub htb (by norm_num) (by norm_num)
  rw [near_iff (by norm_num)]
  refine ⟨w, ?_, hwb⟩
  rw [foot2, ht, hs, ← hw, ← hu]; ring

/-- A converted column: its value in the unit of the file and the factor. -/
theorem near_conv {k : ℝ} {c : R.F} {f : ℝ} (hc : Near R k c f) (hk2 : k ≤ 4.2) (hf : f ≠ 0) (x : ℝ) :
    Near R 6.3 (R.round (x / f) * c) x := by
  have h := (near_round (R := R) (x / f)).mul (hc.mono hk2) zero_le_one (by norm_num) (m := 6.3) (by norm_num)
  rwa [div_mul_cancel₀ _ hf] at h

theorem near_conv' {k : ℝ} {c : R.F} {f : ℝ} (hc : Near R k c (1 / f)) (hk2 : k ≤ 4.2) (hf : f ≠ 0) (x : ℝ) :
    Near R 6.3 (R.round (f * x) * c) x := by
  have h := (near_round (R := R) (f * x)).mul (hc.mono hk2) zero_le_one (by norm_num) (m := 6.3) (by norm_num)
  rwa [show f * x * (1 / f) = x by field_simp] at h

theorem near_hundredth : Near R 1 (lit (1 / 100) : R.F) (1 / 100) := by simpa using near_lit (R := R) (1 / 100)
theorem near_tenthousandth : Near R 1 (lit (1 / 10000) : R.F) (1 / 10000) := by simpa using near_lit (R := R) (1 / 10000)

/-- The conversion of texts maps the columns. -/
theorem rounded_columns {num : Floats ℝ} {a : Text} {cols : List ℝ} (h : Numbers Spec.blank num a cols) :
    a.split.mapM (rounded R num) = some (cols.map R.round) := by
  rw [numbers_iff, mapM_iff] at h
  rw [mapM_iff]
  have e : (rounded R num) = (fun o : Option ℝ => o.map R.round) ∘ num := rfl
  rw [e, ← List.map_map, h]
  simp

/-- The columns of a summary row as they are read. -/
structure SummaryNear (v : Summary R.F) (s : SummaryState) : Prop where
  x : Near R 6.3 v.x s.x
  ui : Near R 6.3 v.ui s.ue
  dui : v.dui = R.round s.due
  theta : Near R 6.3 v.theta s.theta
  h : v.h = R.round s.h
  hs : v.hs = R.round s.hs
  g : v.g = R.round s.g
  cf : v.cf = R.round s.cf
  cflt : v.cflt = R.round s.cfLt
  cfe : v.cfe = R.round s.cfExp
  beta : v.beta = R.round s.beta

theorem rounded_summary_row {num : Floats ℝ} {si : Bool} {a : Text} {s : SummaryState} (h : Numbers Spec.blank num a (s.columns si)) :
    ∃ r, Summary.ofRow (rounded R num) a = some r ∧ SummaryNear (r.toSI si) s := by
  have h := rounded_columns (R := R) h
  cases si
  · refine ⟨_, by rw [Summary.ofRow, h]; rfl, ?_, ?_, rfl, ?_, rfl, rfl, rfl, rfl, rfl, rfl, rfl⟩
    · exact near_conv near_foot (by norm_num) (by norm_num) _
    · exact near_conv near_foot (by norm_num) (by norm_num) _
    · exact near_conv near_inch (by norm_num) (by norm_num) _
  · refine ⟨_, by rw [Summary.ofRow, h]; rfl, ?_, ?_, rfl, ?_, rfl, rfl, rfl, rfl, rfl, rfl, rfl⟩
    · exact (near_round _).mono (by norm_num)
    · exact (near_round _).mono (by norm_num)
    · exact near_conv' near_hundredth (by norm_num) (by norm_num) _

/-- The columns of a row of the station summaries as they are read. -/
structure DetailNear (w : Detail R.F) (d : DetailState) : Prop where
  x : Near R 6.3 w.x d.x
  us : Near R 6.3 w.us d.us
  ui : Near R 6.3 w.ui d.ue
  v : Near R 6.3 w.v d.nu
  theta : Near R 6.3 w.theta d.theta
  dels : Near R 6.3 w.dels d.dels
  enth : Near R 6.3 w.enth d.enth
  clth : Near R 6.3 w.clth d.clth
  h : w.h = R.round d.h
  g : w.g = R.round d.g
  hs : w.hs = R.round d.hs
  rtheta : w.rtheta = R.round d.rtheta
  rdels : w.rdels = R.round d.rdels

theorem rounded_detail_row [PyPow R.F] (hsq : Squares R) {num : Floats ℝ} {si : Bool} {a : Text} {d : DetailState}
    (h : Numbers Spec.blank num a (d.columns si)) : ∃ r, Detail.ofRow (rounded R num) a = some r ∧ DetailNear (r.toSI si) d := by
  have h := rounded_columns (R := R) h
  cases si
  · refine ⟨_, by rw [Detail.ofRow, h]; rfl, ?_, ?_, ?_, ?_, ?_, ?_, ?_, ?_, rfl, rfl, rfl, rfl, rfl⟩
    · exact near_conv near_foot (by norm_num) (by norm_num) _
    · exact near_conv near_foot (by norm_num) (by norm_num) _
    · exact near_conv near_foot (by norm_num) (by norm_num) _
    · exact near_conv (near_foot2 hsq) (by norm_num) (by norm_num) _
    · exact near_conv near_inch (by norm_num) (by norm_num) _
    · exact near_conv near_inch (by norm_num) (by norm_num) _
    · exact near_conv near_inch (by norm_num) (by norm_num) _
    · exact near_conv near_inch (by norm_num) (by norm_num) _
  · refine ⟨_, by rw [Detail.ofRow, h]; rfl, ?_, ?_, ?_, ?_, ?_, ?_, ?_, ?_, rfl, rfl, rfl, rfl, rfl⟩
    · exact (near_round _).mono (by norm_num)
    · exact (near_round _).mono (by norm_num)
    · exact (near_round _).mono (by norm_num)
    · exact near_conv' near_tenthousandth (by norm_num) (by norm_num) _
    · exact near_conv' near_hundredth (by norm_num) (by norm_num) _
    · exact near_conv' near_hundredth (by norm_num) (by norm_num) _
    · exact near_conv' near_hundredth (by norm_num) (by norm_num) _
    · exact near_conv' near_hundredth (by norm_num) (by norm_num) _

theorem rounded_sample_rows {num : Floats ℝ} {si : Bool} {rows : List Text} {ps : List SampleState}
    (h : List.Forall₂ (fun t (p : SampleState) => Numbers Spec.blank num t (p.columns si)) rows ps) :
    ∃ rs, rows.mapM (Sample.ofRow (rounded R num)) = some rs ∧
      List.Forall₂ (fun (e : Sample R.F) (p : SampleState) => e.yplus = R.round p.yplus ∧ e.uplus = R.round p.uplus ∧ Near R 6.3 e.y p.y ∧
        e.uoui = R.round p.ratio ∧ e.ycd = R.round p.yc ∧ e.udef = R.round p.udef) (rs.map (Sample.toSI si)) ps := by
  induction h with
  | nil => exact ⟨[], by simp⟩
  | cons hd _ ih =>
    obtain ⟨rs, hrs, hrs'⟩ := ih
    have hd := rounded_columns (R := R) hd
    cases si
    · refine ⟨_ :: rs, by rw [List.mapM_cons, hrs, Sample.ofRow, hd]; rfl, ?_⟩
      refine List.Forall₂.cons ⟨rfl, rfl, ?_, rfl, rfl, rfl⟩ hrs'
      exact near_conv near_inch (by norm_num) (by norm_num) _
    · refine ⟨_ :: rs, by rw [List.mapM_cons, hrs, Sample.ofRow, hd]; rfl, ?_⟩
      refine List.Forall₂.cons ⟨rfl, rfl, ?_, rfl, rfl, rfl⟩ hrs'
      exact near_conv' near_hundredth (by norm_num) (by norm_num) _

variable [PyPow R.F] [PySpecial R.F]

theorem read_fields (v : Summary R.F) : v.read.x = v.x ∧ v.read.ue = v.ui ∧ v.read.due = v.dui ∧ v.read.deltaM = v.theta ∧ v.read.shapeD = v.h ∧
    v.read.shapeK = v.hs ∧ v.read.shapeEq = v.g ∧ v.read.cf = v.cf ∧ v.read.cfLt = v.cflt ∧ v.read.cfExp = v.cfe ∧ v.read.beta = v.beta := by
  simp only [Summary.read, Station.refreshed]
  split_ifs <;> simp [Summary.station]

/-- **C147**. A station read from a summary row alone in rounded arithmetic: every attribute is the SI value of the row up to seven units of
rounding, whichever unit system the file has; those without unit are the nearest numbers to the printed ones; the derived values are those of
the state up to nine units of rounding. -/
theorem rounded_summary_read {num : Floats ℝ} {si : Bool} {a : Text} {rows : List Text} {s : SummaryState} {ps : List SampleState}
    (h : Rows num si a [] rows s none ps) (mem : Mem R.F) (p : Station R.F) (hp : Station.mk' (rounded R num) mem si a [] rows = .ok p) :
    (Near R 7 p.x s.x ∧ Near R 7 p.ue s.ue ∧ Near R 7 p.deltaM s.theta) ∧
    (p.due = R.round s.due ∧ p.shapeD = R.round s.h ∧ p.shapeK = R.round s.hs ∧ p.shapeEq = R.round s.g ∧ p.cf = R.round s.cf ∧
      p.cfLt = R.round s.cfLt ∧ p.cfExp = R.round s.cfExp ∧ p.beta = R.round s.beta) ∧
    (PyCmp.eq p.x PySpecial.inf = false → 0 ≤ s.cf →
      Near R 9 p.deltaD (s.h * s.theta) ∧ Near R 9 p.deltaK (s.hs * s.theta) ∧ Near R 12 p.uStar (s.ue * Real.sqrt (s.cf / 2)) ∧
      0 < p.deltaD.val ∧ 0 < p.deltaK.val ∧ 0 < p.uStar.val) := by
  obtain ⟨v, es, q, hs, hg, hb, -, -, rfl⟩ := (mk_ok_iff _ _ _ _ _ _ _).1 hp
  obtain ⟨-, rfl⟩ | ⟨hb, -⟩ := hb
  swap
  · exact absurd rfl hb
  obtain ⟨r, hr, hn⟩ := rounded_summary_row (R := R) h.summary
  rw [hs] at hr; cases hr
  obtain ⟨e1, e2, e3, e4, e5, e6, e7, e8, e9, e10, e11⟩ := read_fields (v.toSI si)
  refine ⟨⟨?_, ?_, ?_⟩, ⟨?_, ?_, ?_, ?_, ?_, ?_, ?_, ?_⟩, ?_⟩
  · exact (e1 ▸ hn.x).mono (by norm_num)
  · exact (e2 ▸ hn.ui).mono (by norm_num)
  · exact (e4 ▸ hn.theta).mono (by norm_num)
  · exact e3.trans hn.dui
  · exact e5.trans hn.h
  · exact e6.trans hn.hs
  · exact e7.trans hn.g
  · exact e8.trans hn.cf
  · exact e9.trans hn.cflt
  · exact e10.trans hn.cfe
  · exact e11.trans hn.beta
  · intro hx hc
    have hx' : ¬ PyCmp.eq (v.toSI si).station.x PySpecial.inf = true := by
      have hx2 : PyCmp.eq (v.toSI si).read.x PySpecial.inf = false := hx
      rw [e1] at hx2
      change ¬ PyCmp.eq (v.toSI si).x PySpecial.inf = true
      rw [hx2]; decide
    have hf : ∀ w : R.F, PyCmp.le w (lit 0) = false → 0 < w.val := by
      intro w hw
      rw [Bool.eq_false_iff, ne_eq, Rounding.F_le, not_le, Rounding.val_zero] at hw
      exact hw
    simp only [Station.profiled, Summary.read, Station.refreshed, if_neg hx']
    simp only [Summary.station]
    refine ⟨?_, ?_, ?_, hf _ hg.dels, hf _ hg.enth, hf _ hg.us⟩
    · rw [hn.h]; exact (near_round _).mul hn.theta zero_le_one (by norm_num) (by norm_num)
    · rw [hn.hs]; exact (near_round _).mul hn.theta zero_le_one (by norm_num) (by norm_num)
    · have hh : Near R 1 (lit (1 / 2) : R.F) (1 / 2) := by simpa using near_lit (R := R) (1 / 2)
      have h1 : Near R 3.1 (lit (1 / 2) * R.round s.cf) (1 / 2 * s.cf) := hh.mul (near_round _) zero_le_one zero_le_one (by norm_num)
      have h2 := h1.sqrt (m := 4.2) (by norm_num) (by norm_num) (by positivity) (by norm_num)
      rw [hn.cf, show s.cf / 2 = 1 / 2 * s.cf by ring]
      exact hn.ui.mul h2 (by norm_num) (by norm_num) (by norm_num)

/-- **C147**. A station read from both summaries in rounded arithmetic has the SI values of its rows up to seven units of rounding, and the velocities
of its profile up to nine. -/
theorem rounded_station_read (hsq : Squares R) {num : Floats ℝ} {si : Bool} {a b : Text} {rows : List Text} {s : SummaryState} {d : DetailState}
    {ps : List SampleState} (h : Rows num si a b rows s (some d) ps) (mem : Mem R.F) (p : Station R.F)
    (hp : Station.mk' (rounded R num) mem si a b rows = .ok p) :
    (Near R 7 p.x d.x ∧ Near R 7 p.ue d.ue ∧ Near R 7 p.uStar d.us ∧ Near R 7 p.nu d.nu ∧ Near R 7 p.deltaM d.theta ∧ Near R 7 p.deltaD d.dels ∧
      Near R 7 p.deltaK d.enth ∧ Near R 7 p.deltaC d.clth) ∧
    (p.shapeD = R.round d.h ∧ p.shapeEq = R.round d.g ∧ p.shapeK = R.round d.hs ∧ p.reM = R.round d.rtheta ∧ p.reD = R.round d.rdels ∧
      p.due = R.round s.due ∧ p.cf = R.round s.cf ∧ p.cfLt = R.round s.cfLt ∧ p.cfExp = R.round s.cfExp ∧ p.beta = R.round s.beta) ∧
    List.Forall₂ (fun v (e : SampleState) => Near R 7 v e.y) p.y ps ∧
    List.Forall₂ (fun v (e : SampleState) => Near R 9 v (d.ue * e.ratio)) p.u ps ∧
    p.yPlus = ps.map (fun e => R.round e.yplus) ∧ p.uPlus = ps.map (fun e => R.round e.uplus) ∧ p.yC = ps.map (fun e => R.round e.yc) ∧
    p.uDef = ps.map (fun e => R.round e.udef) := by
  obtain ⟨v, es, q, hs, hg, hb, hes, -, rfl⟩ := (mk_ok_iff _ _ _ _ _ _ _).1 hp
  have hdet : Numbers Spec.blank num b (d.columns si) := h.detail
  obtain ⟨hb, -⟩ | ⟨-, w, hw, -, -, rfl⟩ := hb
  · exact absurd hb (numbers_ne hdet (detail_columns_ne _ _))
  obtain ⟨r, hr, hn⟩ := rounded_summary_row (R := R) h.summary
  rw [hs] at hr; cases hr
  obtain ⟨r, hr, hm⟩ := rounded_detail_row hsq hdet
  rw [hw] at hr; cases hr
  obtain ⟨r, hr, hl⟩ := rounded_sample_rows (R := R) h.samples
  rw [hes] at hr; cases hr
  obtain ⟨-, -, e3, -, -, -, -, e8, e9, e10, e11⟩ := read_fields (v.toSI si)
  refine ⟨⟨hm.x.mono (by norm_num), hm.ui.mono (by norm_num), hm.us.mono (by norm_num), hm.v.mono (by norm_num), hm.theta.mono (by norm_num),
    hm.dels.mono (by norm_num), hm.enth.mono (by norm_num), hm.clth.mono (by norm_num)⟩,
    ⟨hm.h, hm.g, hm.hs, hm.rtheta, hm.rdels, e3.trans hn.dui, e8.trans hn.cf, e9.trans hn.cflt, e10.trans hn.cfe, e11.trans hn.beta⟩, ?_⟩
  simp only [Station.profiled, Station.detailed]
  generalize es.map (Sample.toSI si) = l at hl
  clear hp hes h
  induction hl with
  | nil => simp
  | cons h1 _ ih =>
    obtain ⟨i1, i2, i3, i4, i5, i6⟩ := ih
    obtain ⟨j1, j2, j3, j4, j5, j6⟩ := h1
    refine ⟨.cons (j3.mono (by norm_num)) i1, .cons ?_ i2, ?_, ?_, ?_, ?_⟩
    · beta_reduce; rw [j4]; exact hm.ui.mul (near_round _) (by norm_num) zero_le_one (by norm_num)
    · simp only [List.map_cons]; rw [j1, i3]
    · simp only [List.map_cons]; rw [j2, i4]
    · simp only [List.map_cons]; rw [j5, i5]
    · simp only [List.map_cons]; rw [j6, i6]

/-- Two computed values of one number. -/
theorem Near.agree {k l : ℝ} {v w : R.F} {x : ℝ} (h1 : Near R k v x) (h2 : Near R l w x) : |v.val - w.val| ≤ (k + l) * R.eps * |x| := by
  have h := abs_sub_le v.val x w.val
  rw [abs_sub_comm x] at h
  rw [Near] at h1 h2
  linarith

/-- **C147**. The same physical state written in the two unit systems and read in rounded arithmetic: the attributes with a unit differ by at most
fourteen units of rounding, those without are equal. -/
theorem rounded_units_agree (hsq : Squares R) {num : Floats ℝ} {si si' : Bool} {a b a' b' : Text} {rows rows' : List Text} {s : SummaryState}
    {d : DetailState} {ps : List SampleState} (h : Rows num si a b rows s (some d) ps) (h' : Rows num si' a' b' rows' s (some d) ps)
    (mem : Mem R.F) (p p' : Station R.F) (hp : Station.mk' (rounded R num) mem si a b rows = .ok p)
    (hp' : Station.mk' (rounded R num) mem si' a' b' rows' = .ok p') :
    (|p.x.val - p'.x.val| ≤ 14 * R.eps * |d.x| ∧ |p.ue.val - p'.ue.val| ≤ 14 * R.eps * |d.ue| ∧ |p.uStar.val - p'.uStar.val| ≤ 14 * R.eps * |d.us| ∧
      |p.nu.val - p'.nu.val| ≤ 14 * R.eps * |d.nu| ∧ |p.deltaM.val - p'.deltaM.val| ≤ 14 * R.eps * |d.theta| ∧
      |p.deltaD.val - p'.deltaD.val| ≤ 14 * R.eps * |d.dels| ∧ |p.deltaK.val - p'.deltaK.val| ≤ 14 * R.eps * |d.enth| ∧
      |p.deltaC.val - p'.deltaC.val| ≤ 14 * R.eps * |d.clth|) ∧
    (p.shapeD = p'.shapeD ∧ p.shapeEq = p'.shapeEq ∧ p.shapeK = p'.shapeK ∧ p.reM = p'.reM ∧ p.reD = p'.reD ∧ p.due = p'.due ∧ p.cf = p'.cf ∧
      p.cfLt = p'.cfLt ∧ p.cfExp = p'.cfExp ∧ p.beta = p'.beta) := by
  obtain ⟨⟨a1, a2, a3, a4, a5, a6, a7, a8⟩, ⟨b1, b2, b3, b4, b5, b6, b7, b8, b9, b10⟩, -⟩ := rounded_station_read hsq h mem p hp
  obtain ⟨⟨c1, c2, c3, c4, c5, c6, c7, c8⟩, ⟨d1, d2, d3, d4, d5, d6, d7, d8, d9, d10⟩, -⟩ := rounded_station_read hsq h' mem p' hp'
  have e : (14 : ℝ) = 7 + 7 := by norm_num
  rw [e]
  exact ⟨⟨a1.agree c1, a2.agree c2, a3.agree c3, a4.agree c4, a5.agree c5, a6.agree c6, a7.agree c7, a8.agree c8⟩,
    b1.trans d1.symm, b2.trans d2.symm, b3.trans d3.symm, b4.trans d4.symm, b5.trans d5.symm, b6.trans d6.symm, b7.trans d7.symm,
    b8.trans d8.symm, b9.trans d9.symm, b10.trans d10.symm⟩

/-- A positive computed value that is near a number has a positive number. -/
theorem near_pos_iff {k : ℝ} (hk : 0 ≤ k) (hk2 : k ≤ 10) {v : R.F} {x : ℝ} (h : Near R k v x) : 0 < v.val ↔ 0 < x := by
  obtain ⟨t, ht, hb⟩ := (near_iff hk).1 h
  have he := R.eps_nonneg
  have hs := R.small
  have hke : k * R.eps ≤ 1 / 100 := by nlinarith
  have ht3 := abs_le.1 (hb.trans hke)
  rw [ht]
  exact mul_pos_iff_of_pos_right (by linarith)

theorem F_le_zero_false (w : R.F) : PyCmp.le w (lit 0) = false ↔ 0 < w.val := by
  rw [Bool.eq_false_iff, ne_eq, Rounding.F_le, not_le, Rounding.val_zero]

/-- **C148**. Rounding does not change which summary rows are accepted: a station is created from a summary row alone exactly if the edge velocity,
the momentum thickness, the three shape factors and the friction coefficient of the row are positive. -/
theorem rounded_summary_accepted {num : Floats ℝ} {si : Bool} {a : Text} {s : SummaryState}
    (h : Numbers Spec.blank num a (s.columns si)) (mem : Mem R.F) :
    (∃ p, Station.mk' (rounded R num) mem si a [] [] = .ok p) ↔ s.Positive := by
  obtain ⟨r, hr, hn⟩ := rounded_summary_row (R := R) h
  have pr : ∀ x : ℝ, 0 < (R.round x).val ↔ 0 < x := fun x => Rounding.rd_pos_iff
  have hui := near_pos_iff (by norm_num) (by norm_num) hn.ui
  have hth := near_pos_iff (by norm_num) (by norm_num) hn.theta
  have hus : 0 < ((r.toSI si).ui * PySqrt.sqrt (lit (1 / 2) * (r.toSI si).cf)).val ↔
      0 < (r.toSI si).ui.val * R.rd (Real.sqrt (R.rd (R.rd ((1 / 2 : ℚ) : ℝ) * R.rd s.cf))) := by
    rw [hn.cf]; exact Rounding.rd_pos_iff
  have hhalf : 0 < R.rd ((1 / 2 : ℚ) : ℝ) := Rounding.rd_pos (by norm_num)
  constructor
  · rintro ⟨p, hp⟩
    obtain ⟨v, es, q, hs, hg, -⟩ := (mk_ok_iff _ _ _ _ _ _ _).1 hp
    rw [hr] at hs; cases hs
    have h1 := (F_le_zero_false _).1 hg.ui
    have h2 := (F_le_zero_false _).1 hg.theta
    have h3 := (F_le_zero_false _).1 hg.h
    have h4 := (F_le_zero_false _).1 hg.hs
    have h5 := (F_le_zero_false _).1 hg.g
    have h6 := hus.1 ((F_le_zero_false _).1 hg.us)
    rw [hn.h, pr] at h3
    rw [hn.hs, pr] at h4
    rw [hn.g, pr] at h5
    refine ⟨hui.1 h1, hth.1 h2, h3, h4, h5, ?_⟩
    have h7 := (mul_pos_iff_of_pos_left h1).1 h6
    rw [Rounding.rd_pos_iff, Real.sqrt_pos, Rounding.rd_pos_iff, mul_pos_iff_of_pos_left hhalf, Rounding.rd_pos_iff] at h7
    exact h7
  · intro hs
    have hg : (r.toSI si).Good := by
      have h1 := hui.2 hs.ue
      have h2 := hth.2 hs.theta
      have h3 : 0 < (r.toSI si).h.val := by rw [hn.h, pr]; exact hs.h
      have h4 : 0 < (r.toSI si).hs.val := by rw [hn.hs, pr]; exact hs.hs
      have h5 : 0 < (r.toSI si).g.val := by rw [hn.g, pr]; exact hs.g
      refine ⟨(F_le_zero_false _).2 h1, (F_le_zero_false _).2 h2, (F_le_zero_false _).2 h3, (F_le_zero_false _).2 h4, (F_le_zero_false _).2 h5,
        (F_le_zero_false _).2 (Rounding.rd_pos (mul_pos h3 h2)), (F_le_zero_false _).2 (Rounding.rd_pos (mul_pos h4 h2)),
        (F_le_zero_false _).2 (hus.2 (mul_pos h1 ?_))⟩
      rw [Rounding.rd_pos_iff, Real.sqrt_pos, Rounding.rd_pos_iff, mul_pos_iff_of_pos_left hhalf, Rounding.rd_pos_iff]
      exact hs.cf
    exact ⟨_, (mk_ok_iff _ _ _ _ _ _ _).2 ⟨r, [], _, hr, hg, .inl ⟨rfl, rfl⟩, rfl, by simp, rfl⟩⟩

/-- A comparison that does not raise: the two floats differ by less than the tolerance, exactly. -/
theorem rounded_differs {v w : R.F} {q : ℚ} (h : differs v w (lit q) = false) : |v.val - w.val| < q := by
  rw [differs, Bool.eq_false_iff, ne_eq, Rounding.F_ge, not_le, Rounding.val_abs, Rounding.val_sub, Rounding.val_lit] at h
  by_contra hc
  rw [not_lt] at hc
  have h1 := R.mono hc
  rcases abs_cases (v.val - w.val) with ⟨e, -⟩ | ⟨e, -⟩
  · rw [e] at h1
    exact absurd (h1.trans (le_abs_self _)) (not_le.2 h)
  · rw [e, R.neg] at h1
    exact absurd (h1.trans (neg_le_abs _)) (not_le.2 h)

@[inherit_doc rounded_differs]
theorem rounded_exceeds {v w : R.F} {q : ℚ} (h : exceeds v w (lit q) = false) : |v.val - w.val| ≤ q * (1 + 3 * R.eps) := by
  rw [exceeds, Bool.eq_false_iff, ne_eq, Rounding.F_gt, not_lt, Rounding.val_abs, Rounding.val_sub, Rounding.val_lit] at h
  have he := R.eps_nonneg
  have hs := R.small
  have h1 := R.rel (v.val - w.val)
  have h2 := R.rel (q : ℝ)
  have h3 : |v.val - w.val| ≤ |R.rd (v.val - w.val)| + |R.rd (v.val - w.val) - (v.val - w.val)| := by
    rw [abs_sub_comm (R.rd _)]
    calc |v.val - w.val| = |R.rd (v.val - w.val) + (v.val - w.val - R.rd (v.val - w.val))| := by ring_nf
      _ ≤ _ := abs_add_le _ _
  have h4 : (0:ℝ) ≤ q := by
    by_contra hq
    rw [not_le] at hq
    exact absurd (h.trans_lt (Rounding.rd_neg hq)) (not_lt.2 (abs_nonneg _))
  rw [abs_of_nonneg h4] at h2
  have h5 := abs_le.1 h2
  nlinarith [abs_nonneg (v.val - w.val)]

theorem quot_near (u y z : R.F) : Near R 3 (u * y / z) (u.val * y.val / z.val) := by
  obtain ⟨t, ht, hb⟩ := (near_iff zero_le_one).1 (near_round (R := R) (u.val * y.val))
  refine near_rd (y := (u * y).val / z.val) zero_le_one ⟨t, ?_, hb⟩ (by norm_num)
  rw [show (u * y).val = u.val * y.val * (1 + t) from ht]; ring

/-- **C148**. If a station with two summaries is accepted in rounded arithmetic, the one read from the summary row alone exists, and the floats that
both have differ by less than the tolerance: no rounding is to be added to it. The Reynolds numbers are compared with the quotients computed from
the velocity of the summary, which are the exact ones up to three units of rounding. -/
theorem rounded_consistent {num : Floats ℝ} {si : Bool} {a b : Text} {rows : List Text} {s : SummaryState} {d : DetailState}
    {ps : List SampleState} (h : Rows num si a b rows s (some d) ps) (mem : Mem R.F) (p : Station R.F)
    (hp : Station.mk' (rounded R num) mem si a b rows = .ok p) :
    ∃ p0, Station.mk' (rounded R num) mem si a [] [] = .ok p0 ∧
      |p.x.val - p0.x.val| < 0.002 ∧ |p.ue.val - p0.ue.val| < 0.06 ∧ |p.deltaM.val - p0.deltaM.val| < 0.002 ∧
      |p.shapeD.val - p0.shapeD.val| < 0.002 ∧ |p.shapeK.val - p0.shapeK.val| < 0.002 ∧ |p.shapeEq.val - p0.shapeEq.val| < 0.002 ∧
      (PyCmp.eq p0.x PySpecial.inf = false →
        |p.deltaD.val - p0.deltaD.val| < 0.005 ∧ |p.deltaK.val - p0.deltaK.val| < 0.005 ∧ |p.uStar.val - p0.uStar.val| < 0.005) ∧
      (∃ re, Near R 3 re (p0.ue.val * p.deltaD.val / p.nu.val) ∧ |p.reD.val - re.val| < 5) ∧
      (∃ re, Near R 3 re (p0.ue.val * p.deltaM.val / p.nu.val) ∧ |p.reM.val - re.val| < 5) := by
  obtain ⟨v, es, q, hs, hg, hb, -, -, rfl⟩ := (mk_ok_iff _ _ _ _ _ _ _).1 hp
  have hdet : Numbers Spec.blank num b (d.columns si) := h.detail
  obtain ⟨hb, -⟩ | ⟨-, w, hw, hag, -, rfl⟩ := hb
  · exact absurd hb (numbers_ne hdet (detail_columns_ne _ _))
  refine ⟨_, (mk_ok_iff _ _ _ _ _ _ _).2 ⟨v, [], _, hs, hg, .inl ⟨rfl, rfl⟩, rfl, by simp, rfl⟩, ?_⟩
  have c2 : ((2 / 1000 : ℚ) : ℝ) = 0.002 := by push_cast; norm_num
  have c5 : ((5 / 1000 : ℚ) : ℝ) = 0.005 := by push_cast; norm_num
  have c6 : ((6 / 100 : ℚ) : ℝ) = 0.06 := by push_cast; norm_num
  have c1 : ((5 : ℚ) : ℝ) = 5 := by push_cast; rfl
  refine ⟨c2 ▸ rounded_differs hag.x, c6 ▸ rounded_differs hag.ui, c2 ▸ rounded_differs hag.theta, c2 ▸ rounded_differs hag.h,
    c2 ▸ rounded_differs hag.hs, c2 ▸ rounded_differs hag.g, ?_, ⟨_, quot_near _ _ _, c1 ▸ rounded_differs hag.rdels⟩,
    ⟨_, quot_near _ _ _, c1 ▸ rounded_differs hag.rtheta⟩⟩
  intro hx
  have hx' : ¬ PyCmp.eq (v.toSI si).station.x PySpecial.inf = true := by
    have hx2 : PyCmp.eq (v.toSI si).read.x PySpecial.inf = false := hx
    rw [(read_fields (v.toSI si)).1] at hx2
    change ¬ PyCmp.eq (v.toSI si).x PySpecial.inf = true
    rw [hx2]; decide
  have k1 := rounded_differs hag.dels
  have k2 := rounded_differs hag.enth
  have k3 := rounded_differs hag.us
  rw [c5] at k1 k2 k3
  simp only [Summary.read, Station.refreshed, if_neg hx'] at k1 k2 k3 ⊢
  exact ⟨k1, k2, k3⟩

/-- **C148**. The profile of an accepted station in rounded arithmetic: at every sample the scaled quantities are those that follow from distance and
velocity, computed up to three units of rounding, within the tolerances 1 and 0.5 (increased by three units of rounding). -/
theorem rounded_profile {num : Floats ℝ} {si : Bool} {a b : Text} {rows : List Text} (mem : Mem R.F) (p : Station R.F)
    (hp : Station.mk' (rounded R num) mem si a b rows = .ok p) :
    p.y.length = rows.length ∧ p.u.length = rows.length ∧
    ∀ (i : ℕ) (yp up yc ud y u : R.F), p.yPlus[i]? = some yp → p.uPlus[i]? = some up → p.yC[i]? = some yc → p.uDef[i]? = some ud → p.y[i]? = some y →
      p.u[i]? = some u →
      (∃ w, Near R 3 w (y.val * p.uStar.val / p.nu.val) ∧ |yp.val - w.val| ≤ 1 * (1 + 3 * R.eps)) ∧
      (∃ w, Near R 3 w (y.val / p.deltaC.val) ∧ |yc.val - w.val| ≤ 0.5 * (1 + 3 * R.eps)) ∧
      (∃ w, Near R 3 w (u.val / p.uStar.val) ∧ |up.val - w.val| ≤ 0.5 * (1 + 3 * R.eps)) ∧
      (∃ w, Near R 3 w ((p.ue.val - u.val) / p.uStar.val) ∧ |ud.val - w.val| ≤ 0.5 * (1 + 3 * R.eps)) := by
  obtain ⟨v, es, q, -, -, -, hes, hf, rfl⟩ := (mk_ok_iff _ _ _ _ _ _ _).1 hp
  have hl : es.length = rows.length := by
    have := (mapM_iff _ _ _).1 hes
    simpa using (congrArg List.length this).symm
  refine ⟨by simp [Station.profiled, hl], by simp [Station.profiled, hl], ?_⟩
  intro i yp up yc ud y u h1 h2 h3 h4 h5 h6
  simp only [Station.profiled, List.getElem?_map, Option.map_eq_some_iff] at h1 h2 h3 h4 h5 h6
  obtain ⟨m, ⟨e, he, rfl⟩, rfl⟩ := h1
  simp only [he, Option.some.injEq, exists_eq_left'] at h2 h3 h4 h5 h6
  obtain ⟨_, rfl, rfl⟩ := h2
  obtain ⟨_, rfl, rfl⟩ := h3
  obtain ⟨_, rfl, rfl⟩ := h4
  obtain ⟨_, rfl, rfl⟩ := h5
  obtain ⟨_, rfl, rfl⟩ := h6
  have hfit := hf e (List.mem_of_getElem? he)
  have c1 : ((1 : ℚ) : ℝ) = 1 := by push_cast; rfl
  have ch : ((1 / 2 : ℚ) : ℝ) = 0.5 := by push_cast; norm_num
  refine ⟨⟨_, quot_near _ _ _, c1 ▸ rounded_exceeds hfit.yplus⟩, ⟨_, (near_round _).mono (by norm_num), ch ▸ rounded_exceeds hfit.ycd⟩,
    ⟨_, (near_round _).mono (by norm_num), ch ▸ rounded_exceeds hfit.uplus⟩, ⟨_, ?_, ch ▸ rounded_exceeds hfit.udef⟩⟩
  obtain ⟨t, ht, hb⟩ := (near_iff zero_le_one).1 (near_round (R := R) (q.ue.val - (q.ue * (e.toSI si).uoui).val))
  refine near_rd (k := 1) zero_le_one ⟨t, ?_, hb⟩ (by norm_num)
  rw [show (q.ue - q.ue * (e.toSI si).uoui).val = (q.ue.val - (q.ue * (e.toSI si).uoui).val) * (1 + t) from ht]
  simp only [Station.profiled]; ring

/-! ### A concrete case -/

/-- The numbers of the example. -/
noncomputable def exampleNumbers : Floats ℝ := fun t =>
  if t = "1".toList then some 1 else if t = "2".toList then some 2 else if t = "100".toList then some 100
  else if t = "0".toList then some 0 else none

/-- A summary row of the example. -/
noncomputable def exampleState : SummaryState := ⟨1, 1, 1, 1 / 100, 1, 1, 1, 2, 2, 2, 1⟩
/-- The row of the station summaries of the example. -/
noncomputable def exampleDetail : DetailState := ⟨1, 1, 1, 1 / 10000, 1 / 100, 1 / 100, 1 / 100, 1 / 100, 1, 1, 1, 100, 100⟩

/-- The sample of the example. -/
noncomputable def exampleSample : SampleState := ⟨100, 1, 1 / 100, 1, 1, 0⟩

theorem example_rows : Rows exampleNumbers true "1 1 1 1 1 1 1 2 2 2 1".toList "1 1 1 1 1 1 1 1 1 1 1 100 100".toList ["100 1 1 1 1 0".toList]
    exampleState (some exampleDetail) [exampleSample] := by
  refine ⟨?_, ?_, .cons ?_ .nil⟩
  · rw [numbers_iff]
    rw [show Text.split "1 1 1 1 1 1 1 2 2 2 1".toList = ["1".toList, "1".toList, "1".toList, "1".toList, "1".toList, "1".toList, "1".toList, "2".toList,
      "2".toList, "2".toList, "1".toList] by decide]
    simp [exampleNumbers, exampleState, SummaryState.columns]
  · show Numbers Spec.blank _ _ _
    rw [numbers_iff]
    rw [show Text.split "1 1 1 1 1 1 1 1 1 1 1 100 100".toList = ["1".toList, "1".toList, "1".toList, "1".toList, "1".toList, "1".toList, "1".toList,
      "1".toList, "1".toList, "1".toList, "1".toList, "100".toList, "100".toList] by decide]
    simp [exampleNumbers, exampleDetail, DetailState.columns]
  · rw [numbers_iff]
    rw [show Text.split "100 1 1 1 1 0".toList = ["100".toList, "1".toList, "1".toList, "1".toList, "1".toList, "0".toList] by decide]
    simp [exampleNumbers, exampleSample, SampleState.columns]

/-- The square of a correctly rounded `**` meets the requirement on it. -/
theorem squares_case : @Squares R ⟨fun a b => R.round (a.val ^ b.val), fun a => R.round (Real.exp a.val), fun a => R.round (Real.logb 10 a.val)⟩ := by
  intro v
  have h2 : (lit 2 : R.F).val = 2 := by
    have := Rounding.val_int (R := R) 2 (by norm_num)
    exact_mod_cast this
  show Near R 2 (R.round (v.val ^ (lit 2 : R.F).val)) (v.val ^ 2)
  rw [h2, Real.rpow_two]
  exact (near_round _).mono (by norm_num)

theorem differs_self (v : R.F) (q : ℚ) (hq : 0 < q) : differs v v (lit q) = false := by
  rw [differs, Bool.eq_false_iff, ne_eq, Rounding.F_ge, not_le, Rounding.val_abs, Rounding.val_sub, Rounding.val_lit, sub_self, R.rd_zero, abs_zero]
  exact Rounding.rd_pos (by exact_mod_cast hq)

/-- Non-vacuity of C147 and C148: the example station is accepted in every rounding. -/
theorem rounded_station_case (mem : Mem R.F) :
    Rows exampleNumbers true "1 1 1 1 1 1 1 2 2 2 1".toList "1 1 1 1 1 1 1 1 1 1 1 100 100".toList ["100 1 1 1 1 0".toList]
      exampleState (some exampleDetail) [exampleSample] ∧
    ∃ p, Station.mk' (rounded R exampleNumbers) mem true "1 1 1 1 1 1 1 2 2 2 1".toList "1 1 1 1 1 1 1 1 1 1 1 100 100".toList
      ["100 1 1 1 1 0".toList] = .ok p := by
  refine ⟨example_rows, ?_⟩
  have hpos : exampleState.Positive := by constructor <;> norm_num [exampleState]
  obtain ⟨p0, hp0⟩ := (rounded_summary_accepted (R := R) example_rows.summary mem).2 hpos
  obtain ⟨v, es, q, hv, hg, -⟩ := (mk_ok_iff _ _ _ _ _ _ _).1 hp0
  have hc := rounded_columns (R := R) example_rows.summary
  have hd := rounded_columns (R := R) (show Numbers Spec.blank exampleNumbers _ (exampleDetail.columns true) from example_rows.detail)
  have hv2 : v = ⟨R.round 1, R.round 1, R.round 1, R.round (100 * (1 / 100)), R.round 1, R.round 1, R.round 1, R.round 2, R.round 2, R.round 2,
      R.round 1⟩ := by
    rw [Summary.ofRow, hc] at hv
    exact (Option.some.inj hv).symm
  obtain ⟨w, hw, hw2⟩ : ∃ w, Detail.ofRow (rounded R exampleNumbers) "1 1 1 1 1 1 1 1 1 1 1 100 100".toList = some w ∧
      w = ⟨R.round 1, R.round 1, R.round 1, R.round (10000 * (1 / 10000)), R.round (100 * (1 / 100)), R.round (100 * (1 / 100)),
        R.round (100 * (1 / 100)), R.round (100 * (1 / 100)), R.round 1, R.round 1, R.round 1, R.round 100, R.round 100⟩ := by
    rw [Detail.ofRow, hd]; exact ⟨_, rfl, rfl⟩
  rw [show (100:ℝ) * (1 / 100) = 1 by norm_num] at hv2 hw2
  rw [show (10000:ℝ) * (1 / 10000) = 1 by norm_num] at hw2
  obtain ⟨o, ho, hov⟩ : ∃ o : R.F, o = R.round 1 ∧ o.val = 1 := ⟨_, rfl, R.rd_one⟩
  obtain ⟨c, hcc, hcp, hcn⟩ : ∃ c : R.F, c = lit (1 / 100) ∧ 0 < c.val ∧ Near R 1 c (1 / 100) :=
    ⟨_, rfl, Rounding.rd_pos (by norm_num), near_hundredth⟩
  obtain ⟨e, hee, hep, hen⟩ : ∃ e : R.F, e = lit (1 / 10000) ∧ 0 < e.val ∧ Near R 1 e (1 / 10000) :=
    ⟨_, rfl, Rounding.rd_pos (by norm_num), near_tenthousandth⟩
  have om : ∀ y : R.F, o * y = y := fun y => by
    apply Rounding.F.ext; rw [Rounding.val_mul, hov, one_mul, y.rep]
  have mo : ∀ y : R.F, y * o = y := fun y => by
    apply Rounding.F.ext; rw [Rounding.val_mul, hov, mul_one, y.rep]
  have hh : (100 : ℝ) = R.rd 100 := by
    have := R.int 100 (by norm_num)
    push_cast at this; exact this.symm
  obtain ⟨t, ht, htv⟩ : ∃ t : R.F, t = R.round 100 ∧ t.val = 100 := ⟨_, rfl, hh.symm⟩
  have hsq1 : PySqrt.sqrt (lit (1 / 2) * R.round 2 : R.F) = o := by
    apply Rounding.F.ext
    have e2 : R.rd 2 = 2 := by have := R.int 2 (by norm_num); push_cast at this; exact this
    have e3 : R.rd (((1 / 2 : ℚ) : ℝ) ) * 2 = 1 := by
      rw [mul_comm, ← R.dbl]; push_cast; norm_num; exact R.rd_one
    rw [Rounding.val_sqrt, Rounding.val_mul, Rounding.val_lit, Rounding.val_round, e2, e3, R.rd_one, Real.sqrt_one, R.rd_one, hov]
  have hwt : w.toSI true = ⟨o, o, o, e, c, c, c, c, o, o, o, t, t⟩ := by
    rw [hw2]; simp only [Detail.toSI, if_true, ← ho, ← hcc, ← hee, ← ht, om]
  have hvt : v.toSI true = ⟨o, o, o, c, o, o, o, R.round 2, R.round 2, R.round 2, o⟩ := by
    rw [hv2]; simp only [Summary.toSI, if_true, ← ho, ← hcc, om]
  obtain ⟨r1, r2, -, r4, r5, r6, r7, r8, -⟩ := read_fields (v.toSI true)
  rw [hvt] at r1 r2 r4 r5 r6 r7 r8 hg
  have f0 : ∀ y : R.F, 0 < y.val → PyCmp.le y (lit 0) = false := fun y hy => (F_le_zero_false y).2 hy
  have o0 : 0 < o.val := by rw [hov]; exact one_pos
  have t0 : 0 < t.val := by rw [htv]; norm_num
  have hq : |100 - (c / e).val| ≤ 1 := by
    have h1 := hcn
    have h2 := hen
    rw [Near, abs_of_pos (by norm_num : (0:ℝ) < 1 / 100)] at h1
    rw [Near, abs_of_pos (by norm_num : (0:ℝ) < 1 / 10000)] at h2
    have he := R.small
    have h1 := abs_le.1 h1
    have h2 := abs_le.1 h2
    have hlo : 99.75 ≤ c.val / e.val := by rw [le_div_iff₀ hep]; linarith
    have hhi : c.val / e.val ≤ 100.25 := by rw [div_le_iff₀ hep]; linarith
    have h3 := abs_le.1 (R.rel (c.val / e.val))
    rw [abs_of_pos (by linarith : 0 < c.val / e.val)] at h3
    have h4 : R.eps * (c.val / e.val) ≤ 1 / 1000 * 100.25 := mul_le_mul he hhi (by linarith) (by norm_num)
    rw [Rounding.val_div, abs_le]
    constructor <;> linarith [h3.1, h3.2]
  have hq2 : |R.rd (100 - (c / e).val)| ≤ 1 := by
    have h6 := abs_le.1 hq
    have h7 := R.mono h6.2
    have h8 := R.mono h6.1
    rw [R.rd_one] at h7
    rw [R.neg, R.rd_one] at h8
    exact abs_le.2 ⟨h8, h7⟩
  have hre : differs t (c / e) (lit 5) = false := by
    rw [differs, Bool.eq_false_iff, ne_eq, Rounding.F_ge, not_le, Rounding.val_abs, Rounding.val_sub, Rounding.val_lit, htv]
    have h5 : R.rd ((5 : ℚ) : ℝ) = 5 := by have := R.int 5 (by norm_num); push_cast at this ⊢; exact this
    rw [h5]
    exact hq2.trans_lt (by norm_num)
  obtain ⟨z, hz, hzv⟩ : ∃ z : R.F, z = R.round 0 ∧ z.val = 0 := ⟨_, rfl, R.rd_zero⟩
  obtain ⟨m, hm, hm2⟩ : ∃ m, Sample.ofRow (rounded R exampleNumbers) "100 1 1 1 1 0".toList = some m ∧ m.toSI true = ⟨t, o, c, o, o, z⟩ := by
    have hs : Numbers Spec.blank exampleNumbers "100 1 1 1 1 0".toList (exampleSample.columns true) := by
      have := example_rows.samples; cases this; assumption
    rw [Sample.ofRow, rounded_columns hs]
    refine ⟨_, rfl, ?_⟩
    simp only [Sample.toSI, if_true, exampleSample, ← ho, ← hcc, ← ht, ← hz]
    rw [show (100:ℝ) * (1 / 100) = 1 by norm_num, ← ho, om]
  have dv : ∀ y : R.F, y.val ≠ 0 → y / y = o := fun y hy => by
    apply Rounding.F.ext; rw [Rounding.val_div, div_self hy, R.rd_one, hov]
  have ss : o - o = z := by
    apply Rounding.F.ext; rw [Rounding.val_sub, sub_self, R.rd_zero, hzv]
  have zd : z / o = z := by
    apply Rounding.F.ext; rw [Rounding.val_div, hzv, zero_div, R.rd_zero]
  have xs : ∀ (y : R.F) (q : ℚ), 0 < q → exceeds y y (lit q) = false := fun y q hq => by
    rw [exceeds, Bool.eq_false_iff, ne_eq, Rounding.F_gt, not_lt, Rounding.val_abs, Rounding.val_sub, Rounding.val_lit, sub_self, R.rd_zero, abs_zero]
    exact Rounding.rd_nonneg (by exact_mod_cast hq.le)
  have hxq : exceeds t (c / e) (lit 1) = false := by
    rw [exceeds, Bool.eq_false_iff, ne_eq, Rounding.F_gt, not_lt, Rounding.val_abs, Rounding.val_sub, Rounding.val_one, htv]
    exact hq2
  refine ⟨_, (mk_ok_iff _ _ _ _ _ _ _).2 ⟨v, [m], _, hv, by rw [hvt]; exact hg, .inr ⟨by decide, w, hw, ?_, ?_, rfl⟩, by
    rw [List.mapM_cons, hm]; rfl, ?_, rfl⟩⟩
  · rw [hvt, hwt]
    have ne : PyCmp.eq e (lit 0) = false := by
      rw [Bool.eq_false_iff, ne_eq, Rounding.F_eq, Rounding.val_zero]; exact hep.ne'
    constructor <;> simp only [r1, r2, r4, r5, r6, r7, r8, om, hsq1] <;>
      first | exact differs_self _ _ (by norm_num) | exact ne | exact hre
  · rw [hwt]
    constructor <;> first | exact f0 _ o0 | exact f0 _ hcp | exact f0 _ hep | exact f0 _ t0
  · simp only [List.mem_singleton, forall_eq]
    rw [hm2, hwt]
    constructor
    · simp only [Station.detailed, mo]; exact hxq
    · simp only [Station.detailed]; rw [dv _ hcp.ne']; exact xs _ _ (by norm_num)
    · simp only [Station.detailed, mo]; rw [dv _ o0.ne']; exact xs _ _ (by norm_num)
    · simp only [Station.detailed, mo, ss, zd]; exact xs _ _ (by norm_num)

end IBL.Stanford
