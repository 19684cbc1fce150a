import Verif.Props.Config
import Verif.Props.Analytic
import Verif.Props.RoundedFd

/-! C26 and C32 in arithmetic with rounding; C89. -/

set_option linter.unusedSectionVars false

namespace IBL
open Rounding

section head
variable {R : Rounding} [PySpecial R.F] [PyPow R.F]

/-- **C26** with rounding: the sign of the computed separation event is exactly that of the difference between critical and current shape factor. -/
theorem head_event_sign_rounded {ext : Ext R.F} {nu : R.F} {u du d2u : Arg R.F} {c0 : R.F} {o : Obj R.F}
    (hb : Obj.mkHead ext nu u du d2u c0 = .ok o) (ops : List (Op R.F)) (x0 x1 : R.F) (te : TermArg R.F) (p : IvpProblem R.F)
    (hp : ((o.run ext ops).prepare x0 x1 te).2 = .ok p) :
    ∃ e, p.events.head? = some e ∧ e.info.1 = .separated ∧ ∀ x dm h : R.F,
      ∃ v, (o.run ext ops).eventValue e x [dm, h] = .ok v ∧
        (0 < v.val ↔ h.val < (lastCrit c0 ops).val) ∧ (v.val = 0 ↔ h.val = (lastCrit c0 ops).val) ∧ (v.val < 0 ↔ (lastCrit c0 ops).val < h.val) := by
  refine ⟨_, head_separation_monitored hb ops x0 x1 te p hp, rfl, ?_⟩
  intro x dm h
  refine ⟨lastCrit c0 ops - h, by simp [Obj.eventValue, pure, Except.pure], ?_, ?_, ?_⟩
  · rw [val_sub, rd_pos_iff, sub_pos]
  · rw [val_sub, rd_eq_zero, sub_eq_zero, eq_comm]
  · rw [val_sub, rd_neg_iff, sub_neg]

end head

namespace Analytic
variable {R : Rounding} [PySpecial R.F]

/-- A rounding as a factor. -/
theorem rd_factor (x : ℝ) : ∃ η, |η| ≤ R.eps ∧ R.rd x = x * (1 + η) := by
  by_cases hx : x = 0
  · exact ⟨0, by simpa using R.eps_nonneg, by simp [hx, R.rd_zero]⟩
  · refine ⟨(R.rd x - x) / x, ?_, by field_simp; ring⟩
    rw [abs_div, div_le_iff₀ (abs_pos.2 hx)]
    exact R.rel x

theorem resetM_rounded (s : Sim R.F) (t : Tools R.F) (m : R.F) (e fw : Option R.F) (hm : PyCmp.eq m PySpecial.inf = false) (h1 : -1 < m.val) :
    s.resetM t m e fw = s.resetBeta t (lit 2 * m / (lit 1 + m)) e fw ∧
      (lit 2 * m / (lit 1 + m)).val = R.rd (2 * m.val / R.rd (1 + m.val)) := by
  have hv : (lit 1 + m).val = R.rd (1 + m.val) := by rw [val_add, val_one]
  have h0 : ¬ PyCmp.eq (lit 1 + m) (lit 0) = true := by
    rw [F_eq, hv, val_zero]; exact (rd_pos (by linarith)).ne'
  constructor
  · simp only [Sim.resetM, hm, pyDiv, if_neg h0, Bool.false_eq_true, if_false]
  · rw [val_div, hv, FD.val_dbl]

theorem bad_rounded (b : R.F) : badBeta b = true ↔ b.val < R.rd (-19884/100000) ∨ 2 < b.val := by
  have h2 : (lit 2 : R.F).val = 2 := FD.val_two
  have e : ((-19884/100000 : ℚ) : ℝ) = -19884/100000 := by norm_num
  simp only [badBeta, Bool.or_eq_true, F_lt, F_gt, h2, val_lit, e]

/-- **C89** (C32 with rounding): `m` reads back within a few rounding errors, which grow with `m`. -/
theorem reset_m_reads_back_rounded_partial (s : Sim R.F) (t : Tools R.F) (m : R.F) (e fw : Option R.F) (hm : PyCmp.eq m PySpecial.inf = false)
    (h1 : -1 < m.val) (hsmall : R.eps * (1 + |m.val|) ≤ 1 / 1000) (h : (s.resetM t m e fw).2 = .ok ()) :
    ∃ v, (s.resetM t m e fw).1.m = .ok v ∧ |v.val - m.val| ≤ 5 * R.eps * (1 + |m.val|) * |m.val| := by
  obtain ⟨hr, hv⟩ := resetM_rounded s t m e fw hm h1
  rw [hr] at h ⊢
  obtain ⟨_, hb⟩ := resetBeta_ok s t _ e fw h
  set β := lit 2 * m / (lit 1 + m) with hβ
  set r := m.val with hrr
  have e0 := R.eps_nonneg
  have e1 := R.small
  have h1' : 0 < 1 + r := by linarith
  obtain ⟨η1, a1, b1⟩ := rd_factor (R := R) (1 + r)
  obtain ⟨η2, a2, b2⟩ := rd_factor (R := R) (2 * r / R.rd (1 + r))
  have c1 := abs_le.1 a1
  have c2 := abs_le.1 a2
  have p1 : 0 < 1 + η1 := by linarith [c1.1]
  set θ := (1 + η2) / (1 + η1) - 1 with hθ
  have hβv : β.val = 2 * r / (1 + r) * (1 + θ) := by
    rw [hv, b2, b1, hθ]; field_simp; ring
  have hθb : |θ| ≤ 2.01 * R.eps := by
    have : θ = (η2 - η1) / (1 + η1) := by rw [hθ]; field_simp; ring
    rw [this, abs_div, abs_of_pos p1, div_le_iff₀ p1]
    have h3 : |η2 - η1| ≤ 2 * R.eps := (abs_sub _ _).trans (by linarith)
    have h4 : 2.01 * R.eps * 0.999 ≤ 2.01 * R.eps * (1 + η1) := mul_le_mul_of_nonneg_left (by linarith [c1.1]) (by linarith)
    linarith
  have hrθ : |r * θ| ≤ 2.01 * R.eps * |r| := by
    rw [abs_mul]
    have := mul_le_mul_of_nonneg_left hθb (abs_nonneg r)
    linarith
  have ha0 := abs_nonneg r
  have hεr : 0 ≤ R.eps * |r| := mul_nonneg e0 ha0
  have hD1 : 0 < 1 - r * θ := by
    have := abs_le.1 hrθ
    linarith [this.2]
  have h2β : 2 - β.val = 2 / (1 + r) * (1 - r * θ) := by rw [hβv]; field_simp; ring
  have h2pos : 0 < 2 - β.val := by rw [h2β]; positivity
  obtain ⟨η3, a3, b3⟩ := rd_factor (R := R) (2 - β.val)
  have c3 := abs_le.1 a3
  have p3 : 0 < 1 + η3 := by linarith [c3.1]
  have hW : (lit 2 - β).val = 2 / (1 + r) * (1 - r * θ) * (1 + η3) := by rw [val_sub, FD.val_two, b3, h2β]
  have hWpos : 0 < (lit 2 - β).val := by rw [hW]; positivity
  have n1 : ¬ PyCmp.eq β (lit 2) = true := by
    rw [F_eq, FD.val_two]; linarith
  have n2 : ¬ PyCmp.eq (lit 2 - β) (lit 0) = true := by
    rw [F_eq, val_zero]; exact hWpos.ne'
  refine ⟨β / (lit 2 - β), by simp only [Sim.m, hb, if_neg n1, pyDiv, if_neg n2], ?_⟩
  obtain ⟨η4, a4, b4⟩ := rd_factor (R := R) (β.val / (lit 2 - β).val)
  have hval : (β / (lit 2 - β)).val - r = r * (((1 + θ) * (1 + η4) - (1 - r * θ) * (1 + η3)) / ((1 - r * θ) * (1 + η3))) := by
    rw [val_div, b4, hW, hβv]; field_simp
  rw [hval, abs_mul, mul_comm]
  refine mul_le_mul_of_nonneg_right ?_ ha0
  have hDD : 0 < (1 - r * θ) * (1 + η3) := mul_pos hD1 p3
  rw [abs_div, abs_of_pos hDD, div_le_iff₀ hDD]
  have k1 : |(1 + θ) * (1 + η4) - (1 - r * θ) * (1 + η3)| ≤ 4.02 * R.eps + 2.02 * (R.eps * |r|) := by
    have e : (1 + θ) * (1 + η4) - (1 - r * θ) * (1 + η3) = (θ + η4 + θ * η4) + (r * θ - η3 + r * θ * η3) := by ring
    rw [e]
    have m1 : |θ * η4| ≤ 2.01 * R.eps * (1 / 1000) := by
      rw [abs_mul]; exact mul_le_mul hθb (a4.trans e1) (abs_nonneg _) (by linarith)
    have m2 : |r * θ * η3| ≤ 2.01 * R.eps * |r| * (1 / 1000) := by
      rw [abs_mul]; exact mul_le_mul hrθ (a3.trans e1) (abs_nonneg _) (by linarith)
    have i1 := abs_add_le (θ + η4 + θ * η4) (r * θ - η3 + r * θ * η3)
    have i2 := abs_add_le (θ + η4) (θ * η4)
    have i3 := abs_add_le θ η4
    have i4 := abs_add_le (r * θ - η3) (r * θ * η3)
    have i5 := abs_sub (r * θ) η3
    linarith
  have k2 : 0.99 ≤ (1 - r * θ) * (1 + η3) := by
    have q1 : 0.997 ≤ 1 - r * θ := by
      have := abs_le.1 hrθ
      linarith [this.2]
    have q2 : 0.999 ≤ 1 + η3 := by linarith [c3.1]
    have := mul_le_mul q1 q2 (by norm_num) (by linarith)
    linarith
  have k3 : 5 * R.eps * (1 + |r|) * 0.99 ≤ 5 * R.eps * (1 + |r|) * ((1 - r * θ) * (1 + η3)) :=
    mul_le_mul_of_nonneg_left k2 (by positivity)
  linarith

/-- **C89**: which `m` are accepted, up to rounding of the limit. -/
theorem reset_m_accepts_rounded (s : Sim R.F) (t : Tools R.F) (m : R.F) (e fw : Option R.F) (hm : PyCmp.eq m PySpecial.inf = false)
    (h1 : -1 < m.val) (hlim : -19884/100000 * (1 - R.eps) * (1 + m.val) ≤ 2 * m.val)
    (ht : ∀ b, badBeta b = false → (({ s with beta := b } : Sim R.F).setSolutionParameters t e fw).2 = .ok ()) :
    (s.resetM t m e fw).2 = .ok () := by
  obtain ⟨hr, hv⟩ := resetM_rounded s t m e fw hm h1
  have e0 := R.eps_nonneg
  have e1 := R.small
  have h1' : 0 < 1 + m.val := by linarith
  obtain ⟨s1, s2⟩ := rd_bounds (R := R) h1'.le
  have hS : 0 < R.rd (1 + m.val) := rd_pos h1'
  have hbad : badBeta (lit 2 * m / (lit 1 + m)) = false := by
    rw [Bool.eq_false_iff, Ne, bad_rounded, hv, not_or, not_lt, not_lt]
    constructor
    · refine R.mono ?_
      rw [le_div_iff₀ hS]
      linarith
    · rw [← FD.rd_two (R := R)]
      refine R.mono ?_
      rw [FD.rd_two, div_le_iff₀ hS]
      have : m.val ≤ R.rd (1 + m.val) := by rw [← m.rep]; exact R.mono (by rw [m.rep]; linarith)
      linarith
  rw [hr]
  simp only [Sim.resetBeta, hbad]
  exact ht _ hbad

/-- **C89**: which `m` are refused, up to rounding of the limit. -/
theorem reset_m_rejects_rounded (s : Sim R.F) (t : Tools R.F) (m : R.F) (e fw : Option R.F) (hm : PyCmp.eq m PySpecial.inf = false)
    (h1 : -1 < m.val) (hlim : 2 * m.val < -19884/100000 * (1 + 4 * R.eps) * (1 + m.val)) :
    s.resetM t m e fw = (s, .error .valueError) := by
  obtain ⟨hr, hv⟩ := resetM_rounded s t m e fw hm h1
  have e0 := R.eps_nonneg
  have e1 := R.small
  have h1' : 0 < 1 + m.val := by linarith
  obtain ⟨s1, s2⟩ := rd_bounds (R := R) h1'.le
  have hS : 0 < R.rd (1 + m.val) := rd_pos h1'
  have hneg : m.val < 0 := by
    by_contra hc
    have : 0 ≤ (1 + 4 * R.eps) * (1 + m.val) := by positivity
    linarith
  have hbad : badBeta (lit 2 * m / (lit 1 + m)) = true := by
    rw [bad_rounded, hv]
    left
    set S := R.rd (1 + m.val)
    obtain ⟨b1, b2⟩ := rd_bounds (R := R) (x := -(2 * m.val / S)) (by rw [neg_nonneg]; exact div_nonpos_of_nonpos_of_nonneg (by linarith) hS.le)
    obtain ⟨c1, c2⟩ := rd_bounds (R := R) (x := 19884/100000) (by norm_num)
    have hn : R.rd (-19884/100000) = -R.rd (19884/100000) := by rw [← R.neg]; congr 1; norm_num
    rw [R.neg] at b1 b2
    rw [hn]
    have q : 19884/100000 * (1 + 4 * R.eps) / (1 + R.eps) < -(2 * m.val / S) := by
      rw [← neg_div, div_lt_div_iff₀ (by linarith) hS]
      have k : 19884/100000 * (1 + 4 * R.eps) * S ≤ 19884/100000 * (1 + 4 * R.eps) * ((1 + R.eps) * (1 + m.val)) :=
        mul_le_mul_of_nonneg_left s2 (by positivity)
      have k2 : 19884/100000 * (1 + 4 * R.eps) * (1 + m.val) * (1 + R.eps) < -(2 * m.val) * (1 + R.eps) :=
        mul_lt_mul_of_pos_right (by linarith) (by linarith)
      linarith
    have q2 : (1 + R.eps) * (19884/100000) ≤ (1 - R.eps) * (19884/100000 * (1 + 4 * R.eps) / (1 + R.eps)) := by
      rw [show (1 - R.eps) * (19884/100000 * (1 + 4 * R.eps) / (1 + R.eps)) = (1 - R.eps) * (19884/100000 * (1 + 4 * R.eps)) / (1 + R.eps) from
        (mul_div_assoc _ _ _).symm, le_div_iff₀ (by linarith)]
      nlinarith
    have q3 : (1 - R.eps) * (19884/100000 * (1 + 4 * R.eps) / (1 + R.eps)) < (1 - R.eps) * -(2 * m.val / S) :=
      mul_lt_mul_of_pos_left q (by linarith)
    linarith
  rw [hr]
  simp only [Sim.resetBeta, hbad, if_true]

/-- C32 is false with rounding: a large finite `m` is turned into infinity, here 2^54 with the precision of python's floats. -/
theorem large_m_lost [PySpecial double.F] (s : Sim double.F) (t : Tools double.F)
    (m : double.F) (hv : m.val = 2 ^ 54) (e fw : Option double.F)
    (hm : PyCmp.eq m PySpecial.inf = false) (h : (s.resetM t m e fw).2 = .ok ()) :
    (s.resetM t m e fw).1.m = .ok PySpecial.inf := by
  obtain ⟨hr, hb⟩ := resetM_rounded s t m e fw hm (by rw [hv]; norm_num)
  have e1 : double.rd (1 + 2 ^ 54) = 2 ^ 54 := by
    rw [double_eval (x := 1 + 2 ^ 54) 54 (2 ^ 52) (by norm_num) (by norm_num) (by norm_num)]
    norm_num
  have h2 : (lit 2 * m / (lit 1 + m)).val = 2 := by
    rw [hb, hv, e1]
    norm_num
    exact FD.rd_two
  have hβ : lit 2 * m / (lit 1 + m) = (lit 2 : double.F) := by
    ext; rw [h2, FD.val_two]
  rw [hr, hβ] at h ⊢
  obtain ⟨_, hb'⟩ := resetBeta_ok s t _ e fw h
  simp only [Sim.m, hb']
  rw [if_pos (by rw [F_eq])]

/-- There is such a number. -/
example : ∃ m : double.F, m.val = 2 ^ 54 :=
  ⟨⟨2 ^ 54, by
    rw [double_eval (x := 2 ^ 54) 54 (2 ^ 52) (by norm_num) (by norm_num) (by norm_num)]
    norm_num⟩, rfl⟩

/-- Non-vacuity: `m = 1` (stagnation point flow) with tools that succeed. -/
example (s : Sim R.F) (t : Tools R.F) (e fw : Option R.F) (hm : PyCmp.eq (lit 1 : R.F) PySpecial.inf = false)
    (ht : ∀ b, badBeta b = false → (({ s with beta := b } : Sim R.F).setSolutionParameters t e fw).2 = .ok ()) (he : R.eps ≤ 1 / 2000) :
    ∃ v, (s.resetM t (lit 1) e fw).1.m = .ok v ∧ |v.val - 1| ≤ 10 * R.eps := by
  have e0 := R.eps_nonneg
  have hok := reset_m_accepts_rounded s t (lit 1) e fw hm (by rw [val_one]; norm_num) (by rw [val_one]; nlinarith) ht
  obtain ⟨v, h1, h2⟩ := reset_m_reads_back_rounded_partial s t (lit 1) e fw hm (by rw [val_one]; norm_num) (by rw [val_one]; norm_num; linarith) hok
  rw [val_one] at h2
  refine ⟨v, h1, h2.trans (by norm_num; linarith)⟩

end Analytic
end IBL
