import Verif.Model.Method
import Verif.Props.SkinFrictionFloat

/-! C161: the closure functions of laminar layers in rounded arithmetic. -/

set_option linter.unusedSectionVars false

namespace IBL.Fits

open Rounding

variable {R : Rounding} [PyPow R.F]

private theorem lit_pos {q : ℚ} (h : 0 < q) : 0 < (lit q : R.F).val := rd_pos (by exact_mod_cast h)

private theorem lit_neg (q : ℚ) : (lit (-q) : R.F).val = -(lit q : R.F).val := by
  rw [val_lit, val_lit]; push_cast; exact R.neg _

/-- Literals that differ by more than a fiftieth stay apart. -/
private theorem lit_lt {p q : ℚ} (h0 : 0 < p) (h : p * (51/50) ≤ q) : (lit p : R.F).val < (lit q : R.F).val := by
  have e0 := R.eps_nonneg
  have e1 := R.small
  have p0 : (0:ℝ) < p := by exact_mod_cast h0
  have h' : (p:ℝ) * (51/50) ≤ q := by
    have := (Rat.cast_le (K := ℝ)).2 h
    push_cast at this
    exact this
  have a := (rd_bounds (R := R) p0.le).2
  have b := (rd_bounds (R := R) (x := (q:ℝ)) (by nlinarith)).1
  rw [val_lit, val_lit]
  nlinarith

private theorem white_clip (lam : R.F) : ((white : Fits R.F).checkRange lam).val = max lam.val (lit (-9/100) : R.F).val := by
  simp only [checkRange, white]
  by_cases c : lam.val < (lit (-9/100) : R.F).val
  · rw [if_pos (by rw [F_lt]; exact c), max_eq_right c.le]
  · rw [if_neg (by rw [F_lt]; exact c), max_eq_left (not_lt.1 c)]

private theorem drela_clip (lam : R.F) : ((drela : Fits R.F).checkRange lam).val = max lam.val (lit (-9/100) : R.F).val := by
  simp only [checkRange, drela]
  by_cases c : lam.val < (lit (-9/100) : R.F).val
  · rw [if_pos (by rw [F_lt]; exact c), max_eq_right c.le]
  · rw [if_neg (by rw [F_lt]; exact c), max_eq_left (not_lt.1 c)]

private theorem cb_ge (lam : R.F) : (lit (-1/10) : R.F).val ≤ ((cebeciBradshaw : Fits R.F).checkRange lam).val := by
  have t : (lit (-1/10) : R.F).val ≤ (lit (1/10) : R.F).val := R.mono (by push_cast; norm_num)
  simp only [checkRange, cebeciBradshaw]
  by_cases c : lam.val < (lit (-1/10) : R.F).val
  · rw [if_pos (by rw [F_lt]; exact c)]
  · rw [if_neg (by rw [F_lt]; exact c)]
    by_cases k : (lit (1/10) : R.F).val < lam.val
    · rw [if_pos (by rw [F_gt]; exact k)]; exact t
    · rw [if_neg (by rw [F_gt]; exact k)]; exact not_lt.1 c

private theorem cb_clip (lam : R.F) (h : lam.val < 0) : ((cebeciBradshaw : Fits R.F).checkRange lam).val = max lam.val (lit (-1/10) : R.F).val := by
  have t : 0 < (lit (1/10) : R.F).val := lit_pos (by norm_num)
  simp only [checkRange, cebeciBradshaw]
  by_cases c : lam.val < (lit (-1/10) : R.F).val
  · rw [if_pos (by rw [F_lt]; exact c), max_eq_right c.le]
  · rw [if_neg (by rw [F_lt]; exact c), if_neg (by rw [F_gt]; linarith), max_eq_left (not_lt.1 c)]

/-- **C161**: the divisors in the functions of Cebeci and Bradshaw and of Drela are positive for every number that is passed to them. -/
theorem rounded_fits_divisors (lam : R.F) : 0 < (lit (107/1000) + (cebeciBradshaw : Fits R.F).checkRange lam : R.F).val ∧
    0 < (lit (14/100) + (cebeciBradshaw : Fits R.F).checkRange lam : R.F).val ∧
    0 < (((drela : Fits R.F).checkRange lam + lit (18/100)) * ((drela : Fits R.F).checkRange lam + lit (18/100)) : R.F).val := by
  have c := cb_ge lam
  have e : (lit (-1/10) : R.F).val = -(lit (1/10) : R.F).val := by rw [← lit_neg]; norm_num
  have a1 : (lit (1/10) : R.F).val < (lit (107/1000) : R.F).val := lit_lt (by norm_num) (by norm_num)
  have a2 : (lit (1/10) : R.F).val < (lit (14/100) : R.F).val := lit_lt (by norm_num) (by norm_num)
  have e3 : (lit (-9/100) : R.F).val = -(lit (9/100) : R.F).val := by rw [← lit_neg]; norm_num
  have a3 : (lit (9/100) : R.F).val < (lit (18/100) : R.F).val := lit_lt (by norm_num) (by norm_num)
  have d : (lit (-9/100) : R.F).val ≤ ((drela : Fits R.F).checkRange lam).val := by rw [drela_clip]; exact le_max_right _ _
  have p : 0 < ((drela : Fits R.F).checkRange lam + lit (18/100) : R.F).val := rd_pos (by linarith)
  exact ⟨rd_pos (by linarith), rd_pos (by linarith), rd_pos (mul_pos p p)⟩

/-- **C161**, White: the wall shear does not decrease with the parameter, over all floats, and is never a power of a negative number. -/
theorem rounded_white_shear_order (E : Elementary R) (lam lam' : R.F) (h : lam.val ≤ lam'.val) :
    0 ≤ ((white : Fits R.F).shearAt lam).val ∧ ((white : Fits R.F).shearAt lam).val ≤ ((white : Fits R.F).shearAt lam').val := by
  have e3 : (lit (-9/100) : R.F).val = -(lit (9/100) : R.F).val := by rw [← lit_neg]; norm_num
  have a := white_clip lam
  have b := white_clip lam'
  have l : 0 ≤ ((white : Fits R.F).checkRange lam + lit (9/100) : R.F).val :=
    rd_nonneg (by rw [a, e3]; linarith [le_max_right lam.val (-(lit (9/100) : R.F).val)])
  refine ⟨E.pow_nonneg _ _ l, E.pow_mono _ _ _ l (R.mono (add_le_add_left ?_ _)) (lit_pos (by norm_num)).le⟩
  rw [a, b]
  exact max_le_max_right _ h

private theorem piece_neg (lam : R.F) (h : lam.val < 0) (a b : R.F → R.F) : piecewise0 lam a b = a lam := by
  rw [piecewise0, if_pos]
  rw [F_lt, val_zero]; exact h

private theorem cb_neg (lam : R.F) (h : lam.val < 0) : ((cebeciBradshaw : Fits R.F).checkRange lam).val < 0 := by
  rw [cb_clip lam h]
  have e : (lit (-1/10) : R.F).val = -(lit (1/10) : R.F).val := by rw [← lit_neg]; norm_num
  exact max_lt h (by rw [e]; linarith [lit_pos (R := R) (q := 1/10) (by norm_num)])

/-- **C161**, Cebeci and Bradshaw: in decelerated flow the wall shear does not decrease with the parameter. -/
theorem rounded_cb_shear_order (lam lam' : R.F) (h : lam.val ≤ lam'.val) (h0 : lam'.val < 0) :
    ((cebeciBradshaw : Fits R.F).shearAt lam).val ≤ ((cebeciBradshaw : Fits R.F).shearAt lam').val := by
  have n := cb_neg lam (h.trans_lt h0)
  have n' := cb_neg lam' h0
  have hc : ((cebeciBradshaw : Fits R.F).checkRange lam).val ≤ ((cebeciBradshaw : Fits R.F).checkRange lam').val := by
    rw [cb_clip lam (h.trans_lt h0), cb_clip lam' h0]; exact max_le_max_right _ h
  have d := (rounded_fits_divisors lam).1
  have d' := (rounded_fits_divisors lam').1
  unfold shearAt
  generalize (cebeciBradshaw : Fits R.F).checkRange lam = x at *
  generalize (cebeciBradshaw : Fits R.F).checkRange lam' = y at *
  show (piecewise0 x _ _).val ≤ (piecewise0 y _ _).val
  rw [piece_neg x n, piece_neg y n']
  have k1 : 0 < (lit (1402/1000) : R.F).val := lit_pos (by norm_num)
  have k2 : 0 < (lit (18/1000) : R.F).val := lit_pos (by norm_num)
  have q1 : (lit (18/1000) * x : R.F).val ≤ (lit (18/1000) * y : R.F).val := R.mono (mul_le_mul_of_nonneg_left hc k2.le)
  have q2 : (lit (18/1000) * y : R.F).val ≤ 0 := rd_nonpos (mul_nonpos_of_nonneg_of_nonpos k2.le n'.le)
  have q3 : (lit (107/1000) + x : R.F).val ≤ (lit (107/1000) + y : R.F).val := R.mono (add_le_add_right hc _)
  refine R.mono (add_le_add (R.mono (add_le_add_right (R.mono (mul_le_mul_of_nonneg_left hc k1.le)) _)) (R.mono ?_))
  rw [div_le_div_iff₀ d d']
  nlinarith

/-- **C161**, Cebeci and Bradshaw: in decelerated flow the shape factor does not increase with the parameter and is at least 2.088. -/
theorem rounded_cb_shape_order (lam lam' : R.F) (h : lam.val ≤ lam'.val) (h0 : lam'.val < 0) :
    (lit (2088/1000) : R.F).val ≤ ((cebeciBradshaw : Fits R.F).shapeAt lam').val ∧
    ((cebeciBradshaw : Fits R.F).shapeAt lam').val ≤ ((cebeciBradshaw : Fits R.F).shapeAt lam).val := by
  have n := cb_neg lam (h.trans_lt h0)
  have n' := cb_neg lam' h0
  have hc : ((cebeciBradshaw : Fits R.F).checkRange lam).val ≤ ((cebeciBradshaw : Fits R.F).checkRange lam').val := by
    rw [cb_clip lam (h.trans_lt h0), cb_clip lam' h0]; exact max_le_max_right _ h
  have d := (rounded_fits_divisors lam).2.1
  have d' := (rounded_fits_divisors lam').2.1
  unfold shapeAt
  generalize (cebeciBradshaw : Fits R.F).checkRange lam = x at *
  generalize (cebeciBradshaw : Fits R.F).checkRange lam' = y at *
  show _ ≤ (piecewise0 y _ _).val ∧ (piecewise0 y _ _).val ≤ (piecewise0 x _ _).val
  rw [piece_neg x n, piece_neg y n']
  have k : 0 < (lit (731/10000) : R.F).val := lit_pos (by norm_num)
  constructor
  · have p : 0 ≤ (lit (731/10000) / (lit (14/100) + y) : R.F).val := rd_nonneg (div_nonneg k.le d'.le)
    calc (lit (2088/1000) : R.F).val = R.rd (lit (2088/1000) : R.F).val := (lit (2088/1000) : R.F).rep.symm
      _ ≤ _ := R.mono (by linarith)
  · exact R.mono (add_le_add_right (R.mono (div_le_div_of_nonneg_left k.le d (R.mono (add_le_add_right hc _)))) _)

/-- **C161**, the linear method: in flow that is not accelerated the numerator of Thwaites' equation is at least 0.45 for every state that is not negative, and does not decrease with the state. -/
theorem rounded_linear_growth (o : Obj R.F) (hc : o.cls = .thwaitesLinear) (x F F' du : R.F) (hd : o.vel.duE x = .ok du) (hdu : du.val ≤ 0) (h0 : 0 ≤ F.val) (hF : F.val ≤ F'.val) :
    ∃ f f', o.calcF x F = .ok f ∧ o.calcF x F' = .ok f' ∧ (lit (45/100) : R.F).val ≤ f.val ∧ f.val ≤ f'.val := by
  have val : ∀ G : R.F, o.calcF x G = .ok (lit (45/100) - lit 6 * (G * du)) := by
    intro G
    simp only [Obj.calcF, Obj.calcLambda, hd, hc, bind, Except.bind, pure, Except.pure]
  have six : 0 < (lit 6 : R.F).val := lit_pos (by norm_num)
  refine ⟨_, _, val F, val F', ?_, ?_⟩
  · have p : (lit 6 * (F * du) : R.F).val ≤ 0 :=
      rd_nonpos (mul_nonpos_of_nonneg_of_nonpos six.le (rd_nonpos (mul_nonpos_of_nonneg_of_nonpos h0 hdu)))
    calc (lit (45/100) : R.F).val = R.rd (lit (45/100) : R.F).val := (lit (45/100) : R.F).rep.symm
      _ ≤ _ := R.mono (by linarith)
  · exact R.mono (sub_le_sub_left (R.mono (mul_le_mul_of_nonneg_left (R.mono (mul_le_mul_of_nonpos_right hF hdu)) six.le)) _)

/-- **C161**, the linear method: in flow that is not accelerated and whose velocity is not negative the state grows, wherever it is not negative. -/
theorem rounded_linear_rate (o : Obj R.F) (hc : o.cls = .thwaitesLinear) (x F u du : R.F) (hu : o.vel.uE x = .ok u) (hu0 : 0 ≤ u.val) (hd : o.vel.duE x = .ok du) (hdu : du.val ≤ 0)
    (h0 : 0 ≤ F.val) : ∃ g, o.thwaitesRhs x F = .ok g ∧ 0 < g.val := by
  obtain ⟨f, -, e, -, h1, -⟩ := rounded_linear_growth o hc x F F du hd hdu h0 le_rfl
  have a : 0 < (lit (45/100) : R.F).val := lit_pos (by norm_num)
  have b : 0 < (lit (1/1000) : R.F).val := lit_pos (by norm_num)
  refine ⟨f / (lit (1/1000) + u), ?_, rd_pos (div_pos (a.trans_le h1) (rd_pos (by linarith)))⟩
  simp only [Obj.thwaitesRhs, e, hu, bind, Except.bind, pure, Except.pure]

/-- The hypotheses can be met: a linear object in decelerated flow, states 1 and 2, parameters -0.08 and -0.02. -/
theorem rounded_fits_case : ∃ (o : Obj R.F) (x F F' u du lam lam' : R.F), o.cls = .thwaitesLinear ∧ o.vel.uE x = .ok u ∧ 0 ≤ u.val ∧ o.vel.duE x = .ok du ∧ du.val < 0 ∧ 0 ≤ F.val ∧ F.val < F'.val ∧
    lam.val < lam'.val ∧ lam'.val < 0 := by
  let vel : VelState R.F := ⟨some (.fn fun _ => .ok (lit 1)), some (.fn fun _ => .ok (-lit 1)), some (.fn fun _ => .ok (lit 0))⟩
  have a : (lit (2/100) : R.F).val < (lit (8/100) : R.F).val := lit_lt (by norm_num) (by norm_num)
  have b : 0 < (lit (2/100) : R.F).val := lit_pos (by norm_num)
  refine ⟨⟨.thwaitesLinear, lit 1, vel, .manual (lit 0) (lit 1) (lit 0) (lit 1) (lit 0), [], none, some drela⟩, lit 0, lit 1, lit 2, lit 1, -lit 1, -lit (8/100), -lit (2/100), rfl, rfl, ?_, rfl, ?_, ?_,
    lit_lt (by norm_num) (by norm_num), ?_, ?_⟩ <;> simp only [val_neg, val_one] <;> linarith

end IBL.Fits
