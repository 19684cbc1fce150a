import Verif.Lemmas.Flt
import Verif.Props.Fits

/-!
C14 (regularity, on extended reals, where a division by zero or an invalid power would show up as inf or NaN) and C15
(sign of the separation event) for the closed-form fits.
-/

namespace IBL
open Fits

/-! ### C14 -/

private theorem fclip_drela (lam : ℝ) : (drela : Fits (Flt ℝ)).checkRange (.fin lam) = .fin ((drela : Fits ℝ).checkRange lam) := by
  simp only [checkRange, drela, Flt.lit_fin, Flt.fin_lt, real_lt, real_lit, decide_eq_true_eq]
  split_ifs <;> rfl
private theorem fclip_white (lam : ℝ) : (Fits.white : Fits (Flt ℝ)).checkRange (.fin lam) = .fin ((Fits.white : Fits ℝ).checkRange lam) := by
  simp only [checkRange, Fits.white, Flt.lit_fin, Flt.fin_lt, real_lt, real_lit, decide_eq_true_eq]
  split_ifs <;> rfl
private theorem fclip_cb (lam : ℝ) : (cebeciBradshaw : Fits (Flt ℝ)).checkRange (.fin lam) =
    .fin ((cebeciBradshaw : Fits ℝ).checkRange lam) := by
  simp only [checkRange, cebeciBradshaw, Flt.lit_fin, Flt.fin_lt, PyCmp.gt, real_lt, real_lit, decide_eq_true_eq]
  split_ifs <;> rfl

/-- **C14**, Drela: for every finite lambda shape, shear and derivative are finite and equal their real values. -/
theorem drela_regular (lam : ℝ) :
    (drela : Fits (Flt ℝ)).shapeAt (.fin lam) = .fin ((drela : Fits ℝ).shapeAt lam) ∧
    (drela : Fits (Flt ℝ)).shearAt (.fin lam) = .fin ((drela : Fits ℝ).shearAt lam) ∧
    (drela : Fits (Flt ℝ)).shapePAt (.fin lam) = .fin ((drela : Fits ℝ).shapePAt lam) := by
  have hc := fclip_drela lam
  have hr := drela_clip lam
  have h2 : -9/100 ≤ max lam (-9/100) := le_max_right _ _
  simp only [shapeAt, shearAt]
  rw [hc, hr]
  show (drela : Fits (Flt ℝ)).shape _ = _ ∧ (drela : Fits (Flt ℝ)).shear _ = _ ∧
    (match (drela : Fits (Flt ℝ)).shapeP with
      | .fn f => f ((drela : Fits (Flt ℝ)).checkRange (.fin lam)) | .fdOfShape => lit 0) = .fin
      (match (drela : Fits ℝ).shapeP with
      | .fn f => f ((drela : Fits ℝ).checkRange lam) | .fdOfShape => 0)
  rw [hc, hr]
  generalize max lam (-9/100) = t at h2
  have hne : t + ((18/100 : ℚ) : ℝ) ≠ 0 := by push_cast; linarith
  have hne2 := mul_ne_zero hne hne
  have hne3 := mul_ne_zero hne2 hne
  simp [drela, Flt.lit_fin, Flt.fin_div _ _ hne2, Flt.fin_div _ _ hne3, real_lit, -Rat.cast_div, -Rat.cast_ofNat]

/-- **C14**, Cebeci-Bradshaw. -/
theorem cb_regular (lam : ℝ) :
    (cebeciBradshaw : Fits (Flt ℝ)).shapeAt (.fin lam) = .fin ((cebeciBradshaw : Fits ℝ).shapeAt lam) ∧
    (cebeciBradshaw : Fits (Flt ℝ)).shearAt (.fin lam) = .fin ((cebeciBradshaw : Fits ℝ).shearAt lam) ∧
    (cebeciBradshaw : Fits (Flt ℝ)).shapePAt (.fin lam) = .fin ((cebeciBradshaw : Fits ℝ).shapePAt lam) := by
  have hc := fclip_cb lam
  have hr := cb_clip lam
  have h2 : -1/10 ≤ min (max lam (-1/10)) (1/10 : ℝ) := le_min (le_max_right _ _) (by norm_num)
  simp only [shapeAt, shearAt]
  rw [hc, hr]
  show (cebeciBradshaw : Fits (Flt ℝ)).shape _ = _ ∧ (cebeciBradshaw : Fits (Flt ℝ)).shear _ = _ ∧
    (match (cebeciBradshaw : Fits (Flt ℝ)).shapeP with
      | .fn f => f ((cebeciBradshaw : Fits (Flt ℝ)).checkRange (.fin lam)) | .fdOfShape => lit 0) = .fin
      (match (cebeciBradshaw : Fits ℝ).shapeP with
      | .fn f => f ((cebeciBradshaw : Fits ℝ).checkRange lam) | .fdOfShape => 0)
  rw [hc, hr]
  generalize min (max lam (-1/10)) (1/10 : ℝ) = t at h2
  have hne : ((14/100 : ℚ) : ℝ) + t ≠ 0 := by push_cast; linarith
  have hne2 := mul_ne_zero hne hne
  have hne3 : ((107/1000 : ℚ) : ℝ) + t ≠ 0 := by push_cast; linarith
  simp only [cebeciBradshaw, piecewise0, Flt.lit_fin, Flt.fin_lt, PyCmp.ge, Flt.fin_le, real_lt, real_le, real_lit,
    decide_eq_true_eq]
  refine ⟨?_, ?_, ?_⟩ <;> split_ifs <;>
    simp only [Flt.fin_add, Flt.fin_sub, Flt.fin_mul, Flt.fin_neg, Flt.fin_div _ _ hne, Flt.fin_div _ _ hne2, Flt.fin_div _ _ hne3]

/-- **C14**, White. -/
theorem white_regular (lam : ℝ) :
    (Fits.white : Fits (Flt ℝ)).shapeAt (.fin lam) = .fin ((Fits.white : Fits ℝ).shapeAt lam) ∧
    (Fits.white : Fits (Flt ℝ)).shearAt (.fin lam) = .fin ((Fits.white : Fits ℝ).shearAt lam) ∧
    (Fits.white : Fits (Flt ℝ)).shapePAt (.fin lam) = .fin ((Fits.white : Fits ℝ).shapePAt lam) := by
  have hc := fclip_white lam
  have hr := white_clip lam
  have h2 : -9/100 ≤ max lam (-9/100) := le_max_right _ _
  simp only [shapeAt, shearAt]
  rw [hc, hr]
  show (Fits.white : Fits (Flt ℝ)).shape _ = _ ∧ (Fits.white : Fits (Flt ℝ)).shear _ = _ ∧
    (match (Fits.white : Fits (Flt ℝ)).shapeP with
      | .fn f => f ((Fits.white : Fits (Flt ℝ)).checkRange (.fin lam)) | .fdOfShape => lit 0) = .fin
      (match (Fits.white : Fits ℝ).shapeP with
      | .fn f => f ((Fits.white : Fits ℝ).checkRange lam) | .fdOfShape => 0)
  rw [hc, hr]
  generalize max lam (-9/100) = t at h2
  have h0 : 0 ≤ t + ((9/100 : ℚ) : ℝ) := by push_cast; linarith
  have hb : (0:ℝ) < ((62/100 : ℚ) : ℝ) := by norm_num
  simp only [Fits.white, Flt.lit_fin, real_lit, Flt.fin_add, Flt.fin_sub, Flt.fin_mul, Flt.fin_neg, Flt.fin_pow _ _ h0 hb, real_pow,
    and_self]

/-! ### C15 -/

/-- **C15** for one fit: going down from 0, the shear is positive until some lambda in [-0.1, -0.08] and not positive from there. -/
def SignalsSeparation (m : Fits ℝ) : Prop :=
  ∃ ls, -1/10 ≤ ls ∧ ls ≤ -8/100 ∧ (∀ lam, ls < lam → lam ≤ 0 → 0 < m.shearAt lam) ∧ ∀ lam, lam ≤ ls → m.shearAt lam ≤ 0

/-- What the integrator sees: the value of the separation event is the shear at `lambda = F * du_e/dx`, for any Thwaites object. -/
theorem separation_event_value (o : Obj ℝ) (m : Fits ℝ) (x F d : ℝ) (hd : o.vel.duE x = .ok d) :
    o.eventValue (.sepThwaites m) x [F] = .ok (m.shearAt (F * d)) ∧ (Event.sepThwaites m).info.1 = .separated := by
  simp [Obj.eventValue, Obj.calcLambda, hd, bind, Except.bind, pure, Except.pure, Event.info]

/-- **C15**, White: the critical lambda is -0.09. -/
theorem white_signals : SignalsSeparation Fits.white := by
  refine ⟨-9/100, by norm_num, by norm_num, ?_, ?_⟩
  · intro lam h _
    rw [shearAt, white_clip, max_eq_left h.le]
    simp only [Fits.white, real_pow, real_lit]
    apply Real.rpow_pos_of_pos
    push_cast; linarith
  · intro lam h
    rw [shearAt, white_clip, max_eq_right h]
    simp only [Fits.white, real_pow, real_lit]
    norm_num

theorem cb_shear_neg (t : ℝ) (h : t < 0) : (cebeciBradshaw : Fits ℝ).shear t =
    238/1000 + 1402/1000 * t - 1926/1000000 / (107/1000 + t) ∨ t = -107/1000 := by
  by_cases ht : t = -107/1000
  · exact .inr ht
  · left
    have hne : (107/1000 : ℝ) + t ≠ 0 := fun h => ht (by linarith)
    simp only [cebeciBradshaw, piecewise0, real_lt, real_lit]
    rw [if_pos (by exact_mod_cast h)]
    push_cast
    have e : (18/1000 : ℝ) * t / (107/1000 + t) = 18/1000 - 1926/1000000 / (107/1000 + t) := by
      rw [eq_sub_iff_add_eq, ← add_div, div_eq_iff hne]; ring
    rw [e]
    ring

theorem cb_mono (s t : ℝ) (hs : -1/10 ≤ s) (hst : s < t) (ht : t < 0) :
    (cebeciBradshaw : Fits ℝ).shear s < (cebeciBradshaw : Fits ℝ).shear t := by
  rcases cb_shear_neg s (by linarith) with h1 | h1
  · rcases cb_shear_neg t ht with h2 | h2
    · rw [h1, h2]
      have : (1926/1000000 : ℝ) / (107/1000 + t) < 1926/1000000 / (107/1000 + s) := by
        apply div_lt_div_of_pos_left <;> linarith
      linarith
    · linarith
  · linarith

/-- **C15**, Cebeci-Bradshaw: there is a critical lambda, and it lies between -0.09 and -0.0895. -/
theorem cb_signals_at : ∃ ls, -9/100 ≤ ls ∧ ls ≤ -895/10000 ∧
    (∀ lam, ls < lam → lam ≤ 0 → 0 < (cebeciBradshaw : Fits ℝ).shearAt lam) ∧
    (∀ lam, lam ≤ ls → (cebeciBradshaw : Fits ℝ).shearAt lam ≤ 0) := by
  have hcont : ContinuousOn (cebeciBradshaw : Fits ℝ).shear (Set.Icc (-9/100) (-895/10000)) := by
    have : ContinuousOn (fun t : ℝ => 238/1000 + 1402/1000 * t - 1926/1000000 / (107/1000 + t)) (Set.Icc (-9/100) (-895/10000)) := by
      apply ContinuousOn.sub (by fun_prop)
      apply ContinuousOn.div (by fun_prop) (by fun_prop)
      intro t ht; have := ht.1; intro h0; linarith
    apply this.congr
    intro t ht
    rcases cb_shear_neg t (by linarith [ht.2]) with h | h
    · exact h
    · exfalso; have := ht.1; linarith
  have hlo : (cebeciBradshaw : Fits ℝ).shear (-9/100) ≤ 0 := by
    rcases cb_shear_neg (-9/100) (by norm_num) with h | h
    · rw [h]; norm_num
    · norm_num at h
  have hhi : 0 ≤ (cebeciBradshaw : Fits ℝ).shear (-895/10000) := by
    rcases cb_shear_neg (-895/10000) (by norm_num) with h | h
    · rw [h]; norm_num
    · norm_num at h
  obtain ⟨ls, hls, h0⟩ := intermediate_value_Icc (by norm_num) hcont ⟨hlo, hhi⟩
  refine ⟨ls, hls.1, hls.2, ?_, ?_⟩
  · intro lam h1 h2
    have := hls.1
    rw [shearAt, cb_clip, max_eq_left (by linarith), min_eq_left (by linarith)]
    rcases lt_or_eq_of_le h2 with h2 | h2
    · rw [← h0]; exact cb_mono ls lam (by linarith) h1 h2
    · rw [h2]; simp [cebeciBradshaw, piecewise0]
  · intro lam h1
    have h3 := hls.1
    have h4 := hls.2
    rw [shearAt, cb_clip, min_eq_left (max_le (by linarith) (by norm_num))]
    rw [← h0]
    rcases lt_or_eq_of_le (max_le h1 (by linarith) : max lam (-1/10) ≤ ls) with h | h
    · exact (cb_mono _ ls (le_max_right _ _) h (by linarith)).le
    · rw [h]

theorem cb_signals : SignalsSeparation cebeciBradshaw := by
  obtain ⟨ls, h1, h2, h3, h4⟩ := cb_signals_at
  exact ⟨ls, by linarith, by linarith, h3, h4⟩

/-- Drela's fit never gets to zero wall shear in a decelerating flow, however adverse the pressure gradient. -/
theorem drela_shear_pos (lam : ℝ) (h : lam ≤ 0) : 14/1000 < (drela : Fits ℝ).shearAt lam := by
  rw [shearAt, drela_clip]
  have h1 : max lam (-9/100) ≤ 0 := max_le h (by norm_num)
  have h2 : -9/100 ≤ max lam (-9/100) := le_max_right _ _
  generalize max lam (-9/100) = t at h1 h2
  simp only [drela, real_lit]
  push_cast
  have hp : 0 < (t + 18/100) * (t + 18/100) := by apply mul_pos <;> linarith
  have : 72/1000 * (t * t) / ((t + 18/100) * (t + 18/100)) ≤ 22/100 + 152/100 * t - 5 * (t * t * t) - 1484/100000 := by
    rw [div_le_iff₀ hp]
    have ha : 0 ≤ -t := by linarith
    have hb : 0 ≤ t + 9/100 := by linarith
    nlinarith [mul_nonneg ha hb, mul_nonneg (mul_nonneg ha hb) ha, mul_nonneg (mul_nonneg ha hb) hb,
      mul_nonneg (mul_nonneg (mul_nonneg ha ha) hb) hb, mul_nonneg (mul_nonneg (mul_nonneg ha ha) ha) hb,
      mul_nonneg (mul_nonneg (mul_nonneg ha hb) hb) hb, mul_nonneg (mul_nonneg (mul_nonneg (mul_nonneg ha ha) ha) hb) hb,
      mul_nonneg (mul_nonneg (mul_nonneg (mul_nonneg ha ha) ha) ha) hb]
  linarith

/-- **C15** is false for the Drela fit. -/
theorem drela_never_signals : ¬ SignalsSeparation drela := by
  rintro ⟨ls, h1, h2, h3, h4⟩
  have := h4 ls (le_refl _)
  have := drela_shear_pos ls (by linarith)
  linarith

/-- The consequence for a user: with the Drela fits the separation event of any Thwaites object is positive at every station with
`du_e/dx <= 0` and every positive state, so the integration of a decelerating flow cannot end as SEPARATED. -/
theorem drela_event_positive (o : Obj ℝ) (x F d : ℝ) (hd : o.vel.duE x = .ok d) (hF : 0 ≤ F) (hdec : d ≤ 0) :
    ∃ v, o.eventValue (.sepThwaites drela) x [F] = .ok v ∧ 14/1000 < v :=
  ⟨_, (separation_event_value o drela x F d hd).1, drela_shear_pos _ (mul_nonpos_of_nonneg_of_nonpos hF hdec)⟩

/-- For White a station is flagged exactly when `lambda <= -0.09`. -/
theorem white_event_iff (o : Obj ℝ) (x F d : ℝ) (hd : o.vel.duE x = .ok d) :
    ∃ v, o.eventValue (.sepThwaites Fits.white) x [F] = .ok v ∧ (v ≤ 0 ↔ F * d ≤ -9/100) := by
  refine ⟨_, (separation_event_value o Fits.white x F d hd).1, ?_⟩
  rw [shearAt, white_clip]
  constructor
  · intro h
    by_contra hc
    rw [max_eq_left (not_le.1 hc).le] at h
    simp only [Fits.white, real_pow, real_lit] at h
    have : (0:ℝ) < (F * d + ((9/100 : ℚ) : ℝ)) ^ ((62/100 : ℚ) : ℝ) := by
      apply Real.rpow_pos_of_pos; push_cast; linarith [not_le.1 hc]
    linarith
  · intro h
    rw [max_eq_right h]
    simp only [Fits.white, real_pow, real_lit]
    norm_num

end IBL
