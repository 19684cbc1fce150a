import Verif.Lemmas.HeadTable
import Verif.Props.XFoilTable

/-! C111: from an XFoil dump to Head's and Thwaites' methods started with the dumped values, as in examples/xfoil/xfoil_turbulent_comparison.py 57-68
and xfoil_laminar_comparison.py 59-64. -/

set_option linter.unusedSectionVars false

namespace IBL.XFoil
open PPoly
section real
variable [PySpecial ℝ]

/-- The first entry of an array. -/
def FirstOf (r : Reader ℝ) (q : Quantity) (sf : Surface) (v : ℝ) : Prop := ∃ l, r.array q sf = some (v :: l)

private theorem first_upper {r : Reader ℝ} {p : Pt ℝ} {l : List (Pt ℝ)} {f : ℝ → ℝ} (v : ℝ) (h : r.upperPts = (p :: l).map (Pt.at f)) :
    FirstOf { r with uRef := v } .deltaM .upper p.deltaM ∧ FirstOf { r with uRef := v } .shapeD .upper p.shapeD := by
  have e : ({ r with uRef := v } : Reader ℝ).upperPts = _ := h
  constructor <;>
  · simp only [FirstOf, Reader.array, Reader.surface, gather_eq, e, List.map_cons]
    exact ⟨_, rfl⟩

private theorem first_lower {r : Reader ℝ} {p : Pt ℝ} {l : List (Pt ℝ)} {f : ℝ → ℝ} (v : ℝ) (h : r.lowerPts = (p :: l).map (Pt.at f)) :
    FirstOf { r with uRef := v } .deltaM .lower p.deltaM ∧ FirstOf { r with uRef := v } .shapeD .lower p.shapeD := by
  have e : ({ r with uRef := v } : Reader ℝ).lowerPts = _ := h
  constructor <;>
  · simp only [FirstOf, Reader.array, Reader.surface, gather_eq, e, List.map_cons]
    exact ⟨_, rfl⟩

/-- **C111**, the values: of a clean dump with a layer (momentum thickness not zero) next to the stagnation point the arrays of either surface start
with the thickness and the shape factor at the fraction of the way between the two rows at which the velocity is zero. Both are positive. -/
theorem dump_start_values (hinf : InfAdm ℝ) (fl : Floats ℝ) (fs : Files) (name content : Text) (us ls : List (Pt ℝ)) (a b : Pt ℝ) (hn : name ≠ [])
    (hc : fs name = .ok content) (C : CleanDump fl content us ls a b) (hlayer : a.deltaM ≠ 0 ∨ b.deltaM ≠ 0) (v : ℝ) (hv : 0 < v) :
    ∃ r r' : Reader ℝ, Reader.load fl fs name = (r, .ok ()) ∧ r.step fl (.setURef v) = (r', .ok ()) ∧
      ∃ m h : ℝ, 0 < m ∧ 0 < h ∧ (a.u - b.u) * m = a.u * b.deltaM - b.u * a.deltaM ∧ (a.u - b.u) * h = a.u * b.shapeD - b.u * a.shapeD ∧
        ∀ sf, sf ≠ .wake → FirstOf r' .deltaM sf m ∧ FirstOf r' .shapeD sf h ∧ FirstOf r' .s sf 0 ∧
          SurfaceTable r' sf ((0, 0) :: passed v us ls a b sf) ∧ Table ((0, 0) :: passed v us ls a b sf) := by
  obtain ⟨r, r', hr, hset, ht⟩ := clean_tables hinf fl fs name content us ls a b hn hc C v hv
  obtain ⟨p, B, hp0, hps, hap, hpb, hup, hlo⟩ := clean_surfaces hn hc C hr
  have ha0 : 0 < a.u := C.before a (by simp)
  have hb0 : b.u < 0 := C.after b (by simp)
  have hd : 0 < a.u - b.u := by linarith
  obtain ⟨air, wk, ws, hs, hrows, -, -⟩ := C.rows
  have adm : ∀ q ∈ us ++ a :: b :: ls, 0 ≤ q.deltaM ∧ 0 < q.shapeD := fun q hq => by
    obtain ⟨row, _, h⟩ := rows_mem hrows hq
    have A := Pt.mk'_adm hinf fl row q h
    have h1 := A.deltaM
    have h2 := A.shapeD
    rw [Bool.eq_false_iff] at h1 h2
    exact ⟨by simpa using h1, by simpa using h2⟩
  obtain ⟨am, ah⟩ := adm a (by simp)
  obtain ⟨bm, bh⟩ := adm b (by simp)
  have em : (a.u - b.u) * p.deltaM = a.u * b.deltaM - b.u * a.deltaM := by rw [B.deltaM]; field_simp; ring
  have eh : (a.u - b.u) * p.shapeD = a.u * b.shapeD - b.u * a.shapeD := by rw [B.shapeD]; field_simp; ring
  have hr' : r' = { r with uRef := v } := by
    have : r.step fl (.setURef v) = ({ r with uRef := v }, .ok ()) := by simp [Reader.step, hv]
    rw [this] at hset
    exact (Prod.mk.inj hset).1.symm
  refine ⟨r, r', hr, hset, p.deltaM, p.shapeD, ?_, ?_, em, eh, fun sf hsf => ?_⟩
  · refine pos_of_mul_pos_right (a := a.u - b.u) ?_ hd.le
    rw [em]
    rcases hlayer with h | h
    · have : 0 < a.deltaM := lt_of_le_of_ne am (Ne.symm h)
      nlinarith [mul_nonneg ha0.le bm, mul_pos (neg_pos.2 hb0) this]
    · have : 0 < b.deltaM := lt_of_le_of_ne bm (Ne.symm h)
      nlinarith [mul_pos ha0 this, mul_nonneg (neg_pos.2 hb0).le am]
  · refine pos_of_mul_pos_right (a := a.u - b.u) ?_ hd.le
    rw [eh]
    nlinarith [mul_pos ha0 bh, mul_pos (neg_pos.2 hb0) ah]
  · obtain ⟨S, T, -⟩ := ht sf hsf
    have key : FirstOf r' .deltaM sf p.deltaM ∧ FirstOf r' .shapeD sf p.shapeD := by
      rw [hr']
      cases sf with
      | wake => exact absurd rfl hsf
      | upper => exact first_upper v hup
      | lower => exact first_lower v hlo
    exact ⟨key.1, key.2, ⟨_, S.1⟩, S, T⟩

/-- **C111**: the program of the example. A clean dump with a layer next to the stagnation point is read; for any positive viscosity the Head
object is created from the arrays `s` and `u_e` of either surface; the first entries of the arrays `delta_m` and `shape_d` are accepted as initial
values; the integration from the first to any later location starts from them; and the equation has a solution from there to that location or
to the place where the shape factor reaches a given level, such as the critical one. -/
theorem dump_to_head (hinf : InfAdm ℝ) (fl : Floats ℝ) (fs : Files) (name content : Text) (us ls : List (Pt ℝ)) (a b : Pt ℝ) (hn : name ≠ [])
    (hc : fs name = .ok content) (C : CleanDump fl content us ls a b) (hlayer : a.deltaM ≠ 0 ∨ b.deltaM ≠ 0) (v : ℝ) (hv : 0 < v) (ext : Ext ℝ)
    (other : Pchip ℝ) (hext : ext.pchip = Pchip.interpolator other) (nu : ℝ) (hnu : 0 < nu) (crit : ℝ) :
    ∃ r r' : Reader ℝ, Reader.load fl fs name = (r, .ok ()) ∧ r.step fl (.setURef v) = (r', .ok ()) ∧
      ∀ sf, sf ≠ .wake → ∃ (S U : List ℝ) (m h : ℝ), r'.array .s sf = some S ∧ r'.array .uE sf = some U ∧ FirstOf r' .s sf 0 ∧
        FirstOf r' .deltaM sf m ∧ FirstOf r' .shapeD sf h ∧
        ∃ o o1 o2 : Obj ℝ, Obj.mkHead ext nu (.pair (vector S) (vector U)) .none .none crit = .ok o ∧
          o.setInitialDeltaM m = (o1, .ok ()) ∧ o1.setInitialShapeD h = (o2, .ok ()) ∧
          o2.vel.uE 0 = .ok 0 ∧ (∀ q ∈ passed v us ls a b sf, o2.vel.uE q.1 = .ok q.2) ∧
          ∀ xe, 0 < xe → (∃ p, (o2.prepare 0 xe .none).2 = .ok p ∧ p.x0 = 0 ∧ p.x1 = xe ∧ p.y0 = [m, h] ∧ p.events = [.sepHead crit]) ∧
            ∃ u du : ℝ → ℝ, (∀ x, o2.vel.uE x = .ok (u x) ∧ o2.vel.duE x = .ok (du x)) ∧
              ∀ H, h < H → ∃ x1, 0 < x1 ∧ x1 ≤ xe ∧ ∃ dm hd : ℝ → ℝ, dm 0 = m ∧ hd 0 = h ∧
                HeadSolutionOn { o2 with sol := some fun t => [dm t, hd t] } u du dm hd 0 x1 ∧ (∀ x ∈ Set.Icc 0 x1, 0 < dm x) ∧
                (∀ x ∈ Set.Ico 0 x1, hd x < H) ∧ (x1 = xe ∨ hd x1 = H) := by
  obtain ⟨r, r', hr, hset, m, h, hm, hh, -, -, k⟩ := dump_start_values hinf fl fs name content us ls a b hn hc C hlayer v hv
  refine ⟨r, r', hr, hset, fun sf hsf => ?_⟩
  obtain ⟨k1, k2, k3, k4, T⟩ := k sf hsf
  obtain ⟨o, o1, o2, u, du, d2u, e, e1, e2, M, hq, hsolve⟩ := head_from_table ext other hext T hnu hm hh crit
  refine ⟨_, _, m, h, k4.1, k4.2, k3, k1, k2, o, o1, o2, e, e1, e2, ?_, fun q hq' => ?_, fun xe hxe => ?_⟩
  · rw [(hq 0).1, M.through (0, 0) (by simp)]
  · rw [(hq q.1).1, M.through q (by simp [hq'])]
  · obtain ⟨hp, hs⟩ := hsolve 0 xe hxe
    exact ⟨hp, u, du, hq, hs⟩

/-- A dump to which this applies. -/
example (hinf : InfAdm ℝ) : CleanDump exFloat (exRowS "0" "1" ++ exRowS "1" "-1") [] [] (exPtS 0 1) (exPtS 1 (-1)) ∧ (exPtS 0 1).deltaM ≠ 0 :=
  ⟨exClean hinf, by simp [exPtS]⟩

end real
end IBL.XFoil
