import Verif.Props.TableFlow
import Verif.Props.HeadGlobal

/-! A Head object created from a table of velocities and given initial values. Used for C111. -/

namespace IBL
open PPoly
section real
variable [PySpecial ℝ]

/-- The object on which `__init__` calls `set_velocity`. -/
private noncomputable def started (nu : ℝ) : Obj ℝ := ⟨.head, nu, VelState.empty, .stag 0 nu, [], none, none⟩

private theorem mkHead_table (ext : Ext ℝ) {nu : ℝ} (hnu : 0 < nu) (pts : List (ℝ × ℝ)) (crit : ℝ) :
    Obj.mkHead ext nu (tableArg pts) .none .none crit =
      match (started nu).setVelocity ext (tableArg pts) .none .none with
      | (_, .error e) => .error e
      | (o, .ok ()) => .ok { o with ic := .manual 0 (1/100000) PySpecial.inf PySpecial.inf 0, events := [.sepHead crit] } := by
  have h : PyCmp.le nu (lit 0) = false := by rw [Bool.eq_false_iff]; simpa using hnu
  have h0 : (lit 0 : ℝ) = 0 := by simp
  have h1 : (lit (1/100000) : ℝ) = 1/100000 := by simp
  simp only [Obj.mkHead, Obj.mkBase, IC.mkStag, h, tableArg, started, IC.mkManual, Bool.false_eq_true, if_false]
  simp only [h0, h1]
  rcases Obj.setVelocity ext ⟨.head, nu, VelState.empty, .stag 0 nu, [], none, none⟩ (.pair (vector (pts.map Prod.fst)) (vector (pts.map Prod.snd))) .none .none with ⟨o, e | u⟩
  · rfl
  · rfl

/-- From a table to the start of the integration and a solution up to a given shape factor or the end. -/
theorem head_from_table (ext : Ext ℝ) (other : Pchip ℝ) (hext : ext.pchip = Pchip.interpolator other) {pts : List (ℝ × ℝ)} (T : Table pts)
    {nu m0 h0 : ℝ} (hnu : 0 < nu) (hm : 0 < m0) (hs : 0 < h0) (crit : ℝ) :
    ∃ o o1 o2 : Obj ℝ, ∃ u du d2u : ℝ → ℝ, Obj.mkHead ext nu (tableArg pts) .none .none crit = .ok o ∧
      o.setInitialDeltaM m0 = (o1, .ok ()) ∧ o1.setInitialShapeD h0 = (o2, .ok ()) ∧ MonotoneThrough pts u du d2u ∧
      (∀ x, o2.vel.uE x = .ok (u x) ∧ o2.vel.duE x = .ok (du x)) ∧
      ∀ x0 xe, x0 < xe → (∃ p, (o2.prepare x0 xe .none).2 = .ok p ∧ p.x0 = x0 ∧ p.x1 = xe ∧ p.y0 = [m0, h0] ∧ p.events = [.sepHead crit]) ∧
        ∀ H, h0 < H → ∃ x1, x0 < x1 ∧ x1 ≤ xe ∧ ∃ dm h : ℝ → ℝ, dm x0 = m0 ∧ h x0 = h0 ∧
          HeadSolutionOn { o2 with sol := some fun t => [dm t, h t] } u du dm h x0 x1 ∧ (∀ x ∈ Set.Icc x0 x1, 0 < dm x) ∧
          (∀ x ∈ Set.Ico x0 x1, h x < H) ∧ (x1 = xe ∨ h x1 = H) := by
  obtain ⟨ob, u, du, d2u, e, hob, hq, M⟩ := table_velocity ext other hext (started nu) pts T .none .none
  have hmk := mkHead_table ext hnu pts crit
  rw [e] at hmk
  have hcls : ob.cls = .head := by rw [hob]; rfl
  have hnu' : ob.nu = nu := by rw [hob]; rfl
  have le0 : ∀ {v : ℝ}, 0 < v → PyCmp.le v (lit 0) = false := fun {v} h => by rw [Bool.eq_false_iff]; simpa using h
  have hmne : m0 ≠ 0 := hm.ne'
  refine ⟨_, { ob with ic := .manual 0 (1/100000) PySpecial.inf m0 0, events := [.sepHead crit] },
    { ob with ic := .manual 0 (1/100000) (h0 * m0) m0 0, events := [.sepHead crit] }, u, du, d2u, hmk, ?_, ?_, M, fun x => ⟨(hq x).1, (hq x).2.1⟩,
    fun x0 xe hx => ⟨?_, ?_⟩⟩
  · simp only [Obj.setInitialDeltaM, le0 hm, Bool.false_eq_true, if_false, IC.assignDelM]
  · simp only [Obj.setInitialShapeD, le0 hs, Bool.false_eq_true, if_false, IC.deltaM, IC.assignDelD]
  · have hnle : PyCmp.le ob.nu (lit 0) = false := by rw [hnu']; exact le0 hnu
    have hz : PyCmp.eq m0 (lit 0) = false := by rw [Bool.eq_false_iff]; simpa using hmne
    simp only [Obj.prepare, IC.setNu, hnle, Bool.false_eq_true, if_false, (hq x0).2.1, IC.setDu, Obj.startVector, hcls, IC.deltaM, IC.shapeD, pyDiv, hz,
      bind, Except.bind, pure, Except.pure]
    refine ⟨_, rfl, rfl, rfl, ?_, ?_⟩
    · simp [hmne]
    · simp [TermArg.toList]
  · intro H hH
    obtain ⟨x1, hx1, dm, h, e1, e2, S, hp, hb, hend⟩ := head_until_separation { ob with ic := .manual 0 (1/100000) (h0 * m0) m0 0, events := [.sepHead crit] }
      u du x0 xe m0 h0 H hcls (by show 0 < ob.nu; rw [hnu']; exact hnu) (fun t => (hq t).1) (fun t => (hq t).2.1)
      (fun x _ => M.slope x) M.slopeCont.continuousOn hx hm hH
    exact ⟨x1, hx1.1, hx1.2, dm, h, e1, e2, S, hp, hb, hend⟩

end real
end IBL
