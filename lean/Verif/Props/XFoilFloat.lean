import Verif.Props.XFoilObject
import Verif.Props.XFoilRounded
import Verif.Props.ViscosityFloat

/-!
C153: the reference velocity of an XFoil dump in rounded arithmetic.
-/

set_option linter.unusedSectionVars false

namespace IBL.XFoil

open Rounding

variable {R : Rounding} [PySpecial R.F]

/-! ### Specification -/

/-- The relative edge velocities that the reader holds for a part of the flow. -/
def Reader.relative (r : Reader R.F) : Surface → List R.F
  | .upper => r.upperPts.map Pt.u
  | .lower => r.lowerPts.map Pt.u
  | .wake => r.wake.map Wake.u

/-- The list has one number for each of the relative velocities: their product with the reference velocity up to one rounding error, of the same sign,
and in the same order of size. -/
structure Velocities (uRef : R.F) (rel l : List R.F) : Prop where
  length : l.length = rel.length
  close : ∀ (i : ℕ) (v u : R.F), l[i]? = some v → rel[i]? = some u → |v.val - uRef.val * u.val| ≤ R.eps * |uRef.val * u.val|
  sign : ∀ (i : ℕ) (v u : R.F), l[i]? = some v → rel[i]? = some u → (0 < v.val ↔ 0 < u.val) ∧ (v.val < 0 ↔ u.val < 0)
  order : ∀ (i j : ℕ) (v w u t : R.F), l[i]? = some v → l[j]? = some w → rel[i]? = some u → rel[j]? = some t → u.val ≤ t.val → v.val ≤ w.val

/-! ### Proofs -/

private theorem velocity_array (r : Reader R.F) (s : Surface) : r.array .uE s = some ((r.relative s).map (r.uRef * ·)) := by
  cases s <;> simp [Reader.array, Reader.surface, gather_eq, Reader.relative, Reader.upperPts, Reader.lowerPts, Function.comp_def]

private theorem velocities_map (v : R.F) (hv : 0 < v.val) (rel : List R.F) : Velocities v rel (rel.map (v * ·)) := by
  have key : ∀ (i : ℕ) (w u : R.F), (rel.map (v * ·))[i]? = some w → rel[i]? = some u → w.val = R.rd (v.val * u.val) := by
    intro i w u hw hu
    rw [List.getElem?_map, hu] at hw
    simp only [Option.map_some, Option.some.injEq] at hw
    rw [← hw]; rfl
  refine ⟨by simp, fun i w u hw hu => ?_, fun i w u hw hu => ?_, fun i j w y u t hw hy hu ht h => ?_⟩
  · rw [key i w u hw hu]; exact R.rel _
  · rw [key i w u hw hu]
    exact ⟨by rw [rd_pos_iff, mul_pos_iff_of_pos_left hv], by rw [rd_neg_iff]; exact ⟨fun h => by by_contra hc; exact absurd (mul_nonneg hv.le (not_lt.mp hc)) (not_le.mpr h), mul_neg_of_pos_of_neg hv⟩⟩
  · rw [key i w u hw hu, key j y t hy ht]
    exact R.mono (mul_le_mul_of_nonneg_left h hv.le)

/-- **C153**: for any reader and any positive reference velocity the edge velocities of the three parts are the products with the relative velocities up to
one rounding, of the same sign and in the same order. -/
theorem rounded_edge_velocity (fl : Floats R.F) (r : Reader R.F) (v : R.F) (hv : 0 < v.val) :
    ∃ r', r.step fl (.setURef v) = (r', .ok ()) ∧ ∀ s, ∃ l, r'.array .uE s = some l ∧ Velocities v (r.relative s) l := by
  have h : PyCmp.le v (lit 0) = false := by rw [F_le_false, val_zero]; exact hv
  refine ⟨{ r with uRef := v }, by simp [Reader.step, h], fun s => ⟨_, velocity_array _ s, ?_⟩⟩
  have e : Reader.relative { r with uRef := v } s = r.relative s := by cases s <;> rfl
  rw [e]; exact velocities_map v hv _

/-- **C153**: a dump just read has reference velocity one, and its edge velocities are the relative velocities to the last digit. -/
theorem unit_edge_velocity (hinf : InfAdm R.F) (fl : Floats R.F) (fs : Files) (name : Text) (r : Reader R.F) (hr : Reader.load fl fs name = (r, .ok ()))
    (s : Surface) : r.array .uE s = some (r.relative s) := by
  have h : r.uRef = lit 1 := by
    have := (load_plain hinf fl fs name).uRef
    rwa [hr] at this
  rw [velocity_array, h]
  congr 1
  conv_rhs => rw [← List.map_id (r.relative s)]
  refine List.map_congr_left fun u _ => Rounding.F.ext ?_
  show R.rd ((lit 1 : R.F).val * u.val) = u.val
  rw [val_one, one_mul, u.rep]

/-- **C153**: a reference velocity and `2 ^ n` times it are accepted together, or rejected together without change; if accepted, the edge velocities are
exactly `2 ^ n` times as large and every other array is the same. -/
theorem binary_reference_velocity (fl : Floats R.F) (r : Reader R.F) (v : R.F) (n : ℤ) :
    ∃ r1 r2 res, r.step fl (.setURef v) = (r1, res) ∧ r.step fl (.setURef (times n v)) = (r2, res) ∧ (res = .ok () ↔ 0 < v.val) ∧
      (res ≠ .ok () → r1 = r ∧ r2 = r) ∧
      (res = .ok () → (∀ s l, r1.array .uE s = some l → r2.array .uE s = some (l.map (times n))) ∧
        ∀ q s, q ≠ .uE → r2.array q s = r1.array q s) := by
  have hp : (0:ℝ) < 2 ^ n := zpow_pos two_pos n
  have hn : PyCmp.le (times n v) (lit 0) = PyCmp.le v (lit 0) := by
    rw [Bool.eq_iff_iff, F_le, F_le, val_zero]
    show 2 ^ n * v.val ≤ 0 ↔ v.val ≤ 0
    rw [mul_nonpos_iff_pos_imp_nonpos]
    exact ⟨fun h => h.1 hp, fun h => ⟨fun _ => h, fun _ => hp.le⟩⟩
  cases h : PyCmp.le v (lit 0) with
  | true =>
    rw [h] at hn
    have hv := h
    rw [F_le, val_zero] at hv
    refine ⟨r, r, .error .valueError, by simp [Reader.step, h], by simp [Reader.step, hn], ?_, fun _ => ⟨rfl, rfl⟩, fun h => by cases h⟩
    exact ⟨fun h => (by cases h), fun h => absurd h (not_lt.mpr hv)⟩
  | false =>
    rw [h] at hn
    have hv := F_le_false.mp h
    rw [val_zero] at hv
    refine ⟨{ r with uRef := v }, { r with uRef := times n v }, .ok (), by simp [Reader.step, h], by simp [Reader.step, hn], ⟨fun _ => hv, fun _ => rfl⟩,
      fun h => absurd rfl h, fun _ => ⟨fun s l hl => ?_, fun q s hq => ?_⟩⟩
    · rw [velocity_array] at hl
      cases hl
      rw [velocity_array, List.map_map]
      have e : Reader.relative { r with uRef := times n v } s = Reader.relative { r with uRef := v } s := by cases s <;> rfl
      rw [e]
      congr 1
      refine List.map_congr_left fun u _ => Rounding.F.ext ?_
      show R.rd (2 ^ n * v.val * u.val) = 2 ^ n * R.rd (v.val * u.val)
      rw [mul_assoc, rd_zpow]
    · cases s <;> cases q <;> first | rfl | exact absurd rfl hq

/-- **C153**: `delta_k` is the product of `shape_k` and `delta_m` up to one rounding. -/
theorem rounded_delta_k (r : Reader R.F) :
    (∃ l, r.array .deltaK .upper = some l ∧ List.Forall₂ (fun (v : R.F) (p : Pt R.F) => |v.val - p.shapeK.val * p.deltaM.val| ≤
      R.eps * |p.shapeK.val * p.deltaM.val|) l r.upperPts) ∧
    (∃ l, r.array .deltaK .lower = some l ∧ List.Forall₂ (fun (v : R.F) (p : Pt R.F) => |v.val - p.shapeK.val * p.deltaM.val| ≤
      R.eps * |p.shapeK.val * p.deltaM.val|) l r.lowerPts) := by
  have key : ∀ pts : List (Pt R.F), List.Forall₂ (fun (v : R.F) (p : Pt R.F) => |v.val - p.shapeK.val * p.deltaM.val| ≤
      R.eps * |p.shapeK.val * p.deltaM.val|) (r.surface pts .deltaK) pts := by
    intro pts
    have e : r.surface pts .deltaK = pts.map fun p => p.shapeK * p.deltaM := by simp [Reader.surface, gather_eq]
    rw [e, List.forall₂_map_left_iff]
    exact List.forall₂_same.mpr fun p _ => R.rel _
  exact ⟨⟨_, rfl, key _⟩, ⟨_, rfl, key _⟩⟩

/-- A dump that is read, so that none of the arrays of the surfaces is empty. -/
theorem edge_velocity_case (hinf : InfAdm R.F) :
    ∃ (fl : Floats R.F) (fs : Files) (r : Reader R.F), Reader.load fl fs ['a'] = (r, .ok ()) ∧ r.relative .upper ≠ [] ∧ r.relative .lower ≠ [] ∧
      0 < (lit 1 : R.F).val := by
  obtain ⟨r, hr⟩ := wellformed_rounded_example (R := R) hinf
  obtain ⟨⟨p, hp, -⟩, ⟨q, hq, -⟩, -⟩ := arc_length_rounded _ _ _ (by simp) r hr
  refine ⟨_, _, r, hr, ?_, ?_, by rw [val_one]; norm_num⟩
  · intro h; rw [Reader.relative, List.map_eq_nil_iff] at h; rw [h] at hp; cases hp
  · intro h; rw [Reader.relative, List.map_eq_nil_iff] at h; rw [h] at hq; cases hq

end IBL.XFoil
