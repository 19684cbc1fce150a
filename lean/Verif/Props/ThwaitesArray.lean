import Verif.Model.ThwaitesArray
import Verif.Props.Fits
import Verif.Props.Method
import Verif.Props.Config

/-!
C94: the quantities of a Thwaites solution on an array of points and one point at a time.
-/

set_option linter.unusedSectionVars false

namespace IBL
open Fits
variable {α : Type}

/-- The query `qa` on the array `xs` returns `vs` exactly if the query `q` returns the elements of `vs` one by one; in particular one raises
exactly if the other does. -/
def Agrees (q : α → Except Exc α) (qa : List α → Except Exc (List α)) (xs : List α) : Prop :=
  ∀ vs, qa xs = .ok vs ↔ List.Forall₂ (fun x v => q x = .ok v) xs vs

section lists
variable {β : Type}

private theorem zipWith_maps {γ δ ε : Type} (f : γ → δ → ε) (a : β → γ) (b : β → δ) (xs : List β) :
    List.zipWith f (xs.map a) (xs.map b) = xs.map fun x => f (a x) (b x) := by
  induction xs with
  | nil => rfl
  | cons x xs ih => simp only [List.map_cons, List.zipWith_cons_cons, ih]

private theorem zip_maps {γ δ : Type} (a : β → γ) (b : β → δ) (xs : List β) :
    List.zip (xs.map a) (xs.map b) = xs.map fun x => (a x, b x) := by
  induction xs with
  | nil => rfl
  | cons x xs ih => simp only [List.map_cons, List.zip_cons_cons, ih]

private theorem mapM_cases (q : α → Except Exc α) (xs : List α) :
    (∃ e, xs.mapM q = .error e ∧ ∃ x ∈ xs, q x = .error e) ∨ ∃ g : α → α, xs.mapM q = .ok (xs.map g) ∧ ∀ x ∈ xs, q x = .ok (g x) := by
  by_cases h : ∀ x ∈ xs, ∃ v, q x = .ok v
  · right
    refine ⟨fun x => match q x with | .ok v => v | .error _ => x, ?_, ?_⟩
    · induction xs with
      | nil => rfl
      | cons x xs ih =>
        obtain ⟨v, hv⟩ := h x (by simp)
        rw [List.mapM_cons, hv, ih fun y hy => h y (by simp [hy])]
        simp only [List.map_cons, hv]; rfl
    · intro x hx
      obtain ⟨v, hv⟩ := h x hx
      simp only [hv]
  · left
    induction xs with
    | nil => simp at h
    | cons x xs ih =>
      rw [List.mapM_cons]
      rcases hq : q x with e | v
      · exact ⟨e, rfl, x, by simp, hq⟩
      · have : ¬ ∀ y ∈ xs, ∃ v, q y = .ok v := by
          intro h'; apply h; intro y hy
          rcases List.mem_cons.1 hy with rfl | hy
          · exact ⟨v, hq⟩
          · exact h' y hy
        obtain ⟨e, he, y, hy, hye⟩ := ih this
        exact ⟨e, by rw [he]; rfl, y, by simp [hy], hye⟩

private theorem agrees_ok {q : α → Except Exc α} {qa : List α → Except Exc (List α)} {xs : List α} (g : α → α)
    (h1 : qa xs = .ok (xs.map g)) (h2 : ∀ x ∈ xs, q x = .ok (g x)) : Agrees q qa xs := by
  intro vs
  rw [h1]
  have key : List.Forall₂ (fun x v => q x = .ok v) xs vs ↔ xs.map g = vs := by
    clear h1
    induction xs generalizing vs with
    | nil => simp [eq_comm]
    | cons x xs ih =>
      have hx := h2 x (by simp)
      cases vs with
      | nil => simp
      | cons v vs =>
        simp only [List.forall₂_cons, List.map_cons, List.cons.injEq, hx, Except.ok.injEq, ih (fun y hy => h2 y (by simp [hy]))]
  rw [key]
  simp

private theorem agrees_error {q : α → Except Exc α} {qa : List α → Except Exc (List α)} {xs : List α}
    (h1 : ∃ e, qa xs = .error e) (h2 : ∃ x ∈ xs, ∃ e, q x = .error e) : Agrees q qa xs := by
  obtain ⟨e, h1⟩ := h1
  obtain ⟨x, hx, e', h2⟩ := h2
  intro vs
  rw [h1]
  constructor
  · intro h; simp at h
  · intro h
    exfalso
    clear h1
    induction h with
    | nil => simp at hx
    | cons hxy _ ih =>
      rcases List.mem_cons.1 hx with rfl | hx
      · rw [h2] at hxy; simp at hxy
      · exact ih hx

end lists

variable [Add α] [Sub α] [Mul α] [Div α] [Neg α] [PyLit α] [PyCmp α] [PySqrt α] [PyPow α]

/-- The values of lambda at the points `xs` are not below the range of the fits at one point and above it at another. -/
def RangeOneSided (o : Obj α) (m : Fits α) (xs : List α) : Prop :=
  (∀ x ∈ xs, ∀ F d, o.comp 0 x = .ok F → o.vel.duE x = .ok d → ∀ l, m.lo = some l → PyCmp.lt (F * d) l = false) ∨
  ∀ x ∈ xs, ∀ F d, o.comp 0 x = .ok F → o.vel.duE x = .ok d → ∀ h, m.hi = some h → PyCmp.gt (F * d) h = false

/-- **C94**, as a user expects it: every quantity of a Thwaites solution on a non-empty array is what it is point by point. -/
def ArraysAgree (ext : Ext α) : Prop :=
  ∀ (o : Obj α) (m : Fits α) (rho : α) (xs : List α), o.cls.isThwaites → o.fits = some m → (∃ a, DocumentedFits ext a m) → xs ≠ [] →
    Agrees o.deltaM o.deltaMArr xs ∧ Agrees o.shapeD o.shapeDArr xs ∧ Agrees o.deltaD o.deltaDArr xs ∧ Agrees o.deltaK o.deltaKArr xs ∧
    Agrees o.shapeK o.shapeKArr xs ∧ Agrees (o.tauWThwaites · rho) (o.tauWArr · rho) xs ∧
    Agrees (o.dissipation · rho) (o.dissipationArr · rho) xs ∧ Agrees o.vE o.vEArr xs

private theorem solArr_eq (o : Obj α) {xs : List α} (hx : xs ≠ []) : o.solArr xs = xs.mapM (o.comp 0) := by
  cases xs with
  | nil => exact absurd rfl hx
  | cons x xs =>
    rcases h : o.sol with _ | s
    · simp only [Obj.solArr, h, List.mapM_cons, Obj.comp, Obj.state]; rfl
    · simp only [Obj.solArr, h]

private theorem uArr_eq (o : Obj α) {xs : List α} (hx : xs ≠ []) : o.uArr xs = xs.mapM o.vel.uE := by
  cases xs with
  | nil => exact absurd rfl hx
  | cons x xs =>
    rcases h : o.vel.u with _ | s
    · simp only [Obj.uArr, h, List.mapM_cons, VelState.uE, Option.isNone_none, if_true]; rfl
    · simp only [Obj.uArr, h]

private theorem duArr_eq (o : Obj α) {xs : List α} (hx : xs ≠ []) : o.duArr xs = xs.mapM o.vel.duE := by
  cases xs with
  | nil => exact absurd rfl hx
  | cons x xs =>
    rcases h : o.vel.du with _ | s
    · simp only [Obj.duArr, h, List.mapM_cons, VelState.duE, Option.isNone_none, if_true]; rfl
    · simp only [Obj.duArr, h]

private theorem d2uArr_eq (o : Obj α) {xs : List α} (hx : xs ≠ []) : o.d2uArr xs = xs.mapM o.vel.d2uE := by
  cases xs with
  | nil => exact absurd rfl hx
  | cons x xs =>
    rcases h : o.vel.d2u with _ | s
    · simp only [Obj.d2uArr, h, List.mapM_cons, VelState.d2uE, Option.isNone_none, if_true]; rfl
    · simp only [Obj.d2uArr, h]

/-- The remaining functions of the fits on arrays that do not exceed the range on both sides. -/
theorem fits_arrays_agree {ext : Ext α} {a : FitsArg α} {m : Fits α} (hm : DocumentedFits ext a m) (lams : List α)
    (h : (∀ lam ∈ lams, ∀ l, m.lo = some l → PyCmp.lt lam l = false) ∨ ∀ lam ∈ lams, ∀ u, m.hi = some u → PyCmp.gt lam u = false) :
    m.shapeArr lams = lams.map m.shapeAt ∧ m.shearArr lams = lams.map m.shearAt ∧ m.shapePArr lams = lams.map m.shapePAt ∧
    m.fArr lams = lams.map m.fAt := by
  obtain ⟨h1, h2⟩ := array_clipped_partial m lams h
  have hc : m.checkRangeArr lams = lams.map m.checkRange :=
    (List.map_id _).symm.trans (array_clipped_partial ⟨"", id, id, m.shapeP, m.lo, m.hi⟩ lams h).1
  refine ⟨h1, h2, ?_, ?_⟩
  · rcases hp : m.shapeP with f | _
    · simp only [shapePArr, hp, hc, List.map_map]
      refine List.map_congr_left fun l _ => ?_
      simp only [shapePAt, hp, Function.comp]
    · have hn : m.lo = none ∧ m.hi = none := by cases hm <;> first | exact ⟨rfl, rfl⟩ | simp [Fits.white, Fits.drela, Fits.cebeciBradshaw, Fits.spline] at hp
      have hs : ∀ l, m.shapeArr l = l.map m.shapeAt := fun l => (array_clipped_partial m l (.inl fun _ _ l hl => by simp [hn.1] at hl)).1
      simp only [shapePArr, hp, hc, hs, List.map_map, zip_maps, zipWith_maps]
      refine List.map_congr_left fun l _ => ?_
      simp only [shapePAt, hp, Function.comp]
  · simp only [fArr, h1, h2]
    conv_lhs => enter [3]; rw [show lams.zip (lams.map m.shapeAt) = lams.map fun l => (l, m.shapeAt l) by simpa using zip_maps id m.shapeAt lams]
    rw [zipWith_maps]; rfl

/-- **C94**, the part that holds (missing: arrays whose lambdas exceed the range of the fits on both sides; for White, Drela and custom fits
there are none, see `one_sided`). -/
theorem arrays_agree_partial (ext : Ext α) (o : Obj α) (m : Fits α) (rho : α) (xs : List α) (hc : o.cls.isThwaites) (hf : o.fits = some m)
    (hm : ∃ a, DocumentedFits ext a m) (hx : xs ≠ []) (hr : RangeOneSided o m xs) :
    Agrees o.deltaM o.deltaMArr xs ∧ Agrees o.shapeD o.shapeDArr xs ∧ Agrees o.deltaD o.deltaDArr xs ∧ Agrees o.deltaK o.deltaKArr xs ∧
    Agrees o.shapeK o.shapeKArr xs ∧ Agrees (o.tauWThwaites · rho) (o.tauWArr · rho) xs ∧
    Agrees (o.dissipation · rho) (o.dissipationArr · rho) xs ∧ Agrees o.vE o.vEArr xs := by
  obtain ⟨a, hm⟩ := hm
  have hk : Agrees o.deltaK o.deltaKArr xs := agrees_ok (fun _ => lit 0) rfl fun _ _ => rfl
  have hd : Agrees (o.dissipation · rho) (o.dissipationArr · rho) xs := agrees_ok (fun _ => lit 0) rfl fun _ _ => rfl
  have qM : ∀ x, o.deltaM x = (o.comp 0 x).bind fun F => .ok (PySqrt.sqrt (F * o.nu)) := fun x => by
    cases ho : o.cls <;> simp only [Obj.deltaM, ho] <;> first | rfl | simp [ho, Cls.isThwaites] at hc
  have qH : ∀ x, o.shapeD x = (o.comp 0 x).bind fun F => (o.vel.duE x).bind fun d => .ok (m.shapeAt (F * d)) := fun x => by
    cases ho : o.cls <;> simp only [Obj.shapeD, ho, hf, Obj.calcLambda, bind, Except.bind, pure, Except.pure] <;>
      first
      | (rcases o.comp 0 x with _ | _ <;> rcases o.vel.duE x with _ | _ <;> rfl)
      | simp [ho, Cls.isThwaites] at hc
  have qV : ∀ x, o.vE x = o.vEThwaites x := fun x => by
    cases ho : o.cls <;> simp only [Obj.vE, ho] <;> simp [ho, Cls.isThwaites] at hc
  have aF := solArr_eq o hx
  have aU := uArr_eq o hx
  have aD := duArr_eq o hx
  have aD2 := d2uArr_eq o hx
  have aM : o.model = .ok m := by simp only [Obj.model, hf]
  rcases mapM_cases (o.comp 0) xs with ⟨e, he, x, hxm, hxe⟩ | ⟨F, hF, hFx⟩
  · refine ⟨agrees_error ⟨e, ?_⟩ ⟨x, hxm, e, ?_⟩, agrees_error ⟨e, ?_⟩ ⟨x, hxm, e, ?_⟩, agrees_error ⟨e, ?_⟩ ⟨x, hxm, e, ?_⟩, hk,
      agrees_error ⟨e, ?_⟩ ⟨x, hxm, e, ?_⟩, agrees_error ⟨e, ?_⟩ ⟨x, hxm, e, ?_⟩, hd, agrees_error ⟨e, ?_⟩ ⟨x, hxm, e, ?_⟩⟩ <;>
    first
    | (simp only [Obj.vEArr, Obj.tauWArr, Obj.deltaDArr, Obj.shapeKArr, Obj.deltaKArr, Obj.deltaMArr, Obj.shapeDArr, aF, he, bind, Except.bind])
    | (simp only [qV, Obj.vEThwaites, Obj.tauWThwaites, Obj.deltaD, Obj.shapeK, Obj.deltaK, qM, qH, hxe, bind, Except.bind])
  have hMa : o.deltaMArr xs = .ok (xs.map fun x => PySqrt.sqrt (F x * o.nu)) := by
    simp only [Obj.deltaMArr, aF, hF, bind, Except.bind, pure, Except.pure, List.map_map]; rfl
  have hMq : ∀ x ∈ xs, o.deltaM x = .ok (PySqrt.sqrt (F x * o.nu)) := fun x h => by rw [qM, hFx x h]; rfl
  have hK : Agrees o.shapeK o.shapeKArr xs := by
    refine agrees_ok (fun x => lit 0 / PySqrt.sqrt (F x * o.nu)) ?_ fun x h => ?_
    · simp only [Obj.shapeKArr, Obj.deltaKArr, hMa, bind, Except.bind, pure, Except.pure, zipWith_maps]
    · simp only [Obj.shapeK, Obj.deltaK, hMq x h, bind, Except.bind, pure, Except.pure]
  refine ⟨agrees_ok _ hMa hMq, ?_⟩
  rcases mapM_cases o.vel.duE xs with ⟨e, he, x, hxm, hxe⟩ | ⟨d, hD, hDx⟩
  · refine ⟨agrees_error ⟨e, ?_⟩ ⟨x, hxm, e, ?_⟩, agrees_error ⟨e, ?_⟩ ⟨x, hxm, e, ?_⟩, hk, hK, agrees_error ⟨e, ?_⟩ ⟨x, hxm, e, ?_⟩, hd, ?_⟩
    pick_goal 7
    · rcases mapM_cases o.vel.uE xs with ⟨e', he', x', hxm', hxe'⟩ | ⟨u, hU, hUx⟩
      · refine agrees_error ⟨e', ?_⟩ ⟨x', hxm', e', ?_⟩
        · simp only [Obj.vEArr, aF, hF, aU, he', bind, Except.bind]
        · simp only [qV, Obj.vEThwaites, hFx x' hxm', hxe', bind, Except.bind]
      · refine agrees_error ⟨e, ?_⟩ ⟨x, hxm, e, ?_⟩
        · simp only [Obj.vEArr, aF, hF, aU, hU, aD, he, bind, Except.bind]
        · simp only [qV, Obj.vEThwaites, hFx x hxm, hUx x hxm, hxe, bind, Except.bind]
    all_goals first
      | (simp only [Obj.tauWArr, Obj.deltaDArr, hMa, Obj.shapeDArr, Obj.lambdaArr, aF, hF, aD, he, bind, Except.bind]; done)
      | (simp only [Obj.tauWThwaites, Obj.deltaD, Obj.calcLambda, hMq x hxm, qH, hFx x hxm, hxe, bind, Except.bind]; done)
  have hLa : o.lambdaArr xs (xs.map F) = .ok (xs.map fun x => F x * d x) := by
    simp only [Obj.lambdaArr, aD, hD, bind, Except.bind, pure, Except.pure, zipWith_maps]
  have hLq : ∀ x ∈ xs, o.calcLambda x (F x) = .ok (F x * d x) := fun x h => by
    simp only [Obj.calcLambda, hDx x h, bind, Except.bind, pure, Except.pure]
  obtain ⟨f1, f2, f3, f4⟩ := fits_arrays_agree hm (xs.map fun x => F x * d x) (by
    rcases hr with hr | hr
    · left; intro lam hl l hlo
      obtain ⟨x, hxm, rfl⟩ := List.mem_map.1 hl
      exact hr x hxm _ _ (hFx x hxm) (hDx x hxm) l hlo
    · right; intro lam hl l hlo
      obtain ⟨x, hxm, rfl⟩ := List.mem_map.1 hl
      exact hr x hxm _ _ (hFx x hxm) (hDx x hxm) l hlo)
  rw [List.map_map] at f1 f2 f3 f4
  have hHa : o.shapeDArr xs = .ok (xs.map fun x => m.shapeAt (F x * d x)) := by
    simp only [Obj.shapeDArr, aF, hF, hLa, aM, bind, Except.bind, pure, Except.pure, f1]; rfl
  have hHq : ∀ x ∈ xs, o.shapeD x = .ok (m.shapeAt (F x * d x)) := fun x h => by rw [qH, hFx x h, hDx x h]; rfl
  have hDDa : o.deltaDArr xs = .ok (xs.map fun x => PySqrt.sqrt (F x * o.nu) * m.shapeAt (F x * d x)) := by
    simp only [Obj.deltaDArr, hMa, hHa, bind, Except.bind, pure, Except.pure, zipWith_maps]
  have hDDq : ∀ x ∈ xs, o.deltaD x = .ok (PySqrt.sqrt (F x * o.nu) * m.shapeAt (F x * d x)) := fun x h => by
    simp only [Obj.deltaD, hMq x h, hHq x h, bind, Except.bind, pure, Except.pure]
  refine ⟨agrees_ok _ hHa hHq, agrees_ok _ hDDa hDDq, hk, hK, ?_⟩
  rcases mapM_cases o.vel.uE xs with ⟨e, he, x, hxm, hxe⟩ | ⟨u, hU, hUx⟩
  · refine ⟨agrees_error ⟨e, ?_⟩ ⟨x, hxm, e, ?_⟩, hd, agrees_error ⟨e, ?_⟩ ⟨x, hxm, e, ?_⟩⟩
    · simp only [Obj.tauWArr, aF, hF, hLa, aU, he, bind, Except.bind]
    · simp only [Obj.tauWThwaites, hFx x hxm, hLq x hxm, hxe, bind, Except.bind]
    · simp only [Obj.vEArr, aF, hF, aU, he, bind, Except.bind]
    · simp only [qV, Obj.vEThwaites, hFx x hxm, hxe, bind, Except.bind]
  have hCa : o.calcFArr xs (xs.map F) = .ok (xs.map fun x => if o.cls = .thwaitesLinear then lit (45/100) - lit 6 * (F x * d x) else m.fAt (F x * d x)) := by
    cases ho : o.cls <;> simp only [Obj.calcFArr, ho, hLa, aM, bind, Except.bind, pure, Except.pure, f4, List.map_map] <;>
      first | rfl | (simp [Function.comp_def]; done) | simp [ho, Cls.isThwaites] at hc
  have hCq : ∀ x ∈ xs, o.calcF x (F x) = .ok (if o.cls = .thwaitesLinear then lit (45/100) - lit 6 * (F x * d x) else m.fAt (F x * d x)) := fun x h => by
    cases ho : o.cls <;> simp only [Obj.calcF, ho, hf, hLq x h, bind, Except.bind, pure, Except.pure] <;>
      first | rfl | (simp; done) | simp [ho, Cls.isThwaites] at hc
  generalize hG : (fun x => if o.cls = .thwaitesLinear then lit (45/100) - lit 6 * (F x * d x) else m.fAt (F x * d x)) = G at hCa
  have hCq' : ∀ x ∈ xs, o.calcF x (F x) = .ok (G x) := fun x h => by rw [hCq x h, ← hG]
  have hRa : o.rhsArr xs (xs.map F) = .ok (xs.map fun x => G x / (lit (1/1000) + u x)) := by
    simp only [Obj.rhsArr, hCa, aU, hU, bind, Except.bind, pure, Except.pure, zipWith_maps]
  have hRq : ∀ x ∈ xs, o.thwaitesRhs x (F x) = .ok (G x / (lit (1/1000) + u x)) := fun x h => by
    simp only [Obj.thwaitesRhs, hCq' x h, hUx x h, bind, Except.bind, pure, Except.pure]
  refine ⟨?_, hd, ?_⟩
  · refine agrees_ok (fun x => rho * o.nu * u x * m.shearAt (F x * d x) / PySqrt.sqrt (F x * o.nu)) ?_ fun x h => ?_
    · simp only [Obj.tauWArr, aF, hF, hLa, aU, hU, aM, hMa, bind, Except.bind, pure, Except.pure, f2, zipWith_maps]; rfl
    · simp only [Obj.tauWThwaites, hFx x h, hLq x h, hUx x h, hf, hMq x h, bind, Except.bind, pure, Except.pure]
  · rcases mapM_cases o.vel.d2uE xs with ⟨e, he, x, hxm, hxe⟩ | ⟨d2, hD2, hD2x⟩
    · refine agrees_error ⟨e, ?_⟩ ⟨x, hxm, e, ?_⟩
      · simp only [Obj.vEArr, aF, hF, aU, hU, aD, hD, hDDa, hRa, hHa, hLa, aM, aD2, he, bind, Except.bind, pure, Except.pure]
      · simp only [qV, Obj.vEThwaites, hFx x hxm, hUx x hxm, hDx x hxm, hDDq x hxm, hRq x hxm, hHq x hxm, hLq x hxm, hf, hxe, bind, Except.bind, pure, Except.pure]
    · refine agrees_ok (fun x => d x * (PySqrt.sqrt (F x * o.nu) * m.shapeAt (F x * d x)) + PySqrt.sqrt (o.nu / F x) *
          (lit (1/2) * u x * m.shapeAt (F x * d x) * (G x / (lit (1/1000) + u x)) +
            u x * F x * m.shapePAt (F x * d x) * (d x * (G x / (lit (1/1000) + u x)) + d2 x * F x))) ?_ fun x h => ?_
      · simp only [Obj.vEArr, aF, hF, aU, hU, aD, hD, hDDa, hRa, hHa, hLa, aM, aD2, hD2, bind, Except.bind, pure, Except.pure, f3, List.map_map, zipWith_maps]; rfl
      · simp only [qV, Obj.vEThwaites, hFx x h, hUx x h, hDx x h, hDDq x h, hRq x h, hHq x h, hLq x h, hf, hD2x x h, bind, Except.bind, pure, Except.pure]

/-- Fits without an upper limit of lambda never exceed the range on both sides. -/
theorem one_sided (ext : Ext α) (o : Obj α) (a : FitsArg α) (m : Fits α) (xs : List α) (hm : DocumentedFits ext a m)
    (ha : a ≠ .name "Spline" ∧ a ≠ .name "Cebeci-Bradshaw") : RangeOneSided o m xs := by
  right
  intro x _ F d _ _ h hh
  cases hm <;> first | simp [Fits.white, Fits.drela] at hh | simp at ha

namespace Wit

/-- The identity as a slope of the edge velocity. -/
noncomputable def idc : Callable (Flt ℝ) := ⟨fun x => .ok x, none⟩

/-- A Thwaites object with the Cebeci-Bradshaw fits whose edge velocity has a minimum between the points -1 and 1. -/
noncomputable def both0 : Obj (Flt ℝ) :=
  ⟨.thwaitesLinear, .fin 1, ⟨some (.fn one.call), some (.fn idc.call), some (.fd1OfDu (lit (1/100000)))⟩,
    IC.mkManual (lit 0) PySpecial.inf (lit 0), [.sepThwaites Fits.cebeciBradshaw], none, some Fits.cebeciBradshaw⟩

theorem both0_mk : Obj.mkThwaites ext true (.fin 1) (.callable one) (.callable idc) .none (.name "Cebeci-Bradshaw") = .ok both0 := by
  have h : ¬ ((1:ℝ) ≤ 0) := by norm_num
  simp [Obj.mkThwaites, Obj.mkBase, IC.mkStag, Obj.setVelocity, IBL.setVelocity, setVelCallable, idc, one,
    Obj.setInitialCondition, Obj.setDataFits, chooseFits, both0, h]

/-- It is solved from -1 to 1. -/
noncomputable def both : Obj (Flt ℝ) := both0.run ext [.setInitialDeltaM (.fin 1), .solve (.fin (-1)) (.fin 1) .none ivpEnd]

theorem both_eq : both.cls = .thwaitesLinear ∧ both.fits = some Fits.cebeciBradshaw ∧ both.vel = both0.vel ∧ both.sol = some fun _ => [.fin 1] := by
  have h : ¬ ((1:ℝ) ≤ 0) := by norm_num
  simp [both, Obj.run, Obj.step, Obj.setInitialDeltaM, both0, Obj.solve, Obj.prepare, IC.setNu, h, VelState.duE, VelState.rawDu, callOpt, Vel.call,
    idc, one, IC.setDu, Obj.startVector, IC.mkManual, IC.assignDelM, ivpEnd,
    IC.deltaM, pyDiv, Flt.fin_div, bind, Except.bind, pure, Except.pure]

theorem both_comp (x : Flt ℝ) : both.comp 0 x = .ok (.fin 1) ∧ both.vel.duE x = .ok x := by
  obtain ⟨-, -, hv, hs⟩ := both_eq
  constructor
  · simp only [Obj.comp, Obj.state, hs]; rfl
  · rw [hv]; rfl

end Wit

example : RangeOneSided Wit.both cebeciBradshaw [.fin (-1), .fin 0] := by
  right
  intro x hx F d hF hd h hh
  rw [(Wit.both_comp x).1] at hF
  rw [(Wit.both_comp x).2] at hd
  cases hF; cases hd
  simp only [cebeciBradshaw, Option.some.injEq] at hh
  subst hh
  simp only [List.mem_cons, List.not_mem_nil, or_false] at hx
  rcases hx with rfl | rfl <;> simp [PyCmp.gt]
  norm_num

/-- **C94** is false of the code: with the Cebeci-Bradshaw fits and lambda = -1 at one point and 1 at another, the shape factor at the second point
is evaluated at the end of the range if asked for alone and far outside of it if asked for together with the first. -/
theorem arrays_agree_fails : ¬ ArraysAgree Wit.ext := by
  intro H
  obtain ⟨hc, hf, -, -⟩ := Wit.both_eq
  obtain ⟨-, h, -⟩ := H Wit.both cebeciBradshaw (.fin 1) [.fin (-1), .fin 1] (by rw [hc]; rfl) hf ⟨_, .cebeci⟩ (by simp)
  have hd : Wit.both.duArr [.fin (-1), .fin 1] = .ok [.fin (-1), .fin 1] := by
    rw [duArr_eq _ (by simp)]
    simp only [List.mapM_cons, List.mapM_nil, (Wit.both_comp _).2]; rfl
  have hs : Wit.both.solArr [.fin (-1), .fin 1] = .ok [.fin 1, .fin 1] := by
    rw [solArr_eq _ (by simp)]
    simp only [List.mapM_cons, List.mapM_nil, (Wit.both_comp _).1]; rfl
  have ha : Wit.both.shapeDArr [.fin (-1), .fin 1] = .ok ((cebeciBradshaw : Fits (Flt ℝ)).shapeArr [.fin 1 * .fin (-1), .fin 1 * .fin 1]) := by
    simp only [Obj.shapeDArr, hs, Obj.lambdaArr, hd, Obj.model, hf, bind, Except.bind, pure, Except.pure]; rfl
  have hq : Wit.both.shapeD (.fin 1) = .ok ((cebeciBradshaw : Fits (Flt ℝ)).shapeAt (.fin 1 * .fin 1)) := by
    simp only [Obj.shapeD, hc, (Wit.both_comp _).1, Obj.calcLambda, (Wit.both_comp _).2, hf, bind, Except.bind, pure, Except.pure]
  have := (h _).1 ha
  have n1 : (-1:ℝ) < ((-1/10 : ℚ) : ℝ) := by norm_num
  have n2 : ¬ (1:ℝ) < ((-1/10 : ℚ) : ℝ) := by norm_num
  have n3 : ((1/10 : ℚ) : ℝ) < (1:ℝ) := by norm_num
  simp only [shapeArr, checkRangeArr, cebeciBradshaw, Flt.fin_mul, Flt.lit_fin, Flt.fin_lt, one_mul, List.any_cons, List.any_nil, List.map_cons, List.map_nil,
    decide_eq_true n1, decide_eq_false n2, Bool.or_false, Bool.false_eq_true, if_true, if_false, List.forall₂_cons, hq, shapeAt, checkRange, PyCmp.gt, PyCmp.ge,
    decide_eq_true n3, Except.ok.injEq, piecewise0] at this
  norm_num at this

end IBL
