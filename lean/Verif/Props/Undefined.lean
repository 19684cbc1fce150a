import Verif.Props.MethodHistory
import Verif.Model.SolveIvp

/-! C86: where the boundary layer state or the edge velocity is undefined (NaN), the queries say so. The numbers are the exact extended reals. -/

set_option linter.unusedSectionVars false

namespace IBL
open Flt

namespace Flt
@[simp] theorem nan_add (a : Flt ℝ) : nan + a = nan := by cases a <;> rfl
@[simp] theorem add_nan (a : Flt ℝ) : a + nan = nan := by cases a <;> rfl
@[simp] theorem nan_sub (a : Flt ℝ) : nan - a = nan := by cases a <;> rfl
@[simp] theorem sub_nan (a : Flt ℝ) : a - nan = nan := by cases a <;> rfl
@[simp] theorem nan_mul (a : Flt ℝ) : nan * a = nan := by cases a <;> rfl
@[simp] theorem mul_nan (a : Flt ℝ) : a * nan = nan := by cases a <;> rfl
@[simp] theorem nan_div (a : Flt ℝ) : nan / a = nan := by cases a <;> rfl
@[simp] theorem div_nan (a : Flt ℝ) : a / nan = nan := by cases a <;> rfl
@[simp] theorem neg_nan : (-nan : Flt ℝ) = nan := rfl
@[simp] theorem lt_nan (a : Flt ℝ) : PyCmp.lt a nan = false := by cases a <;> rfl
@[simp] theorem nan_lt (a : Flt ℝ) : PyCmp.lt nan a = false := by cases a <;> rfl
@[simp] theorem le_nan (a : Flt ℝ) : PyCmp.le a nan = false := by cases a <;> rfl
@[simp] theorem nan_le (a : Flt ℝ) : PyCmp.le nan a = false := by cases a <;> rfl
@[simp] theorem gt_nan (a : Flt ℝ) : PyCmp.gt a nan = false := by cases a <;> rfl
@[simp] theorem nan_gt (a : Flt ℝ) : PyCmp.gt nan a = false := by cases a <;> rfl
@[simp] theorem ge_nan (a : Flt ℝ) : PyCmp.ge a nan = false := by cases a <;> rfl
@[simp] theorem nan_ge (a : Flt ℝ) : PyCmp.ge nan a = false := by cases a <;> rfl
@[simp] theorem abs_nan : PyCmp.abs (nan : Flt ℝ) = nan := rfl
@[simp] theorem sqrt_nan : PySqrt.sqrt (nan : Flt ℝ) = nan := rfl
@[simp] theorem log10_nan : PyPow.log10 (nan : Flt ℝ) = nan := rfl
@[simp] theorem exp_nan : PyPow.exp (nan : Flt ℝ) = nan := rfl

/-- A NaN base stays NaN unless the exponent is zero. -/
theorem nan_pow {b : Flt ℝ} (h : b ≠ fin 0) : PyPow.pow nan b = nan := by
  have : ¬ (b = fin 0 ∨ (nan : Flt ℝ) = fin 1) := by simp [h]
  simp only [PyPow.pow, if_neg this]

theorem nan_pow_lit {q : ℚ} (h : q ≠ 0) : PyPow.pow (nan : Flt ℝ) (lit q) = nan :=
  nan_pow (by simpa using h)

/-- A NaN exponent gives NaN unless the base is one. -/
theorem pow_nan {a : Flt ℝ} (h : a ≠ fin 1) : PyPow.pow a nan = nan := by
  have : ¬ ((nan : Flt ℝ) = fin 0 ∨ a = fin 1) := by simp [h]
  simp only [PyPow.pow, if_neg this]
  cases a <;> rfl
end Flt

/-! ### Closure relations -/

/-- The fit relations pass NaN on. -/
structure KeepsNaN (m : Fits (Flt ℝ)) : Prop where
  shape : m.shapeAt nan = nan
  shear : m.shearAt nan = nan
  slope : m.shapePAt nan = nan

theorem checkRange_nan (m : Fits (Flt ℝ)) : m.checkRange nan = nan := by
  rw [Fits.checkRange]
  cases m.lo <;> cases m.hi <;> simp

theorem white_keeps : KeepsNaN (Fits.white : Fits (Flt ℝ)) := by
  constructor
  · rw [Fits.shapeAt, checkRange_nan]; simp [Fits.white]
  · rw [Fits.shearAt, checkRange_nan]
    show PyPow.pow ((nan : Flt ℝ) + lit (9/100)) (lit (62/100)) = nan
    rw [nan_add, nan_pow_lit (by norm_num)]
  · rw [Fits.shapePAt]
    simp only [Fits.white]
    have := checkRange_nan (Fits.white : Fits (Flt ℝ))
    simp only [Fits.white] at this
    rw [this]; simp

theorem drela_keeps : KeepsNaN (Fits.drela : Fits (Flt ℝ)) := by
  constructor
  · rw [Fits.shapeAt, checkRange_nan]; simp [Fits.drela]
  · rw [Fits.shearAt, checkRange_nan]; simp [Fits.drela]
  · rw [Fits.shapePAt]
    simp only [Fits.drela]
    have := checkRange_nan (Fits.drela : Fits (Flt ℝ))
    simp only [Fits.drela] at this
    rw [this]; simp

/-- The tabulated fits do if the interpolating spline does. -/
theorem spline_keeps (cs : Fits.CubicSpline (Flt ℝ)) (h1 : ∀ xs ys, (cs xs ys).1 nan = nan) (h2 : ∀ xs ys, (cs xs ys).2 nan = nan) :
    KeepsNaN (Fits.spline cs) := by
  constructor
  · rw [Fits.shapeAt, checkRange_nan]; exact h1 _ _
  · rw [Fits.shearAt, checkRange_nan]; exact h1 _ _
  · rw [Fits.shapePAt]
    simp only [Fits.spline]
    have := checkRange_nan (Fits.spline cs)
    simp only [Fits.spline] at this
    rw [this]; exact h2 _ _

/-- Two given functions do, with any derivative given or none (then it is a finite difference). -/
theorem custom_keeps (m : Fits (Flt ℝ)) (h1 : m.shape nan = nan) (h2 : m.shear nan = nan) (h3 : ∀ f, m.shapeP = .fn f → f nan = nan) :
    KeepsNaN m := by
  constructor
  · rw [Fits.shapeAt, checkRange_nan, h1]
  · rw [Fits.shearAt, checkRange_nan, h2]
  · rw [Fits.shapePAt]
    cases hp : m.shapeP with
    | fn f => simp only; rw [checkRange_nan, h3 f hp]
    | fdOfShape =>
      simp only [checkRange_nan, Fits.shapeAt, nan_sub, nan_add, h1]
      simp [fd1Comb]

/-- The Cebeci-Bradshaw relations turn NaN into zero. -/
theorem cebeciBradshaw_loses : (Fits.cebeciBradshaw : Fits (Flt ℝ)).shapeAt nan = fin 0 ∧ (Fits.cebeciBradshaw : Fits (Flt ℝ)).shearAt nan = fin 0 ∧
    (Fits.cebeciBradshaw : Fits (Flt ℝ)).shapePAt nan = fin 0 := by
  have h := checkRange_nan (Fits.cebeciBradshaw : Fits (Flt ℝ))
  refine ⟨?_, ?_, ?_⟩
  · rw [Fits.shapeAt, h]; simp [Fits.cebeciBradshaw, Fits.piecewise0]
  · rw [Fits.shearAt, h]; simp [Fits.cebeciBradshaw, Fits.piecewise0]
  · rw [Fits.shapePAt]
    simp only [Fits.cebeciBradshaw] at h ⊢
    rw [h]; simp [Fits.piecewise0]

/-- The function `F` of the nonlinear method passes NaN on for every choice of fits. -/
theorem f_keeps (m : Fits (Flt ℝ)) : m.fAt nan = nan := by simp [Fits.fAt]

/-- The skin friction formulas pass NaN on, in either argument. -/
theorem ludwiegTillman_keeps (a : Flt ℝ) : ludwiegTillman nan a = nan ∧ ludwiegTillman a nan = nan := by
  constructor
  · rw [ludwiegTillman, nan_pow_lit (by norm_num)]; simp
  · rw [ludwiegTillman, mul_nan, pow_nan (by simp)]; simp

theorem felsch_keeps (a : Flt ℝ) : felsch nan a = nan ∧ felsch a nan = nan := by
  constructor
  · simp only [felsch]; rw [nan_pow_lit (by norm_num)]; simp
  · simp only [felsch, npClip, nan_lt, lt_nan, Bool.false_eq_true, if_false, log10_nan, mul_nan, sub_nan]
    rw [nan_pow_lit (by norm_num)]; simp

theorem whiteFriction_keeps (a : Flt ℝ) (ha : (lit (174/100) + lit (31/100) * a : Flt ℝ) ≠ fin 0) : IBL.white nan a = nan ∧ IBL.white a nan = nan := by
  constructor
  · simp only [IBL.white, log10_nan]; rw [nan_pow ha]; simp
  · simp [IBL.white]

namespace Head

/-- Head's entrainment relations turn NaN into zero. -/
theorem relations_lose : h1 (nan : Flt ℝ) = fin 0 ∧ h1p (nan : Flt ℝ) = fin 0 ∧ hOf (nan : Flt ℝ) = fin 0 := by
  simp [h1, h1p, hOf, clampShape]

/-- The rates of Head's equations pass NaN on, whichever argument it comes from. -/
theorem rates_keep (nu u du dm h : Flt ℝ) (hn : nan ∈ [nu, u, du, dm, h]) : rates nu u du dm h = (nan, nan) := by
  have h0 : ∀ cf, (cf = nan ∨ du = nan ∨ u = nan ∨ dm = nan ∨ h = nan) → (lit (1/2) * cf - dm * (lit 2 + h) * du / u : Flt ℝ) = nan := by
    rintro cf (rfl | rfl | rfl | rfl | rfl) <;> simp
  have hp : (rates nu u du dm h).1 = nan := by
    show (lit (1/2) * ludwiegTillman (u * dm / nu) h - dm * (lit 2 + h) * du / u : Flt ℝ) = nan
    apply h0
    simp only [List.mem_cons, List.not_mem_nil, or_false] at hn
    rcases hn with rfl | rfl | rfl | rfl | rfl
    · left; rw [div_nan]; exact (ludwiegTillman_keeps _).1
    all_goals simp
  refine Prod.ext hp ?_
  show ((u * entrainment (h1 h) - u * (rates nu u du dm h).1 * h1 h - du * dm * h1 h) / (h1p h * u * dm) : Flt ℝ) = nan
  rw [hp]; simp

end Head

/-! ### Queries -/

/-- What the object knows at `x`. -/
structure At (o : Obj (Flt ℝ)) (x : Flt ℝ) (y : List (Flt ℝ)) (u du d2u : Flt ℝ) : Prop where
  state : o.state x = .ok y
  u : o.vel.uE x = .ok u
  du : o.vel.duE x = .ok du
  d2u : o.vel.d2uE x = .ok d2u

/-- **C86** for a Thwaites object: where the state or the slope of the edge velocity is NaN, so are all queries that depend on it; where only the
velocity or its second derivative is, those that use it. -/
def ThwaitesUndefined (m : Fits (Flt ℝ)) : Prop :=
  ∀ (o : Obj (Flt ℝ)) (x F u du d2u rho : Flt ℝ), o.cls.isThwaites → o.fits = some m → At o x [F] u du d2u →
    (F = nan → o.deltaM x = .ok nan ∧ o.shapeK x = .ok nan) ∧
    (F = nan ∨ du = nan → o.shapeD x = .ok nan ∧ o.deltaD x = .ok nan ∧ o.tauWThwaites x rho = .ok nan ∧ o.eventValue (.sepThwaites m) x [F] = .ok nan) ∧
    (u = nan → o.tauWThwaites x rho = .ok nan) ∧
    (F = nan ∨ u = nan ∨ du = nan ∨ d2u = nan → o.vE x = .ok nan) ∧
    (F = nan ∨ u = nan ∨ du = nan → o.rhs x [F] = .ok [nan])

private theorem formulas {m : Fits (Flt ℝ)} {o : Obj (Flt ℝ)} {x F u du d2u : Flt ℝ} (rho : Flt ℝ) (hc : o.cls.isThwaites) (hf : o.fits = some m)
    (h : At o x [F] u du d2u) :
    o.comp 0 x = .ok F ∧ o.calcLambda x F = .ok (F * du) ∧ o.deltaM x = .ok (PySqrt.sqrt (F * o.nu)) ∧ o.shapeD x = .ok (m.shapeAt (F * du)) ∧
    o.deltaD x = .ok (PySqrt.sqrt (F * o.nu) * m.shapeAt (F * du)) ∧
    o.tauWThwaites x rho = .ok (rho * o.nu * u * m.shearAt (F * du) / PySqrt.sqrt (F * o.nu)) ∧
    o.eventValue (.sepThwaites m) x [F] = .ok (m.shearAt (F * du)) := by
  have hcomp : o.comp 0 x = .ok F := by simp only [Obj.comp, h.state]; rfl
  have hlam : o.calcLambda x F = .ok (F * du) := by simp only [Obj.calcLambda, h.du]; rfl
  have hdm : o.deltaM x = .ok (PySqrt.sqrt (F * o.nu)) := by
    cases ho : o.cls <;> simp only [Obj.deltaM, ho, hcomp] <;> first | rfl | simp [ho, Cls.isThwaites] at hc
  have hsd : o.shapeD x = .ok (m.shapeAt (F * du)) := by
    cases ho : o.cls <;> simp only [Obj.shapeD, ho, hcomp] <;> first | (simp only [hf]; show (o.calcLambda x F).bind _ = _; rw [hlam]; rfl) | simp [ho, Cls.isThwaites] at hc
  have hdd : o.deltaD x = .ok (PySqrt.sqrt (F * o.nu) * m.shapeAt (F * du)) := by simp only [Obj.deltaD, hdm, hsd]; rfl
  have htau : o.tauWThwaites x rho = .ok (rho * o.nu * u * m.shearAt (F * du) / PySqrt.sqrt (F * o.nu)) := by
    simp only [Obj.tauWThwaites, hcomp, hf]
    show (o.calcLambda x F).bind _ = _
    rw [hlam]
    show (o.vel.uE x).bind _ = _
    rw [h.u]
    show (o.deltaM x).bind _ = _
    rw [hdm]; rfl
  refine ⟨hcomp, hlam, hdm, hsd, hdd, htau, ?_⟩
  simp only [Obj.eventValue, hlam]; rfl

theorem thwaites_undefined_partial (m : Fits (Flt ℝ)) (hm : KeepsNaN m) : ThwaitesUndefined m := by
  intro o x F u du d2u rho hc hf h
  obtain ⟨hcomp, hlam, hdm, hsd, hdd, htau, hev⟩ := formulas rho hc hf h
  have hcf : ∃ f, o.calcF x F = .ok f ∧ (F * du = nan → f = nan) := by
    cases ho : o.cls
    · exact ⟨lit (45/100) - lit 6 * (F * du), by simp only [Obj.calcF, hlam, ho]; rfl, fun e => by rw [e]; simp⟩
    · exact ⟨m.fAt (F * du), by simp only [Obj.calcF, hlam, ho, hf]; rfl, fun e => by rw [e]; exact f_keeps m⟩
    · simp [ho, Cls.isThwaites] at hc
  obtain ⟨f, hf1, hf2⟩ := hcf
  have hrhs : o.thwaitesRhs x F = .ok (f / (lit (1/1000) + u)) := by
    simp only [Obj.thwaitesRhs, hf1]
    show (o.vel.uE x).bind _ = _
    rw [h.u]; rfl
  have hve : o.vE x = .ok (du * (PySqrt.sqrt (F * o.nu) * m.shapeAt (F * du)) + PySqrt.sqrt (o.nu / F) *
      (lit (1/2) * u * m.shapeAt (F * du) * (f / (lit (1/1000) + u)) + u * F * m.shapePAt (F * du) * (du * (f / (lit (1/1000) + u)) + d2u * F))) := by
    have : o.vEThwaites x = .ok (du * (PySqrt.sqrt (F * o.nu) * m.shapeAt (F * du)) + PySqrt.sqrt (o.nu / F) *
      (lit (1/2) * u * m.shapeAt (F * du) * (f / (lit (1/1000) + u)) + u * F * m.shapePAt (F * du) * (du * (f / (lit (1/1000) + u)) + d2u * F))) := by
      simp only [Obj.vEThwaites, hcomp, hf, h.u, h.du, h.d2u, hdd, hrhs, hsd, hlam, bind, Except.bind]
      rfl
    cases ho : o.cls <;> simp only [Obj.vE, ho] <;> first | exact this | simp [ho, Cls.isThwaites] at hc
  have hlist : o.rhs x [F] = .ok [f / (lit (1/1000) + u)] := by
    cases ho : o.cls <;> simp only [Obj.rhs, ho, hrhs] <;> first | rfl | simp [ho, Cls.isThwaites] at hc
  have hl : F = nan ∨ du = nan → F * du = nan := by rintro (rfl | rfl) <;> simp
  refine ⟨?_, ?_, ?_, ?_, ?_⟩
  · rintro rfl
    refine ⟨by rw [hdm]; simp, ?_⟩
    simp only [Obj.shapeK, Obj.deltaK, hdm, bind, Except.bind]
    simp [pure, Except.pure]
  · intro e
    rw [hsd, hdd, htau, hl e, hm.shape, hm.shear]
    refine ⟨rfl, by simp, by simp, ?_⟩
    rw [hev, hl e, hm.shear]
  · rintro rfl
    rw [htau]; simp
  · intro e
    rw [hve]
    rcases e with rfl | rfl | rfl | rfl
    · simp
    · simp
    · simp
    · simp
  · intro e
    rw [hlist]
    rcases e with rfl | rfl | rfl
    · rw [hf2 (by simp)]; simp
    · simp
    · rw [hf2 (by simp)]; simp

/-- Head's method has the property in full: NaN in the state, the velocity or its slope reaches every query that uses it. -/
theorem head_undefined (o : Obj (Flt ℝ)) (x dm h u du d2u : Flt ℝ) (hc : o.cls = .head) (ha : At o x [dm, h] u du d2u) :
    (dm = nan → o.deltaM x = .ok nan ∧ o.shapeK x = .ok nan) ∧ (h = nan → o.shapeD x = .ok nan) ∧ (dm = nan ∨ h = nan → o.deltaD x = .ok nan) ∧
    (dm = nan ∨ h = nan ∨ u = nan ∨ du = nan ∨ o.nu = nan → o.vE x = .ok nan ∧ o.rhs x [dm, h] = .ok [nan, nan]) ∧
    (h = nan → ∀ c, o.eventValue (.sepHead c) x [dm, h] = .ok nan) := by
  have h0 : o.comp 0 x = .ok dm := by simp only [Obj.comp, ha.state]; rfl
  have h1 : o.comp 1 x = .ok h := by simp only [Obj.comp, ha.state]; rfl
  have hdm : o.deltaM x = .ok dm := by simp only [Obj.deltaM, hc, h0]
  have hsd : o.shapeD x = .ok h := by simp only [Obj.shapeD, hc, h1]
  have hrhs : o.headRhs x dm h = .ok (Head.rates o.nu (Head.floorScalar u) du dm (Head.odeClamp h)) := by
    simp only [Obj.headRhs, ha.u, ha.du, bind, Except.bind]; rfl
  refine ⟨?_, ?_, ?_, ?_, ?_⟩
  · rintro rfl
    refine ⟨hdm, ?_⟩
    simp only [Obj.shapeK, Obj.deltaK, hdm, bind, Except.bind]
    simp [pure, Except.pure]
  · rintro rfl; exact hsd
  · intro e
    simp only [Obj.deltaD, hdm, hsd, bind, Except.bind, pure, Except.pure]
    rcases e with rfl | rfl <;> simp
  · intro e
    have hr : o.headRhs x dm h = .ok (nan, nan) := by
      rw [hrhs, Head.rates_keep]
      rcases e with rfl | rfl | rfl | rfl | e
      · simp
      · simp [Head.odeClamp]
      · simp [Head.floorScalar]
      · simp
      · simp [e]
    constructor
    · simp only [Obj.vE, hc, Obj.vEHead, h0, h1, hr, ha.u, ha.du, bind, Except.bind, pure, Except.pure]
      simp
    · simp only [Obj.rhs, hc, hr, bind, Except.bind, pure, Except.pure]
  · rintro rfl c
    simp [Obj.eventValue, pure, Except.pure]

/-- The property is false of the Cebeci-Bradshaw fits: for an undefined slope of the edge velocity they report a shape factor, a displacement thickness
and a wall shear stress of zero, and the separation event is exactly zero. -/
theorem cebeciBradshaw_reports_zero (o : Obj (Flt ℝ)) (x d2u : Flt ℝ) (F u nu rho : ℝ) (hF : 0 < F) (hnu : 0 < nu) (hc : o.cls.isThwaites)
    (hf : o.fits = some Fits.cebeciBradshaw) (hn : o.nu = fin nu) (h : At o x [fin F] (fin u) nan d2u) :
    o.shapeD x = .ok (fin 0) ∧ o.deltaD x = .ok (fin 0) ∧ o.tauWThwaites x (fin rho) = .ok (fin 0) ∧
      o.eventValue (.sepThwaites Fits.cebeciBradshaw) x [fin F] = .ok (fin 0) := by
  obtain ⟨-, -, -, hsd, hdd, htau, hev⟩ := formulas (fin rho) hc hf h
  obtain ⟨c1, c2, -⟩ := cebeciBradshaw_loses
  have hs : PySqrt.sqrt (fin F * o.nu : Flt ℝ) = fin (Real.sqrt (F * nu)) := by
    rw [hn, fin_mul]
    show (if F * nu < 0 then nan else fin (Real.sqrt (F * nu))) = _
    rw [if_neg (mul_pos hF hnu).le.not_gt]
  rw [mul_nan, c1] at hsd hdd
  rw [mul_nan, c2] at htau hev
  rw [hs] at hdd htau
  refine ⟨hsd, by rw [hdd]; simp, ?_, hev⟩
  rw [htau, hn, fin_mul, fin_mul, fin_mul, fin_div _ _ (Real.sqrt_pos.2 (mul_pos hF hnu)).ne']
  simp

/-- So the solver takes the step as one on which separation occurs, whatever the sign of the wall shear before it, … -/
theorem cebeciBradshaw_separates (g : ℝ) : SolveIvp.changes (fin g) (fin 0 : Flt ℝ) = true := by
  rcases le_total g 0 with h | h <;> simp [SolveIvp.changes, PyCmp.ge, h]

/-- … while a NaN is never taken as an event. -/
theorem nan_never_separates (g : Flt ℝ) : SolveIvp.changes g nan = false ∧ SolveIvp.changes nan g = false := by
  simp [SolveIvp.changes]

namespace Wit
/-- A velocity slope that is undefined everywhere. -/
noncomputable def undef : Callable (Flt ℝ) := ⟨fun _ => .ok .nan, none⟩
/-- A solved object with this slope. -/
noncomputable def undefObj (m : Fits (Flt ℝ)) : Obj (Flt ℝ) :=
  { thw with vel := ⟨some (.fn one.call), some (.fn undef.call), some (.fn zero.call)⟩, events := [.sepThwaites m], fits := some m, sol := some fun _ => [.fin 1] }
theorem undefObj_at (m : Fits (Flt ℝ)) (x : Flt ℝ) : At (undefObj m) x [.fin 1] (.fin 1) .nan (.fin 0) := by
  constructor <;> rfl
end Wit

theorem cebeciBradshaw_undefined_false : ¬ ThwaitesUndefined Fits.cebeciBradshaw := by
  intro h
  have h1 := ((h (Wit.undefObj _) (fin 0) _ _ _ _ (fin 1) rfl rfl (Wit.undefObj_at _ _)).2.1 (.inr rfl)).1
  rw [(cebeciBradshaw_reports_zero (Wit.undefObj _) (fin 0) _ 1 1 1 1 one_pos one_pos rfl rfl rfl (Wit.undefObj_at _ _)).1] at h1
  simp at h1

/-- The same object with the Drela fits reports NaN. -/
example : (Wit.undefObj Fits.drela).shapeD (fin 0) = .ok nan :=
  ((thwaites_undefined_partial _ drela_keeps (Wit.undefObj _) (fin 0) _ _ _ _ (fin 1) rfl rfl (Wit.undefObj_at _ _)).2.1 (.inr rfl)).1
example : KeepsNaN (⟨"", id, id, .fdOfShape, none, none⟩ : Fits (Flt ℝ)) := custom_keeps _ rfl rfl (by simp)
/-- A Head object with an undefined shape factor. -/
example : ({ Wit.hd with sol := some fun _ => [.fin 1, .nan] } : Obj (Flt ℝ)).shapeD (fin 0) = .ok nan := rfl

end IBL
