import Verif.Props.ThwaitesOde
import Verif.Props.FitsSpline

/-! C17 for the default fits. -/

namespace IBL
open Fits

/-- **C17** for the default (Spline) fits: inside the tabulated range of lambda. -/
theorem thwaites_transpiration_spline {cs : CubicSpline ℝ} (hcs : TableSplines cs) (o : Obj ℝ) (u du d2u F : ℝ → ℝ) (x : ℝ)
    (S : ThwaitesSolution o (spline cs) u du F) (hd2 : ∀ t, o.vel.d2uE t = .ok (d2u t))
    (hu : HasDerivAt u (du x) x) (hdu : HasDerivAt du (d2u x) x) (hF : 0 < F x) (hnu : 0 < o.nu) (ode : SatisfiesOde o F x)
    (hl : -9/100 < F x * du x) (hr : F x * du x < 1/4) :
    ∃ (v : ℝ) (dd : ℝ → ℝ), o.vE x = .ok v ∧ (∀ t, o.deltaD t = .ok (dd t)) ∧ HasDerivAt (fun t => u t * dd t) v x :=
  thwaites_transpiration o (spline cs) u du d2u F x S hd2 hu hdu hF hnu ode (spline_shape_p hcs _ hl hr)

end IBL
