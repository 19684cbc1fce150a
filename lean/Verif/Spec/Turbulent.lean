import Mathlib.Analysis.SpecialFunctions.Pow.Real

/-! The published correlations of Head's method, as they are found in textbooks, with real powers. -/

namespace IBL

/-- Ludwieg and Tillmann's skin friction coefficient of momentum thickness Reynolds number and shape factor. -/
noncomputable def lawFriction (re h : ℝ) : ℝ := 246/1000 * 10 ^ (-(678/1000) * h) * re ^ (-(268/1000) : ℝ)

/-- The entrainment shape factor of the shape factor (the constant of the second branch is chosen by the code, to 18 digits, so that the
branches meet at 1.6). -/
noncomputable def lawH1 (h : ℝ) : ℝ :=
  if h ≤ 16/10 then 33/10 + 8234/10000 * (h - 11/10) ^ (-(1287/1000) : ℝ)
  else 332254659218600974/10^17 + 15501/10000 * (h - 6778/10000) ^ (-(3064/1000) : ℝ)

/-- The entrainment velocity over the edge velocity, of the entrainment shape factor. -/
noncomputable def lawEntrainment (e : ℝ) : ℝ := 306/10000 * (e - 3) ^ (-(6169/10000) : ℝ)

end IBL
