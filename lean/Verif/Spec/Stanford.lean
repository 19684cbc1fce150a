import Mathlib.Analysis.Real.Sqrt
import Verif.Spec.Text

/-! The rows of the Stanford data as physical states, in the two unit systems of the files. -/

namespace IBL.Spec

/-- The text has these numbers as its columns. -/
def Numbers {K : Type} (blank : Char → Bool) (number : List Char → Option K) (text : List Char) (cols : List K) : Prop :=
  ∃ ws, Columns blank text ws ∧ ws.map number = cols.map some

/-- A summary row in SI: position (m), edge velocity (m/s) and its derivative (1/s), momentum thickness (m), the three shape factors, the three
friction coefficients, the equilibrium parameter. -/
structure SummaryState where
  x : ℝ
  ue : ℝ
  due : ℝ
  theta : ℝ
  h : ℝ
  hs : ℝ
  g : ℝ
  cf : ℝ
  cfLt : ℝ
  cfExp : ℝ
  beta : ℝ

/-- The columns of that row in a file: SI cases have centimetres for the thickness; the others have feet, feet per second and inches. -/
noncomputable def SummaryState.columns (s : SummaryState) : Bool → List ℝ
  | true => [s.x, s.ue, s.due, 100 * s.theta, s.h, s.hs, s.g, s.cf, s.cfLt, s.cfExp, s.beta]
  | false => [s.x / 0.3048, s.ue / 0.3048, s.due, s.theta / 0.0254, s.h, s.hs, s.g, s.cf, s.cfLt, s.cfExp, s.beta]

/-- A row of the station summaries in SI: position, friction velocity, edge velocity, kinematic viscosity (m²/s), momentum, displacement, energy and
Clauser thickness (m), shape factors, Reynolds numbers. -/
structure DetailState where
  x : ℝ
  us : ℝ
  ue : ℝ
  nu : ℝ
  theta : ℝ
  dels : ℝ
  enth : ℝ
  clth : ℝ
  h : ℝ
  g : ℝ
  hs : ℝ
  rtheta : ℝ
  rdels : ℝ

/-- The columns of that row: cm²/s and cm, or ft²/s, ft, ft/s and in. -/
noncomputable def DetailState.columns (d : DetailState) : Bool → List ℝ
  | true => [d.x, d.us, d.ue, 10000 * d.nu, 100 * d.theta, 100 * d.dels, 100 * d.enth, 100 * d.clth, d.h, d.g, d.hs, d.rtheta, d.rdels]
  | false => [d.x / 0.3048, d.us / 0.3048, d.ue / 0.3048, d.nu / 0.3048 ^ 2, d.theta / 0.0254, d.dels / 0.0254, d.enth / 0.0254, d.clth / 0.0254,
      d.h, d.g, d.hs, d.rtheta, d.rdels]

/-- A sample of a velocity profile: distance from the wall (m), velocity relative to the edge, and the three scaled forms. -/
structure SampleState where
  yplus : ℝ
  uplus : ℝ
  y : ℝ
  ratio : ℝ
  yc : ℝ
  udef : ℝ

noncomputable def SampleState.columns (p : SampleState) : Bool → List ℝ
  | true => [p.yplus, p.uplus, 100 * p.y, p.ratio, p.yc, p.udef]
  | false => [p.yplus, p.uplus, p.y / 0.0254, p.ratio, p.yc, p.udef]

/-- What a summary row has to satisfy. -/
structure SummaryState.Positive (s : SummaryState) : Prop where
  ue : 0 < s.ue
  theta : 0 < s.theta
  h : 0 < s.h
  hs : 0 < s.hs
  g : 0 < s.g
  cf : 0 < s.cf

/-- What a row of the station summaries has to satisfy by itself. -/
structure DetailState.Positive (d : DetailState) : Prop where
  us : 0 < d.us
  ue : 0 < d.ue
  nu : 0 < d.nu
  theta : 0 < d.theta
  dels : 0 < d.dels
  enth : 0 < d.enth
  clth : 0 < d.clth
  h : 0 < d.h
  g : 0 < d.g
  hs : 0 < d.hs
  rtheta : 0 < d.rtheta
  rdels : 0 < d.rdels

/-- The two rows describe the same station within the tolerances. -/
structure SameStation (s : SummaryState) (d : DetailState) : Prop where
  x : |d.x - s.x| < 0.002
  ue : |d.ue - s.ue| < 0.06
  theta : |d.theta - s.theta| < 0.002
  h : |d.h - s.h| < 0.002
  hs : |d.hs - s.hs| < 0.002
  g : |d.g - s.g| < 0.002
  dels : |d.dels - s.h * s.theta| < 0.005
  enth : |d.enth - s.hs * s.theta| < 0.005
  rdels : |d.rdels - s.ue * d.dels / d.nu| < 5
  rtheta : |d.rtheta - s.ue * d.theta / d.nu| < 5
  us : |d.us - s.ue * Real.sqrt (s.cf / 2)| < 0.005

/-- The sample belongs to the station within the tolerances. -/
structure SampleOf (d : DetailState) (p : SampleState) : Prop where
  yplus : |p.yplus - p.y * d.us / d.nu| ≤ 1
  yc : |p.yc - p.y / d.clth| ≤ 0.5
  uplus : |p.uplus - d.ue * p.ratio / d.us| ≤ 0.5
  udef : |p.udef - (d.ue - d.ue * p.ratio) / d.us| ≤ 0.5

end IBL.Spec
