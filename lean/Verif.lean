import Verif.Py
import Verif.Model.InitialCondition
import Verif.Model.Velocity
import Verif.Model.SkinFriction
import Verif.Model.Fits
import Verif.Model.Head
import Verif.Model.Method
import Verif.Lemmas.Method
import Verif.Spec.Method
import Verif.Props.Method
import Verif.Props.MethodHistory
import Verif.Spec.Velocity
import Verif.Props.Velocity
import Verif.Props.Config
import Verif.Lemmas.FiniteDiff
import Verif.Props.FiniteDiff
import Verif.Model.FitsArray
import Verif.Model.ThwaitesArray
import Verif.Props.Fits
import Verif.Props.FitsRegular
import Verif.Lemmas.Flt
import Verif.Props.SkinFriction
import Verif.Lemmas.HeadClosure
import Verif.Props.HeadClosure
import Verif.Model.HeadArray
import Verif.Props.HeadArray
import Verif.Props.HeadOde
import Verif.Props.ThwaitesOde
import Verif.Model.PPoly
import Verif.Props.PPoly
import Verif.Props.ThwaitesQuadrature
import Verif.Model.Analytic
import Verif.Lemmas.Analytic
import Verif.Props.Analytic
import Verif.Props.AnalyticSearch
import Verif.Props.AnalyticFlow
import Verif.Props.AnalyticStale
import Verif.Props.AnalyticThickness
import Verif.Props.AnalyticProfile
import Verif.PyText
import Verif.Spec.Text
import Verif.Lemmas.Text
import Verif.Model.XFoil
import Verif.Props.XFoilData
import Verif.Lemmas.XFoil
import Verif.Lemmas.XFoilForward
import Verif.Props.XFoilReader
import Verif.Props.XFoilStagnation
import Verif.Props.XFoilObject
import Verif.Props.XFoilExamples
import Verif.Spec.CaseFile
import Verif.Spec.Stanford
import Verif.Model.Stanford
import Verif.Model.StanfordCase
import Verif.Lemmas.Stanford
import Verif.Lemmas.StanfordCase
import Verif.Props.StanfordFile
import Verif.Props.StanfordStation
import Verif.Props.StanfordExamples
import Verif.Props.StanfordObject
import Verif.Props.StanfordCase
import Verif.Props.StanfordCaseExamples
import Verif.Spec.Spline
import Verif.Lemmas.Spline
import Verif.Lemmas.SplineSlope
import Verif.Props.FitsSpline
import Verif.Model.SolveIvp
import Verif.Lemmas.SolveIvp
import Verif.Props.Separation
import Verif.Props.SeparationExamples
import Verif.Model.Shared
import Verif.Props.Shared
import Verif.Props.Kinetic
import Verif.Lemmas.Barrier
import Verif.Props.Positivity
import Verif.Props.HeadLimits
import Verif.Props.HeadExamples
import Verif.Props.Acceleration
import Verif.Spec.Shift
import Verif.Props.Translation
import Verif.Props.Units
import Verif.Props.FlatPlate
import Verif.Props.DenseOutput
import Verif.Props.ThwaitesUnique
import Verif.Props.ThwaitesExists
import Verif.Props.ThwaitesWhite
import Verif.Props.Assign
import Verif.Props.Undefined
import Verif.Round
import Verif.Props.XFoilRounded
import Verif.Props.RoundedFd
import Verif.Props.Rounded
import Verif.Props.AnalyticEquation
import Verif.Props.AnalyticBlasius
import Verif.Lemmas.Secant
import Verif.Props.AnalyticShooting
import Verif.Props.Exceptions
import Verif.Props.XFoilErrors
import Verif.Props.ThwaitesArray
import Verif.Props.HeadUnique
import Verif.Model.Pchip
import Verif.Spec.Table
import Verif.Spec.Turbulent
import Verif.Lemmas.Pchip
import Verif.Lemmas.PchipScale
import Verif.Props.Pchip
import Verif.Props.TableFlow
import Verif.Props.TableUnits
import Verif.Props.XFoilTable
import Verif.Props.Comparison
import Verif.Props.StanfordHead
import Verif.Props.AnalyticArray
import Verif.Props.StagnationBound
import Verif.Props.Repeatable
import Verif.Props.StanfordPartial
import Verif.Props.EventsSince
import Verif.Props.ThwaitesOdeSpline
import Verif.Props.InitialRead
import Verif.Lemmas.PchipFinite
import Verif.Props.TableFinite
import Verif.Lemmas.HeadTable
import Verif.Props.XFoilHead
import Verif.Props.StagnationStart
import Verif.Props.Wedge
import Verif.Props.Decelerated
import Verif.Props.Drag
import Verif.Model.ResultText
import Verif.Props.ResultText
import Verif.Props.Persistent
import Verif.Props.TableError
import Verif.Props.HeadGlobal
import Verif.Props.HeadSeparates
import Verif.Props.XFoilMirror
import Verif.Props.AnalyticUnits
import Verif.Props.HeadError
import Verif.Props.Printed
import Verif.Props.PrintedDump
import Verif.Lemmas.PolyEval
import Verif.Lemmas.PchipRound
import Verif.Props.RoundedTable
import Verif.Model.RungeKutta
import Verif.Lemmas.RungeKutta
import Verif.Lemmas.RungeKuttaLine
import Verif.Props.RungeKutta
import Verif.Props.RungeKuttaExact
import Verif.Lemmas.Expansion
import Verif.Lemmas.RkAffine
import Verif.Props.RungeKuttaOrder
import Verif.Props.Viscosity
import Verif.Props.SeparationOrder
import Verif.Props.RungeKuttaSuccess
import Verif.Props.RungeKuttaConverges
import Verif.Props.RungeKuttaFlow
import Verif.Props.SeparationConverges
import Verif.Props.RungeKuttaPassage
import Verif.Props.HeadPassage
import Verif.Model.KillEvent
import Verif.Props.KillEvent
import Verif.Props.RungeKuttaOneSided
import Verif.Props.WhiteConverges
import Verif.Lemmas.RkRound
import Verif.Props.RungeKuttaRounded
import Verif.Props.RungeKuttaRoundedCase
import Verif.Lemmas.RkFloat
import Verif.Props.RungeKuttaFloat
import Verif.Props.AnalyticDrag
import Verif.Props.AnalyticViscosity
import Verif.Props.RungeKuttaFloatSep
import Verif.Props.SeparationFloat
import Verif.Props.StartFloat
import Verif.Props.StanfordFloat
import Verif.Props.ViscosityFloat
import Verif.Props.AnalyticFloat
import Verif.Props.StanfordCaseFloat
import Verif.Props.HeadFloat
import Verif.Props.XFoilFloat
import Verif.Props.HeadArrayFloat
import Verif.Props.TableUnitsFloat
import Verif.Props.InitialFloat
import Verif.Props.SkinFrictionFloat
import Verif.Props.HeadClosureFloat
import Verif.Props.LaminarQueriesFloat
import Verif.Props.HeadShearFloat
import Verif.Props.FitsFloat
import Verif.Props.SimilarityFloat
