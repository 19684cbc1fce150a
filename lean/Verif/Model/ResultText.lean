import Verif.Model.Method
import Verif.PyText

/-! `str` of an `IntegrationResult`. -/

namespace IBL
variable {α : Type}

/-- What f-strings make of a number and of a state (numpy; external). -/
structure Format (α : Type) where
  num : α → Text
  state : List α → Text

/-- `str` of a bool. -/
def boolText (b : Bool) : Text := if b then "True".toList else "False".toList

/-- `IntegrationResult.__str__`, ibl_method.py 135-152. The class name is that of the class itself: subclasses are not modelled. -/
def IntegrationResult.str (fmt : Format α) (r : IntegrationResult α) : Text :=
  "IntegrationResult:\n".toList ++
  ("    x_end: ".toList ++ fmt.num r.xEnd ++ "\n".toList) ++
  ("    f_end: ".toList ++ fmt.state r.fEnd ++ "\n".toList) ++
  ("    status: ".toList ++ r.status.text.toList ++ "\n".toList) ++
  ("    message: ".toList ++ r.message.toList ++ "\n".toList) ++
  ("    success: ".toList ++ boolText r.success)

end IBL
