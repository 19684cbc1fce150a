import Verif.Model.Method

/-! Model of what `IBLMethod` offers to classes derived from it to extend the list of events (`ibl/ibl_method.py` 670-698), and of the label
of a set of data fits (`ibl/thwaites_method.py` 535-537). The library itself calls neither `_add_kill_event` nor `get_name`. -/

namespace IBL
variable {α : Type}

/-- `_add_kill_event`, ibl_method.py 670-683: `append` for a single event, `+=` for a list. -/
def Obj.addKillEvent (o : Obj α) (ke : TermArg α) : Obj α := { o with events := o.events ++ ke.toList }

/-- `_set_kill_event`, ibl_method.py 685-698. Simplified: for a list the object keeps a reference to the list of the caller, which a later `solve` extends; here
lists are values. -/
def Obj.setKillEvent (o : Obj α) (ke : TermArg α) : Obj α := { o with events := ke.toList }

/-- `get_name`, thwaites_method.py 535-537, of the functions chosen last; python raises AttributeError if there are none. -/
def Obj.fitsName (o : Obj α) : Option String := o.fits.map (·.name)

end IBL
