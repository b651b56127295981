import Verif.Py.Annotate
import Verif.Capi.CallsSpec

/-! # What a decorated program should show: the decorated functions that are running -/

namespace Verif.Py.Annotate
open Verif Verif.CApi Verif.AttrReg

/-- for each probe reached, the decorated functions that are running (outermost first); and whether an exception leaves the code -/
def running (path : List (RegionKind × List Byte)) : Py → List (List (RegionKind × List Byte)) × Bool
  | .skip => ([], false)
  | .seq a b => if (running path a).2 then running path a else ((running path a).1 ++ (running path b).1, (running path b).2)
  | .func k name fname body => running (path ++ [(k, (name.filter (· ≠ [])).getD fname)]) body
  | .raise => ([], true)
  | .tryExcept b => ((running path b).1, false)
  | .probe => ([path], false)

/-- no exception leaves a decorated function -/
def Contained : Py → Prop
  | .skip | .raise | .probe => True
  | .seq a b => Contained a ∧ ((running [] a).2 = false → Contained b)
  | .func _ _ _ body => Contained body ∧ (running [] body).2 = false
  | .tryExcept b => Contained b

end Verif.Py.Annotate
