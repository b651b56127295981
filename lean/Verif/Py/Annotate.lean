import Verif.Capi.Calls

/-! # The Python decorator `annotate_function`

Model of `src/interface/python/pycaliper/high_level.py`; `begin_region` etc. are the functions of the C interface
(`src/interface/python/instrumentation.cpp:155-193`, `Capi/Calls`). A program is made of decorated functions, exceptions and handlers.
Not modelled: the invalid annotation type, for which the decorator raises `ValueError` when it is applied (`high_level.py:44-45`). -/

namespace Verif.Py.Annotate
open Verif Verif.CApi Verif.AttrReg

/-- Python code, as far as the decorator is concerned: statements one after the other, a call of a decorated function (kind, the `name` argument of the
decorator, `__name__` of the function, body), `raise`, `try: … except: pass`, and a point at which we look at the context -/
inductive Py where
  | skip
  | seq (a b : Py)
  | func (k : RegionKind) (name : Option (List Byte)) (fname : List Byte) (body : Py)
  | raise
  | tryExcept (b : Py)
  | probe
deriving DecidableEq, Repr

/-- `real_name` (`high_level.py:41-43`) -/
def realName (name : Option (List Byte)) (fname : List Byte) : List Byte :=
  match name with
  | none => fname
  | some n => if n = [] then fname else n

/-- running it: the calls made (`none`: a probe), and whether an exception leaves it; `wrapper` (`high_level.py:47-52`) has no handler -/
def exec : Py → List (Option Call) × Bool
  | .skip => ([], false)
  | .seq a b => if (exec a).2 then exec a else ((exec a).1 ++ (exec b).1, (exec b).2)
  | .func k name fname body =>
    let n := realName name fname
    if (exec body).2 then (some (.beginRegion k n) :: (exec body).1, true)
    else (some (.beginRegion k n) :: (exec body).1 ++ [some (.endRegion k n)], false)
  | .raise => ([], true)
  | .tryExcept b => ((exec b).1, false)
  | .probe => ([none], false)

/-- the calls before each probe (`high_level.py:47-52`) -/
def probes (pre : List Call) : List (Option Call) → List (List Call)
  | [] => []
  | none :: l => pre :: probes pre l
  | some c :: l => probes (pre ++ [c]) l

end Verif.Py.Annotate
