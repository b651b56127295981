import Verif.Serv.Pthread

/-! # The program without the pthread service

What the same actions do when nothing wraps `pthread_create`: written without the wrapper, the heap and the blackboards. -/

namespace Verif.Pthread

/-- a thread of the plain program -/
inductive PPhase where
  | fresh
  | created (a : Args)
  | running
  | ended
deriving DecidableEq

/-- the plain program: its threads, the user functions called, the results -/
structure Plain where
  ph : Nat → PPhase
  calls : List (Nat × Args)
  rets : List (Nat × Nat)

/-- at the beginning -/
def Plain.begin : Plain := { ph := fun k => if k = 0 then .running else .fresh, calls := [], rets := [] }

/-- one action of the plain program -/
def Plain.step (s : Plain) : Act → Plain
  | .create k a ok => if ok = true ∧ s.ph k = .fresh then { s with ph := fun j => if j = k then .created a else s.ph j } else s
  | .start k =>
    match s.ph k with
    | .created a => { s with ph := fun j => if j = k then .running else s.ph j, calls := s.calls ++ [(k, a)] }
    | _ => s
  | .ret k v | .exit k v => if s.ph k = .running then { s with ph := fun j => if j = k then .ended else s.ph j, rets := s.rets ++ [(k, v)] } else s
  | .init _ | .finalize => s

/-- any history -/
def Plain.run (s : Plain) (as : List Act) : Plain := as.foldl Plain.step s

end Verif.Pthread
