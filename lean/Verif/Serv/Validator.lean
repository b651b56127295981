import Verif.Runtime.Model
/-!
# The validator service

Model of `/repo/src/services/validator/validator.cpp` for one channel.

Simplified: the copy of a region value in the tree (`make_tree_entry`, line 72) has the same contents (the tree is not full); the per-thread
validator is found through the thread's blackboard in the code and in a list here (the two differ only if the blackboard is full); the
stack of nested attributes, kept under the attribute `validator.nested` in the same map, is a separate list.
-/
namespace Verif.Serv.Valid
open Verif RT

/-- what the service asks of attributes: `is_nested()`, process scope -/
structure VInfo where
  nested : Nat → Bool
  process : Nat → Bool

/-- `m_region_stack`: attributes with their open values, innermost last -/
abbrev Stacks := List (Nat × List Val)

/-- `m_region_stack.find(attr)->second` -/
def Stacks.get (m : Stacks) (a : Nat) : List Val := ((m.find? fun x => decide (x.1 = a)).map Prod.snd).getD []

/-- `m_region_stack[attr].push_back(v)` (`validator.cpp:74`) -/
def Stacks.push (m : Stacks) (a : Nat) (v : Val) : Stacks :=
  match m with
  | [] => [(a, [v])]
  | x :: m => if x.1 = a then (a, x.2 ++ [v]) :: m else x :: Stacks.push m a v

/-- `pop_back`, and `erase` if the stack is empty then (`validator.cpp:87-91`) -/
def Stacks.drop (m : Stacks) (a : Nat) : Stacks :=
  match m with
  | [] => []
  | x :: m => if x.1 = a then (if x.2.dropLast = [] then m else (a, x.2.dropLast) :: m) else x :: Stacks.drop m a

/-- `StackValidator` (`validator.cpp:60-172`) -/
structure SV where
  stacks : Stacks
  nst : List Nat
  err : Bool

/-- a new one -/
def SV.new : SV := ⟨[], [], false⟩

/-- `pop` (`validator.cpp:77-94`): the value, or the empty variant -/
def SV.pop (s : SV) (a : Nat) : SV × Val :=
  match (s.stacks.get a).getLast? with
  | none => (s, Val.empty)
  | some v => ({ s with stacks := s.stacks.drop a }, v)

/-- `pop(s_class_nested_attr)` -/
def SV.popN (s : SV) : SV × Option Nat :=
  match s.nst.getLast? with
  | none => (s, none)
  | some v => ({ s with nst := s.nst.dropLast }, some v)

/-- `check_begin` (`validator.cpp:98-109`) -/
def SV.checkBegin (I : VInfo) (s : SV) (a : Nat) (v : Val) : SV × Bool :=
  if s.err then (s, true)
  else
    let s := { s with stacks := s.stacks.push a v }
    let s := if I.nested a then { s with nst := s.nst ++ [a] } else s
    (s, false)

/-- `check_end` (`validator.cpp:111-158`); an empty nested stack gives the empty variant, whose `to_id()` is `CALI_INV_ID` -/
def SV.checkEnd (I : VInfo) (s : SV) (a : Nat) (v : Val) : SV × Bool :=
  if s.err then (s, true)
  else
    let p := s.pop a
    if p.2.ty = .inv then ({ p.1 with err := true }, true)
    else
      let q := if I.nested a then p.1.popN else (p.1, none)
      if I.nested a && decide (q.2 ≠ some a) then ({ q.1 with err := true }, true)
      else if v ≠ p.2 then ({ q.1 with err := true }, true)
      else (q.1, false)

/-- `check_final` (`validator.cpp:160-184`) -/
def SV.checkFinal (s : SV) : Bool := s.err || s.stacks.any fun x => decide (x.2 ≠ [])

/-- `ValidatorService`: `proc_stack`, `thread_stacks`, `global_errors` -/
structure VState where
  proc : SV
  threads : List (Nat × SV)
  errors : Nat

def VState.new : VState := ⟨SV.new, [], 0⟩

/-- `aquire_thread_stack` (`validator.cpp:197-212`) -/
def VState.acquire (s : VState) (th : Nat) : SV := ((s.threads.find? fun x => decide (x.1 = th)).map Prod.snd).getD SV.new

/-- the thread's validator after a check -/
def VState.store (s : VState) (th : Nat) (v : SV) : VState :=
  if th ∈ s.threads.map Prod.fst then { s with threads := s.threads.map fun x => if x.1 = th then (th, v) else x }
  else { s with threads := s.threads ++ [(th, v)] }

/-- `begin_cb` and `end_cb` (`validator.cpp:240-268`), connected to the events before begin and end (`validator.cpp:289-298`) -/
def VState.event (I : VInfo) (s : VState) (e : Event) : VState :=
  match e.kind with
  | .preBegin =>
    if I.process e.attr then
      let r := s.proc.checkBegin I e.attr e.val
      { s with proc := r.1, errors := if r.2 then s.errors + 1 else s.errors }
    else
      let r := (s.acquire e.th).checkBegin I e.attr e.val
      let s := s.store e.th r.1
      { s with errors := if r.2 then s.errors + 1 else s.errors }
  | .preEnd =>
    if I.process e.attr then
      let r := s.proc.checkEnd I e.attr e.val
      { s with proc := r.1, errors := if r.2 then s.errors + 1 else s.errors }
    else
      let r := (s.acquire e.th).checkEnd I e.attr e.val
      let s := s.store e.th r.1
      { s with errors := if r.2 then s.errors + 1 else s.errors }
  | _ => s

/-- `finalize_cb` (`validator.cpp:214-238`): `true` if "Annotation nesting errors found" is reported -/
def VState.final (s : VState) : Bool :=
  let n := (if s.proc.checkFinal then s.errors + 1 else s.errors) + (s.threads.filter fun x => x.2.checkFinal).length
  decide (0 < n)

/-- the report for a sequence of events -/
def report (I : VInfo) (es : List Event) : Bool := (es.foldl (VState.event I) VState.new).final

end Verif.Serv.Valid
