import Verif.Serv.Nvtx

/-! # What NVTX is to show, and what its calls mean -/

namespace Verif.Nvtx
open Verif Verif.Bind

/-- the ranges that are open in the library: a stack for each thread in the default domain (`none`) and in each other one, innermost first; and the names of the domains -/
structure Lib where
  stack : Nat → Option Nat → List (Val × Option (BitVec 32))
  name : Nat → Option Text

/-- at the start -/
def Lib.new : Lib := ⟨fun _ _ => [], fun _ => none⟩

/-- what a library call does -/
def Lib.act (L : Lib) : Act → Lib
  | .push th c v => { L with stack := fun t p => if t = th ∧ p = none then (v, c) :: L.stack t p else L.stack t p }
  | .pop th => { L with stack := fun t p => if t = th ∧ p = none then (L.stack t p).tail else L.stack t p }
  | .create h n => { L with name := fun k => if k = h then some n else L.name k }
  | .dpush th h c v => { L with stack := fun t p => if t = th ∧ p = some h then (v, c) :: L.stack t p else L.stack t p }
  | .dpop th h => { L with stack := fun t p => if t = th ∧ p = some h then (L.stack t p).tail else L.stack t p }

/-- what is to be open: for each thread the regions of all nested attributes together (`none`) and those of each other attribute, innermost first, each with the number of its
colour; `texts`: the different texts of regions so far, in the order in which they first appeared -/
structure Want where
  texts : List Text
  opened : Nat → Option Nat → List (Val × Nat)

/-- at the start -/
def Want.new : Want := ⟨[], fun _ _ => []⟩

/-- where the regions of an attribute are shown -/
def place (nested : Nat → Bool) (a : Nat) : Option Nat := if nested a then none else some a

/-- a region begins or ends: regions with the same text have the same colour, and the 14 colours are used in turn for new texts -/
def Want.step (nested : Nat → Bool) (txt : Val → Text) (S : Want) : Call → Want
  | .onBegin th a v =>
    let D := if txt v ∈ S.texts then S.texts else S.texts ++ [txt v]
    ⟨D, fun t p => if t = th ∧ p = place nested a then (v, D.idxOf (txt v) % 14) :: S.opened t p else S.opened t p⟩
  | .onEnd th a _ => { S with opened := fun t p => if t = th ∧ p = place nested a then (S.opened t p).tail else S.opened t p }

/-- after a history -/
def want (nested : Nat → Bool) (txt : Val → Text) (cs : List Call) : Want := cs.foldl (Want.step nested txt) .new

/-- a region with its colour instead of the number of the colour -/
def paint (x : Val × Nat) : Val × Option (BitVec 32) := (x.1, colors[x.2]?)

/-- the library after a history -/
def lib (nested : Nat → Bool) (name : Nat → Text) (txt : Val → Text) (cs : List Call) : Lib := (run nested name txt .new cs).2.foldl Lib.act .new

end Verif.Nvtx
