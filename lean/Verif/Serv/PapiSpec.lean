import Verif.Serv.Papi
import Batteries.Data.List.Basic
/-!
# Specification of hardware counters

What a counter of a thread should show, from the history alone.
-/
namespace Verif.Serv.Papi
open Verif Verif.Cali

/-- an event the service can count: its component, its code and the attribute it is reported under (unsigned integers, or floating point) -/
def counter (lib : Lib) (name : Str) : Option (Nat × Nat × Attr) :=
  match lib name with
  | some ⟨code, .int64, comp⟩ | some ⟨code, .uint64, comp⟩ => some (comp, code, (str "papi." ++ name, .uint))
  | some ⟨code, .fp64, comp⟩ => some (comp, code, (str "papi." ++ name, .double))
  | _ => none

/-- how often an event occurred on a thread since its counter was last set to zero; history newest first. A counter is set to zero when
counting starts on the thread and when it was read and reset in a snapshot; what occurs while a snapshot resets it is not seen; if the reset
fails, counting goes on. -/
def since (t comp code : Nat) : List Ev → Nat
  | [] => 0
  | .created u _ _ :: h => if u = t then 0 else since t comp code h
  | .released _ :: h => since t comp code h
  | .occur u c n :: h => since t comp code h + (if u = t ∧ c = code then n else 0)
  | .snap u ans :: h =>
    if u = t ∧ (ans comp).read then
      if (ans comp).reset then 0 else since t comp code h + (ans comp).gap code
    else since t comp code h

/-- the thread that made the channel and the threads that started afterwards, until they end; history newest first -/
def Attached (main t : Nat) : List Ev → Prop
  | [] => t = main
  | .created u _ _ :: h => u = t ∨ Attached main t h
  | .released u :: h => u ≠ t ∧ Attached main t h
  | _ :: h => Attached main t h

/-- PAPI makes all event sets with all their events -/
def Complete (ans : Nat → AddAns) : Prop := ∀ c, (ans c).create = true ∧ (ans c).add = 0

/-- a history after `past` (newest first): the library makes and starts the event sets of new threads, and snapshots are made by attached
threads -/
def Proper (main : Nat) : List Ev → List Ev → Prop
  | _, [] => True
  | past, e :: es =>
    (match e with
      | .created _ ans ok => Complete ans ∧ ∀ c, ok c = true
      | .snap t _ => Attached main t past
      | _ => True) ∧ Proper main (e :: past) es

/-- entries of a snapshot of thread `t`: every requested counter that can be read, with its occurrences -/
def entries (lib : Lib) (names : List Str) (t : Nat) (ans : Nat → ReadAns) (past : List Ev) : Rec :=
  (names.filterMap (counter lib)).filterMap fun x =>
    if (ans x.1).read then some (x.2.2, BitVec.ofNat 64 (since t x.1 x.2.1 past)) else none

/-- the snapshots of a history -/
def expected (lib : Lib) (names : List Str) : List Ev → List Ev → List (Nat × Rec)
  | _, [] => []
  | past, .snap t ans :: es => (t, entries lib names t ans past) :: expected lib names (.snap t ans :: past) es
  | past, e :: es => expected lib names (e :: past) es

/-- the same snapshots, their entries in any order -/
def Same (x y : List (Nat × Rec)) : Prop := List.Forall₂ (fun a b => a.1 = b.1 ∧ a.2.Perm b.2) x y

/-- how often an event occurred on a thread -/
def occurrences (t code : Nat) : List Ev → Nat
  | [] => 0
  | .occur u c n :: h => (if u = t ∧ c = code then n else 0) + occurrences t code h
  | _ :: h => occurrences t code h

/-- sum of the values reported for an attribute in the snapshots of a thread -/
def reported (t : Nat) (a : Attr) : List (Nat × Rec) → BitVec 64
  | [] => 0
  | (u, r) :: l => (if u = t then (r.filterMap fun x => if x.1 = a then some x.2 else none).sum else 0) + reported t a l

/-- no snapshot of the history has a failing library call, and no event occurs within a snapshot; the thread neither starts nor ends -/
def Undisturbed (t : Nat) : List Ev → Prop
  | [] => True
  | .created u _ _ :: h => u ≠ t ∧ Undisturbed t h
  | .released u :: h => u ≠ t ∧ Undisturbed t h
  | .occur _ _ _ :: h => Undisturbed t h
  | .snap _ ans :: h => (∀ c, (ans c).read = true ∧ (ans c).reset = true ∧ ∀ k, (ans c).gap k = 0) ∧ Undisturbed t h

end Verif.Serv.Papi
