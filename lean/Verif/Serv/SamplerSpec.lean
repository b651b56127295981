import Verif.Serv.Sampler
/-!
# Specification of the sampler service

Histories have the last event first. `c` is the thread that made the channel, `old` the threads that were there before or had ended.
-/
namespace Verif.Serv.Smp
open Verif

/-- the threads that are sampled after a history that began when the channel was made -/
def Sampled (c : Nat) (old : List Nat) (h : List Ev) (t : Nat) : Prop :=
  (t = c ∨ (t ∉ old ∧ ∃ ok, Ev.start t ok ∈ h)) ∧ Ev.exit t ∉ h

/-- the period of sampling in nanoseconds: 1 to 10000 times a second -/
def period (f : Int) : Nat := if f ≤ 1 then 1000000000 else if 10000 ≤ f then 100000 else 1000000000 / f.toNat

open Classical in
/-- the sample that a thread is taking: it was interrupted outside Caliper and has not recorded the sample yet -/
noncomputable def taking (c : Nat) (old : List Nat) (t : Nat) : List Ev → Option Nat
  | [] => none
  | .fire u locked pc :: h =>
    if u = t ∧ locked = false ∧ Sampled c old h t ∧ taking c old t h = none then some pc else taking c old t h
  | .push u :: h => if u = t then none else taking c old t h
  | .exit u :: h => if u = t then none else taking c old t h
  | _ :: h => taking c old t h

/-- the samples of a history, last first: one for each interrupt of a sampled thread outside Caliper -/
noncomputable def taken (k c : Nat) (old : List Nat) : List Ev → List Sample
  | [] => []
  | .push t :: h =>
    match taking c old t h with
    | some pc => ⟨k, t, pc⟩ :: taken k c old h
    | none => taken k c old h
  | _ :: h => taken k c old h

/-- no sampler: nothing is set up, no timer is left over, no thread is in the handler -/
structure Idle (s : State) : Prop where
  handler : s.handler = false
  chan : s.chan = none
  timers : s.timers = []
  pend : ∀ t, s.pend t = none
  board : ∀ t k i, s.board t k = some i → k < s.nchan
  known : ∀ t ∈ s.known, t ∉ s.gone
  frozen : ∀ t, s.frozen t = true → t ∈ s.known ∨ t ∈ s.gone

end Verif.Serv.Smp
