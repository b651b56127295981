import Verif.Monitor.Model

/-! # What the user expects of `thread_monitor` -/

namespace Verif.Monitor

/-- the `monitor.event` numbers in the order of the snapshots -/
def numbers (l : List Ev) : List Nat := l.filterMap fun | .begin n => some n | _ => none

/-- a callback of service `i` ran on a deleted instance -/
def UsedAfterDelete (l : List Ev) (i : Nat) : Prop := Ev.call i false ∈ l

/-- what one complete snapshot looks like, when the instances are ignored: its number, then the callbacks of all services in order -/
def wholeSnapshot (n num : Nat) : List (Nat ⊕ Nat) := .inl num :: (List.range n).map .inr

/-- the events without the information which instance existed -/
def shape (l : List Ev) : List (Nat ⊕ Nat) := l.map fun | .begin n => .inl n | .call i _ => .inr i

/-- steps of the monitoring thread -/
def isMon : Act → Bool
  | .create _ | .finish => false
  | _ => true

end Verif.Monitor
