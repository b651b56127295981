import Mathlib.Data.List.Basic
/-!
# The region_monitor service

Model of `/repo/src/services/monitor/RegionMonitor.cpp`.  Times are integers (clock ticks) instead of time points and `double` seconds.  The count of measured instances and the log message are left out.
-/
namespace Verif.Serv.RegionMonitor

/-- `RegionInfo` (`RegionMonitor.cpp:21-24`) -/
structure Info where
  incl : Int
  child : Int
  deriving DecidableEq, Repr

/-- members (`RegionMonitor.cpp:26-31`); the last element of `m_time_stack` comes first -/
structure St where
  regs : Nat → Option Info
  stack : List Int
  measuring : Bool
  skip : Int

def St.init : St := ⟨fun _ => none, [], false, 0⟩

/-- a begin or end event: whether the attribute is nested, the node `c->get(attr).node()` and its parent, if there are any, and the time -/
inductive Ev where
  | begin_ (nested : Bool) (node : Option Nat) (now : Int)
  | end_ (nested : Bool) (node parent : Option Nat) (now : Int)
  deriving DecidableEq, Repr

/-- the snapshots: `pull_snapshot` at a begin, `push_snapshot` at an end event, with node and time of the event -/
inductive Snap where
  | pull (node : Nat) (now : Int)
  | push (node : Option Nat) (now : Int)
  deriving DecidableEq, Repr

def upd (f : Nat → Option Info) (n : Nat) (i : Info) : Nat → Option Info := fun x => if x = n then some i else f x

/-- `post_begin_cb` (`RegionMonitor.cpp:35-60`) -/
def postBegin (s : St) (nested : Bool) (node : Option Nat) (now : Int) : St × List Snap :=
  if nested = false then (s, [])
  else if s.measuring then ({ s with skip := s.skip + 1 }, [])
  else
    match node with
    | none => (s, [])
    | some n =>
      let s := { s with stack := now :: s.stack }
      match s.regs n with
      | some i => if i.incl > 2 * i.child then ({ s with measuring := true, skip := 1 }, [.pull n now]) else (s, [])
      | none => (s, [])

/-- set the inclusive time, or make a new entry (`RegionMonitor.cpp:86-93`) -/
def setIncl (regs : Nat → Option Info) (n : Nat) (d : Int) : Nat → Option Info :=
  match regs n with
  | some i => upd regs n { i with incl := d }
  | none => upd regs n ⟨d, 0⟩

/-- add to the child time, or make a new entry (`RegionMonitor.cpp:100-107`) -/
def addChild (regs : Nat → Option Info) (p : Nat) (d : Int) : Nat → Option Info :=
  match regs p with
  | some i => upd regs p { i with child := i.child + d }
  | none => upd regs p ⟨0, d⟩

/-- the bookkeeping at the end of `pre_end_cb` (`RegionMonitor.cpp:85-108`) -/
def note (min : Int) (regs : Nat → Option Info) (n : Nat) (parent : Option Nat) (d : Int) : Nat → Option Info :=
  if d > min then
    match parent with
    | none => setIncl regs n d
    | some p => addChild (setIncl regs n d) p d
  else regs

/-- `pre_end_cb` (`RegionMonitor.cpp:62-109`); `none` stands for taking the last element of an empty vector -/
def preEnd (min : Int) (s : St) (nested : Bool) (node parent : Option Nat) (now : Int) : Option (St × List Snap) :=
  if nested = false then some (s, [])
  else if s.measuring ∧ s.skip - 1 > 0 then some ({ s with skip := s.skip - 1 }, [])
  else
    let out := if s.measuring then [Snap.push node now] else []
    let s := if s.measuring then { s with measuring := false, skip := s.skip - 1 } else s
    match node with
    | none => some (s, out)
    | some n =>
      match s.stack with
      | [] => none
      | prev :: stack => some ({ s with stack := stack, regs := note min s.regs n parent (now - prev) }, out)

/-- one event -/
def step (min : Int) (s : St) : Ev → Option (St × List Snap)
  | .begin_ nested node now => some (postBegin s nested node now)
  | .end_ nested node parent now => preEnd min s nested node parent now

/-- a sequence of events, with the snapshots in order -/
def run (min : Int) : St → List Ev → Option (St × List Snap)
  | s, [] => some (s, [])
  | s, e :: es => (step min s e).bind fun (s', o) => (run min s' es).map fun (s'', o') => (s'', o ++ o')

end Verif.Serv.RegionMonitor
