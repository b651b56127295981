import Verif.Cali.Text
/-!
# Model of the sampler service

Models `/repo/src/services/sampler/Sampler.cpp` with the parts of `/repo/src/caliper/Caliper.cpp` that call it. The operating system is part of the
environment: when timers expire, whether a timer can be made, and what the threads do.

Simplifications: the signal handler is two steps, entering it (which looks up the Caliper instance) and taking the snapshot; threads have numbers
that are not used again; a frequency is an integer (`int`); the unwind cursor and log messages are left out. A timer that could not be armed is left
out (it never expires).
-/
namespace Verif.Serv.Smp
open Verif

/-- a POSIX timer: what it is known by, the thread that it interrupts and its period in nanoseconds -/
structure Timer where
  id : Nat
  tid : Nat
  period : Nat
deriving DecidableEq, Repr

/-- a sample: channel, thread, and address of the interrupted instruction -/
structure Sample where
  chan : Nat
  tid : Nat
  pc : Nat
deriving DecidableEq, Repr

/-- the static variables of the service (Sampler.cpp:38-49), the threads' blackboard entries for the timer attributes and the part of Caliper's and the
operating system's state that matters -/
structure State where
  /-- `on_prof` is installed for SIGPROF (otherwise it is ignored) -/
  handler : Bool
  /-- `channel` (Sampler.cpp:49) -/
  chan : Option Nat
  /-- the channel number in the name of `timer_attr` (Sampler.cpp:222-226) -/
  attr : Nat
  /-- `nsec_interval` (Sampler.cpp:42) -/
  interval : Nat
  /-- number of channels made -/
  nchan : Nat
  /-- number of timers made -/
  ntimer : Nat
  /-- armed timers -/
  timers : List Timer
  /-- the timer attribute of a channel on a thread's blackboard -/
  board : Nat → Nat → Option Nat
  /-- `stack_error` of a thread (Caliper.cpp:253) -/
  frozen : Nat → Bool
  /-- threads that have used Caliper -/
  known : List Nat
  /-- threads that have ended -/
  gone : List Nat
  /-- a thread in the signal handler, with the interrupted address -/
  pend : Nat → Option Nat
  /-- the channel is active -/
  active : Bool
  /-- samples taken, last first -/
  samples : List Sample
  /-- a null pointer was used -/
  crashed : Bool

/-- at the beginning: thread 0 uses Caliper -/
def init : State := ⟨false, none, 0, 0, 0, 0, [], fun _ _ => none, fun _ => false, [0], [], fun _ => none, false, [], false⟩

/-- what happens -/
inductive Ev where
  /-- thread `t` makes a channel with the sampler service and this frequency; `ok`: the timer can be made -/
  | create (t : Nat) (frequency : Int) (ok : Bool)
  /-- thread `t` deletes the sampler's channel -/
  | delete (t : Nat)
  /-- the channel is activated or deactivated -/
  | activate (a : Bool)
  /-- thread `t` uses Caliper for the first time -/
  | start (t : Nat) (ok : Bool)
  /-- thread `t` ends -/
  | exit (t : Nat)
  /-- thread `t` ends a region that it has not begun -/
  | freeze (t : Nat)
  /-- a timer of thread `t` expires; `locked`: the thread is inside Caliper -/
  | fire (t : Nat) (locked : Bool) (pc : Nat)
  /-- thread `t` takes the snapshot in the signal handler -/
  | push (t : Nat)
deriving DecidableEq, Repr

def upd {β : Type} (f : Nat → β) (t : Nat) (v : β) : Nat → β := fun u => if u = t then v else f u

/-- `setup_settimer` (Sampler.cpp:127-160): `timer_settime` refuses 10^9 nanoseconds and more; `Caliper::set` does nothing on a thread with a nesting
error (Caliper.cpp:1071-1074) -/
def setup (ok : Bool) (t : Nat) (s : State) : State :=
  if ok = false then s
  else if 1000000000 ≤ s.interval then { s with ntimer := s.ntimer + 1 }
  else { s with
    ntimer := s.ntimer + 1
    timers := s.timers ++ [⟨s.ntimer, t, s.interval⟩]
    board := if s.frozen t then s.board else upd s.board t (upd (s.board t) s.attr (some s.ntimer)) }

/-- `clear_timer` (Sampler.cpp:162-180) -/
def clear (t : Nat) (s : State) : State :=
  match s.board t s.attr with
  | none => s
  | some i => { s with timers := s.timers.filter fun x => x.id ≠ i }

/-- the sanity check of the frequency (Sampler.cpp:241-245) -/
def interval (f : Int) : Nat := (Int.tdiv 1000000000 (min (max f 1) 10000)).toNat

/-- a step: `sampler_register` (Sampler.cpp:209-262), `pre_finish_cb` and `finish_cb` (Sampler.cpp:192-207), `create_thread_cb` and `release_thread_cb`
(Sampler.cpp:182-190; Caliper.cpp:1500-1506, 1432-1438) and `on_prof` (Sampler.cpp:64-98; Caliper.cpp:1510-1518). `push_snapshot` does not look at
whether the channel is active (Caliper.cpp:856-871). -/
def step (e : Ev) (s : State) : State :=
  match e with
  | .create t f ok =>
    match s.chan with
    | some _ => { s with nchan := s.nchan + 1 }
    | none =>
      setup ok t { s with
        chan := some s.nchan
        attr := s.nchan
        nchan := s.nchan + 1
        interval := interval f
        handler := true
        active := true }
  | .delete t =>
    match s.chan with
    | none => s
    | some _ => { clear t s with handler := false, chan := none }
  | .activate a => { s with active := a }
  | .start t ok =>
    if t ∈ s.known ∨ t ∈ s.gone then s
    else
      let s := { s with known := t :: s.known }
      match s.chan with
      | none => s
      | some _ => setup ok t s
  | .exit t =>
    let s := if t ∈ s.known ∧ s.chan ≠ none then clear t s else s
    { s with known := s.known.filter (· ≠ t), gone := t :: s.gone, pend := upd s.pend t none }
  | .freeze t => if t ∈ s.known then { s with frozen := upd s.frozen t true } else s
  | .fire t locked pc =>
    if s.handler = true ∧ t ∈ s.known ∧ (∃ x ∈ s.timers, x.tid = t) ∧ s.pend t = none ∧ locked = false then { s with pend := upd s.pend t (some pc) }
    else s
  | .push t =>
    match s.pend t with
    | none => s
    | some pc =>
      match s.chan with
      | none => { s with pend := upd s.pend t none, crashed := true }
      | some k => { s with pend := upd s.pend t none, samples := ⟨k, t, pc⟩ :: s.samples }

/-- a history, last event first -/
def run (s : State) : List Ev → State
  | [] => s
  | e :: h => step e (run s h)

end Verif.Serv.Smp
