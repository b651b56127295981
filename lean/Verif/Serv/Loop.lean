import Verif.Runtime.Model
/-!
# The loop_monitor and loop_statistics services

Model of `/repo/src/services/monitor/LoopMonitor.cpp` and `/repo/src/services/LoopStatistics.cpp` for one channel.

Simplified: counters are unbounded; the clock is a number of nanoseconds that comes with each event; whether the time interval of
loop_monitor has expired (`LoopMonitor.cpp:102-106`) is given with each event; pushing a snapshot appends to a list.
-/
namespace Verif.Serv.Loop
open Verif RT

/-- what the services ask of attributes and values: the `loop` attribute, the `class.iteration` meta-attribute, `to_int()`, the text -/
structure LInfo where
  loop : Nat
  iter : Nat → Bool
  toInt : Val → Int
  text : Val → List Byte

/-- an event with the clock and the state of the time interval -/
structure TEv where
  e : Event
  now : Nat
  due : Bool

/-- the entries of a loop_monitor snapshot: `loop.iterations`, `loop.start_iteration` -/
structure Snap where
  iterations : Nat
  start : Option Int
deriving DecidableEq, Repr

/-- `LoopMonitor` (`LoopMonitor.cpp:29-45`) and the snapshots it has pushed -/
structure LM where
  level : Int
  target : Int
  start : Int
  num : Nat
  out : List Snap
deriving DecidableEq

/-- constructor (`LoopMonitor.cpp:122-130`) -/
def LM.new : LM := ⟨0, -1, -1, 0, []⟩

/-- the configuration: `iteration_interval`, `target_loops` -/
structure LMConf where
  interval : Nat
  targets : List (List Byte)

/-- `strncmp(a, b, n) == 0` for `n = b.size()` and texts without NUL bytes (`LoopMonitor.cpp:51-53`) -/
def prefixEq (v s : List Byte) : Bool := s.isPrefixOf v

/-- `is_target_loop` (`LoopMonitor.cpp:46-57`) -/
def isTarget (I : LInfo) (C : LMConf) (v : Val) : Bool := C.targets.isEmpty || C.targets.any fun s => prefixEq (I.text v) s

/-- `snapshot` (`LoopMonitor.cpp:59-72`) -/
def LM.snapshot (s : LM) : LM :=
  { s with out := s.out ++ [⟨s.num, if 0 ≤ s.start then some s.start else none⟩], start := -1, num := 0 }

/-- `begin_cb` (`LoopMonitor.cpp:74-87`) -/
def LM.begin (I : LInfo) (C : LMConf) (s : LM) (a : Nat) (v : Val) : LM :=
  if a = I.loop then
    let s := if s.target < 0 ∧ isTarget I C v = true then ({ s with target := s.level + 1 } : LM).snapshot else s
    { s with level := s.level + 1 }
  else if s.level = s.target ∧ I.iter a = true then
    { s with num := s.num + 1, start := if s.start < 0 then I.toInt v else s.start }
  else s

/-- `end_cb` (`LoopMonitor.cpp:89-113`) -/
def LM.ends (I : LInfo) (C : LMConf) (s : LM) (a : Nat) (due : Bool) : LM :=
  if a = I.loop then
    let s := if s.level = s.target then { s.snapshot with target := -1 } else s
    { s with level := s.level - 1 }
  else if s.level = s.target ∧ I.iter a = true then
    if (decide (0 < C.interval) && decide (s.num % C.interval = 0)) || due then s.snapshot else s
  else s

/-- the callbacks are connected to the events before begin and end (`LoopMonitor.cpp:158-167`) -/
def LM.event (I : LInfo) (C : LMConf) (s : LM) (x : TEv) : LM :=
  match x.e.kind with
  | .preBegin => s.begin I C x.e.attr x.e.val
  | .preEnd => s.ends I C x.e.attr x.due
  | _ => s

/-- the snapshots for a sequence of events -/
def monitor (I : LInfo) (C : LMConf) (es : List TEv) : List Snap := (es.foldl (LM.event I C) LM.new).out

/-- a loop_statistics snapshot: `iter.count` or `iter.duration.ns` -/
inductive SOut where
  | count (n : Nat)
  | duration (t : Nat)
deriving DecidableEq, Repr

/-- `LoopStatisticsService` (`LoopStatistics.cpp:31-39`): `m_loop_info` (innermost first; start time and count), and the snapshots -/
structure LS where
  info : List (Nat × Nat)
  out : List SOut
deriving DecidableEq

def LS.new : LS := ⟨[], []⟩

/-- `begin_cb` (`LoopStatistics.cpp:41-49`) -/
def LS.begin (I : LInfo) (s : LS) (a now : Nat) : LS :=
  if a = I.loop then { s with info := (now, 0) :: s.info }
  else match s.info with
    | [] => s
    | x :: r => if I.iter a then { s with info := (now, x.2 + 1) :: r } else s

/-- `end_cb` (`LoopStatistics.cpp:51-66`) -/
def LS.ends (I : LInfo) (s : LS) (a now : Nat) : LS :=
  match s.info with
  | [] => s
  | x :: r =>
    if a = I.loop then { info := r, out := s.out ++ [.count x.2] }
    else if I.iter a then { s with out := s.out ++ [.duration (now - x.1)] }
    else s

/-- connected to the events before begin and end (`LoopStatistics.cpp:92-101`) -/
def LS.event (I : LInfo) (s : LS) (x : TEv) : LS :=
  match x.e.kind with
  | .preBegin => s.begin I x.e.attr x.now
  | .preEnd => s.ends I x.e.attr x.now
  | _ => s

/-- the snapshots for a sequence of events -/
def statistics (I : LInfo) (es : List TEv) : List SOut := (es.foldl (LS.event I) LS.new).out

end Verif.Serv.Loop
