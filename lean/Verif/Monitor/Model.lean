import Verif.Cali.Text

/-! # The `thread_monitor` service: a thread that takes a snapshot every few seconds

Model of `src/services/monitor/ThreadMonitor.cpp` together with the part of the channel's life it depends on: `post_init_evt`
starts the thread, and when the channel is deleted its `finish_evt` callbacks run one after the other, in the order in which the
services were registered (`src/caliper/Caliper.cpp:1393-1409`, `src/services/Services.cpp:159-172`); each callback deletes the
instance of its service. `thread_monitor`'s callback cancels and joins the thread.

The services of the channel are numbered `0 … n-1` in the order of their registration; `k` is the number of `thread_monitor`.
Simplifications: every service has one callback that `push_snapshot` runs (the real services have a `snapshot` or a
`process_snapshot` callback, or none); `num_events` is an `int` in the code and a natural number here; time is not modelled, only
the order of the steps. -/

namespace Verif.Monitor

/-- what the monitoring thread does: not created, about to call `nanosleep` (:58-60), inside `nanosleep`, inside `push_snapshot` with
cancellation disabled and the callbacks of the services `0 … i-1` done (:68-70), or ended -/
inductive Phase where
  | none | enter | sleep | snap (i : Nat) | ended
deriving DecidableEq, Repr

/-- what can be observed: a snapshot with this `monitor.event` number begins, or the callback of service `i` runs, on an instance that
still exists (`true`) or that has been deleted (`false`) -/
inductive Ev where
  | begin (num : Nat)
  | call (i : Nat) (alive : Bool)
deriving DecidableEq, Repr

/-- `n` services, `thread_monitor` is number `k` (the order of `CALI_SERVICES_ENABLE`, `src/services/Services.cpp:159-172`) -/
structure Cfg where
  n : Nat
  k : Nat

/-- `phase`, `num` (`num_events`, :36), `pos` (finish callbacks that have returned), `cancel` (`pthread_cancel` was called),
`running` (`thread_running`, :24), `log` (what happened) -/
structure St where
  phase : Phase
  num : Nat
  pos : Nat
  cancel : Bool
  running : Bool
  log : List Ev
deriving DecidableEq, Repr

/-- before `post_init_evt` (the constructor, ThreadMonitor.cpp:119-130) -/
def init : St := ⟨.none, 0, 0, false, false, []⟩

/-- the steps: `create ok` is `pthread_create` in `post_init_evt` (with its result); `enter`, `wake`, `intr`, `cancelled` and `call`
are steps of the monitoring thread: it calls `nanosleep`; `nanosleep` returns 0 because the time is over; it returns -1 because a
signal was handled; the thread is cancelled inside `nanosleep`; the next callback of `push_snapshot` runs (or the snapshot ends).
`finish` is a step of the thread that deletes the channel. -/
inductive Act where
  | create (ok : Bool) | enter | wake | intr | cancelled | call | finish
deriving DecidableEq, Repr

/-- `monitor` (ThreadMonitor.cpp:48-73), one step. `nanosleep` returns -1 when it is interrupted, with `EINTR` in `errno`; the code
compares the returned value with `EINTR` (:60), so the loop ends there and `ret != 0` ends the monitoring (:62-65). -/
def stepMon (c : Cfg) (s : St) : Act → Option St
  | .enter => if s.phase = .enter then some { s with phase := if s.cancel then .ended else .sleep } else none
  | .wake =>
    if s.phase = .sleep then
      some { s with phase := .snap 0, num := s.num + 1, log := s.log ++ [.begin s.num] }
    else none
  | .intr => if s.phase = .sleep then some { s with phase := .ended } else none
  | .cancelled => if s.phase = .sleep ∧ s.cancel = true then some { s with phase := .ended } else none
  | .call =>
    match s.phase with
    | .snap i =>
      if i < c.n then some { s with phase := .snap (i + 1), log := s.log ++ [.call i (decide (s.pos ≤ i))] }
      else some { s with phase := .enter }
    | _ => none
  | _ => none

/-- the thread that owns the channel: `post_init_cb` / `start` (ThreadMonitor.cpp:82-92, 107-111), the `finish_evt` callbacks
(Caliper.cpp:1408): a callback other than `thread_monitor`'s deletes its instance; `finish_cb` (:113-118) calls `pthread_cancel` if the
thread was created and waits for its end (:94-104) -/
def stepMain (c : Cfg) (s : St) : Act → Option St
  | .create ok =>
    if s.phase = .none ∧ s.pos = 0 then (if ok then some { s with phase := .enter, running := true } else some s) else none
  | .finish =>
    if s.pos < c.n then
      if s.pos = c.k ∧ s.running = true then
        if s.cancel = false then some { s with cancel := true }
        else if s.phase = .ended then some { s with pos := s.pos + 1 }
        else none
      else some { s with pos := s.pos + 1 }
    else none
  | _ => none

/-- one step of either thread (`none`: not possible now; simplification: the steps are atomic; ThreadMonitor.cpp:40-118) -/
def step (c : Cfg) (s : St) (a : Act) : Option St :=
  match a with
  | .create ok => stepMain c s (.create ok)
  | .finish => stepMain c s .finish
  | a => stepMon c s a

/-- an execution: a schedule of steps, each of them possible when its turn comes (ThreadMonitor.cpp:40-118) -/
def run (c : Cfg) : St → List Act → Option St
  | s, [] => some s
  | s, a :: as => match step c s a with | some t => run c t as | none => none

end Verif.Monitor
