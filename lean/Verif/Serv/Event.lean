import Verif.Runtime.Model
import Verif.Parse.RegionFilter
/-!
# The event and timer services

Model of `/repo/src/services/event/EventTrigger.cpp` (which annotation events trigger snapshots) and of
`/repo/src/services/timer/Timer.cpp` (what time values the snapshots get), for one channel.

Left out: the contents of a snapshot other than the trigger entry, the region count entry and the time values (see `Verif/Snapshot`); the
marker nodes are represented by the set of marked attributes; the per-thread `TimerInfo` is looked up on the thread's blackboard in the
code and in a map here (the two differ only if the blackboard is full).
-/
namespace Verif.Serv
open Verif RT Verif.Parse

/-- what the event service reads from an attribute: id, name, `level()` (`Attribute.h:63`), `skip_events()` and the
`subscription_event` metadata entry (`EventTrigger.cpp:144-147`) -/
structure AttrInfo where
  id : Nat
  name : List Byte
  level : Nat
  skip : Bool
  subs : Bool

/-- configuration of the event service (`EventTrigger.cpp:46-57`, `264-312`); `isStr` is `attr.type() == CALI_TYPE_STRING` by attribute id -/
structure EvtCfg where
  isStr : Nat → Bool
  names : List (List Byte)
  level : Nat
  info : Bool
  region : RegionFilter
  branch : RegionFilter

/-- `RegionFilter::has_filters` (`RegionFilter.h:54`) -/
def hasFilters (R : RegionFilter) : Bool := R.excl.isSome || R.incl.isSome

/-- bytes of a variant (`val.data()`, `val.size()`); the bytes of non-string values are a parameter -/
def bytesOf (raw : BitVec 64 → List Byte) (v : Val) : List Byte :=
  match v.c with
  | .inl bs => bs
  | .inr w => raw w

/-- `check_attribute` (`EventTrigger.cpp:116-129`): will the attribute be marked? -/
def EvtCfg.check (C : EvtCfg) (a : AttrInfo) : Bool :=
  if a.id < 12 || a.skip then false
  else if decide (C.names.length > 0) && !(C.names.contains a.name) then false
  else if a.level < C.level then false
  else true

/-- per-channel data of the event service: the marked attributes and
`branch_filter_stack` (`EventTrigger.cpp:62`) -/
structure EvtState where
  marked : Nat → Bool
  stack : List Val

/-- `mark_attribute` if `check_attribute` allows it -/
def EvtState.mark (C : EvtCfg) (s : EvtState) (a : AttrInfo) : EvtState :=
  if C.check a then { s with marked := fun i => if i = a.id then true else s.marked i }
  else s

/-- the `create_attr_evt` callback (`EventTrigger.cpp:338-341`), also used for the attributes existing at start-up
(`check_existing_attributes`, `EventTrigger.cpp:254-261`) -/
def EvtState.create (C : EvtCfg) (s : EvtState) (a : AttrInfo) : EvtState := if a.subs then s else s.mark C a

/-- the `subscribe_attribute` callback (`EventTrigger.cpp:342-344`) -/
def EvtState.subscribe (C : EvtCfg) (s : EvtState) (a : AttrInfo) : EvtState := s.mark C a

/-- trigger info entries: for a region begin, set or end (attribute and value), or given by the user -/
inductive Trig where
  | begin (a : Nat) (v : Val)
  | set (a : Nat) (v : Val)
  | end_ (a : Nat) (v : Val)
  | other
  deriving DecidableEq

/-- a requested snapshot: first trigger info entry, and whether `region.count = 1` is added -/
structure Req where
  info : Option Trig
  count : Bool
  deriving DecidableEq

variable (raw : BitVec 64 → List Byte)

/-- the filter part of `pre_begin_cb` and `pre_set_cb` (`EventTrigger.cpp:155-167`, `195-207`) -/
def EvtState.enter (C : EvtCfg) (s : EvtState) (a : Nat) (v : Val) : EvtState × Bool :=
  if !s.marked a then (s, false)
  else if C.isStr a && !C.region.pass (bytesOf raw v) then (s, false)
  else if hasFilters C.branch then
    let stk := if C.branch.pass (bytesOf raw v) then s.stack ++ [v] else s.stack
    if stk = [] then ({ s with stack := stk }, false) else ({ s with stack := stk }, true)
  else (s, true)

/-- the filter part of `pre_end_cb` (`EventTrigger.cpp:226-238`) -/
def EvtState.leave (C : EvtCfg) (s : EvtState) (a : Nat) (v : Val) : EvtState × Bool :=
  if !s.marked a then (s, false)
  else if C.isStr a && !C.region.pass (bytesOf raw v) then (s, false)
  else if hasFilters C.branch then
    if s.stack = [] then (s, false)
    else if s.stack.getLast? = some v then ({ s with stack := s.stack.dropLast }, true)
    else (s, true)
  else (s, true)

/-- `pre_begin_cb`, `pre_set_cb`, `pre_end_cb` (`EventTrigger.cpp:153-251`); there is no callback for the post-begin event -/
def EvtState.event (C : EvtCfg) (s : EvtState) (e : Event) : EvtState × Option Req :=
  match e.kind with
  | .preBegin =>
    let r := s.enter raw C e.attr e.val
    (r.1, if r.2 then some ⟨if C.info then some (.begin e.attr e.val) else none, false⟩ else none)
  | .preSet =>
    let r := s.enter raw C e.attr e.val
    (r.1, if r.2 then some ⟨if C.info then some (.set e.attr e.val) else none, false⟩ else none)
  | .preEnd =>
    let r := s.leave raw C e.attr e.val
    (r.1, if r.2 then some ⟨if C.info then some (.end_ e.attr e.val) else none, true⟩ else none)
  | .postBegin => (s, none)

/-! ### timer -/

/-- `TimerInfo` (`Timer.cpp:31-39`) -/
structure TInfo where
  prev : BitVec 64
  stacks : Nat → List (BitVec 64)

/-- data of the timer service: per-thread `TimerInfo`, `n_stack_errors` -/
structure TState where
  ti : Nat → Option TInfo
  errors : Nat

/-- the values appended to a snapshot record: `time.offset.ns`, `time.duration.ns`, `time.inclusive.duration.ns` -/
structure TRec where
  offset : BitVec 64
  duration : Option (BitVec 64)
  inclusive : Option (BitVec 64)
  deriving DecidableEq

/-- a new `TimerInfo` -/
def TInfo.new : TInfo := ⟨0, fun _ => []⟩

/-- `acquire_timerinfo` (`Timer.cpp:65-79`); `sig` = `c->is_signal()` -/
def TState.acquire (s : TState) (th : Nat) (sig : Bool) : TState × Option TInfo :=
  match s.ti th with
  | some i => (s, some i)
  | none => if sig then (s, none) else ({ s with ti := BB.upd s.ti th (some TInfo.new) }, some TInfo.new)

/-- `snapshot_cb` (`Timer.cpp:81-121`) at time `now` (nanoseconds since the channel was created) -/
def TState.snapshot (incl : Bool) (s : TState) (now : BitVec 64) (th : Nat) (sig : Bool) (info : Option Trig) : TState × TRec :=
  match s.acquire th sig with
  | (s, none) => (s, ⟨now, none, none⟩)
  | (s, some i) =>
    let dur := now - i.prev
    let i := { i with prev := now }
    if incl && info.isSome && !sig then
      match info with
      | some (.begin a _) =>
        ({ s with ti := BB.upd s.ti th (some { i with stacks := BB.upd i.stacks a (i.stacks a ++ [now]) }) }, ⟨now, some dur, none⟩)
      | some (.end_ a _) =>
        match (i.stacks a).getLast? with
        | none => ({ ti := BB.upd s.ti th (some i), errors := s.errors + 1 }, ⟨now, some dur, none⟩)
        | some t =>
          ({ s with ti := BB.upd s.ti th (some { i with stacks := BB.upd i.stacks a (i.stacks a).dropLast }) }, ⟨now, some dur, some (now - t)⟩)
      | _ => ({ s with ti := BB.upd s.ti th (some i) }, ⟨now, some dur, none⟩)
    else ({ s with ti := BB.upd s.ti th (some i) }, ⟨now, some dur, none⟩)

/-! ### both services on a channel -/

/-- what happens on a channel: an annotation callback, an attribute created or subscribed, a new thread, or a snapshot requested by
something else (a sampling signal, an API call) -/
inductive COp where
  | event (e : Event)
  | create (a : AttrInfo)
  | subscribe (a : AttrInfo)
  | attach (th : Nat)
  | snap (th : Nat) (sig : Bool) (info : Option Trig)

/-- configuration of both services: `inclusive_duration` is switched off if the event attributes do not exist (`Timer.cpp:123-139`) -/
structure Cfg where
  evt : EvtCfg
  incl : Bool

/-- state of both services -/
structure State where
  evt : EvtState
  tim : TState

/-- a snapshot taken on the channel -/
structure Snap where
  th : Nat
  sig : Bool
  info : Option Trig
  count : Bool
  time : TRec
  deriving DecidableEq

/-- take a snapshot -/
def State.take (C : Cfg) (s : State) (now : BitVec 64) (th : Nat) (sig : Bool) (r : Req) : State × List Snap :=
  let x := s.tim.snapshot C.incl now th sig r.info
  ({ s with tim := x.1 }, [⟨th, sig, r.info, r.count, x.2⟩])

/-- one step at time `now`; annotation callbacks do not happen in signal handlers (they hold the signal lock) -/
def State.step (C : Cfg) (s : State) (now : BitVec 64) : COp → State × List Snap
  | .event e =>
    let x := s.evt.event raw C.evt e
    match x.2 with
    | none => ({ s with evt := x.1 }, [])
    | some r => { s with evt := x.1 }.take C now e.th false r
  | .create a => ({ s with evt := s.evt.create C.evt a }, [])
  | .subscribe a => ({ s with evt := s.evt.subscribe C.evt a }, [])
  | .attach th => ({ s with tim := (s.tim.acquire th false).1 }, [])
  | .snap th sig info => s.take C now th sig ⟨info, false⟩

/-- a history with time stamps: final state and all snapshots, in order -/
def State.run (C : Cfg) (s : State) : List (BitVec 64 × COp) → State × List Snap
  | [] => (s, [])
  | (t, op) :: h =>
    let x := s.step raw C t op
    let y := State.run C x.1 h
    (y.1, x.2 ++ y.2)

/-- a new channel: the existing attributes are checked (`EventTrigger.cpp:331`), the creating thread gets its `TimerInfo` -/
def State.init (C : Cfg) (th : Nat) (attrs : List AttrInfo) : State :=
  ⟨attrs.foldl (fun s a => s.create C.evt a) ⟨fun _ => false, []⟩, (TState.acquire ⟨fun _ => none, 0⟩ th false).1⟩

end Verif.Serv
