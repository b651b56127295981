import Verif.Channel.Model
import Verif.Cali.DB
/-!
# The channel functions of the C interface

Model of `/repo/src/caliper/cali.cpp`: config sets (619-644), `cali_create_channel` (646-662, and `cali::create_channel` 778-795),
`cali_delete_channel`, `cali_activate_channel`, `cali_deactivate_channel`, `cali_channel_is_active` (664-707), `cali_flush`,
`cali_channel_flush` (709-731), `cali_push_snapshot`, `cali_channel_push_snapshot` (122-176) and `write_report_for_query` (797-829), and of
`make_default_channel` (`/repo/src/caliper/Caliper.cpp:135-153`), on top of the channel functions of `Verif/Channel/Model`.

What a channel's services do is reduced to one buffer per channel that keeps all snapshots, hands them to the output on a flush, and is
emptied by a clear (trace service with an output service).  A snapshot is its list of trigger entries: the context of the thread is C14 and
C20.  The key-value arrays are lists; their terminating `NULL` entry is `(none, none)`.
-/
namespace Verif.Capi.Chn
open Verif Verif.Cali

/-- `const char*`, `std::string` -/
abbrev Str := List Byte

/-- `std::map<std::string, std::string>`: value of each key -/
abbrev Config := Str → Option Str

/-- a snapshot record: its trigger entries (attribute id and value) -/
abbrev Snap := List (Nat × Verif.Val)

/-- runtime, live config sets, configuration and environment flag of each channel, its buffer, what was given to output services, and
whether the process has crashed -/
structure State where
  ch : Chan.State
  sets : Nat → Option Config
  nsets : Nat
  cfg : Nat → Config × Bool
  buf : Nat → List Snap
  out : List (Nat × List Snap)
  crashed : Bool

/-- calls -/
inductive Call where
  | newSet (l : Option (List (Option Str × Option Str)))
  | setSet (h : Nat) (k v : Str)
  | delSet (h : Nat)
  | create (flags : BitVec 32) (h : Nat)
  | delete (id : Nat)
  | activate (id : Nat)
  | deactivate (id : Nat)
  | isActive (id : Nat)
  | flush (opts : BitVec 32)
  | chFlush (id : Nat) (opts : BitVec 32)
  | push (n : Int) (l : Snap)
  | chPush (id : Nat) (n : Int) (l : Snap)
  | report (id : Nat) (parses : Bool) (opts : BitVec 32)

/-- results: nothing, a number (handle, id, flag), or the records a report is computed from -/
inductive Res where
  | unit
  | num (n : Nat)
  | recs (l : List Snap)
  deriving DecidableEq

/-- `std::map::insert`: keeps an existing value -/
def insert (m : Config) (k v : Str) : Config := fun x => if x = k ∧ m k = none then some v else m x

/-- the loop of `cali_create_configset` (`cali.cpp:630-631`) -/
def fillSet : Config → List (Option Str × Option Str) → Config
  | m, (some k, some v) :: l => fillSet (insert m k v) l
  | m, _ => m

/-- `cali_create_configset` (`cali.cpp:623-634`) -/
def newSet (s : State) (l : Option (List (Option Str × Option Str))) : State × Res :=
  let m := match l with
    | none => fun _ => none
    | some l => fillSet (fun _ => none) l
  ({ s with sets := BB.upd s.sets s.nsets (some m), nsets := s.nsets + 1 }, .num s.nsets)

/-- `cali_configset_set` (`cali.cpp:641-644`); a set that does not exist is a dangling pointer -/
def setSet (s : State) (h : Nat) (k v : Str) : State × Res :=
  match s.sets h with
  | none => ({ s with crashed := true }, .unit)
  | some m => ({ s with sets := BB.upd s.sets h (some fun x => if x = k then some v else m x) }, .unit)

/-- `cali_delete_configset` (`cali.cpp:636-639`) -/
def delSet (s : State) (h : Nat) : State × Res :=
  match s.sets h with
  | none => ({ s with crashed := true }, .unit)
  | some _ => ({ s with sets := BB.upd s.sets h none }, .unit)

/-- `cali_create_channel` (`cali.cpp:646-662`) -/
def create (s : State) (flags : BitVec 32) (h : Nat) : State × Res :=
  match s.sets h with
  | none => ({ s with crashed := true }, .unit)
  | some m =>
    let id := s.ch.next
    let s := { s with ch := Chan.create s.ch, cfg := BB.upd s.cfg id (m, decide (flags &&& 2#32 ≠ 0)), buf := BB.upd s.buf id [] }
    let s := if flags &&& 1#32 = 0 then { s with ch := Chan.activate s.ch id } else s
    (s, .num id)

/-- `cali_delete_channel` (`cali.cpp:664-673`) -/
def delete (s : State) (id : Nat) : State × Res :=
  match Chan.getChannel s.ch id with
  | some c => ({ s with ch := Chan.delete s.ch c }, .unit)
  | none => (s, .unit)

/-- `cali_activate_channel` (`cali.cpp:675-684`) -/
def activate (s : State) (id : Nat) : State × Res :=
  match Chan.getChannel s.ch id with
  | some c => ({ s with ch := Chan.activate s.ch c }, .unit)
  | none => (s, .unit)

/-- `cali_deactivate_channel` (`cali.cpp:686-695`) -/
def deactivate (s : State) (id : Nat) : State × Res :=
  match Chan.getChannel s.ch id with
  | some c => ({ s with ch := Chan.deactivate s.ch c }, .unit)
  | none => (s, .unit)

/-- `cali_channel_is_active` (`cali.cpp:697-707`) -/
def isActive (s : State) (id : Nat) : State × Res :=
  match Chan.getChannel s.ch id with
  | some c => (s, .num (if s.ch.rt.isActive c then 1 else 0))
  | none => (s, .num 0)

/-- `flush_and_write` and `clear` of a channel (`Caliper.cpp:916-942`) -/
def flushOne (s : State) (c : Nat) (opts : BitVec 32) : State :=
  let s := { s with out := s.out ++ [(c, s.buf c)] }
  if opts &&& 1#32 ≠ 0 then { s with buf := BB.upd s.buf c [] } else s

/-- `cali_flush` (`cali.cpp:709-720`) -/
def flush (s : State) (opts : BitVec 32) : State × Res :=
  match Chan.getChannel s.ch 0 with
  | some c => (flushOne s c opts, .unit)
  | none => (s, .unit)

/-- `cali_channel_flush` (`cali.cpp:722-731`): the channel body is used unchecked -/
def chFlush (s : State) (id : Nat) (opts : BitVec 32) : State × Res :=
  match Chan.getChannel s.ch id with
  | some c => (flushOne s c opts, .unit)
  | none => ({ s with crashed := true }, .unit)

/-- the entries used: `n = std::min(std::max(n, 0), 64)` (`cali.cpp:134`) -/
def trigger (n : Int) (l : Snap) : Snap := l.take (min (max n 0) 64).toNat

/-- `push_snapshot` on a channel: its buffer gets a record -/
def pushOne (s : State) (c : Nat) (r : Snap) : State := { s with buf := BB.upd s.buf c (s.buf c ++ [r]) }

/-- the loop of `cali_push_snapshot` (`cali.cpp:144-146`) -/
def pushLoop (r : Snap) : List Nat → State → State
  | [], s => s
  | c :: cs, s => pushLoop r cs (if s.ch.rt.isActive c then pushOne s c r else s)

/-- `cali_push_snapshot` (`cali.cpp:122-147`) -/
def push (s : State) (n : Int) (l : Snap) : State × Res := (pushLoop (trigger n l) s.ch.all s, .unit)

/-- `cali_channel_push_snapshot` (`cali.cpp:149-176`) -/
def chPush (s : State) (id : Nat) (n : Int) (l : Snap) : State × Res :=
  match Chan.getChannel s.ch id with
  | some c => (if s.ch.rt.isActive c then pushOne s c (trigger n l) else s, .unit)
  | none => (s, .unit)

/-- `write_report_for_query` (`cali.cpp:797-829`): the records the query processor gets; `flush_opts` is not used -/
def report (s : State) (id : Nat) (parses : Bool) (_opts : BitVec 32) : State × Res :=
  match Chan.getChannel s.ch id with
  | some c => (s, if parses then .recs (s.buf c) else .unit)
  | none => (s, .unit)

/-- one call; nothing happens after a crash -/
def step (s : State) (c : Call) : State × Res :=
  if s.crashed then (s, .unit)
  else match c with
  | .newSet l => newSet s l
  | .setSet h k v => setSet s h k v
  | .delSet h => delSet s h
  | .create f h => create s f h
  | .delete id => delete s id
  | .activate id => activate s id
  | .deactivate id => deactivate s id
  | .isActive id => isActive s id
  | .flush o => flush s o
  | .chFlush id o => chFlush s id o
  | .push n l => push s n l
  | .chPush id n l => chPush s id n l
  | .report id q o => report s id q o

/-- a history with its results -/
def run (s : State) : List Call → State × List Res
  | [] => (s, [])
  | c :: cs =>
    let x := step s c
    let y := run x.1 cs
    (y.1, x.2 :: y.2)

/-- start-up: a default channel exists if services are configured (`make_default_channel`, `Caliper.cpp:135-153`) -/
def init (t : MTree.Tree) (dflt : Option Config) : State :=
  let s : State := ⟨Chan.init t, fun _ => none, 0, fun _ => (fun _ => none, false), fun _ => [], [], false⟩
  match dflt with
  | none => s
  | some m => { s with ch := Chan.activate (Chan.create s.ch) 0, cfg := BB.upd s.cfg 0 (m, true) }

end Verif.Capi.Chn
