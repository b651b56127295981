import Verif.Cali.Text
/-!
# Model of the PAPI service (hardware counters)

Models `/repo/src/services/papi/Papi.cpp`. The PAPI library is the environment: which events it knows, whether its calls succeed, and how
often each event occurs on each thread are arbitrary. An attribute is its name and type. Counter values are 64-bit words (`long long`). Not
modelled: multiplexing (values are estimates of the library then), log messages, initialisation and shutdown of the library, and the linked
list of the thread data, which only the destructor walks (the same list code is modelled for the aggregation service, C78).
-/
namespace Verif.Serv.Papi
open Verif Verif.Cali

abbrev Str := List Byte

/-- data types of PAPI events (`PAPI_event_info_t::data_type`, 110-123) -/
inductive DType where
  | int64 | uint64 | fp64 | other
deriving DecidableEq, Repr

/-- types of the attributes made (`cali_attr_type`) -/
inductive ATy where
  | uint | double
deriving DecidableEq, Repr

/-- an attribute: name and type -/
abbrev Attr := Str × ATy

/-- what the library knows of an event: code, data type, component (`PAPI_event_name_to_code`, `PAPI_get_event_info`,
`PAPI_get_event_component`); names it does not know, or for which one of the calls fails, have none -/
structure EvInfo where
  code : Nat
  dtype : DType
  comp : Nat
deriving DecidableEq, Repr

abbrev Lib := Str → Option EvInfo

/-- `event_group_t` (Papi.cpp:36-39) with its component id -/
structure Group where
  comp : Nat
  codes : List Nat
  attrs : List Attr
deriving DecidableEq, Repr

/-- `MAX_COUNTERS` (Papi.cpp:27) -/
def maxCounters : Nat := 32

/-- the type switch of `setup_event_info` (Papi.cpp:110-128) -/
def attrType : DType → Option ATy
  | .int64 => some .uint
  | .uint64 => some .uint
  | .fp64 => some .double
  | .other => none

/-- the name given to PAPI: `strncpy(namebuf, name.c_str(), 1023)` into a zeroed buffer (Papi.cpp:86-89) -/
def namebuf (name : Str) : Str := (name.takeWhile (· ≠ 0)).take 1023

/-- find or create the group of the component and push code and attribute (Papi.cpp:136-149); `std::map` keeps the groups ordered by
component -/
def addTo (comp code : Nat) (a : Attr) : List Group → List Group
  | [] => [⟨comp, [code], [a]⟩]
  | g :: gs =>
    if comp = g.comp then ⟨g.comp, g.codes ++ [code], g.attrs ++ [a]⟩ :: gs
    else if comp < g.comp then ⟨comp, [code], [a]⟩ :: g :: gs
    else g :: addTo comp code a gs

/-- one pass of the loop over the requested events (Papi.cpp:79-152): groups and `count` -/
def addEvent (lib : Lib) (st : List Group × Nat) (name : Str) : List Group × Nat :=
  if maxCounters ≤ st.2 then st
  else match lib (namebuf name) with
    | none => st
    | some i =>
      match attrType i.dtype with
      | none => st
      | some ty => (addTo i.comp i.code (str "papi." ++ name, ty) st.1, st.2 + 1)

/-- `setup_event_info` (Papi.cpp:73-163): the groups and whether all events were found -/
def setupEventInfo (lib : Lib) (names : List Str) : List Group × Bool :=
  let r := names.foldl (addEvent lib) ([], 0)
  (r.1, r.2 == names.length)

/-- an event set of a thread: the events added to it, their counters, whether it counts, and the group it is for (the pair in
`ThreadInfo::eventsets`, Papi.cpp:41-44, with the state PAPI keeps for it). Simplification: event sets are in creation order instead of the
order of their handles. -/
structure ESet where
  codes : List Nat
  vals : List (BitVec 64)
  running : Bool
  grp : Group
deriving DecidableEq, Repr

/-- answers of PAPI when the event set of a component is made: `PAPI_create_eventset` succeeds; result of `PAPI_add_events` (negative: error, 0: all added,
positive: only that many added) -/
structure AddAns where
  create : Bool
  add : Int

/-- answers of PAPI when an event set is read: `PAPI_read` succeeds, what happens between `PAPI_read` and `PAPI_reset` (for each event how
often it occurs), `PAPI_reset` succeeds -/
structure ReadAns where
  read : Bool
  gap : Nat → Nat
  reset : Bool

/-- making the event sets of a thread (loop of `setup_thread_eventsets`, Papi.cpp:170-217): none if one cannot be made.
The answers of the library are given by component -/
def makeSets : List Group → (Nat → AddAns) → Option (List ESet)
  | [], _ => some []
  | g :: gs, ans =>
    let a := ans g.comp
    if a.create = false then none
    else if a.add < 0 then none
    else
      let n := if 0 < a.add ∧ a.add < (g.codes.length : Int) then a.add.toNat else g.codes.length
      match makeSets gs ans with
      | none => none
      | some es => some (⟨g.codes.take n, List.replicate n 0#64, false, g⟩ :: es)

/-- `PAPI_start` for the sets of a thread until one fails (loop of `start_thread_counting`, Papi.cpp:294-300): sets, and whether all were
started. The library starts a set with counters of zero. -/
def startSets : List ESet → (Nat → Bool) → List ESet × Bool
  | [], _ => ([], true)
  | e :: es, ok =>
    if ok e.grp.comp then
      let r := startSets es ok
      ({ e with running := true, vals := List.replicate e.codes.length 0#64 } :: r.1, r.2)
    else (e :: es, false)

/-- the counters of a set after `n` occurrences of the event `code` on its thread (library and hardware) -/
def ESet.occur (e : ESet) (code n : Nat) : ESet :=
  if e.running then
    { e with vals := List.zipWith (fun c (v : BitVec 64) => if c = code then v + BitVec.ofNat 64 n else v) e.codes e.vals }
  else e

/-- the counters of a set after events happened, given for each event how often -/
def ESet.occurs (e : ESet) (f : Nat → Nat) : ESet :=
  if e.running then { e with vals := List.zipWith (fun c (v : BitVec 64) => v + BitVec.ofNat 64 (f c)) e.codes e.vals } else e

/-- the error counters printed at the end (Papi.cpp:60-66) -/
structure Errs where
  acquire : Nat := 0
  read : Nat := 0
  reset : Nat := 0
  start : Nat := 0
  mismatch : Nat := 0
deriving DecidableEq, Repr

/-- entries of a snapshot record -/
abbrev Rec := List (Attr × BitVec 64)

/-- `read_events` (Papi.cpp:261-285) -/
def readEvents (e : ESet) (a : ReadAns) (er : Errs) : ESet × Errs × Rec :=
  if a.read = false then (e, { er with read := er.read + 1 }, [])
  else
    let values := e.vals
    let e' := e.occurs a.gap
    let r : ESet × Errs :=
      if a.reset then ({ e' with vals := List.replicate e'.codes.length 0#64 }, er) else (e', { er with reset := er.reset + 1 })
    let count := e.codes.length
    if count = 0 ∨ e.grp.attrs.length < count then (r.1, { r.2 with mismatch := r.2.mismatch + 1 }, [])
    else (r.1, r.2, List.zip (e.grp.attrs.take count) (values.take count))

/-- the loop of `snapshot` over the sets of the thread (Papi.cpp:361-362). Simplification: what happens between reading and resetting one
set is counted by that set; the events while the other sets are processed are separate occurrences. -/
def readAll : List ESet → (Nat → ReadAns) → Errs → List ESet × Errs × Rec
  | [], _, er => ([], er, [])
  | e :: es, ans, er =>
    let r := readEvents e (ans e.grp.comp) er
    let q := readAll es ans r.2.1
    (r.1 :: q.1, q.2.1, r.2.2 ++ q.2.2)

/-- the service of one channel: event groups, data of the threads (found through the thread's blackboard), error counters; `crashed` after a
null pointer was dereferenced -/
structure State where
  groups : List Group
  thr : Nat → Option (List ESet)
  errs : Errs
  crashed : Bool

/-- `setup_thread_eventsets` on thread `t` (Papi.cpp:165-244): state and whether it succeeded -/
def setupThread (s : State) (t : Nat) (ans : Nat → AddAns) : State × Bool :=
  match makeSets s.groups ans with
  | none => (s, false)
  | some es => ({ s with thr := fun u => if u = t then some es else s.thr u }, true)

/-- `start_thread_counting` (Papi.cpp:287-305) -/
def startThread (s : State) (t : Nat) (ok : Nat → Bool) : State :=
  match s.thr t with
  | none => { s with errs := { s.errs with acquire := s.errs.acquire + 1 } }
  | some es =>
    let r := startSets es ok
    { s with
      thr := fun u => if u = t then some r.1 else s.thr u
      errs := if r.2 then s.errs else { s.errs with start := s.errs.start + 1 } }

/-- `finish_thread_eventsets` (Papi.cpp:334-358): the sets are stopped and destroyed, the blackboard entry is removed -/
def finishThread (s : State) (t : Nat) : State :=
  match s.thr t with
  | none => { s with errs := { s.errs with acquire := s.errs.acquire + 1 } }
  | some _ => { s with thr := fun u => if u = t then none else s.thr u }

/-- `snapshot` (Papi.cpp:360-369): without thread data the error is counted and the null pointer is used all the same -/
def snapshot (s : State) (t : Nat) (ans : Nat → ReadAns) : State × Rec :=
  match s.thr t with
  | none => ({ s with errs := { s.errs with acquire := s.errs.acquire + 1 }, crashed := true }, [])
  | some es =>
    let r := readAll es ans s.errs
    ({ s with thr := fun u => if u = t then some r.1 else s.thr u, errs := r.2.1 }, r.2.2)

/-- events occur on a thread -/
def occur (s : State) (t code n : Nat) : State :=
  { s with thr := fun u => if u = t then (s.thr t).map (·.map fun e => e.occur code n) else s.thr u }

/-- `register_papi` on thread `main` (Papi.cpp:472-498) and `post_init_evt` (500-501): none if the service is dropped -/
def register (lib : Lib) (names : List Str) (main : Nat) (ans : Nat → AddAns) (ok : Nat → Bool) : Option State :=
  if names.isEmpty then none
  else
    let r := setupEventInfo lib names
    if r.2 then
      match setupThread ⟨r.1, fun _ => none, {}, false⟩ main ans with
      | (s, true) => some (startThread s main ok)
      | (_, false) => none
    else none

/-- what happens while the channel exists -/
inductive Ev where
  /-- `create_thread_evt`: a thread uses Caliper for the first time (Papi.cpp:502-505) -/
  | created (t : Nat) (ans : Nat → AddAns) (ok : Nat → Bool)
  /-- `release_thread_evt` (506-508) -/
  | released (t : Nat)
  /-- `snapshot` (509-511) -/
  | snap (t : Nat) (ans : Nat → ReadAns)
  /-- the event `code` occurs `n` times on a thread -/
  | occur (t : Nat) (code n : Nat)

/-- a callback (Papi.cpp:500-511); nothing happens after a crash -/
def step (s : State) (e : Ev) : State × List (Nat × Rec) :=
  if s.crashed then (s, [])
  else match e with
    | .created t ans ok =>
      match setupThread s t ans with
      | (s', true) => (startThread s' t ok, [])
      | (s', false) => (s', [])
    | .released t => (finishThread s t, [])
    | .snap t ans => let r := snapshot s t ans; (r.1, if r.1.crashed then [] else [(t, r.2)])
    | .occur t c n => (occur s t c n, [])

/-- a history: final state and the records of all snapshots with their threads -/
def run (s : State) : List Ev → State × List (Nat × Rec)
  | [] => (s, [])
  | e :: es =>
    let r := step s e
    let q := run r.1 es
    (q.1, r.2 ++ q.2)

end Verif.Serv.Papi
