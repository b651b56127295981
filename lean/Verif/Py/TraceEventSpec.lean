import Verif.Py.TraceEvent
/-!
# What the converted trace has to contain

Written without the converter: from a record, its time, its place (process, thread) and the region event it stands for; which
begin belongs to which end is decided by counting brackets.
-/
namespace Verif.TraceEv.Spec
open Verif Verif.Cali Verif.Py

/-- the value of a key -/
def val (r : Dict) (k : List Byte) : Option PVal := (r.find? fun p => p.1 = .text k).map Prod.snd

/-- a record has a key -/
def has (r : Dict) (k : List Byte) : Bool := r.any fun p => p.1 = .text k

/-- the value of a key, when it is a single text -/
def text (r : Dict) (k : List Byte) : Option (List Byte) :=
  match val r k with
  | some (.one (.text s)) => some s
  | _ => none

/-- names of time stamps, most important first; all but one count nanoseconds -/
def clocks : List (List Byte) :=
  [str "cupti.timestamp", str "rocm.host.timestamp", str "time.offset.ns", str "time.offset", str "gputrace.timestamp",
   str "cupti.activity.start", str "rocm.starttime"]

/-- the clock a record uses -/
def clock (r : Dict) : Option (List Byte) := clocks.find? (has r)

/-- microseconds of a number that counts nanoseconds -/
def micros {T : Type} (O : TimeOps T) (r : Dict) (k : List Byte) : Option T := ((text r k).bind O.float).map O.milli

/-- time of a record in microseconds -/
def time {T : Type} (O : TimeOps T) (r : Dict) : Option T :=
  (clock r).bind fun k => if k = str "time.offset" then (text r k).bind O.float else micros O r k

/-- a process or thread number: the first of the given attributes the record has, 0 if there is none -/
def place (ids : List (List Byte)) (r : Dict) : Option Int :=
  match ids.find? (has r) with
  | none => some 0
  | some k => (text r k).bind pyInt

/-- keys of records that stand for something else than a region event -/
def otherKinds : List (List Byte) :=
  [str "cupti.activity.kind", str "rocm.activity", str "umpire.alloc.name", str "source.function#cali.sampler.pc",
   str "gputrace.begin", str "gputrace.end", str "ts.sync"]

/-- a region event -/
structure Mark (T : Type) where
  pid : Int
  tid : Int
  isBegin : Bool
  attr : List Byte
  name : PVal
  time : T
  stack : Option PVal
  deriving DecidableEq

/-- `event.begin#attr` or `event.end#attr` -/
def eventName : Data → Option (Bool × List Byte)
  | .text k =>
    if k.take 12 = str "event.begin#" then some (true, k.drop 12)
    else if k.take 10 = str "event.end#" then some (false, k.drop 10)
    else none
  | .pair _ _ => none

/-- the region event a record stands for -/
def mark {T : Type} (O : TimeOps T) (pids tids : List (List Byte)) (r : Dict) : Option (Mark T) :=
  match time O r, place pids r, place tids r, r.findSome? (fun p => (eventName p.1).map fun e => (e, p.2)) with
  | some t, some p, some q, some ((b, a), v) =>
    if otherKinds.any (has r) then none else some ⟨p, q, b, a, v, t, val r (str "source.function#callpath.address")⟩
  | _, _, _, _ => none

/-- region events of one thread, in the order of the file -/
def marksAt {T : Type} (O : TimeOps T) (pids tids : List (List Byte)) (loc : Int × Int) (file : List Dict) : List (Mark T) :=
  (file.filterMap (mark O pids tids)).filter fun m => m.pid = loc.1 ∧ m.tid = loc.2

/-- begins and ends of an attribute form a bracket sequence -/
inductive Balanced {T : Type} (attr : List Byte) : List (Mark T) → Prop
  | nil : Balanced attr []
  | other (m : Mark T) : m.attr ≠ attr → Balanced attr [m]
  | append {k l : List (Mark T)} : Balanced attr k → Balanced attr l → Balanced attr (k ++ l)
  | wrap {b e : Mark T} {l : List (Mark T)} : b.isBegin = true → b.attr = attr → e.isBegin = false → e.attr = attr →
      Balanced attr l → Balanced attr (b :: l ++ [e])

/-- every end, in order, with the begin it closes -/
inductive Pairs {T : Type} : List (Mark T) → List (Mark T × Mark T) → Prop
  | nil : Pairs [] []
  | start {es : List (Mark T)} {out : List (Mark T × Mark T)} {m : Mark T} : Pairs es out → m.isBegin = true → Pairs (es ++ [m]) out
  | stop {pre mid : List (Mark T)} {b e : Mark T} {out : List (Mark T × Mark T)} : Pairs (pre ++ b :: mid) out →
      b.isBegin = true → b.attr = e.attr → e.isBegin = false → Balanced e.attr mid → Pairs (pre ++ b :: mid ++ [e]) (out ++ [(b, e)])

/-- node `id` of the stack-frame table spells a call path (outermost first) -/
inductive Spells (fs : List Frame) : Nat → List Data → Prop
  | root {id : Nat} {n : Data} : fs[id]? = some ⟨n, str "callstack", none⟩ → Spells fs id [n]
  | child {id q : Nat} {n : Data} {path : List Data} : fs[id]? = some ⟨n, str "callstack", some q⟩ → Spells fs q path → Spells fs id (path ++ [n])

/-- a stack-frame reference shows a call path -/
def Shows (fs : List Frame) : Option PVal → Option Nat → Prop
  | none, sf => sf = none
  | some (.one d), sf => ∃ id, sf = some id ∧ Spells fs id [d]
  | some (.many ds), sf => ∃ id, sf = some id ∧ Spells fs id ds

/-- the record of the output for a region -/
def IsRegion {T : Type} (O : TimeOps T) (fs : List Frame) (p : Mark T × Mark T) (o : TEv T) : Prop :=
  ∃ sf, Shows fs p.2.stack sf ∧
    o = .complete p.2.pid (.num p.2.tid) p.2.name (.one (.text p.2.attr)) p.1.time (O.sub p.2.time p.1.time) sf

/-- records of the output that show a region of a thread -/
def isRegionAt {T : Type} (loc : Int × Int) : TEv T → Bool
  | .complete p (.num q) _ _ _ _ _ => decide (p = loc.1 ∧ q = loc.2)
  | _ => false

/-- records of the output that show a counter -/
def isCounter {T : Type} : TEv T → Bool
  | .counter .. => true
  | _ => false

/-- counters of a record: one per group of which it has an attribute, and the size of an allocator -/
def countersOf {T : Type} (O : TimeOps T) (cfg : Cfg) (r : Dict) : List (TEv T) :=
  match time O r, place cfg.pids r, place cfg.tids r with
  | some t, some p, some q =>
    ((cfg.counters.map fun g => (g.1, g.2.filterMap fun a => ((text r a).bind O.float).map fun x => (a, x))).filter
        (fun g => g.2 ≠ [])).map (fun g => .counter p q g.1 t g.2)
      ++ (if has r (str "cupti.activity.kind") || has r (str "rocm.activity") then [] else
          match text r (str "umpire.alloc.name"), (text r (str "umpire.alloc.current.size")).bind O.float with
          | some n, some x => [.counter p q (str "Alloc " ++ n) t [(str "size", x)]]
          | _, _ => [])
  | _, _, _ => []

/-- records of the output that show an activity of a device -/
def isActivity {T : Type} : TEv T → Bool
  | .complete _ (.name n) _ _ _ _ _ => decide (n = str "cuda" ∨ n = str "rocm")
  | _ => false

/-- the device activity of a record -/
def activityOf {T : Type} (O : TimeOps T) (cfg : Cfg) (r : Dict) : Option (TEv T) :=
  let mk := fun (dev kind start dur kernel : String) =>
    match place cfg.pids r, val r (str kind), micros O r (str start), micros O r (str dur) with
    | some p, some k, some t, some d =>
      some (TEv.complete p (.name (str dev)) (match val r (str kernel) with | some n => n | none => k) k t d none)
    | _, _, _, _ => none
  match time O r with
  | none => none
  | some _ =>
    if has r (str "cupti.activity.kind") then
      mk "cuda" "cupti.activity.kind" "cupti.activity.start" "cupti.activity.duration" "cupti.kernel.name"
    else if has r (str "rocm.activity") then
      mk "rocm" "rocm.activity" "rocm.starttime" "rocm.activity.duration" "rocm.kernel.name"
    else none

/-- what a sample has to show -/
def IsSample {T : Type} (O : TimeOps T) (cfg : Cfg) (fs : List Frame) (r : Dict) (s : Sample T) : Prop :=
  place cfg.pids r = some s.pid ∧ place cfg.tids r = some s.tid ∧ time O r = some s.ts ∧ s.cpu = val r (str "cpuinfo.cpu") ∧
    Shows fs (val r (str "source.function#callpath.address")) s.sf

/-- the record is a sample: it has the sampled location and none of the more important keys -/
def isSample {T : Type} (O : TimeOps T) (r : Dict) : Bool :=
  (time O r).isSome && has r (str "source.function#cali.sampler.pc") && !has r (str "cupti.activity.kind") &&
    !has r (str "rocm.activity") && !has r (str "umpire.alloc.name")

/-- the time-synchronization point of a process -/
def syncOf {T : Type} (O : TimeOps T) (cfg : Cfg) (r : Dict) : Option (Int × T) :=
  match time O r, place cfg.pids r with
  | some t, some p => if has r (str "ts.sync") && !(otherKinds.take 6).any (has r) then some (p, t) else none
  | _, _ => none

/-- the same record of the output at another time -/
inductive Moved {T : Type} (d : Int → T → T) : TEv T → TEv T → Prop
  | complete (pid : Int) (tid : Tid) (name cat : PVal) (ts dur : T) (sf : Option Nat) :
      Moved d (.complete pid tid name cat ts dur sf) (.complete pid tid name cat (d pid ts) dur sf)
  | counter (pid tid : Int) (name : List Byte) (ts : T) (args : List (List Byte × T)) :
      Moved d (.counter pid tid name ts args) (.counter pid tid name (d pid ts) args)

/-- the same sample at another time -/
def MovedSample {T : Type} (d : Int → T → T) (s s' : Sample T) : Prop :=
  s' = ⟨s.pid, s.tid, d s.pid s.ts, s.cpu, s.sf⟩

/-- numbers with a usable order -/
structure Ordered {T : Type} (O : TimeOps T) : Prop where
  trans : ∀ a b c, O.le a b = true → O.le b c = true → O.le a c = true
  total : ∀ a b, (O.le a b || O.le b a) = true

/-- the numbers in a record can be read, and it has none of the special keys -/
structure Readable {T : Type} (O : TimeOps T) (cfg : Cfg) (r : Dict) : Prop where
  plain : otherKinds.any (has r) = false
  pid : (place cfg.pids r).isSome
  tid : (place cfg.tids r).isSome
  time : clock r = none ∨ (time O r).isSome
  counters : ∀ g ∈ cfg.counters, ∀ a ∈ g.2, has r a = true → ((text r a).bind O.float).isSome
  stack : val r (str "source.function#callpath.address") ≠ some (.many [])

end Verif.TraceEv.Spec
