import Verif.Py.Model
/-!
# Conversion of traces for trace viewers

Model of `/repo/python/cali2traceevent.py` (class `CaliTraceEventConverter` and its helpers), on the records the Python reader
delivers (`Verif/Py/Model`).

A raised exception aborts the conversion and is the outcome `none`.  Numbers are an abstract type with the operations of
`TimeOps`.  Simplifications: the children dictionaries of `StackFrames.Node` are searches in the list of nodes (every node is entered
under its category and name when it is created, and nowhere else); stacks are lists with the top first; the JSON output,
the command line and `written`/`skipped` are left out; records without a time stamp raise in `processRecord` where the code goes on
with `None` (not reached: `read_and_sort` drops them).
-/
namespace Verif.TraceEv
open Verif Verif.Cali Verif.Py

/-- floating-point numbers: `float(str)`, `* 1e-3`, `+`, `-`, `<=` and `0.0` -/
structure TimeOps (T : Type) where
  float : List Byte → Option T
  milli : T → T
  add : T → T → T
  sub : T → T → T
  le : T → T → Bool
  zero : T

/-- `rec[key]`, `key in rec` for a text key -/
def rget (r : Dict) (k : List Byte) : Option PVal := lookup (.text k) r

/-- `float(value)`: a list or a tuple raises -/
def toFloat {T : Type} (O : TimeOps T) : PVal → Option T
  | .one (.text s) => O.float s
  | _ => none

/-- `int(value)` -/
def toInt : PVal → Option Int
  | .one (.text s) => pyInt s
  | _ => none

/-- `_get_first_from_list` (`cali2traceevent.py:17-21`) followed by `int` (lines 199-200); the fallback is 0 -/
def firstInt (r : Dict) : List (List Byte) → Option Int
  | [] => some 0
  | a :: l => match rget r a with
    | some v => toInt v
    | none => firstInt r l

/-- `timestamp_attributes` (`cali2traceevent.py:26-34`): `true` is the factor `1e-3` -/
def tsTable : List (List Byte × Bool) :=
  [(str "cupti.timestamp", true), (str "rocm.host.timestamp", true), (str "time.offset.ns", true), (str "time.offset", false),
   (str "gputrace.timestamp", true), (str "cupti.activity.start", true), (str "rocm.starttime", true)]

/-- `_get_timestamp` (`cali2traceevent.py:23-40`); `some none` is `None` -/
def timestamp {T : Type} (O : TimeOps T) (r : Dict) : List (List Byte × Bool) → Option (Option T)
  | [] => some none
  | (a, m) :: l => match rget r a with
    | some v => (toFloat O v).map fun t => some (if m then O.milli t else t)
    | none => timestamp O r l

/-- `StackFrames.Node` (`cali2traceevent.py:63-70`); the id is the position in the list -/
structure Frame where
  name : Data
  cat : List Byte
  parent : Option Nat
  deriving DecidableEq, Repr

/-- look up or create a child (`cali2traceevent.py:81-83`, `87-89`) -/
def frameChild (fs : List Frame) (cat : List Byte) (parent : Option Nat) (name : Data) : List Frame × Nat :=
  match fs.findIdx? (fun f => decide (f = ⟨name, cat, parent⟩)) with
  | some i => (fs, i)
  | none => (fs ++ [⟨name, cat, parent⟩], fs.length)

/-- the loop of `get_stackframe_id` (`cali2traceevent.py:86-90`) -/
def framePath (fs : List Frame) (cat : List Byte) : Nat → List Data → List Frame × Nat
  | id, [] => (fs, id)
  | id, n :: ns =>
    match frameChild fs cat (some id) n with
    | (fs, id) => framePath fs cat id ns

/-- `get_stackframe_id` (`cali2traceevent.py:76-92`); an empty list raises -/
def frameId (fs : List Frame) (path : PVal) (cat : List Byte) : Option (List Frame × Nat) :=
  match (match path with | .one d => [d] | .many ds => ds) with
  | [] => none
  | n :: ns => match frameChild fs cat none n with
    | (fs, id) => some (framePath fs cat id ns)

/-- a thread id in the output -/
inductive Tid where
  | num (i : Int)
  | name (s : List Byte)
  deriving DecidableEq, Repr

/-- a record of the output: complete events (`ph="X"`) and counters (`ph="C"`) -/
inductive TEv (T : Type) where
  | complete (pid : Int) (tid : Tid) (name : PVal) (cat : PVal) (ts dur : T) (sf : Option Nat)
  | counter (pid : Int) (tid : Int) (name : List Byte) (ts : T) (args : List (List Byte × T))
  deriving DecidableEq

/-- a sample (`cali2traceevent.py:299-306`) -/
structure Sample (T : Type) where
  pid : Int
  tid : Int
  ts : T
  cpu : Option PVal
  sf : Option Nat
  deriving DecidableEq

/-- `CaliTraceEventConverter` (`cali2traceevent.py:116-134`) -/
structure Conv (T : Type) where
  records : List (TEv T)
  samples : List (Sample T)
  rstack : (Int × Int) → List Byte → Option (List T)
  frames : List Frame
  tsync : List (Int × T)

/-- configuration: counter groups, attributes for process and thread ids (`cali2traceevent.py:128-131`) -/
structure Cfg where
  counters : List (List Byte × List (List Byte))
  pids : List (List Byte)
  tids : List (List Byte)

/-- with the built-in attributes (`cali2traceevent.py:107-114`, `130-131`) -/
def Cfg.make (counters : List (List Byte × List (List Byte))) (pids tids : List (List Byte)) : Cfg :=
  ⟨counters, pids ++ [str "mpi.rank"], tids ++ [str "omp.thread.id", str "pthread.id"]⟩

/-- an empty converter -/
def Conv.init (T : Type) : Conv T := ⟨[], [], fun _ _ => none, [], []⟩

/-- `self.rstack[skey].append(tst)` or a new list (`cali2traceevent.py:243-246`, `267-272`) -/
def Conv.push {T : Type} (c : Conv T) (loc : Int × Int) (attr : List Byte) (t : T) : Conv T :=
  { c with rstack := fun l a => if l = loc ∧ a = attr then some (t :: (c.rstack loc attr).getD []) else c.rstack l a }

/-- `self.rstack[skey].pop()`: a missing key or an empty list raises -/
def Conv.pop {T : Type} (c : Conv T) (loc : Int × Int) (attr : List Byte) : Option (T × Conv T) :=
  match c.rstack loc attr with
  | some (t :: st) => some (t, { c with rstack := fun l a => if l = loc ∧ a = attr then some st else c.rstack l a })
  | _ => none

/-- `_get_stackframe` (`cali2traceevent.py:328-332`) -/
def Conv.stackframe {T : Type} (c : Conv T) (r : Dict) : Option (Conv T × Option Nat) :=
  match rget r (str "source.function#callpath.address") with
  | none => some (c, none)
  | some p => (frameId c.frames p (str "callstack")).map fun (fs, id) => ({ c with frames := fs }, some id)

/-- the time of a record that has passed `read_and_sort` -/
def recTime {T : Type} (O : TimeOps T) (r : Dict) : Option T := (timestamp O r tsTable).join

/-- the arguments of one counter group (`cali2traceevent.py:310-313`; a name listed twice in a group would be one entry of the dictionary) -/
def counterArgs {T : Type} (O : TimeOps T) (r : Dict) : List (List Byte) → Option (List (List Byte × T))
  | [] => some []
  | a :: l => match rget r a with
    | none => counterArgs O r l
    | some v => (toFloat O v).bind fun x => (counterArgs O r l).map ((a, x) :: ·)

/-- `_process_counters` (`cali2traceevent.py:308-317`) -/
def counters {T : Type} (O : TimeOps T) (r : Dict) (loc : Int × Int) : List (List Byte × List (List Byte)) → Option (List (TEv T))
  | [] => some []
  | (g, as) :: l =>
    (counterArgs O r as).bind fun args =>
      if args = [] then counters O r loc l
      else (recTime O r).bind fun t => (counters O r loc l).map (.counter loc.1 loc.2 g t args :: ·)

/-- the first `event.begin#` or `event.end#` key (`cali2traceevent.py:224-231`): begin?, attribute, value -/
def eventKey : Dict → Option (Bool × List Byte × PVal)
  | [] => none
  | (.text k, v) :: l =>
    if (str "event.begin#").isPrefixOf k then some (true, k.drop 12, v)
    else if (str "event.end#").isPrefixOf k then some (false, k.drop 10, v)
    else eventKey l
  | (_, _) :: l => eventKey l

/-- append a record -/
def Conv.emit {T : Type} (c : Conv T) (e : TEv T) : Conv T := { c with records := c.records ++ [e] }

/-- `_process_cupti_activity_rec`, `_process_roctracer_activity_rec` (`cali2traceevent.py:283-297`) -/
def activity {T : Type} (O : TimeOps T) (c : Conv T) (r : Dict) (pid : Int) (kind start dur kernel tid : List Byte) : Option (Conv T) :=
  (rget r kind).bind fun cat =>
  ((rget r start).bind (toFloat O)).bind fun t =>
  ((rget r dur).bind (toFloat O)).map fun d =>
    c.emit (.complete pid (.name tid) ((rget r kernel).getD cat) cat (O.milli t) (O.milli d) none)

/-- `"Alloc " + rec["umpire.alloc.name"]`: a list or tuple raises -/
def allocName : PVal → Option (List Byte)
  | .one (.text s) => some (str "Alloc " ++ s)
  | _ => none

/-- `_process_umpire_rec` (`cali2traceevent.py:319-326`) -/
def umpire {T : Type} (O : TimeOps T) (c : Conv T) (r : Dict) (loc : Int × Int) : Option (Conv T) :=
  ((rget r (str "umpire.alloc.name")).bind allocName).bind fun name =>
  ((rget r (str "umpire.alloc.current.size")).bind (toFloat O)).bind fun size =>
  ((rget r (str "umpire.alloc.highwatermark")).bind (toFloat O)).bind fun _ =>
  (recTime O r).map fun t => c.emit (.counter loc.1 loc.2 name t [(str "size", size)])

/-- `_process_gputrace_begin` (`cali2traceevent.py:238-246`) -/
def gpuBegin {T : Type} (O : TimeOps T) (c : Conv T) (r : Dict) (pid : Int) : Option (Conv T) :=
  ((rget r (str "gputrace.block")).bind toInt).bind fun b =>
  ((rget r (str "gputrace.timestamp")).bind (toFloat O)).map fun t => c.push (pid, b) (str "gputrace") (O.milli t)

/-- the last element of a list (`cali2traceevent.py:254-256`); `None` for a missing region is an empty list here -/
def innermostName : Option PVal → PVal
  | some (.many ds) => .one (ds.getLast?.getD (.text []))
  | some v => v
  | none => .many []

/-- `str(block)` for a value that `int` accepts (`cali2traceevent.py:258`) -/
def blockText : PVal → List Byte
  | .one (.text s) => s
  | _ => []

/-- `_process_gputrace_end` (`cali2traceevent.py:248-258`) -/
def gpuEnd {T : Type} (O : TimeOps T) (c : Conv T) (r : Dict) (pid : Int) : Option (Conv T) :=
  (rget r (str "gputrace.block")).bind fun bv => (toInt bv).bind fun b =>
  (c.pop (pid, b) (str "gputrace")).bind fun (t0, c) =>
  ((rget r (str "gputrace.timestamp")).bind (toFloat O)).map fun t =>
    c.emit (.complete pid (.name (str "block." ++ blockText bv)) (innermostName (rget r (str "gputrace.region"))) (.one (.text (str "gpu"))) t0
      (O.sub (O.milli t) t0) none)

/-- `_process_sample_rec` (`cali2traceevent.py:299-306`) -/
def sample {T : Type} (O : TimeOps T) (c : Conv T) (r : Dict) (loc : Int × Int) : Option (Conv T) :=
  (recTime O r).bind fun t => (c.stackframe r).map fun (c, sf) =>
    { c with samples := c.samples ++ [⟨loc.1, loc.2, t, rget r (str "cpuinfo.cpu"), sf⟩] }

/-- `_process_event_begin_rec`, `_process_event_end_rec` (`cali2traceevent.py:263-281`) -/
def event {T : Type} (O : TimeOps T) (c : Conv T) (r : Dict) (loc : Int × Int) : Bool × List Byte × PVal → Option (Conv T)
  | (true, a, _) => (recTime O r).map fun t => c.push loc a t
  | (false, a, v) =>
    (c.pop loc a).bind fun (t0, c) => (recTime O r).bind fun t => (c.stackframe r).map fun (c, sf) =>
      c.emit (.complete loc.1 (.num loc.2) v (.one (.text a)) t0 (O.sub t t0) sf)

/-- the branches of `_process_record` (`cali2traceevent.py:206-236`) -/
def branch {T : Type} (O : TimeOps T) (c : Conv T) (r : Dict) (loc : Int × Int) : Option (Conv T) :=
  if (rget r (str "cupti.activity.kind")).isSome then
    activity O c r loc.1 (str "cupti.activity.kind") (str "cupti.activity.start") (str "cupti.activity.duration")
      (str "cupti.kernel.name") (str "cuda")
  else if (rget r (str "rocm.activity")).isSome then
    activity O c r loc.1 (str "rocm.activity") (str "rocm.starttime") (str "rocm.activity.duration") (str "rocm.kernel.name") (str "rocm")
  else if (rget r (str "umpire.alloc.name")).isSome then umpire O c r loc
  else if (rget r (str "source.function#cali.sampler.pc")).isSome then sample O c r loc
  else if (rget r (str "gputrace.begin")).isSome then gpuBegin O c r loc.1
  else if (rget r (str "gputrace.end")).isSome then gpuEnd O c r loc.1
  else if (rget r (str "ts.sync")).isSome then
    (recTime O r).map fun t => { c with tsync := dset c.tsync loc.1 t }
  else match eventKey r with
    | some e => event O c r loc e
    | none => some c

/-- `_process_record` (`cali2traceevent.py:198-236`) -/
def processRecord {T : Type} (O : TimeOps T) (cfg : Cfg) (c : Conv T) (r : Dict) : Option (Conv T) :=
  (firstInt r cfg.pids).bind fun pid => (firstInt r cfg.tids).bind fun tid =>
  (counters O r (pid, tid) cfg.counters).bind fun cs =>
    branch O { c with records := c.records ++ cs } r (pid, tid)

/-- process a list of records in order -/
def processAll {T : Type} (O : TimeOps T) (cfg : Cfg) (c : Conv T) : List Dict → Option (Conv T)
  | [] => some c
  | r :: rs => (processRecord O cfg c r).bind fun c => processAll O cfg c rs

/-- the trace of a file with time stamps (`cali2traceevent.py:142-149`) -/
def timed {T : Type} (O : TimeOps T) : List Dict → Option (List (T × Dict))
  | [] => some []
  | r :: rs => (timestamp O r tsTable).bind fun t => (timed O rs).map fun l => match t with
    | some t => (t, r) :: l
    | none => l

/-- insertion before the first entry that is not smaller -/
def insertTrace {T : Type} (O : TimeOps T) (a : T × Dict) : List (T × Dict) → List (T × Dict)
  | [] => [a]
  | b :: l => if O.le a.1 b.1 then a :: b :: l else b :: insertTrace O a l

/-- `trace.sort(key=…)` is a stable sort (`cali2traceevent.py:153`); all stable sorts agree when `<=` orders the time stamps
totally (no NaN) -/
def sortTrace {T : Type} (O : TimeOps T) (l : List (T × Dict)) : List (T × Dict) := l.foldr (insertTrace O) []

/-- `read_and_sort` (`cali2traceevent.py:139-159`) on the records of one file -/
def readAndSort {T : Type} (O : TimeOps T) (cfg : Cfg) (c : Conv T) (file : List Dict) : Option (Conv T) :=
  (timed O file).bind fun l => processAll O cfg c ((sortTrace O l).map Prod.snd)

/-- all files (`cali2traceevent.py:405-410`) -/
def convert {T : Type} (O : TimeOps T) (cfg : Cfg) (c : Conv T) : List (List Dict) → Option (Conv T)
  | [] => some c
  | f :: fs => (readAndSort O cfg c f).bind fun c => convert O cfg c fs

/-- `max` of a list of numbers: the first maximal one -/
def maxOf {T : Type} (O : TimeOps T) (m : T) : List T → T
  | [] => m
  | x :: l => maxOf O (if O.le x m then m else x) l

/-- shift one record -/
def TEv.shift {T : Type} (O : TimeOps T) (adj : Int → T) : TEv T → TEv T
  | .complete pid tid name cat ts dur sf => .complete pid tid name cat (O.add ts (adj pid)) dur sf
  | .counter pid tid name ts args => .counter pid tid name (O.add ts (adj pid)) args

/-- `adjust.get(pid, 0.0)` (`cali2traceevent.py:178-183`) -/
def adjust {T : Type} (O : TimeOps T) (points : List (Int × T)) (m : T) (pid : Int) : T :=
  match lookup pid points with
  | some s => O.sub m s
  | none => O.zero

/-- `sync_timestamps` (`cali2traceevent.py:173-183`) -/
def syncTimes {T : Type} (O : TimeOps T) (c : Conv T) : Conv T :=
  match c.tsync with
  | [] => c
  | (_, t) :: l =>
    { c with
      records := c.records.map (TEv.shift O (adjust O c.tsync (maxOf O t (l.map Prod.snd))))
      samples := c.samples.map fun s => { s with ts := O.add s.ts (adjust O c.tsync (maxOf O t (l.map Prod.snd)) s.pid) } }

end Verif.TraceEv
