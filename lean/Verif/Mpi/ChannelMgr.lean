import Verif.Config.Model
import Verif.ConfMgr.Model

/-! # `MpiChannelManager` and `CollectiveOutputChannel::from`

Model of `src/caliper/MpiChannelManager.cpp` and of the parts of `src/caliper/CollectiveOutputChannel.cpp` it uses.
`ChannelController`s of the program are numbered; creating a channel (`ChannelController::start`) is taken to succeed (C89). What a flush
does with the data of a channel is C106 and C111, here only which channels are flushed, in which order, and how.
Simplification: `mpi_comm` is a handle of a communicator, or none (`MPI_COMM_NULL`). -/

namespace Verif.Mpi.CM
open Verif Verif.Cali Verif.Parse

abbrev Str := List Byte

/-- `remove_from_stringlist` (CollectiveOutputChannel.cpp:29-50): the list is split at commas (the default of `to_stringlist`,
`src/common/StringConverter.h:47`), all occurrences of the element are erased, the rest is joined with commas -/
def removeFrom (s e : Str) : Str := ConfMgr.joinList ((Config.stringListL [ch ','] (s.length + 1) ⟨s, true⟩).filter fun w => w ≠ e)

/-- what makes a difference for `CollectiveOutputChannel::from` (CollectiveOutputChannel.cpp:162-195): `CustomOutputController`s are wrapped
(`spot` looks whether it has a channel before it flushes, SpotController.cpp:486; `loop` does not, LoopReportController.cpp:204-212); other
controllers with an `mpireport` query are copied; for all others there is no collective channel -/
inductive Kind where
  | spot | loop | report | serial
deriving DecidableEq, Repr

/-- the configuration of a controller, as far as `from` looks at it -/
structure Cfg where
  custom : Option Bool
  services : Str
  cross : Str
  localQ : Str
deriving DecidableEq, Repr

/-- `CollectiveOutputChannel::from` (CollectiveOutputChannel.cpp:162-195): which case -/
def Cfg.kind (c : Cfg) : Kind :=
  match c.custom with
  | some true => .spot
  | some false => .loop
  | none => if c.cross = [] then .serial else .report

/-- the copy made of a controller with an `mpireport` query (CollectiveOutputChannel.cpp:178-194): its services and queries -/
def Cfg.copy (c : Cfg) : Cfg where
  custom := none
  services := removeFrom c.services (str "mpireport")
  cross := c.cross
  localQ := if c.localQ = [] then c.cross else c.localQ

/-- a channel controller: one of the program's, or the copy made of one of them by the `j`-th `add` -/
inductive Obj where
  | src (k : Nat)
  | copy (j k : Nat)
deriving DecidableEq, Repr

/-- the program's controller it stands for -/
def Obj.source : Obj → Nat
  | .src k => k
  | .copy _ k => k

/-- what a flush does -/
inductive Ev where
  | collective (o : Obj)
  | serial (o : Obj)
deriving DecidableEq, Repr

/-- one process: for each controller whether it has a channel and whether that is active (`ChannelController.cpp:107-131`), the manager
(`MpiChannelManagerImpl`, MpiChannelManager.cpp:13-20), the number of `add` calls, and what was flushed -/
structure St where
  inst : Obj → Bool
  active : Obj → Bool
  inComm : Bool
  mpi : List Obj
  ser : List Obj
  adds : Nat
  log : List Ev

/-- the calls: of the manager, and of the program on its own controllers -/
inductive Op where
  | add (k : Option Nat) | start | stop | flush
  | srcStart (k : Nat) | srcStop (k : Nat)
deriving DecidableEq, Repr

/-- a new manager in a process with controllers that were not started (MpiChannelManager.cpp:71-79) -/
def init (inComm : Bool) : St := ⟨fun _ => false, fun _ => false, inComm, [], [], 0, []⟩

/-- `ChannelController::start` (ChannelController.cpp:107-115) -/
def startObj (s : St) (o : Obj) : St :=
  { s with inst := fun x => if x = o then true else s.inst x, active := fun x => if x = o then true else s.active x }

/-- `ChannelController::stop` (ChannelController.cpp:117-121) -/
def stopObj (s : St) (o : Obj) : St :=
  if s.inst o then { s with active := fun x => if x = o then false else s.active x } else s

/-- `collective_flush` of a channel (CollectiveOutputChannel.cpp:77-80, 140-144); a loop report without a channel dereferences a null
pointer: `none` -/
def flushMpi (kind : Nat → Kind) (s : St) (o : Obj) : Option St :=
  if s.inst o then some { s with log := s.log ++ [.collective o] }
  else if kind o.source = .loop then none
  else some s

/-- `ChannelController::flush` (ChannelController.cpp:133-138) -/
def flushSer (s : St) (o : Obj) : St := if s.inst o then { s with log := s.log ++ [.serial o] } else s

/-- one after the other, until one fails (MpiChannelManager.cpp:62-69) -/
def flushAll (kind : Nat → Kind) : List Obj → St → Option St
  | [], s => some s
  | o :: l, s => match flushMpi kind s o with | none => none | some t => flushAll kind l t

/-- `MpiChannelManagerImpl::add` (MpiChannelManager.cpp:22-33) -/
def add (kind : Nat → Kind) (s : St) : Option Nat → St
  | none => s
  | some k =>
    let t := { s with adds := s.adds + 1 }
    match kind k with
    | .spot | .loop => { t with mpi := s.mpi ++ [.src k] }
    | .report => { t with mpi := s.mpi ++ [.copy s.adds k] }
    | .serial => { t with ser := s.ser ++ [.src k] }

/-- one call (MpiChannelManager.cpp:22-69); `none`: a null pointer is dereferenced -/
def step (kind : Nat → Kind) (s : St) : Op → Option St
  | .add k => some (add kind s k)
  | .start => some (if s.inComm then s.ser.foldl startObj (s.mpi.foldl startObj s) else s)
  | .stop => some (if s.inComm then s.ser.foldl stopObj (s.mpi.foldl stopObj s) else s)
  | .flush => if s.inComm then (flushAll kind s.mpi s).map fun t => s.ser.foldl flushSer t else some s
  | .srcStart k => some (startObj s (.src k))
  | .srcStop k => some (stopObj s (.src k))

/-- a history of calls (MpiChannelManager.cpp:22-69) -/
def run (kind : Nat → Kind) : St → List Op → Option St
  | s, [] => some s
  | s, o :: l => match step kind s o with | none => none | some t => run kind t l

end Verif.Mpi.CM
