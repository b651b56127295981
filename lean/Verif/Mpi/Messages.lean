import Verif.Blackboard.Model
/-!
# MPI message tracing and message pattern analysis

Model of the MPI wrappers (`/repo/src/services/mpiwrap/Wrapper.w`) with `MpiTracing` (`MpiTracing.cpp`) and `MpiPattern` (`MpiPattern.cpp`).  The two classes
handle requests with the same code; they differ in what they do with a message, which is the parameter `Sink`.

A step is an MPI call together with what the MPI library returned (new request handles, indices, statuses), or the begin or end of a communication region.
Calls are taken one at a time.

Simplified: a datatype is its size in bytes; the attributes of the pushed snapshots are the constructor arguments of `TEv`; the wait timers of `MpiPattern`
(`handle_pre_completion`) and the `mpi.function` region around each call are left out.
-/
namespace Verif.MpiMsg
open Verif

/-- C `int` arithmetic: wraps around (32 bits) -/
def i32 (x : Int) : Int := Int.bmod x (2 ^ 32)

/-- A communicator.  `uid` tells communicators apart; `handle` is the `MPI_Comm`, which the library may use again after `MPI_Comm_free`; `rank` is this
process' rank in it, `ranks` the world ranks of its processes. -/
structure Comm where
  uid : Nat
  handle : Nat
  rank : Int
  ranks : List Int
  deriving DecidableEq, Repr

/-- what a completion call says about a message (`MPI_Status`); `bytes` received -/
structure Status where
  src : Int
  tag : Int
  bytes : Nat
  cancelled : Bool := false
  deriving DecidableEq, Repr

/-- `MPI_UNDEFINED` -/
def undef : Int := -32766

/-- `MPI_Get_count`: number of elements of size `ty`, `MPI_UNDEFINED` if it is not a whole number -/
def Status.count (st : Status) (ty : Nat) : Int :=
  if ty = 0 then 0 else if st.bytes % ty = 0 then ((st.bytes / ty : Nat) : Int) else undef

/-- collective calls, with the arguments the wrappers use: counts, the size of the (send) datatype, root.  Arguments that MPI ignores on this process can be
anything: `none` is a null pointer or an invalid datatype -/
inductive Coll where
  | barrier
  | bcast (n : Int) (ty : Nat) (root : Int)
  | scatter (n : Int) (ty : Option Nat) (root : Int)
  | scatterv (counts displs : Option (List Int)) (ty : Option Nat) (root : Int)
  | gather (n : Int) (ty : Nat) (root : Int)
  | gatherv (n : Int) (ty : Nat) (root : Int)
  | reduce (n : Int) (ty : Nat) (root : Int)
  | scan (n : Int) (ty : Nat)
  | allreduce (n : Int) (ty : Nat)
  | allgather (n : Int) (ty : Nat)
  | allgatherv (n : Int) (ty : Nat)
  | reduceScatter (counts : List Int) (ty : Nat)
  | alltoall (n : Int) (ty : Nat)
  | alltoallv (counts : List Int) (ty : Nat)
  deriving DecidableEq, Repr

/-- MPI calls with their results; `h` is a request handle, `hs` the array of request handles given to the call -/
inductive Call where
  /-- the blocking (`h = none`) and non-blocking send functions -/
  | send (n : Int) (ty : Nat) (dst tag : Int) (c : Comm) (h : Option Nat)
  | sendInit (n : Int) (ty : Nat) (dst tag : Int) (c : Comm) (h : Nat)
  | recv (ty : Nat) (c : Comm) (st : Status)
  | irecv (ty : Nat) (c : Comm) (h : Nat)
  | recvInit (ty : Nat) (c : Comm) (h : Nat)
  | sendrecv (n : Int) (sty : Nat) (dst tag : Int) (rty : Nat) (c : Comm) (st : Status)
  | start (hs : List Nat)
  | wait (h : Nat) (st : Status)
  | waitall (hs : List Nat) (sts : List Status)
  | waitany (hs : List Nat) (i : Int) (st : Status)
  /-- `MPI_Waitsome` and `MPI_Testsome`: `idx` are the indices of the completed requests, `sts` the whole status array -/
  | waitsome (hs idx : List Nat) (sts : List Status)
  | test (h : Nat) (flag : Bool) (st : Status)
  | testall (hs : List Nat) (flag : Bool) (sts : List Status)
  | testany (hs : List Nat) (flag : Bool) (i : Int) (st : Status)
  | requestFree (h : Nat)
  | coll (k : Coll) (c : Comm)
  deriving DecidableEq, Repr

/-- `CollectiveType` (`MpiTracing.h:27`) -/
inductive CKind where
  | barrier | nxn | oneToN | nToOne
  deriving DecidableEq, Repr

/-- what is done with messages, collectives and communication regions; `κ` is what is stored about a communicator -/
structure Sink (σ κ : Type) where
  comm : σ → Comm → σ × κ
  send : σ → κ → Int → Int → Int → σ
  recv : σ → κ → Int → Int → Int → σ
  coll : σ → κ → CKind → Int → Int → σ
  begin : σ → σ
  fin : σ → σ

/-- `RequestInfo` (`MpiTracing.cpp:38-50`, `MpiPattern.cpp:35-47`); `count` is not used -/
structure Info (κ : Type) where
  recv : Bool
  persistent : Bool
  target : Int
  tag : Int
  ty : Nat
  size : Int
  comm : κ
  deriving DecidableEq, Repr

/-- `MpiTracingImpl` / `MpiPatternImpl`.  `bad`: the wrapper has read outside an array, through a null pointer, or passed an invalid datatype on. -/
structure St (σ κ : Type) where
  sink : σ
  reqs : Nat → Option (Info κ) := fun _ => none
  bad : Bool := false

variable {σ κ : Type}

/-- `handle_send` (`MpiTracing.cpp:388-395`, `MpiPattern.cpp:349-356`) -/
def handleSend (S : Sink σ κ) (s : St σ κ) (n : Int) (ty : Nat) (dst tag : Int) (c : Comm) : St σ κ :=
  let x := S.comm s.sink c
  { s with sink := S.send x.1 x.2 dst tag (i32 (ty * n)) }

/-- `handle_recv` (`MpiTracing.cpp:230-238`, `MpiPattern.cpp:164-172`) -/
def handleRecv (S : Sink σ κ) (s : St σ κ) (ty : Nat) (c : Comm) (st : Status) : St σ κ :=
  let x := S.comm s.sink c
  { s with sink := S.recv x.1 x.2 st.src st.tag (i32 (ty * st.count ty)) }

/-- `handle_send_init` (`MpiTracing.cpp:190-217`, `MpiPattern.cpp:128-154`) -/
def handleSendInit (S : Sink σ κ) (s : St σ κ) (n : Int) (ty : Nat) (dst tag : Int) (c : Comm) (h : Nat) : St σ κ :=
  let x := S.comm s.sink c
  { s with sink := x.1, reqs := BB.upd s.reqs h (some ⟨false, true, dst, tag, ty, i32 (ty * n), x.2⟩) }

/-- `handle_irecv`, `handle_recv_init` (`MpiTracing.cpp:240-291`, `MpiPattern.cpp:174-224`); target, tag and size are not used for receives -/
def handleIrecv (S : Sink σ κ) (s : St σ κ) (persistent : Bool) (ty : Nat) (c : Comm) (h : Nat) : St σ κ :=
  let x := S.comm s.sink c
  { s with sink := x.1, reqs := BB.upd s.reqs h (some ⟨true, persistent, 0, 0, ty, 0, x.2⟩) }

/-- `handle_start` (`MpiTracing.cpp:293-308`, `MpiPattern.cpp:226-241`) -/
def handleStart (S : Sink σ κ) (s : St σ κ) : List Nat → St σ κ
  | [] => s
  | h :: hs =>
    match s.reqs h with
    | none => handleStart S s hs
    | some i => handleStart S (if i.recv then s else { s with sink := S.send s.sink i.comm i.target i.tag i.size }) hs

/-- one round of `handle_completion` (`MpiTracing.cpp:312-333`, `MpiPattern.cpp:259-280`) -/
def completion1 (S : Sink σ κ) (s : St σ κ) (h : Nat) (st : Status) : St σ κ :=
  match s.reqs h with
  | none => s
  | some i =>
    { s with
      sink := if i.recv then S.recv s.sink i.comm st.src st.tag (i32 (i.ty * st.count i.ty)) else s.sink
      reqs := if i.persistent then s.reqs else BB.upd s.reqs h none }

/-- `handle_completion` (`MpiTracing.cpp:310-334`, `MpiPattern.cpp:257-281`) -/
def completion (S : Sink σ κ) (s : St σ κ) (l : List (Nat × Status)) : St σ κ := l.foldl (fun s p => completion1 S s p.1 p.2) s

/-- `handle_completion(1, tmp_req + i, status)` with an index that may be `MPI_UNDEFINED` (`Wrapper.w:679`, `884`) -/
def completionAt (S : Sink σ κ) (s : St σ κ) (hs : List Nat) (i : Int) (st : Status) : St σ κ :=
  if i < 0 then { s with bad := true }
  else match hs[i.toNat]? with
    | some h => completion S s [(h, st)]
    | none => { s with bad := true }

/-- the loop in `MPI_Waitsome`, `MPI_Testsome`: `handle_completion(1, tmp_req + idx[i], statuses + idx[i])` (`Wrapper.w:733-734`) -/
def completionSome (S : Sink σ κ) (s : St σ κ) (hs : List Nat) (sts : List Status) : List Nat → St σ κ
  | [] => s
  | k :: idx =>
    match hs[k]?, sts[k]? with
    | some h, some st => completionSome S (completion S s [(h, st)]) hs sts idx
    | _, _ => completionSome S { s with bad := true } hs sts idx

/-- `handle_12n` (`MpiTracing.cpp:468-476`) -/
def handle12n (S : Sink σ κ) (s : St σ κ) (n : Int) (ty : Nat) (root : Int) (c : Comm) : St σ κ :=
  let x := S.comm s.sink c
  { s with sink := S.coll x.1 x.2 .oneToN (i32 ((if c.rank = root then n else 0) * ty)) root }

/-- `handle_n21` (`MpiTracing.cpp:478-486`) -/
def handleN21 (S : Sink σ κ) (s : St σ κ) (n : Int) (ty : Nat) (root : Int) (c : Comm) : St σ κ :=
  let x := S.comm s.sink c
  { s with sink := S.coll x.1 x.2 .nToOne (i32 ((if c.rank ≠ root then n else 0) * ty)) root }

/-- `handle_n2n` (`MpiTracing.cpp:488-494`) -/
def handleN2n (S : Sink σ κ) (s : St σ κ) (n : Int) (ty : Nat) (c : Comm) : St σ κ :=
  let x := S.comm s.sink c
  { s with sink := S.coll x.1 x.2 .nxn (i32 (n * ty)) 0 }

/-- `std::accumulate` with an `int` -/
def accum (l : List Int) : Int := l.foldl (fun a x => i32 (a + x)) 0

/-- the wrappers of the collectives (`Wrapper.w:931-1300`); `MPI_Scatterv` adds up its third argument, the displacements (`1022`) -/
def handleColl (S : Sink σ κ) (s : St σ κ) (c : Comm) : Coll → St σ κ
  | .barrier => let x := S.comm s.sink c; { s with sink := S.coll x.1 x.2 .barrier 0 0 }
  | .bcast n ty root => handle12n S s n ty root c
  | .scatter n (some ty) root => handle12n S s n ty root c
  | .scatter _ none _ => { s with bad := true }
  | .scatterv _ (some displs) (some ty) root => handle12n S s (accum displs) ty root c
  | .scatterv _ _ _ _ => { s with bad := true }
  | .gather n ty root => handleN21 S s n ty root c
  | .gatherv n ty root => handleN21 S s n ty root c
  | .reduce n ty root => handleN21 S s n ty root c
  | .scan n ty => handleN2n S s n ty c
  | .allreduce n ty => handleN2n S s n ty c
  | .allgather n ty => handleN2n S s n ty c
  | .allgatherv n ty => handleN2n S s n ty c
  | .reduceScatter counts ty => handleN2n S s (counts.getD c.rank.toNat 0) ty c
  | .alltoall n ty => handleN2n S s (i32 (c.ranks.length * n)) ty c
  | .alltoallv counts ty => handleN2n S s (accum counts) ty c

/-- the wrappers (`Wrapper.w:295-1300`), for a channel that is active and has the function enabled -/
def handle (S : Sink σ κ) (s : St σ κ) : Call → St σ κ
  | .send n ty dst tag c _ => handleSend S s n ty dst tag c
  | .sendInit n ty dst tag c h => handleSendInit S s n ty dst tag c h
  | .recv ty c st => handleRecv S s ty c st
  | .irecv ty c h => handleIrecv S s false ty c h
  | .recvInit ty c h => handleIrecv S s true ty c h
  | .sendrecv n sty dst tag rty c st => handleRecv S (handleSend S s n sty dst tag c) rty c st
  | .start hs => handleStart S s hs
  | .wait h st => completion S s [(h, st)]
  | .waitall hs sts => completion S s (hs.zip sts)
  | .waitany hs i st => if hs.length > 0 then completionAt S s hs i st else s
  | .waitsome hs idx sts => completionSome S s hs sts idx
  | .test h flag st => if flag then completion S s [(h, st)] else s
  | .testall hs flag sts => if flag then completion S s (hs.zip sts) else s
  | .testany hs flag i st => if flag then completionAt S s hs i st else s
  | .requestFree h => { s with reqs := BB.upd s.reqs h none }
  | .coll k c => handleColl S s c k

/-- a step of the program: an MPI call, which the channel sees or not (function not enabled, channel inactive: `Wrapper.w:305` and so on), or the begin or end of
a communication region (`Wrapper.w:1440-1449`) -/
inductive Step where
  | call (seen : Bool) (c : Call)
  | begin
  | fin
  deriving DecidableEq, Repr

/-- one step -/
def step (S : Sink σ κ) (s : St σ κ) : Step → St σ κ
  | .call true c => handle S s c
  | .call false _ => s
  | .begin => { s with sink := S.begin s.sink }
  | .fin => { s with sink := S.fin s.sink }

/-- a run -/
def run (S : Sink σ κ) (s : St σ κ) (l : List Step) : St σ κ := l.foldl (step S) s

/-! ## Tracing -/

/-- the communicator node: size, whether it has the processes of the world communicator in the same order, otherwise their world ranks, and a number
(`MpiTracing.cpp:123-159`) -/
structure CNode where
  size : Nat
  world : Bool
  list : List Int
  id : Nat
  deriving DecidableEq, Repr

/-- a pushed snapshot: `mpi.msg.dst`, `.tag`, `.size` of a message sent; `mpi.msg.src`, `.tag`, `.size` of a message received; `mpi.coll.type`, `mpi.msg.size` and
`mpi.coll.root` of a collective (`MpiTracing.cpp:179-188`, `219-228`, `345-362`) -/
inductive TEv where
  | sent (c : CNode) (dst tag size : Int)
  | received (c : CNode) (src tag size : Int)
  | coll (c : CNode) (k : CKind) (size root : Option Int)
  deriving DecidableEq, Repr

/-- state of `MpiTracingImpl` beside the requests -/
structure Trc where
  comms : Nat → Option CNode := fun _ => none
  next : Nat
  out : List TEv := []

/-- world communicator: the ranks in order -/
def isWorld (W : Nat) (c : Comm) : Bool := decide (c.ranks = (List.range W).map Int.ofNat)

/-- `make_comm_entry` (`MpiTracing.cpp:123-159`); `W`: number of processes -/
def mkNode (W : Nat) (c : Comm) (id : Nat) : CNode :=
  ⟨c.ranks.length, isWorld W c, if isWorld W c then [] else c.ranks, id⟩

/-- `lookup_comm` (`MpiTracing.cpp:161-174`) -/
def lookupComm (W : Nat) (t : Trc) (c : Comm) : Trc × CNode :=
  match t.comms c.handle with
  | some n => (t, n)
  | none => ({ t with comms := BB.upd t.comms c.handle (some (mkNode W c t.next)), next := t.next + 1 }, mkNode W c t.next)

/-- `push_coll_event` (`MpiTracing.cpp:345-362`) -/
def collEv (n : CNode) (k : CKind) (size root : Int) : TEv :=
  match k with
  | .oneToN => .coll n k (some size) (some root)
  | .nToOne => .coll n k (some size) (some root)
  | .nxn => .coll n k (some size) none
  | .barrier => .coll n k none none

/-- `MpiTracing` -/
def tracing (W : Nat) : Sink Trc CNode where
  comm := lookupComm W
  send := fun t n dst tag size => { t with out := t.out ++ [.sent n dst tag size] }
  recv := fun t n src tag size => { t with out := t.out ++ [.received n src tag size] }
  coll := fun t n k size root => { t with out := t.out ++ [collEv n k size root] }
  begin := id
  fin := id

/-- after `init_mpi` (`MpiTracing.cpp:111-118`), which makes two communicator entries but does not keep them -/
def Trc.init : Trc := { next := 2 }

/-! ## Message pattern -/

/-- a report at the end of a communication region (`MpiPattern.cpp:312-326`) -/
structure Report where
  sends : Int
  recvs : Int
  colls : Int
  dests : Nat
  srcs : Nat
  recvSize : Int
  sendSize : Int
  collSize : Int
  deriving DecidableEq, Repr

/-- counters of `MpiPatternImpl` (`MpiPattern.cpp:110-118`); the sets of ranks are lists without duplicates -/
structure Pat where
  sends : Int := 0
  recvs : Int := 0
  colls : Int := 0
  sendSize : Int := 0
  recvSize : Int := 0
  collSize : Int := 0
  srcs : List Int := []
  dests : List Int := []
  out : List Report := []

/-- `std::set::insert` -/
def sins (x : Int) (l : List Int) : List Int := if x ∈ l then l else x :: l

/-- `MpiPattern` (`MpiPattern.cpp:120-126`, `156-162`, `293-326`) -/
def pattern : Sink Pat Unit where
  comm := fun p _ => (p, ())
  send := fun p _ dst _ size => { p with sends := i32 (p.sends + 1), sendSize := i32 (p.sendSize + size), dests := sins dst p.dests }
  recv := fun p _ src _ size => { p with recvs := i32 (p.recvs + 1), recvSize := i32 (p.recvSize + size), srcs := sins src p.srcs }
  coll := fun p _ _ size _ => { p with colls := i32 (p.colls + 1), collSize := i32 (p.collSize + size) }
  begin := fun p => { out := p.out }
  fin := fun p => { p with out := p.out ++ [⟨p.sends, p.recvs, p.colls, p.dests.length, p.srcs.length, p.recvSize, p.sendSize, p.collSize⟩] }

end Verif.MpiMsg
