import Verif.Serv.Event
import Verif.Props.Aggregation
/-!
# A region profile: event, timer and aggregation service on one channel

Composition of the annotation runtime (`Verif/Runtime`), the event and timer services (`Verif/Serv/Event`) and the aggregation database
(`Verif/Agg/Model`): `Caliper::push_snapshot` (`/repo/src/caliper/Caliper.cpp:856-871`).

Simplified: `enable_snapshot_info` is off, as in Caliper's built-in profiling configs (the trigger info of a begin or end event then is the
region count only); the services store no pointers on the blackboard; the copy of the process blackboard is up to date (`Verif/Conc/Cache`).
-/
namespace Verif.Prof
open Verif

/-- the attributes of the values the event and timer services append, by node id -/
structure Ids where
  /-- `time.offset.ns` -/
  offset : Nat
  /-- `time.duration.ns` -/
  dur : Nat
  /-- `time.inclusive.duration.ns` -/
  incl : Nat
  /-- `region.count` -/
  count : Nat

/-- an entry as the aggregation service sees it; `conv` translates values -/
def toDEnt (conv : Verif.Val → Cali.Val) (t : MTree.Tree) (e : RT.Entry) : Cali.DEnt := ⟨e.node.map t.idOf, conv e.val⟩

/-- the values the timer service appends (`Timer.cpp:86`, `93`, `115`) -/
def timeEntries (I : Ids) (r : Serv.TRec) : List Cali.DEnt :=
  [⟨some I.offset, .uint r.offset⟩] ++ (r.duration.map fun d => ⟨some I.dur, .uint d⟩).toList ++ (r.inclusive.map fun d => ⟨some I.incl, .uint d⟩).toList

/-- the record of `push_snapshot` (`Caliper.cpp:856-868`): thread blackboard, process blackboard, trigger info (`EventTrigger.cpp:263`), the
values of the timer; at most 120 entries (`SNAP_MAX`, `Caliper.cpp:36`) -/
def record (I : Ids) (conv : Verif.Val → Cali.Val) (s : RT.State) (sn : Serv.Snap) : List Cali.DEnt :=
  (((BB.snapshot (s.board (.thread sn.th)) ++ (BB.snapshot (s.board .process)).take 120).map (toDEnt conv s.tree)) ++
    (if sn.count then [(⟨some I.count, .uint 1⟩ : Cali.DEnt)] else []) ++ timeEntries I sn.time).take 120

/-- the callbacks channel `ch` gets during a call -/
def callbacks (ch : Nat) (s : RT.State) (op : RT.Op) : List RT.Event :=
  ((RT.step s op).log.drop s.log.length).filter fun e => decide (e.ch = ch)

variable (raw : BitVec 64 → List Byte) (C : Serv.Cfg) (I : Ids) (conv : Verif.Val → Cali.Val) (ch : Nat)

/-- the records given to the aggregation service during a timed history of annotation calls, with their thread.  The callbacks that take
snapshots come before the call changes the context (`Caliper.cpp:959-978`, `1011-1018`, `1056-1063`). -/
def records : RT.State → Serv.State → List (Nat × RT.Op) → List (Nat × List Cali.DEnt)
  | _, _, [] => []
  | s, v, (t, op) :: h =>
    let x := Serv.State.run raw C v ((callbacks ch s op).map fun e => (BitVec.ofNat 64 t, .event e))
    x.2.map (fun sn => (sn.th, record I conv s sn)) ++ records (RT.step s op) x.1 h

/-- what a flush reports for the database of thread `th` (`Aggregate.cpp:164-168`, `232-240`): records of the thread, outside signal handlers -/
def profile (O : Agg.DblOps) (E : Agg.Env) (info : Agg.Info) (sk : Cali.DEnt) (th : Nat) (s : RT.State) (v : Serv.State)
    (h : List (Nat × RT.Op)) : Option (List (List Cali.DEnt)) :=
  ((Agg.ADB.init sk).run O E (((records raw C I conv ch s v h).filter fun r => decide (r.1 = th)).map fun r => ⟨info, r.2, true⟩)).flush O info

end Verif.Prof
