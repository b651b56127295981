import Verif.Props.Aggregation
/-!
# The timeseries service

Model of `/repo/src/services/monitor/Timeseries.cpp` on top of the per-thread aggregation databases of its profile channel
(`/repo/src/services/aggregate/Aggregate.cpp`; the database itself is `Verif.Agg.ADB`).

Simplifications: the operations of the threads are atomic (the interleavings of the aggregation service are the subject of
C78); the profile channel has only the aggregate, event and timer services of `s_profile_spec`, so that its flush has no
post-processing; the aggregation attributes are known when the channel starts and do not change (C28); the clock readings are
part of the operations; a thread is a number that is not used again for another thread.
-/
namespace Verif.Timeseries
open Verif Verif.Cali Verif.Agg

/-- the surroundings: floating-point operations, the aggregation parameters and the attributes of the service
(`Timeseries.cpp:89-98`) -/
structure Setup where
  O : DblOps
  E : Env
  sk : DEnt
  info : Info
  sub : U64 → U64 → U64
  startA : Nat
  snapA : Nat
  durA : Nat

/-- one operation seen by the service: a new thread (`create_thread_cb`, `Aggregate.cpp`), a snapshot record of the profile
channel on a thread - possibly in a signal handler -, the end of a thread, a snapshot of the timeseries channel on a thread at
a clock reading and with trigger information -/
inductive Op where
  | create (th : Nat)
  | record (th : Nat) (rec : List DEnt) (sig : Bool)
  | exit (th : Nat)
  | snap (th : Nat) (now : U64) (trig : List DEnt)

/-- `ThreadDB` (`Aggregate.cpp:43-71`) and the thread whose blackboard points to it -/
structure TDB where
  th : Nat
  db : ADB
  retired : Bool

/-- the state: the list `m_tdb_list` (newest first), the start times on the blackboards of the threads, `m_snapshots` -/
structure TState where
  dbs : List TDB
  start : Nat → Option U64
  n : Nat

/-- `acquire_tdb` with `can_alloc` (`Aggregate.cpp:83-104`) -/
def acquire (P : Setup) (th : Nat) (dbs : List TDB) : List TDB :=
  if dbs.any (fun d => d.th == th) then dbs else ⟨th, ADB.init P.sk, false⟩ :: dbs

/-- `process_snapshot_cb` (`Aggregate.cpp:228-236`): a record in a signal handler of a thread without database is dropped -/
def process (P : Setup) (th : Nat) (rec : List DEnt) (sig : Bool) (dbs : List TDB) : List TDB :=
  (if sig then dbs else acquire P th dbs).map fun d =>
    if d.th = th then { d with db := d.db.process P.O P.E P.info rec (!sig) } else d

/-- `release_thread_cb` (`Aggregate.cpp:279-285`) -/
def retire (th : Nat) (dbs : List TDB) : List TDB := dbs.map fun d => if d.th = th then { d with retired := true } else d

/-- `clear_cb` (`Aggregate.cpp:171-226`): clear all databases and delete those of threads that have ended -/
def clearAll : List TDB → List TDB
  | [] => []
  | d :: ds => if d.retired then clearAll ds else { d with db := d.db.clear } :: clearAll ds

/-- `flush_cb` (`Aggregate.cpp:151-169`); `none`: undefined behaviour in `AggregationDB::flush` -/
def flushAll (P : Setup) : List TDB → Option (List (List DEnt))
  | [] => some []
  | d :: ds => match d.db.flush P.O P.info with
    | none => none
    | some rs => (flushAll P ds).map (rs ++ ·)

/-- what one snapshot of the timeseries channel produces: the records passed to the channel's `process_snapshot` and the
entries added to the snapshot record itself -/
structure Out where
  rows : List (List DEnt)
  own : List DEnt
  deriving DecidableEq

/-- `ts_entries` (`Timeseries.cpp:48-49`); `cali_make_variant_from_uint` of an `unsigned` -/
def tsEntries (P : Setup) (prev : Option U64) (n : Nat) : List DEnt :=
  [⟨some P.startA, match prev with | some t => .double t | none => .inv⟩, ⟨some P.snapA, .uint (BitVec.ofNat 64 (n % 2 ^ 32))⟩]

/-- `snapshot_cb` (`Timeseries.cpp:43-74`); `Variant::to_double` of an empty value is 0 (`cali_variant.c:329-345`) -/
def snapshot (P : Setup) (s : TState) (th : Nat) (now : U64) (trig : List DEnt) : Option (TState × Out) :=
  let prev := s.start th
  let ts := tsEntries P prev s.n
  match flushAll P s.dbs with
  | none => none
  | some rows =>
    some ({ dbs := clearAll s.dbs, start := fun t => if t = th then some now else s.start t, n := s.n + 1 },
      { rows := rows.map fun frec => frec ++ trig ++ ts
        own := ts ++ [⟨some P.durA, .double (P.sub now (prev.getD 0))⟩] })

/-- `post_init_cb` (`Timeseries.cpp:76-80`) and that of the aggregate service (`Aggregate.cpp:257-268`), on the thread that
creates the channel -/
def init (P : Setup) (th0 : Nat) (t0 : U64) : TState := ⟨[⟨th0, ADB.init P.sk, false⟩], fun t => if t = th0 then some t0 else none, 0⟩

/-- one operation -/
def step (P : Setup) (s : TState) : Op → Option (TState × List Out)
  | .create th => some ({ s with dbs := acquire P th s.dbs }, [])
  | .record th rec sig => some ({ s with dbs := process P th rec sig s.dbs }, [])
  | .exit th => some ({ s with dbs := retire th s.dbs }, [])
  | .snap th now trig => (snapshot P s th now trig).map fun p => (p.1, [p.2])

/-- a sequence of operations: the final state and what the snapshots produced -/
def run (P : Setup) (s : TState) : List Op → Option (TState × List Out)
  | [] => some (s, [])
  | o :: os => match step P s o with
    | none => none
    | some (s', out) => (run P s' os).map fun p => (p.1, out ++ p.2)

end Verif.Timeseries
