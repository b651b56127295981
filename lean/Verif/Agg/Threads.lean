/-!
# The aggregation service with several threads

Model of the per-thread aggregation databases of a channel (`/repo/src/services/aggregate/Aggregate.cpp:36-288`) as a small-step machine:
each step is one atomic access, one critical section of the list lock, or one operation on a database.

A database is represented by the list of the snapshots it holds (its contents are the subject of C21-C24).  Simplified: addresses are not
reused after `delete` (so that every use of a deleted object shows); a step on a database is atomic (two such steps of different threads on the
same database at the same time are a data race, see `Race`); deleting the service with the channel is left out.  A thread is a `ThreadData`
object: after `release_thread` it makes no further calls (`Caliper.cpp:431-451`).
-/
namespace Verif.AggThreads

/-- `ThreadDB` (`Aggregate.cpp:43-65`) -/
structure TDB (R : Type) where
  next : Option Nat
  prev : Option Nat
  stopped : Bool
  retired : Bool
  /-- the snapshots in the database -/
  recs : List R

/-- where a thread is -/
inductive PC (R : Type) where
  /-- not inside the service -/
  | idle
  /-- `acquire_tdb` (`Aggregate.cpp:91-98`), about to link the new database; then the snapshot is processed -/
  | link (d : Nat) (k : Option R)
  /-- `process_snapshot_cb` (`Aggregate.cpp:236`), about to read `stopped` -/
  | check (d : Nat) (r : R)
  /-- `process_snapshot_cb` (`Aggregate.cpp:237`), about to process the snapshot -/
  | proc (d : Nat) (r : R)
  /-- the statements of the loop of `flush_cb` (`Aggregate.cpp:164-168`) -/
  | fStop (c : Nat)
  | fWork (c : Nat)
  | fStart (c : Nat)
  | fNext (c : Nat)
  /-- the statements of the loop of `clear_cb` (`Aggregate.cpp:188-216`) -/
  | cStop (c : Nat)
  | cWork (c : Nat)
  | cStart (c : Nat)
  | cRet (c : Nat)
  | cUnlink (c : Nat) (tmp : Option Nat)
  | cDel (c : Nat) (tmp : Option Nat)

/-- the state: `heap` the `ThreadDB` objects, `head` `m_tdb_list`, `slot` the pointer on each thread's blackboard, `gone` the threads that have
ended, `bad`: a deleted object was used.  The lists record the history: snapshots the service was called with (`started`), put into a
database (`taken`), dropped, removed with `clear` or with a database (`cleared`), passed to the flush function (`out`). -/
structure State (R : Type) where
  heap : Nat → Option (TDB R)
  nextId : Nat
  head : Option Nat
  slot : Nat → Option Nat
  gone : Nat → Bool
  pc : Nat → PC R
  bad : Bool
  started : List R
  taken : List R
  dropped : List R
  cleared : List R
  out : List R

/-- a new service instance (`Aggregate.cpp:297-309`) -/
def State.init (R : Type) : State R :=
  ⟨fun _ => none, 0, none, fun _ => none, fun _ => false, fun _ => .idle, false, [], [], [], [], []⟩

/-- calls into the service, or the next step of the call a thread is in -/
inductive Act (R : Type) where
  /-- `process_snapshot_cb`; `sig`: in a signal handler; `ok`: there is room for the pointer on the thread's blackboard -/
  | snapshot (r : R) (sig ok : Bool)
  /-- `create_thread_cb` (`Aggregate.cpp:277-280`), also `post_init_cb` (`Aggregate.cpp:268`) -/
  | create (ok : Bool)
  /-- `release_thread_cb` (`Aggregate.cpp:282-288`) -/
  | release
  | flush
  | clear
  | go

def upd {β : Type} (f : Nat → β) (i : Nat) (x : β) : Nat → β := fun j => if j = i then x else f j

variable {R : Type}

def State.goto (s : State R) (th : Nat) (p : PC R) : State R := { s with pc := upd s.pc th p }
def State.put (s : State R) (d : Nat) (t : TDB R) : State R := { s with heap := upd s.heap d (some t) }

/-- access through a pointer -/
def State.deref (s : State R) (d : Nat) (f : TDB R → State R) : State R :=
  match s.heap d with
  | none => { s with bad := true }
  | some t => f t

/-- `new ThreadDB` and storing its pointer on the blackboard (`Aggregate.cpp:87-89`) -/
def State.alloc (s : State R) (th : Nat) (ok : Bool) (k : Option R) : State R :=
  { s with heap := upd s.heap s.nextId (some ⟨none, none, false, false, []⟩), nextId := s.nextId + 1,
           slot := if ok then upd s.slot th (some s.nextId) else s.slot, pc := upd s.pc th (.link s.nextId k) }

/-- the critical section of `acquire_tdb` (`Aggregate.cpp:91-97`) -/
def State.linkIn (s : State R) (d : Nat) : State R :=
  match s.head with
  | none => s.deref d fun t => { s.put d { t with next := none } with head := some d }
  | some h => s.deref h fun th' =>
    let s := s.put h { th' with prev := some d }
    s.deref d fun t => { s.put d { t with next := some h } with head := some d }

/-- the critical section of `clear_cb` (`Aggregate.cpp:203-209`) with `unlink` (`Aggregate.cpp:56-62`); the history records the snapshots that
go with the database -/
def State.unlink (s : State R) (c : Nat) (tmp : Option Nat) : State R :=
  s.deref c fun t =>
    let s1 : State R := match t.next with
      | none => s
      | some n => s.deref n fun tn => s.put n { tn with prev := t.prev }
    let s2 : State R := match t.prev with
      | none => s1
      | some p => s1.deref p fun tp => s1.put p { tp with next := t.next }
    { s2 with head := if s2.head = some c then tmp else s2.head, cleared := s2.cleared ++ t.recs }

/-- the next iteration of a loop -/
def PC.loop (f : Nat → PC R) : Option Nat → PC R
  | none => .idle
  | some c => f c

/-- the first step of a call -/
def State.call (s : State R) (th : Nat) : Act R → State R
  | .snapshot r sig ok =>
    let s := { s with started := s.started ++ [r] }
    match s.slot th with
    | some d => s.goto th (.check d r)
    | none => if sig then { s with dropped := s.dropped ++ [r] } else s.alloc th ok (some r)
  | .create ok =>
    match s.slot th with
    | some _ => s
    | none => s.alloc th ok none
  | .release =>
    let s := match s.slot th with
      | some d => s.deref d fun t => s.put d { t with retired := true }
      | none => s
    { s with gone := upd s.gone th true }
  | .flush => s.goto th (PC.loop .fStop s.head)
  | .clear => s.goto th (PC.loop .cStop s.head)
  | .go => s

/-- the next step inside a call -/
def State.cont (s : State R) (th : Nat) : PC R → State R
  | .idle => s
  | .link d k => (s.linkIn d).goto th (match k with | some r => .check d r | none => .idle)
  | .check d r => s.deref d fun t =>
    if t.stopped then { s with dropped := s.dropped ++ [r] }.goto th .idle else s.goto th (.proc d r)
  | .proc d r => s.deref d fun t => { s.put d { t with recs := t.recs ++ [r] } with taken := s.taken ++ [r] }.goto th .idle
  | .fStop c => s.deref c fun t => (s.put c { t with stopped := true }).goto th (.fWork c)
  | .fWork c => s.deref c fun t => { s with out := s.out ++ t.recs }.goto th (.fStart c)
  | .fStart c => s.deref c fun t => (s.put c { t with stopped := false }).goto th (.fNext c)
  | .fNext c => s.deref c fun t => s.goto th (PC.loop .fStop t.next)
  | .cStop c => s.deref c fun t => (s.put c { t with stopped := true }).goto th (.cWork c)
  | .cWork c => s.deref c fun t => { s.put c { t with recs := [] } with cleared := s.cleared ++ t.recs }.goto th (.cStart c)
  | .cStart c => s.deref c fun t => (s.put c { t with stopped := false }).goto th (.cRet c)
  | .cRet c => s.deref c fun t => if t.retired then s.goto th (.cUnlink c t.next) else s.goto th (PC.loop .cStop t.next)
  | .cUnlink c tmp => (s.unlink c tmp).goto th (.cDel c tmp)
  | .cDel c tmp => s.deref c fun _ => { s with heap := upd s.heap c none }.goto th (PC.loop .cStop tmp)

/-- one step of thread `th`: a call if it is not inside one, else its next step -/
def State.step (s : State R) (th : Nat) (a : Act R) : State R :=
  if s.gone th then s
  else match s.pc th with
    | .idle => s.call th a
    | p => s.cont th p

/-- a schedule -/
def State.run (s : State R) : List (Nat × Act R) → State R
  | [] => s
  | (th, a) :: l => (s.step th a).run l

end Verif.AggThreads
