import Verif.Runtime.Model
/-!
# Channels

Model of the channel functions of `/repo/src/caliper/Caliper.cpp`: `create_channel` (1336-1377), `delete_channel` (1393-1410),
`activate_channel` (1412-1420), `deactivate_channel` (1422-1429), `get_channel` (1379-1386), `release_thread` (1432-1438) and
`finalize` (1440-1451), on top of the annotation calls of `Verif/Runtime`.

A channel (`Channel::mP`, compared by pointer) is represented by the id it gets at creation.  Left out: the service callbacks of a channel
other than those recorded here, the flush in `finalize`, and in `create_channel` the three `set` calls for global attributes (they are
annotation calls with `CALI_ATTR_SKIP_EVENTS` on the new channel).  `activate_channel` and `deactivate_channel` take no lock: calls are
one step here, i.e. the model covers programs that do not change channels while other threads annotate.
-/
namespace Verif.Chan
open RT

/-- life-cycle callbacks of a channel -/
inductive Life where
  | postInit (ch : Nat)
  | preFinish (ch : Nat)
  | finish (ch : Nat)
  | releaseThread (ch : Nat)
  deriving DecidableEq

/-- runtime state with `all_channels` (`Caliper.cpp:316`), the `next_id` counter (`Caliper.cpp:1341`), `max_active_channels`
and the life-cycle callbacks invoked so far; `active_channels` and `is_active` are part of the runtime state -/
structure State where
  rt : RT.State
  all : List Nat
  next : Nat
  maxActive : Nat
  life : List Life

/-- `vector::erase(std::find(begin, end, channel))` if found (e.g. `Caliper.cpp:1401-1403`): removes the first occurrence -/
def eraseFound (l : List Nat) (c : Nat) : List Nat :=
  match l.findIdx? (fun x => x == c) with
  | some i => l.eraseIdx i
  | none => l

/-- `create_channel` -/
def create (s : State) : State :=
  { s with all := s.all ++ [s.next], next := s.next + 1, life := s.life ++ [.postInit s.next] }

/-- `activate_channel` -/
def activate (s : State) (c : Nat) : State :=
  let active := match s.rt.active.findIdx? (fun x => x == c) with
    | none => s.rt.active ++ [c]
    | some _ => s.rt.active
  { s with rt := { s.rt with isActive := BB.upd s.rt.isActive c true, active := active }, maxActive := max s.maxActive active.length }

/-- `deactivate_channel` -/
def deactivate (s : State) (c : Nat) : State :=
  { s with rt := { s.rt with active := eraseFound s.rt.active c, isActive := BB.upd s.rt.isActive c false } }

/-- `delete_channel`; it leaves `is_active` alone -/
def delete (s : State) (c : Nat) : State :=
  { s with rt := { s.rt with active := eraseFound s.rt.active c }, all := eraseFound s.all c, life := s.life ++ [.preFinish c, .finish c] }

/-- `get_channel` (`Caliper.cpp:1379-1386`) -/
def getChannel (s : State) (c : Nat) : Option Nat := s.all.find? fun x => x == c

/-- `release_thread` (`Caliper.cpp:1432-1438`) -/
def releaseThread (s : State) : State := { s with life := s.life ++ s.all.map .releaseThread }

/-- the loop of `finalize` (`Caliper.cpp:1446-1451`); each round removes one channel -/
def finalizeLoop : Nat → State → State
  | 0, s => s
  | fuel + 1, s =>
    match s.all with
    | [] => s
    | c :: _ => finalizeLoop fuel (delete s c)

/-- `finalize` -/
def finalize (s : State) : State := finalizeLoop s.all.length s

/-- calls -/
inductive Op where
  | create
  | activate (c : Nat)
  | deactivate (c : Nat)
  | delete (c : Nat)
  | releaseThread
  | finalize
  | ann (op : RT.Op)

/-- one call -/
def step (s : State) : Op → State
  | .create => create s
  | .activate c => activate s c
  | .deactivate c => deactivate s c
  | .delete c => delete s c
  | .releaseThread => releaseThread s
  | .finalize => finalize s
  | .ann op => { s with rt := RT.step s.rt op }

/-- a history -/
def run (s : State) (ops : List Op) : State := ops.foldl step s

/-- start-up: no channels -/
def init (t : MTree.Tree) : State := ⟨RT.init t [] fun _ => false, [], 0, 0, []⟩

end Verif.Chan
