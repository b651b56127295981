import Verif.Tree.Model
import Verif.Blackboard.Model
/-!
# Annotation runtime

Model of the annotation part of `/repo/src/caliper/Caliper.cpp` (`begin`, `end`, `end_with_value_check`, `set`, `get`,
the channel-specific variants, and the static helpers), of `Entry` (`/repo/include/caliper/common/Entry.h`,
`/repo/src/common/Entry.cpp`) and of `Attribute` (`/repo/src/common/Attribute.cpp`).

Every call is one atomic step of its thread (the code holds the blackboard lock only around each blackboard access).
Event callbacks are observers: they are recorded in `log` and do not call back into Caliper.
A null-pointer dereference or a call that never returns leads to the state with `dead = true`, where nothing happens any more.
-/
namespace Verif.RT
open MTree

/-- `class Entry` (`Entry.h:30-48`) -/
structure Entry where
  node : Option Ptr
  val : Val
  deriving DecidableEq

/-- `Entry()` (`Entry.h:41`) -/
instance : Inhabited Entry := ⟨⟨none, Val.empty⟩⟩

/-- `Entry(Node*)` (`Entry.h:44`) for a non-null node -/
def Entry.ofNode (t : Tree) (p : Ptr) : Entry := ⟨some p, t.valOf p⟩

/-- `Attribute::NAME_ATTR_ID` (`Attribute.h:35`) -/
def nameAttr : Nat := 8
/-- `Attribute::TYPE_ATTR_ID` (`Attribute.h:36`) -/
def typeAttr : Nat := 9
/-- `Attribute::PROP_ATTR_ID` (`Attribute.h:37`) -/
def propAttr : Nat := 10

/-- `Entry::attribute()` (`Entry.h:58-65`) -/
def Entry.attribute (t : Tree) (e : Entry) : Nat :=
  match e.node with
  | none => invId
  | some n => if t.attrOf n = nameAttr then t.idOf n else t.attrOf n

/-- `Entry::get(attr)` (`Entry.cpp:42-57`) -/
def Entry.get (t : Tree) (e : Entry) (attrId : Nat) : Entry :=
  match e.node with
  | none => default
  | some n =>
    if t.idOf n = attrId then e
    else if t.attrOf n ≠ nameAttr then
      match findUp t attrId (t.fuelOf (some n)) (some n) with
      | some m => Entry.ofNode t m
      | none => default
    else default

/-- `class Attribute`: the attribute node and what `id()` and `properties()` read from the (immutable) tree;
see `Attr.Valid` in `Spec.lean` -/
structure Attr where
  ptr : Ptr
  id : Nat
  prop : BitVec 32
  deriving DecidableEq

/-- `CALI_ATTR_ASVALUE` (`cali_types.h`) -/
def Attr.asValue (a : Attr) : Bool := a.prop &&& 1#32 ≠ 0
/-- `CALI_ATTR_UNALIGNED` -/
def Attr.unaligned (a : Attr) : Bool := a.prop &&& 1024#32 ≠ 0
/-- `CALI_ATTR_SKIP_EVENTS` -/
def Attr.skipEvents (a : Attr) : Bool := a.prop &&& 64#32 ≠ 0
/-- `CALI_ATTR_HIDDEN` -/
def Attr.hidden (a : Attr) : Bool := a.prop &&& 128#32 ≠ 0
/-- `prop & CALI_ATTR_SCOPE_MASK` -/
def Attr.scope (a : Attr) : BitVec 32 := a.prop &&& 60#32
/-- `CALI_ATTR_SCOPE_THREAD` -/
def scopeThread : BitVec 32 := 20#32
/-- `CALI_ATTR_SCOPE_PROCESS` -/
def scopeProcess : BitVec 32 := 12#32

/-- `REGION_KEY`, `UNALIGNED_KEY` (`Caliper.cpp:521-522`) -/
def regionKey : Nat := 1
@[inherit_doc regionKey]
def unalignedKey : Nat := 2

/-- `get_blackboard_key_for_reference_entry` (`Caliper.cpp:540-543`) -/
def refKey (a : Attr) : Nat := if a.unaligned then unalignedKey else regionKey

/-- `get_blackboard_key` (`Caliper.cpp:530-538`) -/
def bbKey (a : Attr) : Nat := if a.asValue then a.id else refKey a

abbrev Board := BB.State Entry

/-- `load_current_entry` (`Caliper.cpp:582-599`): (merged entry, entry); `none` = the call never returns -/
def loadCurrent (t : Tree) (a : Attr) (key : Nat) (bb : Board) : Option (Entry × Entry) :=
  (BB.get bb key).map fun merged =>
    let entry := merged.get t a.id
    if merged.attribute t ≠ a.id then
      if entry.node = none then (default, default)
      else if key ≠ unalignedKey then (default, default)
      else (merged, entry)
    else (merged, entry)

/-- `handle_begin` (`Caliper.cpp:601-616`); result `none` = crash or hang -/
def handleBegin (t : Tree) (th : Nat) (a : Attr) (v : Val) (bb : Board) : Tree × Option Board :=
  if a.asValue then (t, BB.set bb a.id ⟨some a.ptr, v⟩ (!a.hidden))
  else
    match BB.get bb (refKey a) with
    | none => (t, none)
    | some cur =>
      match getChild t th a.id v cur.node with
      | (t, none) => (t, none)
      | (t, some n) => (t, BB.set bb (refKey a) (Entry.ofNode t n) (!a.hidden))

/-- `handle_end` (`Caliper.cpp:618-641`) -/
def handleEnd (t : Tree) (th : Nat) (a : Attr) (merged entry : Entry) (key : Nat) (bb : Board) : Tree × Option Board :=
  if a.asValue then (t, BB.del bb key)
  else
    match merged.node with
    | none => (t, none)
    | some n =>
      let node := t.parentOf n
      if node = some .root then (t, BB.del bb key)
      else
        match (if merged.node ≠ entry.node then removeFirst t th (some n) a.id else (t, node)) with
        | (t, none) => (t, none)
        | (t, some p) => (t, BB.set bb key (Entry.ofNode t p) (!a.hidden))

/-- `handle_set` (`Caliper.cpp:643-658`) -/
def handleSet (t : Tree) (th : Nat) (a : Attr) (v : Val) (bb : Board) : Tree × Option Board :=
  if a.asValue then (t, BB.set bb a.id ⟨some a.ptr, v⟩ (!a.hidden))
  else
    match BB.get bb (refKey a) with
    | none => (t, none)
    | some cur =>
      match replaceFirst t th cur.node a.id v with
      | (t, none) => (t, none)
      | (t, some n) => (t, BB.set bb (refKey a) (Entry.ofNode t n) (!a.hidden))

/-- the event callbacks of `Channel::Events` used by annotations -/
inductive EvKind where
  | preBegin | postBegin | preEnd | preSet
  deriving DecidableEq, Repr

/-- one callback invocation: for channel `ch`, on thread `th`, with attribute and value -/
structure Event where
  kind : EvKind
  ch : Nat
  th : Nat
  attr : Nat
  val : Val
  deriving DecidableEq

/-- the runtime state: metadata tree, thread blackboards (`ThreadData`, `Caliper.cpp:242-260`), process blackboard
(`GlobalData`, `Caliper.cpp:313`), channel blackboards, per-thread `stack_error` flags, `active_channels`
(`Caliper.cpp:317`, channel ids), each channel's `is_active`, and the callbacks invoked so far -/
structure State where
  tree : Tree
  tbb : Nat → Board
  pbb : Board
  cbb : Nat → Board
  err : Nat → Bool
  active : List Nat
  isActive : Nat → Bool
  log : List Event
  dead : Bool

/-- where an attribute's values live -/
inductive Loc where
  | thread (th : Nat)
  | process
  | channel (ch : Nat)
  deriving DecidableEq

/-- the blackboard at a location -/
def State.board (s : State) : Loc → Board
  | .thread th => s.tbb th
  | .process => s.pbb
  | .channel ch => s.cbb ch

/-- store tree and blackboard -/
def State.put (s : State) (l : Loc) (r : Tree × Option Board) : State :=
  match r with
  | (t, none) => { s with tree := t, dead := true }
  | (t, some bb) =>
    match l with
    | .thread th => { s with tree := t, tbb := BB.upd s.tbb th bb }
    | .process => { s with tree := t, pbb := bb }
    | .channel ch => { s with tree := t, cbb := BB.upd s.cbb ch bb }

/-- `for (auto& channel : sG->active_channels) ...` unless `CALI_ATTR_SKIP_EVENTS` is set (e.g. `Caliper.cpp:959-964`) -/
def State.emitAll (s : State) (k : EvKind) (th : Nat) (a : Attr) (v : Val) : State :=
  if a.skipEvents then s else { s with log := s.log ++ s.active.map fun ch => ⟨k, ch, th, a.id, v⟩ }

/-- callback of one channel if it is active (e.g. `Caliper.cpp:1115-1116`) -/
def State.emitOne (s : State) (ch : Nat) (k : EvKind) (th : Nat) (a : Attr) (v : Val) : State :=
  if !a.skipEvents && s.isActive ch then { s with log := s.log ++ [⟨k, ch, th, a.id, v⟩] } else s

/-- blackboard chosen by the attribute's scope (e.g. `Caliper.cpp:966-971`) -/
def scopeLoc (a : Attr) (th : Nat) : Option Loc :=
  if a.scope = scopeThread then some (.thread th)
  else if a.scope = scopeProcess then some .process
  else none

/-- `Caliper::begin(attr, data)` (`Caliper.cpp:946-980`) -/
def begin (s : State) (th : Nat) (a : Attr) (v : Val) : State :=
  if s.err th then s
  else
    let s := s.emitAll .preBegin th a v
    let s := match scopeLoc a th with
      | none => s
      | some l => s.put l (handleBegin s.tree th a v (s.board l))
    if s.dead then s else s.emitAll .postBegin th a v

/-- the common part of `end` and `end_with_value_check` (`Caliper.cpp:982-1024`, `1026-1069`);
`check` is the expected value, if any -/
def endCore (s : State) (th : Nat) (a : Attr) (check : Option Val) : State :=
  if s.err th then s
  else
    match scopeLoc a th with
    | none => s
    | some l =>
      match loadCurrent s.tree a (bbKey a) (s.board l) with
      | none => { s with dead := true }
      | some (merged, entry) =>
        if entry.node = none ∨ check.any (fun d => decide (d ≠ entry.val)) then { s with err := BB.upd s.err th true }
        else
          let s := s.emitAll .preEnd th a entry.val
          s.put l (handleEnd s.tree th a merged entry (bbKey a) (s.board l))

/-- `Caliper::end(attr)` -/
def endR (s : State) (th : Nat) (a : Attr) : State := endCore s th a none

/-- `Caliper::end_with_value_check(attr, data)` -/
def endCheck (s : State) (th : Nat) (a : Attr) (v : Val) : State := endCore s th a (some v)

/-- `Caliper::set(attr, data)` (`Caliper.cpp:1071-1097`) -/
def set (s : State) (th : Nat) (a : Attr) (v : Val) : State :=
  if s.err th then s
  else
    let s := s.emitAll .preSet th a v
    match scopeLoc a th with
    | none => s
    | some l => s.put l (handleSet s.tree th a v (s.board l))

/-- `Caliper::begin(chB, attr, data)` (`Caliper.cpp:1107-1126`) -/
def beginCh (s : State) (th ch : Nat) (a : Attr) (v : Val) : State :=
  let s := s.emitOne ch .preBegin th a v
  let s := s.put (.channel ch) (handleBegin s.tree th a v (s.board (.channel ch)))
  if s.dead then s else s.emitOne ch .postBegin th a v

/-- `Caliper::end(chB, attr)` (`Caliper.cpp:1128-1156`) -/
def endCh (s : State) (th ch : Nat) (a : Attr) : State :=
  match loadCurrent s.tree a (bbKey a) (s.board (.channel ch)) with
  | none => { s with dead := true }
  | some (merged, entry) =>
    if entry.node = none then { s with err := BB.upd s.err th true }
    else
      let s := s.emitOne ch .preEnd th a entry.val
      s.put (.channel ch) (handleEnd s.tree th a merged entry (bbKey a) (s.board (.channel ch)))

/-- `Caliper::set(chB, attr, data)` (`Caliper.cpp:1158-1171`) -/
def setCh (s : State) (th ch : Nat) (a : Attr) (v : Val) : State :=
  let s := s.emitOne ch .preSet th a v
  s.put (.channel ch) (handleSet s.tree th a v (s.board (.channel ch)))

/-- annotation calls -/
inductive Op where
  | begin (th : Nat) (a : Attr) (v : Val)
  | endR (th : Nat) (a : Attr)
  | endCheck (th : Nat) (a : Attr) (v : Val)
  | set (th : Nat) (a : Attr) (v : Val)
  | beginCh (th ch : Nat) (a : Attr) (v : Val)
  | endCh (th ch : Nat) (a : Attr)
  | setCh (th ch : Nat) (a : Attr) (v : Val)

/-- one call; nothing happens any more after a crash or hang -/
def step (s : State) (op : Op) : State :=
  if s.dead then s
  else match op with
    | .begin th a v => begin s th a v
    | .endR th a => endR s th a
    | .endCheck th a v => endCheck s th a v
    | .set th a v => set s th a v
    | .beginCh th ch a v => beginCh s th ch a v
    | .endCh th ch a => endCh s th ch a
    | .setCh th ch a v => setCh s th ch a v

/-- a history of calls -/
def run (s : State) : List Op → State
  | [] => s
  | op :: ops => run (step s op) ops

/-- `Caliper::get(attr)` (`Caliper.cpp:1175-1192`) -/
def getEntry (s : State) (th : Nat) (a : Attr) : Option Entry :=
  match scopeLoc a th with
  | none => some default
  | some l => (BB.get (s.board l) (bbKey a)).map fun e => e.get s.tree a.id

/-- `Caliper::get(chB, attr)` (`Caliper.cpp:1213-1221`) -/
def getEntryCh (s : State) (ch : Nat) (a : Attr) : Option Entry :=
  (BB.get (s.board (.channel ch)) (bbKey a)).map fun e => e.get s.tree a.id

/-- `Caliper::get_blackboard_entry(attr)` (`Caliper.cpp:1194-1211`) -/
def getBlackboardEntry (s : State) (th : Nat) (a : Attr) : Option Entry :=
  match scopeLoc a th with
  | none => some default
  | some l => BB.get (s.board l) (bbKey a)

/-- start-up state around a tree: empty blackboards -/
def init (t : Tree) (active : List Nat) (isActive : Nat → Bool) : State :=
  { tree := t, tbb := fun _ => BB.init, pbb := BB.init, cbb := fun _ => BB.init, err := fun _ => false,
    active := active, isActive := isActive, log := [], dead := false }

end Verif.RT
