import Verif.Runtime.Model
import Verif.Tree.Spec
/-!
# Specification of annotations

A context (of a thread, of the process, or of a channel) is a stack of open regions, a list of open unaligned values, and one
current value for each as-value attribute.
-/
namespace Verif.RT
open MTree

/-- how an attribute's values are kept -/
inductive Kind where
  | value | unaligned | region
  deriving DecidableEq

/-- from the attribute's properties -/
def Attr.kind (a : Attr) : Kind := if a.asValue then .value else if a.unaligned then .unaligned else .region

/-- the documented properties (`cali_types.h`): stored as value 1, unaligned 1024 -/
def KindOf (prop : BitVec 32) : Kind := if prop.getLsbD 0 then .value else if prop.getLsbD 10 then .unaligned else .region

/-- a context: open regions (outermost first), open unaligned values (oldest first), as-value values -/
structure Ctx where
  region : PathL
  unal : PathL
  vals : Nat → Option Val

/-- nothing open -/
def Ctx.empty : Ctx := ⟨[], [], fun _ => none⟩

/-- function update -/
def updV (f : Nat → Option Val) (k : Nat) (x : Option Val) : Nat → Option Val := fun j => if j = k then x else f j

/-- begin -/
def Ctx.begin (c : Ctx) (a : Attr) (v : Val) : Ctx :=
  match a.kind with
  | .value => { c with vals := updV c.vals a.id (some v) }
  | .unaligned => { c with unal := c.unal ++ [(a.id, v)] }
  | .region => { c with region := c.region ++ [(a.id, v)] }

/-- set: drop the innermost value of the attribute, append the new one -/
def Ctx.set (c : Ctx) (a : Attr) (v : Val) : Ctx :=
  match a.kind with
  | .value => { c with vals := updV c.vals a.id (some v) }
  | .unaligned => { c with unal := eraseInner a.id c.unal ++ [(a.id, v)] }
  | .region => { c with region := eraseInner a.id c.region ++ [(a.id, v)] }

/-- the innermost value of an attribute in a list -/
def innermost (a : Nat) (l : PathL) : Option Val := (l.reverse.find? fun e => decide (e.1 = a)).map Prod.snd

/-- the current value of an attribute -/
def Ctx.get (c : Ctx) (a : Attr) : Option Val :=
  match a.kind with
  | .value => c.vals a.id
  | .unaligned => innermost a.id c.unal
  | .region => innermost a.id c.region

/-- the value an end call may end: for regions, only if the attribute is that of the innermost region -/
def Ctx.endable (c : Ctx) (a : Attr) : Option Val :=
  match a.kind with
  | .value => c.vals a.id
  | .unaligned => innermost a.id c.unal
  | .region => match c.region.getLast? with
    | some (x, v) => if x = a.id then some v else none
    | none => none

/-- remove that value -/
def Ctx.endR (c : Ctx) (a : Attr) : Ctx :=
  match a.kind with
  | .value => { c with vals := updV c.vals a.id none }
  | .unaligned => { c with unal := eraseInner a.id c.unal }
  | .region => { c with region := c.region.dropLast }

/-- abstract runtime state -/
structure Abs where
  ctx : Loc → Ctx
  err : Nat → Bool
  log : List Event

/-- store a context -/
def Abs.put (c : Abs) (l : Loc) (x : Ctx) : Abs := { c with ctx := fun l' => if l' = l then x else c.ctx l' }

/-- notify all active channels -/
def Abs.emitAll (c : Abs) (active : List Nat) (k : EvKind) (th : Nat) (a : Attr) (v : Val) : Abs :=
  if a.skipEvents then c else { c with log := c.log ++ active.map fun ch => ⟨k, ch, th, a.id, v⟩ }

/-- notify one channel -/
def Abs.emitOne (c : Abs) (isActive : Nat → Bool) (ch : Nat) (k : EvKind) (th : Nat) (a : Attr) (v : Val) : Abs :=
  if !a.skipEvents && isActive ch then { c with log := c.log ++ [⟨k, ch, th, a.id, v⟩] } else c

/-- end at a location, value `v` -/
def Abs.endAt (c : Abs) (l : Loc) (a : Attr) : Abs := c.put l ((c.ctx l).endR a)

/-- abstract `end` / `end_with_value_check` -/
def Abs.endCore (c : Abs) (active : List Nat) (th : Nat) (a : Attr) (check : Option Val) : Abs :=
  if c.err th then c
  else match scopeLoc a th with
    | none => c
    | some l =>
      match (c.ctx l).endable a with
      | none => { c with err := BB.upd c.err th true }
      | some v =>
        if check = none ∨ check = some v then (c.emitAll active .preEnd th a v).endAt l a
        else { c with err := BB.upd c.err th true }

/-- abstract calls -/
def Abs.step (active : List Nat) (isActive : Nat → Bool) (c : Abs) : Op → Abs
  | .begin th a v =>
    if c.err th then c
    else
      let c := c.emitAll active .preBegin th a v
      let c := match scopeLoc a th with
        | none => c
        | some l => c.put l ((c.ctx l).begin a v)
      c.emitAll active .postBegin th a v
  | .set th a v =>
    if c.err th then c
    else
      let c := c.emitAll active .preSet th a v
      match scopeLoc a th with
      | none => c
      | some l => c.put l ((c.ctx l).set a v)
  | .endR th a => c.endCore active th a none
  | .endCheck th a v => c.endCore active th a (some v)
  | .beginCh th ch a v =>
    ((c.emitOne isActive ch .preBegin th a v).put (.channel ch) ((c.ctx (.channel ch)).begin a v)).emitOne isActive ch .postBegin th a v
  | .setCh th ch a v => (c.emitOne isActive ch .preSet th a v).put (.channel ch) ((c.ctx (.channel ch)).set a v)
  | .endCh th ch a =>
    match (c.ctx (.channel ch)).endable a with
    | none => { c with err := BB.upd c.err th true }
    | some v => (c.emitOne isActive ch .preEnd th a v).endAt (.channel ch) a

/-- abstract histories -/
def Abs.run (active : List Nat) (isActive : Nat → Bool) (c : Abs) : List Op → Abs
  | [] => c
  | op :: ops => Abs.run active isActive (c.step active isActive op) ops

/-- fresh abstract state -/
def Abs.init : Abs := ⟨fun _ => Ctx.empty, fun _ => false, []⟩

/-- a handle of an existing attribute other than the three built-in ones -/
def Attr.Valid (t : Tree) (a : Attr) : Prop :=
  Live t a.ptr ∧ a.ptr ≠ .root ∧ t.idOf a.ptr = a.id ∧ t.attrOf a.ptr = nameAttr ∧ 12 ≤ a.id ∧ a.id ≠ invId

/-- the attribute of a call -/
def Op.attr : Op → Attr
  | .begin _ a _ | .endR _ a | .endCheck _ a _ | .set _ a _ | .beginCh _ _ a _ | .endCh _ _ a | .setCh _ _ a _ => a

/-- nothing was lost between two states: no node was refused by the context tree and no entry by a blackboard -/
def NoLoss (s s' : State) : Prop :=
  s'.tree.fails = s.tree.fails ∧ ∀ l, (s'.board l).skipped = (s.board l).skipped

end Verif.RT

namespace Verif.RT
open MTree

/-! ### what a user observes -/

/-- the regions open at a location, outermost first: the path of the entry on the blackboard's region slot -/
def OpenRegions (s : State) (l : Loc) (p : PathL) : Prop :=
  ∃ e, BB.get (s.board l) regionKey = some e ∧ PathO s.tree e.node p

/-- the unaligned values open at a location -/
def OpenUnaligned (s : State) (l : Loc) (p : PathL) : Prop :=
  ∃ e, BB.get (s.board l) unalignedKey = some e ∧ PathO s.tree e.node p

/-- what `Caliper::get(attr)` on thread `th` reports: `some none` = no value, `none` = the call does not return -/
def Query (s : State) (th : Nat) (a : Attr) : Option (Option Val) :=
  (getEntry s th a).map fun e => e.node.map fun _ => e.val

/-- what `Caliper::get(channel, attr)` reports -/
def QueryCh (s : State) (ch : Nat) (a : Attr) : Option (Option Val) :=
  (getEntryCh s ch a).map fun e => e.node.map fun _ => e.val

/-- states reachable by any history of annotation calls of any threads with existing attributes, of any other requests to the
context tree (such as attribute creation), and of channel activations, as long as no annotation was dropped for lack of space -/
inductive RtReach : State → Prop where
  | init {t : Tree} (h : MTree.Reach t) (active : List Nat) (isActive : Nat → Bool) : RtReach (init t active isActive)
  | call {s : State} {op : Op} (h : RtReach s) (ha : op.attr.Valid s.tree) (nl : NoLoss s (step s op)) : RtReach (step s op)
  | tree {s : State} {q : Req} (h : RtReach s) (hq : q.ok s.tree) (hb : q.batch.length ≤ s.tree.npb) :
      RtReach { s with tree := (MTree.step s.tree q).1 }
  | channels {s : State} (h : RtReach s) (active : List Nat) (isActive : Nat → Bool) :
      RtReach { s with active := active, isActive := isActive }

/-- calling thread -/
def Op.thread : Op → Nat
  | .begin th _ _ | .endR th _ | .endCheck th _ _ | .set th _ _ | .beginCh th _ _ _ | .endCh th _ _ | .setCh th _ _ _ => th

/-- the context a call works on, if any -/
def Op.loc : Op → Option Loc
  | .begin th a _ | .endR th a | .endCheck th a _ | .set th a _ => scopeLoc a th
  | .beginCh _ ch _ _ | .endCh _ ch _ | .setCh _ ch _ _ => some (.channel ch)

/-- calls that can be mismatched -/
def Op.isEnd : Op → Bool
  | .endR .. | .endCheck .. | .endCh .. => true
  | _ => false

/-- Properly nested calls of the threads in `T` on the regions of location `l`, interleaved with calls that work on other
contexts or other kinds of attributes; `st` are the regions begun and not yet ended, outermost first. -/
inductive Nested (T : Nat → Prop) (l : Loc) : List Op → PathL → Prop where
  | nil : Nested T l [] []
  | begin {ops st th a v} : Nested T l ops st → T th → a.kind = .region → scopeLoc a th = some l →
      Nested T l (ops ++ [.begin th a v]) (st ++ [(a.id, v)])
  | endR {ops st th a v} : Nested T l ops (st ++ [(a.id, v)]) → T th → a.kind = .region → scopeLoc a th = some l →
      Nested T l (ops ++ [.endR th a]) st
  | endCheck {ops st th a v} : Nested T l ops (st ++ [(a.id, v)]) → T th → a.kind = .region → scopeLoc a th = some l →
      Nested T l (ops ++ [.endCheck th a v]) st
  | other {ops st op} : Nested T l ops st → (op.loc ≠ some l ∨ op.attr.kind ≠ .region) → (T op.thread → op.isEnd = false) →
      Nested T l (ops ++ [op]) st

/-- balanced sequences of calls of one thread -/
inductive Balanced (th : Nat) : List Op → Prop where
  | nil : Balanced th []
  | append {xs ys} : Balanced th xs → Balanced th ys → Balanced th (xs ++ ys)
  | wrap {xs} (a : Attr) (v : Val) : a.kind ≠ .value → Balanced th xs → Balanced th (.begin th a v :: (xs ++ [.endR th a]))
  | wrapCheck {xs} (a : Attr) (v : Val) : a.kind ≠ .value → Balanced th xs →
      Balanced th (.begin th a v :: (xs ++ [.endCheck th a v]))

end Verif.RT
