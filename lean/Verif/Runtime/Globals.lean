import Verif.Runtime.Spec
import Verif.Attr.Model
/-!
# Global metadata

Model of `get_globals_from_blackboard` and `Caliper::get_globals` (`/repo/src/caliper/Caliper.cpp:105-134`, `809-829`).
-/
namespace Verif.RT
open MTree AttrReg

/-- `SNAP_MAX` (`Caliper.cpp:37`) -/
def snapMax : Nat := 120

/-- `c->get_attribute(id).is_global()` (`Caliper.cpp:760-764`, `Attribute.h`): `Attribute::make_attribute(tree.node(id))`, then the
`CALI_ATTR_GLOBAL` bit of `properties()`, which is `CALI_ATTR_DEFAULT` for an invalid attribute -/
def isGlobalId (t : Tree) (id : Nat) : Bool :=
  match makeAttribute t (t.lookup id) with
  | some p => decide (attrProp t p &&& pGlobal ≠ 0#32)
  | none => false

/-- `Entry::is_reference()` (`Entry.h`): a node whose attribute is not the attribute-name attribute -/
def Entry.isReference (t : Tree) (e : Entry) : Bool :=
  match e.node with
  | none => false
  | some n => decide (t.attrOf n ≠ nameAttr)

/-- the walk up from a reference entry's node (`Caliper.cpp:119-121`); `fuel` bounds it by the depth of the node -/
def walkGlobals (t : Tree) : Nat → Option Ptr → List Ptr
  | 0, _ => []
  | _ + 1, none => []
  | fuel + 1, some n =>
    if isGlobalId t (t.attrOf n) then n :: walkGlobals t fuel (t.parentOf n) else walkGlobals t fuel (t.parentOf n)

/-- one round of the loop over the snapshot (`Caliper.cpp:117-124`): (entries to return, nodes found) -/
def globalStep (t : Tree) (acc : List Entry × List Ptr) (e : Entry) : List Entry × List Ptr :=
  if e.isReference t then (acc.1, acc.2 ++ walkGlobals t (t.fuelOf e.node) e.node)
  else if isGlobalId t (e.attribute t) then (acc.1 ++ [e], acc.2)
  else acc

/-- `get_globals_from_blackboard` (`Caliper.cpp:105-134`) on thread `th`.  The snapshot record holds at most `SNAP_MAX` entries
(further ones are dropped, `SnapshotRecord.h:101-107`).  Returns the tree, since new nodes may be made. -/
def globalsOf (t : Tree) (th : Nat) (bb : Board) : Tree × List Entry :=
  let acc := ((BB.snapshot bb).take snapMax).foldl (globalStep t) ([], [])
  if acc.2 = [] then (t, acc.1)
  else
    match getPathNodes t th (acc.2.reverse.map some) none with
    | (t, some n) => (t, acc.1 ++ [Entry.ofNode t n])
    | (t, none) => ({ t with dead := true }, acc.1)

/-- `Caliper::get_globals()` (`Caliper.cpp:811-816`) -/
def getGlobals (s : State) (th : Nat) : Tree × List Entry := globalsOf s.tree th (s.board .process)

/-- `Caliper::get_globals(chB)` (`Caliper.cpp:820-829`): the process' globals, then the channel's -/
def getGlobalsCh (s : State) (th ch : Nat) : Tree × List Entry :=
  match globalsOf s.tree th (s.board .process) with
  | (t, ret) =>
    match globalsOf t th (s.board (.channel ch)) with
    | (t, tmp) => (t, ret ++ tmp)

end Verif.RT
