import Verif.Runtime.Model
/-!
# Attribute creation and look-up

Model of `Caliper::create_attribute`, `Caliper::get_attribute(name)` (`/repo/src/caliper/Caliper.cpp:668-757`) and of the accessors of
`Attribute` (`/repo/src/common/Attribute.cpp:13-69`), as a small-step machine: a call is split at every point where another thread
can run in between (each look-up under `attribute_lock`, each `get_child` of the context tree).  `get_child` itself is one
step here (see `Verif/Conc` for its inner interleavings).  The create-attribute callbacks are left out.
-/
namespace Verif.AttrReg
open MTree RT

/-- attribute name (`std::string`) -/
abbrev Name := List Byte

/-- `CALI_ATTR_GLOBAL` (`cali_types.h`) -/
def pGlobal : BitVec 32 := 512#32
/-- `CALI_ATTR_SCOPE_MASK` -/
def pScope : BitVec 32 := 60#32
/-- `CALI_ATTR_UNALIGNED` -/
def pUnaligned : BitVec 32 := 1024#32
/-- `CALI_ATTR_AGGREGATABLE` -/
def pAgg : BitVec 32 := 2048#32

/-- the arguments of a `create_attribute` call; metadata as (attribute id, value) -/
structure Req where
  name : Name
  ty : AttrType
  prop : BitVec 32
  metas : List (Nat × Val)

/-- process configuration: property presets and default scope (`Caliper.cpp:310-311`, `361-388`), id of `class.aggregatable`
(`api.cpp:8`) -/
structure Config where
  preset : Name → Option (BitVec 32)
  defScope : BitVec 32
  aggId : Nat

/-- preset, global and default-scope rules (`Caliper.cpp:699-712`) -/
def normProp (cfg : Config) (r : Req) : BitVec 32 :=
  let prop := (cfg.preset r.name).getD r.prop
  let prop := if prop &&& pGlobal ≠ 0 then ((prop &&& ~~~pScope) ||| scopeProcess) ||| pUnaligned else prop
  if prop &&& pScope = 0 then prop ||| cfg.defScope else prop

/-- the search for `class.aggregatable = true` (`Caliper.cpp:715-719`) -/
def hasUp (t : Tree) (a : Nat) (v : Val) : Nat → Option Ptr → Bool
  | 0, _ => false
  | _, none => false
  | fuel + 1, some nd => if t.attrOf nd = a ∧ t.valOf nd = v then true else hasUp t a v fuel (t.parentOf nd)

/-- all property rules (`Caliper.cpp:699-719`) -/
def finalProp (cfg : Config) (t : Tree) (r : Req) (node : Option Ptr) : BitVec 32 :=
  if hasUp t cfg.aggId (Val.ofBool true) (t.fuelOf node) node then normProp cfg r ||| pAgg else normProp cfg r

/-- where a thread is inside `create_attribute` -/
inductive Pc where
  | idle
  /-- metadata nodes still to add (`Caliper.cpp:696-697`) -/
  | metas (r : Req) (todo : List (Nat × Val)) (node : Option Ptr)
  /-- before adding the property node (`Caliper.cpp:724`) -/
  | prop (r : Req) (node : Option Ptr)
  /-- before adding the name node (`Caliper.cpp:725`) -/
  | name (r : Req) (node : Option Ptr)
  /-- before the second look-up and the insertion (`Caliper.cpp:727-740`) -/
  | insert (r : Req) (node : Option Ptr)
  /-- returned -/
  | done (r : Req) (result : Option Ptr)

/-- shared state: context tree and `attribute_map`; `hist` (ghost) are the requests made so far -/
structure State where
  tree : Tree
  map : Name → Option (Option Ptr)
  pc : Nat → Pc
  hist : List Req

/-- `Attribute::make_attribute(node)` (`Attribute.cpp:13-16`): null unless the node is an attribute node -/
def makeAttribute (t : Tree) (node : Option Ptr) : Option Ptr :=
  match node with
  | some n => if t.attrOf n = nameAttr then some n else none
  | none => none

/-- function update -/
def updN {β : Type} (f : Name → β) (k : Name) (x : β) : Name → β := fun j => if j = k then x else f j

/-- one step of thread `th`; `r` is the next request if the thread is idle or has returned -/
def stepThread (cfg : Config) (s : State) (th : Nat) (r : Req) : State :=
  match s.pc th with
  | .idle | .done _ _ =>
    -- first look-up (Caliper.cpp:683-689)
    match s.map r.name with
    | some a => { s with pc := BB.upd s.pc th (.done r a), hist := s.hist ++ [r] }
    | none => { s with pc := BB.upd s.pc th (.metas r r.metas (typeNode r.ty)), hist := s.hist ++ [r] }
  | .metas r [] node => { s with pc := BB.upd s.pc th (.prop r node) }
  | .metas r ((a, v) :: todo) node =>
    let (t, n) := getChild s.tree th a v node
    { s with tree := t, pc := BB.upd s.pc th (.metas r todo n) }
  | .prop r node =>
    let (t, n) := getChild s.tree th propAttr (Val.ofInt (finalProp cfg s.tree r node)) node
    { s with tree := t, pc := BB.upd s.pc th (.name r n) }
  | .name r node =>
    let (t, n) := getChild s.tree th nameAttr (Val.str r.name) node
    { s with tree := t, pc := BB.upd s.pc th (.insert r n) }
  | .insert r node =>
    match s.map r.name with
    | some a => { s with pc := BB.upd s.pc th (.done r a) }
    | none =>
      { s with map := updN s.map r.name (some (makeAttribute s.tree node)), pc := BB.upd s.pc th (.done r (makeAttribute s.tree node)) }

/-- `Caliper::get_attribute(name)` (`Caliper.cpp:750-757`) -/
def lookupName (s : State) (n : Name) : Option Ptr := (s.map n).getD none

/-- start-up: the three bootstrap attributes are in the map (`Caliper.cpp:328-336`) -/
def init (t : Tree) : State :=
  { tree := t,
    map := fun n => if Val.str n = Val.ofString "cali.attribute.name" then some (some (.cell 0 8))
      else if Val.str n = Val.ofString "cali.attribute.type" then some (some (.cell 0 9))
      else if Val.str n = Val.ofString "cali.attribute.prop" then some (some (.cell 0 10)) else none,
    pc := fun _ => .idle, hist := [] }

/-- `Attribute::name()` (`Attribute.cpp:18-25`) -/
def attrName (t : Tree) (p : Ptr) : Option Val := (findUp t nameAttr (t.fuelOf (some p)) (some p)).map t.valOf
/-- `Attribute::type()` (`Attribute.cpp:36-43`) -/
def attrType (t : Tree) (p : Ptr) : Option Val := (findUp t typeAttr (t.fuelOf (some p)) (some p)).map t.valOf
/-- `Attribute::properties()` (`Attribute.cpp:45-52`): `static_cast<int>` of the node's value word; `CALI_ATTR_DEFAULT` if none -/
def attrProp (t : Tree) (p : Ptr) : BitVec 32 :=
  match findUp t propAttr (t.fuelOf (some p)) (some p) with
  | some q => match (t.valOf q).c with
    | .inr w => w.setWidth 32
    | .inl _ => 0
  | none => 0#32

end Verif.AttrReg
