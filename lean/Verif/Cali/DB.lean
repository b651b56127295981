import Verif.Cali.Lines
/-!
# The reader's metadata database and the reader

Model of `/repo/src/reader/CaliperMetadataDB.cpp` and of the database calls in `/repo/src/reader/CaliReader.cpp:143-267`.

Node ids (`cali_id_t`, 64 bit) are natural numbers here; a node is its index in `m_nodes`.  The child list of a node is the
set of nodes whose parent it is (the order only matters for duplicate siblings, which never exist, see `Inv`).  A null
dereference is the explicit outcome `none`.  Locks are left out: a database is used by one thread here.
-/
namespace Verif.Cali
open Verif

/-- `CALI_INV_ID` as a number -/
def invN : Nat := 18446744073709551615

/-- `class Node`: attribute id, data, parent (`none` for children of the artificial root node) -/
structure Nd where
  attr : Nat
  data : Val
  parent : Option Nat
  deriving DecidableEq, Repr

/-- `class Entry` in the reader: node or attribute node, and value -/
structure DEnt where
  node : Option Nat
  val : Val
  deriving DecidableEq, Repr

/-- `CaliperMetadataDBImpl` (`CaliperMetadataDB.cpp:32-53`): nodes, `m_attributes`, `m_globals`, aliases and units.
`m_string_db` is the subject of C41. -/
structure DB where
  nodes : List Nd
  attrs : List (List Byte × Nat)
  globals : List DEnt
  aliases : List (List Byte × List Byte)
  units : List (List Byte × List Byte)
  deriving DecidableEq, Repr

/-- `std::map::find` on an association list with unique keys -/
def lookup {α β : Type} [DecidableEq α] (k : α) : List (α × β) → Option β
  | [] => none
  | (a, b) :: l => if a = k then some b else lookup k l

/-- `std::map::insert`: does not overwrite -/
def insertNew {α β : Type} [DecidableEq α] (k : α) (v : β) (l : List (α × β)) : List (α × β) :=
  match lookup k l with
  | some _ => l
  | none => l ++ [(k, v)]

/-- `setup_bootstrap_nodes` (`CaliperMetadataDB.cpp:71-103`) -/
def bootNodes : List Nd :=
  [⟨9, .type .usr, none⟩, ⟨9, .type .int, none⟩, ⟨9, .type .uint, none⟩, ⟨9, .type .string, none⟩, ⟨9, .type .addr, none⟩,
   ⟨9, .type .double, none⟩, ⟨9, .type .bool, none⟩, ⟨9, .type .type, none⟩,
   ⟨8, .string (str "cali.attribute.name"), some 3⟩, ⟨8, .string (str "cali.attribute.type"), some 7⟩,
   ⟨8, .string (str "cali.attribute.prop"), some 1⟩, ⟨9, .type .ptr, none⟩]

/-- `m_type_nodes[type]` (`CaliperMetadataDB.cpp:92`); the entry of the invalid type is null -/
def typeNode : AttrType → Option Nat
  | .inv => none | .usr => some 0 | .int => some 1 | .uint => some 2 | .string => some 3 | .addr => some 4
  | .double => some 5 | .bool => some 6 | .type => some 7 | .ptr => some 11

/-- `node(id)` (`CaliperMetadataDB.cpp:55-60`) -/
def DB.node? (db : DB) (id : Nat) : Option Nd := db.nodes[id]?

/-- `attribute(id)` (`CaliperMetadataDB.cpp:62-69`) with `make_attribute` (`Attribute.cpp:13-16`): the id if it is an
attribute node -/
def DB.attribute? (db : DB) (id : Nat) : Option Nat :=
  match db.nodes[id]? with
  | some n => if n.attr = 8 then some id else none
  | none => none

/-- walk up from a node to the first node with attribute `a` (`Attribute.cpp:18-52`); `fuel` bounds the walk -/
def upTo (nodes : List Nd) (a : Nat) : Nat → Option Nat → Option Val
  | 0, _ => none
  | _, none => none
  | fuel + 1, some id =>
    match nodes[id]? with
    | none => none
    | some n => if n.attr = a then some n.data else upTo nodes a fuel n.parent

/-- `Variant::to_attr_type` (`cali_variant.c:420-440`) -/
def Val.toAttrType : Val → AttrType
  | .type t => t
  | _ => .inv

/-- `Attribute::type()` (`Attribute.cpp:36-43`); the invalid attribute has the invalid type -/
def DB.attrType (db : DB) (a : Option Nat) : AttrType := ((upTo db.nodes 9 (db.nodes.length + 1) a).map Val.toAttrType).getD .inv

/-- the value word of an integer variant, as `int`; simplification: property nodes hold integers (`value.v_int` of other
types is not modelled) -/
def Val.propWord : Val → BitVec 32
  | .int i => i.setWidth 32
  | .uint u => u.setWidth 32
  | _ => 0

/-- `Attribute::properties()` (`Attribute.cpp:45-52`) -/
def DB.attrProp (db : DB) (a : Option Nat) : BitVec 32 := ((upTo db.nodes 10 (db.nodes.length + 1) a).map Val.propWord).getD 0

/-- `Attribute::is_hidden()` (`Attribute.h:59`) -/
def DB.hidden (db : DB) (a : Option Nat) : Bool := db.attrProp a &&& 128#32 ≠ 0

/-- `Variant::empty()` -/
def Val.isEmpty : Val → Bool
  | .inv => true
  | _ => false

/-- `find_child_node` (`Node.h:53-58`) over the children of `parent` -/
def findChild (nodes : List Nd) (attr : Nat) (v : Val) (parent : Option Nat) : Option Nat :=
  nodes.findIdx? fun n => decide (n = ⟨attr, v, parent⟩)

/-- `create_node` (`CaliperMetadataDB.cpp:105-117`) -/
def DB.createNode (db : DB) (attr : Nat) (v : Val) (parent : Option Nat) : DB × Nat :=
  ({ db with nodes := db.nodes ++ [⟨attr, v, parent⟩] }, db.nodes.length)

/-- `find_child_node` or else `create_node` (`CaliperMetadataDB.cpp:201-207`, `333-336`) -/
def DB.findOrCreate (db : DB) (attr : Nat) (v : Val) (parent : Option Nat) : DB × Nat :=
  match findChild db.nodes attr v parent with
  | some i => (db, i)
  | none => db.createNode attr v parent

/-- the text of a name node for `m_attributes`: `to_string()` of a string -/
def Val.nameText : Val → List Byte
  | .string bs => bs
  | _ => []

/-- `merge_node(node_id, attr_id, prnt_id, v_data)` (`CaliperMetadataDB.cpp:164-216`): `none` as second component is the
null pointer -/
def DB.mergeNode (db : DB) (nodeId attrId prntId : Nat) (v : Val) : DB × Option Nat :=
  match db.attribute? attrId with
  | none => (db, none)
  | some _ =>
    if nodeId = invN ∨ attrId = invN ∨ v.isEmpty then (db, none)
    else if prntId ≠ invN ∧ db.nodes.length ≤ prntId then (db, none)
    else
      let parent := if prntId = invN then none else some prntId
      let (db', i) := db.findOrCreate attrId v parent
      if db'.nodes.length ≠ db.nodes.length ∧ attrId = 8 then
        ({ db' with attrs := insertNew v.nameText i db'.attrs }, some i)
      else (db', some i)

/-- `IdMap` -/
abbrev IdMap := List (Nat × Nat)

/-- `map_id` (`CaliperMetadataDB.cpp:24-28`) -/
def mapId (m : IdMap) (id : Nat) : Nat := (lookup id m).getD id

/-- `merge_node(..., idmap)` (`CaliperMetadataDB.cpp:220-231`): `none` = null pointer dereference -/
def DB.mergeNodeMap (db : DB) (m : IdMap) (nodeId attrId prntId : Nat) (v : Val) : Option (DB × IdMap × Nat) :=
  match db.mergeNode nodeId (mapId m attrId) (mapId m prntId) v with
  | (_, none) => none
  | (db, some i) => some (db, if nodeId ≠ i then insertNew nodeId i m else m, i)

/-- `CaliperMetadataDB::merge_node(..., const std::string& data, idmap)` (`CaliperMetadataDB.cpp:573-590`) -/
def DB.mergeNodeText (F : DblFmt) (db : DB) (m : IdMap) (nodeId attrId prntId : Nat) (data : List Byte) : Option (DB × IdMap × Nat) :=
  let attr := db.attribute? (mapId m attrId)
  let v := if db.hidden attr then .usr [] else makeVar F (db.attrType attr) data
  db.mergeNodeMap m nodeId attrId prntId v

/-- `merge_entry(node_id, idmap)` (`CaliperMetadataDB.cpp:609-613`) -/
def DB.mergeRef (db : DB) (m : IdMap) (id : Nat) : DEnt :=
  match db.node? (mapId m id) with
  | some n => ⟨some (mapId m id), n.data⟩
  | none => ⟨none, .inv⟩

/-- `merge_entry(attr_id, data, idmap)` (`CaliperMetadataDB.cpp:615-619`) -/
def DB.mergeImm (F : DblFmt) (db : DB) (m : IdMap) (attrId : Nat) (data : List Byte) : DEnt :=
  match db.attribute? (mapId m attrId) with
  | some a => ⟨some a, makeVar F (db.attrType (some a)) data⟩
  | none => ⟨none, .inv⟩

/-- `Entry::is_immediate()` (`Entry.h:85`) -/
def DB.isImm (db : DB) (e : DEnt) : Bool := match e.node with
  | some n => (db.attribute? n).isSome
  | none => false

/-- `operator==` on entries (`Entry.h:109-115`), same database -/
def DB.entEq (db : DB) (l r : DEnt) : Bool := decide (l.node = r.node) && (!db.isImm l || decide (l.val = r.val))

/-- `merge_global(node_id, idmap)` (`CaliperMetadataDB.cpp:289-301`) -/
def DB.mergeGlobalRef (db : DB) (m : IdMap) (id : Nat) : DB :=
  match db.node? (mapId m id) with
  | none => db
  | some n =>
    let e : DEnt := ⟨some (mapId m id), n.data⟩
    if db.globals.any (fun g => db.entEq g e) then db else { db with globals := db.globals ++ [e] }

/-- `Entry::attribute()` (`Entry.h:58-65`) -/
def DB.entAttr (db : DB) (e : DEnt) : Nat :=
  match e.node with
  | none => invN
  | some i => match db.nodes[i]? with
    | some n => if n.attr = 8 then i else n.attr
    | none => invN

/-- whether a node on the path has the attribute and value (`CaliperMetadataDB.cpp:432-435`) -/
def onPath (nodes : List Nd) (a : Nat) (v : Val) : Nat → Option Nat → Bool
  | 0, _ => false
  | _, none => false
  | fuel + 1, some id =>
    match nodes[id]? with
    | none => false
    | some n => if n.data = v ∧ n.attr = a then true else onPath nodes a v fuel n.parent

/-- one step of `make_tree_entry(n, attr, data, parent)` (`CaliperMetadataDB.cpp:316-345`): attributes stored as value are
skipped -/
def DB.makeTreeEntry (db : DB) : List (Nat × Val) → Option Nat → DB × Option Nat
  | [], _ => (db, none)
  | (a, v) :: rest, parent =>
    if db.attrProp (some a) &&& 1#32 ≠ 0 then db.makeTreeEntry rest parent
    else
      let (db', i) := db.findOrCreate a v parent
      match db'.makeTreeEntry rest (some i) with
      | (db'', none) => (db'', some i)
      | (db'', some j) => (db'', some j)

/-- replace the first element satisfying `p` -/
def replaceFirst {α : Type} (p : α → Bool) (x : α) : List α → List α
  | [] => []
  | y :: ys => if p y then x :: ys else y :: replaceFirst p x ys

/-- `set_global` (`CaliperMetadataDB.cpp:413-453`); `Entry(Node*)` of a null node (attribute stored as value is handled
before, so `make_tree_entry` with one node never returns null) -/
def DB.setGlobal (db : DB) (a : Nat) (v : Val) : DB :=
  let prop := db.attrProp (some a)
  if prop &&& 512#32 = 0 then db
  else if prop &&& 1#32 ≠ 0 then
    if db.globals.any (fun e => decide (db.entAttr e = a)) then
      { db with globals := replaceFirst (fun e => decide (db.entAttr e = a)) ⟨some a, v⟩ db.globals }
    else { db with globals := db.globals ++ [⟨some a, v⟩] }
  else if db.globals.any (fun e => onPath db.nodes a v (db.nodes.length + 1) e.node) then db
  else
    let isRef := fun e : DEnt => e.node.isSome && !db.isImm e
    match db.globals.find? isRef with
    | some e =>
      if prop &&& 2#32 = 0 then
        let (db', i) := db.findOrCreate a v e.node
        { db' with globals := replaceFirst isRef ⟨some i, v⟩ db'.globals }
      else
        let (db', i) := db.findOrCreate a v none
        { db' with globals := db'.globals ++ [⟨some i, v⟩] }
    | none =>
      let (db', i) := db.findOrCreate a v none
      { db' with globals := db'.globals ++ [⟨some i, v⟩] }

/-- `merge_global(attr_id, data, idmap)` (`CaliperMetadataDB.cpp:626-631`) -/
def DB.mergeGlobalImm (F : DblFmt) (db : DB) (m : IdMap) (attrId : Nat) (data : List Byte) : DB :=
  match db.attribute? (mapId m attrId) with
  | some a => db.setGlobal a (makeVar F (db.attrType (some a)) data)
  | none => db

/-- one optional stage of `create_attribute`: the units or aliases entry of the name, if there is one
(`CaliperMetadataDB.cpp:385-397`) -/
def DB.attrExtra (p : DB × Option Nat) (a : Nat) : Option (List Byte) → DB × Option Nat
  | some u => p.1.makeTreeEntry [(a, .string u)] p.2
  | none => p

/-- the metadata nodes of a new attribute (`CaliperMetadataDB.cpp:379-397`) -/
def DB.attrMeta (db : DB) (name : List Byte) (ty : AttrType) (metas : List (Nat × Val)) (unitA aliasA : Nat) : DB × Option Nat :=
  DB.attrExtra
    (DB.attrExtra (if metas = [] then (db, typeNode ty) else db.makeTreeEntry metas (typeNode ty)) unitA (lookup name db.units))
    aliasA (lookup name db.aliases)

/-- property and name node of a new attribute (`CaliperMetadataDB.cpp:399-410`) -/
def DB.attrFinish (p : DB × Option Nat) (name : List Byte) (prop : BitVec 32) : DB × Nat :=
  let q := p.1.findOrCreate 10 (.int (prop.signExtend 64)) p.2
  let r := q.1.findOrCreate 8 (.string name) (some q.2)
  ({ r.1 with attrs := insertNew name r.2 r.1.attrs }, r.2)

/-- `create_attribute` (`CaliperMetadataDB.cpp:369-411`) -/
def DB.createAttribute (db : DB) (name : List Byte) (ty : AttrType) (prop : BitVec 32) (metas : List (Nat × Val))
    (unitA aliasA : Nat) : DB × Nat :=
  match lookup name db.attrs with
  | some i => (db, i)
  | none => DB.attrFinish (db.attrMeta name ty metas unitA aliasA) name prop

/-- the constructor (`CaliperMetadataDB.cpp:473-482`): `attribute.alias` and `attribute.unit` are created -/
def DB.init : DB :=
  let db : DB := ⟨bootNodes, [(str "cali.attribute.name", 8)], [], [], []⟩
  let (db, _) := db.createAttribute (str "attribute.alias") .string 64 [] 0 0
  let (db, _) := db.createAttribute (str "attribute.unit") .string 64 [] 0 0
  db

/-! ## the reader -/

/-- state of `CaliReader::read` (`CaliReader.cpp:131-141`, `259-267`): database, id map, error flag, and the records passed to
`snap_proc` -/
structure RState where
  db : DB
  idmap : IdMap
  err : Bool
  recs : List (List DEnt)
  deriving DecidableEq, Repr

/-- processing of one line (`CaliReader.cpp:143-257`); `none` = crash -/
def RState.line (F : DblFmt) (s : RState) : Parsed → Option RState
  | .bad => some { s with err := true }
  | .node f =>
    match s.db.mergeNodeText F s.idmap f.id.toNat f.attr.toNat f.parent.toNat f.data with
    | none => none
    | some (db, m, _) => some { s with db := db, idmap := m }
  | .record .snapshot f =>
    some { s with
      err := s.err || decide (f.attr.length ≠ f.data.length)
      recs := s.recs ++ [f.refs.map (fun id => s.db.mergeRef s.idmap id.toNat) ++
        (f.attr.zip f.data).map fun p => s.db.mergeImm F s.idmap p.1.toNat p.2] }
  | .record .globals f =>
    let db := f.refs.foldl (fun db id => db.mergeGlobalRef s.idmap id.toNat) s.db
    let db := (f.attr.zip f.data).foldl (fun db p => db.mergeGlobalImm F s.idmap p.1.toNat p.2) db
    some { s with err := s.err || decide (f.attr.length ≠ f.data.length), db := db }

/-- all lines -/
def RState.lines (F : DblFmt) (s : RState) : List Parsed → Option RState
  | [] => some s
  | p :: ps => match s.line F p with
    | none => none
    | some s => s.lines F ps

/-- `CaliReader::read` (`CaliReader.cpp:259-267`) of a stream into a database -/
def readCali (F : DblFmt) (db : DB) (file : List Byte) : Option RState :=
  RState.lines F ⟨db, [], false, []⟩ (parseFile file)

end Verif.Cali
