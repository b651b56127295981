import Verif.Query.Json
/-!
# The json-split formatter

Model of `/repo/src/reader/JsonSplitFormatter.cpp`.

Simplified: as in `Verif.Query.Json`, a context tree node is the list of its (attribute, value) pairs, the innermost first; `db` is a structure of
functions; records are added one after another and nothing runs concurrently with `flush` (the mutexes).  A hierarchy node is its index in `m_nodes`;
`m_root` is `none`.
-/
namespace Verif.Query.Json
open Verif Verif.Cali Verif.Query

/-- what the formatter asks of the metadata database: all attributes in order of their ids, their properties, whether they are stored as value, and
the nodes on the path from an attribute's node to the root (the first one has the name) -/
structure SDB where
  attrs : List Nat
  info : Nat → AInfo
  asValue : Nat → Bool
  path : Nat → List (Nat × Val)
  globals : List QEnt

/-- `AttributeSelection::SelectionType` (`QuerySpec.h:27-32`) -/
inductive SelKind where
  | dflt | all | none | list
  deriving DecidableEq

/-- the parts of the query specification used by `configure` -/
structure SQuery where
  sel : SelKind
  selList : List Str
  selPath : Bool
  grp : SelKind
  grpList : List Str
  grpPath : Bool
  /-- `get_aggregation_attribute_name(op)` of the aggregation operators -/
  aggNames : List Str
  alias_ : Str → Option Str

/-- `m_select_all`, `m_select_path`, `m_attr_names`, `m_aliases` (`JsonSplitFormatter.cpp:142-146`) -/
structure SCfg where
  all : Bool
  path : Bool
  names : List Str
  alias_ : Str → Option Str

/-- `configure` (`JsonSplitFormatter.cpp:171-200`) -/
def splitConfig (q : SQuery) : SCfg :=
  match q.sel with
  | .dflt | .all =>
    if q.grp = .list then ⟨false, q.grpPath, q.grpList ++ q.aggNames, q.alias_⟩ else ⟨true, q.selPath, [], q.alias_⟩
  | .none => ⟨false, q.selPath, [], q.alias_⟩
  | .list => ⟨false, q.selPath, q.selList, q.alias_⟩

/-- `Column` (`JsonSplitFormatter.cpp:149-162`) -/
structure Column where
  title : Str
  attrs : List Nat
  hier : Bool
  deriving DecidableEq

/-- the attributes shown (`JsonSplitFormatter.cpp:206-224`) -/
def splitAttrs (C : SCfg) (D : SDB) : List Nat :=
  if C.all then D.attrs.filter fun a => !((D.info a).hidden || (D.info a).isGlobal)
  else D.attrs.filter fun a => (C.path && (D.info a).nested) || decide ((D.info a).name ∈ C.names)

/-- the column of an attribute that is not nested (`JsonSplitFormatter.cpp:235-242`, `make_column`) -/
def attrColumn (C : SCfg) (D : SDB) (a : Nat) : Column :=
  ⟨(C.alias_ (D.info a).name).getD (D.info a).name, [a], !(D.asValue a)⟩

/-- `init_columns` (`JsonSplitFormatter.cpp:202-248`) -/
def initColumns (C : SCfg) (D : SDB) : List Column :=
  let attrs := splitAttrs C D
  let nested := attrs.filter fun a => (D.info a).nested
  ((attrs.filter fun a => !(D.info a).nested).map (attrColumn C D)) ++ (if nested ≠ [] then [⟨str "path", nested, true⟩] else [])

/-- `HierarchyNode` (`JsonSplitFormatter.cpp:35-67`): label, column, parent -/
structure HNode where
  label : Str
  column : Str
  parent : Option Nat
  deriving DecidableEq

/-- `Hierarchy`: `m_nodes`; the id of a node is its position -/
abbrev Hier := List HNode

/-- the children of a node, the newest first (`LockfreeIntrusiveTree::append` prepends) -/
def Hier.children (H : Hier) (p : Option Nat) : List Nat := ((List.range H.length).filter fun i => decide ((H[i]?.map HNode.parent) = some p)).reverse

/-- one entry of the path in `get_id` (`JsonSplitFormatter.cpp:103-117`) -/
def Hier.step (column : Str) (s : Hier × Option Nat) (label : Str) : Hier × Option Nat :=
  match (s.1.children s.2).find? fun i => decide ((s.1[i]?.map HNode.label) = some label) with
  | some i => (s.1, some i)
  | none => (s.1 ++ [⟨label, column, s.2⟩], some s.1.length)

/-- `get_id` (`JsonSplitFormatter.cpp:99-120`); `none` is `CALI_INV_ID` -/
def Hier.getId (H : Hier) (path : List Str) (column : Str) : Hier × Option Nat := path.foldl (Hier.step column) (H, none)

/-- the nodes above an entry: for an immediate entry `e.node()` is the node of the attribute (`Entry.h:33-34`) -/
def entNodes (D : SDB) : QEnt → List (Nat × Val)
  | .ref p => p
  | .imm a _ => D.path a

/-- the path in `write_hierarchy_entry` (`JsonSplitFormatter.cpp:257-267`) -/
def hierPath (D : SDB) (r : List QEnt) (attrs : List Nat) : List Val :=
  ((r.flatMap (entNodes D)).filter fun n => decide (n.1 ∈ attrs)).reverse.map Prod.snd

variable (F : DblFmt)

/-- `write_hierarchy_entry` (`JsonSplitFormatter.cpp:250-274`) -/
def hierCell (D : SDB) (H : Hier) (r : List QEnt) (c : Column) : Hier × List Byte :=
  match H.getId ((hierPath D r c.attrs).map (·.toStr F)) c.title with
  | (H', some i) => (H', digitsLoop 10 i [])
  | (H', none) => (H', str "null")

/-- `Entry::attribute`, `Entry::value` (`Entry.h:56-70`) -/
def entTop : QEnt → Option (Nat × Val)
  | .ref p => p.head?
  | .imm a v => some (a, v)

/-- `write_immediate_entry` (`JsonSplitFormatter.cpp:276-292`) -/
def immCell (D : SDB) (r : List QEnt) (a : Nat) : List Byte :=
  let quote := !((D.info a).ty = .int || (D.info a).ty = .uint || (D.info a).ty = .double)
  match (r.filterMap entTop).find? fun e => decide (e.1 = a) with
  | some e => if quote then str "\"" ++ writeJsonEsc (e.2.toStr F) ++ str "\"" else e.2.toStr F
  | none => str "null"

/-- one cell in `flush` (`JsonSplitFormatter.cpp:400-408`) -/
def splitCell (D : SDB) (r : List QEnt) (H : Hier) (c : Column) : Hier × List Byte :=
  if c.hier then hierCell F D H r c else (H, immCell F D r (c.attrs.headD 0))

/-- a loop that threads the hierarchy and collects texts -/
def thread {α : Type} (f : Hier → α → Hier × List Byte) : Hier → List α → Hier × List (List Byte)
  | H, [] => (H, [])
  | H, x :: xs =>
    let s := f H x
    let t := thread f s.1 xs
    (t.1, s.2 :: t.2)

/-- one row (`JsonSplitFormatter.cpp:395-411`) -/
def splitRow (D : SDB) (cols : List Column) (H : Hier) (r : List QEnt) : Hier × List Byte :=
  let t := thread (splitCell F D r) H cols
  (t.1, str "[ " ++ writeSeq [] (str ", ") [] t.2 ++ str " ]")

/-- `HierarchyNode::write_json` (`JsonSplitFormatter.cpp:53-64`) -/
def nodeText (n : HNode) : List Byte :=
  str "{ \"label\": \"" ++ writeJsonEsc n.label ++ str "\"" ++ str ", \"column\": \"" ++ writeJsonEsc n.column ++ str "\"" ++
  (match n.parent with
  | some p => str ", \"parent\": " ++ digitsLoop 10 p []
  | none => []) ++ str " }"

/-- `write_nodes` (`JsonSplitFormatter.cpp:123-136`) -/
def nodesText (H : Hier) : List Byte := str "\"nodes\": [" ++ writeSeq (str " ") (str ", ") [] (H.map nodeText) ++ str " ]"

/-- the metadata of a column (`JsonSplitFormatter.cpp:331-348`): neither the built-in attributes (ids below 12) nor hidden ones -/
def metaPairs (D : SDB) (c : Column) : List (Nat × Val) :=
  match c.attrs with
  | [a] => (D.path a).tail.filter fun n => !(decide (n.1 < 12) || (D.info n.1).hidden)
  | _ => []

/-- `write_column_metadata` (`JsonSplitFormatter.cpp:327-351`) -/
def colMetaText (D : SDB) (c : Column) : List Byte :=
  str "\"is_value\": " ++ (if c.hier then str "false" else str "true") ++
  ((metaPairs D c).flatMap fun n => str ", \"" ++ writeJsonEsc (D.info n.1).name ++ str "\": " ++ str "\"" ++ writeJsonEsc (n.2.toStr F) ++ str "\"")

/-- `write_globals` (`JsonSplitFormatter.cpp:301-325`) -/
def splitGlobalsText (D : SDB) : List Byte :=
  (globalVals F D.globals).flatMap fun p =>
    str ",\n  \"" ++ writeJsonEsc (D.info p.1).name ++ str "\": " ++ str "\"" ++ writeJsonEsc p.2 ++ str "\""

/-- `write_metadata` (`JsonSplitFormatter.cpp:353-385`) -/
def splitMetaText (D : SDB) (cols : List Column) (H : Hier) : List Byte :=
  str ",\n  \"columns\": [" ++ writeSeq (str " ") (str ", ") [] (cols.map fun c => str "\"" ++ writeJsonEsc c.title ++ str "\"") ++
  str " ],\n  \"column_metadata\": [" ++ writeSeq (str " { ") (str " }, { ") [] (cols.map (colMetaText F D)) ++ (if cols ≠ [] then str " } " else []) ++
  str " ],\n  " ++ nodesText H ++ splitGlobalsText F D

/-- the formatter: `m_records`, `m_hierarchy` -/
structure SState where
  recs : List (List QEnt)
  hier : Hier

/-- `process_record` (`JsonSplitFormatter.cpp:294-299`) -/
def SState.add (s : SState) (r : List QEnt) : SState := { s with recs := s.recs ++ [r] }

/-- `flush` (`JsonSplitFormatter.cpp:387-418`) -/
def SState.flush (C : SCfg) (D : SDB) (s : SState) : SState × List Byte :=
  let cols := initColumns C D
  let t := thread (splitRow F D cols) s.hier s.recs
  ({ s with hier := t.1 },
    str "{\n  \"data\": [" ++ writeSeq (str "\n    ") (str ",\n    ") [] t.2 ++ str "\n  ]" ++ splitMetaText F D cols t.1 ++ str "\n}" ++ str "\n")

/-- calls of a formatter -/
inductive SOp where
  | add (r : List QEnt)
  | flush (D : SDB)

/-- the state of a formatter after some calls -/
def splitRun (C : SCfg) (ops : List SOp) : SState :=
  ops.foldl (fun s o => match o with
    | .add r => s.add r
    | .flush D => (s.flush F C D).1) ⟨[], []⟩

end Verif.Query.Json
