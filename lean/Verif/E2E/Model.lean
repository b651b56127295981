import Verif.Prof.Model
import Verif.Cali.Writer
import Verif.Query.Pipeline
import Verif.Query.Plan
/-!
# From annotation calls to a query result

Composition of the region profile (`Verif/Prof/Model`), the `.cali` writer and reader (`Verif/Cali`) and the query processor (`Verif/Query/Pipeline`):
what happens between the first annotation call and the output of `cali-query -q "..." file.cali` (`/repo/src/tools/cali-query/cali-query.cpp`).

Simplified: the reader's metadata database is complete before the first record is processed (in the code the two are interleaved; C80 says
what difference that makes); `queryText` begins with the text of the query.
-/
namespace Verif.E2E
open Verif Verif.Cali Verif.Query Verif.Query.Pre Verif.Query.Pipe

/-- the (attribute, value) pairs from a node of the metadata database up to the root (`Node::parent()`, `Node.h`); `fuel` bounds the walk -/
def pathUp (nodes : List Nd) : Nat → Option Nat → List (Nat × Cali.Val)
  | 0, _ => []
  | _, none => []
  | fuel + 1, some i =>
    match nodes[i]? with
    | none => []
    | some n => (n.attr, n.data) :: pathUp nodes fuel n.parent

/-- an attribute as the query processor sees it: id, name, type, `is_nested()` (`CaliperMetadataDB.cpp:62-69`, `Attribute.cpp:18-52`, `Attribute.h:55`) -/
def attrAt (db : DB) (i : Nat) (n : Nd) : Option PAttr :=
  if n.attr = 8 then some ⟨i, n.data.nameText, db.attrType (some i), decide (db.attrProp (some i) &&& 256#32 ≠ 0)⟩ else none

/-- the attributes of the metadata database, in the order of their ids: the first attribute with a name is the one found by
name (`m_attributes`, `CaliperMetadataDB.cpp:201-213`) -/
def pdbOf (db : DB) : PDB := ⟨(db.nodes.zipIdx).filterMap fun x => attrAt db x.2 x.1, db.nodes.length⟩

/-- an entry of a record, as the query processor sees it (`Entry.h:58-87`) -/
def entQ (db : DB) (e : DEnt) : QEnt :=
  match e.node with
  | none => .ref []
  | some i => if db.isImm e then .imm i e.val else .ref (pathUp db.nodes (i + 1) (some i))

/-- the environment of the query processor: an attribute's metadata are the nodes above it (`Entry.cpp:31-41`) -/
def envOf (Q : Pipe.Env) (db : DB) : Pipe.Env := { Q with meta_ := fun b => pathUp db.nodes (b + 1) (some b) }

/-- `cali-query` on one file: `none` is a crash of the reader -/
def queryFile (F : DblFmt) (Q : Pipe.Env) (q : QSpec) (file : List Byte) : Option (PDB × List (List QEnt)) :=
  (readCali F DB.init file).map fun s => query (envOf Q s.db) q (pdbOf s.db) (s.recs.map fun r => .record (r.map (entQ s.db)))

/-- the same with the text of the query (`query_common.cpp:224-254`) -/
def queryText (F : DblFmt) (Q : Pipe.Env) (stod : Str → Option U64) (one : U64) (text file : List Byte) : Option (PDB × List (List QEnt)) :=
  (readCali F DB.init file).bind fun s =>
    Plan.runText (envOf Q s.db) stod one text (pdbOf s.db) (s.recs.map fun r => .record (r.map (entQ s.db)))

/-- the file a flush of the profile writes: one snapshot record per row (`CaliWriter.cpp:158-163`) -/
def profileFile (F : DblFmt) (S : Src) (out : List (List DEnt)) : List Byte := caliFile F S (out.map fun r => (.snapshot, r))

/-- the target attribute -/
def T : Str := str "sum#time.duration.ns"

/-- `AGGREGATE sum(sum#time.duration.ns),inclusive_sum(sum#time.duration.ns) GROUP BY path` -/
def reportQuery : QSpec := ⟨[], [], false, true, [], true, [.red .sum T false, .red .sum T true]⟩

end Verif.E2E
