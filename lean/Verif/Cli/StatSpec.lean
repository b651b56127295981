import Verif.Cli.Stat

/-! # What the numbers of `cali-stat` stand for, straight from the stream -/

namespace Verif.Stat

/-- the snapshot records of the stream -/
def recs (items : List Item) : List (List Ent) := items.filterMap fun | .snap es => some es | _ => none

/-- the node records: attribute, whether its type is string or blob, text of the value -/
def nodeRecs (items : List Item) : List (Nat × Bool × Str) := items.filterMap fun | .node a t d => some (a, t, d) | _ => none

def isImm : Ent → Bool | .imm => true | _ => false
def isRef : Ent → Bool | .ref _ => true | _ => false

/-- the nodes of the path of an entry -/
def pathOf : Ent → List (Nat × Str) | .ref p => p | _ => []

/-- elements of a record: one for each reference, two (attribute and value) for each immediate value -/
def elements (es : List Ent) : Nat := es.countP isRef + 2 * es.countP isImm

/-- attributes of a record: one for each node on a path and each immediate value -/
def attributes (es : List Ent) : Nat := (es.map fun e => (pathOf e).length).sum + es.countP isImm

/-- estimated bytes of a node record: three ids and the value -/
def nodeSize (n : Nat × Bool × Str) : Nat := 24 + if n.2.1 then n.2.2.length else 8

/-- all nodes on the paths of the records, with multiplicity -/
def uses (items : List Item) : List (Nat × Str) := (recs items).flatMap fun es => es.flatMap pathOf

/-- a stream as the writer makes it: the nodes on the paths of a record stand in the stream before the record -/
def Complete (items : List Item) : Prop :=
  ∀ pre es post, items = pre ++ .snap es :: post → ∀ e ∈ es, ∀ x ∈ pathOf e, ∃ t, (x.1, t, x.2) ∈ nodeRecs pre

/-- the different values that the nodes of attribute `a` have, each once -/
def valuesOf (items : List Item) (a : Nat) : List Str := ((nodeRecs items).filter fun n => n.1 = a).map fun n => n.2.2

end Verif.Stat
