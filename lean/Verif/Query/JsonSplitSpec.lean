import Verif.Query.JsonSplit
import Verif.Query.JsonSpec
/-!
# Specification: the contents of the json-split output
-/
namespace Verif.Query.Json
open Verif Verif.Cali Verif.Query

/-- Does the query show an attribute with these properties?  A list in SELECT names the attributes, `path` stands for the nested ones; without SELECT
list the attributes of GROUP BY and the aggregation results are shown, or everything that is neither hidden nor global. -/
def Selected (q : SQuery) (i : AInfo) : Prop :=
  match q.sel with
  | .list => i.name ∈ q.selList ∨ (q.selPath = true ∧ i.nested = true)
  | .none => q.selPath = true ∧ i.nested = true
  | _ =>
    if q.grp = .list then i.name ∈ q.grpList ∨ i.name ∈ q.aggNames ∨ (q.grpPath = true ∧ i.nested = true)
    else i.hidden = false ∧ i.isGlobal = false

instance (q : SQuery) (i : AInfo) : Decidable (Selected q i) := by unfold Selected; split <;> infer_instance

/-- the columns: an attribute stored as value, another attribute, the nested attributes -/
inductive SCol where
  | value (a : Nat)
  | tree (a : Nat)
  | path
  deriving DecidableEq

/-- the attributes shown -/
def shown (q : SQuery) (D : SDB) : List Nat := D.attrs.filter fun a => decide (Selected q (D.info a))

/-- A column for each attribute shown that is not nested, then one for the nested ones if there are any. -/
def specCols (q : SQuery) (D : SDB) : List SCol :=
  ((shown q D).filter fun a => !(D.info a).nested).map (fun a => if D.asValue a then .value a else .tree a) ++
  (if (shown q D).any (fun a => (D.info a).nested) then [.path] else [])

/-- title -/
def SCol.title (q : SQuery) (D : SDB) : SCol → Str
  | .value a | .tree a => match q.alias_ (D.info a).name with
    | some x => x
    | none => (D.info a).name
  | .path => str "path"

/-- a column has an attribute -/
def SCol.Has (q : SQuery) (D : SDB) : SCol → Nat → Prop
  | .value a, b | .tree a, b => b = a
  | .path, b => b ∈ shown q D ∧ (D.info b).nested = true

instance (q : SQuery) (D : SDB) (c : SCol) (b : Nat) : Decidable (c.Has q D b) := by cases c <;> (unfold SCol.Has; infer_instance)

/-- the tree values of a record in a column: outer values first -/
def treeVals (q : SQuery) (D : SDB) (r : List QEnt) (c : SCol) : List Val :=
  ((items r).filter fun x => x.1 && decide (c.Has q D x.2.1)).reverse.map fun x => x.2.2

/-- the value of an attribute in a record: the first entry for it -/
def valueOf (r : List QEnt) (a : Nat) : Option Val :=
  r.findSome? fun e => match e with
    | .imm b v => if b = a then some v else none
    | .ref ((b, v) :: _) => if b = a then some v else none
    | .ref [] => none

/-- attributes with numbers -/
def Numeric (i : AInfo) : Prop := i.ty = .int ∨ i.ty = .uint ∨ i.ty = .double
instance (i : AInfo) : Decidable (Numeric i) := by unfold Numeric; infer_instance

/-- decimal notation -/
abbrev dec (n : Nat) : List Byte := digitsLoop 10 n []

/-- `NodePath nodes i p`: in the output, following the parents of node number `i` gives the labels `p`, the outermost first. -/
inductive NodePath (nodes : List JVal) : Nat → List Str → Prop where
  | root {i : Nat} {l c : Str} : nodes[i]? = some (.obj [(str "label", .string l), (str "column", .string c)]) → NodePath nodes i [l]
  | child {i j : Nat} {l c : Str} {p : List Str} :
      nodes[i]? = some (.obj [(str "label", .string l), (str "column", .string c), (str "parent", .num (dec j))]) →
      NodePath nodes j p → NodePath nodes i (p ++ [l])

/-- The cell of a record in a column: the value, the number of the node whose path is the tree values, or null if there are none.  `path` tells the
path of each node. -/
inductive CellShows (F : DblFmt) (q : SQuery) (D : SDB) (path : Nat → Option (List Str)) (r : List QEnt) : SCol → JVal → Prop where
  | string {a : Nat} {v : Val} : valueOf r a = some v → ¬Numeric (D.info a) → CellShows F q D path r (.value a) (.string (clean (v.toStr F)))
  | number {a : Nat} {v : Val} : valueOf r a = some v → Numeric (D.info a) → CellShows F q D path r (.value a) (.num (v.toStr F))
  | noValue {a : Nat} : valueOf r a = none → CellShows F q D path r (.value a) .null
  | node {c : SCol} {i : Nat} : (∀ a, c ≠ .value a) → treeVals q D r c ≠ [] → path i = some ((treeVals q D r c).map (·.toStr F)) →
      CellShows F q D path r c (.num (dec i))
  | noNode {c : SCol} : (∀ a, c ≠ .value a) → treeVals q D r c = [] → CellShows F q D path r c .null

/-- a column of values -/
def SCol.isValue : SCol → Bool
  | .value _ => true
  | _ => false

/-- the metadata of an attribute: the nodes above its own, without the built-in attributes and hidden ones -/
def attrMeta (D : SDB) (l : List Nat) : List (Nat × Val) :=
  match l with
  | [a] => (D.path a).tail.filter fun n => decide (12 ≤ n.1) && !(D.info n.1).hidden
  | _ => []

/-- metadata of a column: whether it has values, and the metadata of its attribute (the path column has none unless it has one attribute) -/
def specMeta (F : DblFmt) (q : SQuery) (D : SDB) (c : SCol) : List (Str × JVal) :=
  (str "is_value", .bool c.isValue) ::
  (attrMeta D (D.attrs.filter fun b => decide (Selected q (D.info b)) && decide (c.Has q D b))).map fun n =>
    (clean (D.info n.1).name, .string (clean (n.2.toStr F)))

/-- Well-formed input: numbers have JSON literals (they are not `inf` or `nan`), and the attributes in the columns of tree values are not used as
metadata of the values in the records. -/
structure SplitOk (F : DblFmt) (q : SQuery) (D : SDB) (recs : List (List QEnt)) : Prop where
  ids : D.attrs.Nodup
  literal : ∀ r ∈ recs, ∀ a ∈ shown q D, Numeric (D.info a) → ∀ v, valueOf r a = some v → validNum (v.toStr F) = true
  noMeta : ∀ r ∈ recs, ∀ a v, QEnt.imm a v ∈ r → ∀ n ∈ D.path a, ∀ c ∈ specCols q D, (∀ b, c ≠ .value b) → ¬c.Has q D n.1
  oneGlobal : ((items D.globals).map fun x => x.2.1).Nodup

/-- the members for the global values -/
def GlobalsShown (F : DblFmt) (D : SDB) (ms : List (Str × JVal)) : Prop :=
  ms.length = (items D.globals).length ∧
  ∀ k w, (k, w) ∈ ms ↔ ∃ x ∈ items D.globals, k = clean (D.info x.2.1).name ∧ w = .string (clean (x.2.2.toStr F))

end Verif.Query.Json
