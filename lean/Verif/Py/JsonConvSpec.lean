import Verif.Py.JsonConv
/-!
# Reading a json-split document
-/
namespace Verif.Py.Conv

/-- the labels on the path to node `i`, all of which belong to column `col` -/
inductive PathOf (nodes : List OutNode) (col : Str) : Nat → List Str → Prop where
  | root {i : Nat} {l : Str} (h : nodes[i]? = some ⟨col, l, none⟩) : PathOf nodes col i [l]
  | child {i p : Nat} {l : Str} {ls : List Str} (h : nodes[i]? = some ⟨col, l, some p⟩) (hp : PathOf nodes col p ls) :
      PathOf nodes col i (ls ++ [l])

/-- labels with slashes between them -/
def slashed : List Str → Str
  | [] => []
  | [w] => w
  | w :: ws => w ++ 47 :: slashed ws

/-- what a cell of a column stands for -/
inductive Reads (nodes : List OutNode) (col : Str) : Bool → Cell → Option JVal → Prop where
  | absent (b : Bool) : Reads nodes col b .none none
  | value {v : JVal} (h : v ≠ .null) : Reads nodes col true (.val v) (some v)
  | null : Reads nodes col true (.val .null) none
  | path {i : Nat} {ls : List Str} (h : PathOf nodes col i ls) : Reads nodes col false (.node i) (some (.text (slashed ls)))

/-- value of a column in a record -/
def value (r : JRec) (c : Str) : Option JVal := (r.find? fun x => x.1 == c).map Prod.snd

/-- The document stands for the records: the columns are the keys that occur, each once; there is a row for each record, with a cell for
each column, which stands for the value of the record. -/
def StandsFor (D : SplitDoc) (recs : List JRec) : Prop :=
  D.columns.Nodup ∧ (∀ c, c ∈ D.columns ↔ ∃ r ∈ recs, c ∈ r.map Prod.fst) ∧ D.isValue.length = D.columns.length ∧
  D.data.length = recs.length ∧
  ∀ (i : Nat) (r : JRec), recs[i]? = some r → ∃ xs : List Cell, D.data[i]? = some xs ∧ xs.length = D.columns.length ∧
    ∀ (j : Nat) (c : Str), D.columns[j]? = some c → ∃ (x : Cell) (b : Bool), xs[j]? = some x ∧ D.isValue[j]? = some b ∧ Reads D.nodes c b x (value r c)

/-- Every path is in the node list once: nodes with the same column, label and parent are the same, and parents come first. -/
def Shared (nodes : List OutNode) : Prop :=
  nodes.Nodup ∧ ∀ (i : Nat) (n : OutNode) (p : Nat), nodes[i]? = some n → n.parent = some p → p < i

/-- the first record that has column `c` has a text there -/
def TextColumn (recs : List JRec) (c : Str) : Prop :=
  ∃ (pre : List JRec) (r : JRec) (post : List JRec) (s : Str), recs = pre ++ r :: post ∧ (∀ q ∈ pre, value q c = none) ∧ value r c = some (.text s)

/-- no value is `null` -/
def NoNull (recs : List JRec) : Prop := ∀ r ∈ recs, ∀ x ∈ r, x.2 ≠ .null

/-- each key occurs once in each record (Python dictionaries) -/
def Dicts (recs : List JRec) : Prop := ∀ r ∈ recs, (r.map Prod.fst).Nodup

/-- a column that starts with a text has texts only -/
def Consistent (recs : List JRec) : Prop := ∀ c, TextColumn recs c → ∀ r ∈ recs, ∀ v, value r c = some v → ∃ s, v = .text s

end Verif.Py.Conv
