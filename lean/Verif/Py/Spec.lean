import Verif.Py.Model
/-!
# What a user of the Python reader expects

Everything is stated about the metadata `S` and the records the writer was given; nothing here refers to the reader, except for
the two types of its results (`Data`, `PVal`).
-/
namespace Verif.Py
open Verif Verif.Cali

/-- a value as text -/
def textOf (F : DblFmt) : Val → List Byte
  | .string s => s
  | .double d => F.print d
  | v => v.toStr F

/-- the datum of a node: its text; the built-in types appear as pairs of number and name -/
def dataOf (F : DblFmt) (i : Nat) (v : Val) : Data :=
  match v with
  | .type t => if i < 11 then .pair t.code (type2string t.code) else .text (type2string t.code)
  | v => .text (textOf F v)

/-- a node on a path: attribute name, whether the attribute is nested, and the node's datum -/
structure Item where
  name : List Byte
  nested : Bool
  data : Data
  deriving DecidableEq, Repr

/-- name and properties of attribute `a` -/
def IsAttr (S : Src) (a : Nat) (name : List Byte) (prop : BitVec 32) : Prop :=
  (∃ q, S.node a = some ⟨8, .string name, q⟩) ∧ ∃ D, Denotes S.node a D ∧ D.attrProp = prop

/-- the path from the root to a node (`none`: no node); nodes of hidden attributes do not count -/
inductive PathTo (F : DblFmt) (S : Src) : Option Nat → List Item → Prop
  | empty : PathTo F S none []
  | shown {i a : Nat} {v : Val} {q : Option Nat} {name : List Byte} {prop : BitVec 32} {l : List Item} : S.node i = some ⟨a, v, q⟩ →
      IsAttr S a name prop → prop &&& 128#32 = 0 → PathTo F S q l →
      PathTo F S (some i) (l ++ [⟨name, prop &&& 256#32 ≠ 0, dataOf F i v⟩])

/-- name and text of the immediate entries whose attribute is not hidden -/
inductive Imms (F : DblFmt) (S : Src) : List (Nat × Val) → List (List Byte × List Byte) → Prop
  | nil : Imms F S [] []
  | shown {a : Nat} {v : Val} {name : List Byte} {prop : BitVec 32} {es : List (Nat × Val)} {l : List (List Byte × List Byte)} :
      IsAttr S a name prop → prop &&& 128#32 = 0 → Imms F S es l → Imms F S ((a, v) :: es) ((name, textOf F v) :: l)
  | hidden {a : Nat} {v : Val} {name : List Byte} {prop : BitVec 32} {es : List (Nat × Val)} {l : List (List Byte × List Byte)} :
      IsAttr S a name prop → prop &&& 128#32 ≠ 0 → Imms F S es l → Imms F S ((a, v) :: es) l

/-- nothing, one value, or a list of values -/
def pack : List Data → Option PVal
  | [] => none
  | [d] => some (.one d)
  | ds => some (.many ds)

/-- what a path contributes under key `k`: the values of the attribute of that name, outermost first; under `path` the values
of all nested attributes, always as a list -/
def pathEntry (l : List Item) (k : List Byte) : Option PVal :=
  if k = str "path" then
    match (l.filter (·.nested)).map (·.data) with
    | [] => none
    | ds => some (.many ds)
  else pack ((l.filter (·.name = k)).map (·.data))

/-- the last `some` of a list -/
def lastSome {α : Type} (l : List (Option α)) : Option α := l.foldl (fun a b => b.or a) none

/-- the entry of a record under key `k`: the last immediate entry of that name, or else the last path that has one -/
def recordEntry (paths : List (List Item)) (imms : List (List Byte × List Byte)) (k : List Byte) : Option PVal :=
  (lastSome (imms.map fun e => if e.1 = k then some (PVal.one (.text e.2)) else none)).or
    (lastSome (paths.map fun l => pathEntry l k))

/-- `d` is the dictionary of the record `es` -/
def DictOf (F : DblFmt) (S : Src) (es : List DEnt) (d : Dict) : Prop :=
  ∃ paths imms, List.Forall₂ (fun i l => PathTo F S (some i) l) (S.refsOf es) paths ∧ Imms F S (S.immsOf es) imms ∧
    (∀ k, lookup (.text k) d = recordEntry paths imms k) ∧ ∀ k s, lookup (.pair k s) d = none

/-- records Python can take: entries refer to existing nodes, immediates are representable values of existing attributes; and
the text of the last immediate entry is neither empty nor ends with a blank -/
structure RecordOK (F : DblFmt) (S : Src) (es : List DEnt) : Prop where
  has : S.Has es
  imm : ∀ p ∈ S.immsOf es, Supported F p.2
  last : ∀ p, (S.immsOf es).getLast? = some p → textOf F p.2 ≠ [] ∧ (textOf F p.2).getLast? ≠ some 32

/-- metadata Python can take: attributes have a parent node (as all attributes made by the library), no attribute is called
`path`, and the text of a node without parent does not end with a blank -/
structure MetaOK (F : DblFmt) (S : Src) : Prop where
  parent : ∀ i n, S.node i = some n → n.attr = 8 → n.parent ≠ none
  path : ∀ i n, S.node i = some n → n.attr = 8 → n.data ≠ .string (str "path")
  blank : ∀ i n, S.node i = some n → n.parent = none → (textOf F n.data).getLast? ≠ some 32

end Verif.Py
