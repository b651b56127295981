import Verif.Cali.DB
/-!
# `json2json_split.py`

Model of `/repo/python/json2json_split.py`: conversion of the simple JSON format (a list of records) into the json-split format, where the
columns with text values refer to nodes of a list of paths.

Text is a list of code points; a JSON value is a text, `null`, or something else (numbers, lists …), which is only copied.  Reading and
writing the JSON text (`main`, lines 86-104) is Python's and not modelled.  A Python exception is `none`.
-/
namespace Verif.Py.Conv
open Verif Verif.Cali

/-- Python strings -/
abbrev Str := List Nat

/-- values in a record -/
inductive JVal where
  | text (s : Str)
  | null
  | other (n : Nat)
  deriving DecidableEq

/-- a record: a `dict` in insertion order -/
abbrev JRec := List (Str × JVal)

/-- `s.split("/")` -/
def split : Str → List Str
  | [] => [[]]
  | c :: cs =>
    if c = 47 then [] :: split cs
    else match split cs with
      | [] => [[c]]
      | w :: ws => (c :: w) :: ws

/-- `Tree.Node` (lines 17-23): data (column and label), parent, children -/
structure PNode where
  data : Str × Str
  parent : Option Nat
  children : List ((Str × Str) × Nat)

/-- `Tree` (lines 14-27); nodes are referred to by their id, which is their index -/
structure PTree where
  nodes : List PNode
  roots : List ((Str × Str) × Nat)

/-- `Tree.Node(tree, data, parent)` (lines 18-23) -/
def newNode (t : PTree) (v : Str × Str) (parent : Option Nat) : PTree × Nat :=
  ({ t with nodes := t.nodes ++ [⟨v, parent, []⟩] }, t.nodes.length)

/-- `self.roots[val]`, created if needed (lines 30-34) -/
def getRoot (t : PTree) (v : Str × Str) : PTree × Nat :=
  match lookup v t.roots with
  | some i => (t, i)
  | none => let x := newNode t v none; ({ x.1 with roots := x.1.roots ++ [(v, x.2)] }, x.2)

/-- `node.children[val] = …` -/
def setKid (t : PTree) (p : Nat) (v : Str × Str) (i : Nat) : PTree :=
  { t with nodes := t.nodes.modify p fun n => { n with children := n.children ++ [(v, i)] } }

/-- `node.children[val]`, created if needed (lines 36-39) -/
def getKid (t : PTree) (p : Nat) (v : Str × Str) : PTree × Nat :=
  match (t.nodes[p]?).bind fun n => lookup v n.children with
  | some i => (t, i)
  | none => let x := newNode t v (some p); (setKid x.1 p v x.2, x.2)

/-- the loop of `get_node_id` (lines 35-39) -/
def walk (t : PTree) (col : Str) (p : Nat) : List Str → PTree × Nat
  | [] => (t, p)
  | w :: ws => let x := getKid t p (col, w); walk x.1 col x.2 ws

/-- `get_node_id` (lines 29-41); `path` is not empty -/
def getNodeId (t : PTree) (col : Str) : List Str → PTree × Nat
  | [] => (t, 0)
  | w :: ws => let x := getRoot t (col, w); walk x.1 col x.2 ws

/-- an entry of the node list -/
structure OutNode where
  column : Str
  label : Str
  parent : Option Nat
  deriving DecidableEq

/-- `get_nodelist` (lines 43-52) -/
def nodeList (t : PTree) : List OutNode := t.nodes.map fun n => ⟨n.data.1, n.data.2, n.parent⟩

/-- `isinstance(v, str)` -/
def isText : JVal → Bool
  | .text _ => true
  | _ => false

/-- the columns found in a record (lines 59-61); `coldict[k]` is `is_value` -/
def addCols (d : List (Str × Bool)) : JRec → List (Str × Bool)
  | [] => d
  | (k, v) :: r => addCols (if (lookup k d).isSome then d else d ++ [(k, !isText v)]) r

/-- `coldict` (lines 56-61) -/
def colDict : List (Str × Bool) → List JRec → List (Str × Bool)
  | d, [] => d
  | d, r :: rs => colDict (addCols d r) rs

/-- a cell of the data table -/
inductive Cell where
  | none
  | node (i : Nat)
  | val (v : JVal)
  deriving DecidableEq

/-- one cell (lines 71-77); `rec[col].split` raises an exception if the value is not a text -/
def cell (t : PTree) (r : JRec) (c : Str × Bool) : Option (PTree × Cell) :=
  match lookup c.1 r with
  | Option.none => some (t, .none)
  | some v =>
    if c.2 = false then
      match v with
      | .text s => let x := getNodeId t c.1 (split s); some (x.1, .node x.2)
      | _ => Option.none
    else some (t, .val v)

/-- one row (lines 69-77) -/
def row (t : PTree) (r : JRec) : List (Str × Bool) → Option (PTree × List Cell)
  | [] => some (t, [])
  | c :: cs => match cell t r c with
    | Option.none => Option.none
    | some (t, x) => match row t r cs with
      | Option.none => Option.none
      | some (t, xs) => some (t, x :: xs)

/-- all rows (lines 68-78) -/
def rows (t : PTree) (cs : List (Str × Bool)) : List JRec → Option (PTree × List (List Cell))
  | [] => some (t, [])
  | r :: rs => match row t r cs with
    | Option.none => Option.none
    | some (t, x) => match rows t cs rs with
      | Option.none => Option.none
      | some (t, xs) => some (t, x :: xs)

/-- the json-split document -/
structure SplitDoc where
  data : List (List Cell)
  columns : List Str
  isValue : List Bool
  nodes : List OutNode
  deriving DecidableEq

/-- `json_to_json_split` (lines 55-83) -/
def convert (recs : List JRec) : Option SplitDoc :=
  let d := colDict [] recs
  match rows ⟨[], []⟩ d recs with
  | Option.none => Option.none
  | some (t, xs) => some ⟨xs, d.map Prod.fst, d.map Prod.snd, nodeList t⟩

end Verif.Py.Conv
