import Verif.Query.Pad
import Verif.Query.Select
import Verif.Query.Json
import Verif.Util.StableSort
/-!
# The tree formatter

Model of `/repo/src/reader/SnapshotTree.cpp` and `/repo/src/reader/TreeFormatter.cpp`.

Simplified: attributes are identified by their ids, `db.get_attribute(id)` is a function that does not change during the run; path attributes
given by name are looked up in it; C++ `int` lengths do not overflow; the option `print-globals` is left out (off).  `min_val`/`max_val` are
cached by the code when first used; here they are computed on the tree as it was built.  A sort order is ascending or descending
(the CalQL parser never produces `None`).
-/
namespace Verif.Query.Tree
open Verif Verif.Cali Verif.Query Verif.Query.Fmt Verif.Util
open Verif.Query.Json (AInfo)

/-- the label of a node: an (attribute, value) pair -/
abbrev Lbl := Nat × Val
/-- `Record`: the other (attribute, value) pairs of a snapshot record (`SnapshotTree.h:57`) -/
abbrev Rec := List (Nat × Val)

/-- `SnapshotTreeNode` (`SnapshotTree.h:49-105`) with its children, first child first -/
inductive SNode where
  | mk (label : Lbl) (recs : List Rec) (kids : List SNode)

def SNode.label : SNode → Lbl
  | .mk l _ _ => l
def SNode.recs : SNode → List Rec
  | .mk _ r _ => r
def SNode.kids : SNode → List SNode
  | .mk _ _ k => k

/-- the attribute/value pairs of a record in the order in which they are visited (`SnapshotTree.cpp:135-141`) -/
def unpack (rec : List QEnt) : List (Nat × Val) :=
  rec.flatMap fun
    | .imm a v => [(a, v)]
    | .ref path => path

/-- `push_entry` (`SnapshotTree.cpp:111-128`): path entries and data entries; the first data entry of an attribute is kept -/
def pushEntry (info : Nat → Option AInfo) (isPath : AInfo → Bool) (s : List Lbl × Rec) (p : Nat × Val) : List Lbl × Rec :=
  match info p.1 with
  | none => s
  | some ai =>
    if isPath ai then (s.1 ++ [p], s.2)
    else if s.2.any fun q => q.1 = p.1 then s
    else (s.1, s.2 ++ [p])

/-- replace the first child with label `p` by its image -/
def modifyFirst (p : Lbl) (f : SNode → SNode) : List SNode → List SNode
  | [] => []
  | k :: ks => if k.label = p then f k :: ks else k :: modifyFirst p f ks

/-- one step of the loop in `SnapshotTree.cpp:152-164`: go to the first child with the label, or make a new child - `append` puts it at the
front (`lockfree-tree.hpp:83-91`) -/
def stepKid (p : Lbl) (f : SNode → SNode) (ks : List SNode) : List SNode :=
  if ks.any fun k => k.label = p then modifyFirst p f ks else f (.mk p [] []) :: ks

/-- the rest of the loop and `add_record` (`SnapshotTree.cpp:152-172`) -/
def addAt (d : Rec) : List Lbl → SNode → SNode
  | [], .mk l rs ks => .mk l (rs ++ [d]) ks
  | p :: ps, .mk l rs ks => .mk l rs (stepKid p (addAt d ps) ks)

/-- the children of the root after adding a record with a non-empty path -/
def addKids (d : Rec) : List Lbl → List SNode → List SNode
  | [], ks => ks
  | p :: ps, ks => stepKid p (addAt d ps) ks

/-- `TreeFormatterImpl::ColumnInfo` for the attributes seen so far, a `std::map` ordered by attribute id (`TreeFormatter.cpp:36-46`) -/
abbrev Cols := List (Nat × Nat)

/-- insertion of a new column -/
def insCol (a w : Nat) : Cols → Cols
  | [] => [(a, w)]
  | c :: cs => if a < c.1 then (a, w) :: c :: cs else c :: insCol a w cs

/-- query settings of the formatter (`TreeFormatter.cpp:32-61`, `68-116`) -/
structure TCfg where
  /-- attributes of the metadata database -/
  info : Nat → Option AInfo
  /-- display name: alias from the query, `attribute.alias`, or the name (`TreeFormatter.cpp:168-178`) -/
  disp : Nat → Str
  /-- names given with `path-attributes`, split at commas -/
  pathNames : List Str
  maxWidth : Nat
  dbl : DblFmt
  dcmp : U64 → U64 → Int
  /-- attribute selection (`SELECT`): none given, `*`, or a list of attribute ids that were found -/
  select : Option (List Nat)
  /-- `SELECT *` (true) shows hidden and global attributes too (`TreeFormatter.cpp:328-340`) -/
  selectAll : Bool
  /-- sort attributes found in the database, with "ascending" (`TreeFormatter.cpp:189-198`) -/
  sort : List (Nat × Bool)

/-- the path attribute names without one `path` and one `prop:nested` (`TreeFormatter.cpp:101-113`) -/
def TCfg.pathKeys (C : TCfg) : List Str := (C.pathNames.erase (str "path")).erase (str "prop:nested")

/-- the path predicate (`TreeFormatter.cpp:101-113`, `146-155`): nested attributes unless other names are left in the list -/
def TCfg.isPath (C : TCfg) (ai : AInfo) : Bool :=
  if C.pathKeys = [] then ai.nested else decide (ai.name ∈ C.pathKeys)

/-- state of the formatter -/
structure TState where
  kids : List SNode
  cols : Cols

/-- column update for one value (`TreeFormatter.cpp:162-186`) -/
def TCfg.updCol (C : TCfg) (cs : Cols) (p : Nat × Val) : Cols :=
  let len := (p.2.toStr C.dbl).length
  if cs.any fun c => c.1 = p.1 then cs.map fun c => if c.1 = p.1 then (c.1, max c.2 len) else c
  else insCol p.1 (max len (C.disp p.1).length) cs

/-- `add` (`TreeFormatter.cpp:142-187`).  The code goes over all records of the node again; the widths of the older ones are known already, so
only the new record counts. -/
def TCfg.add (C : TCfg) (s : TState) (rec : List QEnt) : TState :=
  let u := (unpack rec).foldl (pushEntry C.info C.isPath) ([], [])
  if u.1 = [] then s
  else ⟨addKids u.2 u.1.reverse s.kids, u.2.foldl C.updCol s.cols⟩

/-- all records (`process_record`) -/
def TCfg.build (C : TCfg) (recs : List (List QEnt)) : TState := recs.foldl C.add ⟨[], []⟩

/-- `Variant` operator `<` (`Variant.h:124-127`) -/
def vlt (dcmp : U64 → U64 → Int) (a b : Val) : Bool := decide (cmpVal dcmp a b < 0)
/-- `Variant` operator `>` (`Variant.h:129-132`) -/
def vgt (dcmp : U64 → U64 → Int) (a b : Val) : Bool := decide (0 < cmpVal dcmp a b)

/-- `std::find_if` for an attribute of a record -/
def recGet (key : Nat) (r : Rec) : Option Val := (r.find? fun p => decide (p.1 = key)).map Prod.snd

/-- `std::min` / `std::max` with `Variant`'s `<` -/
def pick (lt : Val → Val → Bool) (asc : Bool) (a b : Val) : Val :=
  if asc then (if lt b a then b else a) else (if lt a b then b else a)

/-- `val ? std::min(val, v) : v` -/
def pick0 (lt : Val → Val → Bool) (asc : Bool) (acc v : Val) : Val := if acc ≠ .inv then pick lt asc acc v else v

mutual
/-- `min_val` (`asc`) and `max_val` (`SnapshotTree.cpp:17-67`) -/
def extVal (lt : Val → Val → Bool) (asc : Bool) (key : Nat) : SNode → Val
  | .mk _ rs ks =>
    extKids lt asc key (rs.foldl (fun acc r => match recGet key r with | some v => pick0 lt asc acc v | none => acc) .inv) ks
/-- the loop over the children -/
def extKids (lt : Val → Val → Bool) (asc : Bool) (key : Nat) (acc : Val) : List SNode → Val
  | [] => acc
  | k :: ks => extKids lt asc key (pick0 lt asc acc (extVal lt asc key k)) ks
end

/-- comparator of `SnapshotTreeNode::sort` (`SnapshotTree.cpp:69-87`) -/
def recLt (dcmp : U64 → U64 → Int) (key : Nat) (asc : Bool) (l r : Rec) : Bool :=
  match recGet key r with
  | none => true
  | some rv => match recGet key l with
    | none => false
    | some lv => if asc then vlt dcmp lv rv else vgt dcmp lv rv

/-- comparator for nodes (`TreeFormatter.cpp:214-222`) -/
def nodeLt (dcmp : U64 → U64 → Int) (key : Nat) (asc : Bool) (l r : SNode) : Bool :=
  if asc then vlt dcmp (extVal (vlt dcmp) true key l) (extVal (vlt dcmp) true key r)
  else vgt dcmp (extVal (vlt dcmp) false key l) (extVal (vlt dcmp) false key r)

/-- the calls of `sort` on one node, for all sort keys (`TreeFormatter.cpp:211-212`) -/
def SNode.sortRecs (S : Sorter) (dcmp : U64 → U64 → Int) (keys : List (Nat × Bool)) : SNode → SNode
  | .mk l rs ks => .mk l (sortAll S (keys.map fun k => recLt dcmp k.1 k.2) rs) ks

/-- `get_sorted_child_nodes` (`TreeFormatter.cpp:200-226`) on pairs (node as built, node with its subtree arranged).  The code alternates
between sorting the records of all nodes and sorting the nodes, key by key; the order of the nodes does not depend on the order of their
records, so the sorting of the records is done last here. -/
def arrange (S : Sorter) (dcmp : U64 → U64 → Int) (keys : List (Nat × Bool)) (ps : List (SNode × SNode)) : List (SNode × SNode) :=
  (sortAll S (keys.map fun k (a b : SNode × SNode) => nodeLt dcmp k.1 k.2 a.1 b.1) ps).map fun p => (p.1, p.2.sortRecs S dcmp keys)

mutual
/-- the tree in printing order -/
def sortT (S : Sorter) (dcmp : U64 → U64 → Int) (keys : List (Nat × Bool)) : SNode → SNode
  | .mk l rs ks => .mk l rs ((arrange S dcmp keys (sortTs S dcmp keys ks)).map Prod.snd)
/-- each child with its arranged subtree -/
def sortTs (S : Sorter) (dcmp : U64 → U64 → Int) (keys : List (Nat × Bool)) : List SNode → List (SNode × SNode)
  | [] => []
  | k :: ks => (k, sortT S dcmp keys k) :: sortTs S dcmp keys ks
end

/-- the top-level nodes in printing order (`TreeFormatter.cpp:390`) -/
def sortTop (S : Sorter) (dcmp : U64 → U64 → Int) (keys : List (Nat × Bool)) (ks : List SNode) : List SNode :=
  (arrange S dcmp keys (sortTs S dcmp keys ks)).map Prod.snd

/-- `m_column_info[a].width`: 0 for an attribute not seen -/
def colBase (cs : Cols) (a : Nat) : Nat := ((cs.find? fun c => decide (c.1 = a)).map Prod.snd).getD 0

/-- numbers are right-aligned (`TreeFormatter.cpp:286-288`) -/
def alignRight (t : AttrType) : Bool := decide (t = .int ∨ t = .uint ∨ t = .double ∨ t = .addr)

/-- what stands in the path column (`TreeFormatter.cpp:240-252`, `259-269`): indentation and the text given by `f` for the remaining width -/
def pathCell (width level : Nat) (f : Nat → Str) : Str :=
  padRight (List.replicate (min (2 * level) (width - 2)) (ch ' ') ++ (if 2 * level ≥ width then str ".." else f (width - 2 * level))) width

/-- the type of an attribute (`Attribute::type`) -/
def TCfg.aty (C : TCfg) (a : Nat) : AttrType := ((C.info a).map AInfo.ty).getD .inv

/-- the clamped text of a cell (`TreeFormatter.cpp:273-284`) -/
def TCfg.cellText (C : TCfg) (width : Nat) (r : Rec) (a : Nat) : Str :=
  match recGet a r with
  | some v => clampStr (v.toStr C.dbl) width
  | none => []

/-- one cell of a record (`TreeFormatter.cpp:272-294`) -/
def TCfg.cell (C : TCfg) (cs : Cols) (r : Rec) (a : Nat) : Str :=
  let width := colWidth C.maxWidth (colBase cs a)
  let s := C.cellText width r a
  if alignRight (C.aty a) then padLeft s width else padRight s width

/-- the loop over the records of a node, `lines` as in the code (`TreeFormatter.cpp:254-295`) -/
def TCfg.recLines (C : TCfg) (cs : Cols) (pw level : Nat) (attrs : List Nat) : Nat → List Rec → Str
  | _, [] => []
  | lines, r :: rs =>
    (if lines > 0 then ch '\n' :: pathCell pw level (fun _ => str " |-") else []) ++
      (attrs.flatMap (C.cell cs r) ++ recLines C cs pw level attrs (lines + 1) rs)

mutual
/-- `recursive_print_nodes` (`TreeFormatter.cpp:228-305`) on the arranged tree -/
def TCfg.printNode (C : TCfg) (cs : Cols) (pw : Nat) (attrs : List Nat) (level : Nat) : SNode → Str
  | .mk l rs ks =>
    pathCell pw level (clampStr (l.2.toStr C.dbl)) ++
      (C.recLines cs pw level attrs (if rs.length > 1 then 1 else 0) rs ++ (ch '\n' :: C.printKids cs pw attrs (level + 1) ks))
/-- the loop over the children -/
def TCfg.printKids (C : TCfg) (cs : Cols) (pw : Nat) (attrs : List Nat) (level : Nat) : List SNode → Str
  | [] => []
  | k :: ks => C.printNode cs pw attrs level k ++ C.printKids cs pw attrs level ks
end

mutual
/-- `recursive_max_path_label_width` (`TreeFormatter.cpp:307-315`) -/
def TCfg.maxLabel (C : TCfg) (level : Nat) : SNode → Nat
  | .mk l _ ks => C.maxLabelKids (level + 1) (2 * level + (l.2.toStr C.dbl).length) ks
/-- the loop over the children -/
def TCfg.maxLabelKids (C : TCfg) (level : Nat) (acc : Nat) : List SNode → Nat
  | [] => acc
  | k :: ks => C.maxLabelKids level (max acc (C.maxLabel level k)) ks
end

/-- columns shown (`TreeFormatter.cpp:325-354`) -/
def TCfg.attrs (C : TCfg) (cs : Cols) : List Nat :=
  match C.select with
  | some l => l
  | none => (cs.map Prod.fst).filter fun a => C.selectAll || (match C.info a with | some ai => !(ai.hidden || ai.isGlobal) | none => true)

/-- `display_name` of a column: empty for an attribute not seen -/
def TCfg.dispName (C : TCfg) (cs : Cols) (a : Nat) : Str := if cs.any fun c => c.1 = a then C.disp a else []

/-- width of the path column (`TreeFormatter.cpp:360-368`) -/
def TCfg.pathWidth (C : TCfg) (s : TState) : Nat := colWidth C.maxWidth (C.maxLabelKids 0 4 s.kids)

/-- `flush` (`TreeFormatter.cpp:317-392`) -/
def TCfg.flush (C : TCfg) (S : Sorter) (s : TState) : Str :=
  let attrs := C.attrs s.cols
  let pw := C.pathWidth s
  padRight (clampStr (str "Path") pw) pw ++
    (attrs.flatMap (fun a => let w := colWidth C.maxWidth (colBase s.cols a); padRight (clampStr (C.dispName s.cols a) w) w) ++
      (ch '\n' :: C.printKids s.cols pw attrs 0 (sortTop S C.dcmp C.sort s.kids)))

end Verif.Query.Tree
