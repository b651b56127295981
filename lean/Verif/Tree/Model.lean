import Verif.Variant.Model
import Verif.Blackboard.Model
/-!
# Context (metadata) tree

Model of `/repo/src/caliper/MetadataTree.{h,cpp}` and `/repo/include/caliper/common/Node.h`.

A node lives in slot `i` of block `b` (`node_blocks[b].chunk + i`); a node pointer is that pair, or the root node.
`node_blocks`, `next_block` and the root are shared by all threads, `m_nodeblock` is per thread; here a call is
atomic (the interleaving of the block allocation and of the child-list append inside a call is the subject of
`Verif/Conc`).  Simplifications: the child list is a list of pointers instead of `head`/`next` links
(`lockfree-tree.hpp:87-95` prepends); the memory pool never fails and string copies are values; statistics counters
are left out.  Writing beyond a chunk, using a bad pointer or not terminating sets the flag `dead`.
-/
namespace Verif

/-- the contents of a `Variant` (type and data bytes / data word), on which `Variant` equality depends (see C03) -/
structure Val where
  ty : AttrType
  c : List Byte ⊕ BitVec 64
  deriving DecidableEq, Repr

/-- the empty variant -/
def Val.empty : Val := ⟨.inv, .inr 0⟩
/-- a string variant -/
def Val.str (bs : List Byte) : Val := ⟨.string, .inl bs⟩
/-- ASCII string variant -/
def Val.ofString (s : String) : Val := .str (s.toList.map fun c => BitVec.ofNat 8 c.toNat)
/-- `cali_make_variant_from_type` -/
def Val.ofType (t : AttrType) : Val := ⟨.type, .inr (BitVec.ofNat 64 t.code)⟩
/-- `Variant(int)` -/
def Val.ofInt (i : BitVec 32) : Val := ⟨.int, .inr (i.signExtend 64)⟩
/-- `Variant(true)` -/
def Val.ofBool (b : Bool) : Val := ⟨.bool, .inr (if b then 1 else 0)⟩

namespace MTree

/-- `Node*` -/
inductive Ptr where
  | root
  | cell (b i : Nat)
  deriving DecidableEq, Repr

/-- `class Node` (`Node.h:23-36`) with its parent link (`lockfree-tree.hpp:54-60`).  `rank` (the depth) is ghost
state: it only bounds the recursions that walk up the parent links. -/
structure NodeRec where
  id : Nat
  attr : Nat
  val : Val
  parent : Ptr
  rank : Nat
  deriving DecidableEq, Repr

/-- shared data (`MetadataTree.h:30-50`) and the per-thread current block (`MetadataTree.h:55`).
`fails` is ghost state: the number of refused requests for a node block (tree full). -/
structure Tree where
  npb : Nat
  numBlocks : Nat
  nextBlock : Nat
  idx : Nat → Nat
  node : Nat → Nat → Option NodeRec
  kids : Ptr → List Ptr
  cur : Nat → Option Nat
  fails : Nat
  dead : Bool

/-- function update at a pointer -/
def updP {β : Type} (f : Ptr → β) (p : Ptr) (x : β) : Ptr → β := fun q => if q = p then x else f q

/-- the node behind a non-root pointer -/
def Tree.get? (t : Tree) : Ptr → Option NodeRec
  | .root => none
  | .cell b i => t.node b i

/-- `Node::attribute()`; the root has attribute `CALI_INV_ID` (`MetadataTree.cpp:23`) -/
def Tree.attrOf (t : Tree) (p : Ptr) : Nat := ((t.get? p).map (·.attr)).getD invId
/-- `Node::data()` -/
def Tree.valOf (t : Tree) (p : Ptr) : Val := ((t.get? p).map (·.val)).getD Val.empty
/-- `Node::parent()`; null for the root -/
def Tree.parentOf (t : Tree) (p : Ptr) : Option Ptr := (t.get? p).map (·.parent)
/-- `Node::id()` -/
def Tree.idOf (t : Tree) (p : Ptr) : Nat := ((t.get? p).map (·.id)).getD invId
/-- ghost depth of a node -/
def Tree.rankOf (t : Tree) (p : Ptr) : Nat := ((t.get? p).map (·.rank)).getD 0

/-- bootstrap nodes (`MetadataTree.cpp:37-60`), by slot -/
def bootNode : Nat → Option NodeRec
  | 0 => some ⟨0, 9, Val.ofType .usr, .root, 1⟩
  | 1 => some ⟨1, 9, Val.ofType .int, .root, 1⟩
  | 2 => some ⟨2, 9, Val.ofType .uint, .root, 1⟩
  | 3 => some ⟨3, 9, Val.ofType .string, .root, 1⟩
  | 4 => some ⟨4, 9, Val.ofType .addr, .root, 1⟩
  | 5 => some ⟨5, 9, Val.ofType .double, .root, 1⟩
  | 6 => some ⟨6, 9, Val.ofType .bool, .root, 1⟩
  | 7 => some ⟨7, 9, Val.ofType .type, .root, 1⟩
  | 8 => some ⟨8, 8, Val.ofString "cali.attribute.name", .cell 0 3, 2⟩
  | 9 => some ⟨9, 8, Val.ofString "cali.attribute.type", .cell 0 7, 2⟩
  | 10 => some ⟨10, 8, Val.ofString "cali.attribute.prop", .cell 0 1, 2⟩
  | 11 => some ⟨11, 9, Val.ofType .ptr, .root, 1⟩
  | _ => none

/-- child lists of the bootstrap nodes (`append` prepends) -/
def bootKids : Ptr → List Ptr
  | .root => [.cell 0 11, .cell 0 7, .cell 0 6, .cell 0 5, .cell 0 4, .cell 0 3, .cell 0 2, .cell 0 1, .cell 0 0]
  | .cell 0 3 => [.cell 0 8]
  | .cell 0 7 => [.cell 0 9]
  | .cell 0 1 => [.cell 0 10]
  | _ => []

/-- `GlobalData::GlobalData` and the initial thread's constructor (`MetadataTree.cpp:21-88`).  `node_blocks` is
not initialised by the code: `garbage` are the initial `index` fields of the blocks. -/
def init (npb numBlocks : Nat) (garbage : Nat → Nat) : Tree :=
  { npb := min npb 256, numBlocks := numBlocks, nextBlock := 1,
    idx := BB.upd garbage 0 12,
    node := fun b i => if b = 0 then bootNode i else none,
    kids := bootKids,
    cur := fun th => if th = 0 then some 0 else none,
    fails := 0, dead := false }

/-- `type_node(type)` (`MetadataTree.h:113`, filled in `MetadataTree.cpp:49-53`); the entry for the invalid type is
never assigned (null here) -/
def typeNode : AttrType → Option Ptr
  | .usr => some (.cell 0 0) | .int => some (.cell 0 1) | .uint => some (.cell 0 2) | .string => some (.cell 0 3)
  | .addr => some (.cell 0 4) | .double => some (.cell 0 5) | .bool => some (.cell 0 6) | .type => some (.cell 0 7)
  | .ptr => some (.cell 0 11) | .inv => none

/-- `node(id)` (`MetadataTree.h:98-109`) -/
def Tree.lookup (t : Tree) (id : Nat) : Option Ptr :=
  let block := id / t.npb
  let index := id % t.npb
  if block ≥ t.numBlocks || index ≥ t.idx block then none else some (.cell block index)

/-- whether a new block is needed (`MetadataTree.cpp:100`) -/
def needBlock (t : Tree) (th n : Nat) : Bool :=
  match t.cur th with
  | none => true
  | some b => t.idx b + n ≥ t.npb

/-- `have_free_nodeblock` (`MetadataTree.cpp:96-125`) for thread `th` -/
def haveFree (t : Tree) (th n : Nat) : Tree × Bool :=
  if needBlock t th n then
    if t.nextBlock ≥ t.numBlocks then ({ t with fails := t.fails + 1 }, false)
    else
      ({ t with nextBlock := t.nextBlock + 1, cur := BB.upd t.cur th (some t.nextBlock),
                idx := BB.upd t.idx t.nextBlock 0 }, true)
  else (t, true)

/-- take the next slot of the thread's block, construct a node there and append it to `parent`
(`MetadataTree.cpp:174-182`, `202-209`, `261-266`) -/
def newNode (t : Tree) (th attr : Nat) (val : Val) (parent : Ptr) : Tree × Option Ptr :=
  match t.cur th with
  | none => ({ t with dead := true }, none)
  | some b =>
    let i := t.idx b
    if i ≥ t.npb then ({ t with dead := true }, none)
    else
      ({ t with
          idx := BB.upd t.idx b (i + 1),
          node := BB.upd t.node b (BB.upd (t.node b) i (some ⟨b * t.npb + i, attr, val, parent, t.rankOf parent + 1⟩)),
          kids := updP t.kids parent (.cell b i :: t.kids parent) },
        some (.cell b i))

/-- `find_child_node` (`Node.h:53-58`) with `equals` (`Node.h:43`); also the loop of `get_child`
(`MetadataTree.cpp:330-332`) -/
def findChild (t : Tree) (p : Ptr) (attr : Nat) (val : Val) : Option Ptr :=
  (t.kids p).find? fun c => decide (t.valOf c = val) && decide (t.attrOf c = attr)

/-- the loop of `create_path` (`MetadataTree.cpp:165-183`) -/
def createLoop (t : Tree) (th attr : Nat) : List Val → Ptr → Tree × Option Ptr
  | [], p => (t, some p)
  | v :: vs, p =>
    match newNode t th attr v p with
    | (t, none) => (t, none)
    | (t, some c) => createLoop t th attr vs c

/-- `create_path` (`MetadataTree.cpp:131-188`), called with at least one value -/
def createPath (t : Tree) (th attr : Nat) (vs : List Val) (parent : Ptr) : Tree × Option Ptr :=
  match haveFree t th vs.length with
  | (t, false) => (t, none)
  | (t, true) => createLoop t th attr vs parent

/-- `create_child` (`MetadataTree.cpp:190-214`) -/
def createChild (t : Tree) (th attr : Nat) (v : Val) (parent : Ptr) : Tree × Option Ptr :=
  match haveFree t th 1 with
  | (t, false) => (t, none)
  | (t, true) => newNode t th attr v parent

/-- the search loop of `get_path` (`MetadataTree.cpp:221-229`): the last node found and the values not found -/
def findPrefix (t : Tree) (attr : Nat) : List Val → Ptr → Ptr × List Val
  | [], p => (p, [])
  | v :: vs, p =>
    match findChild t p attr v with
    | some c => findPrefix t attr vs c
    | none => (p, v :: vs)

/-- `get_path(attr, n, data, parent)` (`MetadataTree.cpp:216-235`) -/
def getPath (t : Tree) (th attr : Nat) (vs : List Val) (parent : Option Ptr) : Tree × Option Ptr :=
  let p := parent.getD .root
  match findPrefix t attr vs p with
  | (q, []) => (t, some q)
  | (q, v :: rest) => createPath t th attr (v :: rest) q

/-- `get_child` (`MetadataTree.cpp:323-335`) -/
def getChild (t : Tree) (th attr : Nat) (v : Val) (parent : Option Ptr) : Tree × Option Ptr :=
  let p := parent.getD .root
  match findChild t p attr v with
  | some c => (t, some c)
  | none => createChild t th attr v p

/-- `get_or_copy_node` (`MetadataTree.cpp:248-272`): same search and creation, from another node's data -/
def getOrCopy (t : Tree) (th : Nat) (src : Ptr) (parent : Option Ptr) : Tree × Option Ptr :=
  getChild t th (t.attrOf src) (t.valOf src) parent

/-- `get_path(n, nodelist, parent)` (`MetadataTree.cpp:237-246`); list entries may be null -/
def getPathNodes (t : Tree) (th : Nat) : List (Option Ptr) → Option Ptr → Tree × Option Ptr
  | [], p => (t, p)
  | none :: ns, p => getPathNodes t th ns p
  | some n :: ns, p =>
    match getOrCopy t th n p with
    | (t, p) => getPathNodes t th ns p

/-- `copy_path_without_attribute` (`MetadataTree.cpp:274-287`) with `parent` non-null; `fuel` bounds the recursion -/
def copyPathWithout (th attr : Nat) : Nat → Tree → Option Ptr → Ptr → Tree × Option Ptr
  | 0, t, _, _ => ({ t with dead := true }, none)
  | fuel + 1, t, node, parent =>
    match node with
    | none => (t, some parent)
    | some nd =>
      if nd = parent then (t, some parent)
      else
        match copyPathWithout th attr fuel t (t.parentOf nd) parent with
        | (t, tmp) => if attr ≠ t.attrOf nd then getOrCopy t th nd tmp else (t, tmp)

/-- recursion depth available to walks up from a node -/
def Tree.fuelOf (t : Tree) (p : Option Ptr) : Nat := ((p.map t.rankOf).getD 0) + 3

/-- the loop of `remove_first_in_path` (`MetadataTree.cpp:293-294`): nearest node with attribute `attr` from `p` upwards -/
def findUp (t : Tree) (attr : Nat) : Nat → Option Ptr → Option Ptr
  | 0, _ => none
  | fuel + 1, p =>
    match p with
    | none => none
    | some nd => if t.attrOf nd ≠ attr then findUp t attr fuel (t.parentOf nd) else some nd

/-- `remove_first_in_path` (`MetadataTree.cpp:289-300`) -/
def removeFirst (t : Tree) (th : Nat) (path : Option Ptr) (attr : Nat) : Tree × Option Ptr :=
  let node := (findUp t attr (t.fuelOf path) path).bind t.parentOf
  copyPathWithout th attr (t.fuelOf path) t path (node.getD .root)

/-- `replace_first_in_path` (`MetadataTree.cpp:302-308`) -/
def replaceFirst (t : Tree) (th : Nat) (path : Option Ptr) (attr : Nat) (v : Val) : Tree × Option Ptr :=
  match path with
  | none => getChild t th attr v none
  | some p =>
    match removeFirst t th (some p) attr with
    | (t, q) => getChild t th attr v q

/-- the loop of `replace_all_in_path` (`MetadataTree.cpp:314-316`): the outermost node with attribute `attr` on the
path, or `acc` -/
def findOutermost (t : Tree) (attr : Nat) : Nat → Option Ptr → Option Ptr → Option Ptr
  | 0, _, acc => acc
  | fuel + 1, p, acc =>
    match p with
    | none => acc
    | some nd => findOutermost t attr fuel (t.parentOf nd) (if t.attrOf nd = attr then some nd else acc)

/-- `replace_all_in_path` (`MetadataTree.cpp:310-321`).  `parent->parent()` is null if `parent` is the root;
`copy_path_without_attribute` then starts at the root. -/
def replaceAll (t : Tree) (th : Nat) (path : Option Ptr) (attr : Nat) (vs : List Val) : Tree × Option Ptr :=
  let parent := findOutermost t attr (t.fuelOf path) path path
  let parent := (parent.map t.parentOf).getD (some .root)
  match copyPathWithout th attr (t.fuelOf path) t path (parent.getD .root) with
  | (t, q) => getPath t th attr vs q

/-- requests by thread `th` -/
inductive Req where
  | getChild (th attr : Nat) (v : Val) (parent : Option Ptr)
  | getPath (th attr : Nat) (vs : List Val) (parent : Option Ptr)
  | getPathNodes (th : Nat) (ns : List (Option Ptr)) (parent : Option Ptr)
  | removeFirst (th : Nat) (path : Option Ptr) (attr : Nat)
  | replaceFirst (th : Nat) (path : Option Ptr) (attr : Nat) (v : Val)
  | replaceAll (th : Nat) (path : Option Ptr) (attr : Nat) (vs : List Val)

/-- execute a request -/
def step (t : Tree) : Req → Tree × Option Ptr
  | .getChild th a v p => getChild t th a v p
  | .getPath th a vs p => getPath t th a vs p
  | .getPathNodes th ns p => getPathNodes t th ns p
  | .removeFirst th p a => removeFirst t th p a
  | .replaceFirst th p a v => replaceFirst t th p a v
  | .replaceAll th p a vs => replaceAll t th p a vs

end MTree
end Verif
