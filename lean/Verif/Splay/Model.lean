/-!
# `cali::SplayTree` (src/services/alloc/SplayTree.hpp)

The model works on an explicit heap of nodes with parent, left and right
pointers, statement by statement.  `none` as a result means that the C++ code
dereferences a null or deleted pointer (or, for the loops, that the fuel ran
out): the theorems show that this never happens.
-/

namespace Verif.Splay

/-- `enum HAND` (SplayTree.hpp:12). -/
inductive Hand
  | left
  | na
  | right
  deriving DecidableEq, Repr

/-- `struct STNode` (SplayTree.hpp:14-24): data members; pointers are heap
indices, `none` is the null pointer. -/
structure Nd (α : Type) where
  parent : Option Nat
  left : Option Nat
  right : Option Nat
  val : α
  hand : Hand

/-- The C++ heap as far as the tree uses it: allocated nodes by address.
`next` is the address the next `new` returns.  Simplification: addresses are
not reused after `delete`. -/
structure Heap (α : Type) where
  mem : Nat → Option (Nd α)
  next : Nat

/-- Read a node through a pointer (`none`: the node is not allocated). -/
def Heap.get {α} (h : Heap α) (i : Nat) : Option (Nd α) := h.mem i

/-- Write a node through a pointer. -/
def Heap.set {α} (h : Heap α) (i : Nat) (n : Nd α) : Heap α :=
  { h with mem := fun j => if j = i then some n else h.mem j }

/-- An assignment `p->member = …` through the pointer `i`. -/
def Heap.modify {α} (h : Heap α) (i : Nat) (f : Nd α → Nd α) : Option (Heap α) := do
  let n ← h.get i
  return h.set i (f n)

/-- A guarded assignment `if (p) { p->member = …; }`. -/
def Heap.modifyIf {α} (h : Heap α) (p : Option Nat) (f : Nd α → Nd α) : Option (Heap α) :=
  match p with
  | some i => h.modify i f
  | none => some h

/-- `new STNode(p, v, h)` (SplayTree.hpp:24). -/
def Heap.alloc {α} (h : Heap α) (p : Option Nat) (v : α) (hd : Hand) : Heap α × Nat :=
  ({ (h.set h.next ⟨p, none, none, v, hd⟩) with next := h.next + 1 }, h.next)

/-- `delete node` (SplayTree.hpp:192). -/
def Heap.free {α} (h : Heap α) (i : Nat) : Heap α :=
  { h with mem := fun j => if j = i then none else h.mem j }

/-- `STNode::insert` (SplayTree.hpp:26-47).  `cmp` is the `Cmp` functor.  The
recursion is over fuel. -/
def nodeInsert {α} (cmp : α → α → Int) (v : α) : Nat → Heap α → Nat → Option (Heap α × Nat)
  | 0, _, _ => none
  | fuel + 1, h, this => do
    let n ← h.get this
    if cmp v n.val < 0 then
      match n.left with
      | some l => nodeInsert cmp v fuel h l
      | none =>
        let (h, x) := h.alloc (some this) v .left
        let h ← h.modify this (fun n => { n with left := some x })
        return (h, x)
    else if cmp v n.val > 0 then
      match n.right with
      | some r => nodeInsert cmp v fuel h r
      | none =>
        let (h, x) := h.alloc (some this) v .right
        let h ← h.modify this (fun n => { n with right := some x })
        return (h, x)
    else
      let h ← h.modify this (fun n => { n with val := v })
      return (h, this)

/-- `STNode::find` (SplayTree.hpp:49-60); the outer `Option` is "no invalid
access", the inner one the returned pointer. -/
def nodeFind {α} (p : α → Int) : Nat → Heap α → Nat → Option (Option Nat)
  | 0, _, _ => none
  | fuel + 1, h, this => do
    let n ← h.get this
    if p n.val < 0 then
      match n.left with
      | some l => nodeFind p fuel h l
      | none => return none
    else if p n.val > 0 then
      match n.right with
      | some r => nodeFind p fuel h r
      | none => return none
    else
      return some this

/-- `STNode::findMax` (SplayTree.hpp:62-67). -/
def nodeFindMax {α} : Nat → Heap α → Nat → Option Nat
  | 0, _, _ => none
  | fuel + 1, h, this => do
    let n ← h.get this
    match n.right with
    | some r => nodeFindMax fuel h r
    | none => return this

/-- `SplayTree::rotate_left` (SplayTree.hpp:72-89), statement by statement. -/
def rotateLeft {α} (h : Heap α) (node : Nat) : Option (Heap α) := do
  -- if (node->left) { node->left->parent = node->parent; node->left->handedness = RIGHT; }
  let n ← h.get node
  let h ← h.modifyIf n.left (fun x => { x with parent := n.parent, hand := .right })
  -- STNode* npp = node->parent->parent; HAND np_hand = node->parent->handedness;
  let n ← h.get node
  let p ← n.parent
  let np ← h.get p
  let npp := np.parent
  let npHand := np.hand
  -- node->parent->parent = node; ->handedness = LEFT; ->right = node->left;
  let h ← h.modify p (fun x => { x with parent := some node, hand := .left, right := n.left })
  -- node->left = node->parent; node->parent = npp; node->handedness = (npp ? np_hand : NA);
  h.modify node (fun x => { x with
    left := some p, parent := npp, hand := if npp.isSome then npHand else .na })

/-- `SplayTree::rotate_right` (SplayTree.hpp:91-108), statement by statement. -/
def rotateRight {α} (h : Heap α) (node : Nat) : Option (Heap α) := do
  let n ← h.get node
  let h ← h.modifyIf n.right (fun x => { x with parent := n.parent, hand := .left })
  let n ← h.get node
  let p ← n.parent
  let np ← h.get p
  let npp := np.parent
  let npHand := np.hand
  let h ← h.modify p (fun x => { x with parent := some node, hand := .right, left := n.right })
  h.modify node (fun x => { x with
    right := some p, parent := npp, hand := if npp.isSome then npHand else .na })

/-- `SplayTree::splay` (SplayTree.hpp:110-144); the loop is over fuel.  The
caller assigns `m_root = node`. -/
def splay {α} : Nat → Heap α → Nat → Option (Heap α)
  | 0, _, _ => none
  | fuel + 1, h, node => do
    let n ← h.get node
    match n.parent with
    | none => return h
    | some p =>
      let np ← h.get p
      if np.parent = none then
        if n.hand = .right then
          let h ← rotateLeft h node
          splay fuel h node
        else if n.hand = .left then
          let h ← rotateRight h node
          splay fuel h node
        else splay fuel h node
      else if n.hand = .right ∧ np.hand = .right then
        let h ← rotateLeft h node
        let h ← rotateLeft h node
        splay fuel h node
      else if n.hand = .left ∧ np.hand = .left then
        let h ← rotateRight h node
        let h ← rotateRight h node
        splay fuel h node
      else if n.hand = .right ∧ np.hand = .left then
        let h ← rotateLeft h node
        let h ← rotateRight h node
        splay fuel h node
      else if n.hand = .left ∧ np.hand = .right then
        let h ← rotateRight h node
        let h ← rotateLeft h node
        splay fuel h node
      else splay fuel h node

/-- A `SplayTree` object with the heap (SplayTree.hpp:69, 146-152). -/
structure Tree (α : Type) where
  heap : Heap α
  root : Option Nat

/-- Fuel: one more than the number of addresses handed out so far. -/
def Tree.fuel {α} (t : Tree α) : Nat := t.heap.next + 2

/-- The constructor `SplayTree()` (SplayTree.hpp:150). -/
def Tree.empty {α} : Tree α := ⟨⟨fun _ => none, 0⟩, none⟩

/-- `SplayTree::insert` (SplayTree.hpp:154-162). -/
def Tree.insert {α} (cmp : α → α → Int) (t : Tree α) (v : α) : Option (Tree α) :=
  match t.root with
  | none =>
    let (h, x) := t.heap.alloc none v .na
    some ⟨h, some x⟩
  | some r => do
    let (h, node) ← nodeInsert cmp v t.fuel t.heap r
    let h ← splay t.fuel h node
    return ⟨h, some node⟩

/-- `SplayTree::remove` (SplayTree.hpp:164-193); `node` is `ref.m_root`. -/
def Tree.remove {α} (t : Tree α) (node : Nat) : Option (Tree α) := do
  let h ← splay t.fuel t.heap node
  let n ← h.get node
  match n.left with
  | some l =>
    let h ← h.modify l (fun x => { x with parent := none, hand := .na })
    let lMax ← nodeFindMax t.fuel h l
    let h ← splay t.fuel h lMax
    let n ← h.get node
    let h ← h.modify lMax (fun x => { x with right := n.right })
    let h ← h.modifyIf n.right (fun x => { x with parent := some lMax })
    return ⟨h.free node, some lMax⟩
  | none =>
    match n.right with
    | some r =>
      let h ← h.modify r (fun x => { x with parent := none, hand := .na })
      return ⟨h.free node, some r⟩
    | none => return ⟨h.free node, none⟩

/-- `SplayTree::find` (SplayTree.hpp:195-204): a handle to the node. -/
def Tree.find {α} (t : Tree α) (p : α → Int) : Option (Option Nat) :=
  match t.root with
  | none => some none
  | some r => nodeFind p t.fuel t.heap r

/-- `operator*` of the handle returned by `find` (SplayTree.hpp:206). -/
def Tree.deref {α} (t : Tree α) (node : Nat) : Option α := (t.heap.get node).map (·.val)

end Verif.Splay
