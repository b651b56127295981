import Verif.Tree.Model
/-!
# Specification of the context tree: every node stands for a path, a list of (attribute, value) pairs
-/
namespace Verif.MTree

/-- a path: (attribute, value) pairs from the root down -/
abbrev PathL := List (Nat × Val)

/-- node `p` stands for path `l` -/
inductive Path (t : Tree) : Ptr → PathL → Prop where
  | root : Path t .root []
  | cell {b i : Nat} {r : NodeRec} {l : PathL} :
      t.node b i = some r → Path t r.parent l → Path t (.cell b i) (l ++ [(r.attr, r.val)])

/-- an optional pointer; null stands for the root -/
def PathO (t : Tree) (p : Option Ptr) (l : PathL) : Prop := Path t (p.getD .root) l

/-- a pointer to an existing node (or the root) -/
def Live (t : Tree) (p : Ptr) : Prop := p = .root ∨ (t.get? p).isSome

/-- remove the last (innermost) pair with attribute `a` -/
def eraseInner (a : Nat) (l : PathL) : PathL := (l.reverse.eraseP fun e => decide (e.1 = a)).reverse

/-- remove all pairs with attribute `a` -/
def eraseAll (a : Nat) (l : PathL) : PathL := l.filter fun e => decide (e.1 ≠ a)

/-- the path a request asks for, in terms of the paths of the nodes it is given -/
inductive Wanted (t : Tree) : Req → PathL → Prop where
  | getChild {th a v p l} : PathO t p l → Wanted t (.getChild th a v p) (l ++ [(a, v)])
  | getPath {th a vs p l} : PathO t p l → Wanted t (.getPath th a vs p) (l ++ vs.map fun v => (a, v))
  | getPathNodes {th ns p l} : PathO t p l →
      Wanted t (.getPathNodes th ns p) (l ++ (ns.filterMap id).map fun n => (t.attrOf n, t.valOf n))
  | removeFirst {th p a l} : PathO t p l → Wanted t (.removeFirst th p a) (eraseInner a l)
  | replaceFirst {th p a v l} : PathO t p l → Wanted t (.replaceFirst th p a v) (eraseInner a l ++ [(a, v)])
  | replaceAll {th p a vs l} : PathO t p l →
      Wanted t (.replaceAll th p a vs) (eraseAll a l ++ vs.map fun v => (a, v))

/-- values a request asks to create at once -/
def Req.batch : Req → List Val
  | .getPath _ _ vs _ | .replaceAll _ _ _ vs => vs
  | _ => []

/-- the pointers a request mentions point to existing nodes -/
def Req.ok (t : Tree) : Req → Prop
  | .getChild _ _ _ p | .getPath _ _ _ p => Live t (p.getD .root)
  | .getPathNodes _ ns p => Live t (p.getD .root) ∧ ∀ n, some n ∈ ns → Live t n ∧ n ≠ .root
  | .removeFirst _ p a | .replaceFirst _ p a _ | .replaceAll _ p a _ => Live t (p.getD .root) ∧ a ≠ invId

/-- states reachable from start-up by requests of any threads with at most `nodes_per_block` values per path request -/
inductive Reach : Tree → Prop where
  | init {npb nb : Nat} {g : Nat → Nat} : 12 ≤ npb → 1 ≤ nb → Reach (init npb nb g)
  | step {t : Tree} {q : Req} : Reach t → q.ok t → q.batch.length ≤ t.npb → Reach (step t q).1

end Verif.MTree
