import Verif.Conc.Tree
/-!
# Specification vocabulary for the concurrent tree
-/
namespace Verif.Conc
open MTree (Ptr)

/-- following `next` links from `c` visits exactly the nodes of the list, in this order, and ends -/
inductive Chain (next : Ptr → Option Ptr) : Option Ptr → List Ptr → Prop where
  | nil : Chain next none []
  | cons {c : Ptr} {l : List Ptr} (h : Chain next (next c) l) : Chain next (some c) (c :: l)

/-- the (attribute, value) pairs on the way from the root to a node, following the parent links -/
inductive Path (sh : Shared) : Ptr → List (Nat × Val) → Prop where
  | root : Path sh .root []
  | child {n p : Ptr} {c : Cell} {l : List (Nat × Val)} (hp : sh.parent n = some p) (hc : sh.cell n = some c)
      (h : Path sh p l) : Path sh n (l ++ [(c.attr, c.val)])

/-- `n` is in the child list of `p` -/
def Linked (sh : Shared) (p n : Ptr) : Prop := ∃ l, Chain sh.next (sh.head p) l ∧ n ∈ l

/-- the root, or a node in the tree -/
def Live (sh : Shared) (p : Ptr) : Prop := p = .root ∨ ∃ q, Linked sh q p

/-- a request of a caller: below a node of the tree, with no more values than a node block can hold
(256 at most; without this the code writes beyond the block, `C16_long_path_overflow`) -/
def ActOk (s : St) : Act → Prop
  | .call _ vs p => Live s.sh p ∧ vs.length ≤ s.sh.npb
  | _ => True

/-- the states the program can be in: any number of threads, any requests, any interleaving -/
inductive Reach : St → Prop where
  | init {npb numBlocks : Nat} {g : Nat → Nat} (hn : 12 ≤ npb) (hb : 1 ≤ numBlocks) : Reach (init npb numBlocks g)
  | step {s : St} {t : Nat} {a : Act} (h : Reach s) (hok : ActOk s a) : Reach (step s t a)

/-- `s'` is a later state of the same execution as `s` -/
inductive Later : St → St → Prop where
  | refl {s : St} : Later s s
  | step {s s' : St} {t : Nat} {a : Act} (h : Later s s') (hok : ActOk s' a) : Later s (step s' t a)

/-- the thread is executing the compare-exchange loop of `append` for node `n` -/
def Appending (s : St) (t : Nat) (n : Ptr) : Prop := ∃ j, (s.th t).pc = .cas j n

end Verif.Conc
