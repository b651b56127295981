import Verif.Splay.Alloc
import Mathlib.Order.Basic

/-! Small specifications for C34 and C43. -/

namespace Verif.Splay

/-- Calls on a tree whose elements are ordered by a key; `remove k` stands for
`find` of the element with key `k` followed by `remove` if one was found. -/
inductive TreeOp (α κ : Type)
  | insert (v : α)
  | remove (k : κ)

/-- Which elements a map keyed by `key` holds after a history (oldest call
first is the *last* list element; the newest call is the head). -/
def Stored {α κ : Type} (key : α → κ) : List (TreeOp α κ) → α → Prop
  | [], _ => False
  | .insert v :: hist, y => y = v ∨ (Stored key hist y ∧ key y ≠ key v)
  | .remove k :: hist, y => Stored key hist y ∧ key y ≠ k

/-- Perform one call on the modelled tree.  `search k` is the three-way
predicate used to look up key `k`. -/
def TreeOp.apply {α κ : Type} (cmp : α → α → Int) (search : κ → α → Int) (t : Tree α) :
    TreeOp α κ → Option (Tree α)
  | .insert v => t.insert cmp v
  | .remove k =>
    (t.find (search k)).bind fun
      | none => some t
      | some n => t.remove n

/-- The tree after a history (newest call first). -/
def after {α κ : Type} (cmp : α → α → Int) (search : κ → α → Int) : List (TreeOp α κ) → Option (Tree α)
  | [] => some Tree.empty
  | op :: hist => (after cmp search hist).bind (fun t => op.apply cmp search t)

namespace Alloc

/-- A tracked memory region as the user sees it. -/
structure Region where
  start : Nat
  size : Nat
  elem : Nat
  uid : Nat
  deriving DecidableEq, Repr

/-- Number of `track` calls in a history (newest call first). -/
def tracks : List Op → Nat
  | [] => 0
  | .track .. :: hist => tracks hist + 1
  | _ :: hist => tracks hist

/-- The regions that are tracked and not untracked after a history (newest
call first). -/
def live : List Op → List Region
  | [] => []
  | .track p e d :: hist => ⟨p, e * d.prod, e, tracks hist + 1⟩ :: (live hist).filter (fun r => r.start ≠ p)
  | .untrack p :: hist => (live hist).filter (fun r => r.start ≠ p)
  | .snapshot :: hist => live hist

/-- The bytes in use after a history. -/
def inUse (hist : List Op) : Nat := ((live hist).map (·.size)).sum

/-- The state after a history (newest call first). -/
def stateAfter (hist : List Op) : Option State := run hist.reverse

/-- Element sizes are positive, addresses are 64-bit, and fewer than 2^64
regions are tracked. -/
def Sane (hist : List Op) : Prop :=
  (∀ p e d, Op.track p e d ∈ hist → 0 < e ∧ p < W ∧ e * d.prod < W) ∧ tracks hist < W

/-- No address is tracked again while it is still being tracked. -/
def NoRetrack (hist : List Op) : Prop :=
  ∀ p e d a b, hist = a ++ Op.track p e d :: b → ∀ r ∈ live b, r.start ≠ p

/-- The address lies in the region. -/
def Region.contains (r : Region) (a : Nat) : Prop := r.start ≤ a ∧ a < r.start + r.size

/-- The regions do not overlap (each one ends before the next one starts) and
do not reach the end of the address space. -/
def DisjointRegions (l : List Region) : Prop :=
  (∀ r ∈ l, ∀ s ∈ l, r.start < s.start → r.start + r.size ≤ s.start) ∧
  (∀ r ∈ l, r.start + r.size < W)

end Alloc
end Verif.Splay
