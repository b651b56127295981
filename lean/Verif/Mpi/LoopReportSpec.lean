import Verif.Mpi.LoopReport
/-!
# Specification of the loop report
-/
namespace Verif.Mpi.LR
open Verif Verif.Cali

/-- the loops of records, each once, in the order of their first record -/
def order : List (List Str) → List (List Str)
  | [] => []
  | k :: ks => k :: (order ks).filter (· ≠ k)

/-- the loops that a rank has records of, in the order of their first record -/
def loopsOf (recs : List LRec) : List (List Str) := order ((recs.map LRec.loops).filter (· ≠ []))

/-- number of iterations recorded for a loop -/
def total (recs : List LRec) (k : List Str) : Nat := ((recs.filter fun r => r.loops = k).map LRec.iters).sum

/-- number of records of a loop -/
def number (recs : List LRec) (k : List Str) : Nat := (recs.filter fun r => r.loops = k).length

/-- the largest value over the ranks -/
def maxOver (n : Nat) (f : Nat → Nat) : Nat := (List.range n).foldr (fun r m => Nat.max (f r) m) 0

/-- a record in the block of iterations that begins at `b` -/
def InBlock (bs b : Int) (x : LRec) : Prop := b ≤ x.start ∧ x.start < b + bs

instance (bs b : Int) (x : LRec) : Decidable (InBlock bs b x) := inferInstanceAs (Decidable (_ ∧ _))

/-- iterations of a loop in a block -/
def inBlock (name : Str) (bs b : Int) (recs : List LRec) : Nat :=
  ((recs.filter fun x => name ∈ x.loops ∧ InBlock bs b x).map LRec.iters).sum

/-- the rows of a time series: one for every block that has a record on some rank, with the largest number of iterations of a rank -/
structure Rows (n : Nat) (name : Str) (bs : Int) (R : Nat → List LRec) (rows : List (Int × Nat)) : Prop where
  once : (rows.map Prod.fst).Nodup
  rows : ∀ (b : Int) (v : Nat), (b, v) ∈ rows ↔
    bs ∣ b ∧ (∃ r < n, ∃ x ∈ R r, name ∈ x.loops ∧ InBlock bs b x) ∧ v = maxOver n fun r => inBlock name bs b (R r)

/-- the size of the blocks: single iterations if there are not more records than rows allowed (20 by default) or all rows are wanted,
otherwise the iterations divided by the number of rows -/
def BlockSize (maxrows : Option Int) (count iterations : Nat) : Int :=
  match maxrows with
  | none => if 20 < count then max 1 (iterations / 20 : Int) else 1
  | some m => if 0 < m ∧ m < count then max 1 (iterations / m) else 1

/-- the name of a loop -/
def innermost (k : List Str) : Str := k.getLast?.getD []

/-- a section of the report is that of a loop: its name, and the rows of its time series in blocks of the size for the largest number of records
and iterations of a rank -/
structure SectionOf (maxrows : Option Int) (n : Nat) (R : Nat → List LRec) (k : List Str) (s : Section) : Prop where
  name : s.name = innermost k
  rows : Rows n (innermost k) (BlockSize maxrows (maxOver n fun r => number (R r) k) (maxOver n fun r => total (R r) k)) R s.rows

end Verif.Mpi.LR
