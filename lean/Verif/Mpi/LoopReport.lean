import Verif.Cali.Text
/-!
# Model of the loop report over MPI

Models the collective part of `/repo/src/caliper/controllers/LoopReportController.cpp` (the same code is in `SpotController.cpp:281-372`) with
`/repo/src/caliper/OutputCommMpi.cpp`: the summary of the loops on each rank, its reduction, the loop over the loops found on each rank with
its broadcasts, and the time series with its blocks.

Simplifications: a trace record is what the report uses of it; numbers of iterations and records are natural numbers (the code has `int`, so
totals below 2^31), times are not modelled; the aggregations of the built-in queries are written out (aggregation in general is the subject of
C30 and C80, the reduction of C48 and C106: a rank's aggregator has the records of its part of the tree in the order they are merged); names
of loops are texts that the query language can quote. The order of the rows is not modelled (`order by Block`, C63).
-/
namespace Verif.Mpi.LR
open Verif Verif.Cali

abbrev Str := List Byte

/-- a record of the loop monitor (C59): the loops it is in, outermost first, the first iteration (`loop.start_iteration`) and the number of
iterations (`loop.iterations`) -/
structure LRec where
  loops : List Str
  start : Int
  iters : Nat
deriving DecidableEq, Repr

/-- an aggregation row: insert with key, combining with the row that has the key already; rows are in the order of their first record
(`Aggregator.cpp`, C30) -/
def ins {κ β : Type} [DecidableEq κ] (f : β → β → β) : List (κ × β) → κ × β → List (κ × β)
  | [], x => [x]
  | y :: l, x => if y.1 = x.1 then (y.1, f y.2 x.2) :: l else y :: ins f l x

/-- `count` and `sum(loop.iterations)` of a loop, or their maxima over ranks -/
structure Tot where
  iterations : Nat
  count : Nat
deriving DecidableEq, Repr

/-- sums within a rank -/
def Tot.add (a b : Tot) : Tot := ⟨a.iterations + b.iterations, a.count + b.count⟩
/-- maxima over ranks -/
def Tot.max (a b : Tot) : Tot := ⟨Nat.max a.iterations b.iterations, Nat.max a.count b.count⟩

/-- the summary of a rank: `count(), sum(loop.iterations) group by loop where loop` (`summary_local_aggregation`,
LoopReportController.cpp:84-100) -/
def localSummary (recs : List LRec) : List (List Str × Tot) :=
  ((recs.filter fun r => r.loops ≠ []).map fun r => (r.loops, Tot.mk r.iters 1)).foldl (ins Tot.add) []

/-- the ranks whose data rank `r` has after `k` steps of the reduction, in the order of merging (`aggregate_over_mpi.cpp:163-177`): in step `k`
it receives from `r + 2^k` -/
def share (n r : Nat) : Nat → List Nat
  | 0 => [r]
  | k + 1 => share n r k ++ if r % 2 ^ (k + 1) = 0 ∧ r + 2 ^ k < n then share n (r + 2 ^ k) k else []

/-- the summary of rank `r` after the reduction: `max(sum#loop.iterations), max(count) group by loop` (`summary_query`,
LoopReportController.cpp:102-117, 210-215) -/
def crossSummary (n : Nat) (R : Nat → List LRec) (r : Nat) : List (List Str × Tot) :=
  ((share n r n).flatMap fun q => localSummary (R q)).foldl (ins Tot.max) []

/-- `LoopInfo` (LoopReportController.cpp:31-35) -/
structure Info where
  name : Str
  iterations : Nat
  count : Nat
deriving DecidableEq, Repr

/-- `get_loop_info` (LoopReportController.cpp:37-59): the name is the innermost loop of the row -/
def getInfo (x : List Str × Tot) : Info := ⟨x.1.getLast?.getD [], x.2.iterations, x.2.count⟩

/-- the loops for which rank `r` calls `process_timeseries` (LoopReportController.cpp:243-252) -/
def infos (n : Nat) (R : Nat → List LRec) (r : Nat) : List Info :=
  ((crossSummary n R r).map getInfo).filter fun i => 0 < i.iterations

/-- `blocksize` (LoopReportController.cpp:165-174); `maxrows` is the value of the option if it is set -/
def blocksize (maxrows : Option Int) (recCount iterations : Int) : Int :=
  let nb := maxrows.getD 20
  let nb := if nb ≤ 0 then recCount else nb
  max (if recCount > nb then Int.tdiv iterations nb else 1) 1

/-- `truncate(loop.start_iteration, blocksize)` (LoopReportController.cpp:134, `Preprocessor.cpp:178-184`): `val - fmod(val, factor)`; the
sign of `fmod` is that of `val` -/
def block (bs start : Int) : Int := start - Int.tmod start bs

/-- `timeseries_local_aggregation` (LoopReportController.cpp:119-139): `sum(loop.iterations) group by Block where loop="name"`; a record is in
every loop of its path (C31) -/
def localRows (name : Str) (bs : Int) (recs : List LRec) : List (Int × Nat) :=
  ((recs.filter fun r => name ∈ r.loops).map fun r => (block bs r.start, r.iters)).foldl (ins (· + ·)) []

/-- `max(sum#loop.iterations) group by Block` over all ranks on rank 0 (`timeseries_spec`, LoopReportController.cpp:141-156, 176-180) -/
def crossRows (n : Nat) (name : Str) (bs : Int) (R : Nat → List LRec) : List (Int × Nat) :=
  ((share n 0 n).flatMap fun q => localRows name bs (R q)).foldl (ins Nat.max) []

/-- a printed section: loop and rows (block, iterations) -/
structure Section where
  name : Str
  rows : List (Int × Nat)
deriving DecidableEq, Repr

/-- how the report ends: all ranks return; ranks wait for others for ever; memory is overwritten -/
inductive End where
  | done | hangs | overflow
deriving DecidableEq, Repr

/-- `bcast_str` on a rank (OutputCommMpi.cpp:74-89): the own string is copied into a buffer of the broadcast length -/
def copyOverflows (own root : Str) : Bool := decide (root.length < own.length)

/-- The loops over the loops found, on rank 0 (`root`) and on the others (LoopReportController.cpp:243-252, `process_timeseries`, 158-193).
A round needs all ranks: a rank that gets no broadcast from rank 0 waits in `MPI_Bcast`, and rank 0 waits in `cross_aggregate` for a rank that
does not call it (C106). Simplification: the overflow in `bcast_str`, which comes first in a round, ends the run. -/
def rounds (maxrows : Option Int) (n : Nat) (R : Nat → List LRec) : List Info → (Nat → List Info) → List Section × End
  | [], os => ([], if (List.range n).all fun r => (r == 0) || (os r).isEmpty then .done else .hangs)
  | i :: is, os =>
    if (List.range n).any fun r => (r != 0) && ((os r).head?.any fun o => copyOverflows o.name i.name) then ([], .overflow)
    else if (List.range n).any fun r => (r != 0) && (os r).isEmpty then ([], .hangs)
    else
      let bs := blocksize maxrows i.count i.iterations
      let q := rounds maxrows n R is fun r => (os r).tail
      (⟨i.name, crossRows n i.name bs R⟩ :: q.1, q.2)

/-- `collective_flush` with time series on `n` ranks with the records `R` (LoopReportController.cpp:205-256) -/
def report (maxrows : Option Int) (n : Nat) (R : Nat → List LRec) : List Section × End :=
  rounds maxrows n R (infos n R 0) (infos n R)

end Verif.Mpi.LR
