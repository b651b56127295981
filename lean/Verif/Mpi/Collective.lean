import Verif.Mpi.Model
import Verif.Query.Agg
/-!
# `collective_flush`: the cross-process report of MPI programs

Model of `cali::collective_flush` (`/repo/src/caliper/collective_flush.cpp:26-104`) with `aggregate_over_mpi`
(`/repo/src/caliper/aggregate_over_mpi.cpp:162-178`): every rank runs the local query over its records and the cross query over the
result; the aggregators are then merged along a binary tree, where a message carries the records the sender's aggregator
*reports*, and rank 0 prints.

The communication structure is that of `Verif.Mpi.tick` (C48), where a rank's data was just a list.

Simplifications: attribute and node ids are the same on all ranks (translating them is the subject of C27 and C102), the four MPI
messages of `pack_and_send` (lines 46-79) are one message, packing and unpacking a record gives the same record (C20, C21), the
preprocessor (`LET`) and record selector (`WHERE`) of a query are one function on records (C31, C67, C70), and the formatter gets the
reported records.
-/
namespace Verif.Mpi
open Verif.Query

/-- a rank's side of the reduction: the program counter and the cross-process aggregator of each rank, and the messages in transit -/
structure ASt where
  pc : Nat → PC
  agg : Nat → QAgg
  chan : Nat → Nat → List (List (List QEnt))

/-- `pack_and_send` (`aggregate_over_mpi.cpp:46-79`): the records the aggregator reports -/
def packed (O : FOps) (C : QCfg) (a : QAgg) : List (List QEnt) := a.flush O C

/-- `receive_and_merge` (`aggregate_over_mpi.cpp:81-158`): the received records are added to the aggregator one after the other -/
def merged (O : FOps) (C : QCfg) (a : QAgg) (m : List (List QEnt)) : QAgg := a.run O C m

/-- change the messages from `a` to `b` -/
def setChan (c : Nat → Nat → List (List (List QEnt))) (a b : Nat) (m : List (List (List QEnt))) : Nat → Nat → List (List (List QEnt)) :=
  fun x y => if x = a ∧ y = b then m else c x y

/-- the next state if rank `r` continues in `aggregate_over_mpi` (`aggregate_over_mpi.cpp:170-177`); `none` if it is blocked or has
returned; `buffered`: the MPI library lets a posted send return early -/
def atick (O : FOps) (C : QCfg) (n r : Nat) (buffered : Bool) (σ : ASt) : Option ASt :=
  match σ.pc r with
  | .loop s =>
    if s < n then
      if r % (2 * s) = 0 ∧ r + s < n then some { σ with pc := BB.upd σ.pc r (.recv s) }
      else some { σ with pc := BB.upd σ.pc r (.send s) }
    else some { σ with pc := BB.upd σ.pc r .done }
  | .recv s =>
    match σ.chan (r + s) r with
    | [] => none
    | m :: ms => some { pc := BB.upd σ.pc r (.send s), agg := BB.upd σ.agg r (merged O C (σ.agg r) m), chan := setChan σ.chan (r + s) r ms }
  | .send s =>
    if r % s = 0 ∧ r % (2 * s) ≠ 0 then
      some { σ with pc := BB.upd σ.pc r (.blocked s), chan := setChan σ.chan r (r - s) (σ.chan r (r - s) ++ [packed O C (σ.agg r)]) }
    else some { σ with pc := BB.upd σ.pc r (.loop (s * 2)) }
  | .blocked s =>
    if σ.chan r (r - s) = [] ∨ buffered = true then some { σ with pc := BB.upd σ.pc r (.loop (s * 2)) } else none
  | .done => none

/-- a query: the preprocessor and record selector (`none`: the record does not pass) and the aggregator's configuration -/
structure CQuery where
  pre : List QEnt → Option (List QEnt)
  cfg : QCfg

/-- flushing records into a query's aggregator (`collective_flush.cpp:51-64`, `67-74`) -/
def feed (O : FOps) (q : CQuery) (recs : List (List QEnt)) : QAgg :=
  recs.foldl (fun a r => match q.pre r with
    | some r' => a.process O q.cfg r'
    | none => a) QAgg.init

/-- a rank's cross-process aggregator before the reduction (`collective_flush.cpp:38-74`) -/
def ownPart (O : FOps) (lq cq : CQuery) (recs : List (List QEnt)) : QAgg := feed O cq ((feed O lq recs).flush O lq.cfg)

/-- All ranks in `present` enter `aggregate_over_mpi` (`collective_flush.cpp:79-86`); the others do not call `collective_flush` (or
return early because their channel was never started, `CollectiveOutputChannel.cpp:79-80`). -/
def ainit (O : FOps) (lq cq : CQuery) (present : Nat → Bool) (R : Nat → List (List QEnt)) : ASt :=
  ⟨fun r => if present r then .loop 1 else .done, fun r => ownPart O lq cq (R r), fun _ _ => []⟩

/-- `k` steps of any of the ranks `0 … n-1`, in any order -/
inductive AExec (O : FOps) (lq cq : CQuery) (n : Nat) (present : Nat → Bool) (R : Nat → List (List QEnt)) : Nat → ASt → Prop where
  | init : AExec O lq cq n present R 0 (ainit O lq cq present R)
  | step {k : Nat} {σ σ' : ASt} (h : AExec O lq cq n present R k σ) (r : Nat) (hr : r < n) (b : Bool) (ht : atick O cq.cfg n r b σ = some σ') :
      AExec O lq cq n present R (k + 1) σ'

/-- what rank `r` prints after the reduction (`collective_flush.cpp:88-103`) -/
def printed (O : FOps) (cq : CQuery) (σ : ASt) (r : Nat) : Option (List (List QEnt)) :=
  if r = 0 then some ((σ.agg r).flush O cq.cfg) else none

end Verif.Mpi
