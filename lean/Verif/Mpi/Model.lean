import Verif.Blackboard.Model
/-!
# Aggregation over MPI ranks

Model of `aggregate_over_mpi` (`/repo/src/caliper/aggregate_over_mpi.cpp:155-178`) on `n` ranks with blocking point-to-point
communication.  Each rank's collected data is a list (the records in its aggregator, in the order they were merged).

Simplifications: `pack_and_send` (four messages with tags 1-4, lines 44-79) and `receive_and_merge` (lines 81-148) are one message
each; packing, unpacking and merging a rank's records is appending its list (the encodings are the subject of C20, C21 and
C25).  `steppow2` is an unbounded number (`C48_no_overflow` shows that it stays below 2^31 for up to 2^30 ranks).
`MPI_Send` posts the message and blocks; it returns when the message was received, or earlier if the MPI library buffers it.
-/
namespace Verif.Mpi

/-- program counter of a rank in the loop (lines 163-177); `s` is `steppow2` -/
inductive PC where
  /-- about to test `steppow2 < commsize` and the receive condition (163-165) -/
  | loop (s : Nat)
  /-- in `receive_and_merge(rank + steppow2)` (166) -/
  | recv (s : Nat)
  /-- about to test the send condition (169) -/
  | send (s : Nat)
  /-- in `pack_and_send(rank - steppow2)`, the message is posted (170) -/
  | blocked (s : Nat)
  /-- returned -/
  | done
  deriving DecidableEq, Repr

/-- global state: program counters, collected data, and the messages in transit from one rank to another, oldest first -/
structure St (α : Type) where
  pc : Nat → PC
  data : Nat → List α
  chan : Nat → Nat → List (List α)

variable {α : Type}

/-- change the messages from `a` to `b` -/
def updC (c : Nat → Nat → List (List α)) (a b : Nat) (m : List (List α)) : Nat → Nat → List (List α) :=
  fun x y => if x = a ∧ y = b then m else c x y

/-- The next state if rank `r` continues; `none` if it is blocked or has returned.  `buffered`: the MPI library lets a posted send
return early. -/
def tick (n r : Nat) (buffered : Bool) (σ : St α) : Option (St α) :=
  match σ.pc r with
  | .loop s =>
    if s < n then
      if r % (2 * s) = 0 ∧ r + s < n then some { σ with pc := BB.upd σ.pc r (.recv s) }
      else some { σ with pc := BB.upd σ.pc r (.send s) }
    else some { σ with pc := BB.upd σ.pc r .done }
  | .recv s =>
    match σ.chan (r + s) r with
    | [] => none
    | m :: ms => some { pc := BB.upd σ.pc r (.send s), data := BB.upd σ.data r (σ.data r ++ m), chan := updC σ.chan (r + s) r ms }
  | .send s =>
    if r % s = 0 ∧ r % (2 * s) ≠ 0 then
      some { σ with pc := BB.upd σ.pc r (.blocked s), chan := updC σ.chan r (r - s) (σ.chan r (r - s) ++ [σ.data r]) }
    else some { σ with pc := BB.upd σ.pc r (.loop (s * 2)) }
  | .blocked s =>
    if σ.chan r (r - s) = [] ∨ buffered = true then some { σ with pc := BB.upd σ.pc r (.loop (s * 2)) } else none
  | .done => none

/-- all ranks enter the function with their data `D` (`int steppow2 = 1`, line 163) -/
def init (D : Nat → List α) : St α := ⟨fun _ => .loop 1, D, fun _ _ => []⟩

/-- `k` steps of any of the ranks `0 … n-1`, in any order -/
inductive Exec (n : Nat) (D : Nat → List α) : Nat → St α → Prop where
  | init : Exec n D 0 (init D)
  | step {k : Nat} {σ σ' : St α} (h : Exec n D k σ) (r : Nat) (hr : r < n) (b : Bool) (ht : tick n r b σ = some σ') : Exec n D (k + 1) σ'

end Verif.Mpi
