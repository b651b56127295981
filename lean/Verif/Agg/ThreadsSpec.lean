import Verif.Agg.Threads
import Mathlib.Data.List.Perm.Basic
/-!
# Specification of the aggregation service with several threads
-/
namespace Verif.AggThreads
variable {R : Type}

/-- inside `flush_cb` or `clear_cb` -/
def PC.maint : PC R → Bool
  | .fStop _ | .fWork _ | .fStart _ | .fNext _ | .cStop _ | .cWork _ | .cStart _ | .cRet _ | .cUnlink .. | .cDel .. => true
  | _ => false

/-- no flush or clear starts while another one is running -/
def Solo (s : State R) : List (Nat × Act R) → Prop
  | [] => True
  | (th, a) :: l =>
    ((match a with | .flush | .clear => True | _ => False) → ∀ th', (s.pc th').maint = false) ∧ Solo (s.step th a) l

/-- no thread is inside a call -/
def Quiet (s : State R) : Prop := ∀ th, s.pc th = .idle

/-- the calls are snapshots outside signal handlers, thread creation and thread exit -/
def Plain (l : List (Nat × Act R)) : Prop :=
  ∀ x ∈ l, match x.2 with
    | .snapshot _ sig _ => sig = false
    | .flush | .clear => False
    | _ => True

/-- two threads work on the same database at the same time -/
def Race (s : State R) : Prop := ∃ th th' d r, s.pc th = .proc d r ∧ (s.pc th' = .fWork d ∨ s.pc th' = .cWork d)

/-- a call of thread `th` runs to its end while no other thread makes a step: `s'` is the state afterwards -/
def Runs (s : State R) (th : Nat) (a : Act R) (s' : State R) : Prop :=
  ∃ n, s' = s.run ((th, a) :: List.replicate n (th, .go)) ∧ s'.pc th = .idle

/-- reachable with schedules in which flush and clear do not overlap each other -/
def Reach (s : State R) : Prop := ∃ l, Solo (State.init R) l ∧ s = (State.init R).run l

end Verif.AggThreads
