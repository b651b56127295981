import Verif.Serv.Timeseries
/-!
# What a time series should contain

Functions of the history of operations only.
-/
namespace Verif.Timeseries
open Verif Verif.Cali Verif.Agg

/-- a snapshot of the timeseries channel -/
def Op.isSnap : Op → Bool
  | .snap _ _ _ => true
  | _ => false

/-- the operations after the last snapshot of the timeseries channel -/
def interval (hist : List Op) : List Op := (hist.reverse.takeWhile fun o => !o.isSnap).reverse

/-- the records of a thread in a list of operations -/
def recsOf (th : Nat) : List Op → List (List DEnt)
  | [] => []
  | .record t r _ :: os => if t = th then r :: recsOf th os else recsOf th os
  | _ :: os => recsOf th os

/-- the records of a thread since the last snapshot -/
def since (th : Nat) (hist : List Op) : List (List DEnt) := recsOf th (interval hist)

/-- number of snapshots -/
def nSnaps : List Op → Nat
  | [] => 0
  | .snap _ _ _ :: os => nSnaps os + 1
  | _ :: os => nSnaps os

/-- the time of the last snapshot *of a thread*, `d` if it made none -/
def lastSnapOf (th : Nat) (d : Option U64) : List Op → Option U64
  | [] => d
  | .snap t now _ :: os => lastSnapOf th (if t = th then some now else d) os
  | _ :: os => lastSnapOf th d os

/-- the time of the last snapshot *of any thread*, `d` if there was none: the beginning of the interval the rows cover -/
def lastSnap (d : U64) : List Op → U64
  | [] => d
  | .snap _ now _ :: os => lastSnap now os
  | _ :: os => lastSnap d os

/-- the threads that appear, the newest first; `ts`: those known before -/
def newest (ts : List Nat) : List Op → List Nat
  | [] => ts
  | .create t :: os => newest (if t ∈ ts then ts else t :: ts) os
  | .record t _ _ :: os => newest (if t ∈ ts then ts else t :: ts) os
  | _ :: os => newest ts os

/-- the thread of an operation of the profile channel -/
def Op.profThread : Op → Option Nat
  | .create t => some t
  | .record t _ _ => some t
  | _ => none

/-- threads that have ended do not record any more, and no record is made in a signal handler -/
def WF : List Op → Prop
  | [] => True
  | .exit t :: os => (∀ o ∈ os, o.profThread ≠ some t) ∧ WF os
  | .record _ _ sig :: os => sig = false ∧ WF os
  | _ :: os => WF os

/-- the histories before each of the snapshots, `pre` coming before -/
def snapPoints (pre : List Op) : List Op → List (List Op)
  | [] => []
  | .snap th now trig :: os => pre :: snapPoints (pre ++ [.snap th now trig]) os
  | o :: os => snapPoints (pre ++ [o]) os

/-- a start time as the value of an entry -/
def timeVal : Option U64 → Val
  | some t => .double t
  | none => .inv

/-- a row of the snapshot number `n` with start time `start`: the record of the profile, the trigger information, the time and
the number -/
def row (P : Setup) (start : Option U64) (n : Nat) (trig rec : List DEnt) : List DEnt :=
  rec ++ (trig ++ [⟨some P.startA, timeVal start⟩, ⟨some P.snapA, .uint (BitVec.ofNat 64 (n % 2 ^ 32))⟩])

/-- the rows: for each thread, newest first, and each key among its records since the last snapshot, in order of first
occurrence (`reps`), the report over those records -/
def rowsOf (P : Setup) (th0 : Nat) (hist : List Op) (reps : Nat → List (List DEnt)) : List (List DEnt) :=
  (newest [th0] hist).flatMap fun t => (reps t).mapIdx fun i r => P.E.report (kernStats P.O) P.info (since t hist) r i

end Verif.Timeseries
