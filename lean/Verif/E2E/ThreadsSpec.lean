import Verif.E2E.Spec
/-!
# What the report of a profile of several threads should show
-/
namespace Verif.E2E
open Verif Verif.Cali Verif.Query Verif.Query.Pre Verif.Query.Pipe Verif.Prof

/-- what a flush of the aggregation service reports (`Aggregate.cpp:152-172`): the databases of the threads one after the other -/
def profileAll (raw : BitVec 64 → List Byte) (C : Serv.Cfg) (I : Ids) (conv : Verif.Val → Cali.Val) (ch : Nat) (O : Agg.DblOps) (E : Agg.Env) (info : Agg.Info)
    (sk : DEnt) (s : RT.State) (v : Serv.State) (h : List (Nat × RT.Op)) : List Nat → Option (List (List DEnt))
  | [] => some []
  | th :: ths => (profile raw C I conv ch O E info sk th s v h).bind fun out => (profileAll raw C I conv ch O E info sk s v h ths).map fun outs => out ++ outs

/-- the region paths of the report: those one of the threads was in at one of its calls, and those around them.  `Ts` are the threads with their open regions at the beginning -/
def ShownBy (Ts : List (Nat × MTree.PathL)) (h : List (Nat × RT.Op)) (P : MTree.PathL) : Prop :=
  ∃ x ∈ Ts, P ∈ visits x.1 x.2 h ∨ P ≠ [] ∧ ∃ V ∈ visits x.1 x.2 h, P <+: V

/-- the row of the report for the regions `P`: the times of all threads added up -/
def rowAll (conv : Verif.Val → Cali.Val) (nm : Nat → Str) (Ts : List (Nat × MTree.PathL)) (h : List (Nat × RT.Op)) (P : MTree.PathL) : List (Option Str × Cali.Val) :=
  P.reverse.map (fun x => (some (nm x.1), conv x.2)) ++
  (if ∃ x ∈ Ts, P ∈ visits x.1 x.2 h then [(some (str "sum#sum#time.duration.ns"), Cali.Val.uint (BitVec.ofNat 64 (Ts.map fun x => spent x.1 P x.2 0 h).sum))] else []) ++
  [(some (str "inclusive#sum#time.duration.ns"),
    Cali.Val.uint (BitVec.ofNat 64 (if P = [] then (Ts.map fun x => spent x.1 [] x.2 0 h).sum else (Ts.map fun x => within x.1 P x.2 0 h).sum)))]

end Verif.E2E
