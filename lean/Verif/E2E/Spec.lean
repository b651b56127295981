import Verif.E2E.Model
import Verif.Prof.Spec
import Verif.Cali.RoundTrip
/-!
# What the report of a profile should show
-/
namespace Verif.E2E
open Verif Verif.Cali Verif.Query Verif.Query.Pre Verif.Query.Pipe Verif.Prof

/-- the time thread `th` spends while the regions `P` are open, outermost first, possibly with more regions inside; as `Prof.spent` -/
def within (th : Nat) (P : MTree.PathL) : MTree.PathL → Nat → List (Nat × RT.Op) → Nat
  | _, _, [] => 0
  | st, prev, (t, op) :: h =>
    if op.thread = th then (if P <+: st then t - prev else 0) + within th P (after st op) t h else within th P st prev h

/-- name of an attribute -/
def nameIn (D : PDB) (a : Nat) : Option Str := (D.byId a).map PAttr.name

/-- a row of the output, with attribute names: the values of a reference from the innermost region outwards -/
def named (D : PDB) (row : List QEnt) : List (Option Str × Cali.Val) :=
  row.flatMap fun e => match e with
    | .ref p => p.map fun x => (nameIn D x.1, x.2)
    | .imm a v => [(nameIn D a, v)]

/-- the metadata `S` of a program with context tree `t` that was profiled over the history `h`: `nm` are the names of the attributes -/
structure Metadata (F : DblFmt) (S : Src) (conv : Verif.Val → Cali.Val) (nm : Nat → Str) (t : MTree.Tree) (I : Ids) (info : Agg.Info) (rd : Agg.ResAttr)
    (th : Nat) (st : MTree.PathL) (h : List (Nat × RT.Op)) : Prop where
  /-- well-formed metadata with values the format supports (as in C25) -/
  sound : S.Sound F
  /-- the nodes of the tree -/
  tree : ∀ p r, t.get? p = some r → S.node r.id = some ⟨r.attr, conv r.val, if r.parent = .root then none else some (t.idOf r.parent)⟩
  /-- no two attributes have the same name (C01) -/
  uniq : ∀ i j n m, S.node i = some n → S.node j = some m → n.attr = 8 → m.attr = 8 → n.data = m.data → i = j
  /-- only the time and the region count are aggregated -/
  aggr : ∀ a ∈ info.aggr, a = I.dur ∨ a = I.count
  /-- the result attributes of the aggregation service are unsigned -/
  result : ∀ i ∈ resIds (info.aggr.zip info.res) ++ [info.countA, info.slotA],
    (∃ q, S.node i = some ⟨8, .string (nm i), q⟩) ∧ ∃ A, Denotes S.node i A ∧ A.attrType = .uint
  /-- the name of the sum of the times, and no attribute has the name of a result of the query -/
  sum : nm rd.sum = T
  other : ∀ i n q, S.node i = some ⟨8, .string n, q⟩ → n ≠ str "sum#" ++ T ∧ n ≠ str "inclusive#" ++ T
  /-- the region attributes are nested -/
  region : ∀ V ∈ visits th st h, ∀ x ∈ V,
    (∃ q, S.node x.1 = some ⟨8, .string (nm x.1), q⟩) ∧ ∃ A, Denotes S.node x.1 A ∧ A.attrProp &&& 256#32 ≠ 0#32
  /-- different region values stay different -/
  inj : ∀ V ∈ visits th st h, ∀ x ∈ V, ∀ V' ∈ visits th st h, ∀ y ∈ V', conv x.2 = conv y.2 → x.2 = y.2

/-- the row of the report for the regions `P` -/
def row (conv : Verif.Val → Cali.Val) (nm : Nat → Str) (th : Nat) (st : MTree.PathL) (h : List (Nat × RT.Op)) (P : MTree.PathL) : List (Option Str × Cali.Val) :=
  P.reverse.map (fun x => (some (nm x.1), conv x.2)) ++
  (if P ∈ visits th st h then [(some (str "sum#sum#time.duration.ns"), Cali.Val.uint (BitVec.ofNat 64 (spent th P st 0 h)))] else []) ++
  [(some (str "inclusive#sum#time.duration.ns"), Cali.Val.uint (BitVec.ofNat 64 (if P = [] then spent th [] st 0 h else within th P st 0 h)))]

end Verif.E2E
