import Verif.Prof.Model
import Verif.Serv.Spec
import Verif.Agg.Spec
import Verif.Runtime.GlobalsSpec
import Verif.Capi.SnapshotSpec
/-!
# What a region profile should show
-/
namespace Verif.Prof
open Verif RT MTree

/-- the open regions after a begin or end call -/
def after (st : PathL) : Op → PathL
  | .begin _ a v => st ++ [(a.id, v)]
  | .endR .. | .endCheck .. => st.dropLast
  | _ => st

/-- a timed history: begin and end calls of thread `th` for thread-scope region attributes, each end for the innermost region, the regions in
`st` being open before; other threads do anything except changing the process-wide annotations -/
def Proper (th : Nat) : PathL → List (Nat × Op) → Prop
  | _, [] => True
  | st, (_, op) :: h =>
    if op.thread = th then
      op.attr.kind = .region ∧ op.loc = some (.thread th) ∧ op.attr.skipEvents = false ∧
        (match op with
          | .begin .. => True
          | .endR _ a => ∃ st' v, st = st' ++ [(a.id, v)]
          | .endCheck _ a v => ∃ st', st = st' ++ [(a.id, v)]
          | _ => False) ∧
        Proper th (after st op) h
    else op.loc ≠ some .process ∧ Proper th st h

/-- the region path of thread `th` at each of its calls -/
def visits (th : Nat) : PathL → List (Nat × Op) → List PathL
  | _, [] => []
  | st, (_, op) :: h => if op.thread = th then st :: visits th (after st op) h else visits th st h

/-- the time thread `th` spends with exactly the regions `P` open, until its last call; `prev` is the time of its last call so far -/
def spent (th : Nat) (P : PathL) : PathL → Nat → List (Nat × Op) → Nat
  | _, _, [] => 0
  | st, prev, (t, op) :: h =>
    if op.thread = th then (if st = P then t - prev else 0) + spent th P (after st op) t h else spent th P st prev h

/-- how often thread `th` ends a region with exactly the regions `P` open -/
def ends (th : Nat) (P : PathL) : PathL → List (Nat × Op) → Nat
  | _, [] => 0
  | st, (_, op) :: h =>
    if op.thread = th then (if st = P ∧ op.isEnd = true then 1 else 0) + ends th P (after st op) h else ends th P st h

/-- the region values that calls of thread `th` begin or end -/
def regionsOf (th : Nat) : PathL → List (Nat × Op) → List (Nat × Verif.Val)
  | _, [] => []
  | st, (_, op) :: h =>
    if op.thread = th then
      (match op with
        | .begin _ a v => [(a.id, v)]
        | _ => (st.getLast?).toList) ++ regionsOf th (after st op) h
    else regionsOf th st h

/-- the path of an output record: that of the node of its only reference entry, or empty if it has none -/
def HasPath (E : Agg.Env) (t : Tree) (r : List Cali.DEnt) (P : PathL) : Prop :=
  (P = [] ∧ E.refNodes r = []) ∨ ∃ n, P ≠ [] ∧ E.refNodes r = [t.idOf n] ∧ Path t n P

/-- the nodes the aggregation service takes for attribute nodes are those of the tree -/
def EnvOf (E : Agg.Env) (t : Tree) : Prop :=
  ∀ p, Live t p → p ≠ .root → E.isAttr (t.idOf p) = decide (t.attrOf p = nameAttr)

/-- the time stamps do not decrease, from `t0` on, and fit in 64 bits -/
def Times : Nat → List (Nat × Op) → Prop
  | t0, [] => t0 < 2 ^ 64
  | t0, (t, _) :: h => t0 ≤ t ∧ Times t h

/-- the ids of the service attributes are those of attribute nodes, and differ -/
structure Ids.Ok (I : Ids) (E : Agg.Env) : Prop where
  offset : E.isAttr I.offset = true
  dur : E.isAttr I.dur = true
  count : E.isAttr I.count = true
  od : I.offset ≠ I.dur
  cd : I.count ≠ I.dur
  oc : I.offset ≠ I.count

/-- the ids of the result attributes -/
def resIds (zs : List (Nat × Agg.ResAttr)) : List Nat := zs.flatMap fun z => [z.2.min, z.2.max, z.2.sum, z.2.avg]

/-- the attributes of the aggregation service: no key attributes with immediate values (the default), and result attributes that differ -/
structure InfoOk (E : Agg.Env) (I : Ids) (info : Agg.Info) (rd rc : Agg.ResAttr) : Prop where
  key : info.immKey = []
  dur : (I.dur, rd) ∈ info.aggr.zip info.res
  count : (I.count, rc) ∈ info.aggr.zip info.res
  nodup : (resIds (info.aggr.zip info.res) ++ [info.countA, info.slotA]).Nodup
  attrs : ∀ i ∈ resIds (info.aggr.zip info.res) ++ [info.countA, info.slotA], E.isAttr i = true

/-- the situation when thread `th` is profiled by channel `ch` over the timed history `h` -/
structure Setup (raw : BitVec 64 → List Byte) (C : Serv.Cfg) (attrs : List Serv.AttrInfo) (E : Agg.Env) (I : Ids) (info : Agg.Info) (rd rc : Agg.ResAttr)
    (ch th : Nat) (s : State) (st : PathL) (h : List (Nat × Op)) : Prop where
  /-- a state reached by annotation calls; the channel is active -/
  reach : RtReachV s
  active : s.active.count ch = 1
  /-- thread `th` made no mismatched end call; its open regions are `st` -/
  noErr : s.err th = false
  regions : OpenRegions s (.thread th) st
  unaligned : OpenUnaligned s (.thread th) []
  /-- no process-wide regions -/
  pregions : OpenRegions s .process []
  punaligned : OpenUnaligned s .process []
  /-- at most 116 values are set, none of them for `time.duration.ns` or `region.count` -/
  values : ∃ Jt Jp, Capi.ValuesOf s (.thread th) Jt ∧ Capi.ValuesOf s .process Jp ∧ Jt.length + Jp.length ≤ 116 ∧
    ∀ k ∈ (Jt ++ Jp).map Prod.fst, k ≠ I.dur ∧ k ≠ I.count
  /-- the calls: existing, visible attributes; nothing is lost for lack of space; properly nested on thread `th` -/
  valid : ∀ x ∈ h, x.2.attr.Valid s.tree
  visible : ∀ x ∈ h, x.2.attr.hidden = false
  noLoss : NoLoss s (run s (h.map Prod.snd))
  proper : Proper th st h
  times : Times 0 h
  /-- the event service: the attributes and regions are selected; no branch filter, no snapshot info -/
  noBranch : Serv.hasFilters C.evt.branch = false
  noInfo : C.evt.info = false
  announced : ∀ x ∈ h, x.2.thread = th → Serv.Announced C.evt attrs [] x.2.attr.id
  passes : ∀ x ∈ regionsOf th st h, Serv.Passes raw C.evt x.1 x.2
  /-- the attribute ids -/
  env : EnvOf E (run s (h.map Prod.snd)).tree
  ids : I.Ok E
  info : InfoOk E I info rd rc

/-- what record `r` of the profile says about the region path `P` -/
structure Row (E : Agg.Env) (t : Tree) (info : Agg.Info) (rd rc : Agg.ResAttr) (th : Nat) (st : PathL) (h : List (Nat × Op)) (P : PathL)
    (r : List Cali.DEnt) : Prop where
  path : HasPath E t r P
  time : ∃ w : BitVec 64, Agg.valueIn rd.sum r = some (.uint w) ∧ w.toNat = spent th P st 0 h
  count : Agg.valueIn info.countA r = some (.uint (BitVec.ofNat 64 ((visits th st h).count P)))
  ends : ends th P st h ≠ 0 → Agg.valueIn rc.sum r = some (.uint (BitVec.ofNat 64 (ends th P st h)))

end Verif.Prof
