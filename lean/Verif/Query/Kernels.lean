import Verif.Query.AggSpec
/-!
# The other kernels of the query aggregator

Model of the kernels `ratio`, `inclusive_ratio`, `scale`, `inclusive_scale`, `percent_total`, `inclusive_percent_total`, `any`, `scale_count`
and `variance` (`/repo/src/reader/Aggregator.cpp:186-244`, `297-356`, `533-849`) and of the aggregation loop with them.

Simplified: records, keys, paths and known attributes as in `Verif/Query/Agg.lean`; groups are found by their key (the hash table in front of
them is in `Verif/Query/Agg.lean`, and does not depend on the kernels).  Floating-point operations and the conversion of scale factors
(`std::stod`) are parameters.
-/
namespace Verif.Query
open Verif Verif.Cali Verif.Agg

/-- further floating-point operations, on bit patterns -/
structure XOps extends FOps where
  mul : U64 → U64 → U64
  fdiv : U64 → U64 → U64
  sub : U64 → U64 → U64
  ofNat : Nat → U64
  pos : U64 → Bool
  hundred : U64

/-- kernel configurations; the attributes are the targets, the attributes for intermediate results, and the result attribute -/
inductive XCfg where
  /-- `ScaledRatioKernel` (`Aggregator.cpp:533-606`) -/
  | ratio (t1 d1 t2 d2 res : Nat) (f : U64) (incl : Bool)
  /-- `ScaledSumKernel` (`Aggregator.cpp:297-356`) -/
  | scale (t d res : Nat) (f : U64) (incl : Bool)
  /-- `PercentTotalKernel` (`Aggregator.cpp:612-688`) -/
  | pct (t d res : Nat) (incl : Bool)
  /-- `AnyKernel` (`Aggregator.cpp:694-735`) -/
  | any (t d : Nat)
  /-- `ScaledCountKernel` (`Aggregator.cpp:186-240`) -/
  | scount (c res : Nat) (f : U64)
  /-- `VarianceKernel` (`Aggregator.cpp:737-849`) -/
  | variance (t res cnt sum sq : Nat)
  deriving DecidableEq

/-- state of a kernel: variants (`m_sum1`/`m_sum`/`m_val`, `m_sum2`/`m_isum`), `m_count`, doubles (`m_sum`, `m_sqsum`) -/
structure XSt where
  v1 : Val := .inv
  v2 : Val := .inv
  n : Nat := 0
  d1 : U64 := 0
  d2 : U64 := 0
  deriving DecidableEq

/-- one step of the loop of `VarianceKernel::aggregate` (`Aggregator.cpp:804-822`) -/
def varStep (O : XOps) (t cnt sum sq : Nat) (p : XSt × Nat) (e : QEnt) : XSt × Nat :=
  if e.attr = t then
    let v := O.ofVal e.value
    ({ p.1 with d1 := O.add p.1.d1 v, d2 := O.add p.1.d2 (O.mul v v), n := (p.1.n + 1) % 4294967296 }, p.2 + 1)
  else if e.attr = sum then ({ p.1 with d1 := O.add p.1.d1 (O.ofVal e.value) }, p.2 + 1)
  else if e.attr = sq then ({ p.1 with d2 := O.add p.1.d2 (O.ofVal e.value) }, p.2 + 1)
  else if e.attr = cnt then ({ p.1 with n := (p.1.n + (toU64 O.toFOps e.value).toNat) % 4294967296 }, p.2 + 1)
  else p

/-- `aggregate` of the kernels: new state and number of matches -/
def XCfg.agg (O : XOps) (known : Nat → Bool) (k : XCfg) (s : XSt) (rec : List QEnt) : XSt × Nat :=
  match k with
  | .ratio t1 d1 t2 d2 _ _ _ =>
    let a := matching known t1 d1 rec
    let b := matching known t2 d2 rec
    ({ s with v1 := a.foldl (addVal O.toFOps) s.v1, v2 := b.foldl (addVal O.toFOps) s.v2 }, a.length + b.length)
  | .scale t d _ _ _ =>
    let a := matching known t d rec
    ({ s with v1 := a.foldl (addVal O.toFOps) s.v1 }, a.length)
  | .pct t d _ _ =>
    let a := matching known t d rec
    ({ s with v1 := a.foldl (addVal O.toFOps) s.v1, v2 := a.foldl (addVal O.toFOps) s.v2 }, a.length)
  | .any t d =>
    if s.v1 = .inv then
      let a := matching known t d rec
      ({ s with v1 := a.foldl (fun _ v => v) s.v1 }, a.length)
    else (s, 1)
  | .scount c _ _ => ({ s with n := (s.n + (countOf O.toFOps c rec).toNat) % 18446744073709551616 }, 1)
  | .variance t _ cnt sum sq => if known t then rec.foldl (varStep O t cnt sum sq) (s, 0) else (s, 0)

/-- `parent_aggregate` of the kernels (`Aggregator.cpp:118`, `668-671`) -/
def XCfg.parentAgg (O : XOps) (known : Nat → Bool) (k : XCfg) (s : XSt) (rec : List QEnt) : XSt :=
  match k with
  | .pct t d _ _ => { s with v2 := (matching known t d rec).foldl (addVal O.toFOps) s.v2 }
  | k => (k.agg O known s rec).1

/-- what `aggregate` adds to the total in the kernel's configuration (`Aggregator.cpp:664`) -/
def XCfg.addTotal (O : XOps) (known : Nat → Bool) (k : XCfg) (tot : Val) (rec : List QEnt) : Val :=
  match k with
  | .pct t d _ _ => (matching known t d rec).foldl (addVal O.toFOps) tot
  | _ => tot

/-- `is_inclusive` -/
def XCfg.incl : XCfg → Bool
  | .ratio _ _ _ _ _ _ i => i
  | .scale _ _ _ _ i => i
  | .pct _ _ _ i => i
  | _ => false

/-- `append_result` of the kernels; `tot` is the total in the configuration -/
def XCfg.result (O : XOps) (k : XCfg) (tot : Val) (s : XSt) : List QEnt :=
  match k with
  | .ratio _ d1 _ d2 res f _ =>
    (if s.v1 = .inv then [] else [.imm d1 s.v1]) ++
    (if s.v2 = .inv then [] else
      .imm d2 s.v2 :: (if s.v1 = .inv then [] else [.imm res (.double (O.fdiv (O.mul f (O.ofVal s.v1)) (O.ofVal s.v2)))]))
  | .scale _ d res f _ => if s.v1 = .inv then [] else [.imm d s.v1, .imm res (.double (O.mul f (O.ofVal s.v1)))]
  | .pct _ d res _ =>
    if s.v2 ≠ .inv ∧ O.pos (O.ofVal tot) = true then
      [.imm d s.v1, .imm res (.double (O.fdiv (O.mul O.hundred (O.ofVal s.v2)) (O.ofVal tot)))]
    else []
  | .any _ d => if s.v1 = .inv then [] else [.imm d s.v1]
  | .scount c res f => if s.n = 0 then [] else [.imm c (.uint (BitVec.ofNat 64 s.n)), .imm res (.double (O.mul f (O.ofNat s.n)))]
  | .variance _ res cnt sum sq =>
    if s.n = 0 then []
    else
      let avg := O.fdiv s.d1 (O.ofNat s.n)
      [.imm res (.double (O.sub (O.fdiv s.d2 (O.ofNat s.n)) (O.mul avg avg))), .imm sum (.double s.d1), .imm sq (.double s.d2),
       .imm cnt (.uint (BitVec.ofNat 64 s.n))]

/-- `m_entries` with the kernels of each group, and the totals in the kernel configurations -/
structure XAgg where
  keys : List (List KEnt) := []
  st : List KEnt → Nat → XSt := fun _ _ => {}
  tot : Nat → Val := fun _ => .inv

/-- `get_aggregation_entry` (`Aggregator.cpp:1030-1053`) -/
def XAgg.touch (A : XAgg) (K : List KEnt) : XAgg := if K ∈ A.keys then A else { A with keys := A.keys ++ [K] }

/-- set the state of kernel `k` in group `K` -/
def XAgg.put (A : XAgg) (K : List KEnt) (k : Nat) (s : XSt) : XAgg :=
  { A with st := fun K' k' => if K' = K ∧ k' = k then s else A.st K' k' }

/-- one kernel on a record (`Aggregator.cpp:1132-1143`) -/
def XAgg.kernel (O : XOps) (C : QCfg) (rec : List QEnt) (A : XAgg) (ck : XCfg × Nat) : XAgg :=
  let r := ck.1.agg O C.known (A.st (C.keyOf rec) ck.2) rec
  let A := A.put (C.keyOf rec) ck.2 r.1
  let A := { A with tot := fun j => if j = ck.2 then ck.1.addTotal O C.known (A.tot j) rec else A.tot j }
  if ck.1.incl && decide (0 < r.2) && decide (C.pathOf rec ≠ []) then
    (ancestors (C.pathOf rec)).foldl (fun A p =>
      let K := C.preKey rec ++ [.node p]
      let A := A.touch K
      A.put K ck.2 (ck.1.parentAgg O C.known (A.st K ck.2) rec)) A
  else A

/-- `process` (`Aggregator.cpp:1066-1144`) -/
def XAgg.process (O : XOps) (C : QCfg) (ks : List XCfg) (A : XAgg) (rec : List QEnt) : XAgg :=
  ks.zipIdx.foldl (XAgg.kernel O C rec) (A.touch (C.keyOf rec))

/-- `flush` (`Aggregator.cpp:1150-1162`) -/
def XAgg.flush (O : XOps) (ks : List XCfg) (A : XAgg) : List (List QEnt) :=
  A.keys.map fun K => K.map KEnt.toQ ++ ks.zipIdx.flatMap fun ck => ck.1.result O (A.tot ck.2) (A.st K ck.2)

/-- processing records, then flushing -/
def xreport (O : XOps) (C : QCfg) (ks : List XCfg) (recs : List (List QEnt)) : List (List QEnt) :=
  (recs.foldl (fun (A : XAgg) r => A.process O C ks r) {}).flush O ks

end Verif.Query
