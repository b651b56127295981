import Verif.Agg.Model
import Mathlib.Data.List.Sort
/-!
# The query aggregator

Model of `/repo/src/reader/Aggregator.cpp` (count, sum, inclusive sum, min, max, inclusive min and max, avg) and of
`Variant::operator+=`, `min`, `max`, `div` (`/repo/src/common/Variant.cpp:184-317`).

Simplifications: a context tree node is represented by the list of its (attribute, value) pairs - the metadata database makes
one node per such path (C27) - so node identity is equality of paths.  The hash function is a parameter.  Whether the metadata
database knows an attribute (`db.get_attribute(name)`) is a parameter.  Selection of key attributes is a predicate on attribute
ids (`is_key`, `Aggregator.cpp:1018-1028`).  Floating-point operations are parameters.  Kernels `ratio`, `scale`,
`percent_total`, `any`, `scale_count` and `variance` are not modelled.
-/
namespace Verif.Query
open Verif Verif.Cali Verif.Agg

/-- floating-point operations and conversions, on bit patterns -/
structure FOps where
  add : U64 → U64 → U64
  min : U64 → U64 → U64
  max : U64 → U64 → U64
  div : U64 → Nat → U64
  ofVal : Val → U64
  toInt : U64 → U64
  toUint : U64 → U64

/-- `cali_variant_to_int64` (`cali_variant.c:222-264`) -/
def toI64 (O : FOps) : Val → U64
  | .int i => i
  | .uint u | .addr u => if u.toNat ≤ 9223372036854775807 then u else 0
  | .double d => O.toInt d
  | .bool b => if b then 1 else 0
  | .type t => BitVec.ofNat 64 t.code
  | _ => 0

/-- `cali_variant_to_uint` (`cali_variant.c:275-318`) -/
def toU64 (O : FOps) : Val → U64
  | .int i => if 0 ≤ i.toInt then i else 0
  | .uint u | .addr u => u
  | .double d => O.toUint d
  | .bool b => if b then 1 else 0
  | .type t => BitVec.ofNat 64 t.code
  | _ => 0

/-- the common shape of `operator+=`, `min` and `max` (`Variant.cpp:184-221`, `223-259`, `261-297`): same type, different type,
empty target -/
def combine (O : FOps) (fd fi fu : U64 → U64 → U64) : Val → Val → Val
  | .double a, .double b => .double (fd a b)
  | .int a, .int b => .int (fi a b)
  | .uint a, .uint b => .uint (fu a b)
  | .inv, v => v
  | .double a, v => .double (fd a (O.ofVal v))
  | .int a, v => .int (fi a (toI64 O v))
  | .uint a, v => .uint (fu a (toU64 O v))
  | v, _ => v

/-- signed minimum and maximum, unsigned minimum and maximum -/
def smin (a b : U64) : U64 := if b.toInt < a.toInt then b else a
/-- `std::max` on `int64_t` -/
def smax (a b : U64) : U64 := if a.toInt < b.toInt then b else a
/-- `std::min` on `uint64_t` -/
def umin (a b : U64) : U64 := if b.toNat < a.toNat then b else a
/-- `std::max` on `uint64_t` -/
def umax (a b : U64) : U64 := if a.toNat < b.toNat then b else a

/-- `Variant::operator+=` (`Variant.cpp:184-221`) -/
def addVal (O : FOps) : Val → Val → Val := combine O O.add (· + ·) (· + ·)
/-- `Variant::min` (`Variant.cpp:223-259`) -/
def minVal (O : FOps) : Val → Val → Val := combine O O.min smin umin
/-- `Variant::max` (`Variant.cpp:261-297`) -/
def maxVal (O : FOps) : Val → Val → Val := combine O O.max smax umax

/-- `Variant::div(unsigned)` (`Variant.cpp:299-315`); division by zero is undefined behaviour in C++, zero here -/
def divU (O : FOps) (v : Val) (n : Nat) : Val :=
  match v with
  | .double d => .double (O.div d n)
  | .int i => .int (BitVec.ofInt 64 (i.toInt.tdiv (n : Int)))
  | .uint u => .uint (BitVec.ofNat 64 (u.toNat / n))
  | _ => .inv

/-- an entry of a record: a reference to a node, given by the (attribute, value) pairs from the node up to the root, or an
immediate entry -/
inductive QEnt where
  | ref (path : List (Nat × Val))
  | imm (a : Nat) (v : Val)
  deriving DecidableEq, Repr

/-- `Entry::attribute()` (`Entry.h:58-65`) -/
def QEnt.attr : QEnt → Nat
  | .ref [] => invN
  | .ref ((a, _) :: _) => a
  | .imm a _ => a

/-- `Entry::value()` (`Entry.h:72-74`) -/
def QEnt.value : QEnt → Val
  | .ref [] => .inv
  | .ref ((_, v) :: _) => v
  | .imm _ v => v

/-- an entry of a key: an immediate entry, or a node given by its path from the root -/
inductive KEnt where
  | imm (a : Nat) (v : Val)
  | node (path : List (Nat × Val))
  deriving DecidableEq, Repr

/-- kernel configurations: `CountKernel` (count attribute), `SumKernel`/`MinKernel`/`MaxKernel` (target and derived attribute,
inclusive?), `AvgKernel` (target, sum, average and count attribute) (`Aggregator.cpp:138-548`) -/
inductive KCfg where
  | count (c : Nat)
  | sum (tgt drv : Nat) (incl : Bool)
  | min (tgt drv : Nat) (incl : Bool)
  | max (tgt drv : Nat) (incl : Bool)
  | avg (tgt sumA avgA cntA : Nat)
  deriving DecidableEq, Repr

/-- state of a kernel: `m_count` and `m_sum`/`m_min`/`m_max` -/
structure KSt where
  count : U64
  val : Val
  deriving DecidableEq, Repr

/-- a new kernel -/
def KSt.new : KSt := ⟨0, .inv⟩

/-- configuration and environment: `AggregatorImpl` members (`Aggregator.cpp:920-926`), attribute properties, hash -/
structure QCfg where
  selectAll : Bool
  selectNested : Bool
  isKey : Nat → Bool
  nested : Nat → Bool
  kernels : List KCfg
  known : Nat → Bool
  hash : List KEnt → Nat

/-- `apply_to_matching_entries` (`Aggregator.cpp:93-108`): the values passed to `F`, in order.  Only immediate entries can match:
the node of a reference is not an attribute node. -/
def matching (known : Nat → Bool) (tgt drv : Nat) (rec : List QEnt) : List Val :=
  if known tgt then
    rec.filterMap fun e => match e with
      | .imm a v => if a = tgt ∨ a = drv then some v else none
      | .ref _ => none
  else []

/-- `CountKernel::aggregate` (`Aggregator.cpp:160-173`): the amount added -/
def countOf (O : FOps) (c : Nat) : List QEnt → U64
  | [] => 1
  | e :: es => if e.attr = c then toU64 O e.value else countOf O c es

/-- one step of the loop of `AvgKernel::aggregate` (`Aggregator.cpp:499-511`); the number is the count of matches -/
def avgStep (O : FOps) (tgt sumA cntA : Nat) (p : KSt × Nat) (e : QEnt) : KSt × Nat :=
  if e.attr = tgt then (⟨p.1.count + 1, addVal O p.1.val e.value⟩, p.2 + 1)
  else if e.attr = sumA then (⟨p.1.count, addVal O p.1.val e.value⟩, p.2 + 1)
  else if e.attr = cntA then (⟨p.1.count + toU64 O e.value, p.1.val⟩, p.2 + 1)
  else p

/-- `aggregate` of the kernels: new state and number of matches (`Aggregator.cpp:160`, `276`, `391`, `446`, `490`) -/
def KCfg.aggregate (O : FOps) (known : Nat → Bool) (k : KCfg) (s : KSt) (rec : List QEnt) : KSt × Nat :=
  match k with
  | .count c => (⟨s.count + countOf O c rec, s.val⟩, 1)
  | .sum t d _ => let vs := matching known t d rec; (⟨s.count, vs.foldl (addVal O) s.val⟩, vs.length)
  | .min t d _ => let vs := matching known t d rec; (⟨s.count, vs.foldl (minVal O) s.val⟩, vs.length)
  | .max t d _ => let vs := matching known t d rec; (⟨s.count, vs.foldl (maxVal O) s.val⟩, vs.length)
  | .avg t sA _ cA => if known t then rec.foldl (avgStep O t sA cA) (s, 0) else (s, 0)

/-- `is_inclusive` -/
def KCfg.incl : KCfg → Bool
  | .sum _ _ i | .min _ _ i | .max _ _ i => i
  | _ => false

/-- `append_result` of the kernels (`Aggregator.cpp:175`, `281`, `396`, `451`, `517`) -/
def KCfg.result (O : FOps) (k : KCfg) (s : KSt) : List QEnt :=
  match k with
  | .count c => if s.count = 0 then [] else [.imm c (.uint s.count)]
  | .sum _ d _ | .min _ d _ | .max _ d _ => if s.val = .inv then [] else [.imm d s.val]
  | .avg _ sA aA cA =>
    if s.count = 0 then []
    else [.imm aA (divU O s.val (s.count.toNat % 4294967296)), .imm sA s.val, .imm cA (.uint s.count)]

/-- the nodes of the references of a record that are selected, nested (`true`) or not, in traversal order
(`Aggregator.cpp:1083-1097`) -/
def QCfg.selected (C : QCfg) (nst : Bool) (rec : List QEnt) : List (Nat × Val) :=
  rec.flatMap fun e => match e with
    | .ref p => p.filter fun x => decide (C.nested x.1 = nst) && (C.selectAll || (C.selectNested && C.nested x.1) || C.isKey x.1)
    | .imm _ _ => []

/-- the selected immediate entries (`Aggregator.cpp:1098-1101`) -/
def QCfg.immKey (C : QCfg) (rec : List QEnt) : List (Nat × Val) :=
  rec.filterMap fun e => match e with
    | .imm a v => if C.isKey a then some (a, v) else none
    | .ref _ => none

/-- the path of the record in the key (`Aggregator.cpp:1120-1126`) -/
def QCfg.pathOf (C : QCfg) (rec : List QEnt) : List (Nat × Val) := (C.selected true rec).reverse

/-- the key without the path entry (`Aggregator.cpp:1104-1116`); `std::sort` is taken to be stable -/
def QCfg.preKey (C : QCfg) (rec : List QEnt) : List KEnt :=
  ((C.immKey rec).insertionSort fun x y => x.1 ≤ y.1).map (fun x => .imm x.1 x.2) ++
  (if (C.selected false rec).reverse = [] then [] else [.node (C.selected false rec).reverse])

/-- a key with a path -/
def mkKey (pre : List KEnt) (path : List (Nat × Val)) : List KEnt := if path = [] then pre else pre ++ [.node path]

/-- the key of a record (`Aggregator.cpp:1104-1126`) -/
def QCfg.keyOf (C : QCfg) (rec : List QEnt) : List KEnt := mkKey (C.preKey rec) (C.pathOf rec)

/-- `AggregateEntry` (`Aggregator.cpp:928-932`) -/
structure QEntry where
  key : List KEnt
  kernels : List KSt
  next : Nat

/-- `m_entries` and `m_hashmap` (`Aggregator.cpp:934-936`); entry 0 is blocked out (`Aggregator.cpp:1171-1172`) -/
structure QAgg where
  entries : List QEntry
  hash : Nat → Nat

/-- constructor (`Aggregator.cpp:1165-1173`) -/
def QAgg.init : QAgg := ⟨[⟨[], [], 0⟩], fun _ => 0⟩

/-- number of hash slots -/
def qslots : Nat := 4096

/-- the loop over the hash chain (`Aggregator.cpp:1035-1038`) -/
def QAgg.find (s : QAgg) (key : List KEnt) : Nat → Nat → Option Nat
  | 0, _ => none
  | fuel + 1, i =>
    if i = 0 then none
    else match s.entries[i]? with
      | none => none
      | some e => if key = e.key then some i else s.find key fuel e.next

/-- `get_aggregation_entry` (`Aggregator.cpp:1030-1053`) -/
def QAgg.getEntry (C : QCfg) (s : QAgg) (key : List KEnt) : QAgg × Nat :=
  let h := C.hash key % qslots
  match s.find key (s.entries.length + 1) (s.hash h) with
  | some i => (s, i)
  | none => (⟨s.entries ++ [⟨key, List.replicate C.kernels.length KSt.new, s.hash h⟩], fun x => if x = h then s.entries.length else s.hash x⟩,
      s.entries.length)

/-- run kernel `k` of entry `i` on a record: new state and number of matches -/
def QAgg.runKernel (O : FOps) (C : QCfg) (s : QAgg) (i k : Nat) (rec : List QEnt) : QAgg × Nat :=
  match s.entries[i]?, C.kernels[k]? with
  | some e, some cfg =>
    let r := cfg.aggregate O C.known (e.kernels.getD k KSt.new) rec
    ({ s with entries := s.entries.set i { e with kernels := e.kernels.set k r.1 } }, r.2)
  | _, _ => (s, 0)

/-- the proper ancestors of a path, nearest first -/
def ancestors : List (Nat × Val) → List (List (Nat × Val))
  | p => ((List.range p.length).reverse.map fun n => p.take n).filter fun q => decide (q ≠ [])

/-- the loop over the parent nodes (`Aggregator.cpp:1137-1141`) -/
def QAgg.parents (O : FOps) (C : QCfg) (pre : List KEnt) (k : Nat) (rec : List QEnt) : List (List (Nat × Val)) → QAgg → QAgg
  | [], s => s
  | p :: ps, s =>
    let (s, i) := s.getEntry C (pre ++ [.node p])
    QAgg.parents O C pre k rec ps (s.runKernel O C i k rec).1

/-- the loop over the kernels (`Aggregator.cpp:1132-1143`) -/
def QAgg.kernelLoop (O : FOps) (C : QCfg) (i : Nat) (rec : List QEnt) : List Nat → QAgg → QAgg
  | [], s => s
  | k :: ks, s =>
    let (s, n) := s.runKernel O C i k rec
    let s := if (C.kernels[k]?.map KCfg.incl).getD false && decide (0 < n) && decide (C.pathOf rec ≠ []) then
        QAgg.parents O C (C.preKey rec) k rec (ancestors (C.pathOf rec)) s
      else s
    QAgg.kernelLoop O C i rec ks s

/-- `process` (`Aggregator.cpp:1066-1144`) -/
def QAgg.process (O : FOps) (C : QCfg) (s : QAgg) (rec : List QEnt) : QAgg :=
  let (s, i) := s.getEntry C (C.keyOf rec)
  QAgg.kernelLoop O C i rec (List.range C.kernels.length) s

/-- the entries of a key in an output record: references from the node up -/
def KEnt.toQ : KEnt → QEnt
  | .imm a v => .imm a v
  | .node p => .ref p.reverse

/-- the results of the kernels of an entry (`Aggregator.cpp:1158-1159`) -/
def results (O : FOps) : List KCfg → List KSt → List QEnt
  | c :: cs, s :: ss => c.result O s ++ results O cs ss
  | _, _ => []

/-- `flush` (`Aggregator.cpp:1150-1162`): the records passed on -/
def QAgg.flush (O : FOps) (C : QCfg) (s : QAgg) : List (List QEnt) :=
  (s.entries.drop 1).map fun e => e.key.map KEnt.toQ ++ results O C.kernels e.kernels

/-- processing a list of records -/
def QAgg.run (O : FOps) (C : QCfg) (s : QAgg) (recs : List (List QEnt)) : QAgg := recs.foldl (fun s r => s.process O C r) s

end Verif.Query
