import Verif.Cali.DB
/-!
# The on-line aggregation database

Model of `/repo/src/services/aggregate/AggregationDB.{h,cpp}` and of `Variant::update_minmaxsum`, `Variant::div`
(`/repo/src/common/Variant.cpp`).

Simplifications: counters are natural numbers (no wrap-around at 2^32 or 2^64); the hash table (`m_hashmap`, 8192 slots) is a
function on slot numbers; floating-point arithmetic is a parameter; histograms (`CALIPER_ENABLE_HISTOGRAMS`, off by default)
are left out.  Entries are node id and value; which nodes are attribute nodes (so that entries with them are immediate) is
given by `isAttr`.
-/
namespace Verif.Agg
open Verif Verif.Cali

/-- floating-point operations used by the aggregation, on bit patterns -/
structure DblOps where
  add : U64 → U64 → U64
  lt : U64 → U64 → Bool
  div : U64 → Nat → U64

/-- the value word of a numeric variant (`m_v.value`); other types never reach the arithmetic -/
def bitsOf : Val → U64
  | .int i => i
  | .uint u => u
  | .addr u => u
  | .double d => d
  | _ => 0

/-- overwrite the value word, keeping the type (`m_v.value.v_… = …`) -/
def withBits : Val → U64 → Val
  | .int _, w => .int w
  | .uint _, w => .uint w
  | .addr _, w => .addr w
  | .double _, w => .double w
  | v, _ => v

/-- `AggregateKernel` (`AggregationDB.h:42-66`) -/
structure Kern where
  min : Val
  max : Val
  sum : Val
  count : Nat
  deriving DecidableEq, Repr

/-- a new kernel (`AggregationDB.h:60-66`) -/
def Kern.new : Kern := ⟨.inv, .inv, .inv, 0⟩

/-- the three updates of one branch of `update_minmaxsum`: `sum += x; if (x < min) min = x; else if (x > max) max = x`
(`Variant.cpp:331-337`, `341-347`, `351-357`) -/
def Kern.upd (add : U64 → U64 → U64) (lt : U64 → U64 → Bool) (k : Kern) (x : U64) : Kern :=
  let k := { k with sum := withBits k.sum (add (bitsOf k.sum) x) }
  if lt x (bitsOf k.min) then { k with min := withBits k.min x }
  else if lt (bitsOf k.max) x then { k with max := withBits k.max x }
  else k

/-- `Variant::update_minmaxsum` (`Variant.cpp:319-362`) -/
def Kern.minmaxsum (O : DblOps) (k : Kern) (v : Val) : Kern :=
  if k.min = .inv then { k with min := v, max := v, sum := v }
  else
    match v with
    | .double d => k.upd O.add O.lt d
    | .int i => k.upd (· + ·) (fun a b => decide (a.toInt < b.toInt)) i
    | .uint u => k.upd (· + ·) (fun a b => decide (a.toNat < b.toNat)) u
    | _ => k

/-- `AggregateKernel::update` (`AggregationDB.h:68-71`) -/
def Kern.update (O : DblOps) (k : Kern) (v : Val) : Kern :=
  let k := k.minmaxsum O v
  { k with count := k.count + 1 }

/-- `Variant::div` (`Variant.cpp:301-317`); signed division truncates -/
def divVal (O : DblOps) (v : Val) (n : Nat) : Val :=
  match v with
  | .double d => .double (O.div d n)
  | .int i => .int (BitVec.ofInt 64 (i.toInt.tdiv (n : Int)))
  | .uint u => .uint (BitVec.ofNat 64 (u.toNat / n))
  | _ => .inv

/-- `AggregateEntry` (`AggregationDB.h:105-112`) -/
structure AEntry where
  count : Nat
  keyIdx : Nat
  keyLen : Nat
  kIdx : Nat
  nK : Nat
  next : Nat
  deriving DecidableEq, Repr

/-- result attributes of one aggregated attribute (`AggregationDB.h:18-26`) -/
structure ResAttr where
  min : Nat
  max : Nat
  sum : Nat
  avg : Nat
  deriving DecidableEq, Repr

/-- `AttributeInfo` (`AggregationDB.h:28-34`), attributes by node id -/
structure Info where
  immKey : List Nat
  aggr : List Nat
  res : List ResAttr
  countA : Nat
  slotA : Nat
  deriving DecidableEq, Repr

/-- number of hash slots (`AggregationDB.cpp:168`) -/
def slots : Nat := 8192
/-- `MAX_KEYLEN` (`AggregationDB.cpp:19`) -/
def maxKeyLen : Nat := 16

/-- `AggregationDB` (`AggregationDB.h:118-128`).  `cap…` are the capacities of the vectors. -/
structure ADB where
  entries : List AEntry
  keyents : List DEnt
  kernels : List Kern
  hash : Nat → Nat
  capEntries : Nat
  capKeyents : Nat
  capKernels : Nat

/-- which node ids are attribute nodes, the part of the hash contributed by a value (`Variant::to_uint`), and how vectors
grow: the new capacity for an old capacity and a needed size -/
structure Env where
  isAttr : Nat → Bool
  valHash : Val → Nat
  grow : Nat → Nat → Nat

/-- `Entry::is_immediate` (`Entry.h:85`) -/
def Env.isImm (E : Env) (e : DEnt) : Bool := match e.node with
  | some i => E.isAttr i
  | none => false

/-- `operator==` on entries (`Entry.h:109-115`) -/
def Env.entEq (E : Env) (l r : DEnt) : Bool := decide (l.node = r.node) && (!E.isImm l || decide (l.val = r.val))

/-- `std::equal(key.begin(), key.end(), m_keyents.begin() + key_idx)` after the length check (`AggregationDB.cpp:29`) -/
def Env.keyEq (E : Env) : List DEnt → List DEnt → Bool
  | [], [] => true
  | l :: ls, r :: rs => E.entEq l r && E.keyEq ls rs
  | _, _ => false

/-- `get_immediate_entry` (`SnapshotRecord.h:53-62`) -/
def getImm (rec : List DEnt) (a : Nat) : Option DEnt := rec.find? fun e => decide (e.node = some a)

/-- the key entries (`AggregationDB.cpp:79-92`): references in order, then the immediate key entries present -/
def Env.keyEntries (E : Env) (info : Info) (rec : List DEnt) : List DEnt :=
  rec.filter (fun e => e.node.isSome && !E.isImm e) ++ info.immKey.filterMap (getImm rec)

/-- contribution of a key entry to the hash (`AggregationDB.cpp:82`, `89-90`) -/
def Env.entHash (E : Env) (e : DEnt) : Nat := e.node.getD 0 + if E.isImm e then E.valHash e.val else 0

/-- the slot of a snapshot (`AggregationDB.cpp:77-92`, `23`): `size_t` sum modulo the number of slots (2^64 is a multiple of
8192, so wrap-around does not matter) -/
def Env.slotOf (E : Env) (info : Info) (rec : List DEnt) : Nat := ((E.keyEntries info rec).map E.entHash).sum % slots

/-- the loop over a hash chain (`AggregationDB.cpp:27-32`); `fuel` bounds the number of steps -/
def findLoop (E : Env) (db : ADB) (key : List DEnt) : Nat → Nat → Option Nat
  | 0, _ => none
  | fuel + 1, idx =>
    if idx = 0 then none
    else match db.entries[idx]? with
      | none => none
      | some e =>
        if key.length = e.keyLen ∧ E.keyEq key ((db.keyents.drop e.keyIdx).take e.keyLen) then some idx
        else findLoop E db key fuel e.next

/-- new capacity of a vector -/
def Env.newCap (E : Env) (cap need : Nat) : Nat := if need ≤ cap then cap else Nat.max need (E.grow cap need)

/-- `find_or_create_entry` (`AggregationDB.cpp:21-67`): the index of the entry -/
def findOrCreate (E : Env) (db : ADB) (key : List DEnt) (h : Nat) (nAttrs : Nat) (canAlloc : Bool) : ADB × Nat :=
  match findLoop E db key (db.entries.length + 1) (db.hash h) with
  | some i => (db, i)
  | none =>
    if !canAlloc ∧ (db.capKernels ≤ db.kernels.length + nAttrs ∨ db.capKeyents ≤ db.keyents.length + key.length ∨
        db.capEntries ≤ db.entries.length + 1) then (db, 0)
    else
      ({ entries := db.entries ++ [⟨0, db.keyents.length, key.length, db.kernels.length, nAttrs, db.hash h⟩]
         keyents := db.keyents ++ key
         kernels := db.kernels ++ List.replicate nAttrs Kern.new
         hash := fun x => if x = h then db.entries.length else db.hash x
         capEntries := E.newCap db.capEntries (db.entries.length + 1)
         capKeyents := E.newCap db.capKeyents (db.keyents.length + key.length)
         capKernels := E.newCap db.capKernels (db.kernels.length + nAttrs) }, db.entries.length)

/-- the loop updating the kernels (`AggregationDB.cpp:100-107`), from index `a` on -/
def updLoop (O : DblOps) (rec : List DEnt) (base : Nat) : List Nat → Nat → List Kern → List Kern
  | [], _, ks => ks
  | at_ :: as, a, ks =>
    let ks := match getImm rec at_ with
      | none => ks
      | some e => ks.modify (base + a) (fun k => k.update O e.val)
    updLoop O rec base as (a + 1) ks

/-- `process_snapshot` (`AggregationDB.cpp:69-108`) -/
def ADB.process (O : DblOps) (E : Env) (db : ADB) (info : Info) (rec : List DEnt) (canAlloc : Bool) : ADB :=
  let key := (E.keyEntries info rec).take maxKeyLen
  let (db, i) := findOrCreate E db key (E.slotOf info rec) info.aggr.length canAlloc
  let db := { db with entries := db.entries.modify i (fun e => { e with count := e.count + 1 }) }
  match db.entries[i]? with
  | none => db
  | some e => { db with kernels := updLoop O rec e.kIdx (info.aggr.take (Nat.min e.nK info.aggr.length)) 0 db.kernels }

/-- `clear` (`AggregationDB.cpp:110-118`) -/
def ADB.clear (db : ADB) : ADB :=
  { db with
    hash := fun _ => 0
    entries := (db.entries.take 1).modify 0 (fun e => { e with count := 0 })
    kernels := []
    keyents := [] }

/-- the constructor (`AggregationDB.cpp:161-187`); `skipped` is the node of the `SKIPPED` entry -/
def ADB.init (skipped : DEnt) : ADB :=
  ⟨[⟨0, 0, 1, 0, 0, 0⟩], [skipped], [], fun _ => 0, 4096, 16384, 16384⟩

/-- the result entries of the kernels of an entry (`AggregationDB.cpp:135-153`) -/
def kernEntries (O : DblOps) : List ResAttr → List Kern → List DEnt
  | r :: rs, k :: ks =>
    (if k.count = 0 then []
     else [⟨some r.min, k.min⟩, ⟨some r.max, k.max⟩, ⟨some r.sum, k.sum⟩, ⟨some r.avg, divVal O k.sum k.count⟩]) ++
    kernEntries O rs ks
  | _, _ => []

/-- one output record (`AggregationDB.cpp:124-158`); `none`: the key lies outside `m_keyents` (undefined behaviour) -/
def flushEntry (O : DblOps) (db : ADB) (info : Info) (slot : Nat) (e : AEntry) : Option (List DEnt) :=
  if db.keyents.length < e.keyIdx + e.keyLen then none
  else some ((db.keyents.drop e.keyIdx).take e.keyLen ++ kernEntries O info.res ((db.kernels.drop e.kIdx).take e.nK) ++
    [⟨some info.countA, .uint (BitVec.ofNat 64 e.count)⟩, ⟨some info.slotA, .uint (BitVec.ofNat 64 slot)⟩])

/-- `flush` (`AggregationDB.cpp:120-163`): the records passed to `proc_fn` -/
def flushLoop (O : DblOps) (db : ADB) (info : Info) : Nat → List AEntry → Option (List (List DEnt))
  | _, [] => some []
  | slot, e :: es =>
    if e.count = 0 then flushLoop O db info slot es
    else match flushEntry O db info slot e, flushLoop O db info (slot + 1) es with
      | some r, some rs => some (r :: rs)
      | _, _ => none

/-- `flush` (`AggregationDB.cpp:120-163`) -/
def ADB.flush (O : DblOps) (db : ADB) (info : Info) : Option (List (List DEnt)) := flushLoop O db info 0 db.entries

end Verif.Agg
