import Verif.Variant.Model
/-!
# The memory pool

Model of `/repo/src/caliper/MemoryPool.cpp`.  `new unsigned char[len]` is an environment action: it supplies the address of the new
chunk.  Addresses and sizes are natural numbers; sums of `size_t` wrap around at 2^64.  Locking is not modelled (every operation
runs under the pool's spinlock; `merge` assumes that nobody uses the other pool).  Contents of the memory are not modelled.
-/
namespace Verif.Pool
open Verif

/-- `Chunk` (`MemoryPool.cpp:27-31`) -/
structure Chunk where
  base : Nat
  wmark : Nat
  size : Nat
  deriving DecidableEq, Repr

/-- `MemoryPoolImpl` (`MemoryPool.cpp:20-42`) -/
structure Pool where
  chunks : List Chunk
  canExpand : Bool
  reserved : Nat
  used : Nat
  deriving DecidableEq, Repr

/-- a pool without chunks (as `merge` leaves it) -/
def Pool.empty : Pool := ⟨[], true, 0, 0⟩

/-- `chunksize` (`MemoryPool.cpp:23`) -/
def chunksize : Nat := 64 * 1024

/-- length of the chunk `expand` creates (`MemoryPool.cpp:48`) -/
def expandLen (bytes : Nat) : Nat := max bytes chunksize

/-- `expand` (`MemoryPool.cpp:46-55`); `new` returned the address `base` -/
def Pool.expand (P : Pool) (bytes base : Nat) : Pool :=
  { P with chunks := P.chunks ++ [⟨base, 0, expandLen bytes⟩], reserved := P.reserved + expandLen bytes }

/-- `(pn + alignment - 1) & -alignment` (`MemoryPool.cpp:70`) -/
def alignUp (pn alignment : Nat) : Nat :=
  ((BitVec.ofNat 64 pn + BitVec.ofNat 64 alignment - 1) &&& -(BitVec.ofNat 64 alignment)).toNat

/-- the test whether the last chunk has no room (`MemoryPool.cpp:61`) -/
def Pool.full (P : Pool) (bytes alignment : Nat) : Bool :=
  match P.chunks.getLast? with
  | none => true
  | some c => decide (c.size < (c.wmark + bytes + alignment) % 2 ^ 64)

/-- taking memory from the last chunk (`MemoryPool.cpp:68-77`) -/
def Pool.take (P : Pool) (bytes alignment : Nat) : Option Nat × Pool :=
  match P.chunks.getLast? with
  | none => (none, P)
  | some c =>
    let pn := c.base + c.wmark
    let aligned := alignUp pn alignment
    let n := bytes + (aligned - pn)
    (some aligned, { P with chunks := P.chunks.dropLast ++ [{ c with wmark := c.wmark + n }], used := P.used + n })

/-- `allocate` (`MemoryPool.cpp:57-78`): address (`none` is `nullptr`) and new state; `base` is the address `new` returns if the
pool is expanded -/
def Pool.allocate (P : Pool) (bytes alignment base : Nat) : Option Nat × Pool :=
  if P.full bytes alignment then
    if P.canExpand then (P.expand bytes base).take bytes alignment else (none, P)
  else P.take bytes alignment

/-- `merge` (`MemoryPool.cpp:80-92`): the two pools afterwards -/
def Pool.merge (P other : Pool) : Pool × Pool :=
  ({ P with chunks := other.chunks ++ P.chunks, reserved := P.reserved + other.reserved, used := P.used + other.used },
   { other with chunks := [], reserved := 0, used := 0 })

/-! ## Programs using pools -/

/-- operations on a set of pools, numbered -/
inductive Op where
  /-- `MemoryPool()` with the configured initial size (`MemoryPool.cpp:105-114`) -/
  | create (i : Nat) (canExpand : Bool) (size base : Nat)
  | alloc (i : Nat) (bytes alignment base : Nat)
  | merge (i j : Nat)

/-- the pools, and the ranges (address, bytes, alignment) handed out so far -/
structure State where
  pools : Nat → Pool
  out : List (Nat × Nat × Nat)

/-- no pools -/
def State.init : State := ⟨fun _ => Pool.empty, []⟩

/-- replacing a pool -/
def setPool (f : Nat → Pool) (i : Nat) (P : Pool) : Nat → Pool := fun k => if k = i then P else f k

/-- execution of an operation.  `merge` of a pool with itself returns immediately (`MemoryPool.cpp:166-167`). -/
def State.step (s : State) : Op → State
  | .create i ce size base =>
    { s with pools := setPool s.pools i (Pool.expand { (s.pools i) with canExpand := ce } size base) }
  | .alloc i bytes al base =>
    let r := (s.pools i).allocate bytes al base
    { pools := setPool s.pools i r.2, out := match r.1 with | some a => s.out ++ [(a, bytes, al)] | none => s.out }
  | .merge i j =>
    if i = j then s
    else
      let r := (s.pools i).merge (s.pools j)
      { s with pools := setPool (setPool s.pools i r.1) j r.2 }

/-- addresses are smaller than this -/
def addrMax : Nat := 2 ^ 62

/-- what `new unsigned char[len]` guarantees for the address it returns: suitably aligned (to 16), within the address space, not
overlapping with any other chunk -/
def NewOk (s : State) (base len : Nat) : Prop :=
  base % 16 = 0 ∧ base + len ≤ addrMax ∧ ∀ k, ∀ c ∈ (s.pools k).chunks, base + len ≤ c.base ∨ c.base + c.size ≤ base

/-- operations that respect the interface: power-of-two alignment of at most 16, and `new` behaves -/
def Op.ok (s : State) : Op → Prop
  | .create _ _ size base => NewOk s base (expandLen size)
  | .alloc i bytes al base => (∃ k, k ≤ 4 ∧ al = 2 ^ k) ∧ bytes < addrMax ∧
    ((s.pools i).full bytes al = true → (s.pools i).canExpand = true → NewOk s base (expandLen bytes))
  | .merge _ _ => True

/-- the states reached by a sequence of such operations -/
inductive Reachable : State → Prop where
  | init : Reachable State.init
  | step {s : State} (o : Op) : Reachable s → o.ok s → Reachable (s.step o)

end Verif.Pool
