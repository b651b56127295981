import Verif.Splay.Model

/-!
# The `alloc` service (src/services/alloc/AllocService.cpp)

The bookkeeping part: tracked regions, address resolution, active memory and
high-water mark.  Not modelled: label nodes, locks (each call below is one critical section, except that
`track`/`untrack` take the two locks one after the other; calls are taken one
at a time).
-/

namespace Verif.Splay.Alloc

open Verif.Splay

/-- `uint64_t` / `size_t` wrap-around. -/
def W : Nat := 2 ^ 64

/-- `struct AllocInfo` (AllocService.cpp:39-51), without the label nodes. -/
structure Info where
  start : Nat
  total : Nat
  uid : Nat
  elem : Nat
  num : Nat
  deriving DecidableEq, Repr

/-- `AllocInfo::index_1D` (AllocService.cpp:50); `none` is division by zero. -/
def Info.index (i : Info) (addr : Nat) : Option Nat :=
  if i.elem = 0 then none else some ((addr + W - i.start) % W / i.elem)

/-- `ContainsAddress` (AllocService.cpp:54-71). -/
def containsAddress (a : Nat) (i : Info) : Int :=
  if a < i.start then -1
  else if a ≥ i.start ∧ a < (i.start + i.total) % W then 0
  else 1

/-- `HasStartAddress` (AllocService.cpp:74-91). -/
def hasStartAddress (a : Nat) (i : Info) : Int :=
  if a < i.start then -1 else if a = i.start then 0 else 1

/-- `AllocInfoCmp` (AllocService.cpp:93-102). -/
def infoCmp (l r : Info) : Int :=
  if l.start < r.start then -1 else if l.start = r.start then 0 else 1

/-- The data members of `AllocService` used here (AllocService.cpp:131-147). -/
structure State where
  tree : Tree Info := Tree.empty
  uid : Nat := 0
  active : Nat := 0
  hwm : Nat := 0
  regionHwm : Nat := 0
  cur : Nat := 0
  maxTracked : Nat := 0
  totalTracked : Nat := 0
  failed : Nat := 0

/-- `std::accumulate(dims, dims + ndims, elem_size, multiplies)` (AllocService.cpp:179). -/
def totalSize (elem : Nat) (dims : List Nat) : Nat := dims.foldl (fun a d => a * d % W) (elem % W)

/-- `track_mem_cb` (AllocService.cpp:166-232); `none` is a crash (division by
zero in line 187, or an invalid access inside the tree). -/
def track (s : State) (ptr elem : Nat) (dims : List Nat) : Option State := do
  let total := totalSize elem dims
  if elem = 0 then none
  else
    let uid := (s.uid + 1) % W
    let info : Info := ⟨ptr, total, uid, elem, total / elem⟩
    let active := (s.active + total) % W
    let tree ← s.tree.insert infoCmp info
    let cur := s.cur + 1
    return { s with
      tree := tree, uid := uid, active := active, hwm := max s.hwm active,
      regionHwm := max s.regionHwm active, cur := cur,
      maxTracked := max cur s.maxTracked, totalTracked := s.totalTracked + 1 }

/-- `untrack_mem_cb` (AllocService.cpp:234-269). -/
def untrack (s : State) (ptr : Nat) : Option State := do
  let node ← s.tree.find (hasStartAddress ptr)
  match node with
  | none => return { s with failed := s.failed + 1 }
  | some n =>
    let info ← s.tree.deref n
    let tree ← s.tree.remove n
    return { s with tree := tree, cur := s.cur - 1, active := (s.active + W - info.total % W) % W }

/-- One iteration of `resolve_addresses` (AllocService.cpp:271-306): the
allocation's uid and the element index, if one is found. -/
def resolve (s : State) (addr : Nat) : Option (Option (Nat × Nat)) := do
  let node ← s.tree.find (containsAddress addr)
  match node with
  | none => return none
  | some n =>
    let info ← s.tree.deref n
    let idx ← info.index addr
    return some (info.uid, idx)

/-- `record_highwatermark` (AllocService.cpp:308-320). -/
def recordHwm (s : State) : State × Nat :=
  ({ s with regionHwm := s.active }, s.regionHwm)

/-- `static_cast<int>` of a size. -/
def int32 (n : Nat) : Int := if n % 2 ^ 32 < 2 ^ 31 then ((n % 2 ^ 32 : Nat) : Int) else ((n % 2 ^ 32 : Nat) : Int) - 2 ^ 32

/-- The record `track_mem_snapshot` pushes (AllocService.cpp:148-163), without the label: `alloc.total_size`, `alloc.uid`, `alloc.address`. -/
structure TrackRec where
  size : Int
  uid : Nat
  addr : Nat
  deriving DecidableEq, Repr

/-- The record of a `track_mem_cb` call with `track_allocations` (AllocService.cpp:203-211). -/
def trackRec (s : State) (ptr elem : Nat) (dims : List Nat) : Option TrackRec :=
  if elem = 0 then none else some ⟨int32 (totalSize elem dims), (s.uid + 1) % W, ptr⟩

/-- The record of an `untrack_mem_cb` call with `track_allocations`, if the address is known (AllocService.cpp:238-262). -/
def untrackRec (s : State) (ptr : Nat) : Option (Option TrackRec) := do
  let node ← s.tree.find (hasStartAddress ptr)
  match node with
  | none => return none
  | some n =>
    let info ← s.tree.deref n
    return some ⟨-int32 info.total, info.uid, ptr⟩

/-- The calls a user (or an allocation wrapper) and the snapshots make. -/
inductive Op
  | track (ptr elem : Nat) (dims : List Nat)
  | untrack (ptr : Nat)
  | snapshot

/-- One call. -/
def step (s : State) : Op → Option State
  | .track p e d => track s p e d
  | .untrack p => untrack s p
  | .snapshot => some (recordHwm s).1

/-- A sequence of calls from the initial state. -/
def run (ops : List Op) : Option State := ops.foldlM step {}

end Verif.Splay.Alloc
