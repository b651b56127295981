import Mathlib.Data.List.Basic
/-!
# The allocstats and sysalloc services

Model of `/repo/src/services/alloc/AllocStatsService.cpp` and of the wrappers in `/repo/src/services/sysalloc/SysAllocService.cpp`.

Every part of a callback that holds a lock is one step, and the steps of different threads can be interleaved in any way.  Numbers are natural numbers with the arithmetic of `uint64_t`.  A context
tree node is its id.  The counters for the log message are left out.
-/
namespace Verif.Serv.AllocStats

/-- `uint64_t` arithmetic -/
def add64 (a b : Nat) : Nat := (a + b) % 2 ^ 64
def sub64 (a b : Nat) : Nat := (a + (2 ^ 64 - b % 2 ^ 64)) % 2 ^ 64
def mul64 (a b : Nat) : Nat := a * b % 2 ^ 64

/-- `AllocInfo` (`AllocStatsService.cpp:27-30`) -/
structure AllocInfo where
  bytes : Nat
  path : Nat
  deriving DecidableEq, Repr

/-- `RegionInfo` (`AllocStatsService.cpp:32-39`); the path may be a null pointer -/
structure RegionInfo where
  current : Nat
  total : Nat
  max : Nat
  hwm : Nat
  count : Nat
  path : Option Nat
  deriving DecidableEq, Repr

/-- where a thread is, with its local variables -/
inductive At where
  | idle
  /-- in `track_mem_cb`, before the second block (`:84`) -/
  | trackRegion (addr size path : Nat)
  /-- in `track_mem_cb`, before the third block (`:99`) -/
  | trackMark (addr size : Nat)
  /-- in `untrack_mem_cb`, before the second block (`:124`) -/
  | untrackRegion (addr : Nat) (info : AllocInfo)
  /-- in `untrack_mem_cb`, before the third block (`:129`) -/
  | untrackMark (addr bytes : Nat)
  deriving DecidableEq, Repr

/-- the state of the service (`AllocStatsService.cpp:43-50`), the threads, and the values `snapshot_cb` has added to records -/
structure St where
  allocs : Nat → Option AllocInfo
  regions : Nat → Option RegionInfo
  active : Nat
  mark : Nat
  at_ : Nat → At
  out : List Nat

/-- after the constructor -/
def St.init : St := ⟨fun _ => none, fun _ => none, 0, 0, fun _ => .idle, []⟩

/-- `f` with another value at `a` -/
def upd {β : Type} (f : Nat → β) (a : Nat) (b : β) : Nat → β := fun x => if x = a then b else f x

/-- the steps of a thread -/
inductive Act where
  /-- call of `track_mem_cb`; `path` is `get_path_node()` -/
  | track (addr elem : Nat) (dims : List Nat) (path : Option Nat)
  | trackRegion
  | trackMark
  /-- call of `untrack_mem_cb` -/
  | untrack (addr : Nat)
  | untrackRegion
  | untrackMark
  /-- `snapshot_cb` -/
  | snapshot
  deriving DecidableEq, Repr

/-- the second block of `track_mem_cb` (`AllocStatsService.cpp:86-96`) -/
def addRegion (R : Option RegionInfo) (size path : Nat) : RegionInfo :=
  match R with
  | none => ⟨size, size, size, size, 1, some path⟩
  | some i =>
    let cur := add64 i.current size
    { i with current := cur, total := add64 i.total size, max := Nat.max i.max size, hwm := Nat.max i.hwm cur, count := add64 i.count 1 }

/-- the second block of `untrack_mem_cb` (`AllocStatsService.cpp:126`): `operator[]` makes an empty entry if there is none -/
def subRegion (R : Option RegionInfo) (bytes : Nat) : RegionInfo :=
  match R with
  | none => ⟨sub64 0 bytes, 0, 0, 0, 0, none⟩
  | some i => { i with current := sub64 i.current bytes }

/-- one step of thread `t` (`AllocStatsService.cpp:59-145`); nothing happens if the thread is somewhere else -/
def step (s : St) (t : Nat) : Act → St
  | .track addr elem dims path =>
    match s.at_ t, path with
    | .idle, some r =>
      let size := dims.foldl mul64 (elem % 2 ^ 64)
      { s with allocs := upd s.allocs addr (some ⟨size, r⟩), at_ := upd s.at_ t (.trackRegion addr size r) }
    | _, _ => s
  | .trackRegion =>
    match s.at_ t with
    | .trackRegion addr size r => { s with regions := upd s.regions r (some (addRegion (s.regions r) size r)), at_ := upd s.at_ t (.trackMark addr size) }
    | _ => s
  | .trackMark =>
    match s.at_ t with
    | .trackMark _ size =>
      let a := add64 s.active size
      { s with active := a, mark := Nat.max s.mark a, at_ := upd s.at_ t .idle }
    | _ => s
  | .untrack addr =>
    match s.at_ t, s.allocs addr with
    | .idle, some i => { s with allocs := upd s.allocs addr none, at_ := upd s.at_ t (.untrackRegion addr i) }
    | _, _ => s
  | .untrackRegion =>
    match s.at_ t with
    | .untrackRegion addr i => { s with regions := upd s.regions i.path (some (subRegion (s.regions i.path) i.bytes)), at_ := upd s.at_ t (.untrackMark addr i.bytes) }
    | _ => s
  | .untrackMark =>
    match s.at_ t with
    | .untrackMark _ bytes => { s with active := sub64 s.active bytes, at_ := upd s.at_ t .idle }
    | _ => s
  | .snapshot =>
    match s.at_ t with
    | .idle => { s with out := s.out ++ [s.mark], mark := s.active }
    | _ => s

/-- a run -/
def run (s : St) (tr : List (Nat × Act)) : St := tr.foldl (fun s x => step s x.1 x.2) s

/-- a flushed record: region, `alloc.tally`, `alloc.count`, `max#alloc.size`, `avg#alloc.size` -/
structure Rec where
  path : Option Nat
  tally : Nat
  count : Nat
  max : Nat
  avg : Nat
  deriving DecidableEq, Repr

/-- the record `flush_cb` makes for an entry of the region map (`AllocStatsService.cpp:163-172`); `none` stands for the division by zero -/
def flushRec (i : RegionInfo) : Option Rec := if i.count = 0 then none else some ⟨i.path, i.hwm, i.count, i.max, i.total / i.count⟩

/-! ## sysalloc -/

/-- a call of the C library: the results are those of the wrapped function, 0 for a null pointer -/
inductive Sys where
  | malloc (size ret : Nat)
  | calloc (num size ret : Nat)
  | realloc (ptr size ret : Nat)
  | free (ptr : Nat)
  deriving DecidableEq, Repr

/-- the calls the wrappers make for an active channel (`SysAllocService.cpp:50-132`), `path` being the region the thread is in -/
def wrapper (path : Option Nat) : Sys → List Act
  | .malloc size ret => [.track ret 1 [size] path]
  | .calloc num size ret => [.track ret size [num] path]
  | .realloc ptr size ret => [.untrack ptr, .track ret 1 [size] path]
  | .free ptr => [.untrack ptr]

/-- a complete call, without other threads in between -/
def complete : Act → List Act
  | .track a e d p => [.track a e d p, .trackRegion, .trackMark]
  | .untrack a => [.untrack a, .untrackRegion, .untrackMark]
  | a => [a]

/-- the steps a callback takes when nobody else runs: it returns early if there is no region or no such block -/
def callSteps (s : St) (t : Nat) (a : Act) : List (Nat × Act) :=
  if (step s t a).at_ t = .idle then [(t, a)] else (complete a).map fun x => (t, x)

/-- the same for several callbacks, one after the other -/
def seqSteps (s : St) (t : Nat) : List Act → List (Nat × Act)
  | [] => []
  | a :: as => callSteps s t a ++ seqSteps (run s (callSteps s t a)) t as

end Verif.Serv.AllocStats
