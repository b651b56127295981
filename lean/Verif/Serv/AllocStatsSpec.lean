import Verif.Serv.AllocStats
/-!
# What allocation statistics should be
-/
namespace Verif.Serv.AllocStats

/-- what happens to memory: a block of a size is allocated in a region, a block is freed, a snapshot is taken -/
inductive Ev where
  | alloc (addr size region : Nat)
  | free (addr : Nat)
  | snap
  deriving DecidableEq, Repr

/-- a block: address, size, region -/
structure Block where
  addr : Nat
  size : Nat
  region : Nat
  deriving DecidableEq, Repr

/-- the blocks that are allocated after a history -/
def live : List Ev → List Block := List.foldl (fun l e => match e with
  | .alloc a s r => l ++ [⟨a, s, r⟩]
  | .free a => l.filter fun b => decide (b.addr ≠ a)
  | .snap => l) []

/-- bytes allocated -/
def bytes (h : List Ev) : Nat := ((live h).map Block.size).sum

/-- bytes allocated by a region itself -/
def tally (r : Nat) (h : List Ev) : Nat := (((live h).filter fun b => decide (b.region = r)).map Block.size).sum

/-- sizes of all allocations of a region -/
def sizes (r : Nat) (h : List Ev) : List Nat := h.filterMap fun e => match e with
  | .alloc _ s r' => if r' = r then some s else none
  | _ => none

/-- sizes of all allocations -/
def allSizes (h : List Ev) : List Nat := h.filterMap fun e => match e with
  | .alloc _ s _ => some s
  | _ => none

/-- `m` is the largest value of `f` at any time in the history -/
def IsPeak (f : List Ev → Nat) (h : List Ev) (m : Nat) : Prop := (∀ q, q <+: h → f q ≤ m) ∧ ∃ q, q <+: h ∧ f q = m

/-- the size of an allocation -/
def sizeOf (elem : Nat) (dims : List Nat) : Nat := elem * dims.prod

/-- the call a thread is in, after a step of some thread -/
def callStep (c : Nat → Option Ev) (x : Nat × Act) : Nat → Option Ev :=
  match x.2 with
  | .track a e d (some r) => upd c x.1 (some (.alloc a (sizeOf e d) r))
  | .untrack a => upd c x.1 (some (.free a))
  | _ => c

/-- the moments at which the calls take effect for the region statistics: the second block of a call -/
def regionEv (c : Nat → Option Ev) (x : Nat × Act) : List Ev :=
  match x.2 with
  | .trackRegion | .untrackRegion => (c x.1).toList
  | _ => []

/-- the moments at which the calls take effect for the high-water mark: the third block of a call -/
def markEv (c : Nat → Option Ev) (x : Nat × Act) : List Ev :=
  match x.2 with
  | .trackMark | .untrackMark => (c x.1).toList
  | .snapshot => [.snap]
  | _ => []

/-- the sequential history of a concurrent run, for given effect moments -/
def hist (ev : (Nat → Option Ev) → Nat × Act → List Ev) : List (Nat × Act) → (Nat → Option Ev) → List Ev
  | [], _ => []
  | x :: tr, c => ev c x ++ hist ev tr (callStep c x)

/-- history of effects on the region statistics -/
def regionHist (tr : List (Nat × Act)) : List Ev := hist regionEv tr fun _ => none
/-- history of effects on the high-water mark, with the snapshots -/
def markHist (tr : List (Nat × Act)) : List Ev := hist markEv tr fun _ => none

/-- the address a thread is working on -/
def At.addr : At → Option Nat
  | .idle => none
  | .trackRegion a _ _ | .trackMark a _ | .untrackRegion a _ | .untrackMark a _ => some a

/-- what a thread may do in a state: calls are made one after the other by each thread and carried out step by step; an address that is allocated was not in use, and
a block is not freed while another call for it is in progress -/
def Allowed (s : St) (t : Nat) : Act → Prop
  | .track a _ _ _ => s.at_ t = .idle ∧ s.allocs a = none ∧ ∀ u, (s.at_ u).addr ≠ some a
  | .trackRegion => ∃ a n r, s.at_ t = .trackRegion a n r
  | .trackMark => ∃ a n, s.at_ t = .trackMark a n
  | .untrack a => s.at_ t = .idle ∧ ∀ u, (s.at_ u).addr ≠ some a
  | .untrackRegion => ∃ a i, s.at_ t = .untrackRegion a i
  | .untrackMark => ∃ a b, s.at_ t = .untrackMark a b
  | .snapshot => s.at_ t = .idle

/-- a run in which every step is allowed -/
def Valid : St → List (Nat × Act) → Prop
  | _, [] => True
  | s, x :: tr => Allowed s x.1 x.2 ∧ Valid (step s x.1 x.2) tr

/-- bytes of all allocations of a run -/
def volume (tr : List (Nat × Act)) : Nat := (tr.map fun x => match x.2 with
  | .track _ e d (some _) => sizeOf e d
  | _ => 0).sum

/-- the run is of a size for which 64 bits are enough -/
def Fits (tr : List (Nat × Act)) : Prop := volume tr < 2 ^ 64 ∧ tr.length < 2 ^ 64

/-! ## the heap of a program -/

/-- a block of the heap: address, size, and the region that was open when it was allocated, if any -/
structure HBlock where
  addr : Nat
  size : Nat
  region : Option Nat
  deriving DecidableEq, Repr

/-- the heap after a call of the C library; a call that returns a null pointer changes nothing -/
def heapStep (h : List HBlock) (path : Option Nat) : Sys → List HBlock
  | .malloc size ret => if ret = 0 then h else h ++ [⟨ret, size, path⟩]
  | .calloc num size ret => if ret = 0 then h else h ++ [⟨ret, size * num, path⟩]
  | .realloc ptr size ret => if ret = 0 then h else (h.filter fun b => decide (b.addr ≠ ptr)) ++ [⟨ret, size, path⟩]
  | .free ptr => h.filter fun b => decide (b.addr ≠ ptr)

/-- the call succeeds, with a block that was not in use -/
def CallOk (h : List HBlock) : Sys → Prop
  | .malloc size ret => ret ≠ 0 ∧ size < 2 ^ 64 ∧ ∀ b ∈ h, b.addr ≠ ret
  | .calloc num size ret => ret ≠ 0 ∧ size * num < 2 ^ 64 ∧ ∀ b ∈ h, b.addr ≠ ret
  | .realloc ptr size ret => ret ≠ 0 ∧ size < 2 ^ 64 ∧ ∀ b ∈ h, b.addr = ret → ret = ptr
  | .free _ => True

/-- a call by a thread, in a region -/
structure Call where
  thread : Nat
  path : Option Nat
  call : Sys

def heap (cs : List Call) : List HBlock := cs.foldl (fun h c => heapStep h c.path c.call) []

/-- calls that all succeed -/
def Calls : List HBlock → List Call → Prop
  | _, [] => True
  | h, c :: cs => CallOk h c.call ∧ Calls (heapStep h c.path c.call) cs

end Verif.Serv.AllocStats
