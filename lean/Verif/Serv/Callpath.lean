import Verif.Cali.Text
/-!
# Model of the callpath service

Models `snapshot_cb` of `/repo/src/services/callpath/Callpath.cpp`. The unwinder (libunwind) is the environment: the frames that it finds one
after the other, from the innermost one outwards.

Simplifications: a tree entry is its path below the root node of the service, outermost first (C01, C15: equal paths below one root are the same
node, and a node's path does not change); making it does not fail.
-/
namespace Verif.Serv.Callpath
open Verif Verif.Cali

abbrev Str := List Byte

/-- a stack frame that `unw_step` has gone to: instruction address, and function name if there is one -/
structure Frame where
  ip : Nat
  name : Option Str
deriving DecidableEq, Repr

/-- the options (Callpath.cpp:43-47, 173-178) and the address range of the Caliper library (Callpath.cpp:51-52, empty without libdw, where
`skip_internal` is not used either) -/
structure Cfg where
  useName : Bool
  useAddr : Bool
  skipInternal : Bool
  skipFrames : Nat
  start : Nat
  stop : Nat
deriving DecidableEq, Repr

/-- `MAX_PATH` (Callpath.cpp:28) -/
def maxPath : Nat := 40
/-- `NAMELEN` (Callpath.cpp:29) -/
def nameLen : Nat := 100

/-- a name in `strbuf` (Callpath.cpp:105-108): `unw_get_proc_name` fails if there is none or the name with its end does not fit -/
def nameOf (f : Frame) : Str :=
  match f.name with
  | none => str "UNKNOWN"
  | some s => if s.length + 1 ≤ nameLen then s else str "UNKNOWN"

def set {α : Type} (a : Nat → α) (i : Nat) (v : α) : Nat → α := fun j => if j = i then v else a j

/-- skipping frames (Callpath.cpp:80-84): the frames left, and how many steps were not made -/
def skip : Nat → List Frame → Nat × List Frame
  | 0, l => (0, l)
  | n + 1, [] => (n + 1, [])
  | n + 1, _ :: l => skip n l

/-- the arrays `v_addr` and `v_name`, and `n` (Callpath.cpp:55-56, 80) -/
structure Bufs where
  addr : Nat → Nat
  name : Nat → Str
  n : Nat

/-- the loop (Callpath.cpp:89-114) -/
def walk (c : Cfg) (b : Bufs) : List Frame → Bufs
  | [] => b
  | f :: l =>
    if b.n < maxPath then
      if c.skipInternal && (decide (c.start ≤ f.ip) && decide (f.ip < c.stop)) then walk c b l
      else walk c
        ⟨if c.useAddr then set b.addr (maxPath - (b.n + 1)) f.ip else b.addr,
         if c.useName then set b.name (maxPath - (b.n + 1)) (nameOf f) else b.name, b.n + 1⟩ l
    else b

/-- `n` elements of an array from index `i` on -/
def slice {α : Type} (a : Nat → α) (i n : Nat) : List α := (List.range n).map fun j => a (i + j)

/-- an entry in the record -/
inductive Entry where
  | addr (path : List Nat)
  | name (path : List Str)
deriving DecidableEq, Repr

/-- `snapshot_cb` (Callpath.cpp:53-126) with the frames found behind the first one -/
def snapshot (c : Cfg) (frames : List Frame) : List Entry :=
  let k := skip c.skipFrames frames
  if 0 < k.1 then []
  else
    let b := walk c ⟨fun _ => 0, fun _ => [], 0⟩ k.2
    if 0 < b.n then
      (if c.useAddr then [.addr (slice b.addr (maxPath - b.n) b.n)] else []) ++
      (if c.useName then [.name (slice b.name (maxPath - b.n) b.n)] else [])
    else []

end Verif.Serv.Callpath
