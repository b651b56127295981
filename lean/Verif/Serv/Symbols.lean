import Verif.Tree.Spec
/-!
# The symbollookup service

Model of `/repo/src/services/symbollookup/SymbolLookup.cpp`.

Simplifications: a node is identified with the root of its tree and its path (justified by C15: equal paths below one
root give the same node, and a node's path never changes), and making tree entries never fails.  The debug
information (`LookupLibdw.cpp`) is a function `lk` of the address; the parts of its result which are not asked for
are not used by the service.  Counters, log messages and locks are left out; a record is processed atomically.
The set of address attributes of an instance is given (`check_attributes`, `SymbolLookup.cpp:99-124`).
-/
namespace Verif.Sym
open Verif.MTree (PathL)

/-- a node: the tree it is in, and its path -/
structure NodeP where
  root : Nat
  path : PathL
  deriving DecidableEq, Repr

/-- an entry of a record -/
inductive Entry where
  | ref (n : NodeP)
  | imm (attr : Nat) (v : Val)
  deriving DecidableEq, Repr

/-- `Lookup::Result` (`Lookup.h:27-33`) -/
structure Res where
  name : List Byte
  file : List Byte
  line : Int
  module : List Byte
  deriving DecidableEq, Repr

/-- the options of the service (`SymbolLookup.cpp:262-272`) -/
structure Opts where
  functions : Bool
  sourceloc : Bool
  file : Bool
  line : Bool
  mod : Bool
  deriving DecidableEq, Repr

/-- the ids of the attributes made for an address attribute (`SymbolLookup.cpp:79-93`) -/
structure Names where
  file : Nat → Nat
  line : Nat → Nat
  func : Nat → Nat
  loc : Nat → Nat
  mod : Nat → Nat

/-- the surroundings: debug information, `double` to `uint64_t` conversion, attribute ids, the options and address
attributes (in the order of the attribute map) of each instance of the service, and the root node of each instance -/
structure Env where
  lk : Nat → Res
  d2u : BitVec 64 → Nat
  names : Names
  opts : Nat → Opts
  targets : Nat → List Nat
  symRoot : Nat → Nat

/-- `Variant::to_uint()` (`cali_variant.c:275-315`), the value without the flag -/
def Env.addrOf (E : Env) (v : Val) : Nat :=
  match v.ty, v.c with
  | .addr, .inr w => w.toNat
  | .uint, .inr w => w.toNat
  | .int, .inr w => if w.toInt ≥ 0 then w.toNat else 0
  | .bool, .inr w => if w.setWidth 8 ≠ 0 then 1 else 0
  | .double, .inr w => E.d2u w
  | .type, .inr w => ((w.setWidth 32).signExtend 64).toNat
  | _, _ => 0

/-- instances' address caches, the `symbollookup.node#…` children of address nodes (shared by all instances, by
target attribute and node), and the instances already deleted -/
structure State where
  cache : Nat → Nat → List (Nat × NodeP)
  memo : List ((Nat × NodeP) × NodeP)
  gone : List Nat

/-- nothing looked up yet -/
def init : State := ⟨fun _ _ => [], [], []⟩

/-- `file:line` (`SymbolLookup.cpp:166`) -/
def locText (file : List Byte) (line : Int) : List Byte :=
  file ++ ((":" ++ toString line).toList.map fun c => BitVec.ofNat 8 c.toNat)

/-- the nodes made for an address, below each other (`SymbolLookup.cpp:157-169`) -/
def fields (E : Env) (ch a addr : Nat) : PathL :=
  let o := E.opts ch
  let r := E.lk addr
  (if o.mod then [(E.names.mod a, Val.str r.module)] else [])
  ++ (if o.file then [(E.names.file a, Val.str r.file)] else [])
  ++ (if o.functions then [(E.names.func a, Val.str r.name)] else [])
  ++ (if o.line then [(E.names.line a, (⟨.uint, .inr (BitVec.ofInt 64 r.line)⟩ : Val))] else [])
  ++ (if o.sourceloc then [(E.names.loc a, Val.str (locText r.file r.line))] else [])

/-- `lookup_cache[addr]` for an instance and target attribute -/
def setCache (st : State) (ch a addr : Nat) (n : NodeP) : State :=
  { st with cache := fun c b => if c = ch ∧ b = a then (addr, n) :: st.cache c b else st.cache c b }

/-- `perform_lookup` (`SymbolLookup.cpp:126-180`) for the value of a non-empty entry -/
def perform (E : Env) (st : State) (ch a : Nat) (v : Val) (parent : NodeP) : State × Option NodeP :=
  let addr := E.addrOf v
  match (st.cache ch a).lookup addr with
  | some n => (st, some n)
  | none =>
    let fs := fields E ch a addr
    if fs = [] then (st, none)
    else
      let n : NodeP := ⟨parent.root, parent.path ++ fs⟩
      (setCache st ch a addr n, some n)

/-- `get_symbol_entry` (`SymbolLookup.cpp:191-213`) with `Entry::get` (`Entry.cpp:42-58`) for a reference entry in the
tree `root`; the path is given innermost node first -/
def symNode (E : Env) (ch a root : Nat) : State → PathL → State × Option NodeP
  | st, [] => (st, none)
  | st, (b, v) :: up =>
    if b ≠ a then symNode E ch a root st up
    else
      let n : NodeP := ⟨root, ((b, v) :: up).reverse⟩
      match st.memo.lookup (a, n) with
      | some s => (st, some s)
      | none =>
        match symNode E ch a root st up with
        | (st, par) =>
          match perform E st ch a v (par.getD ⟨E.symRoot ch, []⟩) with
          | (st, none) => (st, none)
          | (st, some s) => ({ st with memo := ((a, n), s) :: st.memo }, some s)

/-- `Entry::get(attr)` is non-empty (`Entry.cpp:42-58`) -/
def has (a : Nat) : Entry → Bool
  | .ref n => n.path.any fun e => e.1 == a
  | .imm b _ => b == a

/-- `SnapshotView::get` (`SnapshotRecord.h:42-51`) and `get_symbol_entry` for one target attribute -/
def symOf (E : Env) (st : State) (ch a : Nat) (rec : List Entry) : State × Option NodeP :=
  match rec.find? (has a) with
  | none => (st, none)
  | some (.ref n) => symNode E ch a n.root st n.path.reverse
  | some (.imm _ v) => perform E st ch a v ⟨E.symRoot ch, []⟩

/-- the loop over the target attributes (`SymbolLookup.cpp:233-239`) -/
def symAll (E : Env) (ch : Nat) (rec : List Entry) : List Nat → State → State × List Entry
  | [], st => (st, [])
  | a :: as, st =>
    match symOf E st ch a rec with
    | (st, r) =>
      match symAll E ch rec as st with
      | (st, l) => (st, (r.map Entry.ref).toList ++ l)

/-- `process_snapshot` (`SymbolLookup.cpp:215-242`) -/
def process (E : Env) (st : State) (ch : Nat) (rec : List Entry) : State × List Entry :=
  match symAll E ch rec (E.targets ch) st with
  | (st, l) => (st, rec ++ l)

/-- what happens: an instance processes a record during a flush, or is deleted with its channel
(`SymbolLookup.cpp:289-292`: the caches and the root node of its symbol nodes are gone) -/
inductive Ev where
  | record (ch : Nat) (rec : List Entry)
  | release (ch : Nat)
  deriving DecidableEq, Repr

/-- execute one event; a processed record is an output -/
def stepEv (E : Env) (st : State) : Ev → State × List (Nat × List Entry × List Entry)
  | .record ch rec => match process E st ch rec with
    | (st, out) => (st, [(ch, rec, out)])
  | .release ch => ({ st with cache := fun c b => if c = ch then [] else st.cache c b, gone := ch :: st.gone }, [])

/-- execute a history: the processed records with the processing instance, before and after -/
def run (E : Env) : State → List Ev → State × List (Nat × List Entry × List Entry)
  | st, [] => (st, [])
  | st, e :: es =>
    match stepEv E st e with
    | (st, o) => match run E st es with
      | (st, o') => (st, o ++ o')

end Verif.Sym
