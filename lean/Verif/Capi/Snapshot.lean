import Verif.Runtime.Globals
import Verif.Snapshot.Compressed
/-!
# Snapshots in the C interface

Model of `cali_channel_pull_snapshot`, `cali_unpack_snapshot`, `cali_find_first_in_snapshot` and `cali_find_all_in_snapshot`
(`/repo/src/caliper/cali.cpp:178-318`) on top of the annotation runtime (`Verif/Runtime`), the blackboards and the compressed
snapshot records (`Verif/Snapshot/Compressed`).

Simplified: the copy of the process blackboard each thread keeps is up to date (the subject of `Verif/Conc/Cache`); the signal-handler
case (no `Caliper` instance, return value 0) is left out.
-/
namespace Verif.Capi
open Verif MTree RT CSR


/-- how values and variants (two words, strings by address) correspond in the memory of the process -/
structure Words where
  enc : Verif.Val → CVar
  dec : CVar → Verif.Val

/-- the entries of `Caliper::pull_snapshot` with empty trigger info (`Caliper.cpp:844-854`) in a record of 120 entries
(`cali.cpp:27`, `185`); `extra` is what the snapshot callbacks of the channel's services append -/
def snapEntries (s : State) (th : Nat) (extra : List Entry) : List Entry :=
  (extra ++ BB.snapshot (s.board (.thread th)) ++ (BB.snapshot (s.board .process)).take 120).take 120

/-- an `Entry` as `CompressedSnapshotRecord::append` sees it (`CompressedSnapshotRecord.cpp:263-281`) -/
def packEntry (W : Words) (t : Tree) (e : Entry) : SEntry :=
  match e.node with
  | none => .empty
  | some n =>
    if e.isReference t then .ref (BitVec.ofNat 64 (t.idOf n))
    else .imm (BitVec.ofNat 64 (e.attribute t)) (W.enc e.val)

/-- `cali_channel_pull_snapshot` (`cali.cpp:178-198`): contents of the user's buffer of `L` bytes afterwards, and the return value; `ok`: the
channel exists -/
def pull (W : Words) (s : State) (th : Nat) (ok : Bool) (extra : List Entry) (L : Nat) : Option (List Byte × Nat) := do
  let r ← (Rec.init L).append ((if ok then snapEntries s th extra else []).map (packEntry W s.tree))
  some (r.buffer, r.neededLen)

/-- `unpack_next_entry` (`CompressedSnapshotRecord.cpp:67-87`): node and attribute look-up; `none`: null node dereferenced -/
def resolve (W : Words) (t : Tree) : SEntry → Option Entry
  | .empty => some default
  | .ref id => (t.lookup id.toNat).map (Entry.ofNode t)
  | .imm a v => some ⟨AttrReg.makeAttribute t (t.lookup a.toNat), W.dec v⟩

/-- a `cali_entry_proc_fn` with its user data: new user data, and whether it returned non-zero -/
abbrev Proc (σ : Type) := σ → Nat → Verif.Val → σ × Bool

variable {σ : Type}

/-- `for (node = e.node(); node && node->id() != CALI_INV_ID; node = node->parent())` (`cali.cpp:222-224`, `252-255`): run the callback for
the nodes with an attribute in `f`; `false`: it returned zero.  The root is the node with `CALI_INV_ID`. -/
def visit (t : Tree) (f : Nat → Bool) (cb : Proc σ) : Nat → Option Ptr → σ → σ × Bool
  | 0, _, x => (x, true)
  | _ + 1, none, x => (x, true)
  | fuel + 1, some n, x =>
    if n = .root then (x, true)
    else if f (t.attrOf n) then
      match cb x (t.attrOf n) (t.valOf n) with
      | (x, false) => (x, false)
      | (x, true) => visit t f cb fuel (t.parentOf n) x
    else visit t f cb fuel (t.parentOf n) x

/-- `Entry::is_immediate()` (`Entry.h:83`) -/
def isImmediate (t : Tree) (e : Entry) : Bool :=
  match e.node with
  | none => false
  | some n => decide (t.attrOf n = nameAttr)

/-- `UnpackEntryOp` (`cali.cpp:216-230`) -/
def unpackOp (t : Tree) (cb : Proc σ) (x : σ) (e : Entry) : σ × Bool :=
  if isImmediate t e then cb x (e.attribute t) e.val
  else visit t (fun _ => true) cb (t.fuelOf e.node) e.node x

/-- `UnpackAttributeEntryOp` (`cali.cpp:245-260`) -/
def attrOp (t : Tree) (a : Nat) (cb : Proc σ) (x : σ) (e : Entry) : σ × Bool :=
  if isImmediate t e && decide (e.attribute t = a) then cb x (e.attribute t) e.val
  else visit t (fun b => decide (b = a)) cb (t.fuelOf e.node) e.node x

/-- the lambda of `cali_find_first_in_snapshot` (`cali.cpp:287-302`); its walk does not stop at the root, whose attribute is `CALI_INV_ID` -/
def firstOp (t : Tree) (a : Nat) (x : Verif.Val) (e : Entry) : Verif.Val × Bool :=
  if isImmediate t e then (if e.attribute t = a then (e.val, false) else (x, true))
  else match findUp t a (t.fuelOf e.node) e.node with
    | some n => (t.valOf n, false)
    | none => (x, true)

/-- `unpack(c, fn)` (`CompressedSnapshotRecord.h:66-75`) -/
def forEach (op : σ → Entry → σ × Bool) : List Entry → σ → σ
  | [], x => x
  | e :: es, x =>
    match op x e with
    | (x, false) => x
    | (x, true) => forEach op es x

/-- the entries of a packed record (`CompressedSnapshotRecordView(buf, &pos).unpack(...)`) and its length -/
def entriesOf (W : Words) (t : Tree) (buf : List Byte) : Option (List Entry × Nat) := do
  let (v, k) ← View.parse buf
  let es ← v.unpack
  let es ← es.mapM (resolve W t)
  some (es, k)

/-- `cali_unpack_snapshot` (`cali.cpp:264-277`): final user data and bytes read -/
def unpackSnapshot (W : Words) (t : Tree) (buf : List Byte) (cb : Proc σ) (x : σ) : Option (σ × Nat) :=
  (entriesOf W t buf).map fun p => (forEach (unpackOp t cb) p.1 x, p.2)

/-- `cali_find_first_in_snapshot` (`cali.cpp:279-308`): the value and bytes read -/
def findFirst (W : Words) (t : Tree) (buf : List Byte) (a : Nat) : Option (Verif.Val × Nat) :=
  (entriesOf W t buf).map fun p => (forEach (firstOp t a) p.1 Val.empty, p.2)

/-- `cali_find_all_in_snapshot` (`cali.cpp:310-330`) -/
def findAll (W : Words) (t : Tree) (buf : List Byte) (a : Nat) (cb : Proc σ) (x : σ) : Option (σ × Nat) :=
  (entriesOf W t buf).map fun p => (forEach (attrOp t a cb) p.1 x, p.2)

end Verif.Capi
