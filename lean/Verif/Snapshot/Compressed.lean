import Verif.Snapshot.Buf
/-!
# Compressed snapshot records

Model of `/repo/src/common/CompressedSnapshotRecord.{h,cpp}`.  Node pointers and attributes are represented by
their ids; the look-up `c->node(id)` / `c->get_attribute(id)` on unpacking is not part of this model.
-/
namespace Verif.CSR
open Verif

/-- the three kinds of `Entry` (`/repo/include/caliper/common/Entry.h:50-62`): empty, reference (node id),
immediate (attribute id, value) -/
inductive SEntry where
  | empty
  | ref (id : U64)
  | imm (attr : U64) (v : CVar)
  deriving DecidableEq, Repr

/-- `class CompressedSnapshotRecord` (`CompressedSnapshotRecord.h:83-101`); `m_buffer_len` is `buffer.length` -/
structure Rec where
  buffer : List Byte
  numNodes : Nat
  numImm : Nat
  immPos : Nat
  immLen : Nat
  neededLen : Nat
  skipped : Nat
  deriving DecidableEq, Repr

/-- constructor (`CompressedSnapshotRecord.cpp:140-151`) -/
def Rec.init (len : Nat) : Rec := ⟨List.replicate len 0, 0, 0, 1, 1, 2, 0⟩

/-- `m_blocksize` (`CompressedSnapshotRecord.h:86`) -/
def blocksize : Nat := 4

/-- encoded node ids (`CompressedSnapshotRecord.cpp:177-178`) -/
def encNodes (ids : List U64) : List Byte := ids.flatMap vlenc

/-- encoded immediate entries (`CompressedSnapshotRecord.cpp:220-223`) -/
def encImm (es : List (U64 × CVar)) : List Byte := es.flatMap fun e => vlenc e.1 ++ variantPack e.2

/-- `buffer[pos] += n` on an `unsigned char` -/
def incrAt (buf : List Byte) (pos n : Nat) : Option (List Byte) := do
  let b ← buf[pos]?
  writeAt buf pos [b + BitVec.ofNat 8 n]

/-- one iteration of the block loop of `append(n, node_vec)` (`CompressedSnapshotRecord.cpp:172-197`) -/
def Rec.appendNodeBlock (r : Rec) (ids : List U64) : Option Rec :=
  let tmp := encNodes ids
  let len := tmp.length
  if r.numNodes + ids.length < 128 ∧ r.immPos + r.immLen + len ≤ r.buffer.length then do
    let b1 ← saveMemmove r.buffer (r.immPos + len) r.immPos r.immLen
    let b2 ← writeAt b1 1 tmp
    let b3 ← incrAt b2 0 ids.length
    some { r with buffer := b3, immPos := r.immPos + len, numNodes := r.numNodes + ids.length,
                  neededLen := r.neededLen + len }
  else
    some { r with skipped := r.skipped + ids.length, neededLen := r.neededLen + len }

/-- `append(size_t n, const Node* const node_vec[])` (`CompressedSnapshotRecord.cpp:167-205`).
Simplification: `m_skipped` is updated per block instead of once at the end; the return value is the increase
of `m_skipped`. -/
def Rec.appendNodes (r : Rec) (ids : List U64) : Option Rec :=
  if _h : ids = [] then some r
  else do
    let r' ← r.appendNodeBlock (ids.take blocksize)
    r'.appendNodes (ids.drop blocksize)
termination_by ids.length
decreasing_by
  have : 0 < ids.length := List.length_pos_iff.2 _h
  simp [blocksize]; omega

/-- one iteration of the block loop of `append(n, attr_vec, data_vec)` (`CompressedSnapshotRecord.cpp:214-240`) -/
def Rec.appendImmBlock (r : Rec) (es : List (U64 × CVar)) : Option Rec :=
  let tmp := encImm es
  let len := tmp.length
  if r.numImm + es.length < 128 ∧ r.immPos + r.immLen + len ≤ r.buffer.length then do
    let b1 ← writeAt r.buffer (r.immPos + r.immLen) tmp
    let b2 ← incrAt b1 r.immPos es.length
    some { r with buffer := b2, immLen := r.immLen + len, numImm := r.numImm + es.length,
                  neededLen := r.neededLen + len }
  else
    some { r with skipped := r.skipped + es.length, neededLen := r.neededLen + len }

/-- `append(size_t n, const cali_id_t attr_vec[], const Variant data_vec[])`
(`CompressedSnapshotRecord.cpp:208-248`) -/
def Rec.appendImm (r : Rec) (es : List (U64 × CVar)) : Option Rec :=
  if _h : es = [] then some r
  else do
    let r' ← r.appendImmBlock (es.take blocksize)
    r'.appendImm (es.drop blocksize)
termination_by es.length
decreasing_by
  have : 0 < es.length := List.length_pos_iff.2 _h
  simp [blocksize]; omega

/-- loop of `append(size_t n, const Entry entrylist[])` (`CompressedSnapshotRecord.cpp:263-281`) with the staging
arrays `nodes` and `attr`/`data` -/
def Rec.appendLoop (r : Rec) (nodes : List U64) (imms : List (U64 × CVar)) : List SEntry → Option Rec
  | [] => do
    let r1 ← r.appendNodes nodes
    r1.appendImm imms
  | .empty :: es => r.appendLoop nodes imms es
  | .ref id :: es =>
    let nodes' := nodes ++ [id]
    if nodes'.length = blocksize then do
      let r1 ← r.appendNodes nodes'
      r1.appendLoop [] imms es
    else r.appendLoop nodes' imms es
  | .imm a v :: es =>
    let imms' := imms ++ [(a, v)]
    if imms'.length = blocksize then do
      let r1 ← r.appendImm imms'
      r1.appendLoop nodes [] es
    else r.appendLoop nodes imms' es

/-- `append(size_t n, const Entry entrylist[])` (`CompressedSnapshotRecord.cpp:251-287`) -/
def Rec.append (r : Rec) (es : List SEntry) : Option Rec := r.appendLoop [] [] es

/-- `size()` (`CompressedSnapshotRecord.h:120`) -/
def Rec.size (r : Rec) : Nat := min (r.immPos + r.immLen) r.buffer.length

/-- bytes handed out: `data()[0 .. size())` -/
def Rec.bytes (r : Rec) : List Byte := r.buffer.take r.size

/-- `class CompressedSnapshotRecordView` (`CompressedSnapshotRecord.h:27-35`) -/
structure View where
  buffer : List Byte
  numNodes : Nat
  numImm : Nat
  immPos : Nat
  immLen : Nat
  deriving DecidableEq, Repr

/-- decode `n` ids starting at `pos`, returning the final position (loops at `CompressedSnapshotRecord.cpp:51-52`,
`95-96`, `120-121`) -/
def decIds (buf : List Byte) : Nat → Nat → Option (List U64 × Nat)
  | 0, pos => some ([], pos)
  | n + 1, pos => do
    let (v, k) ← vldec (buf.drop pos)
    let (vs, p) ← decIds buf n (pos + k)
    some (v :: vs, p)

/-- decode `n` (id, variant) pairs starting at `pos` (loops at `CompressedSnapshotRecord.cpp:58-61`, `105-108`,
`127-132`) -/
def decImms (buf : List Byte) : Nat → Nat → Option (List (U64 × CVar) × Nat)
  | 0, pos => some ([], pos)
  | n + 1, pos => do
    let (a, k) ← vldec (buf.drop pos)
    let (v, j, _) ← variantUnpack (buf.drop (pos + k))
    let (vs, p) ← decImms buf n (pos + k + j)
    some ((a, v) :: vs, p)

/-- parsing constructor (`CompressedSnapshotRecord.cpp:45-65`): the view and the number of bytes consumed -/
def View.parse (buf : List Byte) : Option (View × Nat) := do
  let nn ← buf[0]?
  let (_, p) ← decIds buf nn.toNat 1
  let ni ← buf[p]?
  let (_, q) ← decImms buf ni.toNat (p + 1)
  some (⟨buf, nn.toNat, ni.toNat, p, q - p⟩, q)

/-- in-place view of a record (`CompressedSnapshotRecord.h:138-141`) -/
def Rec.view (r : Rec) : View := ⟨r.buffer, r.numNodes, r.numImm, r.immPos, r.immLen⟩

/-- `unpack_nodes` (`CompressedSnapshotRecord.cpp:90-97`): the ids stored into `node_vec` -/
def View.unpackNodes (v : View) (n : Nat) : Option (List U64) := (decIds v.buffer (min n v.numNodes) 1).map (·.1)

/-- `unpack_immediate` (`CompressedSnapshotRecord.cpp:100-109`) -/
def View.unpackImm (v : View) (n : Nat) : Option (List (U64 × CVar)) :=
  (decImms v.buffer (min n v.numImm) (v.immPos + 1)).map (·.1)

/-- `to_entrylist` (`CompressedSnapshotRecord.cpp:111-136`) -/
def View.toEntryList (v : View) : Option (List SEntry) := do
  let (ns, _) ← decIds v.buffer v.numNodes 1
  let (is, _) ← decImms v.buffer v.numImm (v.immPos + 1)
  some (ns.map .ref ++ is.map fun e => .imm e.1 e.2)

/-- `unpack_next_entry` (`CompressedSnapshotRecord.cpp:67-87`) with the state `(n, pos)` -/
def View.unpackNext (v : View) (n pos : Nat) : Option (SEntry × Nat × Nat) :=
  let pos := if n = 0 then 1 else pos
  if n < v.numNodes then do
    let (id, k) ← vldec (v.buffer.drop pos)
    some (.ref id, n + 1, pos + k)
  else
    let pos := if n = v.numNodes then v.immPos + 1 else pos
    if n < v.numNodes + v.numImm then do
      let (a, k) ← vldec (v.buffer.drop pos)
      let (x, j, _) ← variantUnpack (v.buffer.drop (pos + k))
      some (.imm a x, n + 1, pos + k + j)
    else some (.empty, n, pos)

/-- `unpack(c, fn)` (`CompressedSnapshotRecord.h:66-75`) with a callback that always continues: the entries passed
to it; `fuel` only makes the recursion structural and is chosen as the number of entries. -/
def View.unpackLoop (v : View) : Nat → Nat → Nat → Option (List SEntry)
  | 0, _, _ => some []
  | fuel + 1, n, pos =>
    if n < v.numNodes + v.numImm then do
      let (e, n', pos') ← v.unpackNext n pos
      let es ← v.unpackLoop fuel n' pos'
      some (e :: es)
    else some []

/-- `unpack(c, fn)` (`CompressedSnapshotRecord.h:66-75`) -/
def View.unpack (v : View) : Option (List SEntry) := v.unpackLoop (v.numNodes + v.numImm) 0 1

end Verif.CSR
