import Verif.Snapshot.CompressedLemmas
/-!
# Node and snapshot buffers

Model of `/repo/src/common/NodeBuffer.{h,cpp}` and `/repo/src/common/SnapshotBuffer.{h,cpp}`.
Newly allocated memory has arbitrary contents (`garbage`).
-/
namespace Verif.Buf
open Verif Verif.CSR

/-- The growing byte buffer both classes are made of (`NodeBuffer.h:20-25`, `SnapshotBuffer.h:20-25`);
`m_reserved_len` is `mem.length`. -/
structure GBuf where
  count : Nat
  pos : Nat
  mem : List Byte
  deriving Repr

/-- the constructors with a size (`NodeBuffer.cpp:102-103`, `SnapshotBuffer.cpp:33-35`); the default constructors
(`NodeBuffer.cpp:99`, `SnapshotBuffer.cpp:30`) are the case of an empty memory -/
def GBuf.init (mem : List Byte) : GBuf := ⟨0, 0, mem⟩

/-- `reserve(min)` (`NodeBuffer.cpp:83-97`, `SnapshotBuffer.cpp:15-28`) -/
def GBuf.reserve (garbage : Nat → Byte) (b : GBuf) (min : Nat) : Option GBuf :=
  if min ≤ b.mem.length then some b
  else do
    let old ← readAt b.mem 0 b.pos
    let fresh := (List.range (4096 + min * 2)).map garbage
    let mem ← writeAt fresh 0 old
    some { b with mem := mem }

/-- `import(size, count)` (`NodeBuffer.cpp:125-135`, `SnapshotBuffer.cpp:50-58`) followed by the external source
writing `bs` (of length `size`) into the returned buffer -/
def GBuf.importBytes (garbage : Nat → Byte) (b : GBuf) (bs : List Byte) (count : Nat) : Option GBuf := do
  let b1 ← b.reserve garbage bs.length
  let mem ← writeAt b1.mem 0 bs
  some { count := count, pos := bs.length, mem := mem }

/-- `data()[0 .. size())` -/
def GBuf.bytes (b : GBuf) : List Byte := b.mem.take b.pos

/-- `NodeBuffer::NodeInfo` (`NodeBuffer.h:29-34`).  The value is its type and its data bytes
(`Variant::type()`, `data()`, `size()`). -/
structure NodeInfo where
  id : U64
  attr : U64
  parent : U64
  type : AttrType
  data : List Byte
  deriving DecidableEq, Repr

/-- `CALI_INV_ID` (`/repo/include/caliper/common/cali_types.h:23`) -/
def invId : U64 := 0xFFFFFFFFFFFFFFFF#64

/-- `max_packed_size` (`NodeBuffer.cpp:28-31`) -/
def maxPackedSize (n : NodeInfo) : Nat := 50 + n.data.length

/-- bytes written by `pack_node` (`NodeBuffer.cpp:33-56`) -/
def packNode (n : NodeInfo) : List Byte :=
  let haveParent := n.parent ≠ invId
  vlenc (2 * n.id + (if haveParent then 1 else 0)) ++ vlenc n.attr ++ (if haveParent then vlenc n.parent else []) ++
    vlenc (BitVec.ofNat 64 n.type.code) ++ vlenc (BitVec.ofNat 64 n.data.length) ++ n.data

/-- `unpack_node` (`NodeBuffer.cpp:58-81`): the node record and the number of bytes consumed -/
def unpackNode (buf : List Byte) : Option (NodeInfo × Nat) := do
  let (u, p1) ← vldec buf
  let (attr, k2) ← vldec (buf.drop p1)
  let p2 := p1 + k2
  let (parent, p3) ← if u % 2 = 1 then (vldec (buf.drop p2)).map (fun x => (x.1, p2 + x.2)) else some (invId, p2)
  let (t, k4) ← vldec (buf.drop p3)
  let p4 := p3 + k4
  let (sz, k5) ← vldec (buf.drop p4)
  let p5 := p4 + k5
  let data ← readAt buf p5 sz.toNat
  let type := if t.toNat ≤ maxType then AttrType.ofCode t.toNat else AttrType.inv
  some (⟨u / 2, attr, parent, type, data⟩, p5 + sz.toNat)

/-- `NodeBuffer::append` (`NodeBuffer.cpp:110-116`) -/
def GBuf.appendNode (garbage : Nat → Byte) (b : GBuf) (n : NodeInfo) : Option GBuf := do
  let b1 ← b.reserve garbage (b.pos + maxPackedSize n)
  let mem ← writeAt b1.mem b1.pos (packNode n)
  some { count := b1.count + 1, pos := b1.pos + (packNode n).length, mem := mem }

/-- `NodeBuffer::for_each` (`NodeBuffer.cpp:137-143`): the records passed to the callback; the first argument
counts the remaining iterations `m_count - i`. -/
def forEachNode (mem : List Byte) (mpos : Nat) : Nat → Nat → Option (List NodeInfo)
  | 0, _ => some []
  | n + 1, pos =>
    if pos < mpos then do
      let (x, k) ← unpackNode (mem.drop pos)
      let xs ← forEachNode mem mpos n (pos + k)
      some (x :: xs)
    else some []

/-- `NodeBuffer::for_each` -/
def GBuf.nodes (b : GBuf) : Option (List NodeInfo) := forEachNode b.mem b.pos b.count 0

/-- `SnapshotBuffer::append` (`SnapshotBuffer.cpp:42-48`) -/
def GBuf.appendRec (garbage : Nat → Byte) (b : GBuf) (r : Rec) : Option GBuf := do
  let b1 ← b.reserve garbage (b.pos + r.size)
  let bs ← readAt r.buffer 0 r.size
  let mem ← writeAt b1.mem b1.pos bs
  some { count := b1.count + 1, pos := b1.pos + r.size, mem := mem }

/-- `SnapshotBuffer::for_each` (`SnapshotBuffer.cpp:60-66`): the views passed to the callback -/
def forEachRec (mem : List Byte) (mpos : Nat) : Nat → Nat → Option (List View)
  | 0, _ => some []
  | n + 1, pos =>
    if pos < mpos then do
      let (v, k) ← View.parse (mem.drop pos)
      let vs ← forEachRec mem mpos n (pos + k)
      some (v :: vs)
    else some []

/-- `SnapshotBuffer::for_each` -/
def GBuf.views (b : GBuf) : Option (List View) := forEachRec b.mem b.pos b.count 0

/-! ## lemmas -/

theorem reserve_spec (g : Nat → Byte) (b : GBuf) (n : Nat) (hp : b.pos ≤ b.mem.length) :
    ∃ b', b.reserve g n = some b' ∧ b'.count = b.count ∧ b'.pos = b.pos ∧ n ≤ b'.mem.length ∧
      b'.mem.take b.pos = b.mem.take b.pos := by
  unfold GBuf.reserve
  split
  · exact ⟨b, rfl, rfl, rfl, by assumption, rfl⟩
  · have e1 : readAt b.mem 0 b.pos = some (b.mem.take b.pos) := by
      unfold readAt; rw [if_pos (by omega)]; simp
    have e2 : writeAt ((List.range (4096 + n * 2)).map g) 0 (b.mem.take b.pos) =
        some (b.mem.take b.pos ++ ((List.range (4096 + n * 2)).map g).drop (b.mem.take b.pos).length) := by
      unfold writeAt; rw [if_pos (by simp; omega)]; simp
    rw [e1]
    simp only [Option.bind_eq_bind, Option.bind_some, e2]
    refine ⟨_, rfl, rfl, rfl, ?_, ?_⟩
    · simp; omega
    · rw [List.take_append_of_le_length (by simp; omega), List.take_take, Nat.min_self]

theorem two_mul_mod (x : U64) (c : Nat) (hx : x.toNat < 2 ^ 63) (hc : c < 2) :
    (2 * x + BitVec.ofNat 64 c) % 2 = BitVec.ofNat 64 c ∧ (2 * x + BitVec.ofNat 64 c) / 2 = x := by
  have t2 : BitVec.toNat (2 : U64) = 2 := rfl
  have e : (2 * x + BitVec.ofNat 64 c).toNat = 2 * x.toNat + c := by
    simp only [BitVec.toNat_add, BitVec.toNat_mul, BitVec.toNat_ofNat, t2]
    omega
  constructor
  · apply BitVec.eq_of_toNat_eq
    rw [BitVec.toNat_umod, e, t2]
    simp only [BitVec.toNat_ofNat]
    omega
  · apply BitVec.eq_of_toNat_eq
    rw [BitVec.toNat_udiv, e, t2]
    omega

theorem ofCode_code64 (t : AttrType) :
    (BitVec.ofNat 64 t.code).toNat ≤ maxType ∧ AttrType.ofCode (BitVec.ofNat 64 t.code).toNat = t := by
  cases t <;> decide

theorem unpack_pack (n : NodeInfo) (rest : List Byte) (hid : n.id.toNat < 2 ^ 63) (hs : n.data.length < 2 ^ 64) :
    unpackNode (packNode n ++ rest) = some (n, (packNode n).length) := by
  obtain ⟨id, attr, parent, type, data⟩ := n
  simp only at hid hs
  have hsz : (BitVec.ofNat 64 data.length).toNat = data.length := by simp; omega
  by_cases hp : parent = invId
  · have hu := two_mul_mod id 0 hid (by omega)
    have e0 : packNode ⟨id, attr, parent, type, data⟩ = vlenc (2 * id + BitVec.ofNat 64 0) ++ vlenc attr ++
        vlenc (BitVec.ofNat 64 type.code) ++ vlenc (BitVec.ofNat 64 data.length) ++ data := by
      simp [packNode, hp]
    rw [e0]
    generalize hU : 2 * id + BitVec.ofNat 64 0 = U at hu
    unfold unpackNode
    have d1 := vldec_vlenc_append U (vlenc attr ++ (vlenc (BitVec.ofNat 64 type.code) ++ (vlenc (BitVec.ofNat 64 data.length) ++ (data ++ rest))))
    have e : vlenc U ++ vlenc attr ++ vlenc (BitVec.ofNat 64 type.code) ++ vlenc (BitVec.ofNat 64 data.length) ++ data ++ rest
      = vlenc U ++ (vlenc attr ++ (vlenc (BitVec.ofNat 64 type.code) ++ (vlenc (BitVec.ofNat 64 data.length) ++ (data ++ rest)))) := by simp
    rw [e, d1]
    simp only [Option.bind_eq_bind, Option.bind_some, List.drop_left, vldec_vlenc_append]
    rw [if_neg (by rw [hu.1]; decide)]
    dsimp only [Option.bind]
    rw [← List.length_append, ← List.append_assoc, List.drop_left, vldec_vlenc_append]
    simp only [Option.bind_some]
    rw [← List.length_append, ← List.append_assoc, List.drop_left, vldec_vlenc_append]
    simp only [Option.bind_some]
    rw [← List.length_append, ← List.append_assoc, ← List.append_assoc, hsz, readAt_append]
    simp only [Option.bind_some, hu.2, (ofCode_code64 type).1, if_true, (ofCode_code64 type).2, hp]
    rw [← List.length_append]
  · have hu := two_mul_mod id 1 hid (by omega)
    have e0 : packNode ⟨id, attr, parent, type, data⟩ = vlenc (2 * id + BitVec.ofNat 64 1) ++ vlenc attr ++ vlenc parent ++
        vlenc (BitVec.ofNat 64 type.code) ++ vlenc (BitVec.ofNat 64 data.length) ++ data := by
      simp [packNode, hp]
    rw [e0]
    generalize hU : 2 * id + BitVec.ofNat 64 1 = U at hu
    unfold unpackNode
    have d1 := vldec_vlenc_append U (vlenc attr ++ (vlenc parent ++ (vlenc (BitVec.ofNat 64 type.code) ++ (vlenc (BitVec.ofNat 64 data.length) ++ (data ++ rest)))))
    have e : vlenc U ++ vlenc attr ++ vlenc parent ++ vlenc (BitVec.ofNat 64 type.code) ++ vlenc (BitVec.ofNat 64 data.length) ++ data ++ rest
      = vlenc U ++ (vlenc attr ++ (vlenc parent ++ (vlenc (BitVec.ofNat 64 type.code) ++ (vlenc (BitVec.ofNat 64 data.length) ++ (data ++ rest))))) := by simp
    rw [e, d1]
    simp only [Option.bind_eq_bind, Option.bind_some, List.drop_left, vldec_vlenc_append]
    rw [if_pos (by rw [hu.1]; rfl)]
    rw [← List.length_append, ← List.append_assoc, List.drop_left, vldec_vlenc_append]
    simp only [Option.map_some, Option.bind_some]
    rw [← List.length_append, ← List.append_assoc, List.drop_left, vldec_vlenc_append]
    simp only [Option.bind_some]
    rw [← List.length_append, ← List.append_assoc, List.drop_left, vldec_vlenc_append]
    simp only [Option.bind_some]
    rw [← List.length_append, ← List.append_assoc, ← List.append_assoc, hsz, readAt_append]
    simp only [Option.bind_some, hu.2, (ofCode_code64 type).1, if_true, (ofCode_code64 type).2]
    rw [← List.length_append]

theorem packNode_length (n : NodeInfo) : 0 < (packNode n).length ∧ (packNode n).length ≤ maxPackedSize n := by
  unfold packNode maxPackedSize
  simp only [List.length_append]
  have h := vlenc_length_le
  have h1 := h (2 * n.id + (if n.parent ≠ invId then 1 else 0))
  have h1' := vlenc_length_pos (2 * n.id + (if n.parent ≠ invId then 1 else 0))
  have h2 := h n.attr
  have h3 : (if n.parent ≠ invId then vlenc n.parent else []).length ≤ 10 := by split <;> simp [h]
  have h4 := h (BitVec.ofNat 64 n.type.code)
  have h5 := h (BitVec.ofNat 64 n.data.length)
  omega

/-- contents of a node buffer -/
def Holds (b : GBuf) (bss : List (List Byte)) : Prop :=
  b.pos ≤ b.mem.length ∧ b.bytes = bss.flatten ∧ b.count = bss.length

theorem holds_append {b : GBuf} {bss : List (List Byte)} (h : Holds b bss) (g : Nat → Byte) (n : Nat) (x : List Byte)
    (hn : b.pos + x.length ≤ n) :
    ∃ b1 mem, b.reserve g n = some b1 ∧ b1.count = b.count ∧ b1.pos = b.pos ∧ writeAt b1.mem b1.pos x = some mem ∧
      Holds ⟨b1.count + 1, b1.pos + x.length, mem⟩ (bss ++ [x]) := by
  obtain ⟨hp, hb, hc⟩ := h
  obtain ⟨b1, h1, hc1, hp1, hl1, ht1⟩ := reserve_spec g b n hp
  obtain ⟨mem, hm, hml⟩ := writeAt_some b1.mem x b1.pos (by omega)
  refine ⟨b1, mem, h1, hc1, hp1, hm, by simp only; omega, ?_, by simp; omega⟩
  unfold GBuf.bytes at hb ⊢
  simp only [List.flatten_append, List.flatten_cons, List.flatten_nil, List.append_nil]
  unfold writeAt at hm
  rw [if_pos (by omega)] at hm
  simp only [Option.some.injEq] at hm
  subst hm
  rw [hp1, ht1, ← hb]
  rw [List.take_append_of_le_length (by simp; omega), List.take_of_length_le (by simp; omega)]

theorem forEach_nodes (ns : List NodeInfo) (hn : ∀ n ∈ ns, n.id.toNat < 2 ^ 63 ∧ n.data.length < 2 ^ 64)
    (mem : List Byte) (mpos : Nat) : ∀ (A R : List Byte), mem = A ++ (ns.map packNode).flatten ++ R →
    mpos = A.length + (ns.map packNode).flatten.length → forEachNode mem mpos ns.length A.length = some ns := by
  induction ns with
  | nil => intro A R _ _; rfl
  | cons n ns ih =>
    intro A R hm hp
    have hx := hn n (by simp)
    have hl := packNode_length n
    simp only [List.length_cons, forEachNode]
    rw [if_pos (by rw [hp]; simp; omega)]
    have e : mem.drop A.length = packNode n ++ ((ns.map packNode).flatten ++ R) := by rw [hm]; simp
    rw [e, unpack_pack n _ hx.1 hx.2]
    simp only [Option.bind_eq_bind, Option.bind_some]
    have := ih (fun x h => hn x (List.mem_cons_of_mem _ h)) (A ++ packNode n) R (by rw [hm]; simp) (by rw [hp]; simp; omega)
    rw [List.length_append] at this
    rw [this]
    rfl

/-- a byte string that is a well-formed record with contents `(ns, is)` -/
def IsRec (bs : List Byte) (c : List U64 × List (U64 × CVar)) : Prop :=
  bs = [BitVec.ofNat 8 c.1.length] ++ encNodes c.1 ++ ([BitVec.ofNat 8 c.2.length] ++ encImm c.2) ∧
  c.1.length < 128 ∧ c.2.length < 128 ∧ ∀ e ∈ c.2, ValidVar e.2

theorem forEach_recs (cs : List (List U64 × List (U64 × CVar))) (bss : List (List Byte)) (h : List.Forall₂ IsRec bss cs)
    (mem : List Byte) (mpos : Nat) : ∀ (A R : List Byte), mem = A ++ bss.flatten ++ R →
    mpos = A.length + bss.flatten.length →
    ∃ vs, forEachRec mem mpos cs.length A.length = some vs ∧
      vs.mapM View.toEntryList = some (cs.map fun c => c.1.map SEntry.ref ++ c.2.map fun e => SEntry.imm e.1 e.2) := by
  induction h with
  | nil => intro A R _ _; exact ⟨[], rfl, rfl⟩
  | @cons x c xs cs hx _ ih =>
    intro A R hm hp
    obtain ⟨hx, h1, h2, hv⟩ := hx
    have e : mem.drop A.length = [BitVec.ofNat 8 c.1.length] ++ encNodes c.1 ++ ([BitVec.ofNat 8 c.2.length] ++ encImm c.2) ++ (xs.flatten ++ R) := by
      rw [hm, ← hx]; simp
    obtain ⟨p1, p2, p3⟩ := parse_enc c.1 c.2 h1 h2 hv (xs.flatten ++ R) _ e
    have hxl : x.length = 2 + (encNodes c.1).length + (encImm c.2).length := by
      rw [hx]; simp only [List.length_append, List.length_cons, List.length_nil]; omega
    simp only [List.length_cons, forEachRec]
    rw [if_pos (by rw [hp]; simp; omega), p1]
    simp only [Option.bind_eq_bind, Option.bind_some]
    obtain ⟨vs, hvs, hvm⟩ := ih (A ++ x) R (by rw [hm]; simp) (by rw [hp]; simp; omega)
    rw [List.length_append, hxl] at hvs
    rw [hvs]
    refine ⟨_, rfl, ?_⟩
    have t : View.toEntryList ⟨mem.drop A.length, c.1.length, c.2.length, 1 + (encNodes c.1).length, 1 + (encImm c.2).length⟩ =
        some (c.1.map SEntry.ref ++ c.2.map fun e => SEntry.imm e.1 e.2) := by
      unfold View.toEntryList
      simp only [p2, p3, Option.bind_eq_bind, Option.bind_some]
    rw [List.mapM_cons, t]
    simp only [Option.bind_eq_bind, Option.bind_some, hvm, List.map_cons, Option.pure_def]

end Verif.Buf
