import Verif.Vlenc.Model
/-!
# Variants

Model of `/repo/src/common/cali_variant.c` and `/repo/include/caliper/common/cali_variant.h`.

A variant is its two 64-bit words.  Memory that string/blob variants point to is a partial function
from addresses to bytes; reading an address that is not readable is the outcome `none` (undefined
behaviour in C).  Floating-point conversion is not modelled: it is a parameter where it occurs.
-/
namespace Verif

/-- `cali_attr_type` (`/repo/include/caliper/common/cali_types.h:28-39`). -/
inductive AttrType where
  | inv | usr | int | uint | string | addr | double | bool | type | ptr
  deriving DecidableEq, Repr

/-- numeric values of the enumerators (`cali_types.h:29-38`) -/
def AttrType.code : AttrType → Nat
  | .inv => 0 | .usr => 1 | .int => 2 | .uint => 3 | .string => 4
  | .addr => 5 | .double => 6 | .bool => 7 | .type => 8 | .ptr => 9

/-- `CALI_MAXTYPE` (`cali_types.h:41`) -/
def maxType : Nat := 9

/-- `(t <= CALI_MAXTYPE ? (cali_attr_type) t : CALI_TYPE_INV)`, used in every function of `cali_variant.c`
(e.g. lines 27-28, 56). -/
def AttrType.ofCode : Nat → AttrType
  | 1 => .usr | 2 => .int | 3 => .uint | 4 => .string | 5 => .addr
  | 6 => .double | 7 => .bool | 8 => .type | 9 => .ptr | _ => .inv

/-- readable memory: `none` = not readable -/
abbrev Mem := U64 → Option Byte

/-- read `n` bytes from address `p` -/
def readBytes (m : Mem) (p : U64) : Nat → Option (List Byte)
  | 0 => some []
  | n + 1 =>
    match m p, readBytes m (p + 1) n with
    | some b, some bs => some (b :: bs)
    | _, _ => none

/-- little-endian value of a byte list (in-memory representation of integers, x86-64) -/
def leVal : List Byte → Nat
  | [] => 0
  | b :: bs => b.toNat + 256 * leVal bs

/-- `cali_variant_t` (`cali_variant.h:26-44`): `type_and_size` and the value union seen as `v_uint`. -/
structure CVar where
  ts : U64
  val : U64
  deriving DecidableEq, Repr

/-- `_EXTRACT_TYPE` followed by the range check (`cali_variant.c:15`, `27-28`) -/
def CVar.type (v : CVar) : AttrType := AttrType.ofCode (v.ts &&& 0xFF#64).toNat

/-- `_EXTRACT_SIZE` (`cali_variant.c:16`) -/
def CVar.extractSize (v : CVar) : Nat := (v.ts >>> 32).toNat

/-- `cali_make_empty_variant` (`cali_variant.h:49-55`) -/
def CVar.empty : CVar := ⟨0, 0⟩

/-- `cali_variant_is_empty` (`cali_variant.h:59-62`) -/
def CVar.isEmpty (v : CVar) : Bool := v.ts == 0

/-- `cali_variant_get_size` (`cali_variant.c:25-51`) -/
def CVar.size (v : CVar) : Nat :=
  match v.type with
  | .inv => 0
  | .usr | .string => v.extractSize
  | .int | .uint | .addr => 8
  | .double => 8
  | .bool => 1
  | .type => 4
  | .ptr => 8

/-- the hash of a blob (`cali_variant.c:96-104`, `cali_variant.h:129-135`): bytes 0, size/2, size-1 shifted into bits 8..31 -/
def blobHash (b0 bm bl : Byte) : U64 :=
  (((((b0.setWidth 64 <<< 8) ||| bm.setWidth 64) <<< 8) ||| bl.setWidth 64) <<< 8)

/-- `cali_make_variant` (`cali_variant.c:82-132`).  `size` is a `size_t`. -/
def makeVariant (m : Mem) (t : AttrType) (p : U64) (size : U64) : Option CVar :=
  let tc : U64 := BitVec.ofNat 64 t.code
  match t with
  | .inv => some ⟨tc, 0⟩
  | .usr | .string =>
    if size = 0 then some ⟨(size <<< 32) ||| 0 ||| tc, p⟩
    else do
      let b0 ← m p
      let bm ← m (p + BitVec.ofNat 64 (size.toNat / 2))
      let bl ← m (p + (size - 1))
      some ⟨(size <<< 32) ||| blobHash b0 bm bl ||| tc, p⟩
  | .int | .addr | .uint | .double => do
    let bs ← readBytes m p 8
    some ⟨tc, BitVec.ofNat 64 (leVal bs)⟩
  | .bool => do
    let bs ← readBytes m p 1
    some ⟨tc, BitVec.ofNat 64 (leVal bs)⟩
  | .type => do
    let bs ← readBytes m p 4
    some ⟨tc, BitVec.ofNat 64 (leVal bs)⟩
  | .ptr => some ⟨tc, p⟩

/-- `strlen`, with `fuel` bounding the search (the address space) -/
def strlen (m : Mem) (p : U64) : Nat → Option Nat
  | 0 => none
  | fuel + 1 =>
    match m p with
    | none => none
    | some b => if b = 0 then some 0 else (strlen m (p + 1) fuel).map (· + 1)

/-- `cali_make_variant_from_string` (`cali_variant.h:124-143`).  Note that, unlike `cali_make_variant`,
there is no `size > 0` guard around the hash: for the empty string the code reads `p[size - 1] = p[-1]`. -/
def makeVariantFromString (m : Mem) (p : U64) : Option CVar := do
  let n ← strlen m p (2 ^ 64)
  let size : U64 := BitVec.ofNat 64 n
  let b0 ← m p
  let bm ← m (p + BitVec.ofNat 64 (size.toNat / 2))
  let bl ← m (p + (size - 1))
  some ⟨(size <<< 32) ||| blobHash b0 bm bl ||| BitVec.ofNat 64 AttrType.string.code, p⟩

/-- `cali_make_variant_from_bool` (`cali_variant.h:83-90`) -/
def CVar.ofBool (b : Bool) : CVar := ⟨7, if b then 1 else 0⟩
/-- `cali_make_variant_from_int64` (`cali_variant.h:100-106`); `_from_int` (92-98) sign-extends and does the same. -/
def CVar.ofInt64 (i : BitVec 64) : CVar := ⟨2, i⟩
/-- `cali_make_variant_from_int` (`cali_variant.h:92-98`) -/
def CVar.ofInt (i : BitVec 32) : CVar := ⟨2, i.signExtend 64⟩
/-- `cali_make_variant_from_uint` (`cali_variant.h:108-114`) -/
def CVar.ofUInt (u : U64) : CVar := ⟨3, u⟩
/-- `cali_make_variant_from_double` (`cali_variant.h:116-122`), `d` = IEEE bit pattern -/
def CVar.ofDoubleBits (d : U64) : CVar := ⟨6, d⟩
/-- `cali_make_variant_from_type` (`cali_variant.h:145-152`) -/
def CVar.ofType (t : AttrType) : CVar := ⟨8, BitVec.ofNat 64 t.code⟩
/-- `cali_make_variant_from_ptr` (`cali_variant.h:154-160`) -/
def CVar.ofPtr (p : U64) : CVar := ⟨9, p⟩

/-- the sign of `memcmp` on two byte strings of equal length (only the sign is specified by C) -/
def memcmpSign : List Byte → List Byte → Int
  | a :: as, b :: bs => if a.toNat < b.toNat then -1 else if b.toNat < a.toNat then 1 else memcmpSign as bs
  | _, _ => 0

/-- the sign of `strncmp` on two byte strings of equal length: like `memcmp` but stops after a
common NUL byte -/
def strncmpSign : List Byte → List Byte → Int
  | a :: as, b :: bs =>
    if a.toNat < b.toNat then -1 else if b.toNat < a.toNat then 1
    else if a = 0 then 0 else strncmpSign as bs
  | _, _ => 0

/-- `_cali_variant_value_eq` (`cali_variant.c:501-525`) -/
def valueEq (m : Mem) (l r : CVar) : Option Bool :=
  match (l.ts &&& 0xFF#64).toNat with
  | 1 | 4 =>
    if l.val = r.val then some true
    else do
      let a ← readBytes m l.val l.extractSize
      let b ← readBytes m r.val l.extractSize
      some (memcmpSign a b == 0)
  | _ => some (l.val == r.val)

/-- `cali_variant_eq` (`cali_variant.h:195-198`) -/
def variantEq (m : Mem) (l r : CVar) : Option Bool :=
  if l.ts = r.ts then valueEq m l r else some false

/-- conversion of a 64-bit value to `int` (keeps the low 32 bits, two's complement) -/
def toCInt (x : U64) : Int := (x.setWidth 32).toInt

/-- `cali_variant_compare` (`cali_variant.c:447-499`).  `dcmp` is the comparison of doubles through the
sign of their IEEE difference (lines 482-486), not modelled.  For strings the second argument of
`imin` and the size difference are C `int`s (lines 460-464, 468-472). For `strncmp` C only requires
the bytes up to a terminating NUL to be readable; the model requires the full `imin(...)` range. -/
def variantCompare (dcmp : U64 → U64 → Int) (m : Mem) (l r : CVar) : Option Int :=
  if l.type = r.type then
    match l.type with
    | .inv => some (toCInt (l.val - r.val))
    | .usr =>
      let ls := toCInt (BitVec.ofNat 64 l.extractSize)
      let rs := toCInt (BitVec.ofNat 64 r.extractSize)
      let n := min ls rs
      do
        let a ← readBytes m l.val n.toNat
        let b ← readBytes m r.val n.toNat
        let cmp := memcmpSign a b
        some (if cmp ≠ 0 then cmp else ls - rs)
    | .string =>
      let ls := toCInt (BitVec.ofNat 64 l.extractSize)
      let rs := toCInt (BitVec.ofNat 64 r.extractSize)
      let n := min ls rs
      do
        let a ← readBytes m l.val n.toNat
        let b ← readBytes m r.val n.toNat
        let cmp := strncmpSign a b
        some (if cmp ≠ 0 then cmp else ls - rs)
    | .int => some (toCInt (l.val - r.val))
    | .addr | .uint =>
      let diff := l.val - r.val
      some (if diff = 0 then 0 else if diff > l.val then -1 else 1)
    | .double => some (dcmp l.val r.val)
    | .bool =>
      some ((if l.val &&& 0xFF#64 ≠ 0 then 1 else 0) - (if r.val &&& 0xFF#64 ≠ 0 then 1 else 0))
    | .type => some (toCInt l.val - toCInt r.val)
    | .ptr => some (toCInt (l.val - r.val))
  else some ((l.type.code : Int) - r.type.code)

/-- numeric reading of the value union as `v_bool`: the low byte -/
def CVar.vBool (v : CVar) : Bool := v.val &&& 0xFF#64 ≠ 0

/-- `cali_variant_to_int` (`cali_variant.c:164-207`): (result, ok).  `d2i` = `(int) double`, not modelled. -/
def toInt (d2i : U64 → Int) (v : CVar) : Int × Bool :=
  match v.type with
  | .inv | .usr | .string | .ptr => (0, false)
  | .int =>
    if v.val.toInt ≥ -2147483648 ∧ v.val.toInt ≤ 2147483647 then (toCInt v.val, true) else (0, false)
  | .addr | .uint =>
    if v.val.toNat ≤ 2147483647 then (toCInt v.val, true) else (0, false)
  | .double => (d2i v.val, true)
  | .bool => (if v.vBool then 1 else 0, true)
  | .type => (toCInt v.val, true)

/-- `cali_variant_to_int64` (`cali_variant.c:221-261`) -/
def toInt64 (d2i : U64 → Int) (v : CVar) : Int × Bool :=
  match v.type with
  | .inv | .usr | .string | .ptr => (0, false)
  | .int => (v.val.toInt, true)
  | .addr | .uint => if v.val.toNat ≤ 9223372036854775807 then (v.val.toInt, true) else (0, false)
  | .double => (d2i v.val, true)
  | .bool => (if v.vBool then 1 else 0, true)
  | .type => (toCInt v.val, true)

/-- `cali_variant_to_uint` (`cali_variant.c:275-315`); `(uint64_t) v_type` sign-extends the enum value. -/
def toUInt (d2u : U64 → Nat) (v : CVar) : Nat × Bool :=
  match v.type with
  | .inv | .usr | .string | .ptr => (0, false)
  | .int => if v.val.toInt ≥ 0 then (v.val.toNat, true) else (0, false)
  | .addr | .uint => (v.val.toNat, true)
  | .double => (d2u v.val, true)
  | .bool => (if v.vBool then 1 else 0, true)
  | .type => (((v.val.setWidth 32).signExtend 64).toNat, true)

/-- `cali_variant_to_bool` (`cali_variant.c:380-407`) -/
def toBool (v : CVar) : Bool × Bool :=
  match v.type with
  | .int => (v.val ≠ 0, true)
  | .uint | .addr => (v.val ≠ 0, true)
  | .bool => (v.vBool, true)
  | _ => (false, false)

/-- `cali_variant_to_type` (`cali_variant.c:420-440`): the enum value as the low 32 bits, as `int` -/
def toType (v : CVar) : Int × Bool :=
  match v.type with
  | .type => (toCInt v.val, true)
  | _ => (0, false)

/-- `cali_variant_pack` (`cali_variant.c:529-537`): bytes written -/
def variantPack (v : CVar) : List Byte := vlenc v.ts ++ vlenc v.val

/-- `cali_variant_unpack` (`cali_variant.c:539-562`): (variant, bytes added to `*inc`, ok).
On an invalid type code `*inc` is not advanced. `none`: read past the end of the buffer. -/
def variantUnpack (buf : List Byte) : Option (CVar × Nat × Bool) := do
  let (ts, p) ← vldec buf
  if (ts &&& 0xFF#64).toNat > maxType then
    some (CVar.empty, 0, false)
  else do
    let (val, q) ← vldec (buf.drop p)
    some (⟨ts, val⟩, p + q, true)

end Verif
