import Verif.Variant.Model
/-!
# The textual form of values in `.cali` files

Model of `write_uint64`, `write_cali_esc_string` (`/repo/src/common/util/format_util.h`), `Variant::write_cali`,
`Variant::to_string`, `Variant::from_string` (`/repo/src/common/Variant.cpp`), `StringConverter`
(`/repo/src/common/StringConverter.cpp`), `str_to_uint64` (`/repo/src/common/util/parse_util.h`),
`read_uint64_element`, `read_escaped_word` (`/repo/src/reader/CaliReader.cpp`), `cali_type2string`,
`cali_string2type` (`/repo/src/common/cali_types.c`).

Text is a list of bytes; `char` is signed (x86-64).  The C library's `strtoll`, `std::stoull` and the decimal and
hexadecimal integer output of `std::ostream` are modelled from the C and C++ standards; formatting and parsing of
`double` are parameters (`DblFmt`).
-/
namespace Verif.Cali
open Verif

/-- a character constant -/
def ch (c : Char) : Byte := BitVec.ofNat 8 c.toNat

/-- a string constant -/
def str (s : String) : List Byte := s.toList.map ch

/-! ## digits -/

/-- character of a digit (lower case), as `std::ostream` and `write_uint64` produce it -/
def digitChar (d : Nat) : Byte := BitVec.ofNat 8 (if d < 10 then 48 + d else 87 + d)

/-- The digit loop of `write_uint64` (`format_util.h:23-26`): digits are produced from the end, at least one. -/
def digitsLoop (b : Nat) (v : Nat) (acc : List Byte) : List Byte :=
  let acc' := digitChar (v % b) :: acc
  if _h : v / b > 0 ∧ 1 < b then digitsLoop b (v / b) acc' else acc'
termination_by v
decreasing_by
  have : 0 < v := by rcases Nat.eq_zero_or_pos v with h | h; · simp [h] at _h
                     · exact h
  exact Nat.div_lt_self this _h.2

/-- `write_uint64` (`format_util.h:19-29`); also `std::ostream << unsigned` in decimal -/
def writeUint (v : U64) : List Byte := digitsLoop 10 v.toNat []

/-- `os << std::hex << v` (`Variant.cpp:77-78`) -/
def writeHex (v : U64) : List Byte := digitsLoop 16 v.toNat []

/-- `os << (int64_t) v` (`Variant.cpp:154`) -/
def writeInt (v : BitVec 64) : List Byte :=
  if v.toInt < 0 then ch '-' :: digitsLoop 10 v.toInt.natAbs [] else digitsLoop 10 v.toInt.natAbs []

/-- value of a digit character -/
def digitVal (c : Byte) : Option Nat :=
  let n := c.toNat
  if 48 ≤ n ∧ n ≤ 57 then some (n - 48)
  else if 97 ≤ n ∧ n ≤ 102 then some (n - 87)
  else if 65 ≤ n ∧ n ≤ 70 then some (n - 55)
  else none

/-- longest digit prefix in base `b`: value so far, number of digits -/
def digitsVal (b : Nat) : List Byte → Nat → Nat → Nat × Nat
  | [], v, k => (v, k)
  | c :: cs, v, k =>
    match digitVal c with
    | some d => if d < b then digitsVal b cs (v * b + d) (k + 1) else (v, k)
    | none => (v, k)

/-- `isspace` in the C locale -/
def isSpace (c : Byte) : Bool := c = 32 ∨ (9 ≤ c.toNat ∧ c.toNat ≤ 13)

/-- optional sign -/
def sign : List Byte → Bool × List Byte
  | c :: cs => if c = ch '-' then (true, cs) else if c = ch '+' then (false, cs) else (false, c :: cs)
  | [] => (false, [])

/-- `strtoll(str, &end, 10)` with `str != end` as success (`Variant.cpp:108-111`); saturating -/
def strtoll (s : List Byte) : Option Int :=
  let (neg, d) := sign (s.dropWhile isSpace)
  let (v, k) := digitsVal 10 d 0 0
  if k = 0 then none
  else
    let i : Int := if neg then -(v : Int) else v
    some (max (-(2 ^ 63)) (min (2 ^ 63 - 1) i))

/-- optional `0x` prefix of `strtoull` in base 16: skipped only when a hex digit follows -/
def hexPrefix : List Byte → List Byte
  | c :: x :: d :: cs =>
    if c = ch '0' ∧ (x = ch 'x' ∨ x = ch 'X') ∧ (digitVal d).isSome then d :: cs else c :: x :: d :: cs
  | cs => cs

/-- `StringConverter::to_uint(&ok, 16)` (`StringConverter.cpp:100-117`) on `std::stoull(s, nullptr, 16)`: fails
without digits or out of range; a minus sign negates modulo 2^64 -/
def stoull16 (s : List Byte) : Option U64 :=
  let (neg, d) := sign (s.dropWhile isSpace)
  let (v, k) := digitsVal 16 (hexPrefix d) 0 0
  if k = 0 ∨ 2 ^ 64 ≤ v then none else some (if neg then - BitVec.ofNat 64 v else BitVec.ofNat 64 v)

/-- `std::stoul(s)` used as boolean (`StringConverter.cpp:46-54`): `i != 0` -/
def stoulBool (s : List Byte) : Option Bool :=
  let (_, d) := sign (s.dropWhile isSpace)
  let (v, k) := digitsVal 10 d 0 0
  if k = 0 ∨ 2 ^ 64 ≤ v then none else some (v ≠ 0)

/-- the loop of `str_to_uint64` (`parse_util.h:40-48`): value and number of digits -/
def strToUintLoop : List Byte → U64 → Nat → U64 × Nat
  | [], v, k => (v, k)
  | c :: cs, v, k =>
    if 48 ≤ c.toInt ∧ c.toInt ≤ 57 then strToUintLoop cs (v * 10 + (c.signExtend 64 - 48)) (k + 1) else (v, k)

/-- `str_to_uint64` (`parse_util.h:40-48`) -/
def strToUint (s : List Byte) : Option U64 :=
  let (v, k) := strToUintLoop s 0 0
  if k ≠ 0 then some v else none

/-- `read_uint64_element` (`CaliReader.cpp:60-76`): value and the rest of the line -/
def readUint : List Byte → U64 → U64 × List Byte
  | [], v => (v, [])
  | c :: cs, v =>
    if c = ch '=' ∨ c = ch ',' then (v, c :: cs) else readUint cs (v * 10 + (c.signExtend 64 - 48))

/-! ## strings -/

/-- `write_cali_esc_string` (`format_util.h:55-75`) -/
def writeEsc : List Byte → List Byte
  | [] => []
  | c :: cs =>
    if c.toInt < 32 then (if c = ch '\n' then ch '\\' :: ch 'n' :: writeEsc cs else writeEsc cs)
    else if c = ch '\\' ∨ c = ch ',' ∨ c = ch '=' then ch '\\' :: c :: writeEsc cs
    else c :: writeEsc cs

/-- the loop of `read_escaped_word` (`CaliReader.cpp:78-103`): the word and the rest of the line -/
def readEscLoop : List Byte → Bool → List Byte × List Byte
  | [], _ => ([], [])
  | c :: cs, true =>
    let r := readEscLoop cs false
    ((if c = ch 'n' then ch '\n' else c) :: r.1, r.2)
  | c :: cs, false =>
    if c = ch '=' ∨ c = ch ',' then ([], c :: cs)
    else if c = ch '\\' then readEscLoop cs true
    else
      let r := readEscLoop cs false
      (c :: r.1, r.2)

/-- `read_escaped_word` (`CaliReader.cpp:78-103`) -/
def readEsc (s : List Byte) : List Byte × List Byte := readEscLoop s false

/-! ## types -/

/-- `typemap` (`cali_types.c:16-24`) -/
def typemap : List (String × AttrType) :=
  [("inv", .inv), ("usr", .usr), ("int", .int), ("uint", .uint), ("string", .string), ("addr", .addr),
   ("double", .double), ("bool", .bool), ("type", .type), ("ptr", .ptr)]

/-- `cali_type2string` (`cali_types.c:26-29`) on the enum value -/
def type2string (code : Nat) : List Byte :=
  if code ≤ maxType then
    match typemap[code]? with
    | some (s, _) => str s
    | none => []   -- unreachable: the table has an entry per type
  else str "inv"

/-- `cali_string2type` (`cali_types.c:31-38`) -/
def string2type (s : List Byte) : AttrType :=
  match typemap.find? (fun p => str p.1 = s) with
  | some (_, t) => t
  | none => .inv

/-! ## values -/

/-- Values by type and contents (two variants are equal exactly if these are, C03). -/
inductive Val where
  | inv
  | usr (bs : List Byte)
  | int (i : BitVec 64)
  | uint (u : U64)
  | string (bs : List Byte)
  | addr (u : U64)
  | double (bits : U64)
  | bool (b : Bool)
  | type (t : AttrType)
  | ptr (u : U64)
  deriving DecidableEq, Repr

/-- `Variant::type()` -/
def Val.ty : Val → AttrType
  | .inv => .inv | .usr _ => .usr | .int _ => .int | .uint _ => .uint | .string _ => .string | .addr _ => .addr
  | .double _ => .double | .bool _ => .bool | .type _ => .type | .ptr _ => .ptr

/-- formatting and parsing of floating-point numbers (C++ library, not modelled) -/
structure DblFmt where
  print : U64 → List Byte
  toStr : U64 → List Byte
  parse : List Byte → Option U64

/-- two-digit hexadecimal output with `setw(2)`/`setfill('0')` for the first byte only (`Variant.cpp:47-52`) -/
def usrText : List Byte → List Byte
  | [] => []
  | b :: bs =>
    let d := digitsLoop 16 b.toNat []
    (if d.length < 2 then ch '0' :: d else d) ++ [ch ':'] ++ bs.flatMap fun c => digitsLoop 16 c.toNat [] ++ [ch ':']

/-- `Variant::to_string` (`Variant.cpp:35-97`) -/
def Val.toStr (F : DblFmt) : Val → List Byte
  | .inv => []
  | .usr bs => usrText bs
  | .int i => writeInt i
  | .uint u => writeUint u
  | .string bs => if bs.getLast? = some 0 then bs.dropLast else bs
  | .addr u => writeHex u
  | .double d => F.toStr d
  | .bool b => if b then str "true" else str "false"
  | .type t => type2string t.code
  | .ptr u => writeHex u

/-- `Variant::write_cali` (`Variant.cpp:144-173`) -/
def Val.writeCali (F : DblFmt) : Val → List Byte
  | .inv => []
  | .int i => writeInt i
  | .double d => F.print d
  | .uint u => writeUint u
  | .string bs => writeEsc bs
  | .type t => type2string t.code
  | .usr bs => writeEsc ((Val.usr bs).toStr F)
  | .addr u => writeEsc ((Val.addr u).toStr F)
  | .bool b => writeEsc ((Val.bool b).toStr F)
  | .ptr u => writeEsc ((Val.ptr u).toStr F)

/-- `tolower` -/
def toLower (c : Byte) : Byte := if 65 ≤ c.toNat ∧ c.toNat ≤ 90 then c + 32 else c

/-- `StringConverter::to_bool` (`StringConverter.cpp:24-60`) -/
def toBoolStr (s : List Byte) : Option Bool :=
  let l := s.map toLower
  if l = str "true" ∨ l = str "t" then some true
  else if l = str "false" ∨ l = str "f" then some false
  else stoulBool s

/-- the C string `str.c_str()` denotes -/
def cstr (s : List Byte) : List Byte := s.takeWhile (· ≠ 0)

/-- `Variant::from_string` (`Variant.cpp:99-142`) -/
def fromString (F : DblFmt) (t : AttrType) (w : List Byte) : Val :=
  let s := cstr w
  match t with
  | .inv | .usr | .ptr => .inv
  | .string => .string s
  | .int => match strtoll s with | some i => .int (BitVec.ofInt 64 i) | none => .inv
  | .addr => match stoull16 s with | some u => .addr u | none => .inv
  | .uint => match strToUint s with | some u => .uint u | none => .inv
  | .double => match F.parse s with | some d => .double d | none => .inv
  | .bool => match toBoolStr s with | some b => .bool b | none => .inv
  | .type => if string2type s ≠ .inv then .type (string2type s) else .inv

/-- `CaliperMetadataDB::make_variant` (`/repo/src/reader/CaliperMetadataDB.cpp:141-160`) with the result of
`make_string_variant` (lines 117-139) for strings: one trailing NUL is stripped.  Simplification: for a string with
an embedded NUL (not producible by the writer) the stored copy is the whole string. -/
def makeVar (F : DblFmt) (t : AttrType) (w : List Byte) : Val :=
  match t with
  | .inv => .inv
  | .usr => .usr []
  | .string => .string (if w.getLast? = some 0 then w.dropLast else w)
  | t => fromString F t w

end Verif.Cali
