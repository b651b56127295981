import Verif.Cali.Text

/-!
# Attribute property strings (src/common/cali_types.c)
-/

namespace Verif.PropStr

open Verif.Cali

/-- `struct propmap_t` (cali_types.c:37-41). -/
structure PropEnt where
  name : List Byte
  prop : BitVec 32
  mask : BitVec 32

/-- `propmap[]` (cali_types.c:41-61), without the terminator; flag values from
cali_types.h:59-151. -/
def propmap : List PropEnt :=
  [ ⟨str "default", 0, 0⟩,
    ⟨str "asvalue", 1, 1⟩,
    ⟨str "nomerge", 2, 2⟩,
    ⟨str "process_scope", 12, 60⟩,
    ⟨str "thread_scope", 20, 60⟩,
    ⟨str "task_scope", 24, 60⟩,
    ⟨str "skip_events", 64, 64⟩,
    ⟨str "hidden", 128, 128⟩,
    ⟨str "nested", 256, 256⟩,
    ⟨str "global", 512, 512⟩,
    ⟨str "unaligned", 1024, 1024⟩,
    ⟨str "aggregatable", 2048, 2048⟩,
    ⟨str "level_0", 0x0, 0x70000⟩,
    ⟨str "level_1", 0x10000, 0x70000⟩,
    ⟨str "level_2", 0x20000, 0x70000⟩,
    ⟨str "level_3", 0x30000, 0x70000⟩,
    ⟨str "level_4", 0x40000, 0x70000⟩,
    ⟨str "level_5", 0x50000, 0x70000⟩,
    ⟨str "level_6", 0x60000, 0x70000⟩,
    ⟨str "level_7", 0x70000, 0x70000⟩ ]

/-- The caller's buffer: memory from `buf` on, and (ghost) the highest index
written plus one. -/
structure Buf where
  mem : Nat → Byte
  written : Nat

/-- `buf[i] = c`. -/
def Buf.put (b : Buf) (i : Nat) (c : Byte) : Buf :=
  ⟨fun j => if j = i then c else b.mem j, max b.written (i + 1)⟩

/-- `strcpy(buf + i, s)`: the characters and the terminating NUL. -/
def Buf.strcpy (b : Buf) (i : Nat) : List Byte → Buf
  | [] => b.put i 0
  | c :: s => (b.put i c).strcpy (i + 1) s

/-- The loop of `cali_prop2string` (cali_types.c:67-82); `none` is the return
value -1. -/
def prop2stringLoop (prop : BitVec 32) (len : Nat) : List PropEnt → Buf → Nat → Buf × Option Nat
  | [], b, ret => (b, some ret)
  | p :: ps, b, ret =>
    if prop &&& p.mask ≠ p.prop then prop2stringLoop prop len ps b ret
    else
      let slen := p.name.length
      if slen + (if ret > 0 then 2 else 1) > len then (b, none)
      else
        let (b, ret) := if ret > 0 then (b.put ret (ch ':'), ret + 1) else (b, ret)
        let b := b.strcpy ret p.name
        let ret := ret + slen
        prop2stringLoop prop len ps (b.put ret 0) ret

/-- `cali_prop2string` (cali_types.c:63-85) on a buffer nothing has been
written to yet. -/
def prop2string (prop : BitVec 32) (mem : Nat → Byte) (len : Nat) : Buf × Option Nat :=
  prop2stringLoop prop len propmap ⟨mem, 0⟩ 0

/-- `strstr`: position of the first occurrence. -/
def strstr : List Byte → List Byte → Option Nat
  | [], w => if w.isPrefixOf [] then some 0 else none
  | c :: s, w => if w.isPrefixOf (c :: s) then some 0 else (strstr s w).map (· + 1)

/-- `isalnum` in the C locale. -/
def isAlnum (c : Byte) : Bool :=
  (48 ≤ c.toNat ∧ c.toNat ≤ 57) ∨ (65 ≤ c.toNat ∧ c.toNat ≤ 90) ∨ (97 ≤ c.toNat ∧ c.toNat ≤ 122)

/-- `str[i]` of a NUL-terminated string. -/
def charAt (s : List Byte) (i : Nat) : Byte := s.getD i 0

/-- The test in the loop of `cali_string2prop` (cali_types.c:91-97): the first
occurrence of the name is not part of a longer word. -/
def hasWord (s w : List Byte) : Bool :=
  match strstr s w with
  | none => false
  | some pos => (pos = 0 ∨ ¬ isAlnum (charAt s (pos - 1))) ∧ ¬ isAlnum (charAt s (pos + w.length))

/-- `cali_string2prop` (cali_types.c:87-101). -/
def string2prop (s : List Byte) : BitVec 32 :=
  propmap.foldl (fun prop p => if hasWord s p.name then prop ||| p.prop else prop) 0

/-- `typemap[]` (cali_types.c:14-22). -/
def typemap : List (List Byte × Nat) :=
  [ (str "inv", 0), (str "usr", 1), (str "int", 2), (str "uint", 3), (str "string", 4), (str "addr", 5),
    (str "double", 6), (str "bool", 7), (str "type", 8), (str "ptr", 9) ]

/-- `cali_type2string` (cali_types.c:24-27); CALI_MAXTYPE is 9. -/
def type2string (t : Nat) : List Byte :=
  if t ≤ 9 then ((typemap[t]?).map (·.1)).getD [] else str "inv"

/-- `cali_string2type` (cali_types.c:29-36). -/
def string2type (s : List Byte) : Nat :=
  ((typemap.find? (fun e => e.1 = s)).map (·.2)).getD 0

end Verif.PropStr
