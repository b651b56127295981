import Verif.Cali.Text

/-! # The `memstat` service (`src/services/memusage/MemStatService.cpp`)

The numbers are 64-bit words, the buffer has 80 bytes. Simplification: `pread` delivers the first 80 bytes of the file (what procfs does
for this file) or fails. -/

namespace Verif.Memstat
open Verif.Cali

/-- `numbers[nn] = v` (MemStatService.cpp:33) -/
def set (a : Nat → U64) (i : Nat) (v : U64) : Nat → U64 := fun j => if j = i then v else a j

/-- the loop of `parse_statm` (MemStatService.cpp:29-37): the bytes left, `nn`, `numbers` -/
def scan : List Byte → Nat → (Nat → U64) → (Nat → U64)
  | [], _, a => a
  | c :: cs, nn, a =>
    if nn < 6 then
      if 48 ≤ c.toInt ∧ c.toInt ≤ 57 then scan cs nn (set a nn (a nn * 10 + (c.signExtend 64 - 48)))
      else if c = ch ' ' then scan cs (nn + 1) a
      else scan cs nn a
    else a

/-- `parse_statm` (MemStatService.cpp:24-40) -/
def parseStatm (buf : List Byte) : Nat → U64 := scan buf 0 fun _ => 0

/-- the size of the buffer (MemStatService.cpp:54) -/
def bufSize : Nat := 80

/-- the three attributes (MemStatService.cpp:80-94) -/
inductive Attr where
  | vmsize | vmrss | data
deriving DecidableEq, Repr

/-- `snapshot_cb` (MemStatService.cpp:52-67): the text of the file (`none`: `pread` fails), the count of failures; the entries
appended to the record, and the new count -/
def snapshotCb (file : Option (List Byte)) (failed : Nat) : List (Attr × U64) × Nat :=
  match file with
  | none => ([], failed + 1)
  | some t =>
    let val := parseStatm (t.take bufSize)
    ([(.vmsize, val 0), (.vmrss, val 1), (.data, val 5)], failed)

end Verif.Memstat
