import Verif.Cali.Text

/-!
# String database of the reader (src/reader/CaliperMetadataDB.cpp:122-143)
-/

namespace Verif.StringDB

open Verif.Cali

/-- `str[i]` of a NUL-terminated string. -/
def charAt (s : List Byte) (i : Nat) : Byte := s.getD i 0

/-- `strncmp(a, b, n)`: characters compared as `unsigned char`. -/
def strncmp : Nat → List Byte → List Byte → Int
  | 0, _, _ => 0
  | n + 1, a, b =>
    let x := charAt a 0
    let y := charAt b 0
    if x.toNat < y.toNat then -1
    else if y.toNat < x.toNat then 1
    else if x = 0 then 0
    else strncmp n a.tail b.tail

/-- `std::lower_bound` on the positions `first … first + count - 1`: `less i`
is the comparison of the element at `i` with the value.  (The algorithm of the
standard library: halve the range.) -/
def lowerBound (less : Nat → Bool) (first count : Nat) : Nat :=
  if _h : count = 0 then first
  else
    let step := count / 2
    if less (first + step) then lowerBound less (first + step + 1) (count - (step + 1))
    else lowerBound less first step
termination_by count
decreasing_by all_goals omega

/-- The stored copies: `heap` is the memory of the allocated copies by address
(each NUL-terminated; a copy is never freed before the database is destroyed);
`db` is the vector `m_string_db` of pointers (CaliperMetadataDB.cpp:42). -/
structure DB where
  heap : List (List Byte) := []
  db : List Nat := []

/-- The C string at an address. -/
def DB.at (d : DB) (p : Nat) : List Byte := d.heap.getD p []

/-- `make_string_variant` (CaliperMetadataDB.cpp:122-143): `s` are the `len`
characters passed in.  Returns the pointer and the length in the Variant.
Simplification: NUL characters inside `s` are outside the model of `strncpy`
(the theorems are about NUL-free strings). -/
def makeString (d : DB) (s : List Byte) : DB × Nat × Nat :=
  -- if (len > 0 && str[len - 1] == '\0') --len;
  let s := if s.getLast? = some 0 then s.dropLast else s
  let len := s.length
  let it := lowerBound (fun i => decide (strncmp len (d.at (d.db.getD i 0)) s < 0)) 0 d.db.length
  if it ≠ d.db.length ∧ strncmp len s (d.at (d.db.getD it 0)) = 0 ∧ (d.at (d.db.getD it 0)).length = len then
    (d, d.db.getD it 0, len)
  else
    let p := d.heap.length
    ({ heap := d.heap ++ [s], db := d.db.take it ++ p :: d.db.drop it }, p, len)

end Verif.StringDB
