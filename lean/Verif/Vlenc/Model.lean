/-!
# Variable-length integer encoding

Model of `/repo/src/common/util/vlenc.h`.

`uint64_t` is `BitVec 64`, `unsigned char` is `BitVec 8`.  A write through `buf` is modelled by the list
of bytes written in order; a read buffer is the list of bytes from the pointer to the end of the
allocation, and reading past its end is the explicit outcome `none` (undefined behaviour in C).
-/
namespace Verif

/-- `unsigned char` -/
abbrev Byte := BitVec 8

/-- `uint64_t` / `cali_id_t` (`/repo/include/caliper/common/cali_types.h:21`) -/
abbrev U64 := BitVec 64

/-- `vlenc_u64` (`/repo/src/common/util/vlenc.h:82-96`): the bytes written, in order.  The returned
byte count `nbytes` is the length of this list (it is incremented once per byte written). -/
def vlenc (val : U64) : List Byte :=
  if _h : val > 0x7F#64 then
    (((val &&& 0x7F#64) ||| 0x80#64).setWidth 8) :: vlenc (val >>> 7)
  else
    [val.setWidth 8]
termination_by val.toNat
decreasing_by
  have : (0x7F#64).toNat < val.toNat := by simpa [BitVec.lt_def] using _h
  simp at this
  simp [BitVec.toNat_ushiftRight, Nat.shiftRight_eq_div_pow]
  omega

/-- The loop of `vldec_u64` (`vlenc.h:112-116`) at byte index `p` with accumulator `val`;
`buf` is the rest of the buffer starting at index `p`. Result: final value and final `p`. -/
def vldecLoop (buf : List Byte) (p : Nat) (val : U64) : Option (U64 × Nat) :=
  match buf with
  | [] => none
  | b :: rest =>
    let val' := val ||| (((b &&& 0x7F#8).setWidth 64) <<< (7 * p))
    if p < 9 ∧ (b &&& 0x80#8) ≠ 0#8 then vldecLoop rest (p + 1) val'
    else some (val', p + 1)

/-- `vldec_u64` (`vlenc.h:107-121`): decoded value and number of bytes added to `*inc`. -/
def vldec (buf : List Byte) : Option (U64 × Nat) := vldecLoop buf 0 0#64

end Verif
