import Verif.Variant.Model
/-!
# Byte buffers

An allocated buffer is the list of its bytes; reads and writes outside of it are the outcome `none`
(undefined behaviour in C++).
-/
namespace Verif

/-- read `n` bytes at `pos` (`memcpy` source) -/
def readAt (buf : List Byte) (pos n : Nat) : Option (List Byte) :=
  if pos + n ≤ buf.length then some ((buf.drop pos).take n) else none

/-- write bytes at `pos` (`memcpy` destination) -/
def writeAt (buf : List Byte) (pos : Nat) (bs : List Byte) : Option (List Byte) :=
  if pos + bs.length ≤ buf.length then some (buf.take pos ++ bs ++ buf.drop (pos + bs.length)) else none

/-- the loop of `save_memmove` (`/repo/src/common/CompressedSnapshotRecord.cpp:29-36`): blocks of at most
64 bytes, from the end -/
def saveMemmoveLoop (buf : List Byte) (dst src len : Nat) : Option (List Byte) :=
  if h : len = 0 then some buf
  else do
    let blk := min len 64
    let tmp ← readAt buf (src + (len - blk)) blk
    let buf' ← writeAt buf (dst + (len - blk)) tmp
    saveMemmoveLoop buf' dst src (len - blk)
termination_by len
decreasing_by omega

/-- `save_memmove` (`CompressedSnapshotRecord.cpp:24-39`) -/
def saveMemmove (buf : List Byte) (dst src len : Nat) : Option (List Byte) :=
  if src = dst then some buf else saveMemmoveLoop buf dst src len

theorem readAt_append (a b c : List Byte) : readAt (a ++ b ++ c) a.length b.length = some b := by
  unfold readAt
  rw [if_pos (by simp)]
  simp

theorem writeAt_append (a x c bs : List Byte) (h : x.length = bs.length) :
    writeAt (a ++ x ++ c) a.length bs = some (a ++ bs ++ c) := by
  unfold writeAt
  rw [if_pos (by simp; omega)]
  simp [← h]

theorem writeAt_length {buf bs buf' : List Byte} {pos : Nat} (h : writeAt buf pos bs = some buf') :
    buf'.length = buf.length := by
  unfold writeAt at h
  split at h
  · simp at h; subst h; simp; omega
  · simp at h

theorem writeAt_get {buf bs buf' : List Byte} {pos : Nat} (h : writeAt buf pos bs = some buf') (i : Nat) :
    buf'[i]? = if pos ≤ i ∧ i < pos + bs.length then bs[i - pos]? else buf[i]? := by
  unfold writeAt at h
  split at h
  · rename_i hb
    simp only [Option.some.injEq] at h; subst h
    rw [List.append_assoc, List.getElem?_append]
    simp only [List.length_take, List.getElem?_append, List.getElem?_drop, List.getElem?_take]
    have e : min pos buf.length = pos := by omega
    rw [e]
    by_cases h1 : i < pos
    · rw [if_neg (by omega : ¬ (pos ≤ i ∧ i < pos + bs.length))]
      simp [h1]
    · rw [if_neg h1]
      by_cases h2 : i - pos < bs.length
      · rw [if_pos h2, if_pos (by omega)]
      · rw [if_neg h2, if_neg (by omega)]
        congr 1; omega
  · simp at h

theorem readAt_get {buf bs : List Byte} {pos n : Nat} (h : readAt buf pos n = some bs) :
    bs.length = n ∧ ∀ i, i < n → bs[i]? = buf[pos + i]? := by
  unfold readAt at h
  split at h
  · rename_i hb
    simp only [Option.some.injEq] at h; subst h
    constructor
    · simp; omega
    · intro i hi
      simp [List.getElem?_take, hi]
  · simp at h

/-- an upward move within the buffer yields the moved bytes at the destination and leaves the rest alone -/
theorem saveMemmoveLoop_spec (n : Nat) : ∀ (buf : List Byte) (dst src len : Nat), len = n → src ≤ dst →
    dst + len ≤ buf.length →
    ∃ r, saveMemmoveLoop buf dst src len = some r ∧ r.length = buf.length ∧
      ∀ i, r[i]? = if dst ≤ i ∧ i < dst + len then buf[i - dst + src]? else buf[i]? := by
  induction n using Nat.strongRecOn with
  | _ n ih =>
    intro buf dst src len hl hsd hb
    rw [saveMemmoveLoop]
    by_cases h0 : len = 0
    · rw [dif_pos h0]
      refine ⟨buf, rfl, rfl, fun i => ?_⟩
      rw [if_neg (by omega)]
    · rw [dif_neg h0]
      have hr : ∃ t, readAt buf (src + (len - min len 64)) (min len 64) = some t := by
        unfold readAt; rw [if_pos (by omega)]; exact ⟨_, rfl⟩
      obtain ⟨t, ht⟩ := hr
      obtain ⟨tl, tg⟩ := readAt_get ht
      have hw : ∃ b, writeAt buf (dst + (len - min len 64)) t = some b := by
        unfold writeAt; rw [if_pos (by omega)]; exact ⟨_, rfl⟩
      obtain ⟨b, hbw⟩ := hw
      have bl := writeAt_length hbw
      have bg := writeAt_get hbw
      obtain ⟨r, hr, rl, rg⟩ := ih (len - min len 64) (by omega) b dst src (len - min len 64) rfl hsd (by omega)
      refine ⟨r, ?_, by omega, fun i => ?_⟩
      · simp only [ht, hbw, Option.bind_eq_bind, Option.bind_some]
        exact hr
      · rw [rg]
        by_cases h1 : dst ≤ i ∧ i < dst + (len - min len 64)
        · rw [if_pos h1, if_pos (by omega), bg, if_neg (by omega)]
        · rw [if_neg h1, bg]
          by_cases h2 : dst ≤ i ∧ i < dst + len
          · rw [if_pos h2, if_pos (by omega), tg _ (by omega)]
            congr 1; omega
          · rw [if_neg h2, if_neg (by omega)]

/-- moving `B` up by `k` bytes into the space after it -/
theorem saveMemmove_append (A B R : List Byte) (k : Nat) (hk : k ≤ R.length) :
    ∃ X : List Byte, X.length = k ∧
      saveMemmove (A ++ B ++ R) (A.length + k) A.length B.length = some (A ++ X ++ B ++ R.drop k) := by
  unfold saveMemmove
  by_cases h0 : k = 0
  · subst h0
    exact ⟨[], rfl, by simp⟩
  · rw [if_neg (by omega)]
    obtain ⟨r, hr, rl, rg⟩ := saveMemmoveLoop_spec B.length (A ++ B ++ R) (A.length + k) A.length B.length rfl
      (by omega) (by simp; omega)
    refine ⟨(B ++ R).take k, by simp; omega, ?_⟩
    rw [hr]
    congr 1
    apply List.ext_getElem?
    intro i
    rw [rg]
    simp only [List.getElem?_append, List.length_append, List.length_take, List.getElem?_take, List.getElem?_drop]
    have e : min k (B.length + R.length) = k := by omega
    rw [e]
    by_cases h1 : i < A.length
    · rw [if_neg (by omega)]
      simp [h1, show i < A.length + B.length by omega, show i < A.length + k + B.length by omega,
        show i < A.length + k by omega]
    · by_cases h2 : i < A.length + k
      · rw [if_neg (by omega : ¬ (A.length + k ≤ i ∧ i < A.length + k + B.length)), if_pos (by omega : i < A.length + k + B.length), if_pos h2, if_neg h1,
          if_pos (by omega : i - A.length < k)]
        by_cases h3 : i < A.length + B.length
        · rw [if_pos h3, if_neg h1, if_pos (by omega)]
        · rw [if_neg h3, if_neg (show ¬ (i - A.length < B.length) by omega), Nat.sub_sub, if_neg h1]
      · by_cases h3 : i < A.length + k + B.length
        · rw [if_pos ⟨by omega, by omega⟩, if_pos h3, if_neg h2, if_pos (by omega), if_neg (by omega)]
          congr 1; omega
        · rw [if_neg (by omega), if_neg h3, if_neg (by omega)]
          congr 1; omega

/-- a move that stays in bounds never fails and keeps the length -/
theorem saveMemmove_some (buf : List Byte) (dst src len : Nat) (h : src ≤ dst) (hb : dst + len ≤ buf.length) :
    ∃ r, saveMemmove buf dst src len = some r ∧ r.length = buf.length := by
  unfold saveMemmove
  split
  · exact ⟨_, rfl, rfl⟩
  · obtain ⟨r, h1, h2, _⟩ := saveMemmoveLoop_spec len buf dst src len rfl h hb
    exact ⟨r, h1, h2⟩

theorem writeAt_some (buf bs : List Byte) (pos : Nat) (h : pos + bs.length ≤ buf.length) :
    ∃ r, writeAt buf pos bs = some r ∧ r.length = buf.length := by
  have : ∃ r, writeAt buf pos bs = some r := by unfold writeAt; rw [if_pos h]; exact ⟨_, rfl⟩
  obtain ⟨r, hr⟩ := this
  exact ⟨r, hr, writeAt_length hr⟩

end Verif
