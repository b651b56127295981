import Verif.Variant.Model
import Verif.Vlenc.Lemmas
namespace Verif

theorem AttrType.ofCode_code (t : AttrType) : AttrType.ofCode t.code = t := by cases t <;> rfl

theorem AttrType.code_le (t : AttrType) : t.code ≤ 9 := by cases t <;> decide

theorem AttrType.code_inj {a b : AttrType} (h : a.code = b.code) : a = b := by
  rw [← AttrType.ofCode_code a, ← AttrType.ofCode_code b, h]

theorem readBytes_length (m : Mem) : ∀ (n : Nat) (p : U64) (bs : List Byte),
    readBytes m p n = some bs → bs.length = n := by
  intro n
  induction n with
  | zero => intro p bs h; simp [readBytes] at h; simp [h]
  | succ n ih =>
    intro p bs h
    simp only [readBytes] at h
    split at h
    · rename_i b bs' hb hbs
      simp at h; subst h; simp [ih _ _ hbs]
    · simp at h

theorem readBytes_get (m : Mem) : ∀ (n : Nat) (p : U64) (bs : List Byte),
    readBytes m p n = some bs → ∀ i, (h : i < bs.length) → m (p + BitVec.ofNat 64 i) = some bs[i] := by
  intro n
  induction n with
  | zero => intro p bs h i hi; simp [readBytes] at h; subst h; simp at hi
  | succ n ih =>
    intro p bs h i hi
    simp only [readBytes] at h
    split at h
    · rename_i b bs' hb hbs
      simp at h; subst h
      cases i with
      | zero => simpa using hb
      | succ i =>
        have := ih _ _ hbs i (by simpa using hi)
        rw [← BitVec.ofNat_add_ofNat_comm_helper p i] at this
        simpa using this
    · simp at h
where
  BitVec.ofNat_add_ofNat_comm_helper (p : U64) (i : Nat) :
      p + BitVec.ofNat 64 (i + 1) = p + 1 + BitVec.ofNat 64 i := by
    apply BitVec.eq_of_toNat_eq
    simp [BitVec.toNat_add]; omega

theorem leVal_lt (bs : List Byte) : leVal bs < 256 ^ bs.length := by
  induction bs with
  | nil => simp [leVal]
  | cons b bs ih =>
    have := b.isLt
    simp only [leVal, List.length_cons, Nat.pow_succ]
    omega

theorem leVal_inj : ∀ (a b : List Byte), a.length = b.length → leVal a = leVal b → a = b := by
  intro a
  induction a with
  | nil => intro b hl _; cases b <;> simp_all
  | cons x a ih =>
    intro b hl hv
    cases b with
    | nil => simp at hl
    | cons y b =>
      simp only [leVal] at hv
      have hx := x.isLt
      have hy := y.isLt
      have h1 : x = y := BitVec.eq_of_toNat_eq (by omega)
      have h2 : leVal a = leVal b := by subst h1; omega
      rw [h1, ih b (by simpa using hl) h2]

theorem or_add_of_lt (a b k : Nat) (h : b < 2 ^ k) : (a * 2 ^ k) ||| b = a * 2 ^ k + b := by
  have := Nat.shiftLeft_add_eq_or_of_lt h a
  rw [Nat.shiftLeft_eq] at this
  exact this.symm

theorem blobHash_toNat (b0 bm bl : Byte) :
    (blobHash b0 bm bl).toNat = b0.toNat * 2 ^ 24 + bm.toNat * 2 ^ 16 + bl.toNat * 2 ^ 8 := by
  have h0 := b0.isLt
  have hm := bm.isLt
  have hl := bl.isLt
  have e1 : ((b0.setWidth 64 <<< 8) ||| bm.setWidth 64 : U64).toNat = b0.toNat * 2 ^ 8 + bm.toNat := by
    rw [BitVec.toNat_or, BitVec.toNat_shiftLeft]
    simp only [BitVec.toNat_setWidth]
    rw [Nat.mod_eq_of_lt (a := b0.toNat) (by omega), Nat.mod_eq_of_lt (a := bm.toNat) (by omega), Nat.shiftLeft_eq,
      Nat.mod_eq_of_lt (by omega), or_add_of_lt _ _ 8 (by omega)]
  have e2 : ((((b0.setWidth 64 <<< 8) ||| bm.setWidth 64) <<< 8) ||| bl.setWidth 64 : U64).toNat
      = (b0.toNat * 2 ^ 8 + bm.toNat) * 2 ^ 8 + bl.toNat := by
    rw [BitVec.toNat_or, BitVec.toNat_shiftLeft, e1]
    simp only [BitVec.toNat_setWidth]
    rw [Nat.mod_eq_of_lt (a := bl.toNat) (by omega), Nat.shiftLeft_eq,
      Nat.mod_eq_of_lt (by omega), or_add_of_lt _ _ 8 (by omega)]
  unfold blobHash
  rw [BitVec.toNat_shiftLeft, e2, Nat.shiftLeft_eq, Nat.mod_eq_of_lt (by omega)]
  omega

/-- the `type_and_size` word of a blob as a number (sizes below 2^32) -/
theorem blobTs_toNat (size : U64) (h : U64) (c : Nat) (hs : size.toNat < 2 ^ 32) (k : Nat)
    (hh : h.toNat = k * 2 ^ 8) (hk : k < 2 ^ 24) (hc : c < 256) :
    ((size <<< 32) ||| h ||| BitVec.ofNat 64 c).toNat = size.toNat * 2 ^ 32 + k * 2 ^ 8 + c := by
  rw [BitVec.toNat_or, BitVec.toNat_or, BitVec.toNat_shiftLeft, hh, Nat.shiftLeft_eq,
    Nat.mod_eq_of_lt (by omega), or_add_of_lt _ _ 32 (by omega), BitVec.toNat_ofNat,
    Nat.mod_eq_of_lt (by omega)]
  rw [show size.toNat * 2 ^ 32 + k * 2 ^ 8 = (size.toNat * 2 ^ 24 + k) * 2 ^ 8 by omega]
  rw [or_add_of_lt _ _ 8 (by omega)]

theorem memcmpSign_eq_zero : ∀ (a b : List Byte), a.length = b.length → (memcmpSign a b = 0 ↔ a = b) := by
  intro a
  induction a with
  | nil => intro b h; cases b <;> simp_all [memcmpSign]
  | cons x a ih =>
    intro b h
    cases b with
    | nil => simp at h
    | cons y b =>
      simp only [memcmpSign]
      split
      · rename_i h1; simp; intro e; subst e; omega
      · split
        · rename_i h1 h2; simp; intro e; subst e; omega
        · have : x = y := BitVec.eq_of_toNat_eq (by omega)
          subst this
          rw [ih b (by simpa using h)]; simp

theorem and_ff_toNat (x : U64) : (x &&& 0xFF#64).toNat = x.toNat % 256 := by
  simp; exact Nat.and_two_pow_sub_one_eq_mod _ 8

theorem shr32_toNat (x : U64) : (x >>> 32).toNat = x.toNat / 2 ^ 32 := by
  simp [BitVec.toNat_ushiftRight, Nat.shiftRight_eq_div_pow]

end Verif
