import Verif.Vlenc.Model
namespace Verif

theorem vlenc_length_pos (v : U64) : 0 < (vlenc v).length := by
  unfold vlenc; split <;> simp

theorem vlenc_ne_nil (v : U64) : vlenc v ≠ [] := by
  have := vlenc_length_pos v; intro h; simp [h] at this

theorem vlenc_length_le_aux (n : Nat) : ∀ v : U64, v.toNat < 2 ^ (7 * (n + 1)) → (vlenc v).length ≤ n + 1 := by
  induction n with
  | zero =>
    intro v hv
    unfold vlenc
    have : ¬ v > 0x7F#64 := by
      simp only [gt_iff_lt, BitVec.lt_def]; simp; simp at hv; omega
    simp [this]
  | succ n ih =>
    intro v hv
    unfold vlenc
    split
    · have : (v >>> 7).toNat < 2 ^ (7 * (n + 1)) := by
        simp only [BitVec.toNat_ushiftRight, Nat.shiftRight_eq_div_pow]
        have : (2:Nat) ^ (7 * (n + 1 + 1)) = 2 ^ (7 * (n + 1)) * 2 ^ 7 := by
          rw [← Nat.pow_add]; congr 1
        rw [this] at hv
        exact Nat.div_lt_of_lt_mul (by rw [Nat.mul_comm]; exact hv)
      have := ih _ this
      simp; omega
    · simp

theorem vlenc_length_le (v : U64) : (vlenc v).length ≤ 10 := by
  apply vlenc_length_le_aux 9
  have := v.isLt
  omega

theorem or_shift_toNat (val x : U64) (p : Nat) (hv : val.toNat < 2 ^ (7 * p))
    (hx : x.toNat * 2 ^ (7 * p) < 2 ^ 64) :
    (val ||| (x <<< (7 * p))).toNat = val.toNat + x.toNat * 2 ^ (7 * p) := by
  simp only [BitVec.toNat_or, BitVec.toNat_shiftLeft]
  rw [Nat.mod_eq_of_lt (by rw [Nat.shiftLeft_eq]; exact hx), Nat.or_comm,
    ← Nat.shiftLeft_add_eq_or_of_lt hv, Nat.shiftLeft_eq]
  omega

theorem vldecLoop_vlenc (n : Nat) : ∀ (w : U64), w.toNat = n → ∀ (p : Nat) (val : U64) (rest : List Byte),
    val.toNat < 2 ^ (7 * p) → w.toNat * 2 ^ (7 * p) < 2 ^ 64 → p ≤ 9 →
    vldecLoop (vlenc w ++ rest) p val
      = some (BitVec.ofNat 64 (val.toNat + w.toNat * 2 ^ (7 * p)), p + (vlenc w).length) := by
  induction n using Nat.strongRecOn with
  | ind n ih =>
    intro w hw p val rest hval hlt hp
    rw [vlenc]
    split
    · rename_i h
      have hgt : 127 < w.toNat := by simpa [BitVec.lt_def] using h
      have hp9 : p < 9 := by
        rcases Nat.lt_or_ge p 9 with h' | h'
        · exact h'
        · have : p = 9 := by omega
          subst this; simp at hlt; omega
      simp only [List.cons_append, vldecLoop]
      have hbyte : (((w &&& 0x7F#64) ||| 0x80#64).setWidth 8 &&& 0x80#8) ≠ 0#8 := by
        intro hc
        have := congrArg (fun x => x.getLsbD 7) hc
        have e : Nat.testBit 128 7 = true := by decide
        simp [BitVec.getLsbD, e] at this
      have hlow : ((((w &&& 0x7F#64) ||| 0x80#64).setWidth 8 &&& 0x7F#8).setWidth 64 : BitVec 64)
          = w &&& 0x7F#64 := by
        apply BitVec.eq_of_toNat_eq
        simp
        rw [Nat.mod_eq_of_lt (a := w.toNat % 256) (by omega)]
        apply Nat.eq_of_testBit_eq
        intro i
        have e127 : (127:Nat) = 2^7-1 := rfl
        have e256 : (256:Nat) = 2^8 := rfl
        have e128 : (128:Nat) = 2^7 := rfl
        simp only [Nat.testBit_and, Nat.testBit_or, e256, Nat.testBit_mod_two_pow, e127, Nat.testBit_two_pow_sub_one, e128, Nat.testBit_two_pow]
        rcases Nat.lt_or_ge i 7 with hi | hi
        · have : ¬ 7 = i := by omega
          simp [hi, this, show i < 8 by omega]
        · simp [show ¬ i < 7 by omega]
      rw [if_pos ⟨hp9, hbyte⟩, hlow]
      have hand : (w &&& 0x7F#64).toNat = w.toNat % 128 := by
        simp
        exact Nat.and_two_pow_sub_one_eq_mod _ 7
      have hpow : (2:Nat) ^ (7 * (p + 1)) = 128 * 2 ^ (7 * p) := by
        rw [show 7 * (p + 1) = 7 + 7 * p by omega, Nat.pow_add]
      have hshift : (w >>> 7).toNat = w.toNat / 128 := by
        simp [BitVec.toNat_ushiftRight, Nat.shiftRight_eq_div_pow]
      have hmodle : (w.toNat % 128) * 2 ^ (7 * p) ≤ w.toNat * 2 ^ (7 * p) :=
        Nat.mul_le_mul_right _ (Nat.mod_le _ _)
      have hval' := or_shift_toNat val (w &&& 0x7F#64) p hval (by rw [hand]; omega)
      have hpos : 0 < (2:Nat) ^ (7 * p) := Nat.two_pow_pos _
      have hdm : w.toNat = 128 * (w.toNat / 128) + w.toNat % 128 := by omega
      have hsplit : w.toNat * 2 ^ (7 * p)
          = (w.toNat / 128) * (128 * 2 ^ (7 * p)) + (w.toNat % 128) * 2 ^ (7 * p) := by
        conv => lhs; rw [hdm]
        rw [Nat.add_mul, Nat.mul_comm 128, Nat.mul_assoc]
      have := ih (w.toNat / 128) (by omega) (w >>> 7) hshift (p + 1) (val ||| ((w &&& 0x7F#64) <<< (7 * p))) rest
        (by
          rw [hval', hand, hpow]
          have : w.toNat % 128 ≤ 127 := by omega
          have := Nat.mul_le_mul_right (2 ^ (7 * p)) this
          omega)
        (by rw [hshift, hpow]; omega)
        (by omega)
      rw [this, hval', hand, hshift, hpow, hsplit]
      simp only [List.length_cons, Option.some.injEq, Prod.mk.injEq]
      constructor
      · congr 1; omega
      · omega
    · rename_i h
      have hle : w.toNat ≤ 127 := by
        simp only [gt_iff_lt, BitVec.lt_def] at h; simp at h; omega
      simp only [List.cons_append, List.nil_append, vldecLoop]
      have hlow : ((w.setWidth 8 &&& 0x7F#8).setWidth 64 : BitVec 64) = w := by
        apply BitVec.eq_of_toNat_eq
        simp
        rw [Nat.mod_eq_of_lt (a := w.toNat % 256) (by omega)]
        have := Nat.and_two_pow_sub_one_eq_mod (w.toNat % 256) 7
        simp at this
        rw [this]; omega
      have hhigh : (w.setWidth 8 &&& 0x80#8) = 0#8 := by
        apply BitVec.eq_of_toNat_eq
        simp
        apply Nat.eq_of_testBit_eq
        intro i
        have e128 : (128:Nat) = 2^7 := rfl
        simp only [Nat.testBit_and, e128, Nat.testBit_two_pow]
        by_cases hi : 7 = i
        · subst hi
          rw [Nat.mod_eq_of_lt (by omega), Nat.testBit_lt_two_pow (by omega)]; simp
        · simp [hi]
      rw [if_neg (by simp [hhigh]), hlow]
      have hval' := or_shift_toNat val w p hval hlt
      congr 2
      apply BitVec.eq_of_toNat_eq
      rw [BitVec.toNat_or, BitVec.toNat_shiftLeft] at hval'
      rw [BitVec.toNat_or, BitVec.toNat_shiftLeft, hval', BitVec.toNat_ofNat, Nat.mod_eq_of_lt]
      have := (val ||| w <<< (7 * p)).isLt
      rw [BitVec.toNat_or, BitVec.toNat_shiftLeft, hval'] at this
      exact this

theorem vldec_vlenc_append (v : U64) (rest : List Byte) :
    vldec (vlenc v ++ rest) = some (v, (vlenc v).length) := by
  unfold vldec
  rw [vldecLoop_vlenc _ v rfl 0 0#64 rest (by simp) (by simpa using v.isLt) (by omega)]
  simp

theorem vldecLoop_bound (n : Nat) : ∀ (buf : List Byte) (p : Nat) (val v : U64) (k : Nat), 9 - p = n → p ≤ 9 →
    vldecLoop buf p val = some (v, k) → p < k ∧ k ≤ 10 ∧ k ≤ p + buf.length := by
  induction n with
  | zero =>
    intro buf p val v k hn hp h
    cases buf with
    | nil => simp [vldecLoop] at h
    | cons b rest =>
      simp only [vldecLoop] at h
      rw [if_neg (by omega)] at h
      simp at h
      simp; omega
  | succ n ih =>
    intro buf p val v k hn hp h
    cases buf with
    | nil => simp [vldecLoop] at h
    | cons b rest =>
      simp only [vldecLoop] at h
      split at h
      · have := ih rest (p + 1) _ v k (by omega) (by omega) h
        simp; omega
      · simp at h; simp; omega

theorem vldec_bound (buf : List Byte) (v : U64) (k : Nat) (h : vldec buf = some (v, k)) :
    0 < k ∧ k ≤ 10 ∧ k ≤ buf.length := by
  have := vldecLoop_bound 9 buf 0 0#64 v k rfl (by omega) h
  omega

theorem vldecLoop_take (n : Nat) : ∀ (buf : List Byte) (p : Nat) (val : U64), 9 - p = n → p ≤ 9 →
    vldecLoop (buf.take (10 - p)) p val = vldecLoop buf p val := by
  induction n with
  | zero =>
    intro buf p val hn hp
    have : p = 9 := by omega
    subst this
    cases buf <;> simp [vldecLoop]
  | succ n ih =>
    intro buf p val hn hp
    cases buf with
    | nil => simp
    | cons b rest =>
      rw [show 10 - p = (10 - (p + 1)) + 1 by omega, List.take_succ_cons]
      simp only [vldecLoop]
      rw [ih rest (p + 1) _ (by omega) (by omega)]

/-- `vldec` depends only on the first 10 bytes of the buffer. -/
theorem vldec_take10 (buf : List Byte) : vldec (buf.take 10) = vldec buf :=
  vldecLoop_take 9 buf 0 0#64 rfl (by omega)

end Verif
