import Verif.Variant.Lemmas2
/-!
# C01 - C05: variable-length integers and variants
-/
namespace Verif

/-! ## C01 -/

/-- C01: writing a 64-bit value and reading it back, with any bytes following, gives the value and
consumes exactly the bytes written; at most 10 bytes are used. -/
theorem C01_vlenc_roundtrip (v : U64) (rest : List Byte) :
    vldec (vlenc v ++ rest) = some (v, (vlenc v).length)
      ∧ 1 ≤ (vlenc v).length ∧ (vlenc v).length ≤ 10 :=
  ⟨vldec_vlenc_append v rest, vlenc_length_pos v, vlenc_length_le v⟩

/-- C01: the reader never looks at more than 10 bytes of any buffer, and never reports more bytes than
the buffer holds. -/
theorem C01_vldec_reads_at_most_10 (buf : List Byte) :
    vldec buf = vldec (buf.take 10)
      ∧ ∀ v k, vldec buf = some (v, k) → 1 ≤ k ∧ k ≤ 10 ∧ k ≤ buf.length :=
  ⟨(vldec_take10 buf).symm, fun v k h => vldec_bound buf v k h⟩

/-- C01: a buffer of 10 bytes (or any buffer containing a byte below 0x80 among its first bytes) never
makes the reader run off the end. -/
theorem C01_vldec_total_on_10_bytes (buf : List Byte) (h : 10 ≤ buf.length) :
    ∃ v k, vldec buf = some (v, k) := by
  suffices H : ∀ (n : Nat) (buf : List Byte) (p : Nat) (val : U64), 9 - p = n → p ≤ 9 → 10 ≤ p + buf.length →
      ∃ v k, vldecLoop buf p val = some (v, k) from H 9 buf 0 0#64 rfl (by omega) (by omega)
  intro n
  induction n with
  | zero =>
    intro buf p val hn hp hl
    cases buf with
    | nil => simp at hl; omega
    | cons b rest =>
      simp only [vldecLoop]
      rw [if_neg (by omega)]; exact ⟨_, _, rfl⟩
  | succ n ih =>
    intro buf p val hn hp hl
    cases buf with
    | nil => simp at hl; omega
    | cons b rest =>
      simp only [vldecLoop]
      split
      · exact ih rest (p + 1) _ (by omega) (by omega) (by simp at hl; omega)
      · exact ⟨_, _, rfl⟩

example : vldec (vlenc 0xFFFFFFFFFFFFFFFF#64 ++ [1, 2]) = some (0xFFFFFFFFFFFFFFFF#64, 10) := by
  rw [vldec_vlenc_append]; simp +decide [vlenc]

/-! ## C02 -/

/-- C02: pack/unpack round-trip for every variant with a valid type code, any trailing bytes. -/
theorem C02_pack_roundtrip (v : CVar) (rest : List Byte) (h : (v.ts &&& 0xFF#64).toNat ≤ maxType) :
    variantUnpack (variantPack v ++ rest) = some (v, (variantPack v).length, true)
      ∧ (variantPack v).length ≤ 20 := by
  constructor
  · unfold variantUnpack variantPack
    rw [List.append_assoc, vldec_vlenc_append]
    have : ¬ (v.ts &&& 0xFF#64).toNat > maxType := by omega
    simp only [Option.bind_eq_bind, Option.bind_some, this, if_false, List.drop_left, vldec_vlenc_append,
      List.length_append]
  · have h1 := vlenc_length_le v.ts
    have h2 := vlenc_length_le v.val
    simp [variantPack]; omega

/-- C02: data whose type code is invalid is reported as failure, the empty variant is returned. -/
theorem C02_unpack_invalid (buf : List Byte) (ts : U64) (k : Nat) (h : vldec buf = some (ts, k))
    (hbad : (ts &&& 0xFF#64).toNat > maxType) :
    variantUnpack buf = some (CVar.empty, 0, false) := by
  unfold variantUnpack
  simp only [h, Option.bind_eq_bind, Option.bind_some]
  rw [if_pos hbad]

/-- C02: whatever the buffer contains, a successful unpack yields a variant with a valid type code and
advances by at most 20 bytes, inside the buffer. -/
theorem C02_unpack_sound (buf : List Byte) (v : CVar) (k : Nat) (h : variantUnpack buf = some (v, k, true)) :
    (v.ts &&& 0xFF#64).toNat ≤ maxType ∧ 2 ≤ k ∧ k ≤ 20 ∧ k ≤ buf.length := by
  unfold variantUnpack at h
  cases h1 : vldec buf with
  | none => simp [h1] at h
  | some r =>
    obtain ⟨ts, p⟩ := r
    simp only [h1, Option.bind_eq_bind, Option.bind_some] at h
    split at h
    · simp at h
    · rename_i hts
      cases h2 : vldec (buf.drop p) with
      | none => simp [h2] at h
      | some r2 =>
        obtain ⟨val, q⟩ := r2
        simp only [h2, Option.bind_some, Option.some.injEq, Prod.mk.injEq, and_true] at h
        obtain ⟨rfl, rfl⟩ := h
        have b1 := vldec_bound _ _ _ h1
        have b2 := vldec_bound _ _ _ h2
        simp only [List.length_drop] at b2
        refine ⟨by simpa using hts, ?_⟩
        omega

example : ((CVar.ofUInt 300).ts &&& 0xFF#64).toNat ≤ maxType := by decide
example : ∃ (ts : U64) (k : Nat), vldec [0x7F#8] = some (ts, k) ∧ (ts &&& 0xFF#64).toNat > maxType :=
  ⟨127, 1, by decide, by decide⟩

/-! ## C03 -/

/-- C03: two variants built with `cali_make_variant` compare equal exactly when type and contents agree,
wherever the contents are stored (sizes within the 32-bit size field). -/
theorem C03_eq_iff_contents (m : Mem) (t₁ t₂ : AttrType) (p₁ s₁ p₂ s₂ : U64) (c₁ c₂ : List Byte ⊕ U64)
    (h₁ : contents m t₁ p₁ s₁ = some c₁) (h₂ : contents m t₂ p₂ s₂ = some c₂)
    (hs₁ : sizeOk t₁ s₁) (hs₂ : sizeOk t₂ s₂) :
    ∃ v₁ v₂, makeVariant m t₁ p₁ s₁ = some v₁ ∧ makeVariant m t₂ p₂ s₂ = some v₂ ∧
      variantEq m v₁ v₂ = some (decide (t₁ = t₂ ∧ c₁ = c₂)) := by
  obtain ⟨v₁, hv₁, k₁⟩ := makeVariant_cases m t₁ p₁ s₁ c₁ h₁ hs₁
  obtain ⟨v₂, hv₂, k₂⟩ := makeVariant_cases m t₂ p₂ s₂ c₂ h₂ hs₂
  refine ⟨v₁, v₂, hv₁, hv₂, ?_⟩
  have hc1 := t₁.code_le
  have hc2 := t₂.code_le
  have hts : v₁.ts = v₂.ts ↔ v₁.ts.toNat = v₂.ts.toNat :=
    ⟨fun h => by rw [h], fun h => BitVec.eq_of_toNat_eq h⟩
  have hlow : v₁.ts.toNat = v₂.ts.toNat → t₁ = t₂ := by
    intro h
    apply AttrType.code_inj
    rcases k₁ with ⟨b1, _, _, _, _, _, _, e1⟩ | ⟨_, _, e1, _⟩ <;>
    rcases k₂ with ⟨b2, _, _, _, _, _, _, e2⟩ | ⟨_, _, e2, _⟩ <;> omega
  by_cases ht : t₁ = t₂
  case neg =>
    have : ¬ v₁.ts = v₂.ts := fun h => ht (hlow (hts.mp h))
    simp [variantEq, this, ht]
  subst ht
  rcases k₁ with ⟨bs1, hb, rfl, hr1, hp1, hl1, hz1, e1⟩ | ⟨hu, hst, e1, k₁⟩
  · rcases k₂ with ⟨bs2, _, rfl, hr2, hp2, hl2, hz2, e2⟩ | ⟨hu, hst, _⟩
    · have hcode : (v₁.ts &&& 0xFF#64).toNat = 1 ∨ (v₁.ts &&& 0xFF#64).toNat = 4 := by
        rw [and_ff_toNat, e1]
        rcases hb with rfl | rfl <;> simp only [AttrType.code] <;> omega
      have hval : valueEq m v₁ v₂ = (if v₁.val = v₂.val then some true
          else do
            let a ← readBytes m v₁.val v₁.extractSize
            let b ← readBytes m v₂.val v₁.extractSize
            some (memcmpSign a b == 0)) := by
        unfold valueEq
        rcases hcode with h | h <;> simp only [h]
      by_cases hbs : bs1 = bs2
      · subst hbs
        have hsz : s₁.toNat = s₂.toNat := by omega
        have htse : v₁.ts = v₂.ts := hts.mpr (by rw [e1, e2, hsz])
        have hes : v₁.extractSize = s₁.toNat := by
          rw [CVar.extractSize, shr32_toNat, e1]
          have := (bs1.headD 0).isLt
          have := ((bs1[s₁.toNat / 2]?).getD 0).isLt
          have := ((bs1[s₁.toNat - 1]?).getD 0).isLt
          omega
        rw [variantEq, if_pos htse, hval]
        by_cases hp : v₁.val = v₂.val
        · simp [hp]
        · rw [if_neg hp, hes, hp1, hr1, hp2, hsz, hr2]
          simp [(memcmpSign_eq_zero bs1 bs1 rfl).mpr rfl]
      · by_cases htse : v₁.ts = v₂.ts
        · have hes : v₁.extractSize = s₁.toNat := by
            rw [CVar.extractSize, shr32_toNat, e1]
            have := (bs1.headD 0).isLt
            have := ((bs1[s₁.toNat / 2]?).getD 0).isLt
            have := ((bs1[s₁.toNat - 1]?).getD 0).isLt
            omega
          have hes2 : v₂.extractSize = s₂.toNat := by
            rw [CVar.extractSize, shr32_toNat, e2]
            have := (bs2.headD 0).isLt
            have := ((bs2[s₂.toNat / 2]?).getD 0).isLt
            have := ((bs2[s₂.toNat - 1]?).getD 0).isLt
            omega
          have hsz : s₁.toNat = s₂.toNat := by
            rw [← hes, ← hes2, CVar.extractSize, CVar.extractSize, htse]
          have hp : ¬ v₁.val = v₂.val := by
            intro h
            rw [hp1, hp2] at h
            rw [h, hsz, hr2] at hr1
            exact hbs (by simpa using hr1.symm)
          rw [variantEq, if_pos htse, hval, if_neg hp, hes, hp1, hr1, hp2, hsz, hr2]
          have : ¬ memcmpSign bs1 bs2 = 0 := fun h => hbs ((memcmpSign_eq_zero _ _ (by omega)).mp h)
          simp [this, hbs]
        · simp [variantEq, htse, hbs]
    · rcases hb with rfl | rfl <;> contradiction
  · rcases k₂ with ⟨bs2, hb, _⟩ | ⟨_, _, e2, k₂⟩
    · rcases hb with rfl | rfl <;> contradiction
    · have htse : v₁.ts = v₂.ts := hts.mpr (by rw [e1, e2])
      have hcode : (v₁.ts &&& 0xFF#64).toNat = t₁.code := by
        rw [and_ff_toNat, e1]; omega
      have hval : valueEq m v₁ v₂ = some (v₁.val == v₂.val) := by
        unfold valueEq
        rw [hcode]
        cases t₁ <;> simp_all [AttrType.code]
      rw [variantEq, if_pos htse, hval]
      rcases k₁ with ⟨rfl, rfl, hv1⟩ | ⟨hnp, b1, rfl, hb1, hv1, hl1⟩
      · rcases k₂ with ⟨_, rfl, hv2⟩ | ⟨h, _⟩
        · simp [hv1, hv2]; exact Bool.beq_eq_decide_eq _ _
        · simp at h
      · rcases k₂ with ⟨h, _⟩ | ⟨_, b2, rfl, hb2, hv2, hl2⟩
        · exact absurd h hnp
        · have : (v₁.val = v₂.val) ↔ b1 = b2 := by
            rw [hv1, hv2]
            constructor
            · intro h
              have := congrArg BitVec.toNat h
              simp only [BitVec.toNat_ofNat] at this
              rw [Nat.mod_eq_of_lt (by omega), Nat.mod_eq_of_lt (by omega)] at this
              exact leVal_inj _ _ (by rw [hl1, hl2]) this
            · intro h; rw [h]
          simp only [true_and, Sum.inl.injEq]
          congr 1
          rw [Bool.beq_eq_decide_eq]
          exact decide_eq_decide.mpr this

/-- C03: for a non-empty C string, `cali_make_variant_from_string` builds the same variant as
`cali_make_variant` with the string's length, so the equality theorem applies to it.
Missing for the full property: the empty string, see `C03_empty_string_violation`. -/
theorem C03_from_string_partial (m : Mem) (p : U64) (n : Nat) (bs : List Byte)
    (hr : readBytes m p n = some bs) (hz : ∀ b ∈ bs, b ≠ 0) (h0 : m (p + BitVec.ofNat 64 n) = some 0)
    (hn : 0 < n) (hn64 : n < 2 ^ 64) :
    makeVariantFromString m p = makeVariant m .string p (BitVec.ofNat 64 n) := by
  have hs := strlen_of_readBytes m n p bs (2 ^ 64) hr hz h0 hn64
  have hne : ¬ (BitVec.ofNat 64 n = 0) := by
    intro h
    have := congrArg BitVec.toNat h
    simp only [BitVec.toNat_ofNat] at this
    rw [Nat.mod_eq_of_lt hn64] at this
    simp at this; omega
  unfold makeVariantFromString makeVariant
  simp only [hs, Option.bind_eq_bind, Option.bind_some, if_neg hne]

/-- example memory: "ab\0" at address 16, "ab\0" at 32, "\0" at 48 with byte 'x' before it, "\0" at 64
with byte 'y' before it. -/
def exMem : Mem := fun a =>
  match a.toNat with
  | 16 | 32 => some 97 | 17 | 33 => some 98 | 18 | 34 => some 0
  | 47 => some 120 | 48 => some 0 | 63 => some 121 | 64 => some 0
  | _ => none

example : contents exMem .string 16 2 = some (.inl [97, 98]) ∧ contents exMem .string 32 2 = some (.inl [97, 98])
    ∧ sizeOk .string 2 := ⟨rfl, rfl, fun _ => by decide⟩
example : readBytes exMem 16 2 = some [97, 98] ∧ exMem (16 + BitVec.ofNat 64 2) = some 0 := ⟨rfl, rfl⟩

theorem strlen_empty (m : Mem) (p : U64) (h : m p = some 0) : strlen m p (2 ^ 64) = some 0 := by
  rw [show (2:Nat) ^ 64 = (2 ^ 64 - 1) + 1 from rfl]
  simp [strlen, h]

/-- C03 is violated by the code for the empty string: `cali_make_variant_from_string("")` reads the byte
*before* the string.  If that byte is unreadable this is undefined behaviour ... -/
theorem C03_empty_string_out_of_bounds (m : Mem) (p : U64) (h0 : m p = some 0) (hb : m (p - 1) = none) :
    makeVariantFromString m p = none := by
  have e : p + (0#64 - 1#64) = p - 1 := by
    rw [BitVec.sub_eq_add_neg p, BitVec.sub_eq_add_neg]; simp
  simp only [makeVariantFromString, strlen_empty m p h0, Option.bind_eq_bind, Option.bind_some, h0]
  simp only [show (BitVec.toNat 0#64 / 2) = 0 from rfl, BitVec.add_zero, h0, Option.bind_some]
  show (m (p + (0#64 - 1#64))).bind _ = none
  rw [e, hb]; rfl

/-- ... and otherwise two empty strings may compare different. -/
theorem C03_empty_string_violation :
    ∃ (m : Mem) (p q : U64) (v w : CVar), m p = some 0 ∧ m q = some 0 ∧
      makeVariantFromString m p = some v ∧ makeVariantFromString m q = some w ∧
      variantEq m v w = some false := by
  refine ⟨exMem, 48, 64, ⟨0x7804, 48⟩, ⟨0x7904, 64⟩, rfl, rfl, ?_, ?_, rfl⟩
  · simp only [makeVariantFromString, strlen_empty exMem 48 rfl]; rfl
  · simp only [makeVariantFromString, strlen_empty exMem 64 rfl]; rfl

example : ∃ (m : Mem) (p : U64), m p = some 0 ∧ m (p - 1) = none :=
  ⟨fun a => if a = 5 then some 0 else none, 5, rfl, rfl⟩

/-! ## C04 -/

/-- C04 (partial: INT and PTR values must be less than 2^31 apart, see `C04_int_violation`): the sign
of `cali_variant_compare` is the specified order, for all types but floating point. -/
theorem C04_compare_spec_partial (dcmp : U64 → U64 → Int) (m : Mem) (t₁ t₂ : AttrType) (p₁ s₁ p₂ s₂ : U64)
    (c₁ c₂ : List Byte ⊕ U64)
    (h₁ : contents m t₁ p₁ s₁ = some c₁) (h₂ : contents m t₂ p₂ s₂ = some c₂)
    (hs₁ : sizeOk t₁ s₁) (hs₂ : sizeOk t₂ s₂) (ho₁ : Orderable t₁ c₁) (ho₂ : Orderable t₂ c₂)
    (hclose : CloseEnough t₁ c₁ t₂ c₂) :
    ∃ v₁ v₂ r, makeVariant m t₁ p₁ s₁ = some v₁ ∧ makeVariant m t₂ p₂ s₂ = some v₂ ∧
      variantCompare dcmp m v₁ v₂ = some r ∧ signOrd r = specCmp t₁ c₁ t₂ c₂ := by
  obtain ⟨v₁, hv₁, k₁⟩ := makeVariant_cases m t₁ p₁ s₁ c₁ h₁ hs₁
  obtain ⟨v₂, hv₂, k₂⟩ := makeVariant_cases m t₂ p₂ s₂ c₂ h₂ hs₂
  refine ⟨v₁, v₂, ?_⟩
  have ht1 : v₁.type = t₁ := by
    have := t₁.code_le
    rw [CVar.type, and_ff_toNat, show v₁.ts.toNat % 256 = t₁.code by
      rcases k₁ with ⟨b1, _, _, _, _, _, _, e1⟩ | ⟨_, _, e1, _⟩ <;> omega, AttrType.ofCode_code]
  have ht2 : v₂.type = t₂ := by
    have := t₂.code_le
    rw [CVar.type, and_ff_toNat, show v₂.ts.toNat % 256 = t₂.code by
      rcases k₂ with ⟨b1, _, _, _, _, _, _, e1⟩ | ⟨_, _, e1, _⟩ <;> omega, AttrType.ofCode_code]
  by_cases ht : t₁ = t₂
  case neg =>
    refine ⟨_, hv₁, hv₂, by rw [variantCompare, ht1, ht2, if_neg ht], ?_⟩
    simp only [specCmp, if_neg ht]
    rw [signOrd_sub]
  subst ht
  have hcmp : ∀ r, (variantCompare dcmp m v₁ v₂ = some r ∧ signOrd r = specCmp t₁ c₁ t₁ c₂) →
      ∃ r, makeVariant m t₁ p₁ s₁ = some v₁ ∧ makeVariant m t₁ p₂ s₂ = some v₂ ∧
      variantCompare dcmp m v₁ v₂ = some r ∧ signOrd r = specCmp t₁ c₁ t₁ c₂ :=
    fun r h => ⟨r, hv₁, hv₂, h⟩
  rcases k₁ with ⟨bs1, hb, rfl, hr1, hp1, hl1, hz1, e1⟩ | ⟨hu, hst, e1, k₁⟩
  · rcases k₂ with ⟨bs2, _, rfl, hr2, hp2, hl2, hz2, e2⟩ | ⟨hu, hst, _⟩
    · have hes : v₁.extractSize = s₁.toNat := by
        rw [CVar.extractSize, shr32_toNat, e1]
        have := t₁.code_le
        have := (bs1.headD 0).isLt
        have := ((bs1[s₁.toNat / 2]?).getD 0).isLt
        have := ((bs1[s₁.toNat - 1]?).getD 0).isLt
        omega
      have hes2 : v₂.extractSize = s₂.toNat := by
        rw [CVar.extractSize, shr32_toNat, e2]
        have := t₁.code_le
        have := (bs2.headD 0).isLt
        have := ((bs2[s₂.toNat / 2]?).getD 0).isLt
        have := ((bs2[s₂.toNat - 1]?).getD 0).isLt
        omega
      have hlen1 : bs1.length < 2 ^ 31 := by
        rcases hb with rfl | rfl
        · exact ho₁
        · exact ho₁.1
      have hlen2 : bs2.length < 2 ^ 31 := by
        rcases hb with rfl | rfl
        · exact ho₂
        · exact ho₂.1
      have i1 : toCInt (BitVec.ofNat 64 v₁.extractSize) = bs1.length := by
        rw [hes, toCInt_ofNat _ (by omega)]; omega
      have i2 : toCInt (BitVec.ofNat 64 v₂.extractSize) = bs2.length := by
        rw [hes2, toCInt_ofNat _ (by omega)]; omega
      have hmin : (min (bs1.length : Int) bs2.length).toNat = min bs1.length bs2.length := by omega
      have r1 : readBytes m v₁.val (min bs1.length bs2.length) = some (bs1.take (min bs1.length bs2.length)) := by
        rw [hp1]; exact readBytes_take m _ _ _ _ hr1 (by omega)
      have r2 : readBytes m v₂.val (min bs1.length bs2.length) = some (bs2.take (min bs1.length bs2.length)) := by
        rw [hp2]; exact readBytes_take m _ _ _ _ hr2 (by omega)
      have hlex := lexCmp_mem bs1 bs2
      apply hcmp (if memcmpSign (bs1.take (min bs1.length bs2.length)) (bs2.take (min bs1.length bs2.length)) ≠ 0
        then memcmpSign (bs1.take (min bs1.length bs2.length)) (bs2.take (min bs1.length bs2.length))
        else (bs1.length : Int) - bs2.length)
      have hfin : signOrd (if memcmpSign (bs1.take (min bs1.length bs2.length)) (bs2.take (min bs1.length bs2.length)) ≠ 0
        then memcmpSign (bs1.take (min bs1.length bs2.length)) (bs2.take (min bs1.length bs2.length))
        else (bs1.length : Int) - bs2.length) = lexCmp bs1 bs2 := by
        rw [hlex]
        split
        · rfl
        · rw [signOrd_sub]
      rcases hb with rfl | rfl
      · constructor
        · simp only [variantCompare, ht1, ht2, if_true, i1, i2, hmin, r1, r2, Option.bind_eq_bind, Option.bind_some]
        · simpa only [specCmp, if_true] using hfin
      · have hz := ho₁.2
        constructor
        · simp only [variantCompare, ht1, ht2, if_true, i1, i2, hmin, r1, r2, Option.bind_eq_bind, Option.bind_some]
          rw [strncmp_eq_memcmp _ _ (fun x hx => hz x (List.mem_of_mem_take hx))]
        · simpa only [specCmp, if_true] using hfin
    · rcases hb with rfl | rfl <;> contradiction
  · rcases k₂ with ⟨bs2, hb, _⟩ | ⟨_, _, e2, k₂⟩
    · rcases hb with rfl | rfl <;> contradiction
    · rcases k₁ with ⟨rfl, rfl, hv1⟩ | ⟨hnp, b1, rfl, hb1, hv1, hl1⟩
      · rcases k₂ with ⟨_, rfl, hv2⟩ | ⟨h, _⟩
        · apply hcmp ((p₁.toNat : Int) - p₂.toNat)
          obtain ⟨l1, l2⟩ := hclose
          constructor
          · simp only [variantCompare, ht1, ht2, if_true, hv1, hv2]
            rw [toCInt_sub _ _ ((p₁.toNat : Int) - p₂.toNat) (by omega) l1 l2]
          · simp only [specCmp, if_true]
            rw [signOrd_sub]
        · simp at h
      · rcases k₂ with ⟨h, _⟩ | ⟨_, b2, rfl, hb2, hv2, hl2⟩
        · exact absurd h hnp
        · have n1 : v₁.val.toNat = leVal b1 := by rw [hv1, BitVec.toNat_ofNat, Nat.mod_eq_of_lt hb1]
          have n2 : v₂.val.toNat = leVal b2 := by rw [hv2, BitVec.toNat_ofNat, Nat.mod_eq_of_lt hb2]
          have hsub : ∀ d : Int, signOrd d = intCmp (leVal b1) (leVal b2) ↔
              (d < 0 ↔ leVal b1 < leVal b2) ∧ (0 < d ↔ leVal b2 < leVal b1) := by
            intro d
            simp only [signOrd, intCmp]
            constructor
            · intro h
              split at h <;> split at h <;> (try split at h) <;> (try split at h) <;> first | (simp at h; done) | omega
            · intro h
              split <;> split <;> (try split) <;> (try split) <;> first | rfl | omega
          cases t₁ with
          | usr => simp at hu
          | string => simp at hst
          | double => exact ho₁.elim
          | ptr => simp at hnp
          | inv =>
            have : b1 = [] := by simpa [wordLen] using hl1
            have : b2 = [] := by simpa [wordLen] using hl2
            subst_vars
            apply hcmp 0
            constructor
            · simp only [variantCompare, ht1, ht2, if_true, hv1, hv2, leVal]; rfl
            · simp [specCmp, signOrd, intCmp, leVal]
          | int =>
            obtain ⟨l1, l2⟩ := hclose
            apply hcmp (signedOf (leVal b1) - signedOf (leVal b2))
            constructor
            · simp only [variantCompare, ht1, ht2, if_true]
              rw [toCInt_sub _ _ _ _ l1 l2]
              rw [n1, n2]
              simp only [signedOf]
              split <;> split <;> omega
            · simp only [specCmp, if_true]
              rw [signOrd_sub]
          | uint | addr =>
            refine hcmp _ ⟨by simp only [variantCompare, ht1, ht2, if_true]; rfl, ?_⟩
            simp only [specCmp, if_true]
            rw [hsub]
            have hd : (v₁.val - v₂.val).toNat = (2 ^ 64 - leVal b2 + leVal b1) % 2 ^ 64 := by
              rw [BitVec.toNat_sub, n1, n2]
            split
            · rename_i h0
              rw [h0] at hd
              simp at hd ⊢
              omega
            · rename_i h0
              have h0' : (v₁.val - v₂.val).toNat ≠ 0 := fun h => h0 (BitVec.eq_of_toNat_eq (by simpa using h))
              split
              · rename_i h1
                simp only [gt_iff_lt, BitVec.lt_def, n1, hd] at h1
                simp; omega
              · rename_i h1
                simp only [gt_iff_lt, BitVec.lt_def, n1, hd] at h1
                simp; omega
          | bool =>
            refine hcmp _ ⟨by simp only [variantCompare, ht1, ht2, if_true]; rfl, ?_⟩
            simp only [specCmp, if_true]
            rw [hsub]
            have o1 : leVal b1 ≤ 1 := ho₁
            have o2 : leVal b2 ≤ 1 := ho₂
            have z : ∀ (v : U64), v.toNat ≤ 1 → (v &&& 0xFF#64 ≠ 0 ↔ v.toNat = 1) := by
              intro v hv
              constructor
              · intro h
                have : (v &&& 0xFF#64).toNat ≠ 0 := fun h' => h (BitVec.eq_of_toNat_eq (by simpa using h'))
                rw [and_ff_toNat] at this; omega
              · intro h hc
                have := congrArg BitVec.toNat hc
                rw [and_ff_toNat] at this
                simp at this; omega
            simp only [z _ (by rw [n1]; exact o1), z _ (by rw [n2]; exact o2), n1, n2]
            split <;> split <;> omega
          | type =>
            have o1 : leVal b1 ≤ 9 := ho₁
            have o2 : leVal b2 ≤ 9 := ho₂
            refine hcmp _ ⟨by simp only [variantCompare, ht1, ht2, if_true]; rfl, ?_⟩
            simp only [specCmp, if_true]
            rw [hsub, hv1, hv2, toCInt_ofNat _ (by omega), toCInt_ofNat _ (by omega)]
            omega

/-- C04: the specified order is a strict total order on typed values: antisymmetric, transitive, and
"equal" only for equal values. -/
theorem C04_spec_is_total_order :
    (∀ t₁ c₁ t₂ c₂, specCmp t₂ c₂ t₁ c₁ = (specCmp t₁ c₁ t₂ c₂).swap) ∧
    (∀ t₁ c₁ t₂ c₂ t₃ c₃, specCmp t₁ c₁ t₂ c₂ = .lt → specCmp t₂ c₂ t₃ c₃ = .lt → specCmp t₁ c₁ t₃ c₃ = .lt) ∧
    (∀ m t₁ p₁ s₁ c₁ t₂ p₂ s₂ c₂, contents m t₁ p₁ s₁ = some c₁ → contents m t₂ p₂ s₂ = some c₂ →
      sizeOk t₁ s₁ → sizeOk t₂ s₂ →
      (specCmp t₁ c₁ t₂ c₂ = .eq ↔ t₁ = t₂ ∧ c₁ = c₂)) := by
  refine ⟨?_, ?_, ?_⟩
  · intro t₁ c₁ t₂ c₂
    by_cases h : t₁ = t₂
    · subst h
      simp only [specCmp, if_true]
      cases c₁ <;> cases c₂ <;> (try rfl)
      · cases t₁ <;> first | exact intCmp_swap _ _ | exact lexCmp_swap _ _
      · exact intCmp_swap _ _
    · simp only [specCmp, if_neg h, if_neg (Ne.symm h)]
      exact intCmp_swap _ _
  · intro t₁ c₁ t₂ c₂ t₃ c₃ h12 h23
    by_cases e12 : t₁ = t₂
    · subst e12
      by_cases e23 : t₁ = t₃
      · subst e23
        simp only [specCmp, if_true] at *
        cases c₁ <;> cases c₂ <;> cases c₃ <;> simp_all
        · cases t₁ <;> simp_all only [] <;>
            first | exact lexCmp_trans h12 h23 | (rw [intCmp_lt] at *; omega)
        · rw [intCmp_lt] at *; omega
      · simp only [specCmp, if_neg e23] at *
        exact h23
    · by_cases e23 : t₂ = t₃
      · subst e23
        simp only [specCmp, if_neg e12] at *
        exact h12
      · simp only [specCmp, if_neg e12, if_neg e23, intCmp_lt] at h12 h23
        have : ¬ t₁ = t₃ := by intro h; subst h; omega
        simp only [specCmp, if_neg this, intCmp_lt]; omega
  · intro m t₁ p₁ s₁ c₁ t₂ p₂ s₂ c₂ h₁ h₂ z₁ z₂
    by_cases h : t₁ = t₂
    · subst h
      obtain ⟨v₁, _, k₁⟩ := makeVariant_cases m t₁ p₁ s₁ c₁ h₁ z₁
      obtain ⟨v₂, _, k₂⟩ := makeVariant_cases m t₁ p₂ s₂ c₂ h₂ z₂
      rcases k₁ with ⟨bs1, hb, rfl, _⟩ | ⟨hu, hst, _, k₁⟩
      · rcases k₂ with ⟨bs2, _, rfl, _⟩ | ⟨hu, hst, _⟩
        · rcases hb with rfl | rfl <;> simp [specCmp, lexCmp_eq]
        · rcases hb with rfl | rfl <;> contradiction
      · rcases k₂ with ⟨bs2, hb, _⟩ | ⟨_, _, _, k₂⟩
        · rcases hb with rfl | rfl <;> contradiction
        · rcases k₁ with ⟨rfl, rfl, hv1⟩ | ⟨hnp, b1, rfl, hb1, hv1, hl1⟩
          · rcases k₂ with ⟨_, rfl, hv2⟩ | ⟨h, _⟩
            · simp only [specCmp, if_true, intCmp_eq, true_and, Sum.inr.injEq]
              constructor
              · intro h; exact BitVec.eq_of_toNat_eq (by omega)
              · intro h; rw [h]
            · simp at h
          · rcases k₂ with ⟨h, _⟩ | ⟨_, b2, rfl, hb2, hv2, hl2⟩
            · exact absurd h hnp
            · have e : leVal b1 = leVal b2 ↔ b1 = b2 :=
                ⟨leVal_inj _ _ (by rw [hl1, hl2]), fun h => by rw [h]⟩
              have e2 : ((leVal b1 : Int) = leVal b2) ↔ b1 = b2 := by rw [← e]; omega
              have e3 : signedOf (leVal b1) = signedOf (leVal b2) ↔ b1 = b2 := by
                rw [← e]; exact ⟨signedOf_inj hb1 hb2, fun h => by rw [h]⟩
              cases t₁ <;> simp_all [specCmp, intCmp_eq]
    · simp only [specCmp, if_neg h, intCmp_eq]
      constructor
      · intro hc; exact absurd (AttrType.code_inj (by omega)) h
      · intro hc; exact absurd hc.1 h

example : Orderable .string (.inl [97, 98]) ∧ CloseEnough .int (.inl [1, 0, 0, 0, 0, 0, 0, 0]) .int (.inl [5, 0, 0, 0, 0, 0, 0, 0]) := by
  simp [Orderable, CloseEnough, signedOf, leVal]

/-- C04 is violated by the code for INT values 2^31 or more apart: 2^31 compares *less* than 0, and
2^32 compares *equal* to 0 although the values differ. -/
theorem C04_int_violation (dcmp : U64 → U64 → Int) (m : Mem) :
    (∃ r, variantCompare dcmp m (CVar.ofInt64 0x80000000#64) (CVar.ofInt64 0#64) = some r ∧ r < 0)
    ∧ variantCompare dcmp m (CVar.ofInt64 0x100000000#64) (CVar.ofInt64 0#64) = some 0
    ∧ variantEq m (CVar.ofInt64 0x100000000#64) (CVar.ofInt64 0#64) = some false :=
  ⟨⟨-2147483648, rfl, by decide⟩, rfl, rfl⟩

/-- ... so the order is not transitive on INT values: -2^31 < 0 and 0 < 2^31 - 1 and yet
-2^31 compares greater than 2^31 - 1 ... -/
theorem C04_int_not_transitive (dcmp : U64 → U64 → Int) (m : Mem) :
    ∃ a b c : CVar, ∃ r₁ r₂ r₃ : Int, variantCompare dcmp m a b = some r₁ ∧ variantCompare dcmp m b c = some r₂ ∧
      variantCompare dcmp m a c = some r₃ ∧ r₁ < 0 ∧ r₂ < 0 ∧ 0 < r₃ :=
  ⟨CVar.ofInt64 (-2147483648), CVar.ofInt64 0, CVar.ofInt64 2147483647, -2147483648, -2147483647, 1,
    rfl, rfl, rfl, by decide, by decide, by decide⟩

/-! ## C05 -/

/-- Specification: the integer a (non floating-point) numeric variant denotes. -/
def numValue (v : CVar) : Option Int :=
  match v.type with
  | .int => some (signedOf v.val.toNat)
  | .uint | .addr => some v.val.toNat
  | .bool => some (if v.val.toNat % 256 = 0 then 0 else 1)
  | .type => some (if v.val.toNat % 2 ^ 32 < 2 ^ 31 then ((v.val.toNat % 2 ^ 32 : Nat) : Int) else ((v.val.toNat % 2 ^ 32 : Nat) : Int) - 2 ^ 32)
  | _ => none

theorem toInt_signedOf (x : U64) : x.toInt = signedOf x.toNat := by
  rw [BitVec.toInt_eq_toNat_cond]; simp only [signedOf]; split <;> split <;> omega

theorem toCInt_val (x : U64) : toCInt x =
    (if x.toNat % 2 ^ 32 < 2 ^ 31 then ((x.toNat % 2 ^ 32 : Nat) : Int) else ((x.toNat % 2 ^ 32 : Nat) : Int) - 2 ^ 32) := by
  unfold toCInt
  rw [BitVec.toInt_eq_toNat_cond]; simp only [BitVec.toNat_setWidth]; split <;> split <;> omega

theorem vBool_val (v : CVar) : v.vBool = decide (v.val.toNat % 256 ≠ 0) := by
  unfold CVar.vBool
  rw [decide_eq_decide, ← and_ff_toNat]
  constructor
  · intro h h'; exact h (BitVec.eq_of_toNat_eq (by simpa using h'))
  · intro h h'; exact h (by rw [h']; rfl)

/-- C05: `to_int`, `to_int64` and `to_uint` of any non floating-point variant report success exactly when the variant
is numeric and its value is representable in the target type, and then return that value; otherwise
they return 0.  Exception for `to_uint` of TYPE variants: see the hypothesis (enumerators are never negative). -/
theorem C05_conversions (v : CVar) (d2i d2i' : U64 → Int) (d2u : U64 → Nat) (hd : v.type ≠ .double)
    (hty : v.type = .type → v.val.toNat < 2 ^ 31) :
    toInt d2i v = (match numValue v with
      | some x => if -(2 ^ 31) ≤ x ∧ x < 2 ^ 31 then (x, true) else (0, false)
      | none => (0, false)) ∧
    toInt64 d2i' v = (match numValue v with
      | some x => if -(2 ^ 63) ≤ x ∧ x < 2 ^ 63 then (x, true) else (0, false)
      | none => (0, false)) ∧
    toUInt d2u v = (match numValue v with
      | some x => if 0 ≤ x ∧ x < 2 ^ 64 then (x.toNat, true) else (0, false)
      | none => (0, false)) := by
  have hlt := v.val.isLt
  have hr : -(2 ^ 63) ≤ signedOf v.val.toNat ∧ signedOf v.val.toNat < 2 ^ 63 := by
    simp only [signedOf]; split <;> omega
  cases h : v.type with
  | double => exact absurd h hd
  | inv | usr | string | ptr => simp [toInt, toInt64, toUInt, numValue, h]
  | int =>
    simp only [toInt, toInt64, toUInt, numValue, h, toInt_signedOf]
    refine ⟨?_, ?_, ?_⟩
    · by_cases hx : -(2 ^ 31) ≤ signedOf v.val.toNat ∧ signedOf v.val.toNat < 2 ^ 31
      · have e : toCInt v.val = signedOf v.val.toNat := by
          rw [toCInt_val]
          simp only [signedOf] at *
          split <;> split at hx <;> simp_all <;> omega
        rw [if_pos (show signedOf v.val.toNat ≥ -2147483648 ∧ signedOf v.val.toNat ≤ 2147483647 by omega), if_pos hx, e]
      · rw [if_neg (show ¬ (signedOf v.val.toNat ≥ -2147483648 ∧ signedOf v.val.toNat ≤ 2147483647) by omega), if_neg hx]
    · rw [if_pos hr]
    · by_cases hx : 0 ≤ signedOf v.val.toNat ∧ signedOf v.val.toNat < 2 ^ 64
      · have e : v.val.toNat = (signedOf v.val.toNat).toNat := by
          simp only [signedOf] at *
          split <;> simp_all <;> omega
        rw [if_pos (show signedOf v.val.toNat ≥ 0 by omega), if_pos hx, ← e]
      · rw [if_neg (show ¬ signedOf v.val.toNat ≥ 0 by omega), if_neg hx]
  | uint | addr =>
    simp only [toInt, toInt64, toUInt, numValue, h, toInt_signedOf]
    refine ⟨?_, ?_, ?_⟩
    · by_cases hx : v.val.toNat ≤ 2147483647
      · have e : toCInt v.val = v.val.toNat := by rw [toCInt_val]; split <;> omega
        rw [if_pos hx, if_pos (show -(2 ^ 31) ≤ (v.val.toNat : Int) ∧ (v.val.toNat : Int) < 2 ^ 31 by omega), e]
      · rw [if_neg hx, if_neg (show ¬ (-(2 ^ 31) ≤ (v.val.toNat : Int) ∧ (v.val.toNat : Int) < 2 ^ 31) by omega)]
    · by_cases hx : v.val.toNat ≤ 9223372036854775807
      · have e : signedOf v.val.toNat = v.val.toNat := by simp only [signedOf]; rw [if_pos (by omega)]
        rw [if_pos hx, if_pos (show -(2 ^ 63) ≤ (v.val.toNat : Int) ∧ (v.val.toNat : Int) < 2 ^ 63 by omega), e]
      · rw [if_neg hx, if_neg (show ¬ (-(2 ^ 63) ≤ (v.val.toNat : Int) ∧ (v.val.toNat : Int) < 2 ^ 63) by omega)]
    · rw [if_pos (show 0 ≤ (v.val.toNat : Int) ∧ (v.val.toNat : Int) < 2 ^ 64 by omega)]; rfl
  | bool =>
    simp only [toInt, toInt64, toUInt, numValue, h, vBool_val]
    by_cases hz : v.val.toNat % 256 = 0 <;> simp [hz]
  | type =>
    have := hty h
    have e1 : v.val.toNat % 2 ^ 32 = v.val.toNat := Nat.mod_eq_of_lt (by omega)
    simp only [toInt, toInt64, toUInt, numValue, h, toCInt_val, e1, this, if_true]
    refine ⟨by rw [if_pos (by omega)], by rw [if_pos (by omega)], ?_⟩
    rw [if_pos (by omega)]
    have hm : (v.val.setWidth 32).msb = false := by
      rw [BitVec.msb_eq_decide]; simp [e1]; omega
    rw [BitVec.signExtend_eq_setWidth_of_msb_false hm]
    simp only [BitVec.toNat_setWidth, e1, Prod.mk.injEq, and_true]
    omega

/-- C05: `to_bool` succeeds exactly for integer-like types and then is "value ≠ 0". -/
theorem C05_to_bool (v : CVar) :
    toBool v = (match v.type with
      | .int | .uint | .addr => (decide (v.val.toNat ≠ 0), true)
      | .bool => (decide (v.val.toNat % 256 ≠ 0), true)
      | _ => (false, false)) := by
  have e : (v.val ≠ 0) ↔ v.val.toNat ≠ 0 := by
    constructor
    · intro h h'; exact h (BitVec.eq_of_toNat_eq (by simpa using h'))
    · intro h h'; exact h (by rw [h']; rfl)
  cases h : v.type <;> simp only [toBool, h, vBool_val] <;> simp only [e]

/-- C05: values given to the API constructors come back from the matching accessor. -/
theorem C05_constructors_roundtrip (d2i : U64 → Int) (d2u : U64 → Nat) :
    (∀ i : BitVec 32, toInt d2i (CVar.ofInt i) = (i.toInt, true)) ∧
    (∀ i : U64, toInt64 d2i (CVar.ofInt64 i) = (i.toInt, true)) ∧
    (∀ u : U64, toUInt d2u (CVar.ofUInt u) = (u.toNat, true)) ∧
    (∀ b : Bool, toBool (CVar.ofBool b) = (b, true)) ∧
    (∀ t : AttrType, toType (CVar.ofType t) = ((t.code : Int), true)) := by
  refine ⟨?_, ?_, ?_, ?_, ?_⟩
  · intro i
    have ht : (CVar.ofInt i).type = .int := by
      show AttrType.ofCode (2#64 &&& 0xFF#64).toNat = _; decide
    have hv : (CVar.ofInt i).val.toInt = i.toInt := by
      simp only [CVar.ofInt]; exact BitVec.toInt_signExtend_of_le (by omega)
    have h1 := i.le_toInt
    have h2 := i.toInt_lt
    simp only [toInt, ht, hv]
    rw [if_pos (by omega)]
    congr 1
    rw [toCInt_val]
    have h3 := toInt_signedOf (CVar.ofInt i).val
    rw [hv] at h3
    have h4 := (CVar.ofInt i).val.isLt
    rw [h3]
    simp only [signedOf] at *
    split <;> split <;> simp_all <;> omega
  · intro i
    have ht : (CVar.ofInt64 i).type = .int := by
      show AttrType.ofCode (2#64 &&& 0xFF#64).toNat = _; decide
    simp only [toInt64, ht]; rfl
  · intro u
    have ht : (CVar.ofUInt u).type = .uint := by
      show AttrType.ofCode (3#64 &&& 0xFF#64).toNat = _; decide
    simp only [toUInt, ht]; rfl
  · intro b; cases b <;> rfl
  · intro t; cases t <;> rfl

example : (CVar.ofInt64 0xFFFFFFFFFFFFFFFF#64).type ≠ .double ∧ numValue (CVar.ofInt64 0xFFFFFFFFFFFFFFFF#64) = some (-1) :=
  ⟨by decide, by decide⟩

/-- C05: a variant made from a value of type `t` reports type `t` and the size of that value: the given number of bytes for
strings and blobs, 8 bytes for numbers, addresses and pointers, 1 for booleans, 4 for types. -/
theorem C05_type_and_size (m : Mem) (t : AttrType) (p size : U64) (v : CVar) (h : makeVariant m t p size = some v) :
    ((t ≠ .usr ∧ t ≠ .string) → v.type = t ∧ v.size = match t with
      | .inv => 0
      | .bool => 1
      | .type => 4
      | _ => 8) ∧
    ((t = .usr ∨ t = .string) → size.toNat < 2 ^ 32 → (readBytes m p size.toNat).isSome → v.type = t ∧ v.size = size.toNat) := by
  constructor
  · intro hb
    have hts : v.ts = BitVec.ofNat 64 t.code := by
      cases t <;> simp_all [makeVariant, Option.bind_eq_some_iff]
      all_goals first
        | (obtain ⟨_, _, h⟩ := h; rw [← h])
        | rw [← h]
    have ht : v.type = t := by
      unfold CVar.type; rw [hts]; cases t <;> rfl
    refine ⟨ht, ?_⟩
    unfold CVar.size
    rw [ht]
    cases t <;> simp_all
  · intro hb hs hr
    obtain ⟨bs, hbs⟩ := Option.isSome_iff_exists.1 hr
    obtain ⟨v', e, _, hts⟩ := makeVariant_blob m t hb p size bs hbs hs
    rw [h] at e; cases e
    have h1 := (bs.headD 0).isLt
    have h2 := ((bs[size.toNat / 2]?).getD 0).isLt
    have h3 := ((bs[size.toNat - 1]?).getD 0).isLt
    have hc := t.code_le
    have ht : v.type = t := by
      unfold CVar.type
      have : (v.ts &&& 0xFF#64).toNat = t.code := by
        rw [BitVec.toNat_and, hts]
        show _ &&& (2 ^ 8 - 1) = _
        rw [Nat.and_two_pow_sub_one_eq_mod]
        omega
      rw [this, AttrType.ofCode_code]
    refine ⟨ht, ?_⟩
    have : v.extractSize = size.toNat := by
      unfold CVar.extractSize
      rw [BitVec.toNat_ushiftRight, Nat.shiftRight_eq_div_pow, hts]
      omega
    unfold CVar.size
    rw [ht, this]
    rcases hb with rfl | rfl <;> rfl

end Verif
