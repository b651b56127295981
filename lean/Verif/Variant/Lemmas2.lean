import Verif.Variant.Lemmas
import Verif.Variant.Spec
namespace Verif

theorem makeVariant_blob (m : Mem) (t : AttrType) (ht : t = .usr ∨ t = .string) (p size : U64) (bs : List Byte)
    (h : readBytes m p size.toNat = some bs) (hs : size.toNat < 2 ^ 32) :
    ∃ v, makeVariant m t p size = some v ∧ v.val = p ∧
      v.ts.toNat = size.toNat * 2 ^ 32 +
        ((bs.headD 0).toNat * 2 ^ 16 + ((bs[size.toNat / 2]?).getD 0).toNat * 2 ^ 8 + ((bs[size.toNat - 1]?).getD 0).toNat) * 2 ^ 8
        + t.code := by
  have hlen := readBytes_length m _ _ _ h
  have hget := readBytes_get m _ _ _ h
  have hc : t.code < 256 := by have := t.code_le; omega
  have key : makeVariant m t p size =
      if size = 0 then some ⟨(size <<< 32) ||| 0 ||| BitVec.ofNat 64 t.code, p⟩
      else (m p).bind fun b0 => (m (p + BitVec.ofNat 64 (size.toNat / 2))).bind fun bm =>
        (m (p + (size - 1))).bind fun bl =>
        some ⟨(size <<< 32) ||| blobHash b0 bm bl ||| BitVec.ofNat 64 t.code, p⟩ := by
    rcases ht with rfl | rfl <;> rfl
  rw [key]
  by_cases h0 : size = 0
  · subst h0
    refine ⟨_, by rw [if_pos rfl], rfl, ?_⟩
    simp at hlen
    subst hlen
    rw [blobTs_toNat _ _ _ (by simp) 0 (by simp) (by simp) hc]; simp
  · have hpos : 0 < size.toNat := by
      rcases Nat.eq_zero_or_pos size.toNat with h' | h'
      · exact absurd (BitVec.eq_of_toNat_eq (by simpa using h')) h0
      · exact h'
    rw [if_neg h0]
    have g0 := hget 0 (by omega)
    have gm := hget (size.toNat / 2) (by omega)
    have gl := hget (size.toNat - 1) (by omega)
    have e1 : p + BitVec.ofNat 64 (size.toNat - 1) = p + (size - 1) := by
      congr 1
      apply BitVec.eq_of_toNat_eq
      have := size.isLt
      simp only [BitVec.toNat_ofNat, BitVec.toNat_sub]
      simp
      omega
    rw [e1] at gl
    simp at g0
    refine ⟨_, by simp only [g0, gm, gl, Option.bind_some]; rfl, rfl, ?_⟩
    have hb0 := (bs[0]'(by omega)).isLt
    have hbm := (bs[size.toNat / 2]'(by omega)).isLt
    have hbl := (bs[size.toNat - 1]'(by omega)).isLt
    have hhd : bs.headD 0 = bs[0]'(by omega) := by
      cases bs with
      | nil => simp at hlen; omega
      | cons => simp
    rw [hhd, List.getElem?_eq_getElem (by omega), List.getElem?_eq_getElem (by omega)]
    simp only [Option.getD_some]
    exact blobTs_toNat size _ t.code hs _ (by rw [blobHash_toNat]; omega) (by omega) hc

theorem makeVariant_word (m : Mem) (t : AttrType) (n : Nat) (p size : U64) (bs : List Byte)
    (hr : readBytes m p n = some bs)
    (ht : (t = .int ∨ t = .uint ∨ t = .addr ∨ t = .double) ∧ n = 8 ∨ t = .bool ∧ n = 1 ∨ t = .type ∧ n = 4) :
    makeVariant m t p size = some ⟨BitVec.ofNat 64 t.code, BitVec.ofNat 64 (leVal bs)⟩ ∧ leVal bs < 2 ^ 64 := by
  have hl := readBytes_length _ _ _ _ hr
  have hv := leVal_lt bs
  rcases ht with ⟨h, rfl⟩ | ⟨rfl, rfl⟩ | ⟨rfl, rfl⟩
  · rw [hl] at hv
    refine ⟨?_, by omega⟩
    rcases h with rfl | rfl | rfl | rfl <;> simp [makeVariant, hr]
  · rw [hl] at hv
    exact ⟨by simp [makeVariant, hr], by omega⟩
  · rw [hl] at hv
    exact ⟨by simp [makeVariant, hr], by omega⟩

/-- object size of the non-blob types -/
def wordLen : AttrType → Nat
  | .inv => 0 | .bool => 1 | .type => 4 | _ => 8

/-- normal form of `makeVariant`: either a blob or a word -/
theorem makeVariant_cases (m : Mem) (t : AttrType) (p size : U64) (c : List Byte ⊕ U64)
    (hc : contents m t p size = some c) (hs : sizeOk t size) :
    ∃ v, makeVariant m t p size = some v ∧
      ((∃ bs, (t = .usr ∨ t = .string) ∧ c = .inl bs ∧ readBytes m p size.toNat = some bs ∧ v.val = p ∧ bs.length = size.toNat ∧
        size.toNat < 2 ^ 32 ∧
        v.ts.toNat = size.toNat * 2 ^ 32 +
        ((bs.headD 0).toNat * 2 ^ 16 + ((bs[size.toNat / 2]?).getD 0).toNat * 2 ^ 8 + ((bs[size.toNat - 1]?).getD 0).toNat) * 2 ^ 8
        + t.code)
      ∨ (t ≠ .usr ∧ t ≠ .string ∧ v.ts.toNat = t.code ∧
          ((t = .ptr ∧ c = .inr p ∧ v.val = p) ∨
           (t ≠ .ptr ∧ ∃ bs, c = .inl bs ∧ leVal bs < 2 ^ 64 ∧ v.val = BitVec.ofNat 64 (leVal bs) ∧
             bs.length = wordLen t)))) := by
  cases t with
  | usr =>
    simp only [contents, Option.map_eq_some_iff] at hc
    obtain ⟨bs, hr, rfl⟩ := hc
    have hlt := hs (by simp)
    obtain ⟨v, h1, h2, h3⟩ := makeVariant_blob m .usr (by simp) p size bs hr hlt
    exact ⟨v, h1, .inl ⟨bs, by simp, rfl, hr, h2, readBytes_length _ _ _ _ hr, hlt, h3⟩⟩
  | string =>
    simp only [contents, Option.map_eq_some_iff] at hc
    obtain ⟨bs, hr, rfl⟩ := hc
    have hlt := hs (by simp)
    obtain ⟨v, h1, h2, h3⟩ := makeVariant_blob m .string (by simp) p size bs hr hlt
    exact ⟨v, h1, .inl ⟨bs, by simp, rfl, hr, h2, readBytes_length _ _ _ _ hr, hlt, h3⟩⟩
  | inv =>
    simp only [contents, Option.some.injEq] at hc
    exact ⟨⟨0, 0⟩, rfl, .inr ⟨by simp, by simp, rfl, .inr ⟨by simp, [], hc.symm, by simp [leVal], rfl, rfl⟩⟩⟩
  | ptr =>
    simp only [contents, Option.some.injEq] at hc
    exact ⟨⟨9, p⟩, rfl, .inr ⟨by simp, by simp, rfl, .inl ⟨rfl, hc.symm, rfl⟩⟩⟩
  | int =>
    simp only [contents, Option.map_eq_some_iff] at hc
    obtain ⟨bs, hr, rfl⟩ := hc
    obtain ⟨h1, h2⟩ := makeVariant_word m .int 8 p size bs hr (by simp)
    exact ⟨_, h1, .inr ⟨by simp, by simp, rfl, .inr ⟨by simp, bs, rfl, h2, rfl, readBytes_length _ _ _ _ hr⟩⟩⟩
  | uint =>
    simp only [contents, Option.map_eq_some_iff] at hc
    obtain ⟨bs, hr, rfl⟩ := hc
    obtain ⟨h1, h2⟩ := makeVariant_word m .uint 8 p size bs hr (by simp)
    exact ⟨_, h1, .inr ⟨by simp, by simp, rfl, .inr ⟨by simp, bs, rfl, h2, rfl, readBytes_length _ _ _ _ hr⟩⟩⟩
  | addr =>
    simp only [contents, Option.map_eq_some_iff] at hc
    obtain ⟨bs, hr, rfl⟩ := hc
    obtain ⟨h1, h2⟩ := makeVariant_word m .addr 8 p size bs hr (by simp)
    exact ⟨_, h1, .inr ⟨by simp, by simp, rfl, .inr ⟨by simp, bs, rfl, h2, rfl, readBytes_length _ _ _ _ hr⟩⟩⟩
  | double =>
    simp only [contents, Option.map_eq_some_iff] at hc
    obtain ⟨bs, hr, rfl⟩ := hc
    obtain ⟨h1, h2⟩ := makeVariant_word m .double 8 p size bs hr (by simp)
    exact ⟨_, h1, .inr ⟨by simp, by simp, rfl, .inr ⟨by simp, bs, rfl, h2, rfl, readBytes_length _ _ _ _ hr⟩⟩⟩
  | bool =>
    simp only [contents, Option.map_eq_some_iff] at hc
    obtain ⟨bs, hr, rfl⟩ := hc
    obtain ⟨h1, h2⟩ := makeVariant_word m .bool 1 p size bs hr (by simp)
    exact ⟨_, h1, .inr ⟨by simp, by simp, rfl, .inr ⟨by simp, bs, rfl, h2, rfl, readBytes_length _ _ _ _ hr⟩⟩⟩
  | type =>
    simp only [contents, Option.map_eq_some_iff] at hc
    obtain ⟨bs, hr, rfl⟩ := hc
    obtain ⟨h1, h2⟩ := makeVariant_word m .type 4 p size bs hr (by simp)
    exact ⟨_, h1, .inr ⟨by simp, by simp, rfl, .inr ⟨by simp, bs, rfl, h2, rfl, readBytes_length _ _ _ _ hr⟩⟩⟩


theorem readBytes_take (m : Mem) : ∀ (n k : Nat) (p : U64) (bs : List Byte),
    readBytes m p n = some bs → k ≤ n → readBytes m p k = some (bs.take k) := by
  intro n
  induction n with
  | zero => intro k p bs h hk; have : k = 0 := by omega
            subst this; simp [readBytes]
  | succ n ih =>
    intro k p bs h hk
    cases k with
    | zero => simp [readBytes]
    | succ k =>
      simp only [readBytes] at h ⊢
      split at h
      · rename_i b bs' hb hbs
        simp at h; subst h
        rw [hb, ih k _ _ hbs (by omega)]; simp
      · simp at h

theorem strlen_of_readBytes (m : Mem) : ∀ (n : Nat) (p : U64) (bs : List Byte) (fuel : Nat),
    readBytes m p n = some bs → (∀ b ∈ bs, b ≠ 0) → m (p + BitVec.ofNat 64 n) = some 0 → n < fuel →
    strlen m p fuel = some n := by
  intro n
  induction n with
  | zero =>
    intro p bs fuel h hz h0 hf
    cases fuel with
    | zero => omega
    | succ fuel => simp at h0; simp [strlen, h0]
  | succ n ih =>
    intro p bs fuel h hz h0 hf
    cases fuel with
    | zero => omega
    | succ fuel =>
      simp only [readBytes] at h
      split at h
      · rename_i b bs' hb hbs
        simp at h; subst h
        have hb0 : b ≠ 0 := hz b (by simp)
        have : p + BitVec.ofNat 64 (n + 1) = p + 1 + BitVec.ofNat 64 n := by
          apply BitVec.eq_of_toNat_eq
          simp [BitVec.toNat_add]; omega
        rw [this] at h0
        have := ih (p + 1) bs' fuel hbs (fun x hx => hz x (by simp [hx])) h0 (by omega)
        simp only [strlen, hb, hb0, if_false, this, Option.map_some]
      · simp at h

/-- sign of an integer as an `Ordering` relative to zero -/
def signOrd (i : Int) : Ordering := intCmp i 0

theorem signOrd_sub (a b : Int) : signOrd (a - b) = intCmp a b := by
  simp only [signOrd, intCmp]
  split <;> split <;> (try split) <;> (try split) <;> first | rfl | omega

theorem lexCmp_mem (a b : List Byte) :
    lexCmp a b = (if memcmpSign (a.take (min a.length b.length)) (b.take (min a.length b.length)) ≠ 0
      then signOrd (memcmpSign (a.take (min a.length b.length)) (b.take (min a.length b.length)))
      else intCmp a.length b.length) := by
  induction a generalizing b with
  | nil => cases b <;> simp [lexCmp, memcmpSign, intCmp] <;> omega
  | cons x a ih =>
    cases b with
    | nil => simp [lexCmp, memcmpSign, intCmp]; omega
    | cons y b =>
      have e : min (x :: a).length (y :: b).length = min a.length b.length + 1 := by simp
      rw [e]
      simp only [List.take_succ_cons, memcmpSign, lexCmp]
      split
      · simp [signOrd, intCmp]
      · split
        · simp [signOrd, intCmp]
        · rw [ih b]
          simp only [List.length_cons]
          congr 1
          simp only [intCmp]
          congr 1
          · simp
          · congr 1; simp

theorem strncmp_eq_memcmp (a b : List Byte) (ha : ∀ x ∈ a, x ≠ 0) : strncmpSign a b = memcmpSign a b := by
  induction a generalizing b with
  | nil => simp [strncmpSign, memcmpSign]
  | cons x a ih =>
    cases b with
    | nil => simp [strncmpSign, memcmpSign]
    | cons y b =>
      simp only [strncmpSign, memcmpSign]
      rw [if_neg (ha x (by simp)), ih b (fun z hz => ha z (by simp [hz]))]

theorem toCInt_ofNat (n : Nat) (h : n < 2 ^ 31) : toCInt (BitVec.ofNat 64 n) = n := by
  unfold toCInt
  rw [BitVec.toInt_eq_toNat_cond]
  simp only [BitVec.toNat_setWidth, BitVec.toNat_ofNat]
  rw [Nat.mod_eq_of_lt (a := n) (by omega), Nat.mod_eq_of_lt (by omega)]
  rw [if_pos (by omega)]

/-- truncated 64-bit difference -/
theorem toCInt_sub (a b : U64) (d : Int) (hd : ((a.toNat : Int) - b.toNat - d) % 2 ^ 64 = 0)
    (h1 : -(2 ^ 31) ≤ d) (h2 : d < 2 ^ 31) : toCInt (a - b) = d := by
  unfold toCInt
  rw [BitVec.toInt_eq_toNat_cond]
  have ha := a.isLt
  have hb := b.isLt
  simp only [BitVec.toNat_setWidth, BitVec.toNat_sub]
  split <;> omega

theorem intCmp_lt {a b : Int} : intCmp a b = .lt ↔ a < b := by
  simp only [intCmp]; split <;> (try split) <;> simp <;> omega
theorem intCmp_gt {a b : Int} : intCmp a b = .gt ↔ b < a := by
  simp only [intCmp]; split <;> (try split) <;> simp <;> omega
theorem intCmp_eq {a b : Int} : intCmp a b = .eq ↔ a = b := by
  simp only [intCmp]; split <;> (try split) <;> simp <;> omega

theorem lexCmp_eq {a b : List Byte} : lexCmp a b = .eq ↔ a = b := by
  induction a generalizing b with
  | nil => cases b <;> simp [lexCmp]
  | cons x a ih =>
    cases b with
    | nil => simp [lexCmp]
    | cons y b =>
      simp only [lexCmp]
      split
      · simp; intro h; subst h; omega
      · split
        · simp; intro h; subst h; omega
        · have : x = y := BitVec.eq_of_toNat_eq (by omega)
          subst this; rw [ih]; simp

theorem lexCmp_swap (a b : List Byte) : lexCmp b a = (lexCmp a b).swap := by
  induction a generalizing b with
  | nil => cases b <;> simp [lexCmp]
  | cons x a ih =>
    cases b with
    | nil => simp [lexCmp]
    | cons y b =>
      simp only [lexCmp]
      split <;> split <;> (try split) <;> first | rfl | omega | exact ih b

theorem lexCmp_trans {a b c : List Byte} : lexCmp a b = .lt → lexCmp b c = .lt → lexCmp a c = .lt := by
  induction a generalizing b c with
  | nil => cases b <;> cases c <;> simp [lexCmp]
  | cons x a ih =>
    cases b with
    | nil => simp [lexCmp]
    | cons y b =>
      cases c with
      | nil => simp [lexCmp]
      | cons z c =>
        simp only [lexCmp]
        intro h1 h2
        split at h1
        · split at h2
          · rw [if_pos (by omega)]
          · split at h2
            · simp at h2
            · rw [if_pos (by omega)]
        · split at h1
          · simp at h1
          · split at h2
            · rw [if_pos (by omega)]
            · split at h2
              · simp at h2
              · rw [if_neg (by omega), if_neg (by omega)]; exact ih h1 h2

theorem intCmp_swap (a b : Int) : intCmp b a = (intCmp a b).swap := by
  simp only [intCmp]
  split <;> split <;> first | rfl | omega

theorem signedOf_inj {a b : Nat} (ha : a < 2 ^ 64) (hb : b < 2 ^ 64) (h : signedOf a = signedOf b) : a = b := by
  simp only [signedOf] at h
  split at h <;> split at h <;> omega

end Verif
