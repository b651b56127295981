import Verif.Py.Spec
import Mathlib.Tactic.Ring
import Mathlib.Tactic.Linarith
import Mathlib.Tactic.Positivity
/-!
# Lemmas about the Python reader: dictionaries, lines, numbers
-/
namespace Verif.Py
open Verif Verif.Cali

/-! ## dictionaries -/

section
variable {α β : Type} [DecidableEq α]

theorem lookup_dset (d : List (α × β)) (k : α) (v : β) (x : α) : lookup x (dset d k v) = if k = x then some v else lookup x d := by
  induction d with
  | nil => simp [dset, lookup]
  | cons p l ih =>
    obtain ⟨a, b⟩ := p
    simp only [dset]
    split
    · rename_i h; subst h
      simp only [lookup]
      split <;> rfl
    · rename_i h
      simp only [lookup, ih]
      by_cases h1 : a = x
      · subst h1
        rw [if_pos rfl, if_pos rfl, if_neg (Ne.symm h)]
      · rw [if_neg h1, if_neg h1]

theorem lookup_isSome_mem {x : α} {l : List (α × β)} : (lookup x l).isSome ↔ x ∈ l.map (·.1) := by
  induction l with
  | nil => simp [lookup]
  | cons p l ih =>
    obtain ⟨a, b⟩ := p
    simp only [lookup, List.map_cons, List.mem_cons]
    split
    · rename_i h; simp [h]
    · rename_i h; rw [ih]; simp [Ne.symm h]

theorem keys_dset (d : List (α × β)) (k : α) (v : β) :
    (dset d k v).map (·.1) = if (lookup k d).isSome then d.map (·.1) else d.map (·.1) ++ [k] := by
  induction d with
  | nil => simp [dset, lookup]
  | cons p l ih =>
    obtain ⟨a, b⟩ := p
    simp only [dset, lookup]
    split
    · simp
    · simp only [List.map_cons, ih]
      split <;> simp

theorem length_dset (d : List (α × β)) (k : α) (v : β) :
    (dset d k v).length = if (lookup k d).isSome then d.length else d.length + 1 := by
  have := congrArg List.length (keys_dset d k v)
  rw [List.length_map] at this
  rw [this]
  split <;> simp

theorem nodup_dset {d : List (α × β)} (h : (d.map (·.1)).Nodup) (k : α) (v : β) : ((dset d k v).map (·.1)).Nodup := by
  rw [keys_dset]
  split
  · exact h
  · rename_i hn
    rw [lookup_isSome_mem] at hn
    exact List.nodup_append.2 ⟨h, by simp, by intro a ha b hb; simp at hb; subst hb; intro e; subst e; exact hn ha⟩

theorem nodup_dupdate (e : List (α × β)) : ∀ {d : List (α × β)}, (d.map (·.1)).Nodup → ((dupdate d e).map (·.1)).Nodup := by
  induction e with
  | nil => intro d h; exact h
  | cons p e ih => intro d h; exact ih (nodup_dset h p.1 p.2)

theorem lookup_dupdate (e : List (α × β)) (he : (e.map (·.1)).Nodup) : ∀ (d : List (α × β)) (x : α),
    lookup x (dupdate d e) = (lookup x e).or (lookup x d) := by
  induction e with
  | nil => intro d x; simp [dupdate, lookup]
  | cons p e ih =>
    intro d x
    obtain ⟨a, b⟩ := p
    simp only [List.map_cons, List.nodup_cons] at he
    have := ih he.2 (dset d a b) x
    simp only [dupdate, List.foldl_cons] at this ⊢
    rw [this, lookup_dset]
    simp only [lookup]
    by_cases h : a = x
    · subst h
      have hn : lookup a e = none := by
        cases hl : lookup a e with
        | none => rfl
        | some v => exact absurd (lookup_isSome_mem.1 (by rw [hl]; rfl)) he.1
      simp [hn]
    · simp [h]
end

/-! ## scanning -/

/-- `t` is scanned as the word `w` -/
def Scans (t w : List Byte) : Prop := ∀ rest r e s, scan (t ++ rest) r e s = scan rest r e (s ++ w)

theorem scan_char {c : Byte} (h1 : c ≠ ch '=') (h2 : c ≠ ch ',') (h3 : c ≠ ch '\\') (rest : List Byte) (r : RawRec)
    (e : List (List Byte)) (s : List Byte) : scan (c :: rest) r e s = scan rest r e (s ++ [c]) := by
  rw [scan.eq_def]
  simp only [if_neg h3, if_neg h2, if_neg h1]

theorem scan_esc (x : Byte) (rest : List Byte) (r : RawRec) (e : List (List Byte)) (s : List Byte) :
    scan (ch '\\' :: x :: rest) r e s = scan rest r e (s ++ [if x = ch 'n' then ch '\n' else x]) := by
  rw [scan.eq_def]
  simp

theorem scan_comma (rest : List Byte) (r : RawRec) (e : List (List Byte)) (s : List Byte) :
    scan (ch ',' :: rest) r e s = scan rest (put r (e ++ [s])) [] [] := by
  rw [scan.eq_def]
  simp only [if_neg (show ¬ ch ',' = ch '\\' by decide)]
  simp

theorem scan_eq (rest : List Byte) (r : RawRec) (e : List (List Byte)) (s : List Byte) :
    scan (ch '=' :: rest) r e s = scan rest r (e ++ [s]) [] := by
  rw [scan.eq_def]
  simp only [if_neg (show ¬ ch '=' = ch '\\' by decide), if_neg (show ¬ ch '=' = ch ',' by decide)]
  simp

theorem scans_plain {t : List Byte} (h : ∀ c ∈ t, c ≠ ch '=' ∧ c ≠ ch ',' ∧ c ≠ ch '\\') : Scans t t := by
  induction t with
  | nil => intro rest r e s; simp
  | cons c t ih =>
    intro rest r e s
    obtain ⟨h1, h2, h3⟩ := h c (by simp)
    rw [List.cons_append, scan_char h1 h2 h3, ih fun x hx => h x (List.mem_cons_of_mem _ hx)]
    simp

theorem scans_writeEsc (s : List Byte) (h : ∀ c ∈ s, keep c = true) : Scans (writeEsc s) s := by
  induction s with
  | nil => intro rest r e s; simp [writeEsc]
  | cons c cs ih =>
    intro rest r e s
    have ih := ih fun x hx => h x (List.mem_cons_of_mem _ hx)
    have hc := h c (by simp)
    simp only [writeEsc]
    by_cases hlt : c.toInt < 32
    · rw [if_pos hlt]
      have hn : c = ch '\n' := by
        unfold keep at hc
        rw [toInt_lt_32] at hlt
        simpa [hlt] using hc
      rw [if_pos hn]
      simp only [List.cons_append]
      rw [scan_esc, ih, if_pos rfl, hn]
      simp
    · rw [if_neg hlt]
      split
      · simp only [List.cons_append]
        rename_i hx
        have hnn : c ≠ ch 'n' := by rintro rfl; revert hx; decide
        rw [scan_esc, ih, if_neg hnn]
        simp
      · rename_i hx
        simp only [not_or] at hx
        rw [List.cons_append, scan_char hx.2.2 hx.2.1 hx.1, ih]
        simp

theorem writeCali_scans (F : DblFmt) (v : Val) (hv : Supported F v) : Scans (v.writeCali F) (textOf F v) := by
  have pl : ∀ s : List Byte, Plain s → Scans s s := fun s hs => scans_plain fun c hc => ⟨(hs c hc).1, (hs c hc).2.1, (hs c hc).2.2.1⟩
  have wp : ∀ s : List Byte, Plain s → Scans (writeEsc s) s := fun s hs => by rw [writeEsc_plain s hs]; exact pl s hs
  cases v with
  | inv => exact hv.elim
  | usr => exact hv.elim
  | ptr => exact hv.elim
  | int i => exact pl _ (writeInt_plain i)
  | uint u => exact pl _ (writeUint_plain u)
  | string s => exact scans_writeEsc s hv
  | addr u => exact wp _ (writeHex_plain u)
  | double d => exact pl _ hv.2
  | bool b => exact wp _ (bool_text b).1
  | type t => exact pl _ (type_text t).1

/-! ## stripping -/

/-- the text does not end with a character `strip` removes -/
def EndOK (s : List Byte) : Prop := ∀ c, s.getLast? = some c → pySpace c = false

theorem strip_id {c : Byte} {s : List Byte} (hc : pySpace c = false) (h : EndOK (c :: s)) : strip (c :: s) = c :: s := by
  unfold strip
  rw [List.dropWhile_cons, hc]
  simp only [Bool.false_eq_true, if_false]
  cases hr : (c :: s).reverse with
  | nil => simp at hr
  | cons x xs =>
    have : (c :: s).getLast? = some x := by rw [← List.head?_reverse, hr]; rfl
    rw [List.dropWhile_cons, h x this]
    simp only [Bool.false_eq_true, if_false]
    rw [← hr, List.reverse_reverse]

theorem endOK_append {a b : List Byte} (hb : b ≠ []) (h : EndOK b) : EndOK (a ++ b) := by
  intro c hc
  rw [List.getLast?_append_of_ne_nil _ hb] at hc
  exact h c hc

theorem endOK_of_all {a : List Byte} (h : ∀ c ∈ a, pySpace c = false) : EndOK a := fun c hc => h c (List.mem_of_getLast? hc)

theorem pySpace_of {c : Byte} (h : ¬ c.toInt < 32) (h2 : c ≠ 32) : pySpace c = false := by
  rw [toInt_lt_32, not_not] at h
  unfold pySpace
  simp only [h2, false_or, decide_eq_false_iff_not]
  omega

theorem digit_space (d : Nat) (hd : d < 16) : pySpace (digitChar d) = false := by
  have : ∀ d, d < 16 → pySpace (digitChar d) = false := by decide
  exact this d hd

theorem writeUint_space (u : U64) : ∀ c ∈ writeUint u, pySpace c = false := by
  intro c hc
  obtain ⟨d, hd, rfl⟩ := digits_all 10 (by omega) u.toNat c hc
  exact digit_space d (by omega)

theorem writeEsc_end (s : List Byte) (h : s.getLast? ≠ some 32) (hk : ∀ c ∈ s, keep c = true) : EndOK (writeEsc s) := by
  induction s with
  | nil => intro c hc; simp [writeEsc] at hc
  | cons c cs ih =>
    by_cases hcs : cs = []
    · subst hcs
      have hc : c ≠ 32 := by simpa using h
      intro x hx
      simp only [writeEsc] at hx
      split at hx
      · split at hx
        · simp at hx; subst hx; decide
        · simp at hx
      · rename_i hge
        split at hx
        · simp at hx; subst hx; exact pySpace_of hge hc
        · simp at hx; subst hx; exact pySpace_of hge hc
    · have hne : ∀ t : List Byte, t ≠ [] → (∀ x ∈ t, keep x = true) → writeEsc t ≠ [] := by
        intro t ht hk
        cases t with
        | nil => exact absurd rfl ht
        | cons y t =>
          simp only [writeEsc]
          split
          · rename_i hlt
            have hn : y = ch '\n' := by
              have := hk y (by simp)
              unfold keep at this
              rw [toInt_lt_32] at hlt
              simpa [hlt] using this
            rw [if_pos hn]; simp
          · split <;> simp
      have hk' : ∀ x ∈ cs, keep x = true := fun x hx => hk x (List.mem_cons_of_mem _ hx)
      have ih := ih (by rwa [List.getLast?_cons, List.getLast?_eq_some_getLast hcs, Option.getD_some, ← List.getLast?_eq_some_getLast hcs] at h) hk'
      have hw := hne cs hcs hk'
      simp only [writeEsc]
      split
      · split
        · exact endOK_append (a := [ch '\\', ch 'n']) hw ih
        · exact ih
      · split
        · exact endOK_append (a := [ch '\\', c]) hw ih
        · exact endOK_append (a := [c]) hw ih

theorem writeCali_end (F : DblFmt) (v : Val) (hv : Supported F v) (h : (textOf F v).getLast? ≠ some 32) : EndOK (v.writeCali F) := by
  have pl : ∀ s : List Byte, Plain s → s.getLast? ≠ some 32 → EndOK s := by
    intro s hs h c hc
    exact pySpace_of (hs c (List.mem_of_getLast? hc)).2.2.2 (by rintro rfl; exact h hc)
  have wp : ∀ s : List Byte, Plain s → s.getLast? ≠ some 32 → EndOK (writeEsc s) := fun s hs h => by rw [writeEsc_plain s hs]; exact pl s hs h
  cases v with
  | inv => exact hv.elim
  | usr => exact hv.elim
  | ptr => exact hv.elim
  | int i => exact pl _ (writeInt_plain i) h
  | uint u => exact pl _ (writeUint_plain u) h
  | string s => exact writeEsc_end s h hv
  | addr u => exact wp _ (writeHex_plain u) h
  | double d => exact pl _ hv.2 h
  | bool b => exact wp _ (bool_text b).1 h
  | type t => exact pl _ (type_text t).1 h

/-! ## numbers -/

theorem sign_digits (n : Nat) : sign (digitsLoop 10 n []) = (false, digitsLoop 10 n []) := by
  obtain ⟨d, ds, hd, e⟩ := digits_cons 10 (by omega) n
  rw [e]
  have := digitChar_facts d (by omega)
  have h : ∀ d, d < 10 → digitChar d ≠ ch '-' ∧ digitChar d ≠ ch '+' := by decide
  simp [sign, (h d hd).1, (h d hd).2]

theorem pyInt_digits (n : Nat) : pyInt (digitsLoop 10 n []) = some (n : Int) := by
  have h := digitsVal_digits 10 (by omega) (by omega) n
  have hne := digits_ne_nil 10 (by omega) n
  unfold pyInt
  rw [sign_digits]
  simp only [h]
  rw [if_neg]
  · simp
  · simp [List.length_eq_zero_iff, hne]

theorem pyInt_writeInt (i : BitVec 64) : pyInt (writeInt i) = some i.toInt := by
  unfold writeInt
  split
  · rename_i hneg
    have h := digitsVal_digits 10 (by omega) (by omega) i.toInt.natAbs
    have hne := digits_ne_nil 10 (by omega) i.toInt.natAbs
    unfold pyInt
    simp only [sign, if_true, h]
    rw [if_neg]
    · simp only [Option.some.injEq]; omega
    · simp [List.length_eq_zero_iff, hne]
  · rename_i hneg
    rw [pyInt_digits]
    simp only [Option.some.injEq]; omega

theorem pyNat_writeUint (u : U64) : pyNat (writeUint u) = some u.toNat := by
  unfold pyNat writeUint
  rw [pyInt_digits]

theorem hasBit_toInt (v : BitVec 64) (k : Nat) (hk : k < 64) : hasBit v.toInt k = v.getLsbD k := by
  have e : v.getLsbD k = decide (v.toNat / 2 ^ k % 2 = 1) := by
    rw [BitVec.getLsbD, Nat.testBit_eq_decide_div_mod_eq]
  have hz : (v.toInt / (2 : Int) ^ k) % 2 = ((v.toNat / 2 ^ k % 2 : Nat) : Int) := by
    rw [BitVec.toInt_eq_toNat_cond]
    split
    · push_cast; rfl
    · have : ((v.toNat : Int) - ((2 ^ 64 : Nat) : Int)) = (v.toNat : Int) + (2 : Int) ^ k * (-(2 * 2 ^ (63 - k))) := by
        have : (2 : Int) ^ k * (2 * 2 ^ (63 - k)) = 2 ^ 64 := by
          rw [← mul_assoc, mul_comm _ (2 : Int), mul_assoc, ← pow_add, show k + (63 - k) = 63 by omega]; norm_num
        push_cast
        linarith
      rw [this, Int.add_mul_ediv_left _ _ (by positivity)]
      have : (v.toNat : Int) / 2 ^ k + -(2 * 2 ^ (63 - k)) = (v.toNat : Int) / 2 ^ k + 2 * (-(2 ^ (63 - k))) := by ring
      rw [this, Int.add_mul_emod_self_left]
      push_cast; rfl
  unfold hasBit
  rw [hz, e]
  have : v.toNat / 2 ^ k % 2 < 2 := Nat.mod_lt _ (by omega)
  rw [decide_eq_decide]
  omega

end Verif.Py
