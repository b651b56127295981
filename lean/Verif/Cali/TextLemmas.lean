import Verif.Cali.Text
import Verif.Variant.Lemmas
import Mathlib.Tactic.IntervalCases
namespace Verif.Cali
open Verif

/-! ### digits -/

theorem digitsLoop_acc (b : Nat) (v : Nat) : ∀ acc, digitsLoop b v acc = digitsLoop b v [] ++ acc := by
  induction v using Nat.strongRecOn with
  | _ v ih =>
    intro acc
    conv => lhs; rw [digitsLoop]
    conv => rhs; rw [digitsLoop]
    by_cases h : v / b > 0 ∧ 1 < b
    · simp only [dif_pos h]
      have hv : 0 < v := by
        rcases Nat.eq_zero_or_pos v with h' | h'
        · simp [h'] at h
        · exact h'
      have hlt : v / b < v := Nat.div_lt_self hv h.2
      rw [ih _ hlt (digitChar (v % b) :: acc), ih _ hlt [digitChar (v % b)]]
      simp
    · simp only [dif_neg h]; simp

theorem digits_lt (b v : Nat) (h : v < b) : digitsLoop b v [] = [digitChar v] := by
  rw [digitsLoop, dif_neg, Nat.mod_eq_of_lt h]
  simp [Nat.div_eq_of_lt h]

theorem digits_ge (b v : Nat) (hb : 1 < b) (h : b ≤ v) :
    digitsLoop b v [] = digitsLoop b (v / b) [] ++ [digitChar (v % b)] := by
  rw [digitsLoop]
  have : v / b > 0 := Nat.div_pos h (by omega)
  simp only [dif_pos (And.intro this hb)]
  exact digitsLoop_acc b (v / b) _

/-- all characters are digits below `b` -/
def AllDig (b : Nat) (ds : List Byte) : Prop := ∀ c ∈ ds, ∃ d, d < b ∧ c = digitChar d

theorem digits_all (b : Nat) (hb : 1 < b) (v : Nat) : AllDig b (digitsLoop b v []) := by
  induction v using Nat.strongRecOn with
  | _ v ih =>
    by_cases h : v < b
    · rw [digits_lt b v h]
      intro c hc; simp at hc; exact ⟨v, h, hc⟩
    · rw [digits_ge b v hb (by omega)]
      have hlt : v / b < v := Nat.div_lt_self (by omega) hb
      intro c hc
      rw [List.mem_append] at hc
      rcases hc with hc | hc
      · exact ih _ hlt c hc
      · simp at hc; exact ⟨v % b, Nat.mod_lt _ (by omega), hc⟩

theorem digits_ne_nil (b : Nat) (hb : 1 < b) (v : Nat) : digitsLoop b v [] ≠ [] := by
  by_cases h : v < b
  · rw [digits_lt b v h]; simp
  · rw [digits_ge b v hb (by omega)]; simp

/-- facts about digit characters -/
theorem digitChar_facts (d : Nat) (hd : d < 16) :
    digitVal (digitChar d) = some d ∧ digitChar d ≠ ch '=' ∧ digitChar d ≠ ch ',' ∧ digitChar d ≠ ch '\\' ∧
    digitChar d ≠ ch '-' ∧ digitChar d ≠ ch '+' ∧ digitChar d ≠ ch '\n' ∧ digitChar d ≠ ch 'x' ∧ digitChar d ≠ ch 'X' ∧
    ¬ (digitChar d).toInt < 32 ∧ digitChar d ≠ 0 ∧ isSpace (digitChar d) = false := by
  interval_cases d <;> decide

theorem digitChar_dec (d : Nat) (hd : d < 10) :
    (48 ≤ (digitChar d).toInt ∧ (digitChar d).toInt ≤ 57) ∧ (digitChar d).signExtend 64 - 48 = BitVec.ofNat 64 d := by
  interval_cases d <;> decide

/-- the wrapping decimal evaluation used by `str_to_uint64` and `read_uint64_element` -/
def evalU (v : U64) (ds : List Byte) : U64 := ds.foldl (fun v c => v * 10 + (c.signExtend 64 - 48)) v

theorem evalU_digits (n : Nat) : evalU 0 (digitsLoop 10 n []) = BitVec.ofNat 64 n := by
  induction n using Nat.strongRecOn with
  | _ n ih =>
    by_cases h : n < 10
    · rw [digits_lt 10 n h]
      simp only [evalU, List.foldl_cons, List.foldl_nil, (digitChar_dec n h).2]
      simp
    · rw [digits_ge 10 n (by omega) (by omega)]
      have hlt : n / 10 < n := Nat.div_lt_self (by omega) (by omega)
      have := ih _ hlt
      unfold evalU at this ⊢
      rw [List.foldl_append, this]
      simp only [List.foldl_cons, List.foldl_nil, (digitChar_dec (n % 10) (by omega)).2]
      apply BitVec.eq_of_toNat_eq
      simp only [BitVec.toNat_add, BitVec.toNat_mul, BitVec.toNat_ofNat]
      have : BitVec.toNat (10 : U64) = 10 := rfl
      rw [this]
      omega

theorem strToUintLoop_digits (ds : List Byte) (h : AllDig 10 ds) : ∀ (v : U64) (k : Nat),
    strToUintLoop ds v k = (evalU v ds, k + ds.length) := by
  induction ds with
  | nil => intro v k; rfl
  | cons c ds ih =>
    intro v k
    obtain ⟨d, hd, rfl⟩ := h c (by simp)
    simp only [strToUintLoop]
    rw [if_pos (digitChar_dec d hd).1, ih (fun x hx => h x (List.mem_cons_of_mem _ hx))]
    simp [evalU, Nat.add_assoc, Nat.add_comm 1]

/-- what may follow a value in a line -/
def SepStart (rest : List Byte) : Prop := rest = [] ∨ ∃ c cs, rest = c :: cs ∧ (c = ch '=' ∨ c = ch ',')

theorem readUint_sep (rest : List Byte) (h : SepStart rest) (v : U64) : readUint rest v = (v, rest) := by
  rcases h with rfl | ⟨c, cs, rfl, hc⟩
  · rfl
  · simp only [readUint]; rw [if_pos hc]

theorem readUint_digits (ds : List Byte) (h : AllDig 10 ds) (rest : List Byte) (hr : SepStart rest) : ∀ (v : U64),
    readUint (ds ++ rest) v = (evalU v ds, rest) := by
  induction ds with
  | nil => intro v; exact readUint_sep rest hr v
  | cons c ds ih =>
    intro v
    obtain ⟨d, hd, rfl⟩ := h c (by simp)
    obtain ⟨_, f1, f2, _⟩ := digitChar_facts d (by omega)
    simp only [List.cons_append, readUint]
    rw [if_neg (by simp [f1, f2]), ih (fun x hx => h x (List.mem_cons_of_mem _ hx))]
    rfl

theorem readUint_writeUint (v : U64) (rest : List Byte) (hr : SepStart rest) :
    readUint (writeUint v ++ rest) 0 = (v, rest) := by
  unfold writeUint
  rw [readUint_digits _ (digits_all 10 (by omega) _) rest hr, evalU_digits]
  simp

theorem digitsVal_all (b : Nat) (hb : b ≤ 16) (ds : List Byte) (h : AllDig b ds) : ∀ (v k : Nat),
    digitsVal b ds v k = (ds.foldl (fun v c => v * b + (digitVal c).getD 0) v, k + ds.length) := by
  induction ds with
  | nil => intro v k; rfl
  | cons c ds ih =>
    intro v k
    obtain ⟨d, hd, rfl⟩ := h c (by simp)
    obtain ⟨f0, _⟩ := digitChar_facts d (by omega)
    simp only [digitsVal, f0, if_pos hd, List.foldl_cons, Option.getD_some, List.length_cons]
    rw [ih (fun x hx => h x (List.mem_cons_of_mem _ hx))]
    simp [Nat.add_assoc, Nat.add_comm 1]

theorem foldl_digits (b : Nat) (hb : 1 < b) (hb' : b ≤ 16) (n : Nat) :
    (digitsLoop b n []).foldl (fun v c => v * b + (digitVal c).getD 0) 0 = n := by
  induction n using Nat.strongRecOn with
  | _ n ih =>
    by_cases h : n < b
    · rw [digits_lt b n h]
      simp [(digitChar_facts n (by omega)).1]
    · rw [digits_ge b n hb (by omega), List.foldl_append, ih _ (Nat.div_lt_self (by omega) hb)]
      have : n % b < b := Nat.mod_lt _ (by omega)
      simp only [List.foldl_cons, List.foldl_nil, (digitChar_facts (n % b) (by omega)).1, Option.getD_some]
      have := Nat.div_add_mod n b
      rw [Nat.mul_comm] at this
      exact this

theorem digitsVal_digits (b : Nat) (hb : 1 < b) (hb' : b ≤ 16) (n : Nat) :
    digitsVal b (digitsLoop b n []) 0 0 = (n, (digitsLoop b n []).length) := by
  rw [digitsVal_all b hb' _ (digits_all b hb n), foldl_digits b hb hb' n]
  simp

theorem digits_cons (b : Nat) (hb : 1 < b) (n : Nat) : ∃ d ds, d < b ∧ digitsLoop b n [] = digitChar d :: ds := by
  cases h : digitsLoop b n [] with
  | nil => exact absurd h (digits_ne_nil b hb n)
  | cons c cs =>
    obtain ⟨d, hd, rfl⟩ := digits_all b hb n c (by rw [h]; simp)
    exact ⟨d, cs, hd, rfl⟩

theorem dropWhile_digits (b : Nat) (hb : 1 < b) (hb' : b ≤ 16) (n : Nat) :
    (digitsLoop b n []).dropWhile isSpace = digitsLoop b n [] ∧ sign (digitsLoop b n []) = (false, digitsLoop b n []) := by
  obtain ⟨d, ds, hd, e⟩ := digits_cons b hb n
  have f := digitChar_facts d (by omega)
  rw [e]
  constructor
  · rw [List.dropWhile_cons_of_neg]; rw [f.2.2.2.2.2.2.2.2.2.2.2]; simp
  · simp only [sign]; rw [if_neg f.2.2.2.2.1, if_neg f.2.2.2.2.2.1]

theorem strtoll_writeInt (i : BitVec 64) : strtoll (writeInt i) = some i.toInt := by
  have hlo : -(2 ^ 63) ≤ i.toInt := by have := BitVec.le_toInt i; simpa using this
  have hhi : i.toInt < 2 ^ 63 := by have := BitVec.toInt_lt (x := i); simpa using this
  unfold strtoll writeInt
  by_cases h : i.toInt < 0
  · rw [if_pos h]
    have e1 : (ch '-' :: digitsLoop 10 i.toInt.natAbs []).dropWhile isSpace = ch '-' :: digitsLoop 10 i.toInt.natAbs [] := by
      rw [List.dropWhile_cons_of_neg]; decide
    rw [e1]
    simp only [sign, if_true, digitsVal_digits 10 (by omega) (by omega)]
    have := List.length_pos_iff.2 (digits_ne_nil 10 (by omega) i.toInt.natAbs)
    rw [if_neg (by omega)]
    congr 1
    omega
  · rw [if_neg h]
    obtain ⟨e1, e2⟩ := dropWhile_digits 10 (by omega) (by omega) i.toInt.natAbs
    rw [e1, e2]
    simp only [digitsVal_digits 10 (by omega) (by omega)]
    have := List.length_pos_iff.2 (digits_ne_nil 10 (by omega) i.toInt.natAbs)
    rw [if_neg (by omega)]
    simp only [Bool.false_eq_true, if_false]
    congr 1
    omega

theorem hexPrefix_digits (ds : List Byte) (h : AllDig 16 ds) : hexPrefix ds = ds := by
  match ds with
  | [] => rfl
  | [_] => rfl
  | [_, _] => rfl
  | c :: x :: d :: cs =>
    obtain ⟨e, he, rfl⟩ := h x (by simp)
    have f := digitChar_facts e he
    simp only [hexPrefix]
    rw [if_neg]
    rintro ⟨_, hx, _⟩
    rcases hx with hx | hx
    · exact f.2.2.2.2.2.2.2.1 hx
    · exact f.2.2.2.2.2.2.2.2.1 hx

theorem stoull16_writeHex (u : U64) : stoull16 (writeHex u) = some u := by
  unfold stoull16 writeHex
  obtain ⟨e1, e2⟩ := dropWhile_digits 16 (by omega) (by omega) u.toNat
  rw [e1, e2]
  simp only [hexPrefix_digits _ (digits_all 16 (by omega) _), digitsVal_digits 16 (by omega) (by omega)]
  have := List.length_pos_iff.2 (digits_ne_nil 16 (by omega) u.toNat)
  have hu := u.isLt
  rw [if_neg (by omega)]
  simp

theorem strToUint_writeUint (u : U64) : strToUint (writeUint u) = some u := by
  unfold strToUint writeUint
  rw [strToUintLoop_digits _ (digits_all 10 (by omega) _), evalU_digits]
  have := List.length_pos_iff.2 (digits_ne_nil 10 (by omega) u.toNat)
  simp only []
  rw [if_pos (by omega)]
  simp

/-! ### escaping -/

/-- characters that survive: newline and 0x20..0x7f -/
def keep (c : Byte) : Bool := decide (c = ch '\n') || decide (32 ≤ c.toNat ∧ c.toNat < 128)

theorem toInt_lt_32 (c : Byte) : c.toInt < 32 ↔ ¬ (32 ≤ c.toNat ∧ c.toNat < 128) := by
  have h := c.isLt
  rw [BitVec.toInt_eq_toNat_cond]
  split <;> omega

theorem readEsc_sep (rest : List Byte) (h : SepStart rest) : readEscLoop rest false = ([], rest) := by
  rcases h with rfl | ⟨c, cs, rfl, hc⟩
  · rfl
  · simp only [readEscLoop]; rw [if_pos hc]

theorem readEsc_writeEsc (s rest : List Byte) (h : SepStart rest) :
    readEscLoop (writeEsc s ++ rest) false = (s.filter keep, rest) := by
  induction s with
  | nil => exact readEsc_sep rest h
  | cons c cs ih =>
    simp only [writeEsc]
    by_cases h1 : c.toInt < 32
    · rw [if_pos h1]
      by_cases h2 : c = ch '\n'
      · rw [if_pos h2]
        have hk : keep c = true := by simp [keep, h2]
        simp only [List.cons_append, readEscLoop]
        rw [if_neg (by decide)]
        simp only [ih, if_true]
        rw [List.filter_cons_of_pos hk, h2]
      · rw [if_neg h2, ih]
        have hk : ¬ keep c = true := by
          simp only [keep, Bool.or_eq_true, decide_eq_true_eq, not_or]
          exact ⟨h2, (toInt_lt_32 c).1 h1⟩
        rw [List.filter_cons_of_neg hk]
    · rw [if_neg h1]
      have hk : keep c = true := by
        simp only [keep, Bool.or_eq_true, decide_eq_true_eq]
        right
        rw [toInt_lt_32] at h1
        simpa using h1
      rw [List.filter_cons_of_pos hk]
      by_cases h3 : c = ch '\\' ∨ c = ch ',' ∨ c = ch '='
      · rw [if_pos h3]
        simp only [List.cons_append, readEscLoop]
        rw [if_neg (by decide)]
        simp only [ih, if_true]
        rw [if_neg]
        rintro rfl
        revert h3; decide
      · rw [if_neg h3]
        simp only [not_or] at h3
        simp only [List.cons_append, readEscLoop]
        rw [if_neg (by simp [h3]), if_neg h3.1]
        simp only [ih]

/-- plain text (no separators, no backslash) is read as it is -/
theorem readEsc_plain (s rest : List Byte) (h : SepStart rest)
    (hs : ∀ c ∈ s, c ≠ ch '=' ∧ c ≠ ch ',' ∧ c ≠ ch '\\') : readEscLoop (s ++ rest) false = (s, rest) := by
  induction s with
  | nil => exact readEsc_sep rest h
  | cons c cs ih =>
    obtain ⟨a, b, d⟩ := hs c (by simp)
    simp only [List.cons_append, readEscLoop]
    rw [if_neg (by simp [a, b]), if_neg d, ih (fun x hx => hs x (List.mem_cons_of_mem _ hx))]

/-- plain printable text is written as it is -/
theorem writeEsc_plain (s : List Byte) (hs : ∀ c ∈ s, c ≠ ch '=' ∧ c ≠ ch ',' ∧ c ≠ ch '\\' ∧ ¬ c.toInt < 32) :
    writeEsc s = s := by
  induction s with
  | nil => rfl
  | cons c cs ih =>
    obtain ⟨a, b, d, e⟩ := hs c (by simp)
    simp only [writeEsc]
    rw [if_neg e, if_neg (by simp [a, b, d]), ih (fun x hx => hs x (List.mem_cons_of_mem _ hx))]

theorem writeEsc_clean (s : List Byte) : ∀ c ∈ writeEsc s, 32 ≤ c.toNat ∧ c.toNat < 128 := by
  induction s with
  | nil => simp [writeEsc]
  | cons c cs ih =>
    intro x hx
    simp only [writeEsc] at hx
    split at hx
    · split at hx
      · simp only [List.mem_cons] at hx
        rcases hx with rfl | rfl | hx
        · decide
        · decide
        · exact ih x hx
      · exact ih x hx
    · rename_i h1
      have h1' : 32 ≤ c.toNat ∧ c.toNat < 128 := by
        rw [toInt_lt_32] at h1; simpa using h1
      split at hx
      · simp only [List.mem_cons] at hx
        rcases hx with rfl | rfl | hx
        · decide
        · exact h1'
        · exact ih x hx
      · simp only [List.mem_cons] at hx
        rcases hx with rfl | hx
        · exact h1'
        · exact ih x hx

/-! ### values -/

/-- plain text: no separator, backslash, NUL or unprintable character -/
def Plain (s : List Byte) : Prop :=
  ∀ c ∈ s, c ≠ ch '=' ∧ c ≠ ch ',' ∧ c ≠ ch '\\' ∧ ¬ c.toInt < 32

theorem Plain.ne_zero {s : List Byte} (h : Plain s) : ∀ c ∈ s, c ≠ 0 := by
  intro c hc e
  subst e
  exact (h _ hc).2.2.2 (by decide)

theorem Plain.cstr {s : List Byte} (h : Plain s) : cstr s = s := by
  unfold Cali.cstr
  have := h.ne_zero
  clear h
  induction s with
  | nil => rfl
  | cons c cs ih =>
    rw [List.takeWhile_cons_of_pos (by simpa using this c (by simp)), ih fun x hx => this x (List.mem_cons_of_mem _ hx)]

theorem allDig_plain (b : Nat) (hb : b ≤ 16) (ds : List Byte) (h : AllDig b ds) : Plain ds := by
  intro c hc
  obtain ⟨d, hd, rfl⟩ := h c hc
  have f := digitChar_facts d (by omega)
  exact ⟨f.2.1, f.2.2.1, f.2.2.2.1, f.2.2.2.2.2.2.2.2.2.1⟩

theorem writeUint_plain (u : U64) : Plain (writeUint u) := allDig_plain 10 (by omega) _ (digits_all 10 (by omega) _)
theorem writeHex_plain (u : U64) : Plain (writeHex u) := allDig_plain 16 (by omega) _ (digits_all 16 (by omega) _)
theorem writeInt_plain (i : BitVec 64) : Plain (writeInt i) := by
  unfold writeInt
  have := allDig_plain 10 (by omega) _ (digits_all 10 (by omega) i.toInt.natAbs)
  split
  · intro c hc
    simp only [List.mem_cons] at hc
    rcases hc with rfl | hc
    · decide
    · exact this c hc
  · exact this

/-- the values a `.cali` file can represent: all integers, unsigned integers, addresses, booleans and types;
strings of printable characters and newlines; floating-point numbers as far as the C++ library round-trips them -/
def Supported (F : DblFmt) : Val → Prop
  | .int _ | .uint _ | .addr _ | .bool _ => True
  | .type t => t ≠ .inv
  | .string bs => ∀ c ∈ bs, keep c = true
  | .double d => F.parse (F.print d) = some d ∧ Plain (F.print d)
  | .inv | .usr _ | .ptr _ => False

theorem type_text (t : AttrType) : Plain (type2string t.code) ∧ string2type (type2string t.code) = t := by
  cases t <;> (unfold Plain; decide)

theorem bool_text (b : Bool) : Plain (if b then str "true" else str "false") ∧
    toBoolStr (if b then str "true" else str "false") = some b := by
  cases b <;> (unfold Plain; decide)

/-- the text of a supported value, followed by a separator or the end of the line, reads back as the value -/
theorem value_roundtrip (F : DblFmt) (v : Val) (hv : Supported F v) (rest : List Byte) (hr : SepStart rest) :
    (readEsc (v.writeCali F ++ rest)).2 = rest ∧ makeVar F v.ty (readEsc (v.writeCali F ++ rest)).1 = v := by
  unfold readEsc
  have plain : ∀ s : List Byte, Plain s → readEscLoop (s ++ rest) false = (s, rest) := fun s hs =>
    readEsc_plain s rest hr fun c hc => ⟨(hs c hc).1, (hs c hc).2.1, (hs c hc).2.2.1⟩
  have wplain : ∀ s : List Byte, Plain s → writeEsc s = s := fun s hs => writeEsc_plain s hs
  cases v with
  | inv => exact hv.elim
  | usr _ => exact hv.elim
  | ptr _ => exact hv.elim
  | int i =>
    simp only [Val.writeCali, plain _ (writeInt_plain i), Val.ty, makeVar, fromString, (writeInt_plain i).cstr,
      strtoll_writeInt]
    simp
  | uint u =>
    simp only [Val.writeCali, plain _ (writeUint_plain u), Val.ty, makeVar, fromString, (writeUint_plain u).cstr,
      strToUint_writeUint]
    simp
  | addr u =>
    simp only [Val.writeCali, Val.toStr, wplain _ (writeHex_plain u), plain _ (writeHex_plain u), Val.ty, makeVar,
      fromString, (writeHex_plain u).cstr, stoull16_writeHex]
    simp
  | bool b =>
    have h := bool_text b
    simp only [Val.writeCali, Val.toStr, wplain _ h.1, plain _ h.1, Val.ty, makeVar, fromString, h.1.cstr, h.2]
    simp
  | type t =>
    have h := type_text t
    have ht : t ≠ .inv := hv
    simp only [Val.writeCali, plain _ h.1, Val.ty, makeVar, fromString, h.1.cstr, h.2]
    simp [ht]
  | double d =>
    obtain ⟨h1, h2⟩ := hv
    simp only [Val.writeCali, plain _ h2, Val.ty, makeVar, fromString, h2.cstr, h1]
    simp
  | string bs =>
    have hk : bs.filter keep = bs := List.filter_eq_self.2 hv
    simp only [Val.writeCali, readEsc_writeEsc bs rest hr, hk, Val.ty, makeVar, true_and]
    rw [if_neg]
    intro hl
    have hm : (0 : Byte) ∈ bs := List.mem_of_getLast? hl
    have := hv 0 hm
    revert this; decide

/-- value text never contains a line break -/
theorem writeCali_no_newline (F : DblFmt) (v : Val) (hv : Supported F v) : ∀ c ∈ v.writeCali F, c ≠ ch '\n' := by
  have plain : ∀ s : List Byte, Plain s → ∀ c ∈ s, c ≠ ch '\n' := by
    intro s hs c hc e
    subst e
    exact (hs _ hc).2.2.2 (by decide)
  have esc : ∀ s : List Byte, ∀ c ∈ writeEsc s, c ≠ ch '\n' := by
    intro s c hc e
    subst e
    have := writeEsc_clean s _ hc
    revert this; decide
  cases v with
  | inv => exact hv.elim
  | usr _ => exact hv.elim
  | ptr _ => exact hv.elim
  | int i => exact plain _ (writeInt_plain i)
  | uint u => exact plain _ (writeUint_plain u)
  | addr u => exact esc _
  | bool b => exact esc _
  | type t => exact plain _ (type_text t).1
  | double d => exact plain _ hv.2
  | string bs => exact esc _

end Verif.Cali
