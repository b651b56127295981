import Verif.Cali.Lines
/-!
# C23, C24, C39: values and types in `.cali` text
-/
namespace Verif
open Verif.Cali

/-- characters a `.cali` file can carry: printable ASCII (32..127) and the line break -/
def CaliChar (c : Byte) : Prop := c.toNat = 10 ∨ (32 ≤ c.toNat ∧ c.toNat < 128)

/-- the end of a field: end of line, `,` or `=` -/
def FieldEnd (rest : List Byte) : Prop := rest = [] ∨ rest.head? = some (ch ',') ∨ rest.head? = some (ch '=')

theorem FieldEnd.sep {rest : List Byte} (h : FieldEnd rest) : SepStart rest := by
  rcases h with h | h | h
  · exact .inl h
  all_goals
    cases rest with
    | nil => simp at h
    | cons c cs =>
      simp at h
      subst h
      exact .inr ⟨_, _, rfl, by simp⟩

theorem keep_iff (c : Byte) : keep c = true ↔ CaliChar c := by
  unfold keep CaliChar
  have : c = ch '\n' ↔ c.toNat = 10 := by
    constructor
    · rintro rfl; decide
    · intro h; exact BitVec.eq_of_toNat_eq (by rw [h]; decide)
  simp [this]

/-! ## C23 -/

/-- C23: a string of supported characters, written and followed by the end of the field, is read back unchanged, and the
reader stops exactly at the end of the field. -/
theorem C23_string_roundtrip (s rest : List Byte) (hs : ∀ c ∈ s, CaliChar c) (hr : FieldEnd rest) :
    readEsc (writeEsc s ++ rest) = (s, rest) := by
  unfold readEsc
  rw [readEsc_writeEsc s rest hr.sep, List.filter_eq_self.2 fun c hc => (keep_iff c).2 (hs c hc)]

/-- C23 (any string): exactly the unsupported characters get lost, nothing else changes. -/
theorem C23_any_string (s rest : List Byte) (hr : FieldEnd rest) :
    ∃ s', readEsc (writeEsc s ++ rest) = (s', rest) ∧ s'.Sublist s ∧ (∀ c ∈ s', CaliChar c) ∧
      ∀ c, CaliChar c → s'.count c = s.count c := by
  refine ⟨s.filter keep, readEsc_writeEsc s rest hr.sep, List.filter_sublist, ?_, ?_⟩
  · intro c hc
    exact (keep_iff c).1 (List.mem_filter.1 hc).2
  · intro c hc
    rw [List.count_filter ((keep_iff c).2 hc)]

/-- C23: the written form of any string consists of printable ASCII characters only (so it contains no line break), and every
separator in it is preceded by a backslash. -/
theorem C23_no_raw_separators (s : List Byte) :
    (∀ c ∈ writeEsc s, 32 ≤ c.toNat ∧ c.toNat < 128) ∧
    ∀ pre c post, writeEsc s = pre ++ c :: post → c = ch ',' ∨ c = ch '=' → pre.getLast? = some (ch '\\') := by
  refine ⟨writeEsc_clean s, ?_⟩
  induction s with
  | nil => intro pre c post h; simp [writeEsc] at h
  | cons x xs ih =>
    intro pre c post h hc
    -- peel a chunk that ends in a character
    have key : ∀ (chunk : List Byte), writeEsc (x :: xs) = chunk ++ writeEsc xs →
        (∀ p q, chunk = p ++ c :: q → p.getLast? = some (ch '\\')) → pre.getLast? = some (ch '\\') := by
      intro chunk he hin
      rw [h] at he
      rcases List.append_eq_append_iff.1 he with ⟨m, e1, e2⟩ | ⟨m, e1, e2⟩
      · -- chunk = pre ++ m, c :: post = m ++ writeEsc xs
        cases m with
        | nil =>
          simp at e1 e2
          have := ih [] c post e2.symm hc
          simp at this
        | cons y ys =>
          obtain ⟨rfl, e3⟩ := List.cons.inj e2
          exact hin pre ys e1
      · -- pre = chunk ++ m
        have := ih m c post e2 hc
        rw [e1]
        cases m with
        | nil => simp at this
        | cons y ys => rw [List.getLast?_append, this]; rfl
    by_cases h1 : x.toInt < 32
    · by_cases h2 : x = ch '\n'
      · refine key [ch '\\', ch 'n'] (by simp only [writeEsc, if_pos h1, if_pos h2]; rfl) ?_
        intro p q hpq
        rcases p with _ | ⟨p1, _ | ⟨p2, p3⟩⟩
        · simp at hpq; rw [← hpq.1] at hc; revert hc; decide
        · simp at hpq; rw [← hpq.2.1] at hc; exact absurd hc (by decide)
        · simp at hpq
      · refine key [] (by simp [writeEsc, h1, h2]) ?_
        intro p q hpq; simp at hpq
    · by_cases h2 : x = ch '\\' ∨ x = ch ',' ∨ x = ch '='
      · refine key [ch '\\', x] (by simp only [writeEsc, if_neg h1, if_pos h2]; rfl) ?_
        intro p q hpq
        rcases p with _ | ⟨p1, _ | ⟨p2, p3⟩⟩
        · simp at hpq; rw [← hpq.1] at hc; revert hc; decide
        · simp at hpq; rw [← hpq.1]; rfl
        · simp at hpq
      · refine key [x] (by simp only [writeEsc, if_neg h1, if_neg h2]; rfl) ?_
        intro p q hpq
        rcases p with _ | ⟨p1, p2⟩
        · simp at hpq
          rw [← hpq.1] at hc
          exact absurd (.inr hc) h2
        · simp at hpq

/-- not vacuous: separators, backslashes and line breaks -/
example : readEsc (writeEsc (str "a=b,c\\n\n=") ++ str ",parent=3") = (str "a=b,c\\n\n=", str ",parent=3") := by decide

/-- limit of C23: characters outside the supported set (here a tab and a UTF-8 encoded `ä`) are lost. -/
theorem C23_unsupported_chars_lost :
    ∃ s : List Byte, s.length = 3 ∧ (readEsc (writeEsc s)).1 = [] := ⟨[9#8, 0xC3#8, 0xA4#8], by decide, by decide⟩

/-! ## C24 -/

/-- the values C24 is about -/
def Plainly : Val → Prop
  | .int _ | .uint _ | .addr _ | .bool _ => True
  | .type t => t ≠ .inv
  | _ => False

/-- C24: an integer, unsigned, address, boolean or type value written as `.cali` text and followed by the end of the field is
read back as the same value of the same type. -/
theorem C24_value_roundtrip (F : DblFmt) (v : Val) (hv : Plainly v) (rest : List Byte) (hr : FieldEnd rest) :
    ∃ w, readEsc (v.writeCali F ++ rest) = (w, rest) ∧ makeVar F v.ty w = v ∧ fromString F v.ty w = v := by
  have hs : Supported F v := by cases v <;> simp_all [Plainly, Supported]
  obtain ⟨h1, h2⟩ := value_roundtrip F v hs rest hr.sep
  refine ⟨(readEsc (v.writeCali F ++ rest)).1, Prod.ext rfl h1, h2, ?_⟩
  cases v <;> first | exact hv.elim | exact h2

/-- C24: node and attribute ids survive as well. -/
theorem C24_id_roundtrip (u : U64) (rest : List Byte) (hr : FieldEnd rest) : readUint (writeUint u ++ rest) 0 = (u, rest) :=
  readUint_writeUint u rest hr.sep

/-- C24: the decimal form is the usual one: digits only, no leading zero, and it denotes the number. -/
theorem C24_decimal (u : U64) :
    (∀ c ∈ writeUint u, 48 ≤ c.toNat ∧ c.toNat ≤ 57) ∧ writeUint u ≠ [] ∧
    (writeUint u).foldl (fun n c => n * 10 + (c.toNat - 48)) 0 = u.toNat ∧
    ((writeUint u).head? = some (ch '0') → u = 0) := by
  have dig : ∀ d < 10, (digitChar d).toNat = 48 + d := by
    intro d hd
    unfold digitChar
    rw [if_pos hd]
    simp [BitVec.toNat_ofNat]; omega
  have fold : ∀ ds : List Byte, AllDig 10 ds → ∀ n, ds.foldl (fun n c => n * 10 + (c.toNat - 48)) n =
      ds.foldl (fun v c => v * 10 + (digitVal c).getD 0) n := by
    intro ds
    induction ds with
    | nil => intro _ n; rfl
    | cons c cs ih =>
      intro h n
      obtain ⟨d, hd, rfl⟩ := h c (by simp)
      have hv := (digitChar_facts d (by omega)).1
      simp only [List.foldl_cons, hv, Option.getD_some, dig d hd]
      rw [show 48 + d - 48 = d by omega]
      exact ih (fun x hx => h x (List.mem_cons_of_mem _ hx)) _
  refine ⟨?_, writeUint_ne_nil u, ?_, ?_⟩
  · intro c hc
    obtain ⟨d, hd, rfl⟩ := digits_all 10 (by omega) u.toNat c hc
    rw [dig d hd]; omega
  · unfold writeUint
    rw [fold _ (digits_all 10 (by omega) _), foldl_digits 10 (by omega) (by omega)]
  · have lead : ∀ n : Nat, (digitsLoop 10 n []).head? = some (ch '0') → n = 0 := by
      intro n
      induction n using Nat.strongRecOn with
      | _ n ih =>
        intro h
        by_cases hn : n < 10
        · rw [digits_lt 10 n hn] at h
          simp at h
          have := congrArg BitVec.toNat h
          rw [dig n hn] at this
          have e : (ch '0').toNat = 48 := by decide
          omega
        · rw [digits_ge 10 n (by omega) (by omega)] at h
          obtain ⟨d, ds, hd, e⟩ := digits_cons 10 (by omega) (n / 10)
          rw [e] at h
          have := ih (n / 10) (Nat.div_lt_self (by omega) (by omega)) (by rw [e]; simpa using h)
          omega
    intro h
    have := lead u.toNat h
    exact BitVec.eq_of_toNat_eq (by rw [this]; rfl)

/-- not vacuous: the smallest integer -/
example : makeVar ⟨fun _ => [], fun _ => [], fun _ => none⟩ .int
    (readEsc ((Val.int (BitVec.intMin 64)).writeCali ⟨fun _ => [], fun _ => [], fun _ => none⟩)).1 = .int (BitVec.intMin 64) := by
  decide +kernel

/-- the invalid type value is the one type value that does not survive -/
theorem C24_invalid_type_lost (F : DblFmt) :
    makeVar F .type (readEsc ((Val.type .inv).writeCali F)).1 = .inv := by
  have e : (Val.type .inv).writeCali F = str "inv" := by simp only [Val.writeCali]; decide
  rw [e, show (readEsc (str "inv")).1 = str "inv" by decide]
  unfold makeVar fromString
  exact if_neg (by decide)

/-! ## C39 -/

/-- C39: the name of a type is converted back to the type. -/
theorem C39_type_roundtrip (t : AttrType) : string2type (type2string t.code) = t := (type_text t).2

/-- C39: type names are distinct. -/
theorem C39_type_names_distinct (t u : AttrType) (h : type2string t.code = type2string u.code) : t = u := by
  rw [← C39_type_roundtrip t, h, C39_type_roundtrip]

/-- C39: any string that is not the name of a type yields the invalid type. -/
theorem C39_unknown_name (s : List Byte) (h : ∀ t : AttrType, s ≠ type2string t.code) : string2type s = .inv := by
  unfold string2type
  have : typemap.find? (fun p => decide (str p.1 = s)) = none := by
    rw [List.find?_eq_none]
    intro p hp
    simp only [decide_eq_true_eq]
    intro e
    subst e
    have all : ∀ p ∈ typemap, str p.1 = type2string p.2.code := by decide
    exact h p.2 (all p hp)
  rw [this]

/-- C39: the names are the documented ones. -/
theorem C39_type_names :
    type2string AttrType.inv.code = str "inv" ∧ type2string AttrType.usr.code = str "usr" ∧ type2string AttrType.int.code = str "int" ∧
    type2string AttrType.uint.code = str "uint" ∧ type2string AttrType.string.code = str "string" ∧
    type2string AttrType.addr.code = str "addr" ∧ type2string AttrType.double.code = str "double" ∧
    type2string AttrType.bool.code = str "bool" ∧ type2string AttrType.type.code = str "type" ∧
    type2string AttrType.ptr.code = str "ptr" := by decide

/-- C39: out-of-range type codes print as the invalid type. -/
theorem C39_bad_code (n : Nat) (h : maxType < n) : type2string n = str "inv" := by
  unfold type2string
  rw [if_neg (by omega)]

/-- not vacuous -/
example : string2type (str "strin") = .inv ∧ string2type (str "") = .inv ∧ string2type (str "string") = .string := by decide

end Verif
