import Verif.Query.JsonSpec
import Verif.Cali.TextLemmas
import Mathlib.Data.List.Induction
import Mathlib.Data.List.Forall2
/-!
# Reading JSON texts
-/
namespace Verif.Query.Json
open Verif Verif.Cali Verif.Query

theorem toInt_lt (c : Byte) : c.toInt < 0x20 ↔ ¬(0x20 ≤ c.toNat ∧ c.toNat < 0x80) := by
  have h := c.isLt
  rw [BitVec.toInt_eq_toNat_cond]
  split <;> omega

theorem escChar_cases (c : Byte) :
    (c = ch '\n' ∧ escChar c = [ch '\\', ch 'n']) ∨
    ((c = ch '\\' ∨ c = ch '"') ∧ escChar c = [ch '\\', c]) ∨
    (c ≠ ch '\n' ∧ c ≠ ch '\\' ∧ c ≠ ch '"' ∧ 0x20 ≤ c.toNat ∧ c.toNat < 0x80 ∧ escChar c = [c]) ∨
    (c ≠ ch '\n' ∧ ¬(0x20 ≤ c.toNat ∧ c.toNat < 0x80) ∧ escChar c = []) := by
  by_cases h1 : c = ch '\n'
  · subst h1; exact .inl ⟨rfl, by decide⟩
  by_cases h2 : c = ch '\\'
  · subst h2; exact .inr (.inl ⟨.inl rfl, by decide⟩)
  by_cases h3 : c = ch '"'
  · subst h3; exact .inr (.inl ⟨.inr rfl, by decide⟩)
  by_cases h4 : 0x20 ≤ c.toNat ∧ c.toNat < 0x80
  · refine .inr (.inr (.inl ⟨h1, h2, h3, h4.1, h4.2, ?_⟩))
    have : ¬c.toInt < 0x20 := by rw [toInt_lt]; simpa using h4
    simp [escChar, h1, h2, h3, this]
  · refine .inr (.inr (.inr ⟨h1, h4, ?_⟩))
    have : c.toInt < 0x20 := by rw [toInt_lt]; exact h4
    simp [escChar, h1, this]

/-- text of a key -/
def KeyText (t k : Str) : Prop := ∀ rest, parseStr (t ++ ch '"' :: rest) = some (k, rest)

theorem keyText_esc (s : Str) : KeyText (writeJsonEsc s) (clean s) := by
  intro rest
  induction s with
  | nil =>
    simp only [writeJsonEsc, List.flatMap_nil, List.nil_append, clean, List.filter_nil]
    rw [parseStr.eq_def]; simp
  | cons c s ih =>
    have e : writeJsonEsc (c :: s) = escChar c ++ writeJsonEsc s := by simp [writeJsonEsc]
    rw [e, List.append_assoc]
    rcases escChar_cases c with ⟨rfl, h⟩ | ⟨hc, h⟩ | ⟨h1, h2, h3, h4, h5, h⟩ | ⟨h1, h2, h⟩
    · rw [h]
      show parseStr (ch '\\' :: (ch 'n' :: (writeJsonEsc s ++ ch '"' :: rest))) = _
      rw [parseStr, ih]
      simp only [clean]
      rfl
    · rw [h]
      show parseStr (ch '\\' :: (c :: (writeJsonEsc s ++ ch '"' :: rest))) = _
      rw [parseStr, ih]
      rcases hc with rfl | rfl <;> rfl
    · rw [h]
      show parseStr (c :: (writeJsonEsc s ++ ch '"' :: rest)) = _
      rw [parseStr.eq_def]
      simp only [h2, h3, if_false]
      rw [if_neg (by omega), ih]
      simp [clean, h4, h5]
    · rw [h, List.nil_append, ih]
      have : (decide (32 ≤ c.toNat) && decide (c.toNat < 128)) = false := by
        rw [Bool.eq_false_iff]; intro hh
        simp only [Bool.and_eq_true, decide_eq_true_eq] at hh
        exact h2 hh
      simp only [clean, List.filter_cons, decide_eq_false h1, this, Bool.or_false, Bool.false_eq_true, if_false]

theorem skipWs_append {w : List Byte} (hw : ∀ c ∈ w, isWs c = true) (l : List Byte) : skipWs (w ++ l) = skipWs l := by
  induction w with
  | nil => rfl
  | cons c w ih =>
    rw [List.cons_append, skipWs, List.dropWhile_cons, if_pos (hw c (by simp))]
    exact ih fun x hx => hw x (by simp [hx])

theorem skipWs_cons {c : Byte} (h : isWs c = false) (l : List Byte) : skipWs (c :: l) = c :: l := by
  rw [skipWs, List.dropWhile_cons, if_neg (by simp [h])]

theorem skipWs_all {w : List Byte} (hw : ∀ c ∈ w, isWs c = true) : skipWs w = [] := by
  have := skipWs_append hw []
  simpa [skipWs] using this

/-- what follows a value cannot continue a number -/
def Stops (rest : List Byte) : Prop := ∀ c, rest.head? = some c → isNumChar c = false

theorem ws_not_num {c : Byte} (h : isWs c = true) : isNumChar c = false := by
  simp only [isWs, Bool.or_eq_true, decide_eq_true_eq] at h
  rcases h with ((rfl | rfl) | rfl) | rfl <;> decide

theorem stops_ws {w : List Byte} (hw : ∀ c ∈ w, isWs c = true) {c : Byte} (hc : isNumChar c = false) (r : List Byte) :
    Stops (w ++ c :: r) := by
  intro d hd
  cases w with
  | nil => simp at hd; subst hd; exact hc
  | cons x w => simp at hd; subst hd; exact ws_not_num (hw _ (by simp))

/-- `t` is a text of the value `v` -/
def Reads (t : List Byte) (v : JVal) : Prop := ∀ n rest, t.length < n → Stops rest → parseVal n (t ++ rest) = some (v, rest)
/-- `t` is a text of the members `ms` and the closing brace -/
def MReads (t : List Byte) (ms : List (Str × JVal)) : Prop := ∀ n rest, t.length < n → parseMembers n (t ++ rest) = some (ms, rest)
/-- `t` is a text of the elements `vs` and the closing bracket -/
def EReads (t : List Byte) (vs : List JVal) : Prop := ∀ n rest, t.length < n → parseElems n (t ++ rest) = some (vs, rest)

theorem parseVal_ws (n : Nat) {w : List Byte} (hw : ∀ c ∈ w, isWs c = true) (l : List Byte) : parseVal n (w ++ l) = parseVal n l := by
  cases n with
  | zero => rw [parseVal, parseVal]
  | succ n => rw [parseVal, parseVal, skipWs_append hw]

theorem Reads.ws {t : List Byte} {v : JVal} (h : Reads t v) {w : List Byte} (hw : ∀ c ∈ w, isWs c = true) : Reads (w ++ t) v := by
  intro n rest hn hs
  rw [List.append_assoc, parseVal_ws n hw]
  exact h n rest (by rw [List.length_append] at hn; omega) hs

theorem reads_string {t s : Str} (h : KeyText t s) : Reads (ch '"' :: (t ++ [ch '"'])) (.string s) := by
  intro n rest hn _
  obtain ⟨n, rfl⟩ : ∃ k, n = k + 1 := ⟨n - 1, by omega⟩
  have e : ch '"' :: (t ++ [ch '"']) ++ rest = ch '"' :: (t ++ ch '"' :: rest) := by simp
  rw [e, parseVal, skipWs_cons (by decide)]
  simp only [h rest]
  rfl

theorem reads_bool (b : Bool) : Reads (if b then str "true" else str "false") (.bool b) := by
  intro n rest hn _
  obtain ⟨n, rfl⟩ : ∃ k, n = k + 1 := ⟨n - 1, by omega⟩
  cases b
  · show parseVal (n + 1) (ch 'f' :: ch 'a' :: ch 'l' :: ch 's' :: ch 'e' :: rest) = _
    rw [parseVal, skipWs_cons (by decide)]
    rfl
  · show parseVal (n + 1) (ch 't' :: ch 'r' :: ch 'u' :: ch 'e' :: rest) = _
    rw [parseVal, skipWs_cons (by decide)]
    rfl

theorem takeWhile_stop {p : Byte → Bool} {w rest : List Byte} (hw : ∀ c ∈ w, p c = true) (hr : ∀ c, rest.head? = some c → p c = false) :
    (w ++ rest).takeWhile p = w ∧ (w ++ rest).dropWhile p = rest := by
  induction w with
  | nil =>
    cases rest with
    | nil => exact ⟨rfl, rfl⟩
    | cons c r => have := hr c rfl; simp [this]
  | cons c w ih =>
    have := hw c (by simp)
    obtain ⟨h1, h2⟩ := ih fun x hx => hw x (by simp [hx])
    simp [this, h1, h2]

theorem dig_numChar {c : Byte} (h : isDig c = true) : isNumChar c = true := by
  simp only [isDig, isNumChar] at *
  simp [h]

theorem validExp_chars {l : List Byte} (h : validExp l = true) : ∀ c ∈ l, isNumChar c = true := by
  cases l with
  | nil => simp
  | cons c r =>
    simp only [validExp] at h
    split at h
    · next he =>
      have hc : isNumChar c = true := by
        simp only [Bool.or_eq_true, decide_eq_true_eq] at he
        rcases he with rfl | rfl <;> decide
      intro x hx
      rcases List.mem_cons.1 hx with rfl | hx
      · exact hc
      · cases r with
        | nil => cases hx
        | cons s r' =>
          simp only at h
          split at h
          · next hsg =>
            simp only [Bool.and_eq_true, List.all_eq_true] at h
            rcases List.mem_cons.1 hx with rfl | hx
            · simp only [Bool.or_eq_true, decide_eq_true_eq] at hsg
              rcases hsg with rfl | rfl <;> decide
            · exact dig_numChar (h.2 x hx)
          · simp only [Bool.and_eq_true, List.all_eq_true] at h
            exact dig_numChar (h.2 x hx)
    · cases h

theorem validFrac_chars {l : List Byte} (h : validFrac l = true) : ∀ c ∈ l, isNumChar c = true := by
  cases l with
  | nil => simp
  | cons c r =>
    simp only [validFrac] at h
    split at h
    · next he =>
      simp only [Bool.and_eq_true] at h
      intro x hx
      rcases List.mem_cons.1 hx with rfl | hx
      · rw [he]; decide
      · rw [← List.takeWhile_append_dropWhile (p := isDig) (l := r)] at hx
        rcases List.mem_append.1 hx with hx | hx
        · exact dig_numChar (List.all_eq_true.1 List.all_takeWhile x hx)
        · exact validExp_chars h.2 x hx
    · exact validExp_chars h

theorem validUnsigned_chars {l : List Byte} (h : validUnsigned l = true) : ∀ c ∈ l, isNumChar c = true := by
  simp only [validUnsigned, Bool.and_eq_true] at h
  intro x hx
  rw [← List.takeWhile_append_dropWhile (p := isDig) (l := l)] at hx
  rcases List.mem_append.1 hx with hx | hx
  · exact dig_numChar (List.all_eq_true.1 List.all_takeWhile x hx)
  · exact validFrac_chars h.2 x hx

theorem validNum_chars {l : List Byte} (h : validNum l = true) : ∀ c ∈ l, isNumChar c = true := by
  cases l with
  | nil => simp
  | cons c r =>
    simp only [validNum] at h
    split at h
    · next he =>
      intro x hx
      rcases List.mem_cons.1 hx with rfl | hx
      · rw [he]; decide
      · exact validUnsigned_chars h x hx
    · exact validUnsigned_chars h

theorem reads_num {t : List Byte} (h : validNum t = true) : Reads t (.num t) := by
  intro n rest hn hs
  obtain ⟨n, rfl⟩ : ∃ k, n = k + 1 := ⟨n - 1, by omega⟩
  have hc := validNum_chars h
  obtain ⟨t1, t2⟩ := takeWhile_stop hc hs
  cases t with
  | nil => simp [validNum] at h
  | cons c r =>
    have hn := hc c (by simp)
    have hne : ∀ d, isNumChar d = false → c ≠ d := by
      intro d hd e; rw [e, hd] at hn; cases hn
    have hw : isWs c = false := by
      cases hx : isWs c with
      | false => rfl
      | true => rw [ws_not_num hx] at hn; cases hn
    have hp : ∀ (s : List Byte) (d : Byte), isNumChar d = false → (d :: s).isPrefixOf (c :: (r ++ rest)) = false := by
      intro s d hd
      have : (d == c) = false := by
        rw [beq_eq_false_iff_ne]; exact fun e => hne d hd e.symm
      simp [List.isPrefixOf, this]
    rw [List.cons_append] at t1 t2 ⊢
    rw [parseVal, skipWs_cons hw]
    simp only [if_neg (hne (ch '{') (by decide)), if_neg (hne (ch '[') (by decide)), if_neg (hne (ch '"') (by decide))]
    have p1 : (str "true").isPrefixOf (c :: (r ++ rest)) = false := hp (str "rue") (ch 't') (by decide)
    have p2 : (str "false").isPrefixOf (c :: (r ++ rest)) = false := hp (str "alse") (ch 'f') (by decide)
    have p3 : (str "null").isPrefixOf (c :: (r ++ rest)) = false := hp (str "ull") (ch 'n') (by decide)
    simp only [p1, p2, p3, t1, t2, h, if_true, Bool.false_eq_true, if_false]

theorem reads_emptyObj {w : List Byte} (hw : ∀ c ∈ w, isWs c = true) : Reads (ch '{' :: (w ++ [ch '}'])) (.obj []) := by
  intro n rest hn _
  obtain ⟨n, rfl⟩ : ∃ k, n = k + 1 := ⟨n - 1, by omega⟩
  have e : ch '{' :: (w ++ [ch '}']) ++ rest = ch '{' :: (w ++ ch '}' :: rest) := by simp
  rw [e, parseVal, skipWs_cons (by decide)]
  simp only [skipWs_append hw, skipWs_cons (show isWs (ch '}') = false by decide)]
  rfl

theorem reads_emptyArr {w : List Byte} (hw : ∀ c ∈ w, isWs c = true) : Reads (ch '[' :: (w ++ [ch ']'])) (.arr []) := by
  intro n rest hn _
  obtain ⟨n, rfl⟩ : ∃ k, n = k + 1 := ⟨n - 1, by omega⟩
  have e : ch '[' :: (w ++ [ch ']']) ++ rest = ch '[' :: (w ++ ch ']' :: rest) := by simp
  rw [e, parseVal, skipWs_cons (by decide)]
  simp only [skipWs_append hw, skipWs_cons (show isWs (ch ']') = false by decide)]
  rfl

theorem reads_obj {t : List Byte} {ms : List (Str × JVal)} (h : MReads t ms) : Reads (ch '{' :: t) (.obj ms) := by
  intro n rest hn _
  obtain ⟨n, rfl⟩ : ∃ k, n = k + 1 := ⟨n - 1, by omega⟩
  have hm := h n rest (by simp at hn; omega)
  rw [List.cons_append, parseVal, skipWs_cons (by decide)]
  have : ∃ r', skipWs (t ++ rest) = ch '"' :: r' := by
    cases n with
    | zero => simp [parseMembers] at hm
    | succ n =>
      rw [parseMembers] at hm
      cases hx : skipWs (t ++ rest) with
      | nil => rw [hx] at hm; simp at hm
      | cons c r =>
        rw [hx] at hm
        simp only at hm
        split at hm
        · next hc => exact ⟨r, by rw [hc]⟩
        · cases hm
  obtain ⟨r', hr'⟩ := this
  simp only [if_true, hr', if_neg (show ¬ch '"' = ch '}' by decide), hm]
  rfl

theorem parseVal_first {n : Nat} {l : List Byte} {x : JVal × List Byte} (h : parseVal n l = some x) :
    ∃ c r, skipWs l = c :: r ∧ c ≠ ch ']' := by
  cases n with
  | zero => simp [parseVal] at h
  | succ n =>
    rw [parseVal] at h
    cases hx : skipWs l with
    | nil => rw [hx] at h; simp at h
    | cons c r =>
      refine ⟨c, r, rfl, ?_⟩
      rintro rfl
      rw [hx] at h
      have ht : (ch ']' :: r).takeWhile isNumChar = [] := by rw [List.takeWhile_cons, if_neg (by decide)]
      have p1 : (str "true").isPrefixOf (ch ']' :: r) = false := rfl
      have p2 : (str "false").isPrefixOf (ch ']' :: r) = false := rfl
      have p3 : (str "null").isPrefixOf (ch ']' :: r) = false := rfl
      simp only [if_neg (show ¬ch ']' = ch '{' by decide), if_neg (show ¬ch ']' = ch '[' by decide),
        if_neg (show ¬ch ']' = ch '"' by decide), p1, p2, p3, ht] at h
      simp [validNum] at h

theorem reads_arr {t : List Byte} {vs : List JVal} (h : EReads t vs) : Reads (ch '[' :: t) (.arr vs) := by
  intro n rest hn _
  obtain ⟨n, rfl⟩ : ∃ k, n = k + 1 := ⟨n - 1, by omega⟩
  have hm := h n rest (by simp at hn; omega)
  rw [List.cons_append, parseVal, skipWs_cons (by decide)]
  have : ∃ c r', skipWs (t ++ rest) = c :: r' ∧ c ≠ ch ']' := by
    cases n with
    | zero => simp [parseElems] at hm
    | succ n =>
      rw [parseElems] at hm
      cases hx : parseVal n (t ++ rest) with
      | none => rw [hx] at hm; simp at hm
      | some x => exact parseVal_first hx
  obtain ⟨c, r', hr', hc⟩ := this
  simp only [if_neg (show ¬ch '[' = ch '{' by decide), if_true, hr', if_neg hc, hm]
  rfl

/-- the text of a member -/
def PairReads (p : List Byte) (m : Str × JVal) : Prop :=
  ∃ kt tv, p = ch '"' :: (kt ++ ch '"' :: ch ':' :: tv) ∧ KeyText kt m.1 ∧ Reads tv m.2

theorem mreads_last {p w1 w2 : List Byte} {m : Str × JVal} (h : PairReads p m) (h1 : ∀ c ∈ w1, isWs c = true) (h2 : ∀ c ∈ w2, isWs c = true) :
    MReads (w1 ++ (p ++ (w2 ++ [ch '}']))) [m] := by
  obtain ⟨kt, tv, rfl, hk, hv⟩ := h
  intro n rest hn
  obtain ⟨n, rfl⟩ : ∃ k, n = k + 1 := ⟨n - 1, by omega⟩
  have e : w1 ++ (ch '"' :: (kt ++ ch '"' :: ch ':' :: tv) ++ (w2 ++ [ch '}'])) ++ rest =
      w1 ++ ch '"' :: (kt ++ ch '"' :: (ch ':' :: (tv ++ (w2 ++ ch '}' :: rest)))) := by simp
  have hv' := hv n (w2 ++ ch '}' :: rest) (by simp at hn; omega) (stops_ws h2 (by decide) _)
  rw [e, parseMembers, skipWs_append h1, skipWs_cons (by decide)]
  simp only [if_true, hk _, skipWs_cons (show isWs (ch ':') = false by decide), hv', skipWs_append h2,
    skipWs_cons (show isWs (ch '}') = false by decide), if_neg (show ¬ch '}' = ch ',' by decide)]

theorem mreads_cons {p w1 w2 t : List Byte} {m : Str × JVal} {ms : List (Str × JVal)} (h : PairReads p m) (h1 : ∀ c ∈ w1, isWs c = true)
    (h2 : ∀ c ∈ w2, isWs c = true) (ht : MReads t ms) : MReads (w1 ++ (p ++ (w2 ++ ch ',' :: t))) (m :: ms) := by
  obtain ⟨kt, tv, rfl, hk, hv⟩ := h
  intro n rest hn
  obtain ⟨n, rfl⟩ : ∃ k, n = k + 1 := ⟨n - 1, by omega⟩
  have e : w1 ++ (ch '"' :: (kt ++ ch '"' :: ch ':' :: tv) ++ (w2 ++ ch ',' :: t)) ++ rest =
      w1 ++ ch '"' :: (kt ++ ch '"' :: (ch ':' :: (tv ++ (w2 ++ ch ',' :: (t ++ rest))))) := by simp
  have hv' := hv n (w2 ++ ch ',' :: (t ++ rest)) (by simp at hn; omega) (stops_ws h2 (by decide) _)
  have ht' := ht n rest (by simp at hn; omega)
  rw [e, parseMembers, skipWs_append h1, skipWs_cons (by decide)]
  simp only [if_true, hk _, skipWs_cons (show isWs (ch ':') = false by decide), hv', skipWs_append h2,
    skipWs_cons (show isWs (ch ',') = false by decide), ht']
  rfl

theorem ereads_last {t w2 : List Byte} {v : JVal} (h : Reads t v) (h2 : ∀ c ∈ w2, isWs c = true) : EReads (t ++ (w2 ++ [ch ']'])) [v] := by
  intro n rest hn
  obtain ⟨n, rfl⟩ : ∃ k, n = k + 1 := ⟨n - 1, by omega⟩
  have e : t ++ (w2 ++ [ch ']']) ++ rest = t ++ (w2 ++ ch ']' :: rest) := by simp
  have hv' := h n (w2 ++ ch ']' :: rest) (by simp at hn; omega) (stops_ws h2 (by decide) _)
  rw [e, parseElems, hv']
  simp only [skipWs_append h2, skipWs_cons (show isWs (ch ']') = false by decide), if_neg (show ¬ch ']' = ch ',' by decide), if_true]

theorem ereads_cons {t w2 t' : List Byte} {v : JVal} {vs : List JVal} (h : Reads t v) (h2 : ∀ c ∈ w2, isWs c = true) (ht : EReads t' vs) :
    EReads (t ++ (w2 ++ ch ',' :: t')) (v :: vs) := by
  intro n rest hn
  obtain ⟨n, rfl⟩ : ∃ k, n = k + 1 := ⟨n - 1, by omega⟩
  have e : t ++ (w2 ++ ch ',' :: t') ++ rest = t ++ (w2 ++ ch ',' :: (t' ++ rest)) := by simp
  have hv' := h n (w2 ++ ch ',' :: (t' ++ rest)) (by simp at hn; omega) (stops_ws h2 (by decide) _)
  have ht' := ht n rest (by simp at hn; omega)
  rw [e, parseElems, hv']
  simp only [skipWs_append h2, skipWs_cons (show isWs (ch ',') = false by decide), if_true, ht']
  rfl

/-- a complete text -/
theorem parseJson_reads {t w : List Byte} {v : JVal} (h : Reads t v) (hw : ∀ c ∈ w, isWs c = true) : parseJson (t ++ w) = some v := by
  have hs : Stops w := by
    intro c hc
    cases w with
    | nil => cases hc
    | cons x w => simp at hc; subst hc; exact ws_not_num (hw _ (by simp))
  have := h ((t ++ w).length + 1) w (by simp; omega) hs
  rw [parseJson, this]
  simp only [skipWs_all hw, if_true]

/-- members written with separators -/
theorem mreads_seq {sep first pre w : List Byte} (hsep : ∃ ws, sep = ch ',' :: ws ∧ ∀ c ∈ ws, isWs c = true) (hf : ∀ c ∈ first, isWs c = true)
    (hpre : ∀ c ∈ pre, isWs c = true) (hw : ∀ c ∈ w, isWs c = true) {l : List (List Byte × (Str × JVal))} (hl : l ≠ [])
    (h : ∀ x ∈ l, PairReads x.1 x.2) : MReads (writeSeq first sep pre (l.map Prod.fst) ++ (w ++ [ch '}'])) (l.map Prod.snd) := by
  induction l generalizing first with
  | nil => exact absurd rfl hl
  | cons x l ih =>
    have hfp : ∀ c ∈ first ++ pre, isWs c = true := by
      intro c hc
      rcases List.mem_append.1 hc with hc | hc
      · exact hf c hc
      · exact hpre c hc
    by_cases hl' : l = []
    · subst hl'
      have := mreads_last (w1 := first ++ pre) (w2 := w) (h x (by simp)) hfp hw
      simpa [writeSeq] using this
    · obtain ⟨ws, rfl, hws⟩ := hsep
      have ih' := ih (first := ws) hws hl' fun y hy => h y (by simp [hy])
      have e : writeSeq (ch ',' :: ws) (ch ',' :: ws) pre (l.map Prod.fst) =
          ch ',' :: writeSeq ws (ch ',' :: ws) pre (l.map Prod.fst) := by
        cases l with
        | nil => exact absurd rfl hl'
        | cons y l => simp [writeSeq]
      have := mreads_cons (w1 := first ++ pre) (w2 := []) (h x (by simp)) hfp (by simp) ih'
      rw [List.map_cons, List.map_cons, writeSeq, e]
      simpa using this

theorem digitChar_isDig {d : Nat} (h : d < 10) : isDig (digitChar d) = true := by
  have : ∀ d : Fin 10, isDig (digitChar d.1) = true := by decide
  exact this ⟨d, h⟩

theorem digits_isDig (v : Nat) : ∀ c ∈ digitsLoop 10 v [], isDig c = true := by
  intro c hc
  obtain ⟨d, hd, rfl⟩ := digits_all 10 (by decide) v c hc
  exact digitChar_isDig hd

theorem digits_head (v : Nat) : (digitsLoop 10 v []).length = 1 ∨ (digitsLoop 10 v []).head? ≠ some (ch '0') := by
  induction v using Nat.strongRecOn with
  | ind v ih =>
    by_cases h : v < 10
    · left; rw [digits_lt 10 v h]; rfl
    · right
      rw [digits_ge 10 v (by decide) (by omega)]
      rw [List.head?_append_of_ne_nil _ (digits_ne_nil 10 (by decide) _)]
      rcases ih (v / 10) (Nat.div_lt_self (by omega) (by decide)) with h1 | h1
      · by_cases h2 : v / 10 < 10
        · rw [digits_lt 10 _ h2]
          have h3 : 0 < v / 10 := by omega
          have : ∀ d : Fin 10, 0 < d.1 → digitChar d.1 ≠ ch '0' := by decide
          intro hh
          simp only [List.head?_cons, Option.some.injEq] at hh
          exact this ⟨v / 10, h2⟩ h3 hh
        · rw [digits_ge 10 _ (by decide) (by omega), List.length_append] at h1
          have := List.length_pos_of_ne_nil (digits_ne_nil 10 (by decide) (v / 10 / 10))
          simp only [List.length_singleton] at h1; omega
      · exact h1

theorem validUnsigned_digits (v : Nat) : validUnsigned (digitsLoop 10 v []) = true := by
  have h1 := digits_isDig v
  obtain ⟨t1, t2⟩ := takeWhile_stop (rest := []) h1 (by simp)
  rw [List.append_nil] at t1 t2
  have h2 := digits_head v
  have h3 := digits_ne_nil 10 (by decide) v
  simp only [validUnsigned, t1, t2, validFrac, Bool.and_true, Bool.and_eq_true, Bool.or_eq_true, decide_eq_true_eq]
  exact ⟨h3, h2⟩

theorem validNum_digits (v : Nat) : validNum (digitsLoop 10 v []) = true := by
  have h1 := digits_isDig v
  have h2 := validUnsigned_digits v
  have h3 := digits_ne_nil 10 (by decide) v
  cases hd : digitsLoop 10 v [] with
  | nil => exact absurd hd h3
  | cons c r =>
    have hc := h1 c (by rw [hd]; simp)
    have : c ≠ ch '-' := by rintro rfl; revert hc; decide
    rw [validNum, if_neg this, ← hd]; exact h2

theorem validNum_int (i : BitVec 64) : validNum (writeInt i) = true := by
  unfold writeInt
  split
  · rw [validNum, if_pos rfl]; exact validUnsigned_digits _
  · exact validNum_digits _

theorem esc_numChars {t : List Byte} (h : ∀ c ∈ t, isNumChar c = true) : writeJsonEsc t = t := by
  induction t with
  | nil => rfl
  | cons c t ih =>
    have hc := h c (by simp)
    have e : escChar c = [c] := by
      simp only [isNumChar, Bool.or_eq_true, Bool.and_eq_true, decide_eq_true_eq] at hc
      rcases hc with ((((hc | rfl) | rfl) | rfl) | rfl) | rfl
      · have h1 : c ≠ ch '\n' := by rintro rfl; revert hc; decide
        have h2 : c ≠ ch '\\' := by rintro rfl; revert hc; decide
        have h3 : c ≠ ch '"' := by rintro rfl; revert hc; decide
        have h4 : ¬c.toInt < 0x20 := by rw [toInt_lt]; simp; omega
        simp [escChar, h1, h2, h3, h4]
      all_goals decide
    have : writeJsonEsc (c :: t) = escChar c ++ writeJsonEsc t := by simp [writeJsonEsc]
    rw [this, e, ih fun x hx => h x (by simp [hx])]
    rfl

theorem litVal_reads (F : DblFmt) {v : Val} (h : HasLiteral F v) : Reads (writeJsonEsc (v.toStr F)) (plainJ F v) := by
  cases v with
  | int i => have := validNum_int i; rw [Val.toStr, esc_numChars (validNum_chars this)]; exact reads_num this
  | uint u => have := validNum_digits u.toNat; rw [Val.toStr, writeUint, esc_numChars (validNum_chars this)]; exact reads_num this
  | double d => have h' : validNum (F.toStr d) = true := h; rw [Val.toStr, esc_numChars (validNum_chars h')]; exact reads_num h'
  | bool b =>
    have e : writeJsonEsc ((Val.bool b).toStr F) = if b then str "true" else str "false" := by rw [Val.toStr]; cases b <;> decide
    rw [e]; exact reads_bool b
  | _ => exact h.elim

end Verif.Query.Json
