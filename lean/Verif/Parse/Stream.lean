import Verif.Cali.Text
/-!
# Input streams and the parsing helpers

Model of `/repo/src/common/util/parse_util.{h,cpp}`.  A `std::istringstream` is the rest of its text and `good()`.  `get()` at the
end sets eofbit and failbit and yields `(char) EOF`.  `unget()` is modelled by putting back the character just read.
-/
namespace Verif.Parse
open Verif Verif.Cali

/-- an input stream -/
structure IS where
  rest : List Byte
  good : Bool
  deriving DecidableEq, Repr

/-- the character a failed `get()` yields -/
def eofc : Byte := 0xFF

/-- `is.get()` -/
def IS.get (s : IS) : Byte × IS :=
  if s.good then
    match s.rest with
    | c :: cs => (c, ⟨cs, true⟩)
    | [] => (eofc, ⟨[], false⟩)
  else (eofc, s)

/-- `is.unget()` after `get()` returned `c`: has no effect on a stream that is not good -/
def IS.unget (s : IS) (c : Byte) : IS := if s.good then ⟨c :: s.rest, true⟩ else s

/-- the loop of `read_char` (`parse_util.cpp:84-93`) on a good stream -/
def readCharL : List Byte → Byte × IS
  | [] => (eofc, ⟨[], false⟩)
  | c :: cs => if isSpace c then readCharL cs else (c, ⟨cs, true⟩)

/-- `read_char` (`parse_util.cpp:84-93`) -/
def readChar (s : IS) : Byte × IS := if s.good then readCharL s.rest else (eofc, s)

/-- the main loop of `read_word` (`parse_util.cpp:22-43`) on a good stream; `esc` is the quote flag -/
def readWordL (sep : List Byte) : List Byte → Bool → List Byte × IS
  | [], _ => ([], ⟨[], false⟩)
  | c :: cs, esc =>
    if c = ch '\\' then
      match cs with
      | [] => ([], ⟨[], false⟩)
      | d :: ds => let (w, s) := readWordL sep ds esc; (d :: w, s)
    else if c = ch '"' then readWordL sep cs (!esc)
    else if !esc && (isSpace c || sep.contains c) then ([], ⟨c :: cs, true⟩)
    else let (w, s) := readWordL sep cs esc; (c :: w, s)
  termination_by l => l.length

/-- `read_word` (`parse_util.cpp:8-46`): skip white space, then read up to white space or a separator outside quotes -/
def readWord (sep : List Byte) (s : IS) : List Byte × IS :=
  if s.good then
    match s.rest.dropWhile isSpace with
    | [] => ([], ⟨[], false⟩)
    | cs => readWordL sep cs false
  else ([], s)

/-- the loop of `read_nested_text` (`parse_util.cpp:54-81`) on a good stream -/
def readNestedL (o c : Byte) : List Byte → Bool → Int → List Byte × IS
  | [], _, _ => ([], ⟨[], false⟩)
  | x :: xs, esc, depth =>
    if x = ch '\\' then
      match xs with
      | [] => ([], ⟨[], false⟩)
      | d :: ds => let (w, s) := readNestedL o c ds esc depth; (ch '\\' :: d :: w, s)
    else
      let esc' := if x = ch '"' then !esc else esc
      let depth' := if x = ch '"' then depth else if !esc && x = o then depth + 1 else if !esc && x = c then depth - 1 else depth
      if depth' = 0 then ([], ⟨x :: xs, true⟩)
      else let (w, s) := readNestedL o c xs esc' depth'; (x :: w, s)
  termination_by l => l.length

/-- `read_nested_text` (`parse_util.cpp:48-82`) -/
def readNested (o c : Byte) (s : IS) : List Byte × IS :=
  if s.good then readNestedL o c s.rest false 1 else ([], s)

/-! ## Writing words -/

/-- how a user writes any word: in quotes, with quotes and backslashes escaped -/
def quote (w : List Byte) : List Byte :=
  ch '"' :: (w.flatMap fun c => if c = ch '"' ∨ c = ch '\\' then [ch '\\', c] else [c]) ++ [ch '"']

/-- words without special characters can be written as they are -/
def Plain (sep : List Byte) (w : List Byte) : Prop := ∀ c ∈ w, c ≠ ch '\\' ∧ c ≠ ch '"' ∧ isSpace c = false ∧ sep.contains c = false

/-- `t` is a way to write the non-empty word `w` -/
def IsText (sep : List Byte) (w t : List Byte) : Prop := w ≠ [] ∧ (t = quote w ∨ (t = w ∧ Plain sep w))

theorem readWordL_quoted (sep : List Byte) (w rest : List Byte) :
    readWordL sep ((w.flatMap fun c => if c = ch '"' ∨ c = ch '\\' then [ch '\\', c] else [c]) ++ rest) true =
      (w ++ (readWordL sep rest true).1, (readWordL sep rest true).2) := by
  induction w with
  | nil => simp
  | cons c w ih =>
    rw [List.flatMap_cons, List.append_assoc]
    by_cases h : c = ch '"' ∨ c = ch '\\'
    · rw [if_pos h, List.cons_append, List.cons_append, List.nil_append, readWordL, if_pos rfl]
      simp only [ih, List.cons_append]
    · rw [if_neg h, List.cons_append, List.nil_append]
      simp only [not_or] at h
      rw [readWordL.eq_def]
      simp only [if_neg h.1, if_neg h.2, ih, Bool.not_true, Bool.false_and, Bool.false_eq_true, if_false, List.cons_append]

theorem readWordL_plain (sep : List Byte) (w rest : List Byte) (h : Plain sep w) :
    readWordL sep (w ++ rest) false = (w ++ (readWordL sep rest false).1, (readWordL sep rest false).2) := by
  induction w with
  | nil => simp
  | cons c w ih =>
    obtain ⟨h1, h2, h3, h4⟩ := h c (by simp)
    rw [List.cons_append, readWordL.eq_def]
    simp only [if_neg h1, if_neg h2, h3, h4, Bool.or_self, Bool.and_false, Bool.false_eq_true, if_false,
      ih (fun c hc => h c (List.mem_cons_of_mem _ hc)), List.cons_append]

theorem readWordL_text {sep w t : List Byte} (h : IsText sep w t) (rest : List Byte) :
    readWordL sep (t ++ rest) false = (w ++ (readWordL sep rest false).1, (readWordL sep rest false).2) := by
  obtain ⟨_, rfl | ⟨rfl, h⟩⟩ := h
  · unfold quote
    rw [List.cons_append, List.cons_append, readWordL.eq_def]
    simp only [if_neg (show ¬ch '"' = ch '\\' by decide), if_true, Bool.not_false]
    rw [List.append_assoc, readWordL_quoted]
    have : readWordL sep ([ch '"'] ++ rest) true = readWordL sep rest false := by
      show readWordL sep (ch '"' :: rest) true = _
      rw [readWordL.eq_def]
      simp only [if_neg (show ¬ch '"' = ch '\\' by decide), if_true, Bool.not_true]
    rw [this]
  · exact readWordL_plain sep _ rest h

theorem IsText.head {sep w t : List Byte} (h : IsText sep w t) : ∃ c cs, t = c :: cs ∧ isSpace c = false := by
  obtain ⟨h0, rfl | ⟨rfl, h⟩⟩ := h
  · exact ⟨_, _, rfl, by decide⟩
  · cases t with
    | nil => exact absurd rfl h0
    | cons c cs => exact ⟨c, cs, rfl, (h c (by simp)).2.2.1⟩

/-- `read_word` reads back a written word up to the separator -/
theorem readWord_text {sep w t : List Byte} (h : IsText sep w t) (ws rest : List Byte) (hws : ∀ c ∈ ws, isSpace c = true)
    (hrest : rest = [] ∨ ∃ c cs, rest = c :: cs ∧ c ≠ ch '\\' ∧ c ≠ ch '"' ∧ (isSpace c || sep.contains c) = true) :
    readWord sep ⟨ws ++ t ++ rest, true⟩ = (w, ⟨rest, !rest.isEmpty⟩) := by
  obtain ⟨c, cs, rfl, hc⟩ := h.head
  have e : (ws ++ (c :: cs) ++ rest).dropWhile isSpace = c :: cs ++ rest := by
    rw [List.append_assoc, List.dropWhile_append_of_pos (fun x hx => hws x hx), List.cons_append, List.dropWhile_cons_of_neg (by simp [hc])]
  unfold readWord
  simp only [if_true, e]
  show readWordL sep (c :: cs ++ rest) false = _
  rw [readWordL_text h]
  rcases hrest with rfl | ⟨d, ds, rfl, h1, h2, h3⟩
  · rw [readWordL.eq_def]; simp
  · rw [readWordL.eq_def]
    simp only [if_neg h1, if_neg h2, h3, Bool.not_false, Bool.and_self, if_true, List.append_nil, List.isEmpty_cons]

theorem readChar_cons {c : Byte} (h : isSpace c = false) (cs : List Byte) : readChar ⟨c :: cs, true⟩ = (c, ⟨cs, true⟩) := by
  simp [readChar, readCharL, h]

theorem readChar_nil : readChar ⟨[], true⟩ = (eofc, ⟨[], false⟩) := rfl

end Verif.Parse
