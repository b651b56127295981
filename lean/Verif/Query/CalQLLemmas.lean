import Verif.Query.CalQLSpec
/-!
# Reading tokens
-/
namespace Verif.Query.CalQL
open Verif Verif.Cali Verif.Parse

/-- the stream is at these tokens -/
def At (ts : List Tok) (s : IS) : Prop := (s.good = true ∧ Lay ts s.rest) ∨ (ts = [] ∧ s = ⟨[], false⟩)

/-- the punctuation after a word is a separator -/
def Follow (sep : Str) : List Tok → Prop
  | .p c :: _ => c = ch '*' ∨ (sep.contains c = true ∧ c ≠ ch '\\' ∧ c ≠ ch '"')
  | _ => True

theorem lay_nil_elim {l : List Tok} {ws : Str} (h : Lay l ws) (hl : l = []) : Spaces ws := by
  cases h with
  | nil h => exact h
  | p => cases hl
  | w => cases hl

theorem lay_p_elim {l ts : List Tok} {c : Byte} {x : Str} (h : Lay l x) (hl : l = .p c :: ts) : ∃ ws r, x = ws ++ c :: r ∧ Spaces ws ∧ Lay ts r := by
  cases h with
  | nil h => cases hl
  | p h1 h2 => cases hl; exact ⟨_, _, rfl, h1, h2⟩
  | w => cases hl

theorem lay_w_elim {l ts : List Tok} {t x : Str} (h : Lay l x) (hl : l = .w t :: ts) :
    ∃ ws r, x = ws ++ t ++ r ∧ Spaces ws ∧ t ≠ [] ∧ Lay ts r ∧ Brk ts r := by
  cases h with
  | nil h => cases hl
  | p h1 h2 => cases hl
  | w h1 h2 h3 h4 => cases hl; exact ⟨_, _, rfl, h1, h2, h3, h4⟩

theorem lay_length {ts : List Tok} {x : Str} (h : Lay ts x) : ts.length ≤ x.length := by
  induction h with
  | nil => exact Nat.zero_le _
  | p _ _ ih => simp; omega
  | @w ws t ts r _ ht _ _ ih =>
    have : 0 < t.length := List.length_pos_iff.2 ht
    simp; omega

theorem At.length {ts : List Tok} {s : IS} (h : At ts s) : ts.length ≤ s.rest.length := by
  rcases h with ⟨_, h⟩ | ⟨rfl, rfl⟩
  · exact lay_length h
  · exact Nat.le_refl _

theorem dropWhile_spaces {ws r : Str} (h : Spaces ws) : (ws ++ r).dropWhile isSpace = r.dropWhile isSpace :=
  List.dropWhile_append_of_pos (fun x hx => h x hx)

theorem readCharL_spaces {ws : Str} (h : Spaces ws) (r : Str) : readCharL (ws ++ r) = readCharL r := by
  induction ws with
  | nil => rfl
  | cons c ws ih =>
    rw [List.cons_append, readCharL, if_pos (h c (by simp)), ih fun x hx => h x (by simp [hx])]

theorem read_word {sep w t : Str} {ts : List Tok} {s : IS} (h : At (.w t :: ts) s) (ht : IsText sep w t) (hf : Follow sep ts) :
    ∃ s', readWord sep s = (w, s') ∧ At ts s' := by
  rcases h with ⟨hg, h⟩ | ⟨h, _⟩
  · obtain ⟨ws, r, hr, h1, h2, h3, h4⟩ := lay_w_elim h rfl
    have : s = ⟨ws ++ t ++ r, true⟩ := by cases s; simp only at hg hr; subst hg hr; rfl
    refine ⟨⟨r, !r.isEmpty⟩, ?_, ?_⟩
    · rw [this]
      refine readWord_text ht ws r h1 ?_
      rcases h4 with h | ⟨c, cs, rfl, hc⟩ | ⟨c, ts', cs, rfl, hc, rfl⟩
      · exact .inl h
      · refine .inr ⟨c, cs, rfl, ?_, ?_, by simp [hc]⟩
        · rintro rfl; revert hc; decide
        · rintro rfl; revert hc; decide
      · rcases hf with hf | hf
        · exact absurd hf hc
        · exact .inr ⟨c, cs, rfl, hf.2.1, hf.2.2, by rw [hf.1]; simp⟩
    · cases r with
      | nil =>
        have := lay_length h3
        simp at this
        subst this
        exact .inr ⟨rfl, rfl⟩
      | cons c r => exact .inl ⟨rfl, h3⟩
  · cases h

theorem read_word_p {sep : Str} {c : Byte} {ts : List Tok} {s : IS} (h : At (.p c :: ts) s) (h1 : sep.contains c = true) (h2 : c ≠ ch '\\')
    (h3 : c ≠ ch '"') (h4 : isSpace c = false) : ∃ s', readWord sep s = ([], s') ∧ At (.p c :: ts) s' := by
  rcases h with ⟨hg, h⟩ | ⟨h, _⟩
  · obtain ⟨ws, r, hr, hw, hl⟩ := lay_p_elim h rfl
    refine ⟨⟨c :: r, true⟩, ?_, .inl ⟨rfl, Lay.p (ws := []) (by intro x hx; cases hx) hl⟩⟩
    unfold readWord
    rw [if_pos hg, hr, dropWhile_spaces hw, List.dropWhile_cons_of_neg (by simp [h4])]
    simp only
    rw [readWordL.eq_def]
    simp only [h2, h3, h4, h1]
    simp
  · cases h

theorem read_word_end {sep : Str} {s : IS} (h : At [] s) : readWord sep s = ([], ⟨[], false⟩) := by
  rcases h with ⟨hg, h⟩ | ⟨_, rfl⟩
  · have hs := lay_nil_elim h rfl
    unfold readWord
    rw [if_pos hg]
    have : s.rest.dropWhile isSpace = [] := by
      have := dropWhile_spaces (r := []) hs
      simpa using this
    rw [this]
  · rfl

theorem at_end : At [] ⟨[], false⟩ := .inr ⟨rfl, rfl⟩

theorem read_char_p {c : Byte} {ts : List Tok} {s : IS} (h : At (.p c :: ts) s) (h4 : isSpace c = false) :
    ∃ r, readChar s = (c, ⟨r, true⟩) ∧ Lay ts r := by
  rcases h with ⟨hg, h⟩ | ⟨h, _⟩
  · obtain ⟨ws, r, hr, hw, hl⟩ := lay_p_elim h rfl
    refine ⟨r, ?_, hl⟩
    unfold readChar
    rw [if_pos hg, hr, readCharL_spaces hw, readCharL, if_neg (by simp [h4])]
  · cases h

theorem read_char_w {c : Byte} {cs : Str} {ts : List Tok} {s : IS} (h : At (.w (c :: cs) :: ts) s) (h4 : isSpace c = false) :
    ∃ r, readChar s = (c, ⟨r, true⟩) ∧ Lay (.w (c :: cs) :: ts) (c :: r) := by
  rcases h with ⟨hg, h⟩ | ⟨h, _⟩
  · obtain ⟨ws, r, hr, hw, ht, hl, hb⟩ := lay_w_elim h rfl
    refine ⟨cs ++ r, ?_, ?_⟩
    · unfold readChar
      rw [if_pos hg, hr, List.append_assoc, readCharL_spaces hw, List.cons_append, readCharL, if_neg (by simp [h4])]
    · exact Lay.w (ws := []) (by intro x hx; cases hx) ht hl hb
  · cases h

theorem read_char_end {s : IS} (h : At [] s) : readChar s = (eofc, ⟨[], false⟩) := by
  rcases h with ⟨hg, h⟩ | ⟨_, rfl⟩
  · have hs := lay_nil_elim h rfl
    unfold readChar
    rw [if_pos hg]
    have := readCharL_spaces hs []
    rw [List.append_nil] at this
    rw [this]; rfl
  · rfl

/-- first character of a written word -/
theorem text_head {sep w t : Str} (h : IsText sep w t) : ∃ c cs, t = c :: cs ∧ isSpace c = false ∧ (c = ch '"' ∨ (sep.contains c = false ∧ w.head? = some c)) := by
  obtain ⟨h0, rfl | ⟨rfl, h⟩⟩ := h
  · exact ⟨_, _, rfl, by decide, .inl rfl⟩
  · cases t with
    | nil => exact absurd rfl h0
    | cons c cs => exact ⟨c, cs, rfl, (h c (by simp)).2.2.1, .inr ⟨(h c (by simp)).2.2.2, rfl⟩⟩

/-- the keywords that begin a clause -/
def keywords : List Str := [str "aggregate", str "format", str "group", str "select", str "order", str "where", str "let"]

/-- what follows a list: the end, or the next clause -/
def Rest (ts : List Tok) : Prop := ts = [] ∨ ∃ w t us, ts = .w t :: us ∧ IsText sep0 w t ∧ lower w ∈ keywords ∧ Follow sep0 us

/-- looking ahead at what follows: not one of the special characters, and can be put back -/
theorem rest_char {ts : List Tok} {s : IS} (hr : Rest ts) (h : At ts s) : ∃ c s', readChar s = (c, s') ∧ c ≠ 0 ∧ sep0.contains c = false ∧ At ts (s'.unget c) := by
  rcases hr with rfl | ⟨w, t, us, rfl, ht, hk, -⟩
  · rw [read_char_end h]
    exact ⟨_, _, rfl, by decide, by decide, at_end⟩
  · obtain ⟨c, cs, rfl, hc, hx⟩ := text_head ht
    obtain ⟨r, h1, h2⟩ := read_char_w h hc
    refine ⟨c, _, h1, ?_, ?_, .inl ⟨rfl, h2⟩⟩
    · rcases hx with rfl | ⟨_, hh⟩
      · decide
      · rintro rfl
        cases w with
        | nil => cases hh
        | cons x w =>
          simp only [List.head?_cons, Option.some.injEq] at hh
          subst hh
          have : ∀ k ∈ keywords, k.head? ≠ some (toLower 0) := by decide
          exact this _ hk (by simp [lower])
    · rcases hx with rfl | ⟨h, _⟩
      · decide
      · exact h

end Verif.Query.CalQL
