import Verif.ConfMgr.Spec
import Verif.Query.CalQLLemmas
/-!
# Reading nested text and structured texts
-/
namespace Verif.ConfMgr
open Verif Verif.Cali Verif.Parse
open Verif.Query.CalQL (Spaces dropWhile_spaces readCharL_spaces)

theorem readNestedL_quoted {o c : Byte} {q : Str} (h : Quoted q) (r : Str) {d : Int} (hd : d ≠ 0) :
    readNestedL o c (q ++ r) true d = (q ++ (readNestedL o c r true d).1, (readNestedL o c r true d).2) := by
  induction h with
  | nil => rfl
  | chr h1 h2 _ ih =>
    rw [List.cons_append, readNestedL.eq_def]
    simp only [h1, h2, if_false, Bool.not_true, Bool.false_and, Bool.false_eq_true, hd, ih, List.cons_append]
  | esc _ ih =>
    rw [List.cons_append, List.cons_append, readNestedL.eq_def]
    simp only [if_true, ih, List.cons_append]

theorem readNestedL_nest {o c : Byte} (ho : o ≠ ch '"' ∧ o ≠ ch '\\') (hc : c ≠ ch '"' ∧ c ≠ ch '\\') (hoc : o ≠ c) {t : Str} (h : Nest o c t) :
    ∀ (r : Str) {d : Int}, 0 < d →
      readNestedL o c (t ++ r) false d = (t ++ (readNestedL o c r false d).1, (readNestedL o c r false d).2) := by
  induction h with
  | nil => intro r d _; rfl
  | chr h1 h2 h3 h4 _ ih =>
    intro r d hd
    rw [List.cons_append, readNestedL.eq_def]
    have h0 : d ≠ 0 := by omega
    simp only [h1, h2, h3, h4, if_false, Bool.not_false, Bool.true_and, decide_false, Bool.false_eq_true, h0, ih r hd, List.cons_append]
  | esc _ ih =>
    intro r d hd
    rw [List.cons_append, List.cons_append, readNestedL.eq_def]
    simp only [if_true, ih r hd, List.cons_append]
  | @quo q r' hq _ ih =>
    intro r d hd
    have h0 : d ≠ 0 := by omega
    rw [List.cons_append, List.append_assoc, readNestedL.eq_def]
    simp only [if_neg (show ¬ch '"' = ch '\\' by decide), if_true, Bool.not_false, h0, if_false]
    rw [readNestedL_quoted hq _ h0, List.cons_append, readNestedL.eq_def o c (_ :: _)]
    simp only [if_neg (show ¬ch '"' = ch '\\' by decide), if_true, Bool.not_true, h0, if_false, ih r hd]
    simp
  | @brk t r' _ _ ih1 ih2 =>
    intro r d hd
    have h0 : d ≠ 0 := by omega
    have h1 : d + 1 ≠ 0 := by omega
    rw [List.cons_append, List.append_assoc, readNestedL.eq_def]
    simp only [ho.1, ho.2, if_false, Bool.not_false, Bool.true_and, decide_true, if_true, h1]
    rw [ih1 _ (by omega), List.cons_append, readNestedL.eq_def o c (_ :: _)]
    simp only [hc.1, hc.2, hoc.symm, if_false, Bool.not_false, Bool.true_and, decide_true, decide_false, Bool.false_eq_true, if_true,
      Int.add_sub_cancel, h0, ih2 r hd]
    simp

/-- balanced text is read up to its closing bracket -/
theorem readNested_nest {o c : Byte} (ho : o ≠ ch '"' ∧ o ≠ ch '\\') (hc : c ≠ ch '"' ∧ c ≠ ch '\\') (hoc : o ≠ c) {t : Str} (h : Nest o c t)
    (r : Str) : readNested o c ⟨t ++ c :: r, true⟩ = (t, ⟨c :: r, true⟩) := by
  unfold readNested
  simp only [if_true]
  rw [readNestedL_nest ho hc hoc h _ (by decide), readNestedL.eq_def]
  simp only [hc.1, hc.2, hoc.symm, if_false, Bool.not_false, Bool.true_and, decide_true, decide_false, Bool.false_eq_true, if_true,
    show (1 : Int) - 1 = 0 by rfl, List.append_nil]

theorem Nest.append {o c : Byte} {t r : Str} (h : Nest o c t) (hr : Nest o c r) : Nest o c (t ++ r) := by
  induction h with
  | nil => exact hr
  | chr h1 h2 h3 h4 _ ih => exact .chr h1 h2 h3 h4 ih
  | esc _ ih => exact .esc ih
  | quo hq _ ih =>
    rw [List.cons_append, List.append_assoc, List.cons_append]
    exact .quo hq ih
  | brk h1 _ _ ih =>
    rw [List.cons_append, List.append_assoc, List.cons_append]
    exact .brk h1 ih

/-- text without brackets, quotes and escapes -/
theorem Nest.of_plain {o c : Byte} {t : Str} (h : ∀ x ∈ t, x ≠ ch '"' ∧ x ≠ ch '\\' ∧ x ≠ o ∧ x ≠ c) : Nest o c t := by
  induction t with
  | nil => exact .nil
  | cons x t ih =>
    obtain ⟨h1, h2, h3, h4⟩ := h x (by simp)
    exact .chr h1 h2 h3 h4 (ih fun y hy => h y (by simp [hy]))

theorem quoted_flat (w : Str) : Quoted (w.flatMap fun c => if c = ch '"' ∨ c = ch '\\' then [ch '\\', c] else [c]) := by
  induction w with
  | nil => exact .nil
  | cons c w ih =>
    rw [List.flatMap_cons]
    by_cases h : c = ch '"' ∨ c = ch '\\'
    · rw [if_pos h]; exact .esc ih
    · rw [if_neg h]
      rw [not_or] at h
      exact .chr h.1 h.2 ih

theorem nest_quote (o c : Byte) (w : Str) : Nest o c (quote w) := Nest.quo (quoted_flat w) .nil

/-- the two kinds of brackets -/
def Bracket (o c : Byte) : Prop := (o = ch '{' ∧ c = ch '}') ∨ (o = ch '[' ∧ c = ch ']')

theorem Bracket.space {o c : Byte} (h : Bracket o c) {x : Byte} (hx : isSpace x = true) : x ≠ ch '"' ∧ x ≠ ch '\\' ∧ x ≠ o ∧ x ≠ c := by
  rcases h with ⟨rfl, rfl⟩ | ⟨rfl, rfl⟩ <;>
    refine ⟨?_, ?_, ?_, ?_⟩ <;> rintro rfl <;> revert hx <;> decide

theorem Bracket.spaces {o c : Byte} (h : Bracket o c) {ws : Str} (hw : Spaces ws) : Nest o c ws :=
  Nest.of_plain fun x hx => h.space (hw x hx)

theorem Bracket.jword {o c : Byte} (h : Bracket o c) {w t : Str} (hw : JWord w t) : Nest o c t := by
  rcases hw with rfl | ⟨rfl, _, hp⟩
  · exact nest_quote _ _ _
  · refine Nest.of_plain fun x hx => ?_
    have := (hp x hx).1
    rcases h with ⟨rfl, rfl⟩ | ⟨rfl, rfl⟩ <;>
      refine ⟨?_, ?_, ?_, ?_⟩ <;> rintro rfl <;> revert this <;> decide

theorem Bracket.wrap {o c : Byte} (h : Bracket o c) {o' c' : Byte} (h' : Bracket o' c') {b : Str} (hb : Nest o c b) :
    Nest o c (o' :: (b ++ [c'])) := by
  rcases h with ⟨rfl, rfl⟩ | ⟨rfl, rfl⟩ <;> rcases h' with ⟨rfl, rfl⟩ | ⟨rfl, rfl⟩
  · exact .brk hb .nil
  · exact .chr (by decide) (by decide) (by decide) (by decide) (hb.append (.chr (by decide) (by decide) (by decide) (by decide) .nil))
  · exact .chr (by decide) (by decide) (by decide) (by decide) (hb.append (.chr (by decide) (by decide) (by decide) (by decide) .nil))
  · exact .brk hb .nil

theorem Bracket.mid {o c : Byte} (h : Bracket o c) {x : Byte} (hx : x = ch ':' ∨ x = ch ',') {r : Str} (hr : Nest o c r) : Nest o c (x :: r) := by
  rcases h with ⟨rfl, rfl⟩ | ⟨rfl, rfl⟩ <;> rcases hx with rfl | rfl <;>
    exact .chr (by decide) (by decide) (by decide) (by decide) hr

mutual
/-- written values are balanced -/
theorem jtext_nest {o c : Byte} (h : Bracket o c) {j : J} {t : Str} : JText j t → Nest o c t
  | .word hw => h.jword hw
  | .dict hb => h.wrap (.inl ⟨rfl, rfl⟩) (dbody_nest h hb)
  | .list0 hw => h.wrap (.inr ⟨rfl, rfl⟩) (h.spaces hw)
  | .list hb => h.wrap (.inr ⟨rfl, rfl⟩) (lbody_nest h hb)
theorem dbody_nest {o c : Byte} (h : Bracket o c) {l : List (Str × J)} {b : Str} : DBody l b → Nest o c b
  | .one ha _ hk hb hc hj hd => ((h.spaces ha).append (h.jword hk)).append ((h.spaces hb).append (h.mid (.inl rfl)
      (((h.spaces hc).append (jtext_nest h hj)).append (h.spaces hd))))
  | .cons ha _ hk hb hc hj hd hr => ((h.spaces ha).append (h.jword hk)).append ((h.spaces hb).append (h.mid (.inl rfl)
      (((h.spaces hc).append (jtext_nest h hj)).append ((h.spaces hd).append (h.mid (.inr rfl) (dbody_nest h hr))))))
theorem lbody_nest {o c : Byte} (h : Bracket o c) {l : List J} {b : Str} : LBody l b → Nest o c b
  | .one ha hj _ hd => ((h.spaces ha).append (jtext_nest h hj)).append (h.spaces hd)
  | .cons ha hj _ hd hr => ((h.spaces ha).append (jtext_nest h hj)).append ((h.spaces hd).append (h.mid (.inr rfl) (lbody_nest h hr)))
end

/-! ## words -/

theorem readWordL_jword {sep w t : Str} (h : JWord w t) (hs : ∀ x ∈ sep, x ∈ str "{}[],:\"\\" ) (rest : Str) :
    readWordL sep (t ++ rest) false = (w ++ (readWordL sep rest false).1, (readWordL sep rest false).2) := by
  rcases h with rfl | ⟨rfl, _, h⟩
  · unfold quote
    rw [List.cons_append, List.cons_append, readWordL.eq_def]
    simp only [if_neg (show ¬ch '"' = ch '\\' by decide), if_true, Bool.not_false]
    rw [List.append_assoc, readWordL_quoted]
    have : readWordL sep ([ch '"'] ++ rest) true = readWordL sep rest false := by
      show readWordL sep (ch '"' :: rest) true = _
      rw [readWordL.eq_def]
      simp only [if_neg (show ¬ch '"' = ch '\\' by decide), if_true, Bool.not_true]
    rw [this]
  · refine readWordL_plain sep _ rest fun c hc => ?_
    obtain ⟨h1, h2⟩ := h c hc
    refine ⟨?_, ?_, h2, ?_⟩
    · rintro rfl; revert h1; decide
    · rintro rfl; revert h1; decide
    · cases hx : sep.contains c with
      | false => rfl
      | true => exact absurd (hs c (by simpa using hx)) h1

theorem jword_head {w t : Str} (h : JWord w t) : ∃ c cs, t = c :: cs ∧ isSpace c = false ∧ c ≠ ch '{' ∧ c ≠ ch '[' := by
  rcases h with rfl | ⟨rfl, h0, h⟩
  · exact ⟨_, _, rfl, by decide, by decide, by decide⟩
  · cases t with
    | nil => exact absurd rfl h0
    | cons c cs =>
      obtain ⟨h1, h2⟩ := h c (by simp)
      refine ⟨c, cs, rfl, h2, ?_, ?_⟩ <;> rintro rfl <;> revert h1 <;> decide

/-- what may follow a word -/
def Stop (sep : Str) (r : Str) : Prop := ∃ c cs, r = c :: cs ∧ c ≠ ch '\\' ∧ c ≠ ch '"' ∧ (isSpace c || sep.contains c) = true

theorem Stop.spaces {sep ws r : Str} (hw : Spaces ws) (h : Stop sep r) : Stop sep (ws ++ r) := by
  cases ws with
  | nil => exact h
  | cons c ws =>
    have hc := hw c (by simp)
    refine ⟨c, ws ++ r, rfl, ?_, ?_, by simp [hc]⟩ <;> rintro rfl <;> revert hc <;> decide

theorem readWord_jword {sep ws w t r : Str} (h : JWord w t) (hs : ∀ x ∈ sep, x ∈ str "{}[],:\"\\") (hw : Spaces ws) (hr : Stop sep r) :
    readWord sep ⟨ws ++ t ++ r, true⟩ = (w, ⟨r, true⟩) := by
  obtain ⟨c, cs, rfl, hc, -, -⟩ := jword_head h
  have e : (ws ++ (c :: cs) ++ r).dropWhile isSpace = c :: cs ++ r := by
    rw [List.append_assoc, dropWhile_spaces hw, List.cons_append, List.dropWhile_cons_of_neg (by simp [hc])]
  unfold readWord
  simp only [if_true, e]
  show readWordL sep (c :: cs ++ r) false = _
  rw [readWordL_jword h hs]
  obtain ⟨d, ds, rfl, h1, h2, h3⟩ := hr
  rw [readWordL.eq_def]
  simp only [if_neg h1, if_neg h2, h3, Bool.not_false, Bool.and_self, if_true, List.append_nil]

theorem readChar_ws {ws r : Str} {c : Byte} (hw : Spaces ws) (hc : isSpace c = false) : readChar ⟨ws ++ c :: r, true⟩ = (c, ⟨r, true⟩) := by
  unfold readChar
  simp only [if_true]
  rw [readCharL_spaces hw, readCharL, if_neg (by simp [hc])]

/-! ## values -/

theorem kept_dict {l : List (Str × J)} {t : Str} (h : JText (.dict l) t) : Kept (.dict l) t := h
theorem kept_list {l : List J} {t : Str} (h : JText (.list l) t) : Kept (.list l) t := h

theorem nestedVal_ok {o c : Byte} (h : Bracket o c) {b r : Str} (hb : Nest o c b) :
    nestedVal o c ⟨b ++ c :: r, true⟩ = some (o :: (b ++ [c]), ⟨r, true⟩) := by
  have hn : readNested o c ⟨b ++ c :: r, true⟩ = (b, ⟨c :: r, true⟩) := by
    rcases h with ⟨rfl, rfl⟩ | ⟨rfl, rfl⟩ <;> exact readNested_nest (by decide) (by decide) (by decide) hb r
  have hr : readChar ⟨c :: r, true⟩ = (c, ⟨r, true⟩) := by
    refine readChar_ws (ws := []) (by intro x hx; cases hx) ?_
    rcases h with ⟨rfl, rfl⟩ | ⟨rfl, rfl⟩ <;> decide
  unfold nestedVal
  simp only [hn, hr, if_true]

theorem recVal_ok {sep : Str} (hs : ∀ x ∈ sep, x ∈ str "{}[],:\"\\") {j : J} {ws t r : Str} (hw : Spaces ws) (h : JText j t) (hr : Stop sep r) :
    ∃ v, recVal sep ⟨ws ++ t ++ r, true⟩ = some (v, ⟨r, true⟩) ∧ Kept j v := by
  have hbr : ∀ {o c : Byte} {b : Str}, Bracket o c → Nest o c b → t = o :: (b ++ [c]) →
      recVal sep ⟨ws ++ t ++ r, true⟩ = some (t, ⟨r, true⟩) := by
    intro o c b hB hb ht
    have e : ws ++ t ++ r = ws ++ o :: (b ++ c :: r) := by rw [ht]; simp
    have hx : readChar ⟨ws ++ t ++ r, true⟩ = (o, ⟨b ++ c :: r, true⟩) := by
      rw [e]
      refine readChar_ws hw ?_
      rcases hB with ⟨rfl, rfl⟩ | ⟨rfl, rfl⟩ <;> decide
    unfold recVal
    simp only [hx]
    have := nestedVal_ok hB (r := r) hb
    rcases hB with ⟨rfl, rfl⟩ | ⟨rfl, rfl⟩
    · rw [if_pos rfl, this, ht]
    · rw [if_neg (by decide), if_pos rfl, this, ht]
  cases h with
  | @word w _ hw' =>
    refine ⟨w, ?_, rfl⟩
    obtain ⟨c, cs, rfl, hc, h1, h2⟩ := jword_head hw'
    have hx : readChar ⟨ws ++ (c :: cs) ++ r, true⟩ = (c, ⟨cs ++ r, true⟩) := by
      rw [List.append_assoc, List.cons_append]; exact readChar_ws hw hc
    unfold recVal
    simp only [hx, h1, h2, if_false, IS.unget, if_true]
    exact congrArg some (readWord_jword (ws := []) hw' hs (by intro x hx; cases hx) hr)
  | dict hb => exact ⟨_, hbr (.inl ⟨rfl, rfl⟩) (dbody_nest (.inl ⟨rfl, rfl⟩) hb) rfl, .dict hb⟩
  | list0 hb => exact ⟨_, hbr (.inr ⟨rfl, rfl⟩) (Bracket.spaces (.inr ⟨rfl, rfl⟩) hb) rfl, .list0 hb⟩
  | list hb => exact ⟨_, hbr (.inr ⟨rfl, rfl⟩) (lbody_nest (.inr ⟨rfl, rfl⟩) hb) rfl, .list hb⟩

theorem stop_of {sep : Str} {c : Byte} (h : sep.contains c = true) (h1 : c ≠ ch '\\') (h2 : c ≠ ch '"') (r : Str) : Stop sep (c :: r) :=
  ⟨c, r, rfl, h1, h2, by simp only [h, Bool.or_true]⟩

theorem kept_ne {j : J} {v : Str} (h : Kept j v) (hj : j ≠ .word []) : v ≠ [] := by
  cases j with
  | word w => rintro rfl; exact hj (by rw [show w = [] from h.symm])
  | dict l => rintro rfl; exact nomatch (show JText _ _ from h)
  | list l => rintro rfl; exact nomatch (show JText _ _ from h)

/-! ## lists -/

theorem recListL_ok {l : List J} {b : Str} (h : LBody l b) (r : Str) (n : Nat) (hn : l.length ≤ n) :
    ∃ vs, recListL n ⟨b ++ ch ']' :: r, true⟩ = (vs, true, ch ']') ∧ List.Forall₂ Kept l vs := by
  induction n generalizing l b with
  | zero => cases h <;> simp at hn
  | succ n ih =>
    cases h with
    | @one j a t d ha hj hne hd =>
      obtain ⟨v, hv, hk⟩ := recVal_ok (sep := [ch ',', ch ']']) (by decide) ha hj
        (Stop.spaces hd (stop_of (c := ch ']') (by decide) (by decide) (by decide) r))
      refine ⟨[v], ?_, .cons hk .nil⟩
      have hx : readChar ⟨d ++ ch ']' :: r, true⟩ = (ch ']', ⟨r, true⟩) := readChar_ws hd (by decide)
      unfold recListL
      rw [List.append_assoc, hv]
      simp only [hx, kept_ne hk hne, if_false]
      rw [if_neg (by decide)]
    | @cons j l a t d r' ha hj hne hd hl =>
      obtain ⟨v, hv, hk⟩ := recVal_ok (sep := [ch ',', ch ']']) (by decide) ha hj
        (Stop.spaces hd (stop_of (c := ch ',') (by decide) (by decide) (by decide) (r' ++ ch ']' :: r)))
      obtain ⟨vs, h1, h2⟩ := ih hl (by simpa using hn)
      refine ⟨v :: vs, ?_, .cons hk h2⟩
      have hx : readChar ⟨d ++ ch ',' :: (r' ++ ch ']' :: r), true⟩ = (ch ',', ⟨r' ++ ch ']' :: r, true⟩) := readChar_ws hd (by decide)
      unfold recListL
      rw [show a ++ t ++ (d ++ ch ',' :: r') ++ ch ']' :: r = a ++ t ++ (d ++ ch ',' :: (r' ++ ch ']' :: r)) by simp, hv]
      simp only [hx, kept_ne hk hne, if_false]
      rw [if_pos (by decide), h1]
      rfl

theorem lbody_length {l : List J} {b : Str} (h : LBody l b) : l.length ≤ b.length + 1 := by
  induction l generalizing b with
  | nil => exact Nat.zero_le _
  | cons j l ih =>
    cases h with
    | one => simp
    | cons _ _ _ _ h => have := ih h; simp; omega

/-- a written list is read back -/
theorem recList_ok {l : List J} {ws t r : Str} (hw : Spaces ws) (h : JText (.list l) t) :
    ∃ vs, recList (ws ++ t ++ r) = (vs, true) ∧ List.Forall₂ Kept l vs := by
  cases h with
  | @list0 w hs =>
    refine ⟨[], ?_, .nil⟩
    have e : ws ++ ch '[' :: (w ++ [ch ']']) ++ r = ws ++ ch '[' :: (w ++ ch ']' :: r) := by simp
    have hx : readChar ⟨ws ++ ch '[' :: (w ++ ch ']' :: r), true⟩ = (ch '[', ⟨w ++ ch ']' :: r, true⟩) := readChar_ws hw (by decide)
    have hy : readChar ⟨w ++ ch ']' :: r, true⟩ = (ch ']', ⟨r, true⟩) := readChar_ws hs (by decide)
    have hv : recVal [ch ',', ch ']'] ⟨w ++ ch ']' :: r, true⟩ = some ([], ⟨ch ']' :: r, true⟩) := by
      unfold recVal
      simp only [hy]
      rw [if_neg (by decide), if_neg (by decide)]
      unfold IS.unget readWord
      simp only [if_true]
      rw [List.dropWhile_cons_of_neg (by decide)]
      simp only
      rw [readWordL.eq_def]
      simp only [if_neg (show ¬ch ']' = ch '\\' by decide), if_neg (show ¬ch ']' = ch '"' by decide)]
      rw [if_pos (by decide)]
    have hz : readChar ⟨ch ']' :: r, true⟩ = (ch ']', ⟨r, true⟩) := readChar_ws (ws := []) (by intro x hx; cases hx) (by decide)
    unfold recList
    rw [e]
    simp only [hx, decide_true, if_true]
    unfold recListL
    rw [hv]
    simp only [hz, if_true]
    rw [if_neg (by decide)]
    rfl
  | @list _ b hb =>
    have e : ws ++ ch '[' :: (b ++ [ch ']']) ++ r = ws ++ ch '[' :: (b ++ ch ']' :: r) := by simp
    have hx : readChar ⟨ws ++ ch '[' :: (b ++ ch ']' :: r), true⟩ = (ch '[', ⟨b ++ ch ']' :: r, true⟩) := readChar_ws hw (by decide)
    obtain ⟨vs, h1, h2⟩ := recListL_ok hb r ((ws ++ ch '[' :: (b ++ ch ']' :: r)).length + 1) (by
      have := lbody_length hb; simp; omega)
    refine ⟨vs, ?_, h2⟩
    unfold recList
    rw [e]
    simp only [hx, decide_true, if_true, h1]
    rfl

/-! ## dictionaries -/

/-- entries and what is kept of them -/
def KeptEntry (e : Str × J) (p : Str × Str) : Prop := e.1 = p.1 ∧ Kept e.2 p.2

theorem recDictL_ok {l : List (Str × J)} {b : Str} (h : DBody l b) (r : Str) (n : Nat) (hn : l.length ≤ n) :
    ∃ vs, recDictL n ⟨b ++ ch '}' :: r, true⟩ = (vs, true, ch '}') ∧ List.Forall₂ KeptEntry l vs := by
  induction n generalizing l b with
  | zero => cases h <;> simp at hn
  | succ n ih =>
    cases h with
    | @one k j a tk b c t d ha hk0 hk hb hc hj hd =>
      have e : a ++ tk ++ (b ++ ch ':' :: (c ++ t ++ d)) ++ ch '}' :: r = a ++ tk ++ (b ++ ch ':' :: (c ++ t ++ (d ++ ch '}' :: r))) := by simp
      have h1 : readWord [ch ':'] ⟨a ++ tk ++ (b ++ ch ':' :: (c ++ t ++ (d ++ ch '}' :: r))), true⟩ = (k, ⟨b ++ ch ':' :: (c ++ t ++ (d ++ ch '}' :: r)), true⟩) :=
        readWord_jword hk (by decide) ha (Stop.spaces hb (stop_of (by decide) (by decide) (by decide) _))
      have h2 : readChar ⟨b ++ ch ':' :: (c ++ t ++ (d ++ ch '}' :: r)), true⟩ = (ch ':', ⟨c ++ t ++ (d ++ ch '}' :: r), true⟩) := readChar_ws hb (by decide)
      obtain ⟨v, hv, hkv⟩ := recVal_ok (sep := [ch ',', ch '}']) (by decide) hc hj
        (Stop.spaces hd (stop_of (c := ch '}') (by decide) (by decide) (by decide) r))
      have h3 : readChar ⟨d ++ ch '}' :: r, true⟩ = (ch '}', ⟨r, true⟩) := readChar_ws hd (by decide)
      refine ⟨[(k, v)], ?_, .cons ⟨rfl, hkv⟩ .nil⟩
      unfold recDictL
      rw [e]
      simp only [h1, h2]
      rw [if_neg (by simp), hv]
      simp only [h3, hk0, if_false]
      rw [if_neg (by decide)]
    | @cons k j l a tk b c t d r' ha hk0 hk hb hc hj hd hl =>
      have e : a ++ tk ++ (b ++ ch ':' :: (c ++ t ++ (d ++ ch ',' :: r'))) ++ ch '}' :: r =
          a ++ tk ++ (b ++ ch ':' :: (c ++ t ++ (d ++ ch ',' :: (r' ++ ch '}' :: r)))) := by simp
      have h1 : readWord [ch ':'] ⟨a ++ tk ++ (b ++ ch ':' :: (c ++ t ++ (d ++ ch ',' :: (r' ++ ch '}' :: r)))), true⟩ =
          (k, ⟨b ++ ch ':' :: (c ++ t ++ (d ++ ch ',' :: (r' ++ ch '}' :: r))), true⟩) :=
        readWord_jword hk (by decide) ha (Stop.spaces hb (stop_of (by decide) (by decide) (by decide) _))
      have h2 : readChar ⟨b ++ ch ':' :: (c ++ t ++ (d ++ ch ',' :: (r' ++ ch '}' :: r))), true⟩ =
          (ch ':', ⟨c ++ t ++ (d ++ ch ',' :: (r' ++ ch '}' :: r)), true⟩) := readChar_ws hb (by decide)
      obtain ⟨v, hv, hkv⟩ := recVal_ok (sep := [ch ',', ch '}']) (by decide) hc hj
        (Stop.spaces hd (stop_of (c := ch ',') (by decide) (by decide) (by decide) (r' ++ ch '}' :: r)))
      have h3 : readChar ⟨d ++ ch ',' :: (r' ++ ch '}' :: r), true⟩ = (ch ',', ⟨r' ++ ch '}' :: r, true⟩) := readChar_ws hd (by decide)
      obtain ⟨vs, h4, h5⟩ := ih hl (by simpa using hn)
      refine ⟨(k, v) :: vs, ?_, .cons ⟨rfl, hkv⟩ h5⟩
      unfold recDictL
      rw [e]
      simp only [h1, h2]
      rw [if_neg (by simp), hv]
      simp only [h3, hk0, if_false]
      rw [if_pos (by decide), h4]
      rfl

theorem dbody_length {l : List (Str × J)} {b : Str} (h : DBody l b) : l.length ≤ b.length + 1 := by
  induction l generalizing b with
  | nil => exact Nat.zero_le _
  | cons j l ih =>
    cases h with
    | one => simp
    | cons _ _ _ _ _ _ _ h => have := ih h; simp; omega

/-- a written dictionary is read back -/
theorem recDict_ok {l : List (Str × J)} {ws t r : Str} (hw : Spaces ws) (h : JText (.dict l) t) :
    ∃ vs, recDict (ws ++ t ++ r) = (setAll [] vs, true) ∧ List.Forall₂ KeptEntry l vs := by
  cases h with
  | @dict _ b hb =>
    have e : ws ++ ch '{' :: (b ++ [ch '}']) ++ r = ws ++ ch '{' :: (b ++ ch '}' :: r) := by simp
    have hx : readChar ⟨ws ++ ch '{' :: (b ++ ch '}' :: r), true⟩ = (ch '{', ⟨b ++ ch '}' :: r, true⟩) := readChar_ws hw (by decide)
    obtain ⟨vs, h1, h2⟩ := recDictL_ok hb r ((ws ++ ch '{' :: (b ++ ch '}' :: r)).length + 1) (by
      have := dbody_length hb; simp; omega)
    refine ⟨vs, ?_, h2⟩
    unfold recDict
    rw [e]
    simp only [hx, if_true, h1]
    rfl

/-! ## maps -/

theorem mset_lookup {α : Type} (m : List (Str × α)) (k q : Str) (v : α) : (mset m k v).lookup q = if q = k then some v else m.lookup q := by
  induction m with
  | nil =>
    rw [mset, List.lookup_cons]
    by_cases h : q = k
    · simp [h]
    · simp [h, show (q == k) = false by simpa using h]
  | cons e m ih =>
    obtain ⟨ek, ev⟩ := e
    unfold mset
    by_cases h1 : ek = k
    · subst h1
      simp only [if_true, List.lookup_cons]
      by_cases h : q = ek
      · simp [h]
      · simp [h, show (q == ek) = false by simpa using h]
    · simp only [h1, if_false]
      split
      · rw [List.lookup_cons]
        by_cases h : q = k
        · simp [h]
        · simp [h, show (q == k) = false by simpa using h]
      · rw [List.lookup_cons, ih, List.lookup_cons]
        by_cases h : q = ek
        · subst h; simp [h1]
        · simp [show (q == ek) = false by simpa using h]

end Verif.ConfMgr
