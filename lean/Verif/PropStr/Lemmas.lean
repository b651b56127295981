import Verif.PropStr.Model
import Mathlib.Data.List.Infix
import Mathlib.Tactic.IntervalCases

/-! Lemmas for `Verif.PropStr.Model`. -/

namespace Verif.PropStr

open Verif.Cali

/-- Words joined by ':'. -/
def joinC : List (List Byte) → List Byte
  | [] => []
  | [t] => t
  | t :: ts => t ++ ch ':' :: joinC ts

theorem joinC_cons {t : List Byte} {ts} (h : ts ≠ []) : joinC (t :: ts) = t ++ ch ':' :: joinC ts := by
  cases ts with
  | nil => exact absurd rfl h
  | cons a b => rfl

theorem joinC_snoc (ts : List (List Byte)) (t : List Byte) (h : ts ≠ []) :
    joinC (ts ++ [t]) = joinC ts ++ ch ':' :: t := by
  induction ts with
  | nil => exact absurd rfl h
  | cons a ts ih =>
    by_cases hts : ts = []
    · subst hts; rfl
    · rw [List.cons_append, joinC_cons (by simp), ih hts, joinC_cons hts]; simp

/-! ## `strstr` -/

theorem strstr_nil_ne {w : List Byte} (hw : w ≠ []) : strstr [] w = none := by
  cases w with
  | nil => exact absurd rfl hw
  | cons a b => simp [strstr]

theorem strstr_self (w r : List Byte) : strstr (w ++ r) w = some 0 := by
  have h : w.isPrefixOf (w ++ r) = true := by rw [List.isPrefixOf_iff_prefix]; exact List.prefix_append _ _
  cases hwr : w ++ r with
  | nil => rw [hwr] at h; simp only [strstr, h, if_true]
  | cons a b => rw [hwr] at h; simp only [strstr, h, if_true]

theorem strstr_none {w : List Byte} (hw : w ≠ []) : ∀ {t : List Byte}, ¬ w <:+: t → strstr t w = none
  | [], _ => strstr_nil_ne hw
  | c :: t, h => by
    have h1 : ¬ w.isPrefixOf (c :: t) = true := fun hp => h ((List.isPrefixOf_iff_prefix.1 hp).isInfix)
    have h2 : ¬ w <:+: t := fun hi => h (hi.trans (List.suffix_cons c t).isInfix)
    simp only [strstr, h1, if_false, strstr_none hw h2, Option.map_none, Bool.false_eq_true]

/-- An occurrence cannot reach over the separator. -/
theorem strstr_skip {w : List Byte} (hw : w ≠ []) (hc : ch ':' ∉ w) (r : List Byte) :
    ∀ {t : List Byte}, ¬ w <:+: t → strstr (t ++ ch ':' :: r) w = (strstr r w).map (· + (t.length + 1))
  | [], _ => by
    have h1 : ¬ w.isPrefixOf (ch ':' :: r) = true := by
      rw [List.isPrefixOf_iff_prefix]
      intro hp
      cases w with
      | nil => exact hw rfl
      | cons a b =>
        obtain ⟨x, hx⟩ := hp
        simp only [List.cons_append, List.cons.injEq] at hx
        exact hc (hx.1 ▸ List.mem_cons_self)
    simp only [List.nil_append, strstr, h1, if_false, List.length_nil, Bool.false_eq_true]
  | c :: t, h => by
    have h1 : ¬ w.isPrefixOf (c :: (t ++ ch ':' :: r)) = true := by
      rw [List.isPrefixOf_iff_prefix]
      intro hp
      have hp' : w <+: (c :: t) ++ ch ':' :: r := hp
      by_cases hl : w.length ≤ (c :: t).length
      · exact h ((List.prefix_of_prefix_length_le hp' (List.prefix_append _ _) hl).isInfix)
      · have : (c :: t) ++ [ch ':'] <+: w := by
          refine List.prefix_of_prefix_length_le (l₃ := (c :: t) ++ ch ':' :: r) ?_ hp' ?_
          · exact ⟨r, by simp⟩
          · simp only [List.length_append, List.length_cons, List.length_nil] at hl ⊢; omega
        exact hc (this.subset (by simp))
    have h2 : ¬ w <:+: t := fun hi => h (hi.trans (List.suffix_cons c t).isInfix)
    rw [List.cons_append]
    simp only [strstr, h1, if_false, strstr_skip hw hc r h2, Option.map_map, Bool.false_eq_true, List.length_cons]
    congr 1

/-- The word occurs in none of the joined words. -/
theorem strstr_join_none {w : List Byte} (hw : w ≠ []) (hc : ch ':' ∉ w) :
    ∀ {ts : List (List Byte)}, (∀ t ∈ ts, ¬ w <:+: t) → strstr (joinC ts) w = none
  | [], _ => strstr_nil_ne hw
  | [t], h => strstr_none hw (h t (by simp))
  | t :: u :: ts, h => by
    rw [joinC_cons (by simp), strstr_skip hw hc _ (h t (by simp)),
      strstr_join_none hw hc (fun x hx => h x (List.mem_cons_of_mem _ hx))]; rfl

/-- The word is one of the joined words and no other joined word contains it. -/
theorem strstr_join_some {w : List Byte} (hw : w ≠ []) (hc : ch ':' ∉ w) :
    ∀ {ts : List (List Byte)}, w ∈ ts → (∀ t ∈ ts, t ≠ w → ¬ w <:+: t) →
      ∃ a b, joinC ts = a ++ w ++ b ∧ strstr (joinC ts) w = some a.length ∧
        (a = [] ∨ ∃ a', a = a' ++ [ch ':']) ∧ (b = [] ∨ ∃ b', b = ch ':' :: b')
  | [], h, _ => absurd h (by simp)
  | t :: ts, h, hn => by
    by_cases ht : t = w
    · subst ht
      by_cases hts : ts = []
      · subst hts
        refine ⟨[], [], by simp [joinC], ?_, Or.inl rfl, Or.inl rfl⟩
        have := strstr_self t []
        rw [List.append_nil] at this
        exact this
      · rw [joinC_cons hts]
        exact ⟨[], ch ':' :: joinC ts, by simp, strstr_self _ _, Or.inl rfl, Or.inr ⟨_, rfl⟩⟩
    · have hts : w ∈ ts := by
        rcases List.mem_cons.1 h with h | h
        · exact absurd h.symm ht
        · exact h
      obtain ⟨a, b, e, es, ha, hb⟩ := strstr_join_some hw hc hts (fun x hx => hn x (List.mem_cons_of_mem _ hx))
      have hne : ts ≠ [] := List.ne_nil_of_mem hts
      rw [joinC_cons hne]
      refine ⟨t ++ ch ':' :: a, b, by rw [e]; simp, ?_, Or.inr ?_, hb⟩
      · rw [strstr_skip hw hc _ (hn t List.mem_cons_self ht), es]
        simp only [Option.map_some, List.length_append, List.length_cons, Option.some.injEq]
        omega
      · rcases ha with rfl | ⟨a', rfl⟩
        · exact ⟨t, rfl⟩
        · exact ⟨t ++ ch ':' :: a', by simp⟩

theorem hasWord_join_some {w : List Byte} (hw : w ≠ []) (hc : ch ':' ∉ w) {ts : List (List Byte)} (hm : w ∈ ts)
    (hn : ∀ t ∈ ts, t ≠ w → ¬ w <:+: t) : hasWord (joinC ts) w = true := by
  obtain ⟨a, b, e, es, ha, hb⟩ := strstr_join_some hw hc hm hn
  unfold hasWord
  rw [es]
  simp only [decide_eq_true_eq]
  constructor
  · rcases ha with rfl | ⟨a', rfl⟩
    · left; rfl
    · right
      rw [e]
      have : charAt (a' ++ [ch ':'] ++ w ++ b) ((a' ++ [ch ':']).length - 1) = ch ':' := by
        simp [charAt, List.getD]
      rw [this]; decide
  · rw [e]
    rcases hb with rfl | ⟨b', rfl⟩
    · have : charAt (a ++ w ++ []) (a.length + w.length) = 0 := by
        simp [charAt, List.getD]
      rw [this]; decide
    · have : charAt (a ++ w ++ ch ':' :: b') (a.length + w.length) = ch ':' := by
        simp only [charAt, List.getD]
        rw [List.getElem?_append_right (by simp)]
        simp
      rw [this]; decide

theorem hasWord_join_none {w : List Byte} (hw : w ≠ []) (hc : ch ':' ∉ w) {ts : List (List Byte)}
    (h : ∀ t ∈ ts, ¬ w <:+: t) : hasWord (joinC ts) w = false := by
  unfold hasWord
  rw [strstr_join_none hw hc h]

/-! ## The buffer -/

/-- The buffer holds the string `s` and its terminating NUL, and nothing was written behind it. -/
structure Holds (b : Buf) (s : List Byte) : Prop where
  chars : ∀ i, i < s.length → b.mem i = s.getD i 0
  nul : s ≠ [] → b.mem s.length = 0
  wr : b.written = if s = [] then 0 else s.length + 1

theorem strcpy_spec (s : List Byte) : ∀ (b : Buf) (i : Nat),
    (∀ j, j < i → (b.strcpy i s).mem j = b.mem j) ∧
    (∀ j, j < s.length → (b.strcpy i s).mem (i + j) = s.getD j 0) ∧
    (b.strcpy i s).mem (i + s.length) = 0 ∧
    (b.strcpy i s).written = max b.written (i + s.length + 1) := by
  induction s with
  | nil =>
    intro b i
    refine ⟨?_, by simp, by simp [Buf.strcpy, Buf.put], by simp [Buf.strcpy, Buf.put]⟩
    intro j hj
    simp only [Buf.strcpy, Buf.put]
    rw [if_neg (by omega)]
  | cons c s ih =>
    intro b i
    obtain ⟨h1, h2, h3, h4⟩ := ih (b.put i c) (i + 1)
    refine ⟨?_, ?_, ?_, ?_⟩
    · intro j hj
      show ((b.put i c).strcpy (i + 1) s).mem j = _
      rw [h1 j (by omega)]
      simp only [Buf.put]
      rw [if_neg (by omega)]
    · intro j hj
      show ((b.put i c).strcpy (i + 1) s).mem (i + j) = _
      cases j with
      | zero =>
        rw [h1 _ (by omega)]
        simp [Buf.put]
      | succ j =>
        have := h2 j (by simp only [List.length_cons] at hj; omega)
        rw [show i + (j + 1) = i + 1 + j by omega, this]
        simp
    · show ((b.put i c).strcpy (i + 1) s).mem (i + (s.length + 1)) = _
      rw [show i + (s.length + 1) = i + 1 + s.length by omega]
      exact h3
    · show ((b.put i c).strcpy (i + 1) s).written = _
      rw [h4]
      simp only [Buf.put, List.length_cons]
      omega

theorem holds_first {b : Buf} (hb : Holds b []) (t : List Byte) (ht : t ≠ []) :
    Holds ((b.strcpy 0 t).put (0 + t.length) 0) t := by
  obtain ⟨h1, h2, h3, h4⟩ := strcpy_spec t b 0
  have hw := hb.wr
  simp only [if_true] at hw
  refine ⟨?_, ?_, ?_⟩
  · intro i hi
    simp only [Buf.put]
    rw [if_neg (by omega)]
    have := h2 i hi
    simpa using this
  · intro _; simp [Buf.put]
  · simp only [Buf.put]
    rw [h4, hw, if_neg ht]; omega

theorem holds_next {b : Buf} {s : List Byte} (hb : Holds b s) (hs : s ≠ []) (t : List Byte) :
    Holds (((b.put s.length (ch ':')).strcpy (s.length + 1) t).put (s.length + 1 + t.length) 0) (s ++ ch ':' :: t) := by
  obtain ⟨h1, h2, h3, h4⟩ := strcpy_spec t (b.put s.length (ch ':')) (s.length + 1)
  have hw := hb.wr
  rw [if_neg hs] at hw
  refine ⟨?_, ?_, ?_⟩
  · intro i hi
    simp only [List.length_append, List.length_cons] at hi
    simp only [Buf.put] at h1 h2 ⊢
    rw [if_neg (by omega)]
    by_cases hi1 : i < s.length
    · rw [h1 i (by omega), if_neg (by omega), hb.chars i hi1]
      simp only [List.getD]
      rw [List.getElem?_append_left hi1]
    · by_cases hi2 : i = s.length
      · subst hi2
        rw [h1 _ (by omega), if_pos rfl]
        simp [List.getD]
      · have := h2 (i - (s.length + 1)) (by omega)
        rw [show s.length + 1 + (i - (s.length + 1)) = i by omega] at this
        rw [this]
        simp only [List.getD]
        rw [List.getElem?_append_right (by omega)]
        rw [show i - s.length = (i - (s.length + 1)) + 1 by omega, List.getElem?_cons_succ]
  · intro _
    simp only [Buf.put, List.length_append, List.length_cons]
    rw [if_pos (by omega)]
  · rw [if_neg (by simp)]
    simp only [Buf.put, List.length_append, List.length_cons] at h4 ⊢
    rw [h4, hw]; omega

/-- Names of the table entries that describe the property word. -/
def selected (prop : BitVec 32) (ps : List PropEnt) : List (List Byte) :=
  (ps.filter (fun p => prop &&& p.mask = p.prop)).map (·.name)

theorem loop_spec (prop : BitVec 32) (len : Nat) : ∀ (ps : List PropEnt) (b : Buf) (ts : List (List Byte)),
    (∀ p ∈ ps, p.name ≠ []) → (∀ t ∈ ts, t ≠ []) → Holds b (joinC ts) →
    (∀ p ∈ ps, prop &&& p.mask = p.prop → p.name.length + 2 ≤ len) →
    ∃ b', prop2stringLoop prop len ps b (joinC ts).length = (b', some (joinC (ts ++ selected prop ps)).length) ∧
      Holds b' (joinC (ts ++ selected prop ps))
  | [], b, ts, _, _, hb, _ => ⟨b, by simp [prop2stringLoop, selected], by simpa [selected] using hb⟩
  | p :: ps, b, ts, hne, hts, hb, hlen => by
    by_cases hsel : prop &&& p.mask = p.prop
    · have hnp : p.name ≠ [] := hne p List.mem_cons_self
      have hl := hlen p List.mem_cons_self hsel
      have hsplit : selected prop (p :: ps) = p.name :: selected prop ps := by simp [selected, hsel]
      by_cases hemp : ts = []
      · subst hemp
        obtain ⟨b', e, h'⟩ := loop_spec prop len ps _ [p.name] (fun q hq => hne q (List.mem_cons_of_mem _ hq))
          (by simpa using hnp) (holds_first hb p.name hnp) (fun q hq => hlen q (List.mem_cons_of_mem _ hq))
        refine ⟨b', ?_, by rw [hsplit]; exact h'⟩
        rw [hsplit]
        have : joinC ([] : List (List Byte)) = [] := rfl
        rw [this]
        simp only [prop2stringLoop, List.length_nil, hsel, ne_eq, not_true, if_false, Nat.lt_irrefl]
        rw [if_neg (by simp only [gt_iff_lt, Nat.lt_irrefl, if_false]; omega)]
        have hl0 : (joinC [p.name]).length = 0 + p.name.length := by simp [joinC]
        rw [hl0] at e
        exact e
      · have hj : joinC ts ≠ [] := by
          cases ts with
          | nil => exact absurd rfl hemp
          | cons a l =>
            have := hts a List.mem_cons_self
            by_cases hl : l = []
            · subst hl; exact this
            · rw [joinC_cons hl]; simp
        have hpos : (joinC ts).length > 0 := List.length_pos_of_ne_nil hj
        have hb2 := holds_next hb hj p.name
        rw [← joinC_snoc ts p.name hemp] at hb2
        obtain ⟨b', e, h'⟩ := loop_spec prop len ps _ (ts ++ [p.name]) (fun q hq => hne q (List.mem_cons_of_mem _ hq))
          (by
            intro t ht
            rcases List.mem_append.1 ht with ht | ht
            · exact hts t ht
            · rw [List.mem_singleton.1 ht]; exact hnp) hb2 (fun q hq => hlen q (List.mem_cons_of_mem _ hq))
        refine ⟨b', ?_, by rw [hsplit]; simpa using h'⟩
        rw [hsplit]
        rw [show ts ++ p.name :: selected prop ps = ts ++ [p.name] ++ selected prop ps by simp]
        rw [← e]
        conv => lhs; unfold prop2stringLoop
        simp only [hsel, ne_eq, not_true, if_false, hpos, if_true]
        rw [if_neg (by omega)]
        congr 1
        rw [joinC_snoc ts p.name hemp]
        simp only [List.length_append, List.length_cons]
        omega
    · have hsplit : selected prop (p :: ps) = selected prop ps := by simp [selected, hsel]
      obtain ⟨b', e, h'⟩ := loop_spec prop len ps b ts (fun q hq => hne q (List.mem_cons_of_mem _ hq)) hts hb
        (fun q hq => hlen q (List.mem_cons_of_mem _ hq))
      refine ⟨b', ?_, by rw [hsplit]; exact h'⟩
      rw [hsplit]
      simp only [prop2stringLoop]
      rw [if_pos hsel]
      exact e

end Verif.PropStr
