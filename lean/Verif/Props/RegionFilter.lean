import Verif.Parse.RegionFilter
import Mathlib.Data.List.Forall2
/-!
# C32: region filters
-/
namespace Verif.Parse
open Verif Verif.Cali

/-- the clauses of a filter configuration -/
inductive Item where
  | word (w : List Byte)
  | match_ (ws : List (List Byte))
  | startswith (ws : List (List Byte))
  | regex (ws : List (List Byte))

/-- a region name matches a clause: whole names for plain words and `match`, prefixes for `startswith` -/
def Item.Matches (compile : List Byte → Option (List Byte → Bool)) (v : List Byte) : Item → Prop
  | .word w => v = w
  | .match_ ws => v ∈ ws
  | .startswith ws => ∃ w ∈ ws, w <+: v
  | .regex ws => ∃ w ∈ ws, ∃ r, compile w = some r ∧ r v = true

/-- a word as written in a configuration: plain or quoted, after optional white space -/
def Written (w t : List Byte) : Prop := ∃ sp t0, (∀ c ∈ sp, isSpace c = true) ∧ IsText fsep w t0 ∧ t = sp ++ t0

/-- comma-separated text -/
def joinC : List (List Byte) → List Byte
  | [] => []
  | [t] => t
  | t :: ts => t ++ ch ',' :: joinC ts

/-- `name(arg,arg,...)`, after optional white space -/
def CallText (name : List Byte) (ws : List (List Byte)) (t : List Byte) : Prop :=
  ∃ sp ts, (∀ c ∈ sp, isSpace c = true) ∧ ws ≠ [] ∧ List.Forall₂ Written ws ts ∧ t = sp ++ (name ++ ch '(' :: (joinC ts ++ [ch ')']))

/-- `t` is a way to write the clause (with at least one argument, and valid regular expressions) -/
def Item.Text (compile : List Byte → Option (List Byte → Bool)) : Item → List Byte → Prop
  | .word w, t => Written w t ∧ w ≠ str "match" ∧ w ≠ str "startswith" ∧ w ≠ str "regex"
  | .match_ ws, t => CallText (str "match") ws t
  | .startswith ws, t => CallText (str "startswith") ws t
  | .regex ws, t => CallText (str "regex") ws t ∧ ∀ w ∈ ws, (compile w).isSome = true

theorem Written.read {w t : List Byte} (h : Written w t) (rest : List Byte)
    (hr : rest = [] ∨ ∃ c cs, rest = c :: cs ∧ (c = ch ',' ∨ c = ch '(' ∨ c = ch ')')) :
    readWord fsep ⟨t ++ rest, true⟩ = (w, ⟨rest, !rest.isEmpty⟩) := by
  obtain ⟨sp, t0, h1, h2, rfl⟩ := h
  refine readWord_text h2 sp rest h1 ?_
  rcases hr with rfl | ⟨c, cs, rfl, h⟩
  · exact .inl rfl
  · right
    refine ⟨c, cs, rfl, ?_⟩
    rcases h with rfl | rfl | rfl <;> decide

theorem Written.ne {w t : List Byte} (h : Written w t) : w ≠ [] := by
  obtain ⟨sp, t0, h1, h2, rfl⟩ := h
  exact h2.1

theorem Written.len {w t : List Byte} (h : Written w t) : t ≠ [] := by
  obtain ⟨sp, t0, h1, h2, rfl⟩ := h
  obtain ⟨c, cs, rfl, _⟩ := h2.head
  simp

theorem argLoop_text {ws ts : List (List Byte)} (h : List.Forall₂ Written ws ts) (hne : ws ≠ []) (rest : List Byte) :
    ∀ fuel, ws.length ≤ fuel → argLoop fuel ⟨joinC ts ++ ch ')' :: rest, true⟩ = (ws, ch ')', ⟨rest, true⟩) := by
  induction h with
  | nil => exact absurd rfl hne
  | @cons w t ws ts h hs ih =>
    intro fuel hf
    obtain ⟨fuel, rfl⟩ : ∃ n, fuel = n + 1 := ⟨fuel - 1, by simp at hf; omega⟩
    cases hs with
    | nil =>
      unfold argLoop
      rw [show joinC [t] = t from rfl]
      rw [h.read (ch ')' :: rest) (.inr ⟨_, _, rfl, by simp⟩)]
      simp only [List.isEmpty_cons, Bool.not_false]
      rw [readChar_cons (by decide)]
      simp only [if_neg h.ne, Bool.true_and]
      simp [show ¬ ch ')' = ch ',' by decide]
    | @cons w' t' ws' ts' h' hs' =>
      have ih := ih (by simp) fuel (by simpa using hf)
      unfold argLoop
      rw [show joinC (t :: t' :: ts') = t ++ ch ',' :: joinC (t' :: ts') from rfl, List.append_assoc, List.cons_append]
      rw [h.read (ch ',' :: _) (.inr ⟨_, _, rfl, by simp⟩)]
      simp only [List.isEmpty_cons, Bool.not_false]
      rw [readChar_cons (by decide)]
      simp only [if_neg h.ne, Bool.true_and]
      rw [if_pos (by decide), ih]
      rfl

theorem joinC_len {ws ts : List (List Byte)} (h : List.Forall₂ Written ws ts) : ws.length ≤ (joinC ts).length := by
  induction h with
  | nil => simp
  | @cons w t ws ts h hs ih =>
    have : 0 < t.length := List.length_pos_iff.2 h.len
    cases hs with
    | nil => simp [joinC]; omega
    | cons h' hs' =>
      rw [show ∀ a b c, joinC (a :: b :: c) = a ++ ch ',' :: joinC (b :: c) from fun _ _ _ => rfl, List.length_append, List.length_cons]
      simp only [List.length_cons] at ih ⊢
      omega

theorem parseArgs_text {ws ts : List (List Byte)} (h : List.Forall₂ Written ws ts) (hne : ws ≠ []) (rest : List Byte) :
    parseArgs ⟨ch '(' :: (joinC ts ++ [ch ')'] ++ rest), true⟩ = (some ws, ⟨rest, true⟩) := by
  unfold parseArgs
  rw [readChar_cons (by decide)]
  simp only [ne_eq, not_true_eq_false, if_false]
  rw [List.append_assoc, List.singleton_append, argLoop_text h hne rest _ (by
    have := joinC_len h
    simp only [List.length_append, List.length_cons]; omega)]
  simp

/-- what a clause adds to the filter -/
def Filter.add (compile : List Byte → Option (List Byte → Bool)) (F : Filter) : Item → Filter
  | .word w => { F with match_ := F.match_ ++ [w] }
  | .match_ ws => { F with match_ := F.match_ ++ ws }
  | .startswith ws => { F with startswith := F.startswith ++ ws }
  | .regex ws => { F with regex := F.regex ++ ws.filterMap compile }

theorem mapM_filterMap {α β : Type} (f : α → Option β) (l : List α) (h : ∀ x ∈ l, (f x).isSome = true) : l.mapM f = some (l.filterMap f) := by
  induction l with
  | nil => rfl
  | cons x l ih =>
    obtain ⟨y, hy⟩ := Option.isSome_iff_exists.1 (h x (by simp))
    rw [List.mapM_cons, ih (fun x hx => h x (List.mem_cons_of_mem _ hx)), hy, List.filterMap_cons, hy]
    rfl

theorem plain_text {w : List Byte} (h0 : w ≠ []) (h : Plain fsep w) : IsText fsep w w := ⟨h0, .inr ⟨rfl, h⟩⟩

theorem call_read {name : List Byte} (hn : IsText fsep name name) {ws : List (List Byte)} {t : List Byte} (h : CallText name ws t)
    (rest : List Byte) : ∃ s, readWord fsep ⟨t ++ rest, true⟩ = (name, s) ∧ parseArgs s = (some ws, ⟨rest, true⟩) := by
  obtain ⟨sp, ts, h1, h2, h3, rfl⟩ := h
  refine ⟨⟨ch '(' :: (joinC ts ++ [ch ')'] ++ rest), true⟩, ?_, parseArgs_text h3 h2 rest⟩
  have := Written.read ⟨sp, name, h1, hn, rfl⟩ (ch '(' :: (joinC ts ++ [ch ')'] ++ rest)) (.inr ⟨_, _, rfl, by simp⟩)
  simpa using this

instance (sep w : List Byte) : Decidable (Plain sep w) := by unfold Plain; infer_instance

theorem filterStep_text (compile : List Byte → Option (List Byte → Bool)) (F : Filter) {i : Item} {t : List Byte} (h : i.Text compile t)
    (rest : List Byte) (hr : rest = [] ∨ ∃ cs, rest = ch ',' :: cs) :
    ∃ g, filterStep compile F ⟨t ++ rest, true⟩ = (some (F.add compile i), ⟨rest, g⟩) ∧ (rest ≠ [] → g = true) := by
  have k1 : IsText fsep (str "match") (str "match") := plain_text (by decide) (by decide)
  have k2 : IsText fsep (str "startswith") (str "startswith") := plain_text (by decide) (by decide)
  have k3 : IsText fsep (str "regex") (str "regex") := plain_text (by decide) (by decide)
  cases i with
  | word w =>
    obtain ⟨h1, h2, h3, h4⟩ := h
    refine ⟨!rest.isEmpty, ?_, ?_⟩
    · unfold filterStep
      rw [h1.read rest (hr.imp id fun ⟨cs, h⟩ => ⟨_, cs, h, by simp⟩)]
      simp only [if_neg h2, if_neg h3, if_neg h4, ne_eq, h1.ne, not_false_eq_true, if_true]
      rfl
    · intro h; cases rest <;> simp_all
  | match_ ws =>
    obtain ⟨s, h1, h2⟩ := call_read k1 h rest
    exact ⟨true, by unfold filterStep; rw [h1]; simp only [if_true, h2]; rfl, fun _ => rfl⟩
  | startswith ws =>
    obtain ⟨s, h1, h2⟩ := call_read k2 h rest
    refine ⟨true, ?_, fun _ => rfl⟩
    unfold filterStep
    rw [h1]
    simp only [if_neg (show ¬ str "startswith" = str "match" by decide), if_true, h2]
    rfl
  | regex ws =>
    obtain ⟨s, h1, h2⟩ := call_read k3 h.1 rest
    refine ⟨true, ?_, fun _ => rfl⟩
    unfold filterStep
    rw [h1]
    simp only [if_neg (show ¬ str "regex" = str "match" by decide), if_neg (show ¬ str "regex" = str "startswith" by decide), if_true, h2,
      mapM_filterMap compile ws h.2]
    rfl

theorem filterLoop_text (compile : List Byte → Option (List Byte → Bool)) {is : List Item} {ts : List (List Byte)}
    (h : List.Forall₂ (fun i t => Item.Text compile i t) is ts) (hne : is ≠ []) : ∀ fuel, is.length ≤ fuel → ∀ F,
    filterLoop compile fuel F ⟨joinC ts, true⟩ = some (is.foldl (fun F i => F.add compile i) F) := by
  induction h with
  | nil => exact absurd rfl hne
  | @cons i t is ts h hs ih =>
    intro fuel hf F
    obtain ⟨fuel, rfl⟩ : ∃ n, fuel = n + 1 := ⟨fuel - 1, by simp at hf; omega⟩
    cases hs with
    | nil =>
      obtain ⟨g, h1, _⟩ := filterStep_text compile F h [] (.inl rfl)
      rw [List.append_nil] at h1
      unfold filterLoop
      rw [show joinC [t] = t from rfl, h1]
      simp only [List.foldl_cons, List.foldl_nil]
      cases g
      · simp [readChar]
      · rw [readChar_nil]; simp
    | @cons i' t' is' ts' h' hs' =>
      obtain ⟨g, h1, h2⟩ := filterStep_text compile F h (ch ',' :: joinC (t' :: ts')) (.inr ⟨_, rfl⟩)
      have hg := h2 (by simp)
      subst hg
      have ih := ih (by simp) fuel (by simpa using hf) (F.add compile i)
      unfold filterLoop
      rw [show joinC (t :: t' :: ts') = t ++ ch ',' :: joinC (t' :: ts') from rfl, h1]
      simp only
      rw [readChar_cons (by decide)]
      simp only [Bool.true_and]
      rw [if_pos (by decide), ih]
      rfl

theorem Item.Text.len {compile : List Byte → Option (List Byte → Bool)} {i : Item} {t : List Byte} (h : i.Text compile t) : t ≠ [] := by
  have call : ∀ n ws, CallText n ws t → t ≠ [] := by
    rintro n ws ⟨sp, ts, _, _, _, rfl⟩
    simp
  cases i with
  | word w => exact h.1.len
  | match_ ws => exact call _ _ h
  | startswith ws => exact call _ _ h
  | regex ws => exact call _ _ h.1

theorem items_len {compile : List Byte → Option (List Byte → Bool)} {is : List Item} {ts : List (List Byte)}
    (h : List.Forall₂ (fun i t => Item.Text compile i t) is ts) : is.length ≤ (joinC ts).length := by
  induction h with
  | nil => simp
  | @cons w t ws ts h hs ih =>
    have : 0 < t.length := List.length_pos_iff.2 h.len
    cases hs with
    | nil => simp [joinC]; omega
    | cons h' hs' =>
      rw [show ∀ a b c, joinC (a :: b :: c) = a ++ ch ',' :: joinC (b :: c) from fun _ _ _ => rfl, List.length_append, List.length_cons]
      simp only [List.length_cons] at ih ⊢
      omega

/-- a filter matches exactly what its entries say -/
theorem matches_iff (F : Filter) (v : List Byte) :
    F.matches v = true ↔ (∃ w ∈ F.startswith, w <+: v) ∨ v ∈ F.match_ ∨ ∃ r ∈ F.regex, r v = true := by
  unfold Filter.matches
  simp only [Bool.or_eq_true, List.any_eq_true, Bool.and_eq_true, decide_eq_true_eq, or_assoc]
  refine or_congr ?_ (or_congr ?_ Iff.rfl)
  · constructor
    · rintro ⟨w, h1, h2, h3⟩
      exact ⟨w, h1, List.prefix_iff_eq_take.2 h3⟩
    · rintro ⟨w, h1, h2⟩
      exact ⟨w, h1, h2.length_le, List.prefix_iff_eq_take.1 h2⟩
  · constructor
    · rintro ⟨w, h1, h2, h3⟩
      rw [← h2, List.take_length] at h3
      exact h3 ▸ h1
    · intro h
      exact ⟨v, h, rfl, by simp⟩

theorem foldl_add_matches (compile : List Byte → Option (List Byte → Bool)) (is : List Item) (v : List Byte) : ∀ F : Filter,
    (is.foldl (fun F i => F.add compile i) F).matches v = true ↔ F.matches v = true ∨ ∃ i ∈ is, i.Matches compile v := by
  have t1 : ∀ a b c d : Prop, (a ∨ (b ∨ d) ∨ c) ↔ (a ∨ b ∨ c) ∨ d := by intros; tauto
  have t2 : ∀ a b c d : Prop, ((a ∨ d) ∨ b ∨ c) ↔ (a ∨ b ∨ c) ∨ d := by intros; tauto
  have t3 : ∀ a b c d : Prop, (a ∨ b ∨ c ∨ d) ↔ (a ∨ b ∨ c) ∨ d := by intros; tauto
  induction is with
  | nil => intro F; simp
  | cons i is ih =>
    intro F
    rw [List.foldl_cons, ih]
    have : (F.add compile i).matches v = true ↔ F.matches v = true ∨ i.Matches compile v := by
      rw [matches_iff, matches_iff]
      cases i with
      | word w => simp only [Filter.add, Item.Matches, List.mem_append, List.mem_singleton]; exact t1 _ _ _ _
      | match_ ws => simp only [Filter.add, Item.Matches, List.mem_append]; exact t1 _ _ _ _
      | startswith ws => simp only [Filter.add, Item.Matches, List.mem_append, or_and_right, exists_or]; exact t2 _ _ _ _
      | regex ws =>
        have : (∃ r, r ∈ ws.filterMap compile ∧ r v = true) ↔ ∃ w ∈ ws, ∃ r, compile w = some r ∧ r v = true := by
          constructor
          · rintro ⟨r, h1, h2⟩
            obtain ⟨w, h3, h4⟩ := List.mem_filterMap.1 h1
            exact ⟨w, h3, r, h4, h2⟩
          · rintro ⟨w, h3, r, h4, h2⟩
            exact ⟨r, List.mem_filterMap.2 ⟨w, h3, h4⟩, h2⟩
        simp only [Filter.add, Item.Matches, List.mem_append, or_and_right, exists_or, this]; exact t3 _ _ _ _
    rw [this]
    simp only [List.exists_mem_cons_iff, or_assoc]

/-- at least one filter -/
def Filter.nonempty (F : Filter) : Prop := F.match_ ≠ [] ∨ F.startswith ≠ [] ∨ F.regex ≠ []

theorem add_nonempty {compile : List Byte → Option (List Byte → Bool)} {i : Item} {t : List Byte} (h : i.Text compile t) (F : Filter) :
    (F.add compile i).nonempty := by
  cases i with
  | word w => left; simp [Filter.add]
  | match_ ws => obtain ⟨_, _, _, h, _⟩ := h; left; simp [Filter.add, h]
  | startswith ws => obtain ⟨_, _, _, h, _⟩ := h; right; left; simp [Filter.add, h]
  | regex ws =>
    obtain ⟨⟨_, _, _, h, _⟩, h2⟩ := h
    right; right
    cases ws with
    | nil => exact absurd rfl h
    | cons w ws =>
      obtain ⟨r, hr⟩ := Option.isSome_iff_exists.1 (h2 w (by simp))
      simp [Filter.add, hr]

theorem add_nonempty' {compile : List Byte → Option (List Byte → Bool)} (i : Item) (F : Filter) (h : F.nonempty) : (F.add compile i).nonempty := by
  unfold Filter.nonempty at *
  cases i <;> simp only [Filter.add, ne_eq, List.append_eq_nil_iff, not_and_or] <;> tauto

theorem foldl_nonempty {compile : List Byte → Option (List Byte → Bool)} (is : List Item) : ∀ F : Filter, F.nonempty →
    (is.foldl (fun F i => F.add compile i) F).nonempty := by
  induction is with
  | nil => intro F h; exact h
  | cons i is ih => intro F h; exact ih _ (add_nonempty' i F h)

theorem parseFilter_text (compile : List Byte → Option (List Byte → Bool)) {is : List Item} {ts : List (List Byte)}
    (h : List.Forall₂ (fun i t => Item.Text compile i t) is ts) :
    ∃ F, parseFilter compile (joinC ts) = some F ∧ (F = none ↔ is = []) ∧
      ∀ f, F = some f → ∀ v, f.matches v = true ↔ ∃ i ∈ is, i.Matches compile v := by
  by_cases hne : is = []
  · subst hne
    cases h
    refine ⟨none, ?_, by simp, by simp⟩
    unfold parseFilter
    have : filterLoop compile 1 ⟨[], [], []⟩ ⟨[], true⟩ = some ⟨[], [], []⟩ := by
      simp [filterLoop, filterStep, readWord, readChar, show ¬ ([] : List Byte) = str "match" by decide,
        show ¬ ([] : List Byte) = str "startswith" by decide, show ¬ ([] : List Byte) = str "regex" by decide]
    show (filterLoop compile 1 ⟨[], [], []⟩ ⟨[], true⟩).map _ = _
    rw [this]
    rfl
  · have h1 := filterLoop_text compile h hne ((joinC ts).length + 1) (by have := items_len h; omega) ⟨[], [], []⟩
    have hnn : (is.foldl (fun F i => F.add compile i) (⟨[], [], []⟩ : Filter)).nonempty := by
      cases h with
      | nil => exact absurd rfl hne
      | cons h hs => rw [List.foldl_cons]; exact foldl_nonempty _ _ (add_nonempty h _)
    refine ⟨some (is.foldl (fun F i => F.add compile i) ⟨[], [], []⟩), ?_, by simp [hne], ?_⟩
    · unfold parseFilter
      rw [h1]
      simp only [Option.map_some]
      rw [if_neg]
      unfold Filter.nonempty at hnn
      simp only [Bool.and_eq_true, List.isEmpty_iff]
      tauto
    · rintro f hf v
      cases hf
      rw [foldl_add_matches]
      simp [Filter.matches]

/-- C32: a region filter with given include and exclude filters passes a region exactly if no exclude filter matches it and, if
there are include filters, one of them matches. -/
theorem C32_pass (R : RegionFilter) (v : List Byte) :
    R.pass v = true ↔
      (∀ e, R.excl = some e → ¬((∃ w ∈ e.startswith, w <+: v) ∨ v ∈ e.match_ ∨ ∃ r ∈ e.regex, r v = true)) ∧
      (∀ i, R.incl = some i → (∃ w ∈ i.startswith, w <+: v) ∨ v ∈ i.match_ ∨ ∃ r ∈ i.regex, r v = true) := by
  obtain ⟨i, e⟩ := R
  unfold RegionFilter.pass
  simp only [← matches_iff]
  cases e with
  | none => cases i <;> simp
  | some e =>
    simp only [Option.some.injEq, forall_eq']
    by_cases he : e.matches v = true
    · simp [he]
    · cases i <;> simp [he]

/-- C32 (from the configuration strings): however the include and exclude clauses are written - plain or quoted words, with white
space after commas -, `from_config` accepts them, and a region passes exactly if it matches no exclude clause and, if there are
include clauses, one of these. -/
theorem C32_from_config (compile : List Byte → Option (List Byte → Bool)) (inc exc : List Item) (ti te : List (List Byte))
    (hi : List.Forall₂ (fun i t => Item.Text compile i t) inc ti) (he : List.Forall₂ (fun i t => Item.Text compile i t) exc te) :
    ∃ R, fromConfig compile (joinC ti) (joinC te) = some R ∧ ∀ v,
      (R.pass v = true ↔ (¬∃ i ∈ exc, i.Matches compile v) ∧ (inc = [] ∨ ∃ i ∈ inc, i.Matches compile v)) := by
  obtain ⟨Fi, h1, h2, h3⟩ := parseFilter_text compile hi
  obtain ⟨Fe, g1, g2, g3⟩ := parseFilter_text compile he
  refine ⟨⟨Fi, Fe⟩, by unfold fromConfig; rw [h1, g1], ?_⟩
  intro v
  unfold RegionFilter.pass
  cases Fe with
  | none =>
    have : exc = [] := g2.1 rfl
    subst this
    cases Fi with
    | none => have := h2.1 rfl; subst this; simp
    | some f =>
      have hne : inc ≠ [] := fun h => by have := h2.2 h; simp at this
      simp [hne, h3 f rfl v]
  | some e =>
    have ge := g3 e rfl v
    cases Fi with
    | none =>
      have := h2.1 rfl; subst this
      simp only [← ge, true_or, and_true]
      cases e.matches v <;> simp
    | some f =>
      have hne : inc ≠ [] := fun h => by have := h2.2 h; simp at this
      simp only [← ge, hne, false_or, ← h3 f rfl v]
      cases e.matches v <;> simp

/-! ## Malformed configurations -/

theorem argLoop_unclosed {ws ts : List (List Byte)} (h : List.Forall₂ Written ws ts) (hne : ws ≠ []) :
    ∀ fuel, ws.length ≤ fuel → (argLoop fuel ⟨joinC ts, true⟩).2.1 ≠ ch ')' := by
  induction h with
  | nil => exact absurd rfl hne
  | @cons w t ws ts h hs ih =>
    intro fuel hf
    obtain ⟨fuel, rfl⟩ : ∃ n, fuel = n + 1 := ⟨fuel - 1, by simp at hf; omega⟩
    cases hs with
    | nil =>
      unfold argLoop
      have := h.read [] (.inl rfl)
      rw [List.append_nil] at this
      rw [show joinC [t] = t from rfl, this]
      simp only [List.isEmpty_nil, Bool.not_true, readChar, Bool.false_eq_true, if_false, Bool.false_and]
      decide
    | @cons w' t' ws' ts' h' hs' =>
      have ih := ih (by simp) fuel (by simpa using hf)
      unfold argLoop
      rw [show joinC (t :: t' :: ts') = t ++ ch ',' :: joinC (t' :: ts') from rfl]
      rw [h.read (ch ',' :: _) (.inr ⟨_, _, rfl, by simp⟩)]
      simp only [List.isEmpty_cons, Bool.not_false]
      rw [readChar_cons (by decide)]
      simp only [if_neg h.ne, Bool.true_and]
      rw [if_pos (by decide)]
      exact ih

/-- malformed text: a clause whose argument list is not closed, or a clause with an invalid regular expression (and anything
after it) -/
def Malformed (compile : List Byte → Option (List Byte → Bool)) (t : List Byte) : Prop :=
  (∃ sp kw ws ts, (∀ c ∈ sp, isSpace c = true) ∧ (kw = str "match" ∨ kw = str "startswith" ∨ kw = str "regex") ∧ ws ≠ [] ∧
    List.Forall₂ Written ws ts ∧ t = sp ++ (kw ++ ch '(' :: joinC ts)) ∨
  (∃ ws t0 rest, CallText (str "regex") ws t0 ∧ (∃ w ∈ ws, compile w = none) ∧ t = t0 ++ rest)

theorem parseArgs_unclosed {ws ts : List (List Byte)} (h : List.Forall₂ Written ws ts) (hne : ws ≠ []) :
    (parseArgs ⟨ch '(' :: joinC ts, true⟩).1 = none := by
  unfold parseArgs
  rw [readChar_cons (by decide)]
  simp only [ne_eq, not_true_eq_false, if_false]
  rw [if_neg (argLoop_unclosed h hne _ (by have := joinC_len h; omega))]

theorem mapM_none {α β : Type} (f : α → Option β) (l : List α) (h : ∃ x ∈ l, f x = none) : l.mapM f = none := by
  induction l with
  | nil => obtain ⟨x, hx, _⟩ := h; simp at hx
  | cons a l ih =>
    rw [List.mapM_cons]
    cases ha : f a with
    | none => rfl
    | some b =>
      obtain ⟨x, hx, hn⟩ := h
      rcases List.mem_cons.1 hx with rfl | hx
      · rw [ha] at hn; cases hn
      · simp [ih ⟨x, hx, hn⟩]

theorem filterStep_malformed (compile : List Byte → Option (List Byte → Bool)) (F : Filter) {t : List Byte} (h : Malformed compile t) :
    (filterStep compile F ⟨t, true⟩).1 = none := by
  rcases h with ⟨sp, kw, ws, ts, h1, h2, h3, h4, rfl⟩ | ⟨ws, t0, rest, ⟨sp, ts, h1, h3, h4, rfl⟩, h5, rfl⟩
  · have hk : IsText fsep kw kw := by rcases h2 with rfl | rfl | rfl <;> exact plain_text (by decide) (by decide)
    have hr := Written.read ⟨sp, kw, h1, hk, rfl⟩ (ch '(' :: joinC ts) (.inr ⟨_, _, rfl, by simp⟩)
    rw [List.append_assoc] at hr
    have hp := parseArgs_unclosed h4 h3
    unfold filterStep
    rw [hr]
    simp only [List.isEmpty_cons, Bool.not_false]
    cases hq : parseArgs ⟨ch '(' :: joinC ts, true⟩ with
    | mk a s =>
      rw [hq] at hp
      simp only at hp
      subst hp
      rcases h2 with rfl | rfl | rfl
      · rw [if_pos rfl]
      · rw [if_neg (by decide), if_pos rfl]
      · rw [if_neg (by decide), if_neg (by decide), if_pos rfl]
  · have hk : IsText fsep (str "regex") (str "regex") := plain_text (by decide) (by decide)
    have hr := Written.read ⟨sp, _, h1, hk, rfl⟩ (ch '(' :: (joinC ts ++ [ch ')'] ++ rest)) (.inr ⟨_, _, rfl, by simp⟩)
    have e : sp ++ (str "regex" ++ ch '(' :: (joinC ts ++ [ch ')'])) ++ rest =
        sp ++ str "regex" ++ ch '(' :: (joinC ts ++ [ch ')'] ++ rest) := by simp
    unfold filterStep
    rw [e, hr]
    simp only [List.isEmpty_cons, Bool.not_false]
    rw [if_neg (by decide), if_neg (by decide), if_pos trivial, parseArgs_text h4 h3 rest]
    simp only [mapM_none compile ws h5, Option.map_none]

theorem filterLoop_malformed (compile : List Byte → Option (List Byte → Bool)) {is : List Item} {ts : List (List Byte)} {t : List Byte}
    (h : List.Forall₂ (fun i t => Item.Text compile i t) is ts) (hm : Malformed compile t) : ∀ fuel, is.length < fuel → ∀ F,
    filterLoop compile fuel F ⟨joinC (ts ++ [t]), true⟩ = none := by
  induction h with
  | nil =>
    intro fuel hf F
    obtain ⟨fuel, rfl⟩ : ∃ n, fuel = n + 1 := ⟨fuel - 1, by simp at hf; omega⟩
    have := filterStep_malformed compile F hm
    unfold filterLoop
    rw [show joinC ([] ++ [t]) = t from rfl]
    cases hq : filterStep compile F ⟨t, true⟩ with
    | mk a s => rw [hq] at this; simp only at this; subst this; rfl
  | @cons i t1 is ts h hs ih =>
    intro fuel hf F
    obtain ⟨fuel, rfl⟩ : ∃ n, fuel = n + 1 := ⟨fuel - 1, by simp at hf; omega⟩
    obtain ⟨x, xs, hx⟩ : ∃ x xs, ts ++ [t] = x :: xs := by cases ts <;> exact ⟨_, _, rfl⟩
    have e : joinC (t1 :: ts ++ [t]) = t1 ++ ch ',' :: joinC (ts ++ [t]) := by rw [List.cons_append, hx]; rfl
    obtain ⟨g, h1, h2⟩ := filterStep_text compile F h (ch ',' :: joinC (ts ++ [t])) (.inr ⟨_, rfl⟩)
    have hg := h2 (by simp)
    subst hg
    unfold filterLoop
    rw [e, h1]
    simp only
    rw [readChar_cons (by decide)]
    simp only [Bool.true_and]
    rw [if_pos (by decide)]
    exact ih fuel (by simpa using hf) _

theorem parseFilter_malformed (compile : List Byte → Option (List Byte → Bool)) {is : List Item} {ts : List (List Byte)} {t : List Byte}
    (h : List.Forall₂ (fun i t => Item.Text compile i t) is ts) (hm : Malformed compile t) : parseFilter compile (joinC (ts ++ [t])) = none := by
  unfold parseFilter
  rw [filterLoop_malformed compile h hm _ (by
    have h1 := items_len h
    have h2 : (joinC ts).length ≤ (joinC (ts ++ [t])).length := by
      clear h h1 hm
      induction ts with
      | nil => simp [joinC]
      | cons a b ih =>
        cases b with
        | nil => simp [joinC]
        | cons c d =>
          simp only [List.cons_append, joinC, List.length_append, List.length_cons] at ih ⊢
          omega
    omega)]
  rfl

/-- C32: a configuration with an unclosed argument list or an invalid regular expression is rejected, in the include and in the exclude
string, whatever correct clauses come before it. -/
theorem C32_malformed_rejected (compile : List Byte → Option (List Byte → Bool)) {is : List Item} {ts : List (List Byte)} {t : List Byte}
    (h : List.Forall₂ (fun i t => Item.Text compile i t) is ts) (hm : Malformed compile t) (other : List Byte) :
    fromConfig compile (joinC (ts ++ [t])) other = none ∧ fromConfig compile other (joinC (ts ++ [t])) = none := by
  have := parseFilter_malformed compile h hm
  unfold fromConfig
  rw [this]
  refine ⟨rfl, ?_⟩
  cases parseFilter compile other <;> rfl

example : Malformed (fun _ => none) (str " startswith(a, b") ∧ Malformed (fun _ => none) (str "regex(x),foo") := by
  refine ⟨.inl ⟨str " ", str "startswith", [str "a", str "b"], [str "a", str " b"], by decide, by simp, by decide, ?_, by decide⟩,
    .inr ⟨[str "x"], str "regex(x)", str ",foo", ⟨[], [str "x"], by decide, by decide, ?_, by decide⟩, ⟨str "x", by simp, rfl⟩, by decide⟩⟩
  · exact .cons ⟨[], str "a", by decide, plain_text (by decide) (by decide), rfl⟩
      (.cons ⟨str " ", str "b", by decide, plain_text (by decide) (by decide), rfl⟩ .nil)
  · exact .cons ⟨[], str "x", by decide, plain_text (by decide) (by decide), rfl⟩ .nil

/-! ## Examples -/

/-- a non-trivial configuration and its meaning -/
example : ∃ t, (Item.Text (fun _ => none) (.startswith [str "mpi_", str "a\"b c"]) t ∧ t = str " startswith(mpi_, \"a\\\"b c\")") := by
  refine ⟨_, ?_, rfl⟩
  refine ⟨str " ", [str "mpi_", str " \"a\\\"b c\""], by decide, by decide, ?_, by decide⟩
  refine .cons ⟨[], str "mpi_", by decide, plain_text (by decide) (by decide), rfl⟩ (.cons ⟨str " ", quote (str "a\"b c"), by decide, ⟨by decide, .inl rfl⟩, by decide +kernel⟩ .nil)

example : (fromConfig (fun _ => none) (str "foo, startswith(mpi_,\"a\\\"b c\")") (str "match(mpi_x)")).map
    (fun R => (R.pass (str "foo"), R.pass (str "mpi_y"), R.pass (str "mpi_x"), R.pass (str "a\"b cd"), R.pass (str "bar"))) =
    some (true, true, false, true, false) := by decide +kernel

/-- Text after a word that is not separated by a comma is silently ignored: `foo bar` only includes `foo`. -/
theorem C32_missing_comma_ignored : (fromConfig (fun _ => none) (str "foo bar") []).map
    (fun R => (R.pass (str "foo"), R.pass (str "bar"))) = some (true, false) := by decide +kernel

end Verif.Parse
