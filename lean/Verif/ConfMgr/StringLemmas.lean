import Verif.ConfMgr.StringSpec
import Verif.ConfMgr.SpecLemmas
/-!
# Reading config strings
-/
namespace Verif.ConfMgr
open Verif Verif.Cali Verif.Parse
open Verif.Query.CalQL (Spaces dropWhile_spaces readCharL_spaces)

/-- a stream from which the same is read as from the text `r` -/
def At (r : Str) (s : IS) : Prop := (∀ sep, readWord sep s = readWord sep ⟨r, true⟩) ∧ readChar s = readChar ⟨r, true⟩

theorem at_self (r : Str) : At r ⟨r, true⟩ := ⟨fun _ => rfl, rfl⟩

theorem at_end : At [] ⟨[], false⟩ := ⟨fun _ => rfl, rfl⟩

theorem at_fin (r : Str) : At r ⟨r, !r.isEmpty⟩ := by
  cases r with
  | nil => exact at_end
  | cons => exact at_self _

theorem readWord_spaces {ws : Str} (h : Spaces ws) (sep r : Str) : readWord sep ⟨ws ++ r, true⟩ = readWord sep ⟨r, true⟩ := by
  unfold readWord
  simp only [if_true, dropWhile_spaces h]

theorem readChar_spaces {ws : Str} (h : Spaces ws) (r : Str) : readChar ⟨ws ++ r, true⟩ = readChar ⟨r, true⟩ := by
  unfold readChar
  simp only [if_true, readCharL_spaces h]

theorem At.drop {ws r : Str} {s : IS} (hw : Spaces ws) (h : At (ws ++ r) s) : At r s :=
  ⟨fun sep => by rw [h.1, readWord_spaces hw], by rw [h.2, readChar_spaces hw]⟩

theorem At.add {ws r : Str} {s : IS} (hw : Spaces ws) (h : At r s) : At (ws ++ r) s :=
  ⟨fun sep => by rw [h.1, readWord_spaces hw], by rw [h.2, readChar_spaces hw]⟩

/-- a character that is looked at is put back -/
theorem At.unget {r : Str} {s : IS} (h : At r s) : At r ((readChar s).2.unget (readChar s).1) := by
  rw [h.2]
  clear h
  induction r with
  | nil => exact at_end
  | cons c r ih =>
    by_cases hc : isSpace c = true
    · have hs : Spaces [c] := by intro x hx; rw [List.mem_singleton] at hx; rw [hx]; exact hc
      rw [show readChar ⟨c :: r, true⟩ = readChar ⟨r, true⟩ from readChar_spaces hs r]
      exact ih.add hs
    · have : readChar ⟨c :: r, true⟩ = (c, ⟨r, true⟩) := readChar_cons (by simpa using hc) r
      rw [this]
      exact at_self _

/-- what follows a word -/
def Stop' (sep r : Str) : Prop := r = [] ∨ Stop sep r

theorem at_word {sep w t ws r : Str} {s : IS} (h : At (ws ++ t ++ r) s) (hw : Spaces ws) (ht : IsText sep w t) (hr : Stop' sep r) :
    ∃ s', readWord sep s = (w, s') ∧ At r s' := by
  rw [h.1]
  refine ⟨_, readWord_text ht ws r hw ?_, at_fin r⟩
  rcases hr with h | ⟨c, cs, h⟩
  · exact .inl h
  · exact .inr ⟨c, cs, h⟩

theorem at_char {ws r : Str} {c : Byte} {s : IS} (h : At (ws ++ c :: r) s) (hw : Spaces ws) (hc : isSpace c = false) : readChar s = (c, ⟨r, true⟩) := by
  rw [h.2]; exact readChar_ws hw hc

theorem at_char_end {s : IS} (h : At [] s) : readChar s = (eofc, ⟨[], false⟩) := by rw [h.2]; rfl

/-- what follows a value or an item: the end, a comma, or a closing parenthesis -/
def End (r : Str) : Prop := r = [] ∨ ∃ c cs, r = c :: cs ∧ (c = ch ',' ∨ c = ch ')')

theorem End.stop {r : Str} (h : End r) : Stop' sepC r := by
  rcases h with rfl | ⟨c, cs, rfl, rfl | rfl⟩
  · exact .inl rfl
  · exact .inr (stop_of (by decide) (by decide) (by decide) _)
  · exact .inr (stop_of (by decide) (by decide) (by decide) _)

theorem Stop'.spaces {sep ws r : Str} (hw : Spaces ws) (h : Stop' sep r) : Stop' sep (ws ++ r) := by
  rcases h with rfl | h
  · cases ws with
    | nil => exact .inl rfl
    | cons c ws =>
      have hc := hw c (by simp)
      refine .inr ⟨c, ws, by simp, ?_, ?_, by simp [hc]⟩ <;> rintro rfl <;> revert hc <;> decide
  · exact .inr (Stop.spaces hw h)

theorem end_char {r : Str} (h : End r) {s : IS} (hs : At r s) :
    (r = [] ∧ readChar s = (eofc, ⟨[], false⟩)) ∨ ∃ c cs, r = c :: cs ∧ (c = ch ',' ∨ c = ch ')') ∧ readChar s = (c, ⟨cs, true⟩) := by
  rcases h with rfl | ⟨c, cs, rfl, hc⟩
  · exact .inl ⟨rfl, at_char_end hs⟩
  · refine .inr ⟨c, cs, rfl, hc, at_char (ws := []) hs (by intro x hx; cases hx) ?_⟩
    rcases hc with rfl | rfl <;> decide

/-- what begins a value or what follows it stops a word -/
theorem ValueT.stop {v tv r : Str} (h : ValueT v tv) (hr : Stop' sepC r) : Stop' sepC (tv ++ r) := by
  rcases h with ⟨_, rfl⟩ | ⟨a, b, tw, ha, _, _, rfl⟩ | ⟨a, ha, _, rfl⟩
  · exact hr
  · rw [List.append_assoc, List.cons_append]
    exact Stop'.spaces ha (.inr (stop_of (by decide) (by decide) (by decide) _))
  · rw [List.append_assoc, List.cons_append]
    exact Stop'.spaces ha (.inr (stop_of (by decide) (by decide) (by decide) _))

theorem readValue_ok {v tv d r : Str} {s : IS} (hv : ValueT v tv) (hd : Spaces d) (hr : End r) (h : At (tv ++ (d ++ r)) s) :
    ∃ s', readValue s = some (v, s') ∧ At r s' := by
  unfold readValue
  rcases hv with ⟨rfl, rfl⟩ | ⟨a, b, tw, ha, hb, ht, rfl⟩ | ⟨a, ha, hn, rfl⟩
  · have h' : At r s := At.drop hd h
    have hu := h'.unget
    rcases end_char hr h' with ⟨_, hx⟩ | ⟨c, cs, _, hc, hx⟩
    · rw [hx] at hu ⊢
      simp only
      rw [if_neg (by decide), if_neg (by decide)]
      exact ⟨_, rfl, hu⟩
    · rw [hx] at hu ⊢
      simp only
      rw [if_neg (by rcases hc with rfl | rfl <;> decide), if_neg (by rcases hc with rfl | rfl <;> decide)]
      exact ⟨_, rfl, hu⟩
  · rw [List.append_assoc, List.cons_append] at h
    rw [at_char h ha (by decide)]
    simp only [if_true]
    obtain ⟨s', h1, h2⟩ := at_word (at_self (b ++ tw ++ (d ++ r))) hb ht (Stop'.spaces hd hr.stop)
    rw [h1]
    simp only [ht.1, if_false]
    exact ⟨_, rfl, At.drop hd h2⟩
  · rw [List.append_assoc, List.cons_append, List.append_assoc] at h
    rw [at_char h ha (by decide)]
    simp only
    rw [if_neg (by decide), if_pos trivial, show v ++ ([ch ')'] ++ (d ++ r)) = v ++ ch ')' :: (d ++ r) from rfl,
      readNested_nest (by decide) (by decide) (by decide) hn]
    simp only
    rw [readChar_cons (c := ch ')') (by decide)]
    simp only [if_true]
    exact ⟨_, rfl, At.drop hd (at_self _)⟩

/-! ## options -/

theorem isText_ne {sep w t : Str} (h : IsText sep w t) : w ≠ [] := h.1

theorem argL_ok (has : Str → Bool) {l : Args} {b : Str} (h : ArgsT l b) (hk : ∀ e ∈ l, has e.1 = true ∨ e.1 = str "metadata") (r : Str) (n : Nat)
    (hn : l.length ≤ n) {s : IS} (hs : At (b ++ ch ')' :: r) s) : argL has n s = some (l, ch ')', ⟨r, true⟩) := by
  induction n generalizing l b s with
  | zero => cases h <;> simp at hn
  | succ n ih =>
    have key : ∀ {e : Str × Str} {t q : Str}, e ∈ l → ArgT e t → End q → At (t ++ q) s → ∃ s',
        At q s' ∧ argL has (n + 1) s = (let x := readChar s'
          if x.2.good && x.1 = ch ',' then (argL has n x.2).map fun q => ([e] ++ q.1, q.2) else some ([e], x.1, x.2)) := by
      intro e t q he ht hq hs
      obtain ⟨a, tk, v, tv, d, ha, hd, hkt, hv, hev, rfl⟩ := ht
      rw [show a ++ tk ++ (tv ++ d) ++ q = a ++ tk ++ (tv ++ (d ++ q)) by simp] at hs
      obtain ⟨s1, h1, h2⟩ := at_word hs ha hkt (hv.stop (Stop'.spaces hd hq.stop))
      obtain ⟨s2, h3, h4⟩ := readValue_ok hv hd hq h2
      refine ⟨s2, h4, ?_⟩
      rw [argL]
      simp only [h1, hkt.1, if_false]
      have hkn : (!has e.1 && decide (e.1 ≠ str "metadata")) = false := by
        rcases hk e he with h | h <;> simp [h]
      rw [hkn]
      simp only [Bool.false_eq_true, if_false, h3, Option.map_some]
      rw [show (if v = [] then str "true" else v) = e.2 from hev.symm]
    cases h with
    | @one e t ht =>
      obtain ⟨s', h1, h2⟩ := key (by simp) ht (.inr ⟨ch ')', r, rfl, .inr rfl⟩) hs
      rw [h2, at_char (ws := []) h1 (by intro x hx; cases hx) (by decide)]
      simp only
      rw [if_neg (show ¬((true && decide (ch ')' = ch ',')) = true) by decide)]
    | @cons e t l r' ht hl =>
      rw [List.append_assoc, List.cons_append] at hs
      obtain ⟨s', h1, h2⟩ := key (by simp) ht (.inr ⟨ch ',', r' ++ ch ')' :: r, rfl, .inl rfl⟩) hs
      rw [h2, at_char (ws := []) h1 (by intro x hx; cases hx) (by decide)]
      simp only
      rw [if_pos (by decide), ih hl (fun x hx => hk x (by simp [hx])) (by simpa using hn) (at_self _)]
      rfl

theorem argsT_length {l : Args} {b : Str} (h : ArgsT l b) : l.length ≤ b.length + 1 := by
  induction h with
  | one => simp
  | cons _ _ ih => simp; omega

theorem parseArglist_ok (has : Str → Bool) {l : Args} {ta d r : Str} (h : ArgListT l ta) (hk : ∀ e ∈ l, has e.1 = true ∨ e.1 = str "metadata")
    (hd : Spaces d) (hr : End r) (hr' : ∀ cs, r ≠ ch ')' :: cs) {s : IS} (hs : At (ta ++ (d ++ r)) s) :
    ∃ s', parseArglist has s = some (l, s') ∧ At r s' := by
  unfold parseArglist
  rcases h with ⟨rfl, rfl⟩ | ⟨a, b, ha, hb, rfl⟩
  · have h' : At r s := At.drop hd hs
    have hu := h'.unget
    rcases end_char hr h' with ⟨hr0, hx⟩ | ⟨c, cs, _, hc, hx⟩
    · rw [hx]
      simp only
      rw [if_pos (by decide)]
      exact ⟨_, rfl, by rw [hr0]; exact at_end⟩
    · rw [hx] at hu ⊢
      simp only
      rw [if_neg (by decide), if_pos (by rcases hc with rfl | rfl <;> decide)]
      exact ⟨_, rfl, hu⟩
  · rw [List.append_assoc, List.cons_append, List.append_assoc] at hs
    rw [at_char hs ha (by decide)]
    simp only
    rw [if_neg (by decide), if_neg (by simp), show b ++ ([ch ')'] ++ (d ++ r)) = b ++ ch ')' :: (d ++ r) from rfl]
    rcases hb with ⟨rfl, hb⟩ | hb
    · rw [argL]
      have hw : readWord sepC ⟨b ++ ch ')' :: (d ++ r), true⟩ = ([], ⟨ch ')' :: (d ++ r), true⟩) := by
        rw [readWord_spaces hb]
        unfold readWord
        simp only [if_true]
        rw [List.dropWhile_cons_of_neg (by decide)]
        simp only
        rw [readWordL.eq_def]
        simp only [if_neg (show ¬ch ')' = ch '\\' by decide), if_neg (show ¬ch ')' = ch '"' by decide)]
        rw [if_pos (by decide)]
      simp only [hw, if_true]
      rw [readChar_cons (c := ch ')') (by decide)]
      simp only
      rw [if_neg (show ¬((true && decide (ch ')' = ch ',')) = true) by decide)]
      simp only [if_true]
      exact ⟨_, rfl, At.drop hd (at_self _)⟩
    · rw [argL_ok has hb hk (d ++ r) _ (by have := argsT_length hb; simp; omega) (at_self _)]
      simp only [if_true]
      exact ⟨_, rfl, At.drop hd (at_self _)⟩

theorem ArgListT.stop {l : Args} {ta r : Str} (h : ArgListT l ta) (hr : Stop' sepC r) : Stop' sepC (ta ++ r) := by
  rcases h with ⟨_, rfl⟩ | ⟨a, b, ha, _, rfl⟩
  · exact hr
  · rw [List.append_assoc, List.cons_append]
    exact Stop'.spaces ha (.inr (stop_of (by decide) (by decide) (by decide) _))

/-! ## items -/

theorem lookup_isSome_of_mem {α : Type} {m : List (Str × α)} {k : Str} {v : α} (h : (k, v) ∈ m) : (m.lookup k).isSome = true := by
  induction m with
  | nil => cases h
  | cons e m ih =>
    rw [List.lookup_cons]
    by_cases hk : k = e.1
    · subst hk; simp
    · rw [show (k == e.1) = false by simpa using hk]
      rcases List.mem_cons.1 h with rfl | h
      · exact absurd rfl hk
      · exact ih h

theorem mem_of_lookup {α : Type} {m : List (Str × α)} {k : Str} {v : α} (h : m.lookup k = some v) : (k, v) ∈ m := by
  induction m with
  | nil => cases h
  | cons e m ih =>
    rw [List.lookup_cons] at h
    by_cases hk : k = e.1
    · subst hk
      simp only [beq_self_eq_true, Option.some.injEq] at h
      rw [← h]; simp
    · rw [show (k == e.1) = false by simpa using hk] at h
      exact List.mem_cons_of_mem _ (ih h)

theorem add_contains (S T : Specs) (cats : List Str) (k : Str) :
    (S.add T cats).contains k = true ↔ (S.data.lookup k).isSome = true ∨ ∃ o, (k, o) ∈ T.data ∧ o.category ∈ cats := by
  unfold Specs.contains Specs.add
  simp only
  generalize S.data = m
  generalize T.data = l
  induction l generalizing m with
  | nil => simp
  | cons e l ih =>
    rw [List.foldl_cons, ih]
    by_cases hc : e.2.category ∈ cats
    · rw [if_pos hc, mins_lookup]
      constructor
      · rintro (h | ⟨o, h, h'⟩)
        · by_cases hk : k = e.1
          · subst hk; exact .inr ⟨e.2, by simp, hc⟩
          · simp only [hk, if_false, Option.or_none] at h; exact .inl h
        · exact .inr ⟨o, by simp [h], h'⟩
      · rintro (h | ⟨o, h, h'⟩)
        · cases hm : m.lookup k with
          | none => rw [hm] at h; cases h
          | some => exact .inl rfl
        · rcases List.mem_cons.1 h with h | h
          · rw [show k = e.1 from congrArg Prod.fst h]
            left
            cases m.lookup e.1 <;> simp
          · exact .inr ⟨o, h, h'⟩
    · rw [if_neg hc]
      constructor
      · rintro (h | ⟨o, h, h'⟩)
        · exact .inl h
        · exact .inr ⟨o, by simp [h], h'⟩
      · rintro (h | ⟨o, h, h'⟩)
        · exact .inl h
        · rcases List.mem_cons.1 h with h | h
          · rw [show e.2 = o from (congrArg Prod.snd h).symm] at hc; exact absurd h' hc
          · exact .inr ⟨o, h, h'⟩

theorem isOption_iff (M : Mgr) (k : Str) : M.isOption k = true ↔ IsOption M k := by
  unfold Mgr.isOption IsOption Specs.contains
  simp only [Bool.or_eq_true, List.any_eq_true, Prod.exists]

theorem loadL_ok {E : Env} {fs : List Str} {tf : Str} (h : FilesT fs tf) (r : Str) (n : Nat) (hn : fs.length ≤ n) {M M' : Mgr}
    (hl : Loads E fs M M') {s : IS} (hs : At (tf ++ ch ')' :: r) s) : loadL E n M s = (M', ch ')', ⟨r, true⟩) := by
  induction n generalizing fs tf s M with
  | zero => cases h <;> simp at hn
  | succ n ih =>
    have hst : ∀ {d q : Str} {c : Byte}, Spaces d → (c = ch ',' ∨ c = ch ')') → Stop' (str ",()") (d ++ c :: q) := by
      intro d q c hd hc
      refine Stop'.spaces hd (.inr ?_)
      rcases hc with rfl | rfl <;> exact stop_of (by decide) (by decide) (by decide) _
    cases hl with
    | nil => cases h
    | @cons f l _ _ he hl' =>
      cases h with
      | @one a f tf d ha ht hd =>
        rw [List.append_assoc] at hs
        obtain ⟨s1, h1, h2⟩ := at_word hs ha ht (hst hd (.inr rfl))
        cases hl'
        rw [loadL]
        simp only [h1, ht.1, if_false, he, Bool.false_eq_true]
        rw [at_char h2 hd (by decide)]
        simp only
        rw [if_neg (show ¬((true && decide (ch ')' = ch ',')) = true) by decide)]
      | @cons a f tf d l r' ha ht hd hf =>
        rw [show a ++ tf ++ (d ++ ch ',' :: r') ++ ch ')' :: r = a ++ tf ++ (d ++ ch ',' :: (r' ++ ch ')' :: r)) by simp] at hs
        obtain ⟨s1, h1, h2⟩ := at_word hs ha ht (hst hd (.inl rfl))
        rw [loadL]
        simp only [h1, ht.1, if_false, he, Bool.false_eq_true]
        rw [at_char h2 hd (by decide)]
        simp only
        rw [if_pos (by decide)]
        exact ih hf (by simpa using hn) hl' (at_self _)

theorem filesT_length {l : List Str} {b : Str} (h : FilesT l b) : l.length ≤ b.length + 1 := by
  induction h with
  | one => simp
  | cons _ _ _ _ ih => simp; omega

theorem loads_err {E : Env} {fs : List Str} {M M' : Mgr} (h : Loads E fs M M') (hM : M.err = false) : M'.err = false := by
  induction h with
  | nil => exact hM
  | cons h _ ih => exact ih h

theorem end_of {r : Str} (h : r = [] ∨ ∃ cs, r = ch ',' :: cs) : End r := by
  rcases h with h | ⟨cs, h⟩
  · exact .inl h
  · exact .inr ⟨_, cs, h, .inl rfl⟩

/-- one item does what it should -/
theorem parseItem_ok {E : Env} {i : Item} {l : List Item} {t r : Str} {M M' : Mgr} {F : Found} (hM : M.err = false) (hi : ItemT i t)
    (hr : r = [] ∨ ∃ cs, r = ch ',' :: cs) (h : Runs E (i :: l) M M' F) {s : IS} (hs : At (t ++ r) s) :
    ∃ M1 F1 F2 s', parseItem E M s = (M1, s', F1) ∧ M1.err = false ∧ At r s' ∧ Runs E l M1 M' F2 ∧ F = F1 ++ F2 := by
  have hr2 : ∀ cs, r ≠ ch ')' :: cs := by
    rcases hr with rfl | ⟨cs, rfl⟩
    · intro cs h; cases h
    · intro cs h
      have := (List.cons.inj h).1
      revert this; decide
  have hE := end_of hr
  unfold parseItem
  cases h with
  | @config name args c _ _ _ F hname hc hk hrun =>
    obtain ⟨a, tk, ta, d, ha, hd, hkt, hta, rfl⟩ := hi
    rw [show a ++ tk ++ (ta ++ d) ++ r = a ++ tk ++ (ta ++ (d ++ r)) by simp] at hs
    obtain ⟨s1, h1, h2⟩ := at_word hs ha hkt (hta.stop (Stop'.spaces hd hE.stop))
    obtain ⟨s2, h3, h4⟩ := parseArglist_ok (c.opts.add M.global c.categories).contains hta (fun e he => by
      rcases hk e he with h | h
      · exact .inr h
      · exact .inl ((add_contains _ _ _ _).2 h)) hd hE hr2 h2
    simp only [h1, hname, if_false, hc, h3, hM, Bool.false_eq_true]
    exact ⟨M, _, F, s2, rfl, hM, h4, hrun, rfl⟩
  | @metadata v _ _ _ F hc hrun =>
    obtain ⟨a, tk, tv, d, ha, hd, hkt, hv, rfl⟩ := hi
    rw [show a ++ tk ++ (tv ++ d) ++ r = a ++ tk ++ (tv ++ (d ++ r)) by simp] at hs
    obtain ⟨s1, h1, h2⟩ := at_word hs ha hkt (hv.stop (Stop'.spaces hd hE.stop))
    obtain ⟨s2, h3, h4⟩ := readValue_ok hv hd hE h2
    simp only [h1, hc, h3]
    rw [if_neg (by decide), if_neg (by simp [hM])]
    simp only [if_true]
    exact ⟨_, _, F, s2, rfl, hM, h4, hrun, rfl⟩
  | @option k v _ _ _ F hname hne hc ho hrun =>
    obtain ⟨a, tk, tv, d, ha, hd, hkt, hv, rfl⟩ := hi
    rw [show a ++ tk ++ (tv ++ d) ++ r = a ++ tk ++ (tv ++ (d ++ r)) by simp] at hs
    obtain ⟨s1, h1, h2⟩ := at_word hs ha hkt (hv.stop (Stop'.spaces hd hE.stop))
    obtain ⟨s2, h3, h4⟩ := readValue_ok hv hd hE h2
    simp only [h1, hname, hne, hc, h3, if_false, (isOption_iff M k).2 ho, if_true]
    rw [if_neg (by simp [hM])]
    exact ⟨_, _, F, s2, rfl, hM, h4, hrun, rfl⟩
  | @extra k v _ _ _ F hname hne hc ho hrun =>
    obtain ⟨a, tk, tv, d, ha, hd, hkt, hv, rfl⟩ := hi
    rw [show a ++ tk ++ (tv ++ d) ++ r = a ++ tk ++ (tv ++ (d ++ r)) by simp] at hs
    obtain ⟨s1, h1, h2⟩ := at_word hs ha hkt (hv.stop (Stop'.spaces hd hE.stop))
    obtain ⟨s2, h3, h4⟩ := readValue_ok hv hd hE h2
    have ho' : M.isOption k = false := by
      cases hb : M.isOption k with
      | false => rfl
      | true => exact absurd ((isOption_iff M k).1 hb) ho
    simp only [h1, hname, hne, hc, h3, Bool.false_eq_true, if_false, ho']
    rw [if_neg (by simp [hM])]
    exact ⟨_, _, F, s2, rfl, hM, h4, hrun, rfl⟩
  | @load fs _ _ M1 _ F hl hrun =>
    obtain ⟨a, tk, b, tf, d, ha, hb, hd, hkt, hf, rfl⟩ := hi
    rw [show a ++ tk ++ (b ++ ch '(' :: (tf ++ ch ')' :: d)) ++ r = a ++ tk ++ (b ++ ch '(' :: (tf ++ ch ')' :: (d ++ r))) by simp] at hs
    obtain ⟨s1, h1, h2⟩ := at_word hs ha hkt (Stop'.spaces hb (.inr (stop_of (by decide) (by decide) (by decide) _)))
    have h3 := loadL_ok hf (d ++ r) ((tf ++ ch ')' :: (d ++ r)).length + 1) (by have := filesT_length hf; simp; omega) hl (at_self _)
    have he := loads_err hl hM
    have h4 : handleLoad E M s1 = (M1, ⟨d ++ r, true⟩) := by
      unfold handleLoad
      rw [at_char h2 hb (by decide)]
      simp only
      rw [if_neg (by simp), h3]
      simp only [he, Bool.false_eq_true, if_false, if_true]
    simp only [h1, if_true, h4]
    exact ⟨M1, [], F, _, rfl, he, At.drop hd (at_self _), hrun, rfl⟩

theorem configL_ok {E : Env} {l : List Item} {t : Str} (h : StringT l t) (n : Nat) (hn : l.length ≤ n) {M M' : Mgr} {F : Found}
    (hM : M.err = false) (hrun : Runs E l M M' F) {s : IS} (hs : At t s) : configL E n M s = (M', F) := by
  induction n generalizing l t s M F with
  | zero => cases h <;> simp at hn
  | succ n ih =>
    cases h with
    | @one i t hi =>
      obtain ⟨M1, F1, F2, s', h1, h2, h3, h4, h5⟩ := parseItem_ok (r := []) hM hi (.inl rfl) hrun (by simpa using hs)
      rw [configL]
      simp only [h1, h2, Bool.false_eq_true, if_false]
      rw [at_char_end h3]
      simp only
      rw [if_neg (by decide)]
      cases h4
      rw [h5, List.append_nil, ← h2]
    | @cons i t l r hi hl =>
      obtain ⟨M1, F1, F2, s', h1, h2, h3, h4, h5⟩ := parseItem_ok (r := ch ',' :: r) hM hi (.inr ⟨r, rfl⟩) hrun hs
      rw [configL]
      simp only [h1, h2, Bool.false_eq_true, if_false]
      rw [at_char (ws := []) h3 (by intro x hx; cases hx) (by decide)]
      simp only
      rw [if_pos (by decide), ih hl (by simpa using hn) h2 h4 (at_self _), h5]

theorem stringT_length {l : List Item} {t : Str} (h : StringT l t) : l.length ≤ t.length + 1 := by
  induction h with
  | one => simp
  | cons _ _ ih => simp; omega

theorem text_first {sep w t ws r : Str} (ht : IsText sep w t) (hw : Spaces ws) : (readChar ⟨ws ++ t ++ r, true⟩).2.good = true := by
  obtain ⟨c, cs, rfl, hc⟩ := ht.head
  rw [List.append_assoc, List.cons_append, readChar_ws hw hc]

theorem itemT_first {i : Item} {t r : Str} (h : ItemT i t) : (readChar ⟨t ++ r, true⟩).2.good = true := by
  cases i with
  | config name args => obtain ⟨a, tk, ta, d, ha, _, hk, _, rfl⟩ := h; rw [List.append_assoc]; exact text_first hk ha
  | param k v => obtain ⟨a, tk, ta, d, ha, _, hk, _, rfl⟩ := h; rw [List.append_assoc]; exact text_first hk ha
  | load fs => obtain ⟨a, tk, b, tf, d, ha, _, _, hk, _, rfl⟩ := h; rw [List.append_assoc]; exact text_first hk ha

/-- a config string is read as written -/
theorem parseConfigString_ok {E : Env} {l : List Item} {t : Str} (h : StringT l t) {M M' : Mgr} {F : Found}
    (hM : (importBuiltin E M).err = false) (hrun : Runs E l (importBuiltin E M) M' F) : parseConfigString E M t = (M', F) := by
  unfold parseConfigString
  have hg : (readChar ⟨t, true⟩).2.good = true := by
    cases h with
    | one hi => have := itemT_first (r := []) hi; simpa using this
    | cons hi => exact itemT_first hi
  simp only [hg, if_true]
  exact configL_ok h _ (stringT_length h) hM hrun (at_self t).unget

end Verif.ConfMgr
