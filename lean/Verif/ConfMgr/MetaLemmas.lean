import Verif.ConfMgr.MetaSpec
import Verif.ConfMgr.StringLemmas
/-!
# Metadata: lemmas
-/
namespace Verif.ConfMgr
open Verif Verif.Cali Verif.Parse
open Verif.Query.CalQL (Spaces)

theorem stop_pairs {d r : Str} {c : Byte} (hd : Spaces d) (hc : c = ch ',') : Stop' (str ",()") (d ++ c :: r) := by
  subst hc; exact Stop'.spaces hd (.inr (stop_of (by decide) (by decide) (by decide) _))

theorem keyvalL_ok {l : Args} {t : Str} (h : PairsT l t) (n : Nat) (hn : l.length ≤ n) {s : IS} (hs : At t s) : keyvalL n s = l := by
  induction n generalizing l t s with
  | zero => cases h <;> simp at hn
  | succ n ih =>
    have key : ∀ {a k tk b c v tv d q : Str}, Spaces a → IsText [ch '='] k tk → Spaces b → Spaces c → IsText (str ",()") v tv →
        Stop' (str ",()") (d ++ q) → At (a ++ tk ++ (b ++ ch '=' :: (c ++ tv ++ (d ++ q)))) s → ∃ s', At (d ++ q) s' ∧
        keyvalL (n + 1) s = (let y := readChar s'; if y.2.good && y.1 = ch ',' then [(k, v)] ++ keyvalL n y.2 else [(k, v)]) := by
      intro a k tk b c v tv d q ha hk hb hc hv hst hs
      obtain ⟨s1, h1, h2⟩ := at_word hs ha hk (Stop'.spaces hb (.inr (stop_of (by decide) (by decide) (by decide) _)))
      obtain ⟨s2, h3, h4⟩ := at_word (at_self (c ++ tv ++ (d ++ q))) hc hv hst
      refine ⟨s2, h4, ?_⟩
      rw [keyvalL]
      simp only [h1, hk.1, if_false]
      rw [at_char h2 hb (by decide)]
      simp only [ne_eq, not_true, if_false, h3, hv.1]
    cases h with
    | @one a k tk b c v tv d ha hk hb hc hv hd =>
      obtain ⟨s', h1, h2⟩ := key (d := d) (q := []) ha hk hb hc hv (Stop'.spaces hd (.inl rfl)) (by simpa using hs)
      rw [h2]
      rw [at_char_end (At.drop hd h1)]
      simp only
      rw [if_neg (by decide)]
    | @cons a k tk b c v tv d l r ha hk hb hc hv hd hl =>
      obtain ⟨s', h1, h2⟩ := key (d := d) (q := ch ',' :: r) ha hk hb hc hv (stop_pairs hd rfl) hs
      rw [h2, at_char h1 hd (by decide)]
      simp only
      rw [if_pos (by decide), ih hl (by simpa using hn) (at_self _)]
      rfl

theorem pairsT_length {l : Args} {b : Str} (h : PairsT l b) : l.length ≤ b.length + 1 := by
  induction h with
  | one => simp
  | cons _ _ _ _ _ _ _ ih => simp; omega

theorem keyvals_ok {l : Args} {t : Str} (h : PairsT l t) : keyvals t = l := keyvalL_ok h _ (pairsT_length h) (at_self t)

theorem wordsT_length {c : Byte} {l : List Str} {b : Str} (h : WordsT c l b) : l.length ≤ b.length + 1 := by
  induction h with
  | one => simp
  | cons _ _ _ _ ih => simp; omega

/-- words with separators are read back -/
theorem stringListL_ok {c : Byte} (hc : c = ch ',' ∨ c = ch '.') {l : List Str} {t : Str} (h : WordsT c l t) (n : Nat) (hn : l.length ≤ n) {s : IS} (hs : At t s) :
    Config.stringListL [c] n s = l := by
  have hsp : isSpace c = false := by rcases hc with rfl | rfl <;> decide
  induction n generalizing l t s with
  | zero => cases h <;> simp at hn
  | succ n ih =>
    cases h with
    | @one a w tw d ha hw hd =>
      obtain ⟨s1, h1, h2⟩ := at_word hs ha hw (by simpa using Stop'.spaces hd (.inl rfl))
      rw [Config.stringListL]
      simp only [h1, hw.1, if_false]
      rw [at_char_end (At.drop hd (by simpa using h2))]
      simp
    | @cons a w tw d l r ha hw hd hl =>
      have hst : Stop' [c] (d ++ c :: r) := by
        refine Stop'.spaces hd (.inr (stop_of (by simp) ?_ ?_ _)) <;> rcases hc with rfl | rfl <;> decide
      obtain ⟨s1, h1, h2⟩ := at_word hs ha hw hst
      rw [Config.stringListL]
      simp only [h1, hw.1, if_false]
      rw [at_char h2 hd hsp]
      simp only
      rw [if_pos (by simp), ih hl (by simpa using hn) (at_self _)]
      rfl

/-! ## maps -/

theorem msorted_ext {α : Type} {m m' : List (Str × α)} (h : MSorted m) (h' : MSorted m') (he : ∀ q, m.lookup q = m'.lookup q) : m = m' := by
  induction m generalizing m' with
  | nil =>
    cases m' with
    | nil => rfl
    | cons e m' => have := he e.1; rw [List.lookup_cons] at this; simp at this
  | cons e m ih =>
    cases m' with
    | nil => have := he e.1; rw [List.lookup_cons] at this; simp at this
    | cons e' m' =>
      obtain ⟨h1, h2⟩ := List.pairwise_cons.1 h
      obtain ⟨h1', h2'⟩ := List.pairwise_cons.1 h'
      have hk : e.1 = e'.1 := by
        by_contra hne
        have a1 := he e.1
        rw [List.lookup_cons, List.lookup_cons, show (e.1 == e'.1) = false by simpa using hne] at a1
        simp only [beq_self_eq_true] at a1
        have a2 := he e'.1
        rw [List.lookup_cons, List.lookup_cons, show (e'.1 == e.1) = false by simpa using fun h => hne h.symm] at a2
        simp only [beq_self_eq_true] at a2
        have b1 : Query.Json.strLt e'.1 e.1 = true := h1' (e.1, e.2) (mem_of_lookup a1.symm)
        have b2 : Query.Json.strLt e.1 e'.1 = true := h1 (e'.1, e'.2) (mem_of_lookup a2)
        have := strLt_trans b1 b2
        rw [strLt_irrefl] at this
        cases this
      have hv : e.2 = e'.2 := by
        have a1 := he e.1
        rw [List.lookup_cons, List.lookup_cons, ← hk] at a1
        simpa using a1
      have : m = m' := by
        refine ih h2 h2' fun q => ?_
        by_cases hq : q = e.1
        · rw [lookup_none_of (fun x hx hx' => by have := h1 x hx; rw [hx', hq, strLt_irrefl] at this; cases this),
            lookup_none_of (fun x hx hx' => by have := h1' x hx; rw [hx', hq, hk, strLt_irrefl] at this; cases this)]
        · have a1 := he q
          rwa [List.lookup_cons, List.lookup_cons, ← hk, show (q == e.1) = false by simpa using hq] at a1
      rw [this, show e = e' from Prod.ext hk hv]

theorem mapOf_unique {α : Type} {l m : List (Str × α)} (h : MapOf l m) : m = setAll [] l :=
  msorted_ext h.1 (mapOf_setAll l).1 fun q => by rw [h.2, (mapOf_setAll l).2]

theorem mset_kept {m : List (Str × J)} {vs : List (Str × Str)} (h : List.Forall₂ KeptEntry m vs) {k : Str} {j : J} {v : Str} (hj : Kept j v) :
    List.Forall₂ KeptEntry (mset m k j) (mset vs k v) := by
  induction h with
  | nil => exact .cons ⟨rfl, hj⟩ .nil
  | @cons e p m vs he hl ih =>
    rw [mset, mset, he.1]
    split
    · exact .cons ⟨rfl, hj⟩ hl
    · split
      · exact .cons ⟨rfl, hj⟩ (.cons he hl)
      · exact .cons he ih

theorem setAll_kept {l : List (Str × J)} {vs : List (Str × Str)} (h : List.Forall₂ KeptEntry l vs) : List.Forall₂ KeptEntry (setAll [] l) (setAll [] vs) := by
  unfold setAll
  suffices ∀ (m : List (Str × J)) (ms : List (Str × Str)), List.Forall₂ KeptEntry m ms →
      List.Forall₂ KeptEntry (l.foldl (fun m e => mset m e.1 e.2) m) (vs.foldl (fun m e => mset m e.1 e.2) ms) from this [] [] .nil
  induction h with
  | nil => intro m ms h; exact h
  | @cons e p l vs he _ ih =>
    intro m ms h
    rw [List.foldl_cons, List.foldl_cons]
    refine ih _ _ ?_
    rw [he.1]
    exact mset_kept h he.2

theorem setAll_append {α : Type} (m l r : List (Str × α)) : setAll m (l ++ r) = setAll (setAll m l) r := by
  unfold setAll; rw [List.foldl_append]

/-! ## nested values -/

mutual
/-- how deep values are nested -/
def J.depth : J → Nat
  | .word _ => 0
  | .dict l => J.depthD l + 1
  | .list _ => 0
def J.depthD : List (Str × J) → Nat
  | [] => 0
  | (_, j) :: l => max j.depth (J.depthD l)
end

mutual
theorem jtext_depth : ∀ {j : J} {t : Str}, JText j t → j.depth ≤ t.length
  | _, _, .word _ => by simp [J.depth]
  | _, _, .dict h => by have := dbody_depth h; simp [J.depth]; omega
  | _, _, .list0 _ => by simp [J.depth]
  | _, _, .list _ => by simp [J.depth]
theorem dbody_depth : ∀ {l : List (Str × J)} {t : Str}, DBody l t → J.depthD l ≤ t.length
  | _, _, .one _ _ _ _ _ h _ => by have := jtext_depth h; simp [J.depthD]; omega
  | _, _, .cons _ _ _ _ _ h _ h' => by have := jtext_depth h; have := dbody_depth h'; simp [J.depthD]; omega
end

theorem depth_mem {l : List (Str × J)} {e : Str × J} (h : e ∈ l) : e.2.depth ≤ J.depthD l := by
  induction l with
  | nil => cases h
  | cons p l ih =>
    rw [J.depthD]
    rcases List.mem_cons.1 h with rfl | h
    · omega
    · have := ih h; omega

theorem solid_mem {l : List (Str × J)} (h : J.SolidD l) {e : Str × J} (he : e ∈ l) : e.2.Solid := by
  induction l with
  | nil => cases he
  | cons p l ih =>
    rw [J.SolidD] at h
    rcases List.mem_cons.1 he with rfl | he
    · exact h.1
    · exact ih h.2 he

theorem lastVal_mem {α : Type} {l : List (Str × α)} {k : Str} {v : α} (h : lastVal l k = some v) : (k, v) ∈ l := by
  unfold lastVal at h
  cases hf : l.reverse.find? fun e => decide (e.1 = k) with
  | none => rw [hf] at h; cases h
  | some e =>
    rw [hf] at h
    simp only [Option.map_some, Option.some.injEq] at h
    have h1 := List.mem_of_find?_eq_some hf
    have h2 := List.find?_some hf
    simp only [decide_eq_true_eq] at h2
    rw [← h, ← h2]
    simpa using h1

theorem mapOf_mem {α : Type} {l m : List (Str × α)} (h : MapOf l m) {e : Str × α} (he : e ∈ m) : e ∈ l := by
  have h1 : m.lookup e.1 = some e.2 := by
    rw [← sorted_lastVal h.1]
    have hs := h.1
    clear h
    induction m with
    | nil => cases he
    | cons p m ih =>
      obtain ⟨h1, h2⟩ := List.pairwise_cons.1 hs
      rw [lastVal_cons]
      rcases List.mem_cons.1 he with rfl | he
      · rw [lastVal_none_of (fun x hx hx' => by have := h1 x hx; rw [hx', strLt_irrefl] at this; cases this)]
        simp
      · rw [ih he h2]; rfl
  exact lastVal_mem ((h.2 e.1).symm.trans h1)

theorem recDict_no_brace {w : Str} (h : (w.dropWhile isSpace).head? ≠ some (ch '{')) : recDict w = ([], false) := by
  have hx : (readChar ⟨w, true⟩).1 ≠ ch '{' := by
    induction w with
    | nil => decide
    | cons c w ih =>
      by_cases hc : isSpace c = true
      · have hs : Spaces [c] := by intro x hx; rw [List.mem_singleton] at hx; rw [hx]; exact hc
        rw [show readChar ⟨c :: w, true⟩ = readChar ⟨w, true⟩ from readChar_spaces hs w]
        rw [List.dropWhile_cons_of_pos hc] at h
        exact ih h
      · rw [List.dropWhile_cons_of_neg hc] at h
        rw [readChar_cons (by simpa using hc)]
        simpa using h
  unfold recDict
  simp only
  rw [if_neg hx]

theorem list_no_brace {l : List J} {t : Str} (h : JText (.list l) t) : (t.dropWhile isSpace).head? ≠ some (ch '{') := by
  cases h with
  | list0 _ => rw [List.dropWhile_cons_of_neg (by decide)]; simp only [List.head?_cons]; decide
  | list _ => rw [List.dropWhile_cons_of_neg (by decide)]; simp only [List.head?_cons]; decide

theorem recDict_kept' {d : List (Str × J)} {t : Str} (h : JText (.dict d) t) : ∃ vs, recDict t = (setAll [] vs, true) ∧ List.Forall₂ KeptEntry d vs := by
  obtain ⟨vs, h1, h2⟩ := recDict_ok (ws := []) (r := []) (by intro x hx; cases hx) h
  rw [List.nil_append, List.append_nil] at h1
  exact ⟨vs, h1, h2⟩

/-- metadata entries are what is in the value -/
theorem addEntries_ok (n : Nat) : ∀ (key : Str) (j : J) (s : Str) (info : Args), j.depth < n → Kept j s → j.Solid →
    ∃ es, Flat key j es ∧ addEntries n key s info = setAll info es := by
  induction n with
  | zero => intro _ _ _ _ h; omega
  | succ n ih =>
    intro key j s info hd hk hs
    rw [addEntries]
    cases j with
    | word w =>
      rw [show s = w from hk, recDict_no_brace (by simpa [J.Solid] using hs)]
      exact ⟨_, .word, rfl⟩
    | list l =>
      rw [recDict_no_brace (list_no_brace (show JText _ _ from hk))]
      exact ⟨_, .list hk, rfl⟩
    | dict l =>
      obtain ⟨vs, h1, h2⟩ := recDict_kept' (show JText _ _ from hk)
      rw [h1]
      simp only [if_true]
      have h3 := setAll_kept h2
      have hm := mapOf_setAll l
      have hall : ∀ e ∈ setAll [] l, e.2.depth < n ∧ e.2.Solid := by
        intro e he
        have hel := mapOf_mem hm he
        rw [J.depth] at hd
        rw [J.Solid] at hs
        exact ⟨by have := depth_mem hel; omega, solid_mem hs hel⟩
      suffices ∃ es, FlatL key (setAll [] l) es ∧
          (setAll [] vs).foldl (fun info (p : Str × Str) => addEntries n (key ++ ch '.' :: p.1) p.2 info) info = setAll info es by
        obtain ⟨es, h4, h5⟩ := this
        exact ⟨es, .dict hm h4, h5⟩
      generalize setAll [] l = m at h3 hall
      generalize setAll [] vs = ms at h3
      clear hm h1 h2 hk hs hd
      induction h3 generalizing info with
      | nil => exact ⟨[], .nil, rfl⟩
      | @cons e p m ms he _ ih' =>
        obtain ⟨a1, a2⟩ := hall e (by simp)
        obtain ⟨es, b1, b2⟩ := ih (key ++ ch '.' :: p.1) e.2 p.2 info a1 he.2 a2
        obtain ⟨rest, c1, c2⟩ := ih' (setAll info es) (fun x hx => hall x (by simp [hx]))
        refine ⟨es ++ rest, ?_, ?_⟩
        · have : e = (p.1, e.2) := Prod.ext he.1 rfl
          rw [this]
          exact .cons b1 c1
        · rw [List.foldl_cons, b2, c2, setAll_append]

/-- a key is found in a file -/
theorem findKey_ok (p : List Str) (hp : p ≠ []) : ∀ (d : List (Str × J)) (vs : List (Str × Str)), List.Forall₂ KeptEntry d vs → J.SolidD d →
    match (J.dict d).at p, findKey p (setAll [] vs) with
    | none, none => True
    | some j, some v => Kept j v ∧ j.Solid ∧ j.depth ≤ J.depthD d
    | _, _ => False := by
  induction p with
  | nil => exact absurd rfl hp
  | cons k p ih =>
    intro d vs h hs
    rw [J.at]
    rcases kept_get h k with ⟨h1, h2⟩ | ⟨j, v, h1, h2, h3⟩
    · cases p with
      | nil => rw [findKey, h1, h2]; trivial
      | cons k' p => rw [findKey, h1, h2] <;> simp
    · have hj := lastVal_mem h1
      have hsj := solid_mem hs hj
      have hdj := depth_mem hj
      simp only at hsj hdj
      cases p with
      | nil => rw [findKey, h1, h2]; exact ⟨h3, hsj, hdj⟩
      | cons k' p =>
        rw [show findKey (k :: k' :: p) (setAll [] vs) = ((setAll [] vs).lookup k).bind fun v => findKey (k' :: p) (recDict v).1 from rfl, h1, h2]
        simp only [Option.bind_some]
        cases j with
        | word w =>
          rw [show v = w from h3, recDict_no_brace (by simpa [J.Solid] using hsj), J.at]
          · cases p <;> simp [findKey]
          · intro l h; cases h
        | list l =>
          rw [recDict_no_brace (list_no_brace (show JText _ _ from h3)), J.at]
          · cases p <;> simp [findKey]
          · intro l h; cases h
        | dict l =>
          obtain ⟨us, g1, g2⟩ := recDict_kept' (show JText _ _ from h3)
          rw [g1]
          rw [J.Solid] at hsj
          have := ih (by simp) l us g2 hsj
          rw [J.depth] at hdj
          revert this
          cases (J.dict l).at (k' :: p) <;> cases findKey (k' :: p) (setAll [] us)
          · exact id
          · exact id
          · exact id
          · rintro ⟨a, b, c⟩
            exact ⟨a, b, by omega⟩

theorem wordsT_ne {c : Byte} {l : List Str} {t : Str} (h : WordsT c l t) : l ≠ [] := by cases h <;> simp

theorem selected_ok {d : List (Str × J)} {vs : List (Str × Str)} (h : List.Forall₂ KeptEntry d vs) (hs : J.SolidD d) (n : Nat) (hn : J.depthD d < n)
    {ks : List Str} {es' : Args} (hsel : Selected d ks es') (info : Args) :
    ∃ es, Selected d ks es ∧ ks.foldl (fun info k =>
      match findKey (Config.stringListL [ch '.'] (k.length + 1) ⟨k, true⟩) (setAll [] vs) with
      | some v => addEntries n k v info
      | none => info) info = setAll info es := by
  induction hsel generalizing info with
  | nil => exact ⟨[], .nil, rfl⟩
  | @found k p j es' ks rest hw ha hf _ ih =>
    have hp := stringListL_ok (.inr rfl) hw (k.length + 1) (wordsT_length hw) (at_self k)
    have hk := findKey_ok p (wordsT_ne hw) d vs h hs
    rw [ha] at hk
    cases hv : findKey p (setAll [] vs) with
    | none => rw [hv] at hk; exact hk.elim
    | some v =>
      rw [hv] at hk
      obtain ⟨k1, k2, k3⟩ := hk
      obtain ⟨es, e1, e2⟩ := addEntries_ok n k j v info (by omega) k1 k2
      obtain ⟨es2, f1, f2⟩ := ih (setAll info es)
      refine ⟨es ++ es2, .found hw ha e1 f1, ?_⟩
      rw [List.foldl_cons, hp, hv]
      simp only [e2]
      rw [f2, setAll_append]
  | @missing k p ks rest hw ha _ ih =>
    have hp := stringListL_ok (.inr rfl) hw (k.length + 1) (wordsT_length hw) (at_self k)
    have hk := findKey_ok p (wordsT_ne hw) d vs h hs
    rw [ha] at hk
    cases hv : findKey p (setAll [] vs) with
    | some v => rw [hv] at hk; exact hk.elim
    | none =>
      obtain ⟨es, f1, f2⟩ := ih info
      refine ⟨es, .missing hw ha f1, ?_⟩
      rw [List.foldl_cons, hp, hv]
      exact f2

theorem kept_keys {m : List (Str × J)} {vs : List (Str × Str)} (h : List.Forall₂ KeptEntry m vs) : m.map Prod.fst = vs.map Prod.fst := by
  induction h with
  | nil => rfl
  | cons he _ ih => rw [List.map_cons, List.map_cons, he.1, ih]

theorem fileMetadata_ok {files : Str → Option Str} {f ws t rest keys : Str} (hf : files f = some (ws ++ t ++ rest)) (hw : Spaces ws) {d : List (Str × J)}
    (ht : JText (.dict d) t) (hs : (J.dict d).Solid) {es' : Args} (he : FileEntries d keys es') (info : Args) :
    ∃ es, FileEntries d keys es ∧ fileMetadata files f keys info = setAll info es := by
  obtain ⟨vs, h1, h2⟩ := recDict_ok (r := rest) hw ht
  have hdep : J.depthD d < (ws ++ t ++ rest).length + 1 := by
    have := jtext_depth ht
    rw [J.depth] at this
    simp only [List.length_append]
    omega
  rw [J.Solid] at hs
  unfold fileMetadata
  rw [hf]
  simp only [h1, if_true]
  rcases he with ⟨rfl, m, hm, hsel⟩ | ⟨ks, hks, hsel⟩
  · obtain ⟨es, g1, g2⟩ := selected_ok h2 hs _ hdep hsel info
    refine ⟨es, .inl ⟨rfl, m, hm, g1⟩, ?_⟩
    rw [if_pos (by decide +kernel), ← kept_keys (setAll_kept h2), ← mapOf_unique hm]
    exact g2
  · obtain ⟨es, g1, g2⟩ := selected_ok h2 hs _ hdep hsel info
    refine ⟨es, .inr ⟨ks, hks, g1⟩, ?_⟩
    have hl : Config.stringList keys = ks := stringListL_ok (.inl rfl) hks _ (wordsT_length hks) (at_self keys)
    rw [hl, if_neg (wordsT_ne hks)]
    exact g2

theorem metaOf_ok {files : Str → Option Str} {a : Str × Str} {es' : Args} (h : MetaOf files a es') (info : Args) :
    ∃ es, MetaOf files a es ∧ (if a.1 = str "metadata" then addMetadata (fileMetadata files) a.2 info else mset info (str "opts:" ++ a.1) a.2) = setAll info es := by
  cases h with
  | option hk => exact ⟨_, .option hk, by rw [if_neg hk]; rfl⟩
  | pairs hp hl =>
    refine ⟨_, .pairs hp hl, ?_⟩
    rw [if_pos rfl]
    unfold addMetadata
    simp only [keyvals_ok hp, hl]
  | noFile hp hl hf =>
    refine ⟨_, .noFile hp hl hf, ?_⟩
    rw [if_pos rfl]
    unfold addMetadata
    simp only [keyvals_ok hp, hl]
    unfold fileMetadata
    rw [hf]; rfl
  | noDict hp hl hf hb =>
    refine ⟨_, .noDict hp hl hf hb, ?_⟩
    rw [if_pos rfl]
    unfold addMetadata
    simp only [keyvals_ok hp, hl]
    unfold fileMetadata
    rw [hf]
    simp only [recDict_no_brace hb]
    rfl
  | file hp hl hf hw ht hs he =>
    obtain ⟨es, h1, h2⟩ := fileMetadata_ok hf hw ht hs he info
    refine ⟨es, .file hp hl hf hw ht hs h1, ?_⟩
    rw [if_pos rfl]
    unfold addMetadata
    simp only [keyvals_ok hp, hl]
    exact h2

end Verif.ConfMgr
