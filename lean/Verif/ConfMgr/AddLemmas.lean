import Verif.ConfMgr.StringLemmas
/-!
# Adding configs
-/
namespace Verif.ConfMgr
open Verif Verif.Cali Verif.Parse
open Verif.Query.CalQL (Spaces)

/-! ## merging defaults -/

theorem mergeNew_append (a x y : Args) : mergeNew (mergeNew a x) y = mergeNew a (x ++ y) := by
  unfold mergeNew; rw [List.foldl_append]

theorem mergeNew_nil (a : Args) : mergeNew a [] = a := rfl

theorem addDefaults_eq (M : Mgr) (args : Args) (c : CSpec) : M.addDefaults args c = mergeNew args (M.defaultsFor c).flatten := by
  unfold Mgr.addDefaults Mgr.defaultsFor
  cases h : M.dfltFor.lookup c.name with
  | none => simp only [Option.getD_none, mergeNew_append, List.flatten_cons, List.flatten_nil, List.append_nil, List.nil_append]
  | some l => simp only [Option.getD_some, mergeNew_append, List.flatten_cons, List.flatten_nil, List.append_nil, List.append_assoc]

theorem lookup_isNone_iff {α : Type} (m : List (Str × α)) (k : Str) : (m.lookup k).isNone = true ↔ k ∉ m.map Prod.fst := by
  induction m with
  | nil => simp
  | cons e m ih =>
    rw [List.lookup_cons]
    by_cases hk : k = e.1
    · subst hk; simp
    · rw [show (k == e.1) = false by simpa using hk]
      simp only [ih, List.map_cons, List.mem_cons, hk, false_or]

theorem merged_mergeNew (own D : Args) : ∃ ext, mergeNew own D = own ++ ext ∧ ext.Sublist D ∧
    (∀ k, k ≠ str "metadata" → (mergeNew own D).lookup k = (own ++ D).lookup k) ∧
    (∀ k, k ≠ str "metadata" → (ext.filter fun e => decide (e.1 = k)).length = if k ∈ own.map Prod.fst ∨ k ∉ D.map Prod.fst then 0 else 1) ∧
    ext.filter (fun e => decide (e.1 = str "metadata")) = D.filter fun e => decide (e.1 = str "metadata") := by
  induction D generalizing own with
  | nil => exact ⟨[], by simp [mergeNew]⟩
  | cons p D ih =>
    have hm : mergeNew own (p :: D) = mergeNew (if (own.lookup p.1).isNone || p.1 = str "metadata" then own ++ [p] else own) D := rfl
    rw [hm]
    by_cases hc : ((own.lookup p.1).isNone || decide (p.1 = str "metadata")) = true
    · rw [if_pos hc]
      obtain ⟨ext, h1, h2, h3, h4, h5⟩ := ih (own ++ [p])
      refine ⟨p :: ext, by rw [h1]; simp, h2.cons_cons p, fun k hk => by rw [h3 k hk]; simp, fun k hk => ?_, by
        by_cases hp : p.1 = str "metadata"
        · simp [hp, h5]
        · simp [hp, h5]⟩
      by_cases hp : p.1 = k
      · have hn : k ∉ own.map Prod.fst := by
          rw [← lookup_isNone_iff, ← hp]
          rw [hp] at hc
          simp only [hk, decide_false, Bool.or_false] at hc
          rw [hp]; exact hc
        have h0 := h4 k hk
        rw [if_pos (.inl (by simp [hp]))] at h0
        rw [List.filter_cons_of_pos (by simpa using hp), List.length_cons, h0, if_neg]
        rintro (h | h)
        · exact hn h
        · exact h (by simp [hp])
      · rw [List.filter_cons_of_neg (by simpa using hp), h4 k hk]
        have hp' : ¬k = p.1 := fun h => hp h.symm
        have e1 : (k ∈ (own ++ [p]).map Prod.fst ∨ k ∉ D.map Prod.fst) ↔ (k ∈ own.map Prod.fst ∨ k ∉ (p :: D).map Prod.fst) := by
          rw [List.map_append, List.mem_append, List.map_cons, List.map_cons, List.mem_cons, List.mem_cons]
          simp only [hp', List.map_nil, List.not_mem_nil, or_false, false_or]
        by_cases h : k ∈ own.map Prod.fst ∨ k ∉ (p :: D).map Prod.fst
        · rw [if_pos h, if_pos (e1.2 h)]
        · rw [if_neg h, if_neg (fun h' => h (e1.1 h'))]
    · rw [if_neg hc]
      obtain ⟨ext, h1, h2, h3, h4, h5⟩ := ih own
      simp only [Bool.or_eq_true, decide_eq_true_eq, not_or] at hc
      obtain ⟨hc1, hc2⟩ := hc
      rw [lookup_isNone_iff, not_not] at hc1
      refine ⟨ext, h1, h2.cons p, fun k hk => ?_, fun k hk => ?_, by simp [hc2, h5]⟩
      · rw [h3 k hk]
        by_cases hk' : k = p.1
        · have hs : (own.lookup k).isSome = true := by
            cases hl : own.lookup k with
            | some => rfl
            | none => exact absurd ((lookup_isNone_iff own k).1 (by rw [hl]; rfl)) (by rw [hk']; simpa using hc1)
          rw [List.lookup_append, List.lookup_append]
          cases hl : own.lookup k with
          | some => rfl
          | none => rw [hl] at hs; cases hs
        · rw [List.lookup_append, List.lookup_append, List.lookup_cons, show (k == p.1) = false by simpa using hk']
      · rw [h4 k hk]
        by_cases hk' : k = p.1
        · rw [if_pos (.inl (by rw [hk']; exact hc1)), if_pos (.inl (by rw [hk']; exact hc1))]
        · have e1 : (k ∈ own.map Prod.fst ∨ k ∉ D.map Prod.fst) ↔ (k ∈ own.map Prod.fst ∨ k ∉ (p :: D).map Prod.fst) := by
            rw [List.map_cons, List.mem_cons]
            simp only [hk', false_or]
          by_cases h : k ∈ own.map Prod.fst ∨ k ∉ (p :: D).map Prod.fst
          · rw [if_pos h, if_pos (e1.2 h)]
          · rw [if_neg h, if_neg (fun h' => h (e1.1 h'))]

theorem addDefaults_merged (M : Mgr) (args : Args) (c : CSpec) : Merged args (M.defaultsFor c) (M.addDefaults args c) := by
  obtain ⟨ext, h1, h2, h3, h4, h5⟩ := merged_mergeNew args (M.defaultsFor c).flatten
  rw [addDefaults_eq]
  exact ⟨ext, h1, h2, h3, h4, h5⟩

theorem add_optionsOf (M : Mgr) (c : CSpec) : OptionsOf M c (c.opts.add M.global c.categories).data := by
  intro k
  unfold Specs.add
  simp only
  generalize c.opts.data = m
  generalize M.global.data = l
  induction l generalizing m with
  | nil => simp
  | cons e l ih =>
    rw [List.foldl_cons, ih]
    by_cases hc : e.2.category ∈ c.categories
    · rw [if_pos hc, mins_lookup, List.filter_cons_of_pos (by simpa using hc), List.lookup_cons]
      by_cases hk : k = e.1
      · subst hk; cases m.lookup e.1 <;> simp
      · rw [show (k == e.1) = false by simpa using hk]; simp [hk]
    · rw [if_neg hc, List.filter_cons_of_neg (by simpa using hc)]

/-! ## what stays -/

/-- channels stay and an error stays -/
def Keeps (M M' : Mgr) : Prop := M'.channels = M.channels ∧ (M.err = true → M'.err = true)

theorem Keeps.refl (M : Mgr) : Keeps M M := ⟨rfl, id⟩
theorem Keeps.trans {A B C : Mgr} (h : Keeps A B) (h' : Keeps B C) : Keeps A C := ⟨h'.1.trans h.1, fun e => h'.2 (h.2 e)⟩
theorem Keeps.error (M : Mgr) : Keeps M { M with err := true } := ⟨rfl, fun _ => rfl⟩

theorem keeps_foldl {α : Type} (f : Mgr → α → Mgr) (h : ∀ M a, Keeps M (f M a)) (l : List α) (M : Mgr) : Keeps M (l.foldl f M) := by
  induction l generalizing M with
  | nil => exact Keeps.refl M
  | cons a l ih => exact (h M a).trans (ih _)

theorem keeps_addConfigSpec (E : Env) (M : Mgr) (j : Str) (f : Opts → Bool) (b : Bool) : Keeps M (addConfigSpec E M j f b) := by
  unfold addConfigSpec
  simp only
  split
  · exact Keeps.error M
  · split
    · exact Keeps.error M
    · split
      · split
        · exact Keeps.refl M
        · exact Keeps.error M
      · split
        · exact Keeps.refl M
        · split
          · exact Keeps.refl M
          · split
            · exact ⟨rfl, id⟩
            · exact Keeps.error M

theorem keeps_importBuiltin (E : Env) (M : Mgr) : Keeps M (importBuiltin E M) :=
  keeps_foldl (fun (M : Mgr) (s : Str × (Opts → Bool)) => addConfigSpec E M s.1 s.2 true) (fun M _ => keeps_addConfigSpec E M _ _ _) _ M

theorem keeps_addGlobal (M : Mgr) (j : Str) : Keeps M (addGlobal M j) := by
  unfold addGlobal
  exact ⟨rfl, fun h => by simp [h]⟩

theorem keeps_parseJson (E : Env) (M : Mgr) (j : Str) : Keeps M (parseJson E M j) := by
  have hall : ∀ (l : List Str) (M : Mgr), Keeps M (l.foldl (fun M s => if M.err then M else addConfigSpec E M s (fun _ => false) false) M) := by
    intro l M
    refine keeps_foldl _ (fun M a => ?_) l M
    split
    · exact Keeps.refl M
    · exact keeps_addConfigSpec _ _ _ _ _
  have hopt : ∀ (o : Option Str), Keeps M (match o with | some v => addGlobal M v | none => M) := by
    intro o
    cases o with
    | none => exact Keeps.refl M
    | some v => exact keeps_addGlobal M v
  unfold parseJson
  simp only
  split
  · split
    · exact keeps_addConfigSpec _ _ _ _ _
    · have hrest : ∀ M1 : Mgr, Keeps M1 (match (recDict j).1.lookup (str "configs") with
          | none => M1
          | some v => if (!(recList v).2) = true then { M1 with err := true }
              else (recList v).1.foldl (fun M s => if M.err then M else addConfigSpec E M s (fun _ => false) false) M1) := by
        intro M1
        split
        · exact Keeps.refl _
        · split
          · exact Keeps.error _
          · exact hall _ _
      exact (hopt ((recDict j).1.lookup (str "options"))).trans (hrest _)
  · split
    · exact hall _ _
    · exact Keeps.error M

theorem keeps_loadFile (E : Env) (M : Mgr) (f : Str) : Keeps M (loadFile E M f) := by
  unfold loadFile
  split
  · exact keeps_parseJson _ _ _
  · exact Keeps.error M

theorem keeps_loadL (E : Env) (n : Nat) (M : Mgr) (s : IS) : Keeps M (loadL E n M s).1 := by
  induction n generalizing M s with
  | zero => exact Keeps.refl M
  | succ n ih =>
    rw [loadL]
    simp only
    have h : Keeps M (if (readWord (str ",()") s).1 = [] then { M with err := true } else loadFile E M (readWord (str ",()") s).1) := by
      split
      · exact Keeps.error M
      · exact keeps_loadFile _ _ _
    refine h.trans ?_
    generalize (if (readWord (str ",()") s).1 = [] then { M with err := true } else loadFile E M (readWord (str ",()") s).1) = M1
    split
    · exact Keeps.refl _
    · split
      · exact ih _ _
      · exact Keeps.refl _

theorem keeps_handleLoad (E : Env) (M : Mgr) (s : IS) : Keeps M (handleLoad E M s).1 := by
  unfold handleLoad
  simp only
  split
  · exact Keeps.error M
  · have h := keeps_loadL E ((readChar s).2.rest.length + 1) M (readChar s).2
    split
    · exact h
    · split
      · exact h
      · exact h.trans (Keeps.error _)

theorem keeps_parseItem (E : Env) (M : Mgr) (s : IS) : Keeps M (parseItem E M s).1 := by
  unfold parseItem
  simp only
  split
  · exact keeps_handleLoad _ _ _
  · split
    · split
      · exact Keeps.error M
      · exact Keeps.refl M
    · split
      · exact Keeps.error M
      · split
        · exact Keeps.refl M
        · split
          · exact ⟨rfl, id⟩
          · split
            · exact ⟨rfl, id⟩
            · exact ⟨rfl, id⟩

theorem keeps_configL (E : Env) (n : Nat) (M : Mgr) (s : IS) : Keeps M (configL E n M s).1 := by
  induction n generalizing M s with
  | zero => exact Keeps.refl M
  | succ n ih =>
    rw [configL]
    simp only
    have h := keeps_parseItem E M s
    split
    · exact h
    · rename_i he
      split
      · exact h.trans (ih _ _)
      · exact h.trans ⟨rfl, fun e => absurd e he⟩

theorem keeps_parse (E : Env) (M : Mgr) (t : Str) : Keeps M (parseConfigString E M t).1 := by
  unfold parseConfigString
  simp only
  split
  · exact (keeps_importBuiltin E M).trans (keeps_configL _ _ _ _)
  · exact keeps_importBuiltin E M

/-! ## channels -/

theorem makeChans_ok (E : Env) (n : Nat) (M : Mgr) (hM : M.err = false) (F : Found) (R : Mgr) (cs : List Chan) (h : makeChans E n M F = some (R, cs)) :
    (R = M ∧ List.Forall₂ (IsChan E M) F cs) ∨ (R = { M with err := true } ∧ cs = [] ∧ ∃ f ∈ F, ∃ o, IsOpts M f o ∧ Refused E f o) := by
  induction F generalizing R cs with
  | nil =>
    simp only [makeChans, Option.some.injEq, Prod.mk.injEq] at h
    obtain ⟨rfl, rfl⟩ := h
    exact .inl ⟨rfl, .nil⟩
  | cons f l ih =>
    obtain ⟨c, a⟩ := f
    rw [makeChans] at h
    cases ho : Opts.make n (c.opts.add M.global c.categories).data (M.addDefaults a c) with
    | none => rw [ho] at h; cases h
    | some o =>
      rw [ho] at h
      simp only at h
      have hdata : o.data = (c.opts.add M.global c.categories).data ∧ o.args = M.addDefaults a c := by
        unfold Opts.make at ho
        cases he : enabledVec (c.opts.add M.global c.categories).data n (M.addDefaults a c) with
        | none => rw [he] at ho; cases ho
        | some v =>
          rw [he] at ho
          simp only [Option.map_some, Option.some.injEq] at ho
          rw [← ho]; exact ⟨rfl, rfl⟩
      have hopts : IsOpts M (c, a) o :=
        ⟨by rw [hdata.1]; exact add_optionsOf M c, by rw [hdata.2]; exact addDefaults_merged M a c, n, by rw [hdata.1, hdata.2]; exact ho⟩
      rw [hM, Bool.false_or] at h
      by_cases hb : (o.check E.avail || c.check o) = true
      · rw [if_pos hb] at h
        simp only [Option.some.injEq, Prod.mk.injEq] at h
        refine .inr ⟨h.1.symm, h.2.symm, (c, a), by simp, o, hopts, by simpa [Refused] using hb⟩
      · rw [if_neg hb] at h
        cases hq : makeChans E n M l with
        | none => rw [hq] at h; cases h
        | some q =>
          rw [hq] at h
          simp only [Option.map_some, Option.some.injEq, Prod.mk.injEq] at h
          rcases ih q.1 q.2 (by rw [hq]) with ⟨h1, h2⟩ | ⟨h1, h2, g, hg, og, hog⟩
          · rw [h1, hM] at h
            simp only [Bool.false_eq_true, if_false] at h
            refine .inl ⟨h.1.symm, ?_⟩
            rw [← h.2]
            exact .cons ⟨rfl, rfl, hopts, by simpa [Refused] using hb⟩ h2
          · rw [h1] at h
            simp only [if_true] at h
            exact .inr ⟨h.1.symm, h.2.symm, g, by simp [hg], og, hog⟩

theorem keeps_makeChans (E : Env) (n : Nat) (M R : Mgr) (F : Found) (cs : List Chan) (hM : M.err = false) (h : makeChans E n M F = some (R, cs)) :
    Keeps M R ∧ (R.err = true → cs = []) := by
  rcases makeChans_ok E n M hM F R cs h with ⟨rfl, _⟩ | ⟨rfl, h2, _⟩
  · exact ⟨Keeps.refl _, fun e => by rw [hM] at e; cases e⟩
  · exact ⟨Keeps.error M, fun _ => h2⟩

/-! ## a part of the items -/

theorem configL_pre {E : Env} {pre post : List Item} {t : Str} (h : StringT (pre ++ post) t) (hpost : post ≠ []) (n : Nat)
    (hn : (pre ++ post).length ≤ n) {M M1 : Mgr} {F : Found} (hM : M.err = false) (hrun : Runs E pre M M1 F) {s : IS} (hs : At t s) :
    ∃ t' n' s', StringT post t' ∧ At t' s' ∧ post.length ≤ n' ∧ M1.err = false ∧ (configL E n M s).1 = (configL E n' M1 s').1 := by
  induction pre generalizing n t s M F with
  | nil =>
    cases hrun
    exact ⟨t, n, s, h, hs, hn, hM, rfl⟩
  | cons i pre ih =>
    cases n with
    | zero => simp at hn
    | succ n =>
      rw [List.cons_append] at h
      generalize hl : pre ++ post = l at h
      cases h with
      | one => simp at hl; exact absurd hl.2 hpost
      | @cons _ t _ r hi hl' =>
        subst hl
        obtain ⟨M2, F1, F2, s', h1, h2, h3, h4, _⟩ := parseItem_ok (r := ch ',' :: r) hM hi (.inr ⟨r, rfl⟩) hrun hs
        obtain ⟨t', n', s'', g1, g2, g3, g4, g5⟩ := ih hl' n (by simpa using hn) h2 h4 (at_self r)
        refine ⟨t', n', s'', g1, g2, g3, g4, ?_⟩
        rw [configL]
        simp only [h1, h2, Bool.false_eq_true, if_false]
        rw [at_char (ws := []) h3 (by intro x hx; cases hx) (by decide)]
        simp only
        rw [if_pos (by decide)]
        exact g5

theorem configL_text {E : Env} {pre : List Item} {t rest : Str} (h : StringT pre t) (n : Nat)
    (hn : pre.length < n) {M M1 : Mgr} {F : Found} (hM : M.err = false) (hrun : Runs E pre M M1 F) {s : IS} (hs : At (t ++ ch ',' :: rest) s) :
    ∃ n' s', At rest s' ∧ 0 < n' ∧ M1.err = false ∧ (configL E n M s).1 = (configL E n' M1 s').1 := by
  induction n generalizing pre t s M F with
  | zero => simp at hn
  | succ n ih =>
    have key : ∀ {i l t r}, pre = i :: l → ItemT i t → At (t ++ ch ',' :: r) s → ∃ M2 F2, M2.err = false ∧ Runs E l M2 M1 F2 ∧
        (configL E (n + 1) M s).1 = (configL E n M2 ⟨r, true⟩).1 := by
      intro i l t r he hi hs
      subst he
      obtain ⟨M2, F1, F2, s', h1, h2, h3, h4, _⟩ := parseItem_ok (r := ch ',' :: r) hM hi (.inr ⟨r, rfl⟩) hrun hs
      refine ⟨M2, F2, h2, h4, ?_⟩
      rw [configL]
      simp only [h1, h2, Bool.false_eq_true, if_false]
      rw [at_char (ws := []) h3 (by intro x hx; cases hx) (by decide)]
      simp only
      rw [if_pos (by decide)]
    cases h with
    | @one i t hi =>
      obtain ⟨M2, F2, h2, h4, h5⟩ := key rfl hi hs
      cases h4
      exact ⟨n, _, at_self rest, by simpa using hn, h2, h5⟩
    | @cons i t l r hi hl =>
      rw [List.append_assoc, List.cons_append] at hs
      obtain ⟨M2, F2, h2, h4, h5⟩ := key rfl hi hs
      obtain ⟨n', s', g1, g2, g3, g4⟩ := ih hl (by simpa using hn) h2 h4 (at_self _)
      exact ⟨n', s', g1, g2, g3, h5.trans g4⟩

theorem argL_open (has : Str → Bool) {l : Args} {b : Str} (h : ArgsT l b) (hk : ∀ e ∈ l, has e.1 = true ∨ e.1 = str "metadata") (n : Nat)
    (hn : l.length ≤ n) {s : IS} (hs : At b s) : ∃ q, argL has n s = some q ∧ q.2.1 ≠ ch ')' := by
  induction n generalizing l b s with
  | zero => cases h <;> simp at hn
  | succ n ih =>
    have key : ∀ {e : Str × Str} {t q : Str}, e ∈ l → ArgT e t → End q → At (t ++ q) s → ∃ s',
        At q s' ∧ argL has (n + 1) s = (let x := readChar s'
          if x.2.good && x.1 = ch ',' then (argL has n x.2).map fun q => ([e] ++ q.1, q.2) else some ([e], x.1, x.2)) := by
      intro e t q he ht hq hs
      obtain ⟨a, tk, v, tv, d, ha, hd, hkt, hv, hev, rfl⟩ := ht
      rw [show a ++ tk ++ (tv ++ d) ++ q = a ++ tk ++ (tv ++ (d ++ q)) by simp] at hs
      obtain ⟨s1, h1, h2⟩ := at_word hs ha hkt (hv.stop (Stop'.spaces hd hq.stop))
      obtain ⟨s2, h3, h4⟩ := readValue_ok hv hd hq h2
      refine ⟨s2, h4, ?_⟩
      rw [argL]
      simp only [h1, hkt.1, if_false]
      have hkn : (!has e.1 && decide (e.1 ≠ str "metadata")) = false := by
        rcases hk e he with h | h <;> simp [h]
      rw [hkn]
      simp only [Bool.false_eq_true, if_false, h3, Option.map_some]
      rw [show (if v = [] then str "true" else v) = e.2 from hev.symm]
    cases h with
    | @one e t ht =>
      obtain ⟨s', h1, h2⟩ := key (q := []) (by simp) ht (.inl rfl) (by simpa using hs)
      rw [h2, at_char_end h1]
      simp only
      rw [if_neg (by decide)]
      exact ⟨_, rfl, show eofc ≠ ch ')' by decide⟩
    | @cons e t l r' ht hl =>
      obtain ⟨s', h1, h2⟩ := key (by simp) ht (.inr ⟨ch ',', r', rfl, .inl rfl⟩) hs
      rw [h2, at_char (ws := []) h1 (by intro x hx; cases hx) (by decide)]
      simp only
      obtain ⟨q, g1, g2⟩ := ih hl (fun x hx => hk x (by simp [hx])) (by simpa using hn) (at_self _)
      rw [if_pos (by decide), g1]
      exact ⟨_, rfl, g2⟩

theorem readValue_open {w v : Str} {s : IS} (hw : Spaces w) (hv : Nest (ch '(') (ch ')') v) (h : At (w ++ ch '(' :: v) s) : readValue s = none := by
  unfold readValue
  rw [at_char h hw (by decide)]
  simp only
  rw [if_neg (by decide), if_pos trivial]
  have : readNested (ch '(') (ch ')') ⟨v, true⟩ = (v, ⟨[], false⟩) := by
    have := readNestedL_nest (o := ch '(') (c := ch ')') (by decide) (by decide) (by decide) hv [] (d := 1) (by decide)
    unfold readNested
    simp only [if_true]
    rw [List.append_nil] at this
    rw [this, readNestedL.eq_def]
    simp
  rw [this]
  exact if_neg (show ¬(readChar ⟨[], false⟩).1 = ch ')' by decide)

theorem configL_malformed {E : Env} {M : Mgr} (hM : M.err = false) {t : Str} (h : Malformed M t) (n : Nat) (hn : 0 < n) {s : IS} (hs : At t s) :
    (configL E n M s).1.err = true := by
  obtain ⟨n, rfl⟩ : ∃ m, n = m + 1 := ⟨n - 1, by omega⟩
  have bad : (parseItem E M s).1.err = true → (configL E (n + 1) M s).1.err = true := by
    intro h; rw [configL]; simp only [h, if_true]
  have after : ∀ {M1 s' F x r}, parseItem E M s = (M1, s', F) → M1.err = false → At (x :: r) s' → isSpace x = false → x ≠ ch ',' →
      (configL E (n + 1) M s).1.err = true := by
    intro M1 s' F x r h1 h2 h3 h4 h5
    rw [configL]
    simp only [h1, h2, Bool.false_eq_true, if_false]
    rw [at_char (ws := []) h3 (by intro x hx; cases hx) h4]
    simp only
    rw [if_neg (by simp [h5])]
  cases h with
  | @junk name c a tk w x r hname hc ha hkt hw hsep hx h1 h2 =>
    have hst : Stop' sepC (w ++ x :: r) := by
      rcases hsep with hsep | hsep
      · cases w with
        | nil => exact absurd rfl hsep
        | cons y w =>
          have hy := hw y (by simp)
          refine .inr ⟨y, w ++ x :: r, by simp, ?_, ?_, by simp [hy]⟩ <;> rintro rfl <;> revert hy <;> decide
      · refine Stop'.spaces hw (.inr ⟨x, r, rfl, ?_, ?_, by simp [hsep]⟩) <;> rintro rfl <;> revert hsep <;> decide
    obtain ⟨s1, g1, g2⟩ := at_word hs ha hkt hst
    have hxc := at_char g2 hw hx
    have hu := (At.drop hw g2).unget
    have g3 : parseArglist (c.opts.add M.global c.categories).contains s1 = some ([], (⟨r, true⟩ : IS).unget x) := by
      unfold parseArglist
      rw [hxc]
      simp only
      rw [if_neg (by decide), if_pos h2]
    rw [hxc] at hu
    refine after (M1 := M) (s' := (⟨r, true⟩ : IS).unget x) (F := [(c, [])]) (x := x) (r := r) ?_ hM hu hx h1
    unfold parseItem
    simp only [g1, hname, if_false, hc, g3, hM, Bool.false_eq_true]
  | @junkArgs name c a tk w args b d x r hname hc ha hkt hw hb hk hd hx h1 =>
    obtain ⟨s1, g1, g2⟩ := at_word hs ha hkt (Stop'.spaces hw (.inr (stop_of (by decide) (by decide) (by decide) _)))
    have g3 : parseArglist (c.opts.add M.global c.categories).contains s1 = some (args, ⟨d ++ x :: r, true⟩) := by
      unfold parseArglist
      rw [at_char g2 hw (by decide)]
      simp only
      rw [if_neg (by decide), if_neg (by simp), argL_ok _ hb (fun e he => by
        rcases hk e he with h | h
        · exact .inr h
        · exact .inl ((add_contains _ _ _ _).2 h)) (d ++ x :: r) _ (by have := argsT_length hb; simp; omega) (at_self _)]
      simp only [if_true]
    refine after (M1 := M) (s' := ⟨d ++ x :: r, true⟩) (F := [(c, args)]) (x := x) (r := r) ?_ hM (At.drop hd (at_self _)) hx h1
    unfold parseItem
    simp only [g1, hname, if_false, hc, g3, hM, Bool.false_eq_true]
  | @unclosed name c a tk w args b hname hc ha hkt hw hb hk =>
    obtain ⟨s1, g1, g2⟩ := at_word hs ha hkt (Stop'.spaces hw (.inr (stop_of (by decide) (by decide) (by decide) _)))
    have g3 : parseArglist (c.opts.add M.global c.categories).contains s1 = none := by
      unfold parseArglist
      rw [at_char g2 hw (by decide)]
      simp only
      obtain ⟨q, q1, q2⟩ := argL_open (c.opts.add M.global c.categories).contains hb (fun e he => by
        rcases hk e he with h | h
        · exact .inr h
        · exact .inl ((add_contains _ _ _ _).2 h)) (b.length + 1) (argsT_length hb) (at_self b)
      rw [if_neg (by decide), if_neg (by simp), q1]
      simp only
      rw [if_neg q2]
    apply bad
    unfold parseItem
    simp only [g1, hname, if_false, hc, g3]
  | @noValue key a tk w d r hname hc ha hkt hw hd hr =>
    obtain ⟨s1, g1, g2⟩ := at_word hs ha hkt (Stop'.spaces hw (.inr (stop_of (by decide) (by decide) (by decide) _)))
    have g3 : readValue s1 = none := by
      unfold readValue
      rw [at_char g2 hw (by decide)]
      simp only [if_true]
      have : (readWord sepC ⟨d ++ r, true⟩).1 = [] := by
        rw [readWord_spaces hd]
        rcases hr with rfl | ⟨cs, rfl⟩
        · rfl
        · unfold readWord
          simp only [if_true]
          rw [List.dropWhile_cons_of_neg (by decide)]
          simp only
          rw [readWordL.eq_def]
          simp only [if_neg (show ¬ch ',' = ch '\\' by decide), if_neg (show ¬ch ',' = ch '"' by decide)]
          rw [if_pos (by decide)]
      rw [if_pos this]
    apply bad
    unfold parseItem
    simp only [g1, hname, if_false, hc, g3]
  | @openValue key a tk w v hname hc ha hkt hw hv =>
    obtain ⟨s1, g1, g2⟩ := at_word hs ha hkt (Stop'.spaces hw (.inr (stop_of (by decide) (by decide) (by decide) _)))
    have g3 : readValue s1 = none := readValue_open hw hv g2
    apply bad
    unfold parseItem
    simp only [g1, hname, if_false, hc, g3]
  | @openArg name c a tk w key b tb d v hname hc ha hkt hw hb hkb hd hv =>
    obtain ⟨s1, g1, g2⟩ := at_word hs ha hkt (Stop'.spaces hw (.inr (stop_of (by decide) (by decide) (by decide) _)))
    obtain ⟨s2, g4, g5⟩ := at_word (at_self (b ++ tb ++ (d ++ ch '(' :: v))) hb hkb (Stop'.spaces hd (.inr (stop_of (by decide) (by decide) (by decide) _)))
    have g3 : parseArglist (c.opts.add M.global c.categories).contains s1 = none := by
      unfold parseArglist
      rw [at_char g2 hw (by decide)]
      simp only
      rw [if_neg (by decide), if_neg (by simp)]
      have : ∀ n, argL (c.opts.add M.global c.categories).contains (n + 1) ⟨b ++ tb ++ (d ++ ch '(' :: v), true⟩ = none := by
        intro n
        rw [argL]
        simp only [g4, readValue_open hd hv g5, hkb.1, if_false, Option.map_none]
        split
        · rfl
        · rename_i it h; split at h <;> cases h
      rw [this]
    apply bad
    unfold parseItem
    simp only [g1, hname, if_false, hc, g3]

theorem argL_bad (has : Str → Bool) {l : Args} {b : Str} (h : ArgsT l b) (hk : ∃ e ∈ l, has e.1 = false ∧ e.1 ≠ str "metadata") (r : Str) (n : Nat)
    (hn : l.length ≤ n) {s : IS} (hs : At (b ++ ch ')' :: r) s) : argL has n s = none := by
  induction n generalizing l b s with
  | zero => cases h <;> simp at hn
  | succ n ih =>
    have key : ∀ {e : Str × Str} {t q : Str}, ArgT e t → End q → At (t ++ q) s →
        (has e.1 = false ∧ e.1 ≠ str "metadata" → argL has (n + 1) s = none) ∧
        (has e.1 = true ∨ e.1 = str "metadata" → ∃ s', At q s' ∧ argL has (n + 1) s = (let x := readChar s'
          if x.2.good && x.1 = ch ',' then (argL has n x.2).map fun q => ([e] ++ q.1, q.2) else some ([e], x.1, x.2))) := by
      intro e t q ht hq hs
      obtain ⟨a, tk, v, tv, d, ha, hd, hkt, hv, hev, rfl⟩ := ht
      rw [show a ++ tk ++ (tv ++ d) ++ q = a ++ tk ++ (tv ++ (d ++ q)) by simp] at hs
      obtain ⟨s1, h1, h2⟩ := at_word hs ha hkt (hv.stop (Stop'.spaces hd hq.stop))
      constructor
      · rintro ⟨hh, hm⟩
        rw [argL]
        simp only [h1, hkt.1, if_false]
        rw [if_pos (by simp [hh, hm])]
      · intro hkn
        obtain ⟨s2, h3, h4⟩ := readValue_ok hv hd hq h2
        refine ⟨s2, h4, ?_⟩
        rw [argL]
        simp only [h1, hkt.1, if_false]
        have hkn : (!has e.1 && decide (e.1 ≠ str "metadata")) = false := by
          rcases hkn with h | h <;> simp [h]
        rw [hkn]
        simp only [Bool.false_eq_true, if_false, h3, Option.map_some]
        rw [show (if v = [] then str "true" else v) = e.2 from hev.symm]
    cases h with
    | @one e t ht =>
      obtain ⟨e', he', hb⟩ := hk
      rw [List.mem_singleton] at he'
      subst he'
      exact (key ht (.inr ⟨ch ')', r, rfl, .inr rfl⟩) hs).1 hb
    | @cons e t l r' ht hl =>
      rw [List.append_assoc, List.cons_append] at hs
      obtain ⟨k1, k2⟩ := key ht (.inr ⟨ch ',', r' ++ ch ')' :: r, rfl, .inl rfl⟩) hs
      by_cases he : has e.1 = false ∧ e.1 ≠ str "metadata"
      · exact k1 he
      · have he' : has e.1 = true ∨ e.1 = str "metadata" := by
          by_cases hm : e.1 = str "metadata"
          · exact .inr hm
          · left
            cases hh : has e.1 with
            | true => rfl
            | false => exact absurd ⟨hh, hm⟩ he
        obtain ⟨s', h1, h2⟩ := k2 he'
        rw [h2, at_char (ws := []) h1 (by intro x hx; cases hx) (by decide)]
        simp only
        obtain ⟨e', he1, hb⟩ := hk
        have he2 : e' ∈ l := by
          rcases List.mem_cons.1 he1 with rfl | h
          · exact absurd hb he
          · exact h
        rw [if_pos (by decide), ih hl ⟨e', he2, hb⟩ (by simpa using hn) (at_self _)]
        rfl

/-- an unknown option is an error -/
theorem parseItem_unknown {E : Env} {name : Str} {args : Args} {c : CSpec} {t r : Str} {M : Mgr} (hi : ItemT (.config name args) t)
    (hr : r = [] ∨ ∃ cs, r = ch ',' :: cs) (hname : name ≠ str "load") (hc : M.specs.lookup name = some c) (hk : ∃ e ∈ args, ¬Known M c e.1)
    {s : IS} (hs : At (t ++ r) s) : (parseItem E M s).1.err = true := by
  obtain ⟨a, tk, ta, d, ha, hd, hkt, hta, rfl⟩ := hi
  rw [show a ++ tk ++ (ta ++ d) ++ r = a ++ tk ++ (ta ++ (d ++ r)) by simp] at hs
  obtain ⟨s1, h1, h2⟩ := at_word hs ha hkt (hta.stop (Stop'.spaces hd (end_of hr).stop))
  have hbad : parseArglist (c.opts.add M.global c.categories).contains s1 = none := by
    rcases hta with ⟨rfl, _⟩ | ⟨a', b, ha', hb, rfl⟩
    · obtain ⟨e, he, _⟩ := hk; cases he
    rcases hb with ⟨rfl, _⟩ | hb
    · obtain ⟨e, he, _⟩ := hk; cases he
    unfold parseArglist
    rw [List.append_assoc, List.cons_append, List.append_assoc] at h2
    rw [at_char h2 ha' (by decide)]
    simp only
    obtain ⟨e, he, hn⟩ := hk
    rw [if_neg (by decide), if_neg (by simp), show b ++ ([ch ')'] ++ (d ++ r)) = b ++ ch ')' :: (d ++ r) from rfl,
      argL_bad _ hb ⟨e, he, by
        cases hh : (c.opts.add M.global c.categories).contains e.1 with
        | false => rfl
        | true => exact absurd (.inr ((add_contains _ _ _ _).1 hh)) hn, fun h => hn (.inl h)⟩ (d ++ r) _
        (by have := argsT_length hb; simp; omega) (at_self _)]
  unfold parseItem
  simp only [h1, hname, if_false, hc, hbad]

theorem loadL_bad {E : Env} {fs gs : List Str} {f : Str} {tf : Str} (h : FilesT (fs ++ f :: gs) tf) (r : Str) (n : Nat) (hn : (fs ++ f :: gs).length ≤ n)
    {M M' : Mgr} (hl : Loads E fs M M') (hb : (loadFile E M' f).err = true) {s : IS} (hs : At (tf ++ ch ')' :: r) s) : (loadL E n M s).1.err = true := by
  induction n generalizing fs tf s M with
  | zero => simp at hn
  | succ n ih =>
    have hst : ∀ {d q : Str} {c : Byte}, Spaces d → (c = ch ',' ∨ c = ch ')') → Stop' (str ",()") (d ++ c :: q) := by
      intro d q c hd hc
      refine Stop'.spaces hd (.inr ?_)
      rcases hc with rfl | rfl <;> exact stop_of (by decide) (by decide) (by decide) _
    cases hl with
    | nil =>
      rw [List.nil_append] at h
      cases h with
      | @one a f tf d ha ht hd =>
        rw [List.append_assoc] at hs
        obtain ⟨s1, h1, h2⟩ := at_word hs ha ht (hst hd (.inr rfl))
        rw [loadL]
        simp only [h1, ht.1, if_false, hb, if_true]
      | @cons a f tf d l r' ha ht hd hf =>
        rw [show a ++ tf ++ (d ++ ch ',' :: r') ++ ch ')' :: r = a ++ tf ++ (d ++ ch ',' :: (r' ++ ch ')' :: r)) by simp] at hs
        obtain ⟨s1, h1, h2⟩ := at_word hs ha ht (hst hd (.inl rfl))
        rw [loadL]
        simp only [h1, ht.1, if_false, hb, if_true]
    | @cons g l _ _ he hl' =>
      rw [List.cons_append] at h
      generalize hL : l ++ f :: gs = L at h
      cases h with
      | one => simp at hL
      | @cons a f tf d _ r' ha ht hd hf =>
        subst hL
        rw [show a ++ tf ++ (d ++ ch ',' :: r') ++ ch ')' :: r = a ++ tf ++ (d ++ ch ',' :: (r' ++ ch ')' :: r)) by simp] at hs
        obtain ⟨s1, h1, h2⟩ := at_word hs ha ht (hst hd (.inl rfl))
        rw [loadL]
        simp only [h1, ht.1, if_false, he, Bool.false_eq_true]
        rw [at_char h2 hd (by decide)]
        simp only
        rw [if_pos (by decide)]
        exact ih hf (by simpa using hn) hl' (at_self _)

theorem parseItem_bad_load {E : Env} {fs gs : List Str} {f : Str} {t r : Str} {M M' : Mgr} (hi : ItemT (.load (fs ++ f :: gs)) t)
    (hl : Loads E fs M M') (hb : (loadFile E M' f).err = true) {s : IS} (hs : At (t ++ r) s) : (parseItem E M s).1.err = true := by
  obtain ⟨a, tk, b, tf, d, ha, hb', hd, hkt, hf, rfl⟩ := hi
  rw [show a ++ tk ++ (b ++ ch '(' :: (tf ++ ch ')' :: d)) ++ r = a ++ tk ++ (b ++ ch '(' :: (tf ++ ch ')' :: (d ++ r))) by simp] at hs
  obtain ⟨s1, h1, h2⟩ := at_word hs ha hkt (Stop'.spaces hb' (.inr (stop_of (by decide) (by decide) (by decide) _)))
  have h3 := loadL_bad hf (d ++ r) ((tf ++ ch ')' :: (d ++ r)).length + 1) (by have := filesT_length hf; simp at this ⊢; omega) hl hb (at_self _)
  have h4 : (handleLoad E M s1).1.err = true := by
    unfold handleLoad
    rw [at_char h2 hb' (by decide)]
    simp only
    rw [if_neg (by simp), if_pos h3]
    exact h3
  unfold parseItem
  simp only [h1, if_true, h4]

theorem configL_bad {E : Env} {i : Item} {l : List Item} {t : Str} (h : StringT (i :: l) t) (n : Nat) (hn : (i :: l).length ≤ n) {M : Mgr} {s : IS} (hs : At t s)
    (hb : ∀ t r, ItemT i t → (r = [] ∨ ∃ cs, r = ch ',' :: cs) → At (t ++ r) s → (parseItem E M s).1.err = true) : (configL E n M s).1.err = true := by
  cases n with
  | zero => simp at hn
  | succ n =>
    have : (parseItem E M s).1.err = true := by
      cases h with
      | one hi => exact hb _ [] hi (.inl rfl) (by simpa using hs)
      | @cons _ t _ r hi hl => exact hb t (ch ',' :: r) hi (.inr ⟨r, rfl⟩) hs
    rw [configL]
    simp only [this, if_true]

end Verif.ConfMgr
