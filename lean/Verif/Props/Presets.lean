import Verif.Attr.Presets
import Verif.Props.Attr
import Verif.Props.PropStr
import Verif.Props.Config
import Verif.ConfMgr.MetaLemmas
/-!
# C96 Attribute properties from the configuration

Model and specification: `Verif/Attr/Presets.lean`.
-/
namespace Verif.Presets
open Verif Verif.Cali Verif.Config Verif.PropStr

theorem listText_read {l : List Entry} {t : Str} (h : ListText l t) : stringList t = l.map Entry.word := by
  rcases h with ⟨rfl, rfl⟩ | h
  · decide
  · exact ConfMgr.stringListL_ok (.inl rfl) h _ (ConfMgr.wordsT_length h) (ConfMgr.at_self t)

theorem joinC_nul (ts : List Str) (h : ∀ t ∈ ts, (0 : Byte) ∉ t) : (0 : Byte) ∉ joinC ts := by
  induction ts with
  | nil => simp [joinC]
  | cons t ts ih =>
    cases ts with
    | nil => exact h t (by simp)
    | cons u us =>
      rw [joinC_cons (by simp)]
      simp only [List.mem_append, List.mem_cons, not_or]
      exact ⟨h t (by simp), by decide, ih fun x hx => h x (by simp [hx])⟩

theorem cstr_of {s : Str} (h : (0 : Byte) ∉ s) : cstr s = s := by
  unfold cstr
  induction s with
  | nil => rfl
  | cons c s ih =>
    simp only [List.mem_cons, not_or] at h
    rw [List.takeWhile_cons_of_pos (by simpa using fun e => h.1 e.symm), ih h.2]

theorem addPreset_word (m : SMap (BitVec 32)) {e : Entry} (h : e.Ok) :
    addPreset m e.word = match e.props with | none => m | some ps => m.emplace e.name (unionOf ps) := by
  obtain ⟨n, ps⟩ := e
  obtain ⟨ha, hb⟩ := h
  simp only at ha hb ⊢
  cases ps with
  | none =>
    have h1 : findFirst (ch '=') (n ++ []) = none := by
      unfold findFirst
      rw [List.append_nil, if_neg (by simpa using ha)]
    simp only [addPreset, Entry.word, h1]
  | some ps =>
    have h1 : findFirst (ch '=') (n ++ ch '=' :: joinC ps) = some n.length := by
      unfold findFirst
      rw [if_pos (by simp), List.idxOf_append_of_notMem ha]
      simp
    have h2 : (n ++ ch '=' :: joinC ps).take n.length = n := by simp
    have h3 : (n ++ ch '=' :: joinC ps).drop (n.length + 1) = joinC ps := by simp [← List.drop_drop]
    simp only [addPreset, Entry.word, h1, h2, h3]
    have hb' := hb ps rfl
    rw [cstr_of, C38_string2prop_names _ hb']
    · rfl
    · refine joinC_nul _ fun t ht => ?_
      obtain ⟨p, hp, rfl⟩ := hb' t ht
      exact names_nul p hp

theorem get_emplace {α : Type} (m : SMap α) (k n : Str) (v : α) : (m.emplace k v).get n = (m.get n).or (if k = n then some v else none) := by
  unfold SMap.emplace
  by_cases h : k ∈ m.l.map Prod.fst
  · rw [if_pos h]
    by_cases hk : k = n
    · subst hk
      obtain ⟨e, he, rfl⟩ := List.mem_map.1 h
      have : (m.get e.1).isSome := by
        simp only [SMap.get, Option.isSome_map, List.find?_isSome]
        exact ⟨e, he, by simp⟩
      obtain ⟨x, hx⟩ := Option.isSome_iff_exists.1 this
      rw [hx]; rfl
    · rw [if_neg hk]; simp
  · rw [if_neg h, SMap.get_set]
    by_cases hk : k = n
    · subst hk
      have : m.get k = none := by
        simp only [SMap.get, Option.map_eq_none_iff, List.find?_eq_none, decide_eq_true_eq]
        intro e he e1
        exact h (e1 ▸ List.mem_map_of_mem he)
      simp [this]
    · have : ¬n = k := fun e => hk e.symm
      simp [hk, this]

theorem fold_presets (l : List Entry) (h : ∀ e ∈ l, e.Ok) (m : SMap (BitVec 32)) (n : Str) :
    ((l.map Entry.word).foldl addPreset m).get n = (m.get n).or (listed l n) := by
  induction l generalizing m with
  | nil => simp [listed]
  | cons e l ih =>
    rw [List.map_cons, List.foldl_cons, ih (fun x hx => h x (by simp [hx])), addPreset_word m (h e (by simp))]
    obtain ⟨k, ps⟩ := e
    cases ps with
    | none =>
      congr 1
      unfold listed
      by_cases hn : k = n <;> simp [hn]
    | some ps =>
      simp only
      rw [get_emplace, Option.or_assoc]
      congr 1
      unfold listed
      by_cases hn : k = n <;> simp [hn]

/-- **C96** (reading the settings): after every history of configuration calls, whatever source the settings come from, if the value of
`CALI_CALIPER_ATTRIBUTE_PROPERTIES` is a list of entries written as documented, the preset of an attribute has exactly the properties
named in the first entry with properties for it, attributes without entry have no preset, and the default scope is the one that
`CALI_CALIPER_ATTRIBUTE_DEFAULT_SCOPE` names, without a message. -/
theorem C96_settings (builtin : List Byte) (h : List (World × Config.Op)) (W : World)
    (hfirst : ∀ x ∈ h, ∀ c, x.2 ≠ .init (str "caliper") c) {l : List Entry} (hl : ∀ e ∈ l, e.Ok)
    (ht : ListText l ((firstOf (sources builtin h W (str "CALI_CALIPER_ATTRIBUTE_PROPERTIES"))).getD []))
    {d : BitVec 32} (hd : ScopeName ((firstOf (sources builtin h W (str "CALI_CALIPER_ATTRIBUTE_DEFAULT_SCOPE"))).getD (str "thread")) d) :
    (∀ n, (initPresets builtin W (Config.State.run builtin .new h)).props.get n = listed l n) ∧
      (initPresets builtin W (Config.State.run builtin .new h)).scope = d ∧
      (initPresets builtin W (Config.State.run builtin .new h)).invalid = false := by
  have g1 := C53_precedence builtin h W (str "caliper") configData [] [(str "attribute_default_scope", str "thread")]
    (str "attribute_properties") [] (by decide) hfirst rfl (by simp)
  have g2 := C53_precedence builtin h W (str "caliper") configData [(str "attribute_properties", [])] []
    (str "attribute_default_scope") (str "thread") (by decide) hfirst rfl (by decide)
  rw [show varName (str "caliper") (str "attribute_properties") = str "CALI_CALIPER_ATTRIBUTE_PROPERTIES" by decide] at g1
  rw [show varName (str "caliper") (str "attribute_default_scope") = str "CALI_CALIPER_ATTRIBUTE_DEFAULT_SCOPE" by decide] at g2
  have hp : ∀ n, ((stringList ((firstOf (sources builtin h W (str "CALI_CALIPER_ATTRIBUTE_PROPERTIES"))).getD [])).foldl addPreset .empty).get n = listed l n := by
    intro n
    rw [listText_read ht, fold_presets l hl]
    rfl
  unfold initPresets parseAttributeConfig
  simp only [g1, g2, Option.getD_some, Presets.new]
  generalize hs : (firstOf (sources builtin h W (str "CALI_CALIPER_ATTRIBUTE_DEFAULT_SCOPE"))).getD (str "thread") = sc at hd ⊢
  cases hd with
  | process => rw [if_pos rfl]; exact ⟨hp, rfl, rfl⟩
  | thread => rw [if_neg (by decide), if_pos rfl]; exact ⟨hp, rfl, rfl⟩

theorem norm_with (c : AttrReg.Config) (r : AttrReg.Req) : AttrReg.normProp c r = withScope c.defScope (AttrReg.asked c r) := by
  unfold withScope
  by_cases hg : AttrReg.asked c r &&& 512 ≠ 0
  · rw [if_pos hg]; exact AttrReg.norm_global hg
  · rw [if_neg hg]
    by_cases hs : AttrReg.asked c r &&& 60 = 0
    · rw [if_pos hs]; exact AttrReg.norm_default (not_not.1 hg) hs
    · rw [if_neg hs]; exact AttrReg.norm_keep (not_not.1 hg) hs

/-- **C96** (partial: unless the context tree ran out of space, for entries of known properties, and for attributes that are not among the
three built-in ones): with these settings, in every interleaving of attribute creation calls, an attribute that was created has the
properties listed for it in the configuration instead of those of the call, and those of one of the calls for that name if none are
listed; with the configured default scope if these have no scope. -/
theorem C96_created_partial (builtin : List Byte) (h : List (World × Config.Op)) (W : World)
    (hfirst : ∀ x ∈ h, ∀ c, x.2 ≠ .init (str "caliper") c) {l : List Entry} (hl : ∀ e ∈ l, e.Ok)
    (ht : ListText l ((firstOf (sources builtin h W (str "CALI_CALIPER_ATTRIBUTE_PROPERTIES"))).getD []))
    {d : BitVec 32} (hd : ScopeName ((firstOf (sources builtin h W (str "CALI_CALIPER_ATTRIBUTE_DEFAULT_SCOPE"))).getD (str "thread")) d)
    {aggId : Nat} {s : AttrReg.State} (hs : AttrReg.Reach ((initPresets builtin W (Config.State.run builtin .new h)).config aggId) s)
    (hf : s.tree.fails = 0) {th : Nat} {r : AttrReg.Req} {a : Option MTree.Ptr} (hr : s.pc th = .done r a)
    (hb : ∀ p, ¬ AttrReg.BootAttr r.name p) :
    ∃ p, a = some p ∧ ∃ r' ∈ s.hist, r'.name = r.name ∧ AttrReg.attrName s.tree p = some (Val.str r.name) ∧
      AttrReg.attrProp s.tree p = withScope d ((listed l r.name).getD r'.prop) |||
        (if (aggId, (⟨.bool, .inr 1⟩ : Val)) ∈ r'.metas then 2048 else 0) := by
  obtain ⟨g1, g2, -⟩ := C96_settings builtin h W hfirst hl ht hd
  obtain ⟨p, rfl, h2⟩ := AttrReg.C17_contents_of_one_caller hs hf hr
  rcases h2 with h2 | ⟨r', h3, h4, -, h6, h7, -⟩
  · exact absurd h2 (hb p)
  · refine ⟨p, rfl, r', h3, h4, h6, ?_⟩
    rw [h7]
    unfold AttrReg.wantProp
    rw [norm_with]
    have : AttrReg.asked ((initPresets builtin W (Config.State.run builtin .new h)).config aggId) r' = (listed l r.name).getD r'.prop := by
      unfold AttrReg.asked Presets.config
      simp only [g1, h4]
    rw [this]
    show (if (aggId, _) ∈ _ then _ else withScope ((initPresets builtin W (Config.State.run builtin .new h)).scope) _) = _
    simp only [Presets.config, g2]
    split
    · rfl
    · simp

/-- C96: an unknown default scope is reported, and thread scope is used. -/
theorem C96_unknown_scope (builtin : List Byte) (h : List (World × Config.Op)) (W : World)
    (hfirst : ∀ x ∈ h, ∀ c, x.2 ≠ .init (str "caliper") c)
    (hd : ∀ d, ¬ ScopeName ((firstOf (sources builtin h W (str "CALI_CALIPER_ATTRIBUTE_DEFAULT_SCOPE"))).getD (str "thread")) d) :
    (initPresets builtin W (Config.State.run builtin .new h)).scope = 20 ∧
      (initPresets builtin W (Config.State.run builtin .new h)).invalid = true := by
  have g2 := C53_precedence builtin h W (str "caliper") configData [(str "attribute_properties", [])] []
    (str "attribute_default_scope") (str "thread") (by decide) hfirst rfl (by decide)
  rw [show varName (str "caliper") (str "attribute_default_scope") = str "CALI_CALIPER_ATTRIBUTE_DEFAULT_SCOPE" by decide] at g2
  unfold initPresets parseAttributeConfig
  simp only [g2, Option.getD_some]
  rw [if_neg, if_neg]
  · exact ⟨rfl, rfl⟩
  · intro e; rw [e] at hd; exact hd _ .thread
  · intro e; rw [e] at hd; exact hd _ .process

/-! ### violations -/

/-- an environment with one variable -/
def envWorld (k v : Str) : World := ⟨fun n => if n = k then some v else none, fun _ => none⟩

/-- **C96**, violated: a property name that is not known is not reported: the attribute loses the properties the program asked for, and
gets no other ones.  Every name that has a known one as its last word is taken for that one. -/
theorem C96_violation_unknown (aggId : Nat) (prop : BitVec 32) :
    let g := initPresets [] (envWorld (str "CALI_CALIPER_ATTRIBUTE_PROPERTIES") (str "a=nestd,b=not_nested")) .new
    AttrReg.asked (g.config aggId) ⟨str "a", .string, prop, []⟩ = 0 ∧ AttrReg.asked (g.config aggId) ⟨str "b", .string, prop, []⟩ = 256 ∧
      g.invalid = false := by
  have e : (initPresets [] (envWorld (str "CALI_CALIPER_ATTRIBUTE_PROPERTIES") (str "a=nestd,b=not_nested")) .new).props.l =
      [(str "a", 0), (str "b", 256)] ∧ (initPresets [] (envWorld (str "CALI_CALIPER_ATTRIBUTE_PROPERTIES") (str "a=nestd,b=not_nested")) .new).invalid = false := by
    decide +kernel
  refine ⟨?_, ?_, e.2⟩
  · simp only [AttrReg.asked, Presets.config, SMap.get, e.1]
    rw [List.find?_cons_of_pos (by decide)]; rfl
  · simp only [AttrReg.asked, Presets.config, SMap.get, e.1]
    rw [List.find?_cons_of_neg (by decide), List.find?_cons_of_pos (by decide)]; rfl

/-- **C96**, violated: after an entry with white space inside, the rest of the list is dropped without a message. -/
theorem C96_violation_space :
    let g := initPresets [] (envWorld (str "CALI_CALIPER_ATTRIBUTE_PROPERTIES") (str "a= nested,b=nested")) .new
    g.props.l = [(str "a", 0)] ∧ g.invalid = false := by
  decide +kernel

/-! ### example -/

/-- two attributes, the first one listed twice -/
def exList : List Entry := [⟨str "a", some [str "nested", str "hidden"]⟩, ⟨str "b", some [str "global"]⟩, ⟨str "c", none⟩, ⟨str "a", some [str "asvalue"]⟩]
/-- the setting -/
def exText : Str := str "a=nested:hidden, \"b=global\" ,c,a=asvalue"

theorem exList_ok : (∀ e ∈ exList, e.Ok) ∧ ListText exList exText := by
  constructor
  · unfold Entry.Ok; simp only [exList, List.mem_cons, List.not_mem_nil, or_false, forall_eq_or_imp, forall_eq, Option.some.injEq, reduceCtorEq, forall_eq', false_implies, implies_true, and_true]; decide
  · refine .inr ?_
    have hp : ∀ w, w ≠ [] → (∀ c ∈ w, c ≠ ch '\\' ∧ c ≠ ch '"' ∧ Verif.Cali.isSpace c = false ∧ [ch ','].contains c = false) → Parse.IsText [ch ','] w w :=
      fun w h1 h2 => ⟨h1, .inr ⟨rfl, h2⟩⟩
    have := @ConfMgr.WordsT.cons (ch ',') [] (str "a=nested:hidden") (str "a=nested:hidden") [] _ _ (by simp [Query.CalQL.Spaces]) (hp _ (by decide) (by decide)) (by simp [Query.CalQL.Spaces])
      (@ConfMgr.WordsT.cons (ch ',') [ch ' '] (str "b=global") (Verif.Parse.quote (str "b=global")) [ch ' '] _ _ (by unfold Query.CalQL.Spaces; decide) ⟨by decide, .inl rfl⟩ (by unfold Query.CalQL.Spaces; decide)
        (@ConfMgr.WordsT.cons (ch ',') [] (str "c") (str "c") [] _ _ (by simp [Query.CalQL.Spaces]) (hp _ (by decide) (by decide)) (by simp [Query.CalQL.Spaces]) <|
        @ConfMgr.WordsT.one (ch ',') [] (str "a=asvalue") (str "a=asvalue") [] (by simp [Query.CalQL.Spaces]) (hp _ (by decide) (by decide)) (by simp [Query.CalQL.Spaces])))
    exact this

/-- an environment with both settings -/
def exWorld : World := ⟨fun n => if n = str "CALI_CALIPER_ATTRIBUTE_PROPERTIES" then some exText
  else if n = str "CALI_CALIPER_ATTRIBUTE_DEFAULT_SCOPE" then some (str "process") else none, fun _ => none⟩

/-- the hypotheses of the theorems hold for it -/
example : ListText exList ((firstOf (sources [] [] exWorld (str "CALI_CALIPER_ATTRIBUTE_PROPERTIES"))).getD []) ∧
    ScopeName ((firstOf (sources [] [] exWorld (str "CALI_CALIPER_ATTRIBUTE_DEFAULT_SCOPE"))).getD (str "thread")) 12 := by
  constructor
  · rw [show (firstOf (sources [] [] exWorld (str "CALI_CALIPER_ATTRIBUTE_PROPERTIES"))).getD [] = exText by decide +kernel]
    exact exList_ok.2
  · rw [show (firstOf (sources [] [] exWorld (str "CALI_CALIPER_ATTRIBUTE_DEFAULT_SCOPE"))).getD (str "thread") = str "process" by decide +kernel]
    exact .process

/-- two threads create `a` with other properties -/
def exCfg : AttrReg.Config := (initPresets [] exWorld .new).config 20
/-- the requests -/
def exReq (p : BitVec 32) : AttrReg.Req := ⟨str "a", .string, p, []⟩
/-- the interleaved steps -/
def exSteps : List (Nat × AttrReg.Req) :=
  [(1, exReq 1), (2, exReq 2), (2, exReq 2), (1, exReq 1), (2, exReq 2), (1, exReq 1), (2, exReq 2), (2, exReq 2), (1, exReq 1), (2, exReq 2), (1, exReq 1)]
/-- the state after them -/
def exState : AttrReg.State := exSteps.foldl (fun s x => AttrReg.stepThread exCfg s x.1 x.2) (AttrReg.init (MTree.init 64 4 (fun _ => 0)))

theorem exState_reach : AttrReg.Reach exCfg exState := by
  have : ∀ (l : List (Nat × AttrReg.Req)) (s : AttrReg.State), AttrReg.Reach exCfg s → AttrReg.Reach exCfg (l.foldl (fun s x => AttrReg.stepThread exCfg s x.1 x.2) s) := by
    intro l
    induction l with
    | nil => exact fun _ h => h
    | cons x xs ih => exact fun s h => ih _ (.step _ _ h)
  exact this _ _ (.init (by omega) (by omega) (by decide +kernel))

/-- a call that has returned: its name and requested properties, and the properties of the attribute it returned -/
def returned (s : AttrReg.State) (th : Nat) : Option (Str × BitVec 32 × BitVec 32) :=
  match s.pc th with
  | .done r (some p) => some (r.name, r.prop, AttrReg.attrProp s.tree p)
  | _ => none

/-- the attribute is nested and hidden, with process scope -/
example : exState.tree.fails = 0 ∧ returned exState 1 = some (str "a", 1, 396) ∧ returned exState 2 = some (str "a", 2, 396) ∧
    withScope 12 ((listed exList (str "a")).getD 1) = 396 := by
  decide +kernel

end Verif.Presets
