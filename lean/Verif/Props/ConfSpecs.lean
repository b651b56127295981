import Verif.ConfMgr.ErrLemmas
/-!
# C66: option specs and config specs
-/
namespace Verif.ConfMgr
open Verif Verif.Cali Verif.Parse
open Verif.Query.CalQL (Spaces)

theorem spaces_nil : Spaces [] := by intro x hx; cases hx

/-- C66: a structured text, however it is laid out, is read back: a dictionary gives the map with the last value for each key, a list gives
its elements, in order; strings come without their quotes, nested values as their text, which can be read in the same way -/
theorem C66_structured (ws rest : Str) (hw : Spaces ws) :
    (∀ (l : List (Str × J)) t, JText (.dict l) t → ∃ vs, List.Forall₂ (fun e p => e.1 = p.1 ∧ Kept e.2 p.2) l vs ∧
      (recDict (ws ++ t ++ rest)).2 = true ∧ MapOf vs (recDict (ws ++ t ++ rest)).1) ∧
    (∀ (l : List J) t, JText (.list l) t → ∃ vs, List.Forall₂ Kept l vs ∧ recList (ws ++ t ++ rest) = (vs, true)) := by
  refine ⟨fun l t h => ?_, fun l t h => ?_⟩
  · obtain ⟨vs, h1, h2⟩ := recDict_ok (r := rest) hw h
    exact ⟨vs, h2, by rw [h1], by rw [h1]; exact mapOf_setAll vs⟩
  · obtain ⟨vs, h1, h2⟩ := recList_ok (r := rest) hw h
    exact ⟨vs, h2, h1⟩

/-- C66: adding a list of well-formed option specs succeeds; each name then has the option its last spec declares, other options stay, and
nothing else changes -/
theorem C66_option_specs (M : Mgr) (hM : M.err = false) (hG : M.global.err = false) (ws t rest : Str) (hw : Spaces ws)
    (decls : List (List (Str × J))) (hd : ∀ l ∈ decls, ∃ name o, Declares l name o) (ht : JText (.list (decls.map .dict)) t) :
    ∃ D, addGlobal M (ws ++ t ++ rest) = { M with global := ⟨D, false⟩ } ∧ Options decls M.global.data D := by
  obtain ⟨vs, h1, h2⟩ := recList_ok (r := rest) hw ht
  obtain ⟨os, h3, h4⟩ := addList_ok h2 hd M.global hG
  refine ⟨setAll M.global.data os, ?_, os, h3, fun q => setAll_lookup _ _ _⟩
  unfold addGlobal
  simp only [h1, hG, Bool.false_eq_true, if_false, h4, hM]
  simp

/-- C66: a faulty spec in a list of option specs is an error; the options declared before it are added, those after it are not, and nothing
else changes -/
theorem C66_faulty_option_spec (M : Mgr) (hG : M.global.err = false) (ws t rest : Str) (hw : Spaces ws) (pre post : List (List (Str × J)))
    (l : List (Str × J)) (hd : ∀ l ∈ pre, ∃ name o, Declares l name o) (hl : Faulty l) (ht : JText (.list ((pre ++ l :: post).map .dict)) t) :
    ∃ D, addGlobal M (ws ++ t ++ rest) = { M with global := ⟨D, true⟩, err := true } ∧ Options pre M.global.data D := by
  obtain ⟨vs, h1, h2⟩ := recList_ok (r := rest) hw ht
  rw [List.map_append, List.map_cons] at h2
  obtain ⟨va, vb, ha, hb, rfl⟩ : ∃ va vb, List.Forall₂ Kept (pre.map J.dict) va ∧ List.Forall₂ Kept (J.dict l :: post.map J.dict) vb ∧ vs = va ++ vb :=
    ⟨_, _, (List.forall₂_take_append _ _ _ h2.flip).flip, (List.forall₂_drop_append _ _ _ h2.flip).flip, (List.take_append_drop _ _).symm⟩
  cases hb with
  | @cons _ v _ vb k1 k2 =>
  obtain ⟨os, h3, h4⟩ := addList_ok ha hd M.global hG
  refine ⟨setAll M.global.data os, ?_, os, h3, fun q => setAll_lookup _ _ _⟩
  unfold addGlobal
  have h5 : M.global.addList (va ++ v :: vb) = ⟨setAll M.global.data os, true⟩ := by
    rw [addList_append, h4]
    have : ∀ S : Specs, S.err = false → S.addList (v :: vb) = (parseSpec S (recDict v).1).addList vb := by
      intro S hS; unfold Specs.addList; rw [List.foldl_cons]; simp only [hS, Bool.false_eq_true, if_false]
    rw [this ⟨setAll M.global.data os, M.global.err⟩ hG, parseSpec_faulty k1 hl, addList_err _ rfl]
  simp only [h1, hG, Bool.false_eq_true, if_false, h5]
  simp

/-- C66: a list or dictionary without its closing bracket is an error, wherever specs are read from -/
theorem C66_unclosed (E : Env) (M : Mgr) (ws b : Str) (hw : Spaces ws) :
    (∀ l, LBody l b → (addGlobal M (ws ++ ch '[' :: b)).err = true ∧ (parseJson E M (ws ++ ch '[' :: b)).err = true) ∧
    (∀ l check ign, DBody l b → (addConfigSpec E M (ws ++ ch '{' :: b) check ign).err = true) := by
  refine ⟨fun l h => ⟨?_, ?_⟩, fun l check ign h => ?_⟩
  · unfold addGlobal
    simp only [recList_open hw h]
    simp
  · unfold parseJson
    simp only [recDict_not (c := ch '[') (r := b) hw (by decide) (by decide), recList_open hw h, Bool.false_eq_true, if_false]
  · unfold addConfigSpec
    simp only [recDict_open hw h, Bool.not_false, if_true]

/-- C66: adding a well-formed config spec for a new name whose services are all available adds the declared config under its name and its
other names (unless these are taken), and changes nothing else -/
theorem C66_config_spec (E : Env) (M : Mgr) (hM : M.err = false) (ws t rest : Str) (hw : Spaces ws) (l : List (Str × J))
    (services others : List Str) (c : CSpec) (h : DeclaresConfig l services others c) (ht : JText (.dict l) t)
    (hnew : M.specs.lookup c.name = none) (hav : ∀ s ∈ services, s ∈ E.avail) (check : Opts → Bool) (ign : Bool) :
    ∃ c' specs, addConfigSpec E M (ws ++ t ++ rest) check ign = { M with specs := specs } ∧
      DeclaresConfig l services others c' ∧ c'.name = c.name ∧ c'.check = check ∧
      ∀ q, specs.lookup q = if q = c.name then some c' else (M.specs.lookup q).or (if q ∈ others then some c' else none) := by
  obtain ⟨vs, h1, h2⟩ := recDict_ok (r := rest) hw ht
  obtain ⟨h3, h4, c', h5, h6, h7, h8⟩ := readConfigSpec_ok h2 h check
  refine ⟨c', others.foldl (fun m a => mins m a c') (mins M.specs c.name c'), ?_, h8, h6, h7, ?_⟩
  · unfold addConfigSpec
    simp only [h1, h4, hnew, hM, h3, h5]
    rw [if_neg (by simp)]
    rw [if_neg (by simp)]
    rw [if_neg (by simp)]
    rw [if_neg (by simpa using hav)]
    simp
  · intro q
    rw [mins_all_lookup, mins_lookup]
    by_cases hq : q = c.name
    · subst hq; rw [hnew]; simp
    · rw [if_neg hq, if_neg hq]; simp

/-- C66: a config spec with a service that is not available is left out; a spec for a name in use is left out (built-in specs) or an error -/
theorem C66_config_spec_skipped (E : Env) (M : Mgr) (hM : M.err = false) (ws t rest : Str) (hw : Spaces ws) (l : List (Str × J))
    (services others : List Str) (c : CSpec) (h : DeclaresConfig l services others c) (ht : JText (.dict l) t) (check : Opts → Bool) (ign : Bool) :
    (M.specs.lookup c.name = none → (∃ s ∈ services, s ∉ E.avail) → addConfigSpec E M (ws ++ t ++ rest) check ign = M) ∧
    ((M.specs.lookup c.name).isSome → addConfigSpec E M (ws ++ t ++ rest) check ign = { M with err := !ign }) := by
  obtain ⟨vs, h1, h2⟩ := recDict_ok (r := rest) hw ht
  obtain ⟨h3, h4, c', h5, h6, h7, h8⟩ := readConfigSpec_ok h2 h check
  refine ⟨fun hnew hav => ?_, fun hex => ?_⟩
  · unfold addConfigSpec
    simp only [h1, h4, hnew, hM, h3, h5]
    rw [if_neg (by simp)]
    rw [if_neg (by simp)]
    rw [if_neg (by simp)]
    rw [if_pos (by simpa using hav)]
  · unfold addConfigSpec
    simp only [h1, h4, hex]
    cases ign
    · simp
    · simp [← hM]

/-- adding config specs one after the other with `add_config_spec`, up to the first error -/
def addSpecs (E : Env) (M : Mgr) (l : List Str) : Mgr :=
  l.foldl (fun M s => if M.err then M else addConfigSpec E M s (fun _ => false) false) M

/-- C66: a file with one config spec, a list of config specs, or a dictionary with `options` and `configs` lists has the same effect as
adding its specs one by one -/
theorem C66_load (E : Env) (M : Mgr) (file ws t rest : Str) (hw : Spaces ws) (hfile : E.files file = some (ws ++ t ++ rest)) :
    (∀ l n, JText (.dict l) t → lastVal l (str "name") = some n → loadFile E M file = addConfigSpec E M (ws ++ t ++ rest) (fun _ => false) false) ∧
    (∀ l, JText (.list l) t → ∃ vs, List.Forall₂ Kept l vs ∧ loadFile E M file = addSpecs E M vs) ∧
    (∀ l o cs, JText (.dict l) t → lastVal l (str "name") = none → lastVal l (str "options") = some (.list o) →
      lastVal l (str "configs") = some (.list cs) →
      ∃ ot vs, JText (.list o) ot ∧ List.Forall₂ Kept cs vs ∧ loadFile E M file = addSpecs E (addGlobal M ot) vs) := by
  refine ⟨fun l n ht hn => ?_, fun l ht => ?_, fun l o cs ht hn ho hc => ?_⟩ <;> unfold loadFile <;> rw [hfile]
  · obtain ⟨vs, h1, h2⟩ := recDict_ok (r := rest) hw ht
    have : ((setAll [] vs).lookup (str "name")).isSome = true := by
      rcases kept_get h2 (str "name") with ⟨h3, _⟩ | ⟨j, v, h3, h4, h5⟩
      · rw [hn] at h3; cases h3
      · rw [h4]; rfl
    simp only [parseJson, h1, this, if_true]
  · obtain ⟨vs, h1, h2⟩ := recList_ok (r := rest) hw ht
    refine ⟨vs, h2, ?_⟩
    have : recDict (ws ++ t ++ rest) = ([], false) := by
      have : ∃ r, t = ch '[' :: r := by
        cases ht with
        | list0 => exact ⟨_, rfl⟩
        | list => exact ⟨_, rfl⟩
      obtain ⟨r, rfl⟩ := this
      have hx : readChar ⟨ws ++ ch '[' :: r ++ rest, true⟩ = (ch '[', ⟨r ++ rest, true⟩) := by
        rw [List.append_assoc, List.cons_append]; exact readChar_ws hw (by decide)
      unfold recDict
      simp only [hx]
      rw [if_neg (by decide)]
    simp only [parseJson, this, h1, Bool.false_eq_true, if_false, if_true, addSpecs]
  · obtain ⟨vs, h1, h2⟩ := recDict_ok (r := rest) hw ht
    rcases kept_get h2 (str "name") with ⟨_, h3⟩ | ⟨j, v, h3, h4, h5⟩
    · rcases kept_get h2 (str "options") with ⟨h4, _⟩ | ⟨j, ot, h4, h5, h6⟩
      · rw [ho] at h4; cases h4
      · rw [ho] at h4
        cases h4
        rcases kept_get h2 (str "configs") with ⟨h7, _⟩ | ⟨j, ct, h7, h8, h9⟩
        · rw [hc] at h7; cases h7
        · rw [hc] at h7
          cases h7
          obtain ⟨us, h10, h11⟩ := recList_kept h9
          refine ⟨ot, us, h6, h11, ?_⟩
          simp only [parseJson, h1, h3, h5, h8, h10, if_true, Option.isSome_none, Bool.false_eq_true, if_false, Bool.not_true, addSpecs]
    · rw [hn] at h3; cases h3

/-! ### every value can be written -/

mutual
/-- a value that can be written: dictionaries have an entry and no empty keys, lists have no empty strings -/
def J.Ok : J → Prop
  | .word _ => True
  | .dict l => l ≠ [] ∧ J.OkD l
  | .list l => J.OkL l
def J.OkD : List (Str × J) → Prop
  | [] => True
  | (k, j) :: l => k ≠ [] ∧ j.Ok ∧ J.OkD l
def J.OkL : List J → Prop
  | [] => True
  | j :: l => j ≠ .word [] ∧ j.Ok ∧ J.OkL l
end

mutual
/-- one way to write a value -/
def J.write : J → Str
  | .word w => quote w
  | .dict l => ch '{' :: (J.writeD l ++ [ch '}'])
  | .list l => ch '[' :: (J.writeL l ++ [ch ']'])
def J.writeD : List (Str × J) → Str
  | [] => []
  | [(k, j)] => quote k ++ (ch ':' :: j.write)
  | (k, j) :: l => quote k ++ (ch ':' :: (j.write ++ ch ',' :: J.writeD l))
def J.writeL : List J → Str
  | [] => []
  | [j] => j.write
  | j :: l => j.write ++ ch ',' :: J.writeL l
end

mutual
theorem jtext_write : ∀ j : J, j.Ok → JText j j.write
  | .word w, _ => by unfold J.write; exact .word (.inl rfl)
  | .dict [], h => absurd rfl h.1
  | .dict (e :: l), h => by unfold J.write; exact .dict (dbody_write e l h.2)
  | .list [], _ => by unfold J.write J.writeL; exact .list0 spaces_nil
  | .list (e :: l), h => by unfold J.write; exact .list (lbody_write e l h)
  termination_by j => sizeOf j
theorem dbody_write : ∀ (e : Str × J) (l : List (Str × J)), J.OkD (e :: l) → DBody (e :: l) (J.writeD (e :: l))
  | (k, j), [], h => by
    unfold J.writeD
    have := DBody.one (a := []) (b := []) (c := []) (d := []) spaces_nil h.1 (.inl rfl : JWord k (quote k)) spaces_nil spaces_nil (jtext_write j h.2.1) spaces_nil
    simpa using this
  | (k, j), e :: l, h => by
    unfold J.writeD
    have := DBody.cons (a := []) (b := []) (c := []) (d := []) spaces_nil h.1 (.inl rfl : JWord k (quote k)) spaces_nil spaces_nil (jtext_write j h.2.1) spaces_nil
      (dbody_write e l h.2.2)
    simpa using this
  termination_by e l => sizeOf (e :: l)
theorem lbody_write : ∀ (e : J) (l : List J), J.OkL (e :: l) → LBody (e :: l) (J.writeL (e :: l))
  | j, [], h => by
    unfold J.writeL
    have := LBody.one (a := []) (d := []) spaces_nil (jtext_write j h.2.1) h.1 spaces_nil
    simpa using this
  | j, e :: l, h => by
    unfold J.writeL
    have := LBody.cons (a := []) (d := []) spaces_nil (jtext_write j h.2.1) h.1 spaces_nil (lbody_write e l h.2.2)
    simpa using this
  termination_by e l => sizeOf (e :: l)
end

/-! ### examples -/

/-- an option spec with services, a configuration setting and a query -/
def demoOpt : List (Str × J) :=
  [(str "name", .word (str "mem")), (str "type", .word (str "bool")), (str "category", .word (str "metric")),
   (str "services", .list [.word (str "alloc")]), (str "inherit", .word (str "base")),
   (str "config", .dict [(str "X", .word (str "{}")), (str "A", .word (str "1"))]),
   (str "query", .dict [(str "local", .word (str "select sum(x) as \"Sum x\""))])]

/-- an option spec in the old notation -/
def demoOld : List (Str × J) :=
  [(str "name", .word (str "old")), (str "query", .list [.dict [(str "level", .word (str "cross")),
    (str "group by", .list [.word (str "a"), .word (str "b")]),
    (str "select", .list [.dict [(str "expr", .word (str "sum(x)")), (str "as", .word (str "S"))], .word (str "y")])]])]

theorem demoOpt_declares : Declares demoOpt (str "mem")
    ⟨str "bool", [], str "metric", [str "alloc"], [str "base"], [(str "local", str "select sum(x) as \"Sum x\"")], [(str "A", str "1"), (str "X", str "{}")]⟩ := by
  refine ⟨rfl, .inr rfl, .inl ⟨rfl, rfl⟩, .inr rfl, .inr ⟨_, rfl, .inl rfl⟩, .inr ⟨_, rfl, .inr ⟨_, rfl, rfl, by decide, by decide⟩⟩,
    .inr ⟨[(str "X", str "{}"), (str "A", str "1")], rfl, ?_⟩, .inl (.inr ⟨[(str "local", str "select sum(x) as \"Sum x\"")], rfl, ?_⟩)⟩
  · exact mapOf_setAll [(str "X", str "{}"), (str "A", str "1")]
  · exact mapOf_setAll [(str "local", str "select sum(x) as \"Sum x\"")]

theorem demoOld_declares : Declares demoOld (str "old")
    { query := [(str "cross", str " group by a,b select sum(x) as \"S\",y")] } := by
  refine ⟨rfl, .inl ⟨rfl, rfl⟩, .inl ⟨rfl, rfl⟩, .inl ⟨rfl, rfl⟩, .inl ⟨rfl, rfl⟩, .inl ⟨rfl, rfl⟩, .inl ⟨rfl, rfl⟩,
    .inr ⟨[[(str "level", .word (str "cross")), (str "group by", .list [.word (str "a"), .word (str "b")]),
      (str "select", .list [.dict [(str "expr", .word (str "sum(x)")), (str "as", .word (str "S"))], .word (str "y")])]], _, rfl, .cons (b := (str "cross", _)) ?_ .nil,
      mapOf_setAll [(str "cross", str " group by a,b select sum(x) as \"S\",y")]⟩⟩
  refine ⟨rfl, str " group by a,b", [], [], [], [], str " select sum(x) as \"S\",y", ?_, .inl ⟨rfl, rfl⟩, .inl ⟨rfl, rfl⟩, .inl ⟨rfl, rfl⟩, .inl ⟨rfl, rfl⟩, ?_, by decide⟩
  · exact .inr ⟨.list [.word (str "a"), .word (str "b")], [str "a", str "b"], rfl, .inl rfl, by decide⟩
  · refine .inr ⟨_, [str "sum(x) as \"S\"", str "y"], rfl, .cons ?_ (.cons ⟨rfl, by decide⟩ .nil), by decide⟩
    exact ⟨str "sum(x)", str " as \"S\"", [], rfl, by decide, .inr ⟨str "S", rfl, by decide⟩, .inl ⟨rfl, rfl⟩, by decide⟩

/-- a config spec with these options -/
def demoConfig : List (Str × J) :=
  [(str "name", .word (str "rep")), (str "alias", .list [.word (str "r2")]), (str "services", .list [.word (str "event"), .word (str "timer")]),
   (str "config", .dict [(str "CALI_B", .word (str "b"))]), (str "defaults", .dict [(str "mem", .word (str "true"))]),
   (str "options", .list [.dict demoOpt, .dict demoOld])]

/-- hypotheses of `C66_option_specs`, `C66_config_spec` and `C66_config_spec_skipped` -/
example : (∀ l ∈ [demoOpt, demoOld], ∃ name o, Declares l name o) ∧ (J.list ([demoOpt, demoOld].map .dict)).Ok ∧ (J.dict demoConfig).Ok ∧
    ∃ c, DeclaresConfig demoConfig [str "event", str "timer"] [str "r2"] c ∧ c.name = str "rep" := by
  have h1 : ∀ l ∈ [demoOpt, demoOld], ∃ name o, Declares l name o := by
    intro l hl
    simp only [List.mem_cons, List.not_mem_nil, or_false] at hl
    rcases hl with rfl | rfl
    · exact ⟨_, _, demoOpt_declares⟩
    · exact ⟨_, _, demoOld_declares⟩
  refine ⟨h1, ?_, ?_, ?_⟩
  · simp [demoOpt, demoOld, J.Ok, J.OkD, J.OkL, str]
  · simp [demoConfig, demoOpt, demoOld, J.Ok, J.OkD, J.OkL, str]
  · refine ⟨⟨str "rep", [], [], [(str "CALI_B", str "b"), (servicesVar, str "event,timer")],
      ⟨setAll [] [(str "mem", _), (str "old", _)], false⟩, [(str "mem", str "true")], fun _ => false⟩, ⟨rfl, .inr ⟨_, rfl, .inl rfl⟩, .inr ⟨_, rfl, .inl rfl⟩,
      .inl ⟨rfl, rfl⟩, .inl ⟨rfl, rfl⟩, .inr ⟨[(str "mem", str "true")], rfl, mapOf_setAll [(str "mem", str "true")]⟩, ?_, [demoOpt, demoOld], .inr rfl,
      [(str "mem", _), (str "old", _)], .cons demoOpt_declares (.cons demoOld_declares .nil), fun q => setAll_lookup _ _ _⟩, rfl⟩
    refine ⟨[(str "CALI_B", str "b")], .inr ⟨[(str "CALI_B", str "b")], rfl, mapOf_setAll [(str "CALI_B", str "b")]⟩, by decide +kernel, fun q => ?_⟩
    have e : servicesVar ≠ str "CALI_B" := by decide
    by_cases hq : q = servicesVar
    · subst hq; decide +kernel
    · rw [if_neg (fun h => hq h.1)]
      simp only [List.lookup_cons]
      rw [show (q == servicesVar) = false by simpa using hq]

/-- hypotheses of `C66_faulty_option_spec` and `C66_unclosed` -/
example : Faulty [(str "type", .word (str "bool"))] ∧ Faulty [(str "name", .word (str "x")), (str "config", .list [])] ∧
    Faulty [(str "name", .word (str "x")), (str "query", .list [.dict [(str "let", .word (str "y"))]])] ∧
    LBody [.word (str "a")] (str "a ") ∧ DBody [(str "name", .word (str "a"))] (str "name: a") := by
  refine ⟨.noName rfl, .config rfl, .noLevel (qs := [[(str "let", .word (str "y"))]]) (q := [(str "let", .word (str "y"))]) rfl (by simp) rfl, ?_, ?_⟩
  · exact .one (a := []) (t := str "a") (d := str " ") spaces_nil (.word (.inr ⟨rfl, by decide, by decide⟩)) (by simp [str]) (by unfold Spaces; decide)
  · exact .one (a := []) (tk := str "name") (b := []) (c := str " ") (t := str "a") (d := []) spaces_nil (by decide) (.inr ⟨rfl, by decide, by decide⟩)
      spaces_nil (by unfold Spaces; decide) (.word (.inr ⟨rfl, by decide, by decide⟩)) spaces_nil

/-- the example as a text, with white space and unquoted words -/
example : (addConfigSpec ⟨fun _ => none, [str "event", str "timer"], []⟩ {}
      (str "\n{ \"name\" : rep, \"services\": [ \"event\", \"timer\" ],\n \"options\": [ {\"name\":\"m\", \"config\": {\"X\":\"{}\"}} ] }") (fun _ => false) false).specs.map
      (fun e => (e.1, e.2.initial ++ e.2.opts.data.flatMap fun o => o.2.config)) =
    [(str "rep", [(servicesVar, str "event,timer"), (str "X", str "{}")])] := by decide +kernel

/-! ### where specs are not read as written -/

/-- C66 fails for empty dictionaries: a config spec with an empty dictionary is an error -/
theorem C66_violation_empty_dict (E : Env) :
    (addConfigSpec E {} (str "{\"name\":\"x\",\"config\":{}}") (fun _ => false) false).err = true := by
  have h : recDict (str "{\"name\":\"x\",\"config\":{}}") = ([(str "config", str "{}"), (str "name", str "x")], true) := by decide +kernel
  have h1 : listEntry [(str "config", str "{}"), (str "name", str "x")] true "services" = ([], true) := by decide +kernel
  have h2 : ∀ f, (readConfigSpec [(str "config", str "{}"), (str "name", str "x")] (str "x") f).2.2 = false := by
    intro f
    have : (readConfigSpec [(str "config", str "{}"), (str "name", str "x")] (str "x") (fun _ => false)).2.2 = false := by decide +kernel
    exact this
  unfold addConfigSpec
  simp only [h, h1]
  rw [show List.lookup (str "name") [(str "config", str "{}"), (str "name", str "x")] = some (str "x") by decide]
  simp [h2]

/-- C66 fails for wrong option specs inside a config spec: the config is added without an error and without this option and all later ones -/
theorem C66_violation_bad_option (E : Env) :
    let M := addConfigSpec E {} (str "{\"name\":\"x\",\"options\":[{\"type\":\"bool\"},{\"name\":\"ok\"}]}") (fun _ => false) false
    M.err = false ∧ ∃ c, M.specs.lookup (str "x") = some c ∧ c.opts.data = [] := by
  have h : recDict (str "{\"name\":\"x\",\"options\":[{\"type\":\"bool\"},{\"name\":\"ok\"}]}") =
      ([(str "name", str "x"), (str "options", str "[{\"type\":\"bool\"},{\"name\":\"ok\"}]")], true) := by decide +kernel
  have h1 : listEntry [(str "name", str "x"), (str "options", str "[{\"type\":\"bool\"},{\"name\":\"ok\"}]")] true "services" = ([], true) := by decide +kernel
  have h2 : (readConfigSpec [(str "name", str "x"), (str "options", str "[{\"type\":\"bool\"},{\"name\":\"ok\"}]")] (str "x") (fun _ => false)).2 = ([], true) := by
    decide +kernel
  have h3 : (readConfigSpec [(str "name", str "x"), (str "options", str "[{\"type\":\"bool\"},{\"name\":\"ok\"}]")] (str "x") (fun _ => false)).1.opts.data = [] := by
    decide +kernel
  intro M
  have hM : M = { ({} : Mgr) with specs := [(str "x", (readConfigSpec [(str "name", str "x"), (str "options", str "[{\"type\":\"bool\"},{\"name\":\"ok\"}]")] (str "x") (fun _ => false)).1)] } := by
    show addConfigSpec _ _ _ _ _ = _
    unfold addConfigSpec
    simp only [h, h1]
    rw [show List.lookup (str "name") [(str "name", str "x"), (str "options", str "[{\"type\":\"bool\"},{\"name\":\"ok\"}]")] = some (str "x") by decide]
    simp only [h2]
    simp [mins, mset]
  rw [hM]
  exact ⟨rfl, _, by simp [List.lookup], h3⟩

/-- C66 fails for the escapes of JSON: `\n` is read as the letter n -/
theorem C66_violation_escape : recDict (str "{\"a\":\"x\\ny\"}") = ([(str "a", str "xny")], true) := by decide +kernel

end Verif.ConfMgr
