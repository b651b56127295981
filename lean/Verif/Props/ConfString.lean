import Verif.ConfMgr.AddLemmas
/-!
# C67: config strings
-/
namespace Verif.ConfMgr
open Verif Verif.Cali Verif.Parse
open Verif.Query.CalQL (Spaces)

theorem runs_err {E : Env} {l : List Item} {M M' : Mgr} {F : Found} (h : Runs E l M M' F) (hM : M.err = false) : M'.err = false := by
  induction h with
  | nil => exact hM
  | config _ _ _ _ ih => exact ih hM
  | metadata _ _ ih => exact ih hM
  | option _ _ _ _ _ ih => exact ih hM
  | extra _ _ _ _ _ ih => exact ih hM
  | load hl _ ih => exact ih (loads_err hl hM)

/-- C67: a config string adds one channel for each config in it, in order, with the options given for it and the defaults; if the options for one of
the configs are refused there is an error and no channel is added -/
theorem C67_add (E : Env) (n : Nat) (M : Mgr) (items : List Item) (t : Str) (ht : StringT items t) (hM : (importBuiltin E M).err = false)
    (M' : Mgr) (F : Found) (hrun : Runs E items (importBuiltin E M) M' F) (R : Mgr) (hR : M.addExtra E n t = some R) :
    (R.err = false ∧ R.extra = M'.extra ∧ ∃ cs, R.channels = M.channels ++ cs ∧ List.Forall₂ (IsChan E M') F cs) ∨
    (R.err = true ∧ R.channels = M.channels ∧ ∃ f ∈ F, ∃ o, IsOpts M' f o ∧ Refused E f o) := by
  have hp := parseConfigString_ok ht hM hrun
  have hk := keeps_parse E M t
  rw [hp] at hk
  have hk1 : M'.channels = M.channels := hk.1
  have he : M'.err = false := runs_err hrun hM
  unfold Mgr.addExtra Mgr.parse at hR
  simp only [hp, he, Bool.false_eq_true, if_false] at hR
  cases hq : makeChans E n M' F with
  | none => rw [hq] at hR; cases hR
  | some q =>
    rw [hq] at hR
    simp only [Option.map_some, Option.some.injEq] at hR
    rcases makeChans_ok E n M' he F q.1 q.2 hq with ⟨h1, h2⟩ | ⟨h1, h2, h3⟩
    · rw [← hR, h1]
      exact .inl ⟨he, rfl, q.2, by simp [hk1], h2⟩
    · rw [← hR, h1, h2]
      exact .inr ⟨rfl, by simp [hk1], h3⟩

/-- C67: without extra variables the same holds for `add(string)`; an unknown config or parameter is an error -/
theorem C67_add_extra (E : Env) (n : Nat) (M R : Mgr) (t : Str) (hR : M.addExtra E n t = some R) :
    ∃ R', M.add E n t = some R' ∧ R'.channels = R.channels ∧ (R'.err = true ↔ R.err = true ∨ ∃ k v, (k, v) ∈ R.extra) := by
  unfold Mgr.add
  rw [hR]
  simp only [Option.map_some]
  by_cases h : R.extra = []
  · exact ⟨_, rfl, by rw [if_pos h], by rw [if_pos h, h]; simp⟩
  · refine ⟨_, rfl, by rw [if_neg h], ?_⟩
    rw [if_neg h]
    simp only [true_iff]
    right
    obtain ⟨e, l, he⟩ := List.exists_cons_of_ne_nil h
    exact ⟨e.1, e.2, by rw [he]; simp⟩

/-- C67: channels are only ever added, and none is added if there is an error in the string -/
theorem C67_grows (E : Env) (n : Nat) (M R : Mgr) (t : Str) (hR : M.addExtra E n t = some R) :
    ∃ cs, R.channels = M.channels ++ cs ∧ (R.err = true → cs = []) := by
  unfold Mgr.addExtra Mgr.parse at hR
  have hk := keeps_parse E M t
  by_cases he : (parseConfigString E M t).1.err = true
  · simp only [he, if_true, Option.map_some, Option.some.injEq] at hR
    exact ⟨[], by rw [← hR]; simp [hk.1], fun _ => rfl⟩
  · simp only [if_neg he] at hR
    cases hq : makeChans E n (parseConfigString E M t).1 (parseConfigString E M t).2 with
    | none => rw [hq] at hR; cases hR
    | some q =>
      rw [hq] at hR
      simp only [Option.map_some, Option.some.injEq] at hR
      obtain ⟨h1, h2⟩ := keeps_makeChans E n _ q.1 _ q.2 (by simpa using he) hq
      exact ⟨q.2, by rw [← hR]; simp [h1.1, hk.1], fun e => h2 (by rw [← hR] at e; exact e)⟩

/-- C67: errors stay: after an error no string adds a channel and all further calls report the error -/
theorem C67_error_stays (E : Env) (n : Nat) (M : Mgr) (hM : M.err = true) (t : Str) :
    ∃ R, M.addExtra E n t = some R ∧ R.err = true ∧ R.channels = M.channels := by
  have hk := keeps_parse E M t
  have he := hk.2 hM
  unfold Mgr.addExtra Mgr.parse
  simp only [he, if_true, Option.map_some, Option.some.injEq]
  exact ⟨_, rfl, rfl, by simp [hk.1]⟩

/-- an error while the string is read: an error is reported and no channel is added -/
theorem bad_string (E : Env) (n : Nat) (M : Mgr) (t : Str) (h : (parseConfigString E M t).1.err = true) :
    ∃ R, M.addExtra E n t = some R ∧ R.err = true ∧ R.channels = M.channels := by
  unfold Mgr.addExtra Mgr.parse
  simp only [h, if_true, Option.map_some, Option.some.injEq]
  exact ⟨_, rfl, rfl, by simp [(keeps_parse E M t).1]⟩

theorem parse_bad (E : Env) (M : Mgr) (pre post : List Item) (i : Item) (t : Str) (ht : StringT (pre ++ i :: post) t)
    (hM : (importBuiltin E M).err = false) (M1 : Mgr) (F : Found) (hrun : Runs E pre (importBuiltin E M) M1 F)
    (hb : ∀ s t r, ItemT i t → (r = [] ∨ ∃ cs, r = ch ',' :: cs) → At (t ++ r) s → (parseItem E M1 s).1.err = true) :
    (parseConfigString E M t).1.err = true := by
  have hg : (readChar ⟨t, true⟩).2.good = true := by
    generalize hl : pre ++ i :: post = l at ht
    cases ht with
    | one hi => have := itemT_first (r := []) hi; simpa using this
    | cons hi => exact itemT_first hi
  obtain ⟨t', n', s', h1, h2, h3, _, h5⟩ := configL_pre ht (by simp) (t.length + 1) (stringT_length ht) hM hrun (at_self t).unget
  unfold parseConfigString
  simp only [hg, if_true]
  rw [h5]
  exact configL_bad h1 n' h3 h2 (fun t r => hb s' t r)

/-- C67: an option that is not known for the config is an error; nothing is added -/
theorem C67_unknown_option (E : Env) (n : Nat) (M : Mgr) (pre post : List Item) (name : Str) (args : Args) (t : Str)
    (ht : StringT (pre ++ .config name args :: post) t) (hM : (importBuiltin E M).err = false) (M1 : Mgr) (F : Found)
    (hrun : Runs E pre (importBuiltin E M) M1 F) (c : CSpec) (hname : name ≠ str "load") (hc : M1.specs.lookup name = some c)
    (e : Str × Str) (he : e ∈ args) (hk : ¬Known M1 c e.1) :
    ∃ R, M.addExtra E n t = some R ∧ R.err = true ∧ R.channels = M.channels := by
  refine bad_string E n M t (parse_bad E M pre post _ t ht hM M1 F hrun ?_)
  intro s t r hi hr hs
  exact parseItem_unknown hi hr hname hc ⟨e, he, hk⟩ hs

/-- C67: a file that cannot be read or has an error in it is an error; nothing is added -/
theorem C67_bad_file (E : Env) (n : Nat) (M : Mgr) (pre post : List Item) (fs gs : List Str) (f : Str) (t : Str)
    (ht : StringT (pre ++ .load (fs ++ f :: gs) :: post) t) (hM : (importBuiltin E M).err = false) (M1 M2 : Mgr) (F : Found)
    (hrun : Runs E pre (importBuiltin E M) M1 F) (hl : Loads E fs M1 M2) (hf : E.files f = none ∨ (loadFile E M2 f).err = true) :
    ∃ R, M.addExtra E n t = some R ∧ R.err = true ∧ R.channels = M.channels := by
  have hb : (loadFile E M2 f).err = true := by
    rcases hf with h | h
    · unfold loadFile; rw [h]
    · exact h
  refine bad_string E n M t (parse_bad E M pre post _ t ht hM M1 F hrun ?_)
  intro s t r hi _ hs
  exact parseItem_bad_load hi hl hb hs

/-- C67: malformed items, at the beginning or after well-formed ones, are errors; nothing is added -/
theorem C67_malformed (E : Env) (n : Nat) (M : Mgr) (hM : (importBuiltin E M).err = false) (t : Str)
    (h : Malformed (importBuiltin E M) t ∨ ∃ pre t0 rest M1 F, StringT pre t0 ∧ Runs E pre (importBuiltin E M) M1 F ∧ Malformed M1 rest ∧ t = t0 ++ ch ',' :: rest) :
    ∃ R, M.addExtra E n t = some R ∧ R.err = true ∧ R.channels = M.channels := by
  refine bad_string E n M t ?_
  have first : ∀ {M t}, Malformed M t → (readChar ⟨t, true⟩).2.good = true := by
    intro M t h
    cases h with
    | junk _ _ ha ht => exact text_first ht ha
    | junkArgs _ _ ha ht => exact text_first ht ha
    | unclosed _ _ ha ht => exact text_first ht ha
    | noValue _ _ ha ht => exact text_first ht ha
    | openValue _ _ ha ht => exact text_first ht ha
    | openArg _ _ ha ht => exact text_first ht ha
  unfold parseConfigString
  rcases h with h | ⟨pre, t0, rest, M1, F, h0, hrun, h, rfl⟩
  · simp only [first h, if_true]
    exact configL_malformed hM h _ (by omega) (at_self t).unget
  · have hg : (readChar ⟨t0 ++ ch ',' :: rest, true⟩).2.good = true := by
      cases h0 with
      | one hi => exact itemT_first hi
      | cons hi => rw [List.append_assoc]; exact itemT_first hi
    simp only [hg, if_true]
    obtain ⟨n', s', g1, g2, g3, g4⟩ := configL_text h0 ((t0 ++ ch ',' :: rest).length + 1) (by
      have := stringT_length h0; simp; omega) hM hrun (at_self (t0 ++ ch ',' :: rest)).unget
    rw [g4]
    exact configL_malformed g3 h n' g2 g1

theorem checkFound_iff (E : Env) (n : Nat) (M : Mgr) (hM : M.err = false) (F : Found) :
    checkFound E n M F = some false ↔ ∃ cs, makeChans E n M F = some (M, cs) := by
  induction F with
  | nil => simp [checkFound, makeChans, hM]
  | cons f l ih =>
    obtain ⟨c, a⟩ := f
    rw [checkFound, makeChans]
    cases Opts.make n (c.opts.add M.global c.categories).data (M.addDefaults a c) with
    | none => simp
    | some o =>
      simp only [hM, Bool.false_or]
      rw [Bool.or_comm (c.check o)]
      by_cases hb : (o.check E.avail || c.check o) = true
      · rw [if_pos hb, if_pos hb]
        simp only [Option.some.injEq, Bool.true_eq_false, false_iff, not_exists, Prod.mk.injEq, not_and]
        intro cs h
        have := congrArg Mgr.err h
        rw [hM] at this; cases this
      · rw [if_neg hb, if_neg hb, ih]
        cases hq : makeChans E n M l with
        | none => simp
        | some q =>
          simp only [Option.map_some, Option.some.injEq, Prod.mk.injEq]
          constructor
          · rintro ⟨cs, h⟩; rw [h]; exact ⟨_, rfl, rfl⟩
          · rintro ⟨cs, h, _⟩; exact ⟨q.2, by rw [← h]⟩

/-- C67: `check` finds no error exactly if adding the string works -/
theorem C67_check (E : Env) (n : Nat) (M : Mgr) (t : Str) :
    (M.check E n t true = some false ↔ ∃ R, M.addExtra E n t = some R ∧ R.err = false) ∧
    (M.check E n t false = some false ↔ ∃ R, M.add E n t = some R ∧ R.err = false) := by
  have key : ∀ b, M.check E n t b = some false ↔
      (∃ R, M.addExtra E n t = some R ∧ R.err = false ∧ (b = false → R.extra = [])) := by
    intro b
    unfold Mgr.check Mgr.addExtra Mgr.parse
    generalize parseConfigString E M t = r
    obtain ⟨M1, F⟩ := r
    simp only
    by_cases he : M1.err = true
    · have h1 : checkFound E n M1 F ≠ some false := by
        cases F with
        | nil => simp [checkFound, he]
        | cons f l =>
          rw [checkFound]
          split
          · simp
          · simp [he]
      simp only [he, if_true, Option.map_some, Option.some.injEq, exists_eq_left']
      constructor
      · intro h
        cases hc : checkFound E n M1 F with
        | none => rw [hc] at h; cases h
        | some x =>
          rw [hc] at h
          cases x with
          | false => exact absurd hc h1
          | true => simp at h
      · rintro ⟨h, _⟩; simp at h
    · have he' : M1.err = false := by simpa using he
      have h1 := checkFound_iff E n M1 he' F
      simp only [he', Bool.false_eq_true, if_false]
      constructor
      · intro h
        cases hc : checkFound E n M1 F with
        | none => rw [hc] at h; cases h
        | some x =>
          rw [hc] at h
          cases x with
          | true => simp at h
          | false =>
            obtain ⟨cs, hcs⟩ := h1.1 hc
            rw [hcs]
            refine ⟨_, rfl, he', ?_⟩
            intro hb
            subst hb
            simpa using h
      · rintro ⟨R, hR, hRe, hx⟩
        cases hq : makeChans E n M1 F with
        | none => rw [hq] at hR; cases hR
        | some q =>
          rw [hq] at hR
          simp only [Option.map_some, Option.some.injEq] at hR
          rcases makeChans_ok E n M1 he' F q.1 q.2 hq with ⟨h2, _⟩ | ⟨h2, _⟩
          · rw [h1.2 ⟨q.2, by rw [hq, ← h2]⟩]
            simp only [Option.map_some, Option.some.injEq, Bool.false_or]
            cases b with
            | true => rfl
            | false =>
              have : M1.extra = [] := by
                have := hx rfl
                rw [← hR, h2] at this
                exact this
              simp [this]
          · rw [← hR, h2] at hRe; cases hRe
  refine ⟨by rw [key]; simp, ?_⟩
  rw [key]
  constructor
  · rintro ⟨R, h1, h2, h3⟩
    obtain ⟨R', h4, _, h5⟩ := C67_add_extra E n M R t h1
    refine ⟨R', h4, ?_⟩
    rw [h3 rfl, h2] at h5
    simpa using h5
  · rintro ⟨R', h4, h5⟩
    unfold Mgr.add at h4
    cases hq : M.addExtra E n t with
    | none => rw [hq] at h4; cases h4
    | some R =>
      rw [hq] at h4
      simp only [Option.map_some, Option.some.injEq] at h4
      by_cases hx : R.extra = []
      · rw [if_pos hx] at h4; exact ⟨R, rfl, by rw [h4]; exact h5, fun _ => hx⟩
      · rw [if_neg hx] at h4; rw [← h4] at h5; cases h5

/-! ### examples -/

/-- a report with two options of its own -/
def demoRep : CSpec :=
  ⟨str "rep", [str "metric"], [], [(servicesVar, str "event")], { data := [(str "output", { type := str "string" }), (str "time", { type := str "bool" })] },
   [(str "output", str "stdout")], fun _ => false⟩

/-- a manager with this report and a global option -/
def demoMgr : Mgr :=
  { global := { data := [(str "mem", { type := str "bool", category := str "metric", services := [str "alloc"] }), (str "plot", { category := str "other" })] },
    specs := [(str "rep", demoRep)], dfltFor := [(str "rep", [(str "mem", str "false")])] }

/-- no files, two services, no built-in configs -/
def demoEnv : Env := ⟨fun _ => none, [str "alloc", str "event"], []⟩

instance (w : Str) : Decidable (Spaces w) := by unfold Spaces; infer_instance

theorem text_plain {sep w : Str} (h : w ≠ []) (hp : ∀ c ∈ w, c ≠ ch '\\' ∧ c ≠ ch '"' ∧ isSpace c = false ∧ sep.contains c = false) : IsText sep w w :=
  ⟨h, .inr ⟨rfl, hp⟩⟩

/-- hypotheses of `C67_add` -/
example : StringT [.config (str "rep") [(str "time", str "false"), (str "output", str "a,b")], .param (str "mem") [], .param (str "x") (str "1")]
      (str "rep(time=false , output=\"a,b\"), mem,x=1") ∧
    Runs demoEnv [.config (str "rep") [(str "time", str "false"), (str "output", str "a,b")], .param (str "mem") [], .param (str "x") (str "1")]
      (importBuiltin demoEnv demoMgr) { demoMgr with dflt := [(str "mem", str "true")], extra := [(str "x", str "1")] }
      [(demoRep, [(str "time", str "false"), (str "output", str "a,b")])] := by
  constructor
  · refine StringT.cons (t := str "rep(time=false , output=\"a,b\")") (r := str " mem,x=1") ?_
      (StringT.cons (t := str " mem") (r := str "x=1") ?_ (.one ?_))
    · refine ⟨[], str "rep", str "(time=false , output=\"a,b\")", [], by decide, by decide, text_plain (by decide) (by decide), .inr ⟨[], str "time=false , output=\"a,b\"",
        by decide, .inr (ArgsT.cons (t := str "time=false ") (r := str " output=\"a,b\"") ?_ (.one ?_)), by decide⟩, by decide⟩
      · exact ⟨[], str "time", str "false", str "=false", str " ", by decide, by decide, text_plain (by decide) (by decide),
          .inr (.inl ⟨[], [], str "false", by decide, by decide, text_plain (by decide) (by decide), by decide⟩), by decide, by decide⟩
      · exact ⟨str " ", str "output", str "a,b", str "=\"a,b\"", [], by decide, by decide, text_plain (by decide) (by decide),
          .inr (.inl ⟨[], [], str "\"a,b\"", by decide, by decide, ⟨by decide, .inl (by decide)⟩, by decide⟩), by decide, by decide⟩
    · exact ⟨str " ", str "mem", [], [], by decide, by decide, text_plain (by decide) (by decide), .inl ⟨rfl, rfl⟩, by decide⟩
    · exact ⟨[], str "x", str "=1", [], by decide, by decide, text_plain (by decide) (by decide),
        .inr (.inl ⟨[], [], str "1", by decide, by decide, text_plain (by decide) (by decide), by decide⟩), by decide⟩
  · refine .config (by decide) rfl ?_ (.option (by decide) (by decide) rfl (.inl (by decide)) (.extra (by decide) (by decide) rfl ?_ .nil))
    · intro e he
      simp only [List.mem_cons, List.not_mem_nil, or_false] at he
      rcases he with rfl | rfl
      · exact .inr (.inl (by decide))
      · exact .inr (.inl (by decide))
    · rintro (h | ⟨n, c, h, h'⟩)
      · revert h; decide
      · have : (n, c) ∈ [(str "rep", demoRep)] := h
        rw [List.mem_singleton] at this
        rw [show c = demoRep from congrArg Prod.snd this] at h'
        revert h'; decide

/-- the channel that is added: options in order, with the defaults -/
example : (demoMgr.addExtra demoEnv 2 (str "rep(time=false , output=\"a,b\"), mem,x=1")).map
      (fun R => R.channels.flatMap fun c => c.opts.args) =
    some [(str "time", str "false"), (str "output", str "a,b"), (str "mem", str "false")] := by
  decide +kernel

/-- hypotheses of `C67_malformed`: `rep(time` , `rep=1`, `x=`, `x(y` and `rep(time(y` are malformed -/
example : Malformed demoMgr (str "rep(time") ∧ Malformed demoMgr (str "rep=1") ∧ Malformed demoMgr (str "x= ,rep") ∧ Malformed demoMgr (str "rep(time) x") ∧
    Malformed demoMgr (str "x(y") ∧ Malformed demoMgr (str "rep(time(y") := by
  have hk : Known demoMgr demoRep (str "time") := .inr (.inl (by decide))
  have ha : ArgsT [(str "time", str "true")] (str "time") :=
    .one ⟨[], str "time", [], [], [], by decide, by decide, text_plain (by decide) (by decide), .inl ⟨rfl, rfl⟩, by decide, by decide⟩
  have hn : Nest (ch '(') (ch ')') (str "y") := Nest.of_plain (by decide)
  refine ⟨?_, ?_, ?_, ?_, ?_, ?_⟩
  · exact .unclosed (name := str "rep") (c := demoRep) (a := []) (tk := str "rep") (w := []) (by decide) rfl (by decide) (text_plain (by decide) (by decide)) (by decide) ha
      (by intro e he; rw [List.mem_singleton] at he; rw [he]; exact hk)
  · exact .junk (name := str "rep") (c := demoRep) (a := []) (tk := str "rep") (w := []) (x := ch '=') (r := str "1") (by decide) rfl (by decide)
      (text_plain (by decide) (by decide)) (by decide) (by decide) (by decide) (by decide) (by decide)
  · exact .noValue (key := str "x") (a := []) (tk := str "x") (w := []) (d := str " ") (r := str ",rep") (by decide) rfl (by decide)
      (text_plain (by decide) (by decide)) (by decide) (by decide) (.inr ⟨_, rfl⟩)
  · exact .junkArgs (name := str "rep") (c := demoRep) (a := []) (tk := str "rep") (w := []) (d := str " ") (x := ch 'x') (r := []) (by decide) rfl (by decide)
      (text_plain (by decide) (by decide)) (by decide) ha (by intro e he; rw [List.mem_singleton] at he; rw [he]; exact hk) (by decide) (by decide) (by decide)
  · exact .openValue (key := str "x") (a := []) (tk := str "x") (w := []) (by decide) rfl (by decide) (text_plain (by decide) (by decide)) (by decide) hn
  · exact .openArg (name := str "rep") (c := demoRep) (a := []) (tk := str "rep") (w := []) (key := str "time") (b := []) (tb := str "time") (d := []) (by decide) rfl (by decide)
      (text_plain (by decide) (by decide)) (by decide) (by decide) (text_plain (by decide) (by decide)) (by decide) hn

/-- hypotheses of `C67_unknown_option` and `C67_bad_file` -/
example : ¬Known demoMgr demoRep (str "plot") ∧ demoEnv.files (str "f.json") = none := by
  refine ⟨?_, rfl⟩
  rintro (h | h | ⟨o, h, h'⟩)
  · revert h; decide
  · revert h; decide
  · have : (str "plot", o) ∈ [(str "mem", _), (str "plot", _)] := h
    simp only [List.mem_cons, Prod.mk.injEq, List.not_mem_nil, or_false] at this
    rcases this with ⟨h, _⟩ | ⟨_, rfl⟩
    · revert h; decide
    · revert h'; decide

/-- **C67 (defaults)**: `set_default_parameter` adds a default for all configs, behind those set before (which therefore win), and
`set_default_parameter_for_config` one for this config only; nothing else of the manager changes. -/
theorem C67_defaults (M : Mgr) (n k v : Str) (c : CSpec) :
    (M.setDefault k v).defaultsFor c = [(M.dfltFor.lookup c.name).getD [], M.dflt ++ [(k, v)], c.defaults] ∧
    (M.setDefaultFor n k v).defaultsFor c =
      [(M.dfltFor.lookup c.name).getD [] ++ (if c.name = n then [(k, v)] else []), M.dflt, c.defaults] ∧
    (∀ M' ∈ [M.setDefault k v, M.setDefaultFor n k v], M'.channels = M.channels ∧ M'.err = M.err ∧ M'.extra = M.extra ∧ M'.global = M.global ∧
      M'.specs = M.specs) := by
  refine ⟨rfl, ?_, ?_⟩
  · unfold Mgr.defaultsFor Mgr.setDefaultFor
    simp only [mset_lookup]
    by_cases h : c.name = n
    · rw [if_pos h, if_pos h, h]; rfl
    · rw [if_neg h, if_neg h, List.append_nil]
  · intro M' hM
    simp only [List.mem_cons, List.not_mem_nil, or_false] at hM
    rcases hM with rfl | rfl <;> exact ⟨rfl, rfl, rfl, rfl, rfl⟩

/-- **C67 (get_channel)**: the first channel with this name, or none if there is none. -/
theorem C67_get_channel (M : Mgr) (name : Str) :
    (M.getChannel name = none ↔ ∀ c ∈ M.channels, c.name ≠ name) ∧
    ∀ c, M.getChannel name = some c ↔ ∃ pre post, M.channels = pre ++ c :: post ∧ c.name = name ∧ ∀ d ∈ pre, d.name ≠ name := by
  unfold Mgr.getChannel
  refine ⟨by simp, ?_⟩
  intro c
  rw [List.find?_eq_some_iff_append]
  simp only [decide_eq_true_eq, Bool.not_eq_true', decide_eq_false_iff_not, ne_eq]
  constructor
  · rintro ⟨h1, pre, post, h2, h3⟩; exact ⟨pre, post, h2, h1, h3⟩
  · rintro ⟨pre, post, h2, h1, h3⟩; exact ⟨h1, pre, post, h2, h3⟩

/-! ### where config strings do not do what they say -/

/-- C67 fails across calls: the options in an earlier string stay defaults and win over those in a later one -/
theorem C67_violation_stale_default :
    ((demoMgr.addExtra demoEnv 2 (str "rep,time=false")).bind fun M => M.addExtra demoEnv 2 (str "rep,time=true")).map
      (fun R => (R.err, R.channels.map fun c => c.opts.get (str "time") [])) = some (false, [str "false", str "false"]) := by decide +kernel

/-- C67 fails for unknown parameters: `add` reports an error and adds the channel all the same -/
theorem C67_violation_added_with_error :
    (demoMgr.add demoEnv 2 (str "rep,foo")).map (fun R => (R.err, R.channels.map Chan.name)) = some (true, [str "rep"]) := by decide +kernel

/-- C67 fails after extra variables were accepted: they make a later `add` of a correct string fail -/
theorem C67_violation_old_extra :
    (demoMgr.addExtra demoEnv 2 (str "foo=1")).map Mgr.err = some false ∧ (demoMgr.add demoEnv 2 (str "rep")).map Mgr.err = some false ∧
    ((demoMgr.addExtra demoEnv 2 (str "foo=1")).bind fun M => M.add demoEnv 2 (str "rep")).map Mgr.err = some true := by decide +kernel

/-- C67 fails for a comma at the end: a variable without a name is set -/
theorem C67_violation_trailing_comma :
    (demoMgr.addExtra demoEnv 2 (str "rep,")).map (fun R => (R.err, R.extra)) = some (false, [([], [])]) ∧
    (demoMgr.add demoEnv 2 (str "rep,")).map Mgr.err = some true := by decide +kernel

end Verif.ConfMgr
