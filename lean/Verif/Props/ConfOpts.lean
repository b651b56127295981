import Verif.ConfMgr.OptsLemmas
/-!
# C68: what the options of a config do
-/
namespace Verif.ConfMgr
open Verif Verif.Cali Verif.Parse

/-- C68: an option is enabled exactly if it, or an option that inherits it, is given with a value that turns it on -/
theorem C68_enabled (n : Nat) (D : List (Str × Opt)) (args : Args) (o : Opts) (h : Opts.make n D args = some o) (k : Str) :
    o.isEnabled k = true ↔ On D args k := by
  obtain ⟨_, _, l, h1, h2⟩ := make_some h
  unfold Opts.isEnabled
  rw [List.contains_iff_mem, h2.1, listed_mem h1]

/-- C68: enabled options come in the order of the arguments, each followed by those it inherits, and none of them twice -/
theorem C68_order (n : Nat) (D : List (Str × Opt)) (args : Args) (o : Opts) (h : Opts.make n D args = some o) :
    (∃ l, Listed D args l ∧ Firsts l o.enabled) ∧ o.enabled.Nodup ∧
    o.enabledOptions = o.enabled.filter fun k => decide (∃ d, D.lookup k = some d ∧ d.type = str "bool") := by
  obtain ⟨h0, _, l, h1, h2⟩ := make_some h
  refine ⟨⟨l, h1, h2⟩, h2.2.imp (fun {a b} hab e => by subst e; exact absurd hab (Nat.lt_irrefl _)), ?_⟩
  unfold Opts.enabledOptions
  rw [h0]
  refine List.filter_congr fun k _ => ?_
  cases D.lookup k <;> simp

/-- C68: if no option inherits itself, also not through others, the options are found -/
theorem C68_terminates (D : List (Str × Opt)) (args : Args) (rank : Str → Nat) (hr : ∀ a b, Inh D a b → rank b < rank a) :
    ∃ n o, ∀ m, n ≤ m → Opts.make m D args = some o := by
  obtain ⟨n, hn⟩ : ∃ n, ∀ a ∈ args, rank a.1 < n := by
    induction args with
    | nil => exact ⟨0, fun a ha => by cases ha⟩
    | cons a args ih =>
      obtain ⟨n, hn⟩ := ih
      refine ⟨max n (rank a.1 + 1), fun b hb => ?_⟩
      rcases List.mem_cons.1 hb with rfl | hb
      · omega
      · have := hn b hb; omega
  obtain ⟨v, hv⟩ := enabledVec_some D n args fun a ha => inherited_some D rank hr n a.1 (hn a ha)
  refine ⟨n, ⟨D, args, dedup v⟩, fun m hm => ?_⟩
  obtain ⟨v', hv'⟩ := enabledVec_some D m args fun a ha => inherited_some D rank hr m a.1 (by have := hn a ha; omega)
  obtain ⟨l, h1, h2⟩ := listed_of_vec D n args [] v hv
  obtain ⟨l', h1', h2'⟩ := listed_of_vec D m args [] v' hv'
  have : l = l' := by
    clear h1 h1' hv hv' hn
    induction h2 generalizing l' with
    | nil => cases h2'; rfl
    | off ho _ ih =>
      cases h2' with
      | off _ h => exact ih _ h
      | on h1 h2 => exact absurd h2 (ho _ h1)
    | on ho ht hx _ ih =>
      cases h2' with
      | off h1 h => exact absurd ht (h1 _ ho)
      | on h1 h2 h3 h4 => rw [expands_unique D hx h3, ih _ h4]
  unfold Opts.make
  rw [hv', h1', h1, this]
  rfl

/-- C68: options are refused exactly if a bool option is given with a value that is neither true nor false, or an enabled option needs a service
that is not available -/
theorem C68_check (n : Nat) (D : List (Str × Opt)) (args : Args) (o : Opts) (h : Opts.make n D args = some o) (avail : List Str) :
    o.check avail = true ↔ (∃ k v d, (k, v) ∈ args ∧ D.lookup k = some d ∧ d.type = str "bool" ∧ toBoolStr v = none) ∨
      ∃ k d s, On D args k ∧ D.lookup k = some d ∧ s ∈ d.services ∧ s ∉ avail := by
  have hon := C68_enabled n D args o h
  obtain ⟨h0, h0', _⟩ := make_some h
  unfold Opts.isEnabled at hon
  simp only [List.contains_iff_mem] at hon
  unfold Opts.check
  rw [h0, h0']
  simp only [Bool.or_eq_true, List.any_eq_true, Option.any_eq_true, Bool.and_eq_true, decide_eq_true_eq, Option.isNone_iff_eq_none, Prod.exists,
    Bool.not_eq_true', List.contains_eq_mem, decide_eq_false_iff_not]
  constructor
  · rintro (⟨k, v, h1, d, h2, h3, h4⟩ | ⟨k, h1, d, h2, s, h3, h4⟩)
    · exact .inl ⟨k, v, d, h1, h2, h3, h4⟩
    · exact .inr ⟨k, d, s, (hon k).1 h1, h2, h3, h4⟩
  · rintro (⟨k, v, d, h1, h2, h3, h4⟩ | ⟨k, d, s, h1, h2, h3, h4⟩)
    · exact .inl ⟨k, v, h1, d, h2, h3, h4⟩
    · exact .inr ⟨k, (hon k).2 h1, d, h2, s, h3, h4⟩

/-- C68: the services are those given before and those of all enabled options, sorted and without duplicates -/
theorem C68_services (n : Nat) (D : List (Str × Opt)) (args : Args) (o : Opts) (h : Opts.make n D args = some o) (cur : Str) :
    ∃ l, o.services cur = commas l ∧ l.Pairwise (fun a b => Query.Json.strLt a b = true) ∧
      ∀ s, s ∈ l ↔ s ∈ Config.stringList cur ∨ ∃ k d, On D args k ∧ D.lookup k = some d ∧ s ∈ d.services := by
  have hon := C68_enabled n D args o h
  obtain ⟨h0, _, _⟩ := make_some h
  unfold Opts.isEnabled at hon
  simp only [List.contains_iff_mem] at hon
  refine ⟨_, joinList_eq _, (sortUnique_spec _).1, fun s => ?_⟩
  rw [(sortUnique_spec _).2]
  have key : ∀ (l acc : List Str), s ∈ l.foldl (fun v e => v ++ (match o.data.lookup e with | some d => d.services | none => [])) acc ↔
      s ∈ acc ∨ ∃ k ∈ l, ∃ d, D.lookup k = some d ∧ s ∈ d.services := by
    intro l
    induction l with
    | nil => simp
    | cons e l ih =>
      intro acc
      rw [List.foldl_cons, ih, List.mem_append, h0, or_assoc]
      simp only [List.mem_cons, exists_eq_or_imp]
      cases D.lookup e <;> simp
  refine (key o.enabled (Config.stringList cur)).trans ?_
  constructor
  · rintro (h | ⟨k, hk, d, hd⟩)
    · exact .inl h
    · exact .inr ⟨k, d, (hon k).1 hk, hd⟩
  · rintro (h | ⟨k, d, hk, hd⟩)
    · exact .inl h
    · exact .inr ⟨k, (hon k).2 hk, d, hd⟩

/-- C68: the channel configuration: for each variable the last setting of an enabled option; otherwise the services, or what was set before -/
theorem C68_config (o : Opts) (cfg : List (Str × Str)) (q : Str) :
    (o.updateConfig cfg).lookup q = (lastVal (o.enabled.flatMap o.settings) q).or
      (if q = servicesVar then some (o.services ((cfg.lookup servicesVar).getD [])) else cfg.lookup q) := by
  unfold Opts.updateConfig
  rw [appendConfig_eq, setAll_lookup, mset_lookup]
  rfl

/-- C68: what a config without its own controller does with its options: `output` names the files, then the settings of the options follow -/
theorem C68_channel (files : Str → Option Str) (c : Chan) (q : Str) :
    (basicController files c).1.lookup q = (lastVal (c.opts.enabled.flatMap c.opts.settings) q).or
      (if q = servicesVar then some (c.opts.services ((c.initial.lookup servicesVar).getD []))
       else if q ∈ [str "CALI_RECORDER_FILENAME", str "CALI_REPORT_FILENAME", str "CALI_MPIREPORT_FILENAME"] then
         (c.opts.args.lookup (str "output")).or (c.initial.lookup q)
       else c.initial.lookup q) := by
  unfold basicController
  simp only
  rw [C68_config]
  cases ho : c.opts.args.lookup (str "output") with
  | none =>
    simp only [Option.none_or]
    congr 1
    split
    · rfl
    · split <;> rfl
  | some f =>
    simp only [Option.some_or, mset_lookup]
    rw [if_neg (show ¬servicesVar = str "CALI_MPIREPORT_FILENAME" by decide), if_neg (show ¬servicesVar = str "CALI_REPORT_FILENAME" by decide),
      if_neg (show ¬servicesVar = str "CALI_RECORDER_FILENAME" by decide)]
    congr 1
    split
    · rfl
    · simp only [List.mem_cons, List.not_mem_nil, or_false]
      by_cases h1 : q = str "CALI_MPIREPORT_FILENAME"
      · simp [h1]
      · by_cases h2 : q = str "CALI_REPORT_FILENAME"
        · simp [h2]
        · by_cases h3 : q = str "CALI_RECORDER_FILENAME"
          · simp [h3]
          · simp [h1, h2, h3]

/-- C68: queries: the texts of the enabled options for this level follow the given query, in order -/
theorem C68_query (o : Opts) (level inp : Str) : o.buildQuery level inp = inp ++ o.enabled.flatMap (o.queryText level) := buildQuery_eq o level inp

/-- C68: the value of the option is put in for each `{}` in a text that has no other braces -/
theorem C68_expand (v : Str) (l : List Str) (h : ∀ s ∈ l, ch '{' ∉ s) : expand v (List.intercalate (str "{}") l) = List.intercalate v l := expand_pieces v l h

/-! ### examples -/

/-- options: `a` inherits `b` and `c`, `b` inherits `d` -/
def demoOpts : List (Str × Opt) :=
  [(str "a", { type := str "bool", inherited := [str "b", str "c"] }), (str "b", { inherited := [str "d"], config := [(str "X", str "1")] }),
   (str "c", { type := str "bool", services := [str "s1"] }), (str "d", { config := [(str "X", str "v={}")], services := [str "s2"] })]

example : (Opts.make 3 demoOpts [(str "c", str "no"), (str "d", str "7"), (str "a", str "true")]).map Opts.enabled =
    some [str "d", str "a", str "b", str "c"] := by decide +kernel

/-- hypothesis of `C68_terminates` -/
example : ∀ a b, Inh demoOpts a b → ([(str "a", 2), (str "b", 1)].lookup b).getD 0 < ([(str "a", 2), (str "b", 1)].lookup a).getD 0 := by
  rintro a b ⟨o, ho, hb⟩
  have hm : (a, o) ∈ demoOpts := by
    clear hb
    unfold demoOpts at ho ⊢
    simp only [List.lookup_cons, List.lookup_nil] at ho
    split at ho
    · rename_i e; rw [eq_of_beq e]; cases ho; simp
    · split at ho
      · rename_i e; rw [eq_of_beq e]; cases ho; simp
      · split at ho
        · rename_i e; rw [eq_of_beq e]; cases ho; simp
        · split at ho
          · rename_i e; rw [eq_of_beq e]; cases ho; simp
          · cases ho
  have all : ∀ p ∈ demoOpts, ∀ b ∈ p.2.inherited, ([(str "a", 2), (str "b", 1)].lookup b).getD 0 < ([(str "a", 2), (str "b", 1)].lookup p.1).getD 0 := by
    unfold demoOpts; decide
  exact all (a, o) hm b hb

/-- services and settings -/
example : (Opts.make 3 demoOpts [(str "d", str "7"), (str "a", str "true")]).map (fun o => o.updateConfig [(servicesVar, str "t, s2")]) =
    some [(servicesVar, str "s1,s2,t"), (str "X", str "1")] := by decide +kernel

/-! ### where options do not do what they say -/

/-- C68 fails for an option that inherits itself: the program does not get through -/
theorem C68_violation_cycle (n : Nat) : Opts.make n [(str "a", { inherited := [str "a"] })] [(str "a", str "true")] = none := by
  have h : ∀ n, inherited [(str "a", { inherited := [str "a"] })] n (str "a") = none := by
    intro n
    induction n with
    | zero => rfl
    | succ n ih =>
      rw [inherited]
      simp only [List.lookup_cons, beq_self_eq_true, List.foldlM_cons, ih]
      rfl
  unfold Opts.make enabledVec
  simp only [List.foldlM_cons, List.lookup_cons, beq_self_eq_true, h]
  rfl

/-- C68 fails for an option given twice: its value is the first one, but any of them can turn it on -/
theorem C68_violation_twice :
    (Opts.make 1 [(str "time", { type := str "bool" })] [(str "time", str "false"), (str "time", str "true")]).map
      (fun o => (o.get (str "time") [], o.isEnabled (str "time"))) = some (str "false", true) := by decide +kernel

/-- C68 fails for an option that is turned off, if another option inherits it: it is on -/
theorem C68_violation_off_inherited :
    (Opts.make 2 [(str "a", { type := str "bool", inherited := [str "b"] }), (str "b", { type := str "bool" })] [(str "a", str "true"), (str "b", str "false")]).map
      (fun o => o.isEnabled (str "b")) = some true := by decide +kernel

/-- C68 fails for inherited options with a place for the value: the braces stay in the setting, in a query nothing is put in -/
theorem C68_violation_unfilled :
    (Opts.make 2 [(str "a", { inherited := [str "b"] }), (str "b", { config := [(str "X", str "n={}")], query := [(str "local", str "let x={}")] })] [(str "a", str "7")]).map
      (fun o => (o.appendConfig [], o.buildQuery (str "local") [])) = some ([(str "X", str "n={}")], str " let x=") := by decide +kernel

/-- C68 fails for a brace in front of `{}`: no value is put in -/
theorem C68_violation_brace : expand (str "7") (str "{{}}") = str "{{}}" := by decide +kernel

end Verif.ConfMgr
