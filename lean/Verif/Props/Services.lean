import Verif.Serv.ServicesSpec
import Verif.ConfMgr.MetaLemmas
import Verif.Props.Config
import Verif.Props.MpiFilter
/-!
# C94: the services of a channel
-/
namespace Verif.Services
open Verif Verif.Cali Verif.Parse Verif.ConfMgr
open Verif.Query.CalQL (Spaces)
open Verif.Config (World State SMap firstOf sources)
open Verif.MpiFilter (splitNames NamesText splitNames_text)

theorem nameOf_named {s n : Str} (h : Named s n) : nameOf s = n := by
  cases h with
  | spec hw hj hn =>
    obtain ⟨vs, h1, h2⟩ := recDict_ok (r := _) hw hj
    unfold nameOf
    rw [h1]
    simp only [if_true]
    rw [nameF_get h2 hn]; rfl
  | plain h =>
    unfold nameOf
    rw [recDict_no_brace h]; rfl

theorem addServices_array {as : List Added} {l : List Service} (h : IsArray as l) (m : Reg) :
    addServices m l = setAll m (as.map fun a => (a.name, (a.spec, a.fn))) := by
  induction h generalizing m with
  | @nil s l hs =>
    obtain ⟨s, f⟩ := s
    rcases hs with h | h <;> simp only at h <;> subst h
    · rfl
    · cases s <;> rfl
  | cons hn _ ih => rw [addServices, nameOf_named hn, ih]; rfl

theorem find_lookup (m : Reg) (k : Str) : (m.find? fun p => decide (p.1 = k)).map Prod.snd = m.lookup k := by
  induction m with
  | nil => rfl
  | cons e m ih =>
    rw [List.find?_cons, List.lookup_cons]
    by_cases h : e.1 = k
    · simp [h]
    · simp [h, show (k == e.1) = false by simpa using fun h' => h h'.symm, ih]

theorem lastVal_map {α β : Type} (f : α → β) (l : List (Str × α)) (k : Str) : lastVal (l.map fun e => (e.1, f e.2)) k = (lastVal l k).map f := by
  unfold lastVal
  rw [← List.map_reverse, List.find?_map, Option.map_map, Option.map_map]
  rfl

/-- the arrays added one after the other -/
def addAll (arrays : List (List Service)) : Reg := arrays.foldl addServices []

theorem addAll_eq {as : List (List Added)} {ls : List (List Service)} (h : List.Forall₂ IsArray as ls) :
    addAll ls = setAll [] (as.flatten.map fun a => (a.name, (a.spec, a.fn))) := by
  unfold addAll
  suffices ∀ m : Reg, ls.foldl addServices m = setAll m (as.flatten.map fun a => (a.name, (a.spec, a.fn))) from this []
  induction h with
  | nil => intro m; rfl
  | cons h _ ih =>
    intro m
    rw [List.foldl_cons, addServices_array h, ih, List.flatten_cons, List.map_append, setAll_append]

theorem registerService_last {as : List (List Added)} {ls : List (List Service)} (h : List.Forall₂ IsArray as ls) (name : Str) :
    registerService (addAll ls) name = lastAdded as.flatten name := by
  have h1 : registerService (addAll ls) name = ((addAll ls).lookup name).map Prod.snd := by
    rw [← find_lookup]; unfold registerService; cases (addAll ls).find? _ <;> rfl
  rw [h1, addAll_eq h, setAll_lookup]
  unfold lastAdded
  have e : (as.flatten.map fun a => (a.name, a.fn)) = (as.flatten.map fun a => (a.name, (a.spec, a.fn))).map fun e => (e.1, e.2.2) := by
    rw [List.map_map]; rfl
  rw [e, lastVal_map (fun x : Str × Nat => x.2)]
  cases lastVal (as.flatten.map fun a => (a.name, (a.spec, a.fn))) name <;> rfl

/-- C94: the available services are the names of the added ones, each once, in order. -/
theorem C94_available {as : List (List Added)} {ls : List (List Service)} (h : List.Forall₂ IsArray as ls) :
    (available (addAll ls)).Pairwise (fun a b => Query.Json.strLt a b = true) ∧
    ∀ n, n ∈ available (addAll ls) ↔ ∃ a ∈ as.flatten, a.name = n := by
  rw [addAll_eq h]
  have hm := mapOf_setAll (as.flatten.map fun a => (a.name, (a.spec, a.fn)))
  refine ⟨List.pairwise_map.2 hm.1, fun n => ?_⟩
  constructor
  · intro hn
    obtain ⟨e, he, rfl⟩ := List.mem_map.1 hn
    obtain ⟨a, ha, rfl⟩ := List.mem_map.1 (mapOf_mem hm he)
    exact ⟨a, ha, rfl⟩
  · rintro ⟨a, ha, rfl⟩
    by_contra hc
    have h1 : (setAll [] (as.flatten.map fun a => (a.name, (a.spec, a.fn)))).lookup a.name = none := by
      rw [List.lookup_eq_none_iff]
      intro p hp
      simp only [beq_eq_false_iff_ne, ne_eq, bne_iff_ne]
      intro e; exact hc (List.mem_map.2 ⟨p, hp, e.symm⟩)
    rw [hm.2] at h1
    unfold lastVal at h1
    rw [Option.map_eq_none_iff, List.find?_eq_none] at h1
    exact h1 (a.name, (a.spec, a.fn)) (List.mem_reverse.2 (List.mem_map.2 ⟨a, ha, rfl⟩)) (by simp)

/-! ## The check -/

theorem formatGroup_words (g : Group) : formatGroup g.services (str ", ") (str " or ") = g.words := by
  cases g <;> decide +kernel

theorem check_one (services : List Str) (d : Group × Group) {ds : List (Group × Group)} {ws : List Str} (h : Warnings services ds ws) :
    Warnings services (d :: ds) (checkDependency d.1 d.2 services ++ ws) := by
  unfold checkDependency
  cases h1 : d.1.services.find? fun s => services.contains s with
  | none =>
    refine .met ?_ h
    rintro ⟨⟨s, hs, hs'⟩, -⟩
    have := List.find?_eq_none.1 h1 s hs
    simp [hs'] at this
  | some s =>
    cases h2 : d.2.services.find? fun s => services.contains s with
    | some t =>
      refine .met ?_ h
      rintro ⟨-, hn⟩
      exact hn t (List.mem_of_find?_eq_some h2) (by simpa using List.find?_some h2)
    | none =>
      simp only [formatGroup_words]
      refine .unmet ⟨⟨s, List.mem_of_find?_eq_some h1, by simpa using List.find?_some h1⟩, ?_⟩ ?_ h
      · intro t ht ht'
        have := List.find?_eq_none.1 h2 t ht
        simp [ht'] at this
      · obtain ⟨hs, a, b, hab, ha⟩ := List.find?_eq_some_iff_append.1 h1
        exact ⟨a, b, hab, by simpa using hs, fun x hx => by simpa using ha x hx⟩

theorem check_all (services : List Str) (ds : List (Group × Group)) : Warnings services ds (ds.flatMap fun d => checkDependency d.1 d.2 services) := by
  induction ds with
  | nil => exact .nil
  | cons d ds ih => rw [List.flatMap_cons]; exact check_one services d ih

/-! ## Creating a channel -/

variable (builtin : List Byte)

theorem before_snoc (h : List (World × Config.Op)) (x : World × Config.Op) (hx : x.2.starts = true) : Config.before (h ++ [x]) = Config.before h := by
  unfold Config.before
  induction h with
  | nil => simp [hx]
  | cons y h ih =>
    rw [List.cons_append, List.takeWhile_cons, List.takeWhile_cons]
    split
    · rw [ih]
    · rfl

theorem since_snoc (h : List (World × Config.Op)) (x : World × Config.Op) (hx : x.2.starts = true) : Config.since (h ++ [x]) = Config.since h ++ [x] := by
  unfold Config.since
  induction h with
  | nil => simp [hx]
  | cons y h ih =>
    rw [List.cons_append, List.dropWhile_cons, List.dropWhile_cons]
    split
    · rw [ih]
    · rfl

/-- asking for other settings in between does not change where a value comes from -/
theorem sources_snoc (h : List (World × Config.Op)) (W : World) (name : Str) (l : List (Str × Str)) (k : Str) :
    sources builtin (h ++ [(W, .init name l)]) W k = sources builtin h W k := by
  have hs : ((W, Config.Op.init name l) : World × Config.Op).2.starts = true := rfl
  have hw : Config.startWorld (h ++ [(W, .init name l)]) W = Config.startWorld h W := by
    unfold Config.startWorld
    rw [since_snoc h _ hs]
    cases Config.since h <;> rfl
  have h0 : ∀ {α : Type} (f : Config.Op → Option α), f (.init name l) = none → ∀ g, Config.lastOf f (g ++ [(W, .init name l)]) = Config.lastOf f g := by
    intro α f hf g
    rw [Config.lastOf_snoc]
    simp [hf]
  unfold sources
  simp only [before_snoc h _ hs, hw, since_snoc h _ hs, Config.envOf, h0 (Config.Op.sets k) rfl, h0 (Config.Op.presets k) rfl, h0 Config.Op.allows rfl]

/-- the text of the list of services, by the precedence of the configuration sources -/
def enableText (h : List (World × Config.Op)) (W : World) : Str := (firstOf (sources builtin h W (str "CALI_SERVICES_ENABLE"))).getD []

/-- whether the check is on: by default it is -/
def checkOn (h : List (World × Config.Op)) (W : World) : Prop :=
  toBoolStr ((firstOf (sources builtin h W (str "CALI_CHANNEL_CONFIG_CHECK"))).getD (str "true")) = some true

theorem create_parts (calls : Nat → List (World × Config.Op)) (h : List (World × Config.Op)) (W : World) (m : Reg) (channel : Str)
    (hf : ∀ x ∈ h, ∀ l, x.2 ≠ .init (str "channel") l ∧ x.2 ≠ .init (str "services") l) :
    (createChannel builtin calls W m channel (State.run builtin .new h)).1 = registerAll m (splitNames (enableText builtin h W)) ∧
    (checkOn builtin h W → (createChannel builtin calls W m channel (State.run builtin .new h)).2 = sanityCheck channel (enableText builtin h W)) ∧
    (¬checkOn builtin h W → (createChannel builtin calls W m channel (State.run builtin .new h)).2 = []) := by
  have ha : ((State.run builtin .new h).initConfig builtin W (str "channel") channelData).1 = State.run builtin .new (h ++ [(W, .init (str "channel") channelData)]) := by
    rw [Config.run_snoc]; rfl
  have hcc := Config.C53_precedence builtin h W (str "channel") channelData [] [(str "flush_on_exit", str "true")] (str "config_check") (str "true")
    (by decide) (fun x hx l => (hf x hx l).1) rfl (by simp)
  have hen := Config.C53_precedence builtin (h ++ [(W, .init (str "channel") channelData)]) W (str "services") [(str "enable", [])] [] [] (str "enable") []
    (by decide) (by
      intro x hx l
      rcases List.mem_append.1 hx with hx | hx
      · exact (hf x hx l).2
      · rw [List.mem_singleton.1 hx]; simp only [ne_eq, Config.Op.init.injEq, not_and]; intro e; exact absurd e (by decide)) rfl (by simp)
  rw [sources_snoc] at hen
  have v1 : Config.varName (str "channel") (str "config_check") = str "CALI_CHANNEL_CONFIG_CHECK" := by decide +kernel
  have v2 : Config.varName (str "services") (str "enable") = str "CALI_SERVICES_ENABLE" := by decide +kernel
  rw [v1] at hcc
  rw [v2] at hen
  unfold createChannel
  simp only [ha, hen, Option.getD_some]
  generalize hout : registerAll m (splitNames ((firstOf (sources builtin h W (str "CALI_SERVICES_ENABLE"))).getD [])) = out
  generalize (out.flatMap fun o => match o with | .registered f => calls f | .notFound _ => []) = g
  have hfix1 := (Config.C53_fixed builtin h ((W, .init (str "services") [(str "enable", [])]) :: g) W W (str "channel") channelData channelData).2 (str "config_check")
  rw [hcc, ha] at hfix1
  have hg : State.run builtin (State.run builtin .new (h ++ [(W, .init (str "channel") channelData)])) ((W, .init (str "services") [(str "enable", [])]) :: g) =
      State.run builtin (State.initConfig builtin W (State.run builtin .new (h ++ [(W, .init (str "channel") channelData)])) (str "services") [(str "enable", [])]).1 g := rfl
  rw [hg] at hfix1
  have hfix2 := (Config.C53_fixed builtin (h ++ [(W, .init (str "channel") channelData)]) (g ++ [(W, .get (str "channel") (str "config_check"))]) W W (str "services")
    [(str "enable", [])] []).2 (str "enable")
  rw [hen, Config.run_snoc] at hfix2
  refine ⟨hout.symm, ?_, ?_⟩
  · intro hc
    simp only [hfix1, Option.getD_some]
    unfold checkOn at hc
    rw [if_pos hc]
    have : (State.getValue builtin W (State.run builtin (State.initConfig builtin W (State.run builtin .new (h ++ [(W, .init (str "channel") channelData)])) (str "services") [(str "enable", [])]).1 g)
      (str "channel") (str "config_check")).1 = State.step builtin W (State.run builtin (State.initConfig builtin W (State.run builtin .new (h ++ [(W, .init (str "channel") channelData)])) (str "services") [(str "enable", [])]).1 g) (.get (str "channel") (str "config_check")) := rfl
    rw [this, hfix2]
    rfl
  · intro hc
    simp only [hfix1, Option.getD_some]
    unfold checkOn at hc
    rw [if_neg hc]

/-- C94: creating a channel registers exactly the services listed in `CALI_SERVICES_ENABLE`, in that order, for each the one added last under that name; names under which
none was added are reported. -/
theorem C94_registered {as : List (List Added)} {ls : List (List Service)} (ha : List.Forall₂ IsArray as ls) (calls : Nat → List (World × Config.Op))
    (h : List (World × Config.Op)) (W : World) (channel : Str) (hf : ∀ x ∈ h, ∀ l, x.2 ≠ .init (str "channel") l ∧ x.2 ≠ .init (str "services") l)
    (names : List Str) (ht : NamesText names (enableText builtin h W)) :
    List.Forall₂ (fun n o => (∃ f, lastAdded as.flatten n = some f ∧ o = .registered f) ∨ (lastAdded as.flatten n = none ∧ o = .notFound n)) names
      (createChannel builtin calls W (addAll ls) channel (State.run builtin .new h)).1 := by
  rw [(create_parts builtin calls h W (addAll ls) channel hf).1, splitNames_text ht]
  unfold registerAll
  rw [List.forall₂_map_right_iff, List.forall₂_same]
  intro n _
  rw [registerService_last ha]
  cases lastAdded as.flatten n with
  | none => exact .inr ⟨rfl, rfl⟩
  | some f => exact .inl ⟨f, rfl, rfl⟩

/-- C94: the configuration check (on by default) warns that nothing is recorded if no service is listed; otherwise, unless the `debug` or `validator` service is listed, it warns
once for each of these rules that is broken: a snapshot trigger needs a service that processes snapshots, and vice versa, a snapshot buffer needs an offline output, an online
output needs a trigger, and an offline output a buffer. Nothing else is printed, and nothing at all if it is off. -/
theorem C94_check (calls : Nat → List (World × Config.Op)) (h : List (World × Config.Op)) (W : World) (m : Reg) (channel : Str)
    (hf : ∀ x ∈ h, ∀ l, x.2 ≠ .init (str "channel") l ∧ x.2 ≠ .init (str "services") l)
    (names : List Str) (ht : NamesText names (enableText builtin h W)) (out : List Str)
    (ho : out = (createChannel builtin calls W m channel (State.run builtin .new h)).2) :
    (¬checkOn builtin h W → out = []) ∧
    (checkOn builtin h W → names = [] → out = [channel ++ str ": No services enabled, " ++ channel ++ str " channel will not record data.\n"]) ∧
    (checkOn builtin h W → str "debug" ∈ names ∨ str "validator" ∈ names → out = []) ∧
    (checkOn builtin h W → names ≠ [] → str "debug" ∉ names → str "validator" ∉ names →
      Warnings names [(.trigger, .process), (.process, .trigger), (.buffer, .offline), (.online, .trigger), (.offline, .buffer)] out) := by
  obtain ⟨-, h2, h3⟩ := create_parts builtin calls h W m channel hf
  rw [← ho] at h2 h3
  clear ho
  refine ⟨h3, ?_, ?_, ?_⟩
  · intro hc hn
    rw [h2 hc]
    unfold sanityCheck
    rw [splitNames_text ht, if_pos hn]
  · intro hc hn
    rw [h2 hc]
    unfold sanityCheck
    simp only [splitNames_text ht, List.contains_iff_mem]
    rcases hn with hn | hn
    · rw [if_neg (List.ne_nil_of_mem hn), if_pos hn]
    · rw [if_neg (List.ne_nil_of_mem hn)]
      split
      · rfl
      · rfl
  · intro hc hn h4 h5
    rw [h2 hc]
    unfold sanityCheck
    simp only [splitNames_text ht, List.contains_iff_mem]
    rw [if_neg hn, if_neg h4, if_neg h5]
    exact check_all names dependencies

/-! ## Settings of a service -/

theorem entriesOf_ok {js : List J} {vs : List Str} (hk : List.Forall₂ Kept js vs) {opts : List (Str × Str)} (ho : List.Forall₂ Option' js opts) :
    entriesOf vs = some opts := by
  induction hk generalizing opts with
  | nil => cases ho; rfl
  | cons h1 _ ih =>
    cases ho with
    | cons h2 h3 =>
      obtain ⟨d, rfl, h4, h5⟩ := h2
      obtain ⟨us, h6, h7⟩ := recDict_kept h1
      unfold entriesOf
      simp only [h6, nameF_get h7 h4, ih h3, strF_get h7 h5, Option.map_some]

theorem initFromSpec_ok {spec name : Str} {opts : List (Str × Str)} (hd : Declared spec name opts) (W : World) (s : State) :
    initFromSpec builtin W s spec = some (s.initConfig builtin W name opts) := by
  obtain ⟨l, ws, t, r, rfl, hw, hj, hn, hc⟩ := hd
  obtain ⟨vs, h1, h2⟩ := recDict_ok (r := r) hw hj
  unfold initFromSpec
  simp only [h1, nameF_get h2 hn]
  have : configEntries ((setAll [] vs).lookup (str "config")) = some opts := by
    rcases hc with ⟨h3, rfl⟩ | ⟨js, h3, h4⟩
    · rcases kept_get h2 (str "config") with ⟨h5, h6⟩ | ⟨j, v, h5, h6, h7⟩
      · rw [h6]; rfl
      · rw [h3] at h5; cases h5
    · rcases kept_get h2 (str "config") with ⟨h5, h6⟩ | ⟨j, v, h5, h6, h7⟩
      · rw [h3] at h5; cases h5
      · rw [h3] at h5; cases h5
        rw [h6]
        obtain ⟨us, h8, h9⟩ := recList_kept h7
        simp only [configEntries, h8]
        exact entriesOf_ok h9 h4
  rw [this]
  rfl

/-- C94: each option in the spec of a service has the value of the first source that has one for `CALI_<SERVICE>_<OPTION>`, and the value in the spec if there is none; and
there are no other options. -/
theorem C94_settings {spec name : Str} {opts : List (Str × Str)} (hd : Declared spec name opts) (hk : (opts.map Prod.fst).Nodup)
    (h : List (World × Config.Op)) (W : World) (hname : name ≠ str "config") (hfirst : ∀ x ∈ h, ∀ l, x.2 ≠ .init name l) :
    ∃ s cfg, initFromSpec builtin W (State.run builtin .new h) spec = some (s, cfg) ∧
      (∀ key dflt, (key, dflt) ∈ opts → cfg.get key = some ((firstOf (sources builtin h W (Config.varName name key))).getD dflt)) ∧
      (∀ key, key ∉ opts.map Prod.fst → cfg.get key = none) := by
  refine ⟨_, _, initFromSpec_ok builtin hd W _, ?_, ?_⟩
  · intro key dflt hm
    obtain ⟨l1, l2, hl⟩ := List.append_of_mem hm
    refine Config.C53_precedence builtin h W name opts l1 l2 key dflt hname hfirst hl ?_
    rw [hl, List.map_append, List.map_cons, List.nodup_append] at hk
    intro hc
    exact hk.2.2 key hc key (by simp) rfl
  · intro key hm
    have hN := Config.run_names builtin h name hname hfirst
    simp only [Config.start_new_names builtin W _ name hname, hN, Config.get_initSet]
    rw [List.find?_eq_none.2]
    · rfl
    · intro x hx
      simp only [decide_eq_true_eq]
      exact fun e => hm (e ▸ List.mem_map_of_mem hx)

/-! ## Examples -/

/-- services as they are added: two with specs, one by name; a later array replaces one of them -/
def exArrays : List (List Service) :=
  [[⟨some (str "\n{\n \"name\" : \"event\", \"description\" : \"x\"}\n"), some 1⟩, ⟨some (str "trace"), some 2⟩, ⟨some (str "{\"name\":\"aggregate\"}"), some 3⟩, ⟨none, none⟩],
   [⟨some (str "trace"), some 4⟩, ⟨some (str "timer"), none⟩, ⟨some (str "lost"), some 9⟩]]

@[inherit_doc exArrays]
def exAdded : List (List Added) :=
  [[⟨str "event", str "\n{\n \"name\" : \"event\", \"description\" : \"x\"}\n", 1⟩, ⟨str "trace", str "trace", 2⟩, ⟨str "aggregate", str "{\"name\":\"aggregate\"}", 3⟩],
   [⟨str "trace", str "trace", 4⟩]]

/-- the configuration: the user sets the list of services in the environment -/
def exWorld (v : String) : World := ⟨fun k => if k = str "CALI_SERVICES_ENABLE" then some (str v) else none, fun _ => none⟩

theorem exArrays_ok : List.Forall₂ IsArray exAdded exArrays := by
  refine .cons (.cons ?_ (.cons (.plain (by decide +kernel)) (.cons ?_ (.nil (.inl rfl))))) (.cons (.cons (.plain (by decide +kernel)) (.nil (.inr rfl))) .nil)
  · have e : str "\n{\n \"name\" : \"event\", \"description\" : \"x\"}\n" = str "\n" ++ (ch '{' :: ((str "\n " ++ str "\"name\"" ++ (str " " ++ ch ':' :: (str " " ++ str "\"event\"" ++
        ([] ++ ch ',' :: (str " " ++ str "\"description\"" ++ (str " " ++ ch ':' :: (str " " ++ str "\"x\"" ++ []))))))) ++ [ch '}'])) ++ str "\n" := by decide +kernel
    show Named (str "\n{\n \"name\" : \"event\", \"description\" : \"x\"}\n") (str "event")
    rw [e]
    refine .spec (l := [(str "name", .word (str "event")), (str "description", .word (str "x"))]) (by unfold Spaces; decide) (.dict (.cons (by unfold Spaces; decide) (by decide) (.inl (by decide +kernel))
      (by unfold Spaces; decide) (by unfold Spaces; decide) (.word (.inl (by decide +kernel))) (by unfold Spaces; decide)
      (.one (by unfold Spaces; decide) (by decide) (.inl (by decide +kernel)) (by unfold Spaces; decide) (by unfold Spaces; decide) (.word (.inl (by decide +kernel)))
        (by unfold Spaces; decide)))) rfl
  · have e : str "{\"name\":\"aggregate\"}" = [] ++ (ch '{' :: (([] ++ str "\"name\"" ++ ([] ++ ch ':' :: ([] ++ str "\"aggregate\"" ++ []))) ++ [ch '}'])) ++ [] := by decide +kernel
    show Named (str "{\"name\":\"aggregate\"}") (str "aggregate")
    rw [e]
    exact .spec (l := [(str "name", .word (str "aggregate"))]) (by unfold Spaces; decide) (.dict (.one (by unfold Spaces; decide) (by decide) (.inl (by decide +kernel))
      (by unfold Spaces; decide) (by unfold Spaces; decide) (.word (.inl (by decide +kernel))) (by unfold Spaces; decide))) rfl

/-- C94: it happens: three services listed, one of them unknown, one added twice. -/
theorem C94_example : List.Forall₂ IsArray exAdded exArrays ∧
    NamesText [str "event", str "foo", str "trace"] (enableText [] [] (exWorld "event:foo,trace")) ∧
    createChannel [] (fun _ => []) (exWorld "event:foo,trace") (addAll exArrays) (str "default") .new =
      ([.registered 1, .notFound (str "foo"), .registered 4],
       [str "Config check: Warning: snapshot buffer service \"trace\" requires offline output services, but none are active.\n     Add \"recorder\", \"report\", \"sos\" or \"mpireport\" to CALI_SERVICES_ENABLE to generate Caliper output.\n"]) := by
  refine ⟨exArrays_ok, ?_, by decide +kernel⟩
  have e : enableText [] [] (exWorld "event:foo,trace") = str "event" ++ ch ':' :: (str "foo" ++ ch ',' :: str "trace") := by decide +kernel
  rw [e]
  refine .cons ⟨by decide, .inr ⟨rfl, ?_⟩⟩ (.inr rfl) (.cons ⟨by decide, .inr ⟨rfl, ?_⟩⟩ (.inl rfl) (.one ⟨by decide, .inr ⟨rfl, ?_⟩⟩)) <;> (unfold Parse.Plain; decide +kernel)

/-- the spec of a service with two options, one with a default value -/
def exSpec : Str := str "{\"name\":trace,\"config\":[{\"name\":size,\"value\":\"2\"},{\"name\":policy}]}"

theorem exSpec_ok : Declared exSpec (str "trace") [(str "size", str "2"), (str "policy", [])] := by
  have sp : Spaces [] := by unfold Spaces; decide
  have wd : ∀ w t : Str, JWord w t → JText (.word w) t := fun _ _ h => .word h
  have d1 : JText (.dict [(str "name", .word (str "size")), (str "value", .word (str "2"))]) (str "{\"name\":size,\"value\":\"2\"}") := by
    have e : str "{\"name\":size,\"value\":\"2\"}" = ch '{' :: (([] ++ str "\"name\"" ++ ([] ++ ch ':' :: ([] ++ str "size" ++ ([] ++ ch ',' ::
      ([] ++ str "\"value\"" ++ ([] ++ ch ':' :: ([] ++ str "\"2\"" ++ []))))))) ++ [ch '}']) := by decide +kernel
    rw [e]
    exact .dict (.cons sp (by decide) (.inl (by decide +kernel)) sp sp (wd _ _ (.inr ⟨rfl, by decide, by decide +kernel⟩)) sp
      (.one sp (by decide) (.inl (by decide +kernel)) sp sp (wd _ _ (.inl (by decide +kernel))) sp))
  have d2 : JText (.dict [(str "name", .word (str "policy"))]) (str "{\"name\":policy}") := by
    have e : str "{\"name\":policy}" = ch '{' :: (([] ++ str "\"name\"" ++ ([] ++ ch ':' :: ([] ++ str "policy" ++ []))) ++ [ch '}']) := by decide +kernel
    rw [e]
    exact .dict (.one sp (by decide) (.inl (by decide +kernel)) sp sp (wd _ _ (.inr ⟨rfl, by decide, by decide +kernel⟩)) sp)
  refine ⟨[(str "name", .word (str "trace")), (str "config", .list [.dict [(str "name", .word (str "size")), (str "value", .word (str "2"))], .dict [(str "name", .word (str "policy"))]])],
    [], exSpec, [], by simp, sp, ?_, rfl, .inr ⟨_, rfl, .cons ⟨_, rfl, rfl, .inr rfl⟩ (.cons ⟨_, rfl, rfl, .inl ⟨by decide, rfl⟩⟩ .nil)⟩⟩
  have e : exSpec = ch '{' :: (([] ++ str "\"name\"" ++ ([] ++ ch ':' :: ([] ++ str "trace" ++ ([] ++ ch ',' :: ([] ++ str "\"config\"" ++ ([] ++ ch ':' ::
    ([] ++ (ch '[' :: (([] ++ str "{\"name\":size,\"value\":\"2\"}" ++ ([] ++ ch ',' :: ([] ++ str "{\"name\":policy}" ++ []))) ++ [ch ']'])) ++ []))))))) ++ [ch '}']) := by decide +kernel
  rw [e]
  exact .dict (.cons sp (by decide) (.inl (by decide +kernel)) sp sp (wd _ _ (.inr ⟨rfl, by decide, by decide +kernel⟩)) sp
    (.one sp (by decide) (.inl (by decide +kernel)) sp sp (.list (.cons sp d1 (by simp) sp (.one sp d2 (by simp) sp))) sp))

/-- C94: a service with two options, one of them set by the user. -/
theorem C94_settings_example : Declared exSpec (str "trace") [(str "size", str "2"), (str "policy", [])] ∧
    (initFromSpec [] ⟨fun k => if k = str "CALI_TRACE_POLICY" then some (str "grow") else none, fun _ => none⟩ .new exSpec).map (fun x => x.2.l) =
      some [(str "size", str "2"), (str "policy", str "grow")] := ⟨exSpec_ok, by decide +kernel⟩

/-- C94: a service listed twice is registered twice, so everything it does happens twice. -/
theorem C94_violation_twice :
    createChannel [] (fun _ => []) (exWorld "event,event,aggregate,recorder") (addAll exArrays) (str "default") .new =
      ([.registered 1, .registered 1, .registered 3, .notFound (str "recorder")], []) := by decide +kernel

/-- C94: the check misses configurations that record nothing: with only the `timer` service there is no snapshot, and no warning. -/
theorem C94_violation_silent :
    (createChannel [] (fun _ => []) (exWorld "timer") (addAll exArrays) (str "default") .new).2 = [] ∧ str "timer" ∉ Group.trigger.services := by decide +kernel

/-- C94: and it warns about ones that do record: `cuptitrace` is a trigger and a buffer, so with `recorder` everything is there. -/
theorem C94_violation_spurious :
    str "cuptitrace" ∈ Group.trigger.services ∧ str "cuptitrace" ∈ Group.buffer.services ∧ str "recorder" ∈ Group.offline.services ∧
    (createChannel [] (fun _ => []) (exWorld "cuptitrace,recorder") (addAll exArrays) (str "default") .new).2 = [warning .trigger (str "cuptitrace") .process] := by
  decide +kernel

/-- C94: unknown services count as active: the misspelt service list draws no warning by the check if one of the other services is known to it by name only. -/
theorem C94_violation_unknown :
    createChannel [] (fun _ => []) (exWorld "event,aggregate,sos") (addAll exArrays) (str "default") .new =
      ([.registered 1, .registered 3, .notFound (str "sos")], []) := by decide +kernel

end Verif.Services
