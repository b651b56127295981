import Verif.Config.Lemmas
/-!
# C53 Precedence of configuration settings, C54 Configuration files

Model: `Verif/Config/Model.lean`; specification: `Verif/Config/Spec.lean`.
-/
namespace Verif.Config
open Verif Verif.Cali Verif.Parse

variable (builtin : List Byte)

theorem lastOf_snoc {β : Type} (f : Op → Option β) (h : List (World × Op)) (x : World × Op) : lastOf f (h ++ [x]) = (f x.2).or (lastOf f h) := by
  unfold lastOf
  rw [List.map_append, List.reverse_append]
  simp only [List.map_cons, List.map_nil, List.reverse_cons, List.reverse_nil, List.nil_append, List.singleton_append, List.findSome?_cons]
  cases f x.2 <;> rfl

theorem lastOf_append {β : Type} (f : Op → Option β) (h g : List (World × Op)) : lastOf f (h ++ g) = (lastOf f g).or (lastOf f h) := by
  unfold lastOf
  rw [List.map_append, List.reverse_append, List.findSome?_append]

theorem run_snoc (s : State) (h : List (World × Op)) (x : World × Op) :
    State.run builtin s (h ++ [x]) = (State.run builtin s h).step builtin x.1 x.2 := by simp [State.run]

theorem run_append (s : State) (h g : List (World × Op)) : State.run builtin s (h ++ g) = State.run builtin (State.run builtin s h) g := by
  simp [State.run]

theorem start_top (W : World) (s : State) : (s.start builtin W).top = s.top ∧ (s.start builtin W).allow = s.allow := by
  unfold State.start; split <;> exact ⟨rfl, rfl⟩

theorem start_db (W : World) (s : State) : (s.start builtin W).db.l.length > 0 := by
  unfold State.start
  split
  · exact SMap.set_length _ _ _
  · omega

theorem step_top (W : World) (s : State) (op : Op) (k : Str) :
    (s.step builtin W op).top.get k = (op.sets k).or (s.top.get k) ∧ (s.step builtin W op).allow = op.allows.getD s.allow := by
  cases op with
  | preset k' v => exact ⟨by simp [State.step, Op.sets], rfl⟩
  | set k' v =>
    refine ⟨?_, rfl⟩
    simp only [State.step, Op.sets, SMap.get_set]
    by_cases h : k' = k
    · simp [h]
    · have : ¬k = k' := fun hh => h hh.symm
      simp [h, this]
  | import_ l => exact ⟨by simp only [State.step, Op.sets, SMap.get_merge], rfl⟩
  | allow b => exact ⟨by simp [State.step, Op.sets], rfl⟩
  | init name list =>
    have := start_top builtin W s
    simp only [State.step, State.initConfig, Op.sets, Op.allows, Option.none_or, Option.getD_none]
    split
    · exact ⟨by rw [this.1], this.2⟩
    · exact ⟨by simp only [this.1], this.2⟩
  | get name key =>
    have := start_top builtin W s
    simp only [State.step, State.getValue, Op.sets, Op.allows, Option.none_or, Option.getD_none]
    split
    · exact ⟨by rw [this.1], this.2⟩
    · exact ⟨by rw [this.1], this.2⟩

theorem run_top (h : List (World × Op)) (k : Str) :
    (State.run builtin .new h).top.get k = lastOf (Op.sets k) h ∧ (State.run builtin .new h).allow = (lastOf Op.allows h).getD true := by
  induction h using List.reverseRecOn with
  | nil => exact ⟨rfl, rfl⟩
  | append_singleton h x ih =>
    rw [run_snoc, lastOf_snoc, lastOf_snoc]
    obtain ⟨h1, h2⟩ := step_top builtin x.1 (State.run builtin .new h) x.2 k
    rw [h1, h2, ih.1, ih.2]
    refine ⟨rfl, ?_⟩
    cases x.2.allows <;> rfl

theorem run_before (h : List (World × Op)) (hs : ∀ x ∈ h, x.2.starts = false) (k : Str) :
    (State.run builtin .new h).combined.get k = lastOf (Op.presets k) h ∧ (State.run builtin .new h).db.l = [] ∧
      (State.run builtin .new h).profs = .empty := by
  induction h using List.reverseRecOn with
  | nil => exact ⟨rfl, rfl, rfl⟩
  | append_singleton h x ih =>
    obtain ⟨i1, i2, i3⟩ := ih fun y hy => hs y (by simp [hy])
    have hx := hs x (by simp)
    rw [run_snoc, lastOf_snoc]
    obtain ⟨W, op⟩ := x
    cases op with
    | preset k' v =>
      refine ⟨?_, i2, i3⟩
      simp only [State.step, Op.presets, SMap.get_set, i1]
      by_cases h : k' = k
      · simp [h]
      · have : ¬k = k' := fun hh => h hh.symm
        simp [h, this]
    | set k' v => exact ⟨by simpa [State.step, Op.presets] using i1, i2, i3⟩
    | import_ l => exact ⟨by simpa [State.step, Op.presets] using i1, i2, i3⟩
    | allow b => exact ⟨by simpa [State.step, Op.presets] using i1, i2, i3⟩
    | init name list => simp [Op.starts] at hx
    | get name key => simp [Op.starts] at hx

theorem start_of_ne (W : World) (s : State) (h : s.db.l.length > 0) : s.start builtin W = s := by
  unfold State.start; rw [if_neg (by omega)]

/-- steps of a started configuration -/
theorem step_started (W : World) (s : State) (hs : s.db.l.length > 0) (op : Op) (k : Str) :
    (s.step builtin W op).combined.get k = (op.presets k).or (s.combined.get k) ∧ (s.step builtin W op).db.l.length > 0 := by
  cases op with
  | preset k' v =>
    refine ⟨?_, hs⟩
    simp only [State.step, Op.presets, SMap.get_set]
    by_cases h : k' = k
    · simp [h]
    · have : ¬k = k' := fun hh => h hh.symm
      simp [h, this]
  | set k' v => exact ⟨by simp [State.step, Op.presets], hs⟩
  | import_ l => exact ⟨by simp [State.step, Op.presets], hs⟩
  | allow b => exact ⟨by simp [State.step, Op.presets], hs⟩
  | init name list =>
    simp only [State.step, State.initConfig, Op.presets, Option.none_or, start_of_ne builtin W s hs]
    split
    · exact ⟨rfl, hs⟩
    · exact ⟨rfl, SMap.set_length _ _ _⟩
  | get name key =>
    simp only [State.step, State.getValue, Op.presets, Option.none_or, start_of_ne builtin W s hs]
    split <;> exact ⟨rfl, hs⟩

theorem run_started (s : State) (hs : s.db.l.length > 0) (h : List (World × Op)) (k : Str) :
    (State.run builtin s h).combined.get k = (lastOf (Op.presets k) h).or (s.combined.get k) ∧ (State.run builtin s h).db.l.length > 0 := by
  induction h using List.reverseRecOn with
  | nil => exact ⟨rfl, hs⟩
  | append_singleton h x ih =>
    obtain ⟨i1, i2⟩ := ih
    obtain ⟨g1, g2⟩ := step_started builtin x.1 _ i2 x.2 k
    rw [run_snoc, lastOf_snoc, g1, i1, Option.or_assoc]
    exact ⟨rfl, g2⟩

/-- a start call only starts the configuration, as far as the combined profile is concerned -/
theorem step_starts (W : World) (s : State) (op : Op) (h : op.starts = true) :
    (s.step builtin W op).combined = (s.start builtin W).combined ∧ (s.step builtin W op).db.l.length > 0 := by
  have hd := start_db builtin W s
  cases op with
  | init name list =>
    simp only [State.step, State.initConfig]
    split
    · exact ⟨rfl, hd⟩
    · exact ⟨rfl, SMap.set_length _ _ _⟩
  | get name key =>
    simp only [State.step, State.getValue]
    split <;> exact ⟨rfl, hd⟩
  | preset k v => simp [Op.starts] at h
  | set k v => simp [Op.starts] at h
  | import_ l => simp [Op.starts] at h
  | allow b => simp [Op.starts] at h

theorem varName_file : varName (str "config") (str "file") = filesVar := by decide
theorem varName_profile : varName (str "config") (str "profile") = profilesVar := by decide

/-- the combined profile once the config files are read -/
theorem start_combined (h0 : List (World × Op)) (hs : ∀ x ∈ h0, x.2.starts = false) (W : World) (k : Str) :
    ((State.run builtin .new h0).start builtin W).combined.get k =
      firstOf [selectedValue (profilesOf builtin h0 W) (selectedOf builtin h0 W) k, defaultValue (profilesOf builtin h0 W) k,
        lastOf (Op.presets k) h0] := by
  have T := fun k => run_top builtin h0 k
  have B := fun k => run_before builtin h0 hs k
  have hdb := (B k).2.1
  have hpr := (B k).2.2
  generalize State.run builtin .new h0 = s at T B hdb hpr ⊢
  unfold State.start
  rw [if_pos (by rw [hdb]; rfl)]
  simp only [State.initDb, get_mergeSelected, SMap.get_merge, get_initSet, configData, entryValue_eq, (T k).2, (T _).1, (B _).1, hpr]
  have f1 : (List.find? (fun e : Str × Str => decide (e.1 = str "file")) [(str "profile", str "default"), (str "file", str "caliper.config")]) =
      some (str "file", str "caliper.config") := by decide
  have f2 : (List.find? (fun e : Str × Str => decide (e.1 = str "profile")) [(str "profile", str "default"), (str "file", str "caliper.config")]) =
      some (str "profile", str "default") := by decide
  simp only [f1, f2, Option.map_some, Option.getD_some, varName_file, varName_profile]
  have hP : readFiles builtin W .empty (stringList ((firstOf [lastOf (Op.sets filesVar) h0,
      if (lastOf Op.allows h0).getD true = true then W.env filesVar else none, lastOf (Op.presets filesVar) h0]).getD (str "caliper.config"))) =
      profilesOf builtin h0 W := rfl
  simp only [hP]
  have hD : ∀ k, (((profilesOf builtin h0 W).get (str "default")).getD SMap.empty).get k = defaultValue (profilesOf builtin h0 W) k := by
    intro k
    unfold defaultValue
    cases (profilesOf builtin h0 W).get (str "default") <;> rfl
  have hS : stringList ((firstOf [lastOf (Op.sets profilesVar) h0, if (lastOf Op.allows h0).getD true = true then W.env profilesVar else none,
      (defaultValue (profilesOf builtin h0 W) profilesVar).or (lastOf (Op.presets profilesVar) h0)]).getD (str "default")) =
      selectedOf builtin h0 W := by
    unfold selectedOf envOf
    congr 2
    unfold firstOf
    simp only [List.findSome?_cons, List.findSome?_nil, id]
    cases lastOf (Op.sets profilesVar) h0 <;> simp only []
    cases (if (lastOf Op.allows h0).getD true = true then W.env profilesVar else none) <;> simp only []
    cases defaultValue (profilesOf builtin h0 W) profilesVar <;> simp
  simp only [hD, hS]
  unfold firstOf
  simp only [List.findSome?_cons, List.findSome?_nil, id]
  cases selectedValue (profilesOf builtin h0 W) (selectedOf builtin h0 W) k <;> simp only [Option.none_or, Option.some_or]
  cases defaultValue (profilesOf builtin h0 W) k <;> cases lastOf (Op.presets k) h0 <;> simp

theorem start_new_names (W : World) (s : State) (n : Str) (hn : n ≠ str "config") : (s.start builtin W).db.get n = s.db.get n := by
  unfold State.start
  split
  · simp only [State.initDb, SMap.get_set, if_neg hn]
  · rfl

theorem run_names (h : List (World × Op)) (n : Str) (hn : n ≠ str "config") (hf : ∀ x ∈ h, ∀ l, x.2 ≠ .init n l) :
    (State.run builtin .new h).db.get n = none := by
  induction h using List.reverseRecOn with
  | nil => rfl
  | append_singleton h x ih =>
    have ih := ih fun y hy => hf y (by simp [hy])
    have hx := hf x (by simp)
    rw [run_snoc]
    obtain ⟨W, op⟩ := x
    cases op with
    | preset k' v => exact ih
    | set k' v => exact ih
    | import_ l => exact ih
    | allow b => exact ih
    | init name list =>
      simp only [State.step, State.initConfig]
      split
      · rw [start_new_names builtin W _ n hn]; exact ih
      · simp only [SMap.get_set]
        rw [if_neg (fun e => hx list (by rw [e])), start_new_names builtin W _ n hn]
        exact ih
    | get name key =>
      simp only [State.step, State.getValue]
      split <;> (rw [start_new_names builtin W _ n hn]; exact ih)

theorem since_cases (h : List (World × Op)) : h = before h ++ since h ∧ (∀ x ∈ before h, x.2.starts = false) ∧
    (since h = [] ∨ ∃ x r, since h = x :: r ∧ x.2.starts = true) := by
  refine ⟨(List.takeWhile_append_dropWhile).symm, ?_, ?_⟩
  · intro x hx
    have := List.all_takeWhile (p := fun x : World × Op => !x.2.starts) (l := h)
    have := List.all_eq_true.1 this x hx
    simpa using this
  · cases hs : since h with
    | nil => exact .inl rfl
    | cons x r =>
      right
      refine ⟨x, r, rfl, ?_⟩
      have := List.head_dropWhile_not (fun x : World × Op => !x.2.starts) (l := h) (by
        intro e; unfold since at hs; rw [e] at hs; cases hs)
      unfold since at hs
      simp only [hs, List.head_cons] at this
      simpa using this

/-- C53: the value of a configuration variable, when the module that owns it asks for it for the first time, is that of the first of these
sources that has one: the last `set`/`import` call; the environment, if allowed; `preset` calls made after the config files were read;
the selected profiles, the last one first; the default profile; `preset` calls made before; the module's default. -/
theorem C53_precedence (h : List (World × Op)) (W : World) (name : Str) (list l1 l2 : List (Str × Str)) (key dflt : Str)
    (hname : name ≠ str "config") (hfirst : ∀ x ∈ h, ∀ l, x.2 ≠ .init name l)
    (hl : list = l1 ++ (key, dflt) :: l2) (hk : key ∉ l1.map Prod.fst) :
    (((State.run builtin .new h).initConfig builtin W name list).2).get key =
      some ((firstOf (sources builtin h W (varName name key))).getD dflt) := by
  have T := fun k => run_top builtin h k
  have hN := run_names builtin h name hname hfirst
  have hfind : list.find? (fun e => decide (e.1 = key)) = some (key, dflt) := by
    rw [hl, List.find?_append, List.find?_eq_none.2]
    · simp
    · intro x hx
      simp only [decide_eq_true_eq]
      exact fun e => hk (e ▸ List.mem_map_of_mem hx)
  have hC : ((State.run builtin .new h).start builtin W).combined.get (varName name key) =
      firstOf ((sources builtin h W (varName name key)).drop 2) := by
    obtain ⟨he, hb, hs | ⟨x, r, hs, hx⟩⟩ := since_cases h
    · have hbe : before h = h := by rw [hs, List.append_nil] at he; exact he.symm
      rw [hbe] at hb
      rw [start_combined builtin h hb W]
      simp [sources, hs, hbe, startWorld, firstOf, lastOf]
    · have hrun : State.run builtin .new h = State.run builtin ((State.run builtin .new (before h)).step builtin x.1 x.2) r := by
        conv => lhs; rw [he, hs]
        rw [run_append]
        rfl
      obtain ⟨g1, g2⟩ := step_starts builtin x.1 (State.run builtin .new (before h)) x.2 hx
      obtain ⟨g3, g4⟩ := run_started builtin _ g2 r (varName name key)
      rw [← hrun] at g3 g4
      rw [start_of_ne builtin W _ g4, g3, g1, start_combined builtin (before h) hb]
      have hnp : lastOf (Op.presets (varName name key)) (since h) = lastOf (Op.presets (varName name key)) r := by
        rw [hs, show x :: r = [x] ++ r from rfl, lastOf_append]
        have : lastOf (Op.presets (varName name key)) [x] = none := by
          obtain ⟨W', op⟩ := x
          cases op <;> simp [Op.starts] at hx <;> rfl
        rw [this]
        cases lastOf (Op.presets (varName name key)) r <;> rfl
      simp only [sources, hnp]
      simp only [startWorld, hs, List.head?_cons, Option.map_some, Option.getD_some, List.drop_succ_cons, List.drop_zero, firstOf]
      rw [List.findSome?_cons]
      cases lastOf (Op.presets (varName name key)) r <;> rfl
  unfold State.initConfig
  simp only [start_new_names builtin W _ name hname, hN, get_initSet, hfind, Option.map_some, entryValue_eq, hC, (start_top builtin W _).1,
    (start_top builtin W _).2, (T _).1, (T (varName name key)).2]
  congr 2
  simp only [sources, firstOf, List.drop_succ_cons, List.drop_zero, List.findSome?_cons, List.findSome?_nil, id, envOf]
  cases lastOf (Op.sets (varName name key)) h <;> simp only []
  cases (if (lastOf Op.allows h).getD true = true then W.env (varName name key) else none) <;> simp only []
  cases lastOf (Op.presets (varName name key)) (since h) <;> simp only []
  cases selectedValue (profilesOf builtin (before h) (startWorld h W)) (selectedOf builtin (before h) (startWorld h W)) (varName name key) <;> simp only []
  cases defaultValue (profilesOf builtin (before h) (startWorld h W)) (varName name key) <;> simp only []
  cases lastOf (Op.presets (varName name key)) (before h) <;> rfl

/-- C53: `set` overrides everything, with the last call counting; and without it an environment variable overrides config files,
profiles and presets. -/
theorem C53_overrides (h : List (World × Op)) (W : World) (name : Str) (list l1 l2 : List (Str × Str)) (key dflt v : Str)
    (hname : name ≠ str "config") (hfirst : ∀ x ∈ h, ∀ l, x.2 ≠ .init name l)
    (hl : list = l1 ++ (key, dflt) :: l2) (hk : key ∉ l1.map Prod.fst) :
    ((∃ W' h1 h2, h = h1 ++ [(W', .set (varName name key) v)] ++ h2 ∧ lastOf (Op.sets (varName name key)) h2 = none) →
      (((State.run builtin .new h).initConfig builtin W name list).2).get key = some v) ∧
    (lastOf (Op.sets (varName name key)) h = none → (lastOf Op.allows h).getD true = true → W.env (varName name key) = some v →
      (((State.run builtin .new h).initConfig builtin W name list).2).get key = some v) := by
  rw [C53_precedence builtin h W name list l1 l2 key dflt hname hfirst hl hk]
  constructor
  · rintro ⟨W', h1, h2, rfl, h3⟩
    have : lastOf (Op.sets (varName name key)) (h1 ++ [(W', .set (varName name key) v)] ++ h2) = some v := by
      rw [lastOf_append, h3, lastOf_snoc]
      simp [Op.sets]
    simp only [sources, this, firstOf, List.findSome?_cons, id, Option.getD_some]
  · intro h1 h2 h3
    simp only [sources, h1, firstOf, List.findSome?_cons, id, envOf, h2, h3, if_true, Option.getD_some]

theorem step_db (W : World) (s : State) (op : Op) (n : Str) (d : SMap Str) (h : s.db.get n = some d) : (s.step builtin W op).db.get n = some d := by
  have hs : s.db.l.length > 0 := by
    have := SMap.mem_of_get h
    obtain ⟨x, hx, -⟩ := List.mem_map.1 this
    exact List.length_pos_of_mem hx
  cases op with
  | preset k' v => exact h
  | set k' v => exact h
  | import_ l => exact h
  | allow b => exact h
  | init name list =>
    simp only [State.step, State.initConfig, start_of_ne builtin W s hs]
    split
    · exact h
    · rename_i hn
      simp only [SMap.get_set]
      rw [if_neg, h]
      intro e; rw [← e, h] at hn; cases hn
  | get name key =>
    simp only [State.step, State.getValue, start_of_ne builtin W s hs]
    split <;> exact h

/-- C53: the variable of a setting: `CALI_`, module, `_` and name in capital letters; everything but the letters a to z is left as it is. -/
theorem C53_variable (name key : Str) :
    varName name key = str "CALI_" ++ name.map toUpper ++ str "_" ++ key.map toUpper ∧
    (str "abcdefghijklmnopqrstuvwxyz").map toUpper = str "ABCDEFGHIJKLMNOPQRSTUVWXYZ" ∧
    ∀ c, c ∉ str "abcdefghijklmnopqrstuvwxyz" → toUpper c = c := by
  refine ⟨?_, by decide +kernel, ?_⟩
  · have e1 : (str "CALI_").map toUpper = str "CALI_" := by decide +kernel
    have e2 : (str "_").map toUpper = str "_" := by decide +kernel
    unfold varName
    rw [List.map_append, List.map_append, List.map_append, e1, e2]
  · decide +kernel

/-- C53: a module's settings are fixed when it asks for them for the first time: whatever is called later and however the environment and
the files change, every later `init` and `get` sees the same values. -/
theorem C53_fixed (h g : List (World × Op)) (W W' : World) (name : Str) (list list' : List (Str × Str)) :
    ((State.run builtin ((State.run builtin .new h).initConfig builtin W name list).1 g).initConfig builtin W' name list').2 =
      ((State.run builtin .new h).initConfig builtin W name list).2 ∧
    ∀ key, ((State.run builtin ((State.run builtin .new h).initConfig builtin W name list).1 g).getValue builtin W' name key).2 =
      (((State.run builtin .new h).initConfig builtin W name list).2.get key).getD [] := by
  have h1 : ((State.run builtin .new h).initConfig builtin W name list).1.db.get name = some ((State.run builtin .new h).initConfig builtin W name list).2 := by
    simp only [State.initConfig]
    split
    · rename_i d hd; exact hd
    · simp [SMap.get_set]
  have h2 : ∀ (g : List (World × Op)) (s : State), s.db.get name = some ((State.run builtin .new h).initConfig builtin W name list).2 →
      (State.run builtin s g).db.get name = some ((State.run builtin .new h).initConfig builtin W name list).2 := by
    intro g
    induction g with
    | nil => intro s hs; exact hs
    | cons x g ih => intro s hs; exact ih _ (step_db builtin x.1 s x.2 name _ hs)
  have h3 := h2 g _ h1
  generalize State.run builtin ((State.run builtin .new h).initConfig builtin W name list).1 g = s at h3 ⊢
  have hs : s.db.l.length > 0 := by
    have := SMap.mem_of_get h3
    obtain ⟨x, hx, -⟩ := List.mem_map.1 this
    exact List.length_pos_of_mem hx
  constructor
  · simp only [State.initConfig, start_of_ne builtin W' s hs, h3]
  · intro key
    simp only [State.getValue, start_of_ne builtin W' s hs, h3]

/-- C53: lists of files and profiles are read as written: words separated by commas. -/
theorem C53_lists (ws : List (Str × Str)) (hw : ∀ x ∈ ws, IsText [ch ','] x.1 x.2) (hne : ws ≠ []) :
    stringList (List.intercalate [ch ','] (ws.map Prod.snd)) = ws.map Prod.fst := by
  have key : ∀ (ws : List (Str × Str)) (n : Nat), (∀ x ∈ ws, IsText [ch ','] x.1 x.2) → ws ≠ [] →
      (List.intercalate [ch ','] (ws.map Prod.snd)).length < n →
      stringListL [ch ','] n ⟨List.intercalate [ch ','] (ws.map Prod.snd), true⟩ = ws.map Prod.fst := by
    intro ws
    induction ws with
    | nil => intro n _ h; exact absurd rfl h
    | cons x r ih =>
      intro n hw _ hn
      obtain ⟨n, rfl⟩ : ∃ m, n = m + 1 := ⟨n - 1, by omega⟩
      have hx := hw x (by simp)
      cases r with
      | nil =>
        simp only [List.map_cons, List.map_nil, List.intercalate_singleton]
        have := readWord_text hx [] [] (by simp) (.inl rfl)
        simp only [List.nil_append, List.append_nil] at this
        unfold stringListL
        simp [this, hx.1, readChar]
      | cons y r =>
        have e : List.intercalate [ch ','] ((x :: y :: r).map Prod.snd) =
            x.2 ++ ch ',' :: List.intercalate [ch ','] ((y :: r).map Prod.snd) := by
          rw [List.map_cons, List.map_cons, List.intercalate_cons_cons]
          simp
        rw [e] at hn ⊢
        have h1 := readWord_text hx [] (ch ',' :: List.intercalate [ch ','] ((y :: r).map Prod.snd)) (by simp)
          (.inr ⟨_, _, rfl, by decide, by decide, by decide⟩)
        simp only [List.nil_append] at h1
        unfold stringListL
        simp only [h1, List.isEmpty_cons, Bool.not_false]
        rw [readChar_cons (by decide)]
        simp only [if_neg hx.1]
        rw [if_pos (by decide), ih n (fun z hz => hw z (by simp [hz])) (by simp) (by
          simp only [List.length_append, List.length_cons] at hn; omega)]
        rfl
  exact key ws _ hw hne (by omega)

/-! ### config files -/

theorem lastDef_append (l r : List (Str × Str)) (k : Str) : lastDef (l ++ r) k = (lastDef r k).or (lastDef l k) := by
  unfold lastDef
  rw [List.reverse_append, List.findSome?_append]

theorem addSections_other (S : List (Str × List (Str × Str))) (P : SMap Prof) (p : Str) (h : ∀ s ∈ S, s.1 = p → s.2 = []) :
    (addSections P S).get p = P.get p := by
  induction S generalizing P with
  | nil => rfl
  | cons s S ih =>
    obtain ⟨n, l⟩ := s
    have hp := h (n, l) (by simp)
    have hS := fun s hs => h s (List.mem_cons_of_mem _ hs)
    cases S with
    | nil =>
      simp only [addSections]
      split
      · rfl
      · rename_i hl
        rw [SMap.get_set, if_neg]
        intro e; exact hl (hp e.symm)
    | cons t S =>
      rw [addSections_cons _ _ _ _ (by simp), ih _ hS]
      split
      · rfl
      · rename_i hl
        rw [SMap.get_set, if_neg]
        intro e; exact hl (hp e.symm)

/-- C54 (partial: the documented rule for repeated definitions does not hold, see the violations): a profile that is defined in one
section of one config file has exactly the settings of that section; of repeated assignments the last one counts.  Files do not affect
profiles they do not mention. -/
theorem C54_profile_partial (P : SMap Prof) (ls : List Line) (h : ∀ x ∈ ls, x.Ok) (p : Str) :
    (∀ S1 l S2, sections ls = S1 ++ (p, l) :: S2 → l ≠ [] → (∀ s ∈ S1 ++ S2, s.1 = p → s.2 = []) → P.get p = none →
      ∃ q, (readProfiles P (textOf ls)).get p = some q ∧ ∀ k, q.get k = lastDef l k) ∧
    ((∀ s ∈ sections ls, s.1 = p → s.2 = []) → (readProfiles P (textOf ls)).get p = P.get p) := by
  rw [readProfiles_text P ls h]
  refine ⟨?_, fun hs => addSections_other _ P p hs⟩
  intro S1 l S2 hS hl hoth hP
  rw [hS]
  clear hS
  have key : ∀ (S1 : List (Str × List (Str × Str))) (P : SMap Prof), (∀ s ∈ S1, s.1 = p → s.2 = []) → P.get p = none →
      ∃ q, (addSections P (S1 ++ (p, l) :: S2)).get p = some q ∧ ∀ k, q.get k = lastDef l k := by
    intro S1
    induction S1 with
    | nil =>
      intro P _ hP
      rw [List.nil_append]
      cases S2 with
      | nil => exact ⟨profOf l, by simp [addSections, hl, SMap.get_set], fun k => profOf_get l k⟩
      | cons t S2 =>
        rw [addSections_cons _ _ _ _ (by simp), if_neg hl, addSections_other _ _ _ (fun s hs => hoth s (by simp [hs])), SMap.get_set, if_pos rfl, hP]
        exact ⟨_, rfl, fun k => by rw [SMap.get_insert]; simp [SMap.get_empty, profOf_get]⟩
    | cons s S1 ih =>
      intro P h1 hP
      obtain ⟨n, m⟩ := s
      rw [List.cons_append, addSections_cons _ _ _ _ (by simp)]
      refine ih _ (fun s hs => h1 s (by simp [hs])) ?_
      split
      · exact hP
      · rename_i hm
        rw [SMap.get_set, if_neg, hP]
        intro e; exact hm (h1 (n, m) (by simp) e.symm)
  exact key S1 P (fun s hs => hoth s (by simp [hs])) hP

/-- value in a profile -/
def valueIn (P : SMap Prof) (p k : Str) : Option Str := (P.get p).bind fun q => q.get k

theorem nonempty_split (S : List (Str × List (Str × Str))) (p : Str) (h : (S.filter fun s => decide (s.1 = p ∧ s.2 ≠ [])).length = 1) :
    ∃ S1 l S2, S = S1 ++ (p, l) :: S2 ∧ l ≠ [] ∧ ∀ s ∈ S1 ++ S2, s.1 = p → s.2 = [] := by
  obtain ⟨x, hx⟩ := List.length_eq_one_iff.1 h
  have hmem : x ∈ S.filter fun s => decide (s.1 = p ∧ s.2 ≠ []) := by rw [hx]; simp
  obtain ⟨hm, hp⟩ := List.mem_filter.1 hmem
  simp only [decide_eq_true_eq] at hp
  obtain ⟨S1, S2, rfl⟩ := List.append_of_mem hm
  refine ⟨S1, x.2, S2, by rw [← hp.1], hp.2, ?_⟩
  intro s hs e
  by_contra hne
  rw [List.filter_append, List.filter_cons_of_pos (by simpa using hp)] at h
  simp only [List.length_append, List.length_cons] at h
  rcases List.mem_append.1 hs with hs | hs
  · have := List.length_pos_of_mem (List.mem_filter (p := fun s : Str × List (Str × Str) => decide (s.1 = p ∧ s.2 ≠ [])).2 ⟨hs, decide_eq_true ⟨e, hne⟩⟩)
    omega
  · have := List.length_pos_of_mem (List.mem_filter (p := fun s : Str × List (Str × Str) => decide (s.1 = p ∧ s.2 ≠ [])).2 ⟨hs, decide_eq_true ⟨e, hne⟩⟩)
    omega

/-- sections without assignments do not count -/
theorem flatMap_none (S : List (Str × List (Str × Str))) (p : Str) (h : ∀ s ∈ S, s.1 = p → s.2 = []) :
    (S.filter (fun s => decide (s.1 = p))).flatMap Prod.snd = [] := by
  rw [List.flatMap_eq_nil_iff]
  intro s hs
  obtain ⟨h1, h2⟩ := List.mem_filter.1 hs
  exact h s h1 (by simpa using h2)

/-- C54 (partial: the documented rule fails for repeated definitions, see the violations): if all settings of a profile are made in one
section of one of the config files, the files give it the settings as documented: the last definition of each variable. -/
theorem C54_files_partial (files : List (List Line)) (h : ∀ f ∈ files, ∀ x ∈ f, x.Ok) (p k : Str) (P : SMap Prof) (hP : P.get p = none)
    (hone : ((files.flatMap sections).filter fun s => decide (s.1 = p ∧ s.2 ≠ [])).length ≤ 1) :
    valueIn ((files.map textOf).foldl readProfiles P) p k = documented files p k := by
  induction files generalizing P with
  | nil => simp [valueIn, hP, documented, lastDef]
  | cons f fs ih =>
    have hf := h f (by simp)
    have hfs := fun g hg => h g (List.mem_cons_of_mem _ hg)
    rw [List.flatMap_cons, List.filter_append, List.length_append] at hone
    have hnil : ∀ S : List (Str × List (Str × Str)), (S.filter fun s => decide (s.1 = p ∧ s.2 ≠ [])).length = 0 → ∀ s ∈ S, s.1 = p → s.2 = [] := by
      intro S hS s hs e
      by_contra hne
      have := List.length_pos_of_mem (List.mem_filter (p := fun s : Str × List (Str × Str) => decide (s.1 = p ∧ s.2 ≠ [])).2 ⟨hs, decide_eq_true ⟨e, hne⟩⟩)
      omega
    rw [List.map_cons, List.foldl_cons]
    by_cases h0 : ((sections f).filter fun s => decide (s.1 = p ∧ s.2 ≠ [])).length = 0
    · rw [ih hfs _ (by rw [((C54_profile_partial P f hf p).2 (hnil _ h0)), hP]) (by omega)]
      unfold documented
      rw [List.flatMap_cons, List.filter_append, List.flatMap_append, flatMap_none _ _ (hnil _ h0), List.nil_append]
    · have h2 : ((fs.flatMap sections).filter fun s => decide (s.1 = p ∧ s.2 ≠ [])).length = 0 := by omega
      obtain ⟨S1, l, S2, hS, hl, ho⟩ := nonempty_split (sections f) p (by omega)
      obtain ⟨q, hq, hv⟩ := (C54_profile_partial P f hf p).1 S1 l S2 hS hl ho hP
      have hrest : ∀ (fs : List (List Line)) (P : SMap Prof), (∀ f ∈ fs, ∀ x ∈ f, x.Ok) → (∀ s ∈ fs.flatMap sections, s.1 = p → s.2 = []) →
          ((fs.map textOf).foldl readProfiles P).get p = P.get p := by
        intro fs
        induction fs with
        | nil => intro P _ _; rfl
        | cons g gs ihg =>
          intro P h1 h2
          rw [List.map_cons, List.foldl_cons, ihg _ (fun f hf => h1 f (by simp [hf])) (fun s hs => h2 s (by simp only [List.flatMap_cons, List.mem_append]; exact .inr hs)),
            (C54_profile_partial P g (h1 g (by simp)) p).2 fun s hs => h2 s (by simp only [List.flatMap_cons, List.mem_append]; exact .inl hs)]
      unfold valueIn documented
      rw [hrest fs _ hfs (hnil _ h2), hq, List.flatMap_cons, List.filter_append, List.flatMap_append, flatMap_none _ _ (hnil _ h2), hS,
        List.filter_append, List.filter_cons_of_pos (by simp), List.flatMap_append, List.flatMap_cons,
        flatMap_none S1 p (fun s hs => ho s (by simp [hs])), flatMap_none S2 p (fun s hs => ho s (by simp [hs]))]
      simpa using hv k

/-- files -/
def exFile1 : List Line :=
  [.comment (str " settings"), .assign (str "CALI_X_A") (str "1") (str "1"), .assign (str "CALI_X_B") (str "b c") (str " \"b c\" "),
   .group (str " ") (str "one") [], .assign (str "CALI_X_A") (str "2") (str "2"), .assign (str "CALI_X_A") (str "3") (str "3")]
@[inherit_doc exFile1]
def exFile2 : List Line := [.assign (str "CALI_X_A") (str "5") (str "5")]
@[inherit_doc exFile1]
def exFile3 : List Line := exFile2 ++ [.group [] (str "two") [], .assign (str "CALI_X_A") (str "7") (str "7")]

/-- well-written files, and a section as in `C54_profile_partial` -/
example : (∀ x ∈ exFile1, x.Ok) ∧ sections exFile1 = [] ++ (str "default", [(str "CALI_X_A", str "1"), (str "CALI_X_B", str "b c")]) ::
      [(str "one", [(str "CALI_X_A", str "2"), (str "CALI_X_A", str "3")])] ∧
    valueIn (readProfiles .empty (textOf exFile1)) (str "default") (str "CALI_X_B") = some (str "b c") ∧
    valueIn (readProfiles .empty (textOf exFile1)) (str "one") (str "CALI_X_A") = some (str "3") ∧
    (([exFile1, exFile3].flatMap sections).filter fun s => decide (s.1 = str "one" ∧ s.2 ≠ [])).length ≤ 1 := by
  refine ⟨?_, by decide +kernel, by decide +kernel, by decide +kernel, by decide +kernel⟩
  intro x hx
  simp only [exFile1, List.mem_cons, List.not_mem_nil, or_false] at hx
  rcases hx with rfl | rfl | rfl | rfl | rfl | rfl
  · exact ⟨by decide, .inl (by decide)⟩
  · exact ⟨by decide, by decide, by decide, by decide, [], str "1", [], by decide, by decide, .inl rfl, .inl ⟨by decide, .inr ⟨rfl, by unfold Parse.Plain; decide⟩⟩⟩
  · exact ⟨by decide, by decide, by decide, by decide, [32], str "\"b c\"", [32], by decide, by decide, .inr ⟨32, [], rfl, by decide⟩,
      .inl ⟨by decide, .inl (by decide)⟩⟩
  · exact ⟨by decide, by decide, by decide, by decide, by decide⟩
  · exact ⟨by decide, by decide, by decide, by decide, [], str "2", [], by decide, by decide, .inl rfl, .inl ⟨by decide, .inr ⟨rfl, by unfold Parse.Plain; decide⟩⟩⟩
  · exact ⟨by decide, by decide, by decide, by decide, [], str "3", [], by decide, by decide, .inl rfl, .inl ⟨by decide, .inr ⟨rfl, by unfold Parse.Plain; decide⟩⟩⟩

/-- C54 (violation): if a section that is not the last one of its file defines a variable again, the earlier definition stays, although the
last one should count. -/
theorem C54_violation_first :
    documented [exFile1, exFile3] (str "default") (str "CALI_X_A") = some (str "5") ∧
    valueIn (readProfiles (readProfiles .empty (textOf exFile1)) (textOf exFile3)) (str "default") (str "CALI_X_A") = some (str "1") := by
  decide +kernel

/-- C54 (violation): the last section of a file removes all earlier definitions in its profile. -/
theorem C54_violation_lost :
    documented [exFile1, exFile2] (str "default") (str "CALI_X_B") = some (str "b c") ∧
    valueIn (readProfiles (readProfiles .empty (textOf exFile1)) (textOf exFile2)) (str "default") (str "CALI_X_B") = none := by
  decide +kernel

/-- a setting of a built-in profile cannot be overridden in a file unless it is the file's last section: with the built-in unit "sec", the
user's "usec" is ignored -/
theorem C54_violation_builtin :
    valueIn (readProfiles (readProfiles .empty (str "# [runtime-report]\nCALI_TIMER_UNIT=sec\n"))
      (str "# [runtime-report]\nCALI_TIMER_UNIT=usec\n# [mine]\nCALI_LOG_VERBOSITY=2\n")) (str "runtime-report") (str "CALI_TIMER_UNIT") =
      some (str "sec") := by
  decide +kernel

/-- nothing set, and one config file -/
def exW (text : String) : World := ⟨fun _ => none, fun f => if f = str "caliper.config" then some (str text) else none⟩

/-- C53 (violation): presets "may be overwritten by configuration files", but a preset made after some other module was initialised
overrides them. -/
theorem C53_violation_preset :
    ((State.run [] .new [(exW "CALI_X_A=1\n", .preset (str "CALI_X_A") (str "9"))]).initConfig [] (exW "CALI_X_A=1\n") (str "x")
      [(str "a", str "0")]).2.get (str "a") = some (str "1") ∧
    ((State.run [] .new [(exW "CALI_X_A=1\n", .init (str "y") []), (exW "CALI_X_A=1\n", .preset (str "CALI_X_A") (str "9"))]).initConfig []
      (exW "CALI_X_A=1\n") (str "x") [(str "a", str "0")]).2.get (str "a") = some (str "9") := by
  decide +kernel

/-- hypotheses of `C53_precedence` and `C53_overrides`: all kinds of calls, and a selected profile -/
example : let W : World := ⟨fun k => if k = str "CALI_X_C" then some (str "env") else none, (exW "CALI_CONFIG_PROFILE=q\n# [q]\nCALI_X_A=1\n").file⟩
    let h : List (World × Op) := [(W, .preset (str "CALI_X_A") (str "9")), (W, .get (str "y") (str "z")), (W, .set (str "CALI_X_B") (str "8"))]
    let list := [(str "a", str "0"), (str "b", str "0"), (str "c", str "0"), (str "d", str "dflt")]
    str "x" ≠ str "config" ∧ (∀ x ∈ h, ∀ l, x.2 ≠ .init (str "x") l) ∧ list = [(str "a", str "0")] ++ (str "b", str "0") :: list.drop 2 ∧
    ((((State.run [] .new h).initConfig [] W (str "x") list).2).get (str "a") = some (str "1") ∧
     (((State.run [] .new h).initConfig [] W (str "x") list).2).get (str "b") = some (str "8") ∧
     (((State.run [] .new h).initConfig [] W (str "x") list).2).get (str "c") = some (str "env") ∧
     (((State.run [] .new h).initConfig [] W (str "x") list).2).get (str "d") = some (str "dflt")) := by
  refine ⟨by decide, ?_, by decide, by decide +kernel⟩
  intro x hx l
  simp only [List.mem_cons, List.not_mem_nil, or_false] at hx
  rcases hx with rfl | rfl | rfl <;> simp

/-- hypotheses of `C53_lists` -/
example : (∀ x ∈ [(str "a", str "a"), (str "b,c", str "\"b,c\"")], IsText [ch ','] x.1 x.2) ∧
    stringList (str "a,\"b,c\"") = [str "a", str "b,c"] := by
  refine ⟨?_, by decide +kernel⟩
  intro x hx
  simp only [List.mem_cons, List.not_mem_nil, or_false] at hx
  rcases hx with rfl | rfl
  · exact ⟨by decide, .inr ⟨rfl, by unfold Parse.Plain; decide⟩⟩
  · exact ⟨by decide, .inl (by decide)⟩

end Verif.Config
