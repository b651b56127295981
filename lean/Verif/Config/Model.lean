import Verif.Parse.Stream
import Verif.Cali.Lines
/-!
# Configuration settings

Model of `/repo/src/common/RuntimeConfig.cpp` and of `StringConverter::to_stringlist` (`/repo/src/common/StringConverter.cpp:129-150`).

Simplified: `std::map` and `std::unordered_map` are association lists with distinct keys (no code depends on their order); messages on
`std::cerr` are left out; the environment and the files are given with each call.
-/
namespace Verif.Config
open Verif Verif.Cali Verif.Parse

/-- strings -/
abbrev Str := List Byte

/-- a map with string keys -/
structure SMap (α : Type) where
  l : List (Str × α)
  nd : (l.map Prod.fst).Nodup

/-- empty map -/
def SMap.empty {α : Type} : SMap α := ⟨[], List.nodup_nil⟩

/-- `find` -/
def SMap.get {α : Type} (m : SMap α) (k : Str) : Option α := (m.l.find? fun e => decide (e.1 = k)).map Prod.snd

theorem keys_replace {α : Type} (l : List (Str × α)) (k : Str) (v : α) :
    (l.map fun e => if e.1 = k then (k, v) else e).map Prod.fst = l.map Prod.fst := by
  induction l with
  | nil => rfl
  | cons e l ih =>
    simp only [List.map_cons, ih]
    by_cases h : e.1 = k <;> simp [h]

/-- `m[k] = v` -/
def SMap.set {α : Type} (m : SMap α) (k : Str) (v : α) : SMap α :=
  if h : k ∈ m.l.map Prod.fst then ⟨m.l.map (fun e => if e.1 = k then (k, v) else e), by rw [keys_replace]; exact m.nd⟩
  else ⟨m.l ++ [(k, v)], by
    rw [List.map_append]
    refine List.nodup_append.2 ⟨m.nd, by simp, ?_⟩
    intro a ha b hb
    simp only [List.map_cons, List.map_nil, List.mem_singleton] at hb
    subst hb
    exact fun e => h (e ▸ ha)⟩

/-- `m.emplace(k, v)`, `m.insert({k, v})`: existing elements stay -/
def SMap.emplace {α : Type} (m : SMap α) (k : Str) (v : α) : SMap α := if k ∈ m.l.map Prod.fst then m else m.set k v

/-- `m.insert(q.begin(), q.end())` -/
def SMap.insert {α : Type} (m q : SMap α) : SMap α := q.l.foldl (fun m e => m.emplace e.1 e.2) m

/-- `for (auto& p : q) m[p.first] = p.second;` -/
def SMap.merge {α : Type} (m q : SMap α) : SMap α := q.l.foldl (fun m e => m.set e.1 e.2) m

/-- a config profile (`config_profile_t`, `RuntimeConfig.cpp:71`) -/
abbrev Prof := SMap Str

/-- `toupper` of one character in the "C" locale -/
def toUpper (c : Byte) : Byte := if 97 ≤ c.toNat ∧ c.toNat ≤ 122 then c - 32 else c

/-- `config_var_name` (`RuntimeConfig.cpp:61-69`) -/
def varName (name key : Str) : Str := (str "CALI_" ++ name ++ str "_" ++ key).map toUpper

/-- the value of one entry in `ConfigSetImpl::init` (`RuntimeConfig.cpp:104-126`) -/
def entryValue (readEnv : Bool) (env : Str → Option Str) (profile top : Prof) (var dflt : Str) : Str :=
  match top.get var with
  | some v => v
  | none =>
    let v := (profile.get var).getD dflt
    if readEnv then (env var).getD v else v

/-- `ConfigSetImpl::init` (`RuntimeConfig.cpp:95-129`) -/
def initSet (name : Str) (list : List (Str × Str)) (readEnv : Bool) (env : Str → Option Str) (profile top : Prof) : SMap Str :=
  list.foldl (fun d e => d.emplace e.1 (entryValue readEnv env profile top (varName name e.1) e.2)) .empty

/-! ### config files -/

/-- data of `read_config_profiles`: `current_profile`, `current_profile_name`, `m_config_profiles` -/
structure RS where
  cur : Prof
  name : Str
  profs : SMap Prof

/-- `line.find_first_of(c)` -/
def findFirst (c : Byte) (line : List Byte) : Option Nat := if c ∈ line then some (line.idxOf c) else none

/-- the end of the loop body: a `NAME=VALUE` line (`RuntimeConfig.cpp:196-201`) -/
def RS.setting (s : RS) (line : List Byte) : RS :=
  match findFirst (ch '=') line with
  | none => s
  | some i => if i > 0 then { s with cur := s.cur.set (line.take i) (readWord [] ⟨line.drop (i + 1), true⟩).1 } else s

/-- a new profile begins: the current one is inserted into the profile database (`RuntimeConfig.cpp:186-190`) -/
def RS.group (s : RS) (name : Str) : RS :=
  { cur := .empty, name := name,
    profs := if s.cur.l.length > 0 then s.profs.set s.name (((s.profs.get s.name).getD .empty).insert s.cur) else s.profs }

/-- one line (`RuntimeConfig.cpp:176-202`) -/
def RS.line (s : RS) (line : List Byte) : RS :=
  match line with
  | [] => s
  | c :: _ =>
    if c = ch '#' then
      match findFirst (ch '[') line, findFirst (ch ']') line with
      | some b, some e => if b + 1 < e then (s.group ((line.drop (b + 1)).take (e - b - 1))).setting line else s
      | _, _ => s
    else s.setting line

/-- `read_config_profiles` (`RuntimeConfig.cpp:163-207`) -/
def readProfiles (profs : SMap Prof) (text : List Byte) : SMap Prof :=
  let s := (splitLines text []).foldl RS.line ⟨.empty, str "default", profs⟩
  if s.cur.l.length > 0 then s.profs.set s.name s.cur else s.profs

/-- the loop of `StringConverter::to_stringlist` (`StringConverter.cpp:136-145`) -/
def stringListL (sep : List Byte) : Nat → IS → List Str
  | 0, _ => []
  | n + 1, is =>
    let w := readWord sep is
    let c := readChar w.2
    (if w.1 = [] then [] else [w.1]) ++ (if c.2.good && sep.contains c.1 then stringListL sep n c.2 else [])

/-- `StringConverter::to_stringlist`, by default with separator `,` -/
def stringList (s : Str) : List Str := stringListL [ch ','] (s.length + 1) ⟨s, true⟩

/-! ### the configuration object -/

/-- what the process sees: environment variables and readable files -/
structure World where
  env : Str → Option Str
  file : Str → Option (List Byte)

/-- `RuntimeConfigImpl` (`RuntimeConfig.cpp:138-158`) -/
structure State where
  allow : Bool
  combined : Prof
  top : Prof
  db : SMap (SMap Str)
  profs : SMap Prof

/-- a new configuration object -/
def State.new : State := ⟨true, .empty, .empty, .empty, .empty⟩

variable (builtin : List Byte)

/-- `read_config_files` (`RuntimeConfig.cpp:209-222`); `builtin` is the text of the built-in profiles -/
def readFiles (W : World) (profs : SMap Prof) (names : List Str) : SMap Prof :=
  (names.filterMap W.file).foldl readProfiles (readProfiles profs builtin)

/-- the entries of the "config" set (`RuntimeConfig.cpp:226`) -/
def configData : List (Str × Str) := [(str "profile", str "default"), (str "file", str "caliper.config")]

/-- merging the selected profiles (`RuntimeConfig.cpp:250-261`) -/
def mergeSelected (profs : SMap Prof) (combined : Prof) (names : List Str) : Prof :=
  names.foldl (fun c n => match profs.get n with | none => c | some p => c.merge p) combined

/-- `init_config_database` (`RuntimeConfig.cpp:224-262`) -/
def State.initDb (W : World) (s : State) : State :=
  let cfg0 := initSet (str "config") configData s.allow W.env s.combined s.top
  let profs := readFiles builtin W s.profs (stringList ((cfg0.get (str "file")).getD []))
  let combined := s.combined.merge ((profs.get (str "default")).getD .empty)
  let cfg := initSet (str "config") configData s.allow W.env combined s.top
  { s with
    profs := profs
    db := s.db.set (str "config") cfg
    combined := mergeSelected profs combined (stringList ((cfg.get (str "profile")).getD [])) }

/-- `if (m_database.empty()) init_config_database();` -/
def State.start (W : World) (s : State) : State := if s.db.l.length = 0 then s.initDb builtin W else s

/-- the calls: `preset`, `set`, `import`, `allow_read_env`, `init`, `get` -/
inductive Op where
  | preset (k v : Str)
  | set (k v : Str)
  | import_ (l : SMap Str)
  | allow (b : Bool)
  | init (name : Str) (list : List (Str × Str))
  | get (name key : Str)

/-- `init_configset` (`RuntimeConfig.cpp:285-301`) -/
def State.initConfig (W : World) (s : State) (name : Str) (list : List (Str × Str)) : State × SMap Str :=
  let s := s.start builtin W
  match s.db.get name with
  | some d => (s, d)
  | none =>
    let d := initSet name list s.allow W.env s.combined s.top
    ({ s with db := s.db.set name d }, d)

/-- `RuntimeConfigImpl::get` (`RuntimeConfig.cpp:266-273`); a default-constructed `StringConverter` is the empty string -/
def State.getValue (W : World) (s : State) (name key : Str) : State × Str :=
  let s := s.start builtin W
  match s.db.get name with
  | none => (s, [])
  | some d => (s, (d.get key).getD [])

/-- one call (`RuntimeConfig.cpp:275-283`, `354-383`) -/
def State.step (W : World) (s : State) : Op → State
  | .preset k v => { s with combined := s.combined.set k v }
  | .set k v => { s with top := s.top.set k v }
  | .import_ l => { s with top := s.top.merge l }
  | .allow b => { s with allow := b }
  | .init name list => (s.initConfig builtin W name list).1
  | .get name key => (s.getValue builtin W name key).1

/-- a history of calls -/
def State.run (s : State) (h : List (World × Op)) : State := h.foldl (fun s x => s.step builtin x.1 x.2) s

end Verif.Config
