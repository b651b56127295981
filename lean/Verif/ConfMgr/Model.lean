import Verif.Config.Model
import Verif.Query.Json
/-!
# The configuration manager

Model of `/repo/src/caliper/ConfigManager.cpp`, of `StringConverter::rec_list` and `StringConverter::rec_dict`
(`/repo/src/common/StringConverter.cpp:152-286`) and of the basic channel controller.

Simplified: error messages are left out, only whether there is an error is kept; a channel controller is the data its `create` function
gets; the `check_args` functions of the specs are arbitrary functions; files, available services and built-in specs are given.
-/
namespace Verif.ConfMgr
open Verif Verif.Cali Verif.Parse
open Verif.Query.Json (strLt)
open Verif.Config (stringList)

/-- strings -/
abbrev Str := List Byte

/-! ## `std::map` with string keys: sorted association lists -/

/-- `m[k] = v` -/
def mset {α : Type} : List (Str × α) → Str → α → List (Str × α)
  | [], k, v => [(k, v)]
  | e :: m, k, v => if e.1 = k then (k, v) :: m else if strLt k e.1 then (k, v) :: e :: m else e :: mset m k v

/-- `m.emplace(k, v)`, `m.insert({k, v})`: an existing element stays -/
def mins {α : Type} (m : List (Str × α)) (k : Str) (v : α) : List (Str × α) := if (m.lookup k).isSome then m else mset m k v

/-- `for (auto& p : l) m[p.first] = p.second;` -/
def setAll {α : Type} (m l : List (Str × α)) : List (Str × α) := l.foldl (fun m e => mset m e.1 e.2) m

/-! ## `StringConverter` -/

/-- the nested text after its opening bracket `o`, with the brackets (`StringConverter.cpp:171-190`, `250-269`) -/
def nestedVal (o c : Byte) (s : IS) : Option (Str × IS) :=
  let r := readNested o c s
  let x := readChar r.2
  if x.1 = c then some (o :: (r.1 ++ [c]), x.2) else none

/-- one element of a list or dict (`StringConverter.cpp:168-195`, `248-274`); `none` is an unclosed bracket -/
def recVal (sep : List Byte) (s : IS) : Option (Str × IS) :=
  let x := readChar s
  if x.1 = ch '{' then nestedVal (ch '{') (ch '}') x.2
  else if x.1 = ch '[' then nestedVal (ch '[') (ch ']') x.2
  else some (readWord sep (x.2.unget x.1))

/-- the loop of `rec_list` (`StringConverter.cpp:167-201`): elements, no error, last character -/
def recListL : Nat → IS → List Str × Bool × Byte
  | 0, _ => ([], true, eofc)
  | n + 1, s =>
    match recVal [ch ',', ch ']'] s with
    | none => ([], false, eofc)
    | some r =>
      let e := if r.1 = [] then [] else [r.1]
      let x := readChar r.2
      if x.2.good && x.1 = ch ',' then
        let q := recListL n x.2
        (e ++ q.1, q.2)
      else (e, true, x.1)

/-- `rec_list` (`StringConverter.cpp:152-213`): the elements and `*okptr` -/
def recList (t : Str) : List Str × Bool :=
  let x := readChar ⟨t, true⟩
  let d : Bool := x.1 = ch '['
  let s := if d then x.2 else x.2.unget x.1
  let q := recListL (t.length + 1) s
  (q.1, q.2.1 && (!d || q.2.2 = ch ']'))

/-- the loop of `rec_dict` (`StringConverter.cpp:235-281`): entries in the order they are set, no error, last character -/
def recDictL : Nat → IS → List (Str × Str) × Bool × Byte
  | 0, _ => ([], true, eofc)
  | n + 1, s =>
    let k := readWord [ch ':'] s
    let x := readChar k.2
    if x.1 ≠ ch ':' then ([], false, eofc)
    else
      match recVal [ch ',', ch '}'] x.2 with
      | none => ([], false, eofc)
      | some r =>
        let e := if k.1 = [] then [] else [(k.1, r.1)]
        let y := readChar r.2
        if y.2.good && y.1 = ch ',' then
          let q := recDictL n y.2
          (e ++ q.1, q.2)
        else (e, true, y.1)

/-- `rec_dict` (`StringConverter.cpp:215-294`): the map and `*okptr` -/
def recDict (t : Str) : List (Str × Str) × Bool :=
  let x := readChar ⟨t, true⟩
  if x.1 = ch '{' then
    let q := recDictL (t.length + 1) x.2
    (setAll [] q.1, q.2.1 && q.2.2 = ch '}')
  else ([], false)

/-- `join_stringlist` (`ConfigManager.cpp:128-154`) -/
def joinList : List Str → Str
  | [] => []
  | [s] => s
  | s :: l => s ++ ch ',' :: joinList l

/-! ## Option specifications -/

/-- `option_spec_t` (`ConfigManager.cpp:330-340`) -/
structure Opt where
  type : Str := []
  description : Str := []
  category : Str := []
  services : List Str := []
  inherited : List Str := []
  query : List (Str × Str) := []
  config : List (Str × Str) := []
  deriving DecidableEq

/-- `OptionSpec` (`ConfigManager.cpp:328-583`) -/
structure Specs where
  data : List (Str × Opt) := []
  err : Bool := false
  deriving DecidableEq

/-- one element in `parse_select` (`ConfigManager.cpp:364-389`) -/
def selectExpr (sc : Str) : Str :=
  let d := recDict sc
  if d.2 then
    ((d.1.lookup (str "expr")).getD []) ++
    (match d.1.lookup (str "as") with | some a => str " as \"" ++ a ++ str "\"" | none => []) ++
    (match d.1.lookup (str "unit") with | some a => str " unit \"" ++ a ++ str "\"" | none => [])
  else sc

/-- `parse_select` (`ConfigManager.cpp:352-393`) -/
def parseSelect (l : List Str) : Str :=
  let r := l.foldl (fun (ret : Str) sc => ret ++ (if ret = [] then [] else [ch ',']) ++ selectExpr sc) []
  if r = [] then r else str " select " ++ r

/-- one clause in `parse_query_args` -/
def qClause (d : List (Str × Str)) (key : String) : Str :=
  match d.lookup (str key) with
  | some v => str " " ++ str key ++ str " " ++ joinList (recList v).1
  | none => []

/-- the SELECT clause in `parse_query_args` (`ConfigManager.cpp:425-427`) -/
def selectPart (d : List (Str × Str)) : Str := match d.lookup (str "select") with | some v => parseSelect (recList v).1 | none => []

/-- `parse_query_args` (`ConfigManager.cpp:395-438`): the new query map and whether there was an error -/
def parseQueryArgs (l : List Str) (q : List (Str × Str)) (err : Bool) : List (Str × Str) × Bool :=
  l.foldl (fun (r : List (Str × Str) × Bool) sc =>
    let d := (recDict sc).1
    let query := qClause d "group by" ++ qClause d "let" ++ qClause d "where" ++ qClause d "aggregate" ++ qClause d "order by" ++ selectPart d
    match d.lookup (str "level") with
    | none => (r.1, true)
    | some lv => (mset r.1 lv query, r.2)) (q, err)

/-- the query entry in `parse_spec` (`ConfigManager.cpp:466-476`): query map, ok, error -/
def parseQuery (t : Str) : List (Str × Str) × Bool × Bool :=
  let d := recDict t
  if d.2 then (setAll [] d.1, true, false)
  else
    let l := recList t
    let q := parseQueryArgs l.1 [] false
    (q.1, l.2, q.2)

/-- a list entry, read if all is well so far: `if (ok && !m_error && it != end) … rec_list(&ok)` -/
def listEntry (d : List (Str × Str)) (ok : Bool) (k : String) : List Str × Bool :=
  match d.lookup (str k) with
  | some v => if ok then recList v else ([], ok)
  | none => ([], ok)

/-- a dict entry, read if all is well so far -/
def dictEntry (d : List (Str × Str)) (ok : Bool) (k : String) : List (Str × Str) × Bool :=
  match d.lookup (str k) with
  | some v => if ok then recDict v else ([], ok)
  | none => ([], ok)

/-- the query entry, read if all is well so far -/
def queryEntry (d : List (Str × Str)) (ok : Bool) : List (Str × Str) × Bool × Bool :=
  match d.lookup (str "query") with
  | some v => if ok then parseQuery v else ([], ok, false)
  | none => ([], ok, false)

/-- a string entry -/
def strEntry (d : List (Str × Str)) (k : String) : Str := (d.lookup (str k)).getD []

/-- `parse_spec` (`ConfigManager.cpp:446-496`), called when there is no error yet.  Type and description are read even after an error;
the option is not added then. -/
def parseSpec (S : Specs) (d : List (Str × Str)) : Specs :=
  let sv := listEntry d true "services"
  let ih := listEntry d sv.2 "inherit"
  let cf := dictEntry d ih.2 "config"
  let qu := queryEntry d cf.2
  match d.lookup (str "name") with
  | none => { S with err := true }
  | some name =>
    if !qu.2.1 || qu.2.2 then { S with err := true }
    else { S with data := mset S.data name (⟨strEntry d "type", strEntry d "description", strEntry d "category", sv.1, ih.1, qu.1, setAll [] cf.1⟩ : Opt) }

/-- `add(const std::vector<StringConverter>&)` (`ConfigManager.cpp:535-549`) -/
def Specs.addList (S : Specs) (l : List Str) : Specs :=
  l.foldl (fun S t => if S.err then S else parseSpec S (recDict t).1) S

/-- `add(const OptionSpec&, categories)` (`ConfigManager.cpp:528-533`) -/
def Specs.add (S T : Specs) (cats : List Str) : Specs :=
  { S with data := T.data.foldl (fun m e => if e.2.category ∈ cats then mins m e.1 e.2 else m) S.data }

/-- `contains` -/
def Specs.contains (S : Specs) (k : Str) : Bool := (S.data.lookup k).isSome

/-! ## Options -/

/-- `arglist_t` -/
abbrev Args := List (Str × Str)

/-- `get_inherited_specs` (`ConfigManager.cpp:719-734`); `none`: the calls are nested deeper than `n` -/
def inherited (D : List (Str × Opt)) : Nat → Str → Option (List Str)
  | 0, _ => none
  | n + 1, name =>
    match D.lookup name with
    | none => some []
    | some o => o.inherited.foldlM (fun ret inh => (inherited D n inh).map fun tmp => ret ++ tmp ++ [inh]) []

/-- whether an argument enables its option (`ConfigManager.cpp:745-749`) -/
def enables (o : Opt) (v : Str) : Bool := if o.type = str "bool" then (toBoolStr v).getD false else true

/-- the first loop of `find_enabled_options` (`ConfigManager.cpp:740-755`) -/
def enabledVec (D : List (Str × Opt)) (n : Nat) (args : Args) : Option (List Str) :=
  args.foldlM (fun vec a =>
    match D.lookup a.1 with
    | none => some vec
    | some o => if enables o a.2 then (inherited D n a.1).map fun tmp => vec ++ [a.1] ++ tmp else some vec) []

/-- the second loop: no duplicates, in order (`ConfigManager.cpp:758-763`) -/
def dedup (l : List Str) : List Str := l.foldl (fun ret x => if x ∈ ret then ret else ret ++ [x]) []

/-- `Options` (`ConfigManager.cpp:589-593`) -/
structure Opts where
  data : List (Str × Opt)
  args : Args
  enabled : List Str

/-- `OptionsImpl::OptionsImpl` (`ConfigManager.cpp:768`) with room for `n` nested calls -/
def Opts.make (n : Nat) (D : List (Str × Opt)) (args : Args) : Option Opts := (enabledVec D n args).map fun v => ⟨D, args, dedup v⟩

/-- `is_set` -/
def Opts.isSet (o : Opts) (k : Str) : Bool := (o.args.lookup k).isSome

/-- `is_enabled` -/
def Opts.isEnabled (o : Opts) (k : Str) : Bool := o.enabled.contains k

/-- `enabled_options` (`ConfigManager.cpp:796-809`) -/
def Opts.enabledOptions (o : Opts) : List Str := o.enabled.filter fun s => (o.data.lookup s).any fun d => d.type = str "bool"

/-- `get` -/
def Opts.get (o : Opts) (k dflt : Str) : Str := (o.args.lookup k).getD dflt

/-- `check` (`ConfigManager.cpp:595-636`): is there an error -/
def Opts.check (o : Opts) (avail : List Str) : Bool :=
  (o.args.any fun a => (o.data.lookup a.1).any fun d => d.type = str "bool" && (toBoolStr a.2).isNone) ||
  (o.enabled.any fun e => (o.data.lookup e).any fun d => d.services.any fun s => !avail.contains s)

/-- `std::sort` and `std::unique` on strings: insertion into a sorted list without duplicates -/
def sortUnique (l : List Str) : List Str := (l.foldl (fun m s => mset m s ()) []).map Prod.fst

/-- `services` (`ConfigManager.cpp:638-656`) -/
def Opts.services (o : Opts) (cur : Str) : Str :=
  joinList (sortUnique (o.enabled.foldl (fun v e => v ++ (match o.data.lookup e with | some d => d.services | none => [])) (stringList cur)))

/-- `expand_variables` (`ConfigManager.cpp:156-182`) -/
def expand (val : Str) : Str → Str
  | [] => []
  | c :: cs =>
    if c = ch '{' then
      match cs with
      | [] => [ch '{']
      | d :: ds => if d = ch '}' then val ++ expand val ds else ch '{' :: d :: expand val ds
    else c :: expand val cs
  termination_by l => l.length

/-- `append_config` (`ConfigManager.cpp:658-675`) -/
def Opts.appendConfig (o : Opts) (cfg : List (Str × Str)) : List (Str × Str) :=
  o.enabled.foldl (fun cfg e =>
    match o.data.lookup e with
    | none => cfg
    | some d => d.config.foldl (fun cfg kv =>
        mset cfg kv.1 (match o.args.lookup e with | none => kv.2 | some v => expand v kv.2)) cfg) cfg

/-- `update_channel_config` (`ConfigManager.cpp:677-681`) -/
def Opts.updateConfig (o : Opts) (cfg : List (Str × Str)) : List (Str × Str) :=
  o.appendConfig (mset cfg (str "CALI_SERVICES_ENABLE") (o.services ((cfg.lookup (str "CALI_SERVICES_ENABLE")).getD [])))

/-- `build_query` (`ConfigManager.cpp:696-717`) -/
def Opts.buildQuery (o : Opts) (level inp : Str) : Str :=
  o.enabled.foldl (fun ret e =>
    match o.data.lookup e with
    | none => ret
    | some d =>
      match d.query.lookup level with
      | none => ret
      | some q => ret ++ ch ' ' :: expand ((o.args.lookup e).getD []) q) inp

/-- the loop of `parse_keyval_list` (`ConfigManager.cpp:189-205`) -/
def keyvalL : Nat → IS → Args
  | 0, _ => []
  | n + 1, s =>
    let k := readWord [ch '='] s
    if k.1 = [] then []
    else
      let x := readChar k.2
      if x.1 ≠ ch '=' then []
      else
        let v := readWord (str ",()") x.2
        let e := if v.1 = [] then [] else [(k.1, v.1)]
        let y := readChar v.2
        if y.2.good && y.1 = ch ',' then e ++ keyvalL n y.2 else e

/-- `parse_keyval_list` (`ConfigManager.cpp:184-211`) -/
def keyvals (t : Str) : Args := keyvalL (t.length + 1) ⟨t, true⟩

/-- `add_metadata` (`ConfigManager.cpp:302-324`); `file` is what `read_metadata_from_json_file` does -/
def addMetadata (file : Str → Str → List (Str × Str) → List (Str × Str)) (t : Str) (info : List (Str × Str)) : List (Str × Str) :=
  let l := keyvals t
  match l.lookup (str "file") with
  | some f => file f ((l.lookup (str "keys")).getD []) info
  | none => setAll info l

/-- `update_channel_metadata` (`ConfigManager.cpp:683-694`) -/
def Opts.updateMetadata (file : Str → Str → List (Str × Str) → List (Str × Str)) (o : Opts) (info : List (Str × Str)) : List (Str × Str) :=
  o.args.foldl (fun m a => if a.1 = str "metadata" then addMetadata file a.2 m else mset m (str "opts:" ++ a.1) a.2) info

/-! ### metadata files -/

/-- `find_key_in_json` (`ConfigManager.cpp:213-237`) -/
def findKey : List Str → List (Str × Str) → Option Str
  | [], _ => none
  | [k], d => d.lookup k
  | k :: p, d => (d.lookup k).bind fun v => findKey p (recDict v).1

/-- `add_metadata_entries` (`ConfigManager.cpp:239-257`) with room for `n` nested calls -/
def addEntries : Nat → Str → Str → List (Str × Str) → List (Str × Str)
  | 0, _, _, info => info
  | n + 1, key, v, info =>
    let d := recDict v
    if d.2 then d.1.foldl (fun info p => addEntries n (key ++ ch '.' :: p.1) p.2 info) info
    else mset info key v

/-- `read_metadata_from_json_file` (`ConfigManager.cpp:259-300`) -/
def fileMetadata (files : Str → Option Str) (name keys : Str) (info : List (Str × Str)) : List (Str × Str) :=
  match files name with
  | none => info
  | some t =>
    let top := recDict t
    if top.2 then
      let kl := stringList keys
      let kl := if kl = [] then top.1.map Prod.fst else kl
      kl.foldl (fun info k =>
        match findKey (Config.stringListL [ch '.'] (k.length + 1) ⟨k, true⟩) top.1 with
        | some v => addEntries (t.length + 1) k v info
        | none => info) info
    else info

/-! ## The manager -/

/-- `config_spec_t` (`ConfigManager.cpp:880-890`); `check` is the `check_args` function, true for an error -/
structure CSpec where
  name : Str
  categories : List Str
  description : Str
  initial : List (Str × Str)
  opts : Specs
  defaults : Args
  check : Opts → Bool

/-- a channel controller: what its `create` function gets -/
structure Chan where
  name : Str
  initial : List (Str × Str)
  opts : Opts

/-- `ConfigManagerImpl` (`ConfigManager.cpp:864-893`) -/
structure Mgr where
  channels : List Chan := []
  err : Bool := false
  dfltFor : List (Str × Args) := []
  dflt : Args := []
  extra : List (Str × Str) := []
  global : Specs := {}
  specs : List (Str × CSpec) := []

/-- what the manager sees: readable files, available services, built-in specs with their check functions -/
structure Env where
  files : Str → Option Str
  avail : List Str
  builtin : List (Str × (Opts → Bool))

/-- the data of a config spec from its entries (`ConfigManager.cpp:970-1003`); the flag says whether all is well -/
def readConfigSpec (d : List (Str × Str)) (name : Str) (check : Opts → Bool) : CSpec × List Str × Bool :=
  let sv := listEntry d true "services"
  let cats := listEntry d sv.2 "categories"
  let op := listEntry d cats.2 "options"
  let cf := dictEntry d op.2 "config"
  let cfg := setAll [] cf.1
  let initial := if sv.1 = [] then cfg
    else mset cfg (str "CALI_SERVICES_ENABLE") ((cfg.lookup (str "CALI_SERVICES_ENABLE")).getD [] ++ joinList sv.1)
  let df := dictEntry d cf.2 "defaults"
  let al := listEntry d df.2 "alias"
  (⟨name, cats.1, strEntry d "description", initial, Specs.addList {} op.1, df.1, check⟩, al.1, al.2)

/-- `add_config_spec` (`ConfigManager.cpp:928-1014`).  Entries are read even if the manager has an error; the spec is not added then. -/
def addConfigSpec (E : Env) (M : Mgr) (json : Str) (check : Opts → Bool) (ignoreExisting : Bool) : Mgr :=
  let d := recDict json
  if !d.2 then { M with err := true }
  else
    match d.1.lookup (str "name") with
    | none => { M with err := true }
    | some name =>
      if (M.specs.lookup name).isSome then if ignoreExisting then M else { M with err := true }
      else if M.err then M
      else if !((listEntry d.1 true "services").1.all fun s => E.avail.contains s) then M
      else
        let c := readConfigSpec d.1 name check
        if c.2.2 then { M with specs := c.2.1.foldl (fun m a => mins m a c.1) (mins M.specs name c.1) }
        else { M with err := true }

/-- `add_global_option_specs` (`ConfigManager.cpp:1016-1025`) -/
def addGlobal (M : Mgr) (json : Str) : Mgr :=
  let l := recList json
  let g := if M.global.err then M.global else M.global.addList l.1
  { M with global := g, err := M.err || g.err || !l.2 }

/-- `import_builtin_config_specs` (`ConfigManager.cpp:1027-1033`) -/
def importBuiltin (E : Env) (M : Mgr) : Mgr := E.builtin.foldl (fun M s => addConfigSpec E M s.1 s.2 true) M

/-- separators in config strings -/
def sepC : List Byte := str ",=()\n"

/-- `read_value` (`ConfigManager.cpp:1038-1056`); `none` is an error -/
def readValue (s : IS) : Option (Str × IS) :=
  let x := readChar s
  if x.1 = ch '=' then
    let v := readWord sepC x.2
    if v.1 = [] then none else some v
  else if x.1 = ch '(' then
    let v := readNested (ch '(') (ch ')') x.2
    let y := readChar v.2
    if y.1 = ch ')' then some (v.1, y.2) else none
  else some ([], x.2.unget x.1)

/-- the loop of `parse_arglist` (`ConfigManager.cpp:1072-1096`): arguments, last character, stream; `none` is an error -/
def argL (has : Str → Bool) : Nat → IS → Option (Args × Byte × IS)
  | 0, s => some ([], eofc, s)
  | n + 1, s =>
    let k := readWord sepC s
    let item := if k.1 = [] then some ([], k.2)
      else if !has k.1 && k.1 ≠ str "metadata" then none
      else (readValue k.2).map fun v => ([(k.1, if v.1 = [] then str "true" else v.1)], v.2)
    match item with
    | none => none
    | some it =>
      let x := readChar it.2
      if x.2.good && x.1 = ch ',' then (argL has n x.2).map fun q => (it.1 ++ q.1, q.2)
      else some (it.1, x.1, x.2)

/-- `parse_arglist` (`ConfigManager.cpp:1058-1104`) -/
def parseArglist (has : Str → Bool) (s : IS) : Option (Args × IS) :=
  let x := readChar s
  if !x.2.good then some ([], x.2)
  else if x.1 ≠ ch '(' then some ([], x.2.unget x.1)
  else
    match argL has (x.2.rest.length + 1) x.2 with
    | none => none
    | some q => if q.2.1 = ch ')' then some (q.1, q.2.2) else none

/-- `is_option` (`ConfigManager.cpp:1107-1117`) -/
def Mgr.isOption (M : Mgr) (k : Str) : Bool := M.global.contains k || M.specs.any fun p => p.2.opts.contains k

/-- `parse_json_content` (`ConfigManager.cpp:1119-1173`) -/
def parseJson (E : Env) (M : Mgr) (json : Str) : Mgr :=
  let addAll := fun (M : Mgr) (l : List Str) =>
    l.foldl (fun M s => if M.err then M else addConfigSpec E M s (fun _ => false) false) M
  let d := recDict json
  if d.2 then
    if (d.1.lookup (str "name")).isSome then addConfigSpec E M json (fun _ => false) false
    else
      let M := match d.1.lookup (str "options") with | some v => addGlobal M v | none => M
      match d.1.lookup (str "configs") with
      | none => M
      | some v =>
        let l := recList v
        if !l.2 then { M with err := true } else addAll M l.1
  else
    let l := recList json
    if l.2 then addAll M l.1 else { M with err := true }

/-- `load_file` (`ConfigManager.cpp:1176-1187`) -/
def loadFile (E : Env) (M : Mgr) (name : Str) : Mgr :=
  match E.files name with
  | some t => parseJson E M t
  | none => { M with err := true }

/-- the loop of `handle_load_command` (`ConfigManager.cpp:1199-1211`) -/
def loadL (E : Env) : Nat → Mgr → IS → Mgr × Byte × IS
  | 0, M, s => (M, eofc, s)
  | n + 1, M, s =>
    let f := readWord (str ",()") s
    let M := if f.1 = [] then { M with err := true } else loadFile E M f.1
    if M.err then (M, eofc, f.2)
    else
      let x := readChar f.2
      if x.2.good && x.1 = ch ',' then loadL E n M x.2 else (M, x.1, x.2)

/-- `handle_load_command` (`ConfigManager.cpp:1189-1216`) -/
def handleLoad (E : Env) (M : Mgr) (s : IS) : Mgr × IS :=
  let x := readChar s
  if x.1 ≠ ch '(' then ({ M with err := true }, x.2)
  else
    let q := loadL E (x.2.rest.length + 1) M x.2
    if q.1.err then (q.1, q.2.2)
    else if q.2.1 = ch ')' then (q.1, q.2.2) else ({ q.1 with err := true }, q.2.2)

/-- a config with its arguments -/
abbrev Found := List (CSpec × Args)

/-- one item of a config string (`ConfigManager.cpp:1241-1278`) -/
def parseItem (E : Env) (M : Mgr) (s : IS) : Mgr × IS × Found :=
  let k := readWord sepC s
  if k.1 = str "load" then
    let r := handleLoad E M k.2
    (r.1, r.2, [])
  else
    match M.specs.lookup k.1 with
    | some c =>
      match parseArglist (c.opts.add M.global c.categories).contains k.2 with
      | none => ({ M with err := true }, k.2, [])
      | some a => (M, a.2, if M.err then [] else [(c, a.1)])
    | none =>
      match readValue k.2 with
      | none => ({ M with err := true }, k.2, [])
      | some v =>
        if M.err then (M, v.2, [])
        else if k.1 = str "metadata" then ({ M with dflt := M.dflt ++ [(k.1, v.1)] }, v.2, [])
        else if M.isOption k.1 then ({ M with dflt := M.dflt ++ [(k.1, if v.1 = [] then str "true" else v.1)] }, v.2, [])
        else ({ M with extra := mset M.extra k.1 v.1 }, v.2, [])

/-- the loop of `parse_configstring` (`ConfigManager.cpp:1238-1286`) -/
def configL (E : Env) : Nat → Mgr → IS → Mgr × Found
  | 0, M, _ => (M, [])
  | n + 1, M, s =>
    let r := parseItem E M s
    if r.1.err then (r.1, r.2.2)
    else
      let x := readChar r.2.1
      if x.2.good && x.1 = ch ',' then
        let q := configL E n r.1 x.2
        (q.1, r.2.2 ++ q.2)
      else ({ r.1 with err := x.2.good }, r.2.2)

/-- `parse_configstring` (`ConfigManager.cpp:1218-1289`) -/
def parseConfigString (E : Env) (M : Mgr) (t : Str) : Mgr × Found :=
  let M := importBuiltin E M
  let x := readChar ⟨t, true⟩
  if x.2.good then configL E (t.length + 1) M (x.2.unget x.1) else (M, [])

/-- `merge_new_elements` (`ConfigManager.cpp:101-115`) -/
def mergeNew (a frm : Args) : Args :=
  frm.foldl (fun a p => if (a.lookup p.1).isNone || p.1 = str "metadata" then a ++ [p] else a) a

/-- `add_default_parameters` (`ConfigManager.cpp:1291-1302`) -/
def Mgr.addDefaults (M : Mgr) (args : Args) (c : CSpec) : Args :=
  let a := match M.dfltFor.lookup c.name with | some l => mergeNew args l | none => args
  mergeNew (mergeNew a M.dflt) c.defaults

/-- the channels for the found configs (`ConfigManager.cpp:1318-1333`), with room for `n` nested calls; `none` if the program does not
get through -/
def makeChans (E : Env) (n : Nat) (M : Mgr) : Found → Option (Mgr × List Chan)
  | [] => some (M, [])
  | (c, a) :: l =>
    match Opts.make n (c.opts.add M.global c.categories).data (M.addDefaults a c) with
    | none => none
    | some o =>
      let e := M.err || o.check E.avail || c.check o
      if e then some ({ M with err := true }, [])
      else (makeChans E n M l).map fun q => (q.1, if q.1.err then [] else ⟨c.name, c.initial, o⟩ :: q.2)

/-- `parse` (`ConfigManager.cpp:1311-1336`) -/
def Mgr.parse (E : Env) (n : Nat) (M : Mgr) (t : Str) : Option (Mgr × List Chan) :=
  let r := parseConfigString E M t
  if r.1.err then some (r.1, []) else makeChans E n r.1 r.2

/-- `add(config_string, extra_kv_pairs)` (`ConfigManager.cpp:1338-1343`, `1464-1471`): the result is `!err` -/
def Mgr.addExtra (E : Env) (n : Nat) (M : Mgr) (t : Str) : Option Mgr :=
  (M.parse E n t).map fun r => { r.1 with channels := r.1.channels ++ r.2 }

/-- `add(config_string)` (`ConfigManager.cpp:1454-1462`) -/
def Mgr.add (E : Env) (n : Nat) (M : Mgr) (t : Str) : Option Mgr :=
  (M.addExtra E n t).map fun M => if M.extra = [] then M else { M with err := true }

/-- the checks of `check` (`ConfigManager.cpp:1526-1544`): is there an error -/
def checkFound (E : Env) (n : Nat) (M : Mgr) : Found → Option Bool
  | [] => some M.err
  | (c, a) :: l =>
    match Opts.make n (c.opts.add M.global c.categories).data (M.addDefaults a c) with
    | none => none
    | some o => if M.err || c.check o || o.check E.avail then some true else checkFound E n M l

/-- `check(config_string, allow_extra_kv_pairs)` (`ConfigManager.cpp:1526-1548`): is there an error -/
def Mgr.check (E : Env) (n : Nat) (M : Mgr) (t : Str) (allow : Bool) : Option Bool :=
  let r := parseConfigString E M t
  (checkFound E n r.1 r.2).map fun e => e || (!allow && r.1.extra ≠ [])

/-- `set_default_parameter` (`ConfigManager.cpp:1483-1486`) -/
def Mgr.setDefault (M : Mgr) (k v : Str) : Mgr := { M with dflt := M.dflt ++ [(k, v)] }

/-- `set_default_parameter_for_config` (`ConfigManager.cpp:1488-1491`) -/
def Mgr.setDefaultFor (M : Mgr) (c k v : Str) : Mgr := { M with dfltFor := mset M.dfltFor c ((M.dfltFor.lookup c).getD [] ++ [(k, v)]) }

/-- `get_channel` (`ConfigManager.cpp:1498-1505`) -/
def Mgr.getChannel (M : Mgr) (name : Str) : Option Chan := M.channels.find? fun c => decide (c.name = name)

/-! ## The basic channel controller -/

/-- `BasicController` (`ConfigManager.cpp:57-74`): channel configuration and channel metadata -/
def basicController (files : Str → Option Str) (c : Chan) : List (Str × Str) × List (Str × Str) :=
  let cfg := match c.opts.args.lookup (str "output") with
    | some f => mset (mset (mset c.initial (str "CALI_RECORDER_FILENAME") f) (str "CALI_REPORT_FILENAME") f) (str "CALI_MPIREPORT_FILENAME") f
    | none => c.initial
  (c.opts.updateConfig cfg, c.opts.updateMetadata (fileMetadata files) [])

end Verif.ConfMgr
