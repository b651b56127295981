import Verif.ConfMgr.Spec
/-!
# Config strings and what they mean
-/
namespace Verif.ConfMgr
open Verif Verif.Cali Verif.Parse
open Verif.Query.CalQL (Spaces)

/-! ## texts -/

/-- a value: nothing, `=word`, or `(text)` with balanced parentheses -/
def ValueT (v t : Str) : Prop :=
  (v = [] ∧ t = []) ∨
  (∃ a b tw, Spaces a ∧ Spaces b ∧ IsText sepC v tw ∧ t = a ++ ch '=' :: (b ++ tw)) ∨
  (∃ a, Spaces a ∧ Nest (ch '(') (ch ')') v ∧ t = a ++ ch '(' :: (v ++ [ch ')']))

/-- an option without a value is set to `true` -/
def orTrue (v : Str) : Str := if v = [] then str "true" else v

/-- an option with its value -/
def ArgT (e : Str × Str) (t : Str) : Prop :=
  ∃ a tk v tv d, Spaces a ∧ Spaces d ∧ IsText sepC e.1 tk ∧ ValueT v tv ∧ e.2 = orTrue v ∧ t = a ++ tk ++ (tv ++ d)

/-- options separated by commas -/
inductive ArgsT : Args → Str → Prop
  | one {e t} : ArgT e t → ArgsT [e] t
  | cons {e t l r} : ArgT e t → ArgsT l r → ArgsT (e :: l) (t ++ ch ',' :: r)

/-- nothing, or options in parentheses -/
def ArgListT (l : Args) (t : Str) : Prop :=
  (l = [] ∧ t = []) ∨ ∃ a b, Spaces a ∧ (l = [] ∧ Spaces b ∨ ArgsT l b) ∧ t = a ++ ch '(' :: (b ++ [ch ')'])

/-- file names separated by commas -/
inductive FilesT : List Str → Str → Prop
  | one {a f tf d} : Spaces a → IsText (str ",()") f tf → Spaces d → FilesT [f] (a ++ tf ++ d)
  | cons {a f tf d l r} : Spaces a → IsText (str ",()") f tf → Spaces d → FilesT l r → FilesT (f :: l) (a ++ tf ++ (d ++ ch ',' :: r))

/-- the items of a config string -/
inductive Item where
  | config (name : Str) (args : Args)
  | param (key val : Str)
  | load (files : List Str)

/-- an item -/
def ItemT : Item → Str → Prop
  | .config name args, t => ∃ a tk ta d, Spaces a ∧ Spaces d ∧ IsText sepC name tk ∧ ArgListT args ta ∧ t = a ++ tk ++ (ta ++ d)
  | .param key v, t => ∃ a tk tv d, Spaces a ∧ Spaces d ∧ IsText sepC key tk ∧ ValueT v tv ∧ t = a ++ tk ++ (tv ++ d)
  | .load fs, t => ∃ a tk b tf d, Spaces a ∧ Spaces b ∧ Spaces d ∧ IsText sepC (str "load") tk ∧ FilesT fs tf ∧
      t = a ++ tk ++ (b ++ ch '(' :: (tf ++ ch ')' :: d))

/-- a config string: items separated by commas -/
inductive StringT : List Item → Str → Prop
  | one {i t} : ItemT i t → StringT [i] t
  | cons {i t l r} : ItemT i t → StringT l r → StringT (i :: l) (t ++ ch ',' :: r)

/-! ## meaning -/

/-- an option known for a config: one of its own, or a global one in one of its categories; `metadata` is always known -/
def Known (M : Mgr) (c : CSpec) (k : Str) : Prop :=
  k = str "metadata" ∨ (c.opts.data.lookup k).isSome ∨ ∃ o, (k, o) ∈ M.global.data ∧ o.category ∈ c.categories

/-- an option of some config -/
def IsOption (M : Mgr) (k : Str) : Prop := (M.global.data.lookup k).isSome ∨ ∃ n c, (n, c) ∈ M.specs ∧ (c.opts.data.lookup k).isSome

/-- loading files one after the other works -/
inductive Loads (E : Env) : List Str → Mgr → Mgr → Prop
  | nil {M} : Loads E [] M M
  | cons {f l M M'} : (loadFile E M f).err = false → Loads E l (loadFile E M f) M' → Loads E (f :: l) M M'

/-- what the items of a config string do: a config adds a channel with its options, an option without a config becomes a default for all
configs, `load` loads specs, everything else is kept aside as an extra variable -/
inductive Runs (E : Env) : List Item → Mgr → Mgr → Found → Prop
  | nil {M} : Runs E [] M M []
  | config {name args c l M M' F} : name ≠ str "load" → M.specs.lookup name = some c → (∀ e ∈ args, Known M c e.1) → Runs E l M M' F →
      Runs E (.config name args :: l) M M' ((c, args) :: F)
  | metadata {v l M M' F} : M.specs.lookup (str "metadata") = none → Runs E l { M with dflt := M.dflt ++ [(str "metadata", v)] } M' F →
      Runs E (.param (str "metadata") v :: l) M M' F
  | option {k v l M M' F} : k ≠ str "load" → k ≠ str "metadata" → M.specs.lookup k = none → IsOption M k →
      Runs E l { M with dflt := M.dflt ++ [(k, orTrue v)] } M' F → Runs E (.param k v :: l) M M' F
  | extra {k v l M M' F} : k ≠ str "load" → k ≠ str "metadata" → M.specs.lookup k = none → ¬IsOption M k →
      Runs E l { M with extra := mset M.extra k v } M' F → Runs E (.param k v :: l) M M' F
  | load {fs l M M' M'' F} : Loads E fs M M' → Runs E l M' M'' F → Runs E (.load fs :: l) M M'' F

/-- the options a config gets: its own, then defaults for this config, then defaults for all configs, then those of its spec; a default
counts only if the option is not set before it, except that all `metadata` entries count -/
def Merged (own : Args) (ds : List Args) (r : Args) : Prop :=
  ∃ ext, r = own ++ ext ∧ ext.Sublist ds.flatten ∧
    (∀ k, k ≠ str "metadata" → r.lookup k = (own ++ ds.flatten).lookup k) ∧
    (∀ k, k ≠ str "metadata" → (ext.filter fun e => decide (e.1 = k)).length = if k ∈ own.map Prod.fst ∨ k ∉ ds.flatten.map Prod.fst then 0 else 1) ∧
    ext.filter (fun e => decide (e.1 = str "metadata")) = ds.flatten.filter fun e => decide (e.1 = str "metadata")

/-- the default lists for a config -/
def Mgr.defaultsFor (M : Mgr) (c : CSpec) : List Args := [(M.dfltFor.lookup c.name).getD [], M.dflt, c.defaults]

/-- the options that can be used with a config: its own, and the global ones in its categories that it does not have itself -/
def OptionsOf (M : Mgr) (c : CSpec) (D : List (Str × Opt)) : Prop :=
  ∀ k, D.lookup k = (c.opts.data.lookup k).or ((M.global.data.filter fun e => decide (e.2.category ∈ c.categories)).lookup k)

/-- the options for a config that is used with the options `own` -/
def IsOpts (M : Mgr) (f : CSpec × Args) (o : Opts) : Prop :=
  OptionsOf M f.1 o.data ∧ Merged f.2 (M.defaultsFor f.1) o.args ∧ ∃ n, Opts.make n o.data o.args = some o

/-- the options are refused: by the check for all options, or by the check for this config -/
def Refused (E : Env) (f : CSpec × Args) (o : Opts) : Prop := o.check E.avail = true ∨ f.1.check o = true

/-- a channel for a config -/
def IsChan (E : Env) (M : Mgr) (f : CSpec × Args) (c : Chan) : Prop :=
  c.name = f.1.name ∧ c.initial = f.1.initial ∧ IsOpts M f c.opts ∧ ¬Refused E f c.opts

/-- texts that are not a config string: the first item in them is wrong -/
inductive Malformed (M : Mgr) : Str → Prop
  /-- a config with something behind it that is neither an option list nor the next item -/
  | junk {name c a tk w x r} : name ≠ str "load" → M.specs.lookup name = some c → Spaces a → IsText sepC name tk → Spaces w → (w ≠ [] ∨ x ∈ sepC) →
      isSpace x = false → x ≠ ch ',' → x ≠ ch '(' → Malformed M (a ++ tk ++ (w ++ x :: r))
  /-- a config and its options with something behind them -/
  | junkArgs {name c a tk w args b d x r} : name ≠ str "load" → M.specs.lookup name = some c → Spaces a → IsText sepC name tk → Spaces w →
      ArgsT args b → (∀ e ∈ args, Known M c e.1) → Spaces d → isSpace x = false → x ≠ ch ',' →
      Malformed M (a ++ tk ++ (w ++ ch '(' :: (b ++ ch ')' :: (d ++ x :: r))))
  /-- a list of options without a closing parenthesis -/
  | unclosed {name c a tk w args b} : name ≠ str "load" → M.specs.lookup name = some c → Spaces a → IsText sepC name tk → Spaces w →
      ArgsT args b → (∀ e ∈ args, Known M c e.1) → Malformed M (a ++ tk ++ (w ++ ch '(' :: b))
  /-- an equal sign without a value -/
  | noValue {key a tk w d r} : key ≠ str "load" → M.specs.lookup key = none → Spaces a → IsText sepC key tk → Spaces w → Spaces d →
      (r = [] ∨ ∃ cs, r = ch ',' :: cs) → Malformed M (a ++ tk ++ (w ++ ch '=' :: (d ++ r)))
  /-- a value without its closing parenthesis -/
  | openValue {key a tk w v} : key ≠ str "load" → M.specs.lookup key = none → Spaces a → IsText sepC key tk → Spaces w →
      Nest (ch '(') (ch ')') v → Malformed M (a ++ tk ++ (w ++ ch '(' :: v))
  /-- an option of a config with a value without its closing parenthesis -/
  | openArg {name c a tk w key b tb d v} : name ≠ str "load" → M.specs.lookup name = some c → Spaces a → IsText sepC name tk → Spaces w →
      Spaces b → IsText sepC key tb → Spaces d → Nest (ch '(') (ch ')') v →
      Malformed M (a ++ tk ++ (w ++ ch '(' :: (b ++ tb ++ (d ++ ch '(' :: v))))

end Verif.ConfMgr
