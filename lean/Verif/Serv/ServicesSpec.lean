import Verif.Serv.Services
import Verif.ConfMgr.Spec
import Verif.Config.Spec
/-!
# Specification: the services of a channel
-/
namespace Verif.Services
open Verif Verif.Cali Verif.Parse Verif.ConfMgr
open Verif.Query.CalQL (Spaces)

/-- the name a service is added under: that in its spec, or the given text if it is not a spec -/
inductive Named : Str → Str → Prop where
  | spec {l : List (Str × J)} {ws t r n : Str} : Spaces ws → JText (.dict l) t → lastVal l (str "name") = some (.word n) → Named (ws ++ t ++ r) n
  | plain {s : Str} : (s.dropWhile isSpace).head? ≠ some (ch '{') → Named s s

/-- a service that is added: its name, its spec, its registration function -/
structure Added where
  name : Str
  spec : Str
  fn : Nat

/-- arrays of services end with a null entry; whatever comes after it is not looked at -/
inductive IsArray : List Added → List Service → Prop where
  | nil {s : Service} {l : List Service} : s.spec = none ∨ s.fn = none → IsArray [] (s :: l)
  | cons {a : Added} {as : List Added} {l : List Service} : Named a.spec a.name → IsArray as l → IsArray (a :: as) (⟨some a.spec, some a.fn⟩ :: l)

/-- the service added last under a name -/
def lastAdded (as : List Added) (name : Str) : Option Nat := lastVal (as.map fun a => (a.name, a.fn)) name

/-- an entry of the "config" list of a spec: a key and its default value, which is empty if none is given -/
def Option' (j : J) (e : Str × Str) : Prop := ∃ d, j = .dict d ∧ lastVal d (str "name") = some (.word e.1) ∧ StrF d "value" e.2

/-- a service spec: its name, its options with their default values -/
def Declared (spec name : Str) (opts : List (Str × Str)) : Prop :=
  ∃ l ws t r, spec = ws ++ t ++ r ∧ Spaces ws ∧ JText (.dict l) t ∧ lastVal l (str "name") = some (.word name) ∧
    ((lastVal l (str "config") = none ∧ opts = []) ∨ ∃ js, lastVal l (str "config") = some (.list js) ∧ List.Forall₂ Option' js opts)

/-- services of one group are active and none of another group -/
def Missing (services : List Str) (dept depcy : Group) : Prop := (∃ s ∈ dept.services, s ∈ services) ∧ ∀ s ∈ depcy.services, s ∉ services

/-- `s` is the first service of the group that is active -/
def FirstActive (services : List Str) (g : Group) (s : Str) : Prop :=
  ∃ a b, g.services = a ++ s :: b ∧ s ∈ services ∧ ∀ x ∈ a, x ∉ services

/-- the names of a group in words -/
def Group.words : Group → Str
  | .trigger => str "\"alloc\", \"cuptitrace\", \"event\", \"libpfm\", \"loop_monitor\", \"region_monitor\" or \"sampler\""
  | .buffer => str "\"aggregate\", \"trace\" or \"cuptitrace\""
  | .process => str "\"aggregate\", \"trace\" or \"textlog\""
  | .online => str "\"textlog\""
  | .offline => str "\"recorder\", \"report\", \"sos\" or \"mpireport\""

/-- the warning that `s`, a service of one group, needs one of the services of another group -/
def warning (dept : Group) (s : Str) (depcy : Group) : Str :=
  str "Config check: Warning: " ++ dept.name ++ str " service \"" ++ s ++ str "\" requires " ++ depcy.name ++
    str " services, but none are active.\n     Add " ++ depcy.words ++ str " to CALI_SERVICES_ENABLE to generate Caliper output.\n"

/-- the warnings for a list of dependencies: one for each that is not met, in this order -/
inductive Warnings (services : List Str) : List (Group × Group) → List Str → Prop where
  | nil : Warnings services [] []
  | met {d ds ws} : ¬Missing services d.1 d.2 → Warnings services ds ws → Warnings services (d :: ds) ws
  | unmet {d ds ws s} : Missing services d.1 d.2 → FirstActive services d.1 s → Warnings services ds ws →
      Warnings services (d :: ds) (warning d.1 s d.2 :: ws)

end Verif.Services
