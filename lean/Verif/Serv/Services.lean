import Verif.ConfMgr.Model
import Verif.Config.Model
import Verif.Mpi.Filter
/-!
# Service registration and the configuration check

Model of `/repo/src/services/Services.cpp`, of `/repo/src/caliper/config_sanity_check.cpp`, and of the part of `Caliper::create_channel`
(`/repo/src/caliper/Caliper.cpp:1336-1376`) and of the constructor of `ChannelBody` (`Caliper.cpp:176-181`) that uses them.

Simplified: a registration function is a number, and what it does here is the calls it makes on the channel's configuration; the printed documentation of services is left
out; a failed assertion (a service spec without a name, or a config entry without one) is `none`.
-/
namespace Verif.Services
open Verif Verif.Cali Verif.Parse Verif.ConfMgr
open Verif.Config (World State SMap)
open Verif.MpiFilter (splitNames)

/-- strings -/
abbrev Str := List Byte

/-- `CaliperService` (`Services.h:25-30`), with pointers that may be null -/
structure Service where
  spec : Option Str
  fn : Option Nat

/-- `get_name_from_spec` (`Services.cpp:26-40`) -/
def nameOf (s : Str) : Str :=
  let d := recDict s
  if d.2 then (d.1.lookup (str "name")).getD s else s

/-- the map of services: name, name or spec, registration function -/
abbrev Reg := List (Str × (Str × Nat))

/-- `ServicesManager::add_services` (`Services.cpp:69-73`) -/
def addServices (m : Reg) : List Service → Reg
  | ⟨some s, some f⟩ :: l => addServices (mset m (nameOf s) (s, f)) l
  | _ => m

/-- `ServicesManager::get_available_services` (`Services.cpp:46-55`) -/
def available (m : Reg) : List Str := m.map Prod.fst

/-- `ServicesManager::register_service` (`Services.cpp:57-66`): which function is called; functions in the map are not null -/
def registerService (m : Reg) (name : Str) : Option Nat := (m.find? fun p => decide (p.1 = name)).map fun p => p.2.2

/-- what is done for a name: a registration function is called, or it is reported as not found -/
inductive Outcome where
  | registered (fn : Nat)
  | notFound (name : Str)
  deriving DecidableEq

/-- the loop of `register_configured_services` (`Services.cpp:166-170`) -/
def registerAll (m : Reg) (names : List Str) : List Outcome :=
  names.map fun s => match registerService m s with | some f => .registered f | none => .notFound s

/-- the config entries of a service spec (`Services.cpp:191-209`) -/
def entriesOf : List Str → Option (List (Str × Str))
  | [] => some []
  | e :: l =>
    let d := (recDict e).1
    match d.lookup (str "name") with
    | none => none
    | some key => (entriesOf l).map fun r => (key, (d.lookup (str "value")).getD []) :: r

/-- the "config" entry of a service spec (`Services.cpp:191-193`) -/
def configEntries : Option Str → Option (List (Str × Str))
  | none => some []
  | some c => entriesOf (recList c).1

/-- `init_config_from_spec` (`Services.cpp:187-217`) -/
def initFromSpec (builtin : List Byte) (W : World) (s : State) (spec : Str) : Option (State × SMap Str) :=
  let d := (recDict spec).1
  (configEntries (d.lookup (str "config"))).bind fun l => (d.lookup (str "name")).map fun name => s.initConfig builtin W name l

/-! ## The configuration check -/

/-- the groups of services (`config_sanity_check.cpp:19-41`) -/
inductive Group where
  | trigger | buffer | process | online | offline
  deriving DecidableEq

/-- `group_name` (`config_sanity_check.cpp:29-33`) -/
def Group.name : Group → Str
  | .trigger => str "snapshot trigger"
  | .buffer => str "snapshot buffer"
  | .process => str "snapshot process"
  | .online => str "online output"
  | .offline => str "offline output"

/-- `services` (`config_sanity_check.cpp:19-24`) -/
def Group.services : Group → List Str
  | .trigger => [str "alloc", str "cuptitrace", str "event", str "libpfm", str "loop_monitor", str "region_monitor", str "sampler"]
  | .buffer => [str "aggregate", str "trace", str "cuptitrace"]
  | .process => [str "aggregate", str "trace", str "textlog"]
  | .online => [str "textlog"]
  | .offline => [str "recorder", str "report", str "sos", str "mpireport"]

/-- the loop of `format_group` (`config_sanity_check.cpp:48-57`) with its counter -/
def formatGroupL (sep last : Str) : Nat → List Str → Str
  | _, [] => []
  | n, s :: l => (if n ≠ 0 then (if l = [] then last else sep) else []) ++ (str "\"" ++ s ++ str "\"") ++ formatGroupL sep last (n + 1) l

/-- `format_group` (`config_sanity_check.cpp:43-60`) -/
def formatGroup (g : List Str) (sep last : Str) : Str := formatGroupL sep last 0 g

/-- `check_service_dependency` (`config_sanity_check.cpp:62-90`): the warning, if there is one -/
def checkDependency (dept depcy : Group) (services : List Str) : List Str :=
  match dept.services.find? fun s => services.contains s with
  | none => []
  | some s =>
    match depcy.services.find? fun s => services.contains s with
    | some _ => []
    | none => [str "Config check: Warning: " ++ dept.name ++ str " service \"" ++ s ++ str "\" requires " ++ depcy.name ++
        str " services, but none are active.\n     Add " ++ formatGroup depcy.services (str ", ") (str " or ") ++
        str " to CALI_SERVICES_ENABLE to generate Caliper output.\n"]

/-- `dependencies` (`config_sanity_check.cpp:94-101`) -/
def dependencies : List (Group × Group) :=
  [(.trigger, .process), (.process, .trigger), (.buffer, .offline), (.online, .trigger), (.offline, .buffer)]

/-- `check_services` (`config_sanity_check.cpp:92-105`) -/
def checkServices (services : List Str) : List Str := dependencies.flatMap fun d => checkDependency d.1 d.2 services

/-- `config_sanity_check` (`config_sanity_check.cpp:111-130`), given the value of the service list -/
def sanityCheck (channel enable : Str) : List Str :=
  let services := splitNames enable
  if services = [] then [channel ++ str ": No services enabled, " ++ channel ++ str " channel will not record data.\n"]
  else if services.contains (str "debug") then []
  else if services.contains (str "validator") then []
  else checkServices services

/-- the entries of the "channel" set (`Caliper.cpp:191-204`) -/
def channelData : List (Str × Str) := [(str "config_check", str "true"), (str "flush_on_exit", str "true")]

/-- creating a channel: `ChannelBody::ChannelBody` (`Caliper.cpp:176-181`), `register_configured_services` (`Services.cpp:157-171`), then the check
(`Caliper.cpp:1368-1370`). `calls f` are the calls on the channel's configuration that the registration function `f` makes. The result is what is done for the listed services,
and the warnings. -/
def createChannel (builtin : List Byte) (calls : Nat → List (World × Config.Op)) (W : World) (m : Reg) (channel : Str) (s : State) : List Outcome × List Str :=
  let a := (s.initConfig builtin W (str "channel") channelData).1
  let b := a.initConfig builtin W (str "services") [(str "enable", [])]
  let out := registerAll m (splitNames ((b.2.get (str "enable")).getD []))
  let c := b.1.run builtin (out.flatMap fun o => match o with | .registered f => calls f | .notFound _ => [])
  let d := c.getValue builtin W (str "channel") (str "config_check")
  (out, if toBoolStr d.2 = some true then sanityCheck channel (d.1.getValue builtin W (str "services") (str "enable")).2 else [])

end Verif.Services
