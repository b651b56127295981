import Verif.Attr.Spec
import Verif.PropStr.Lemmas
import Verif.Config.Spec
import Verif.ConfMgr.MetaSpec
/-!
# Attribute properties from the configuration

Model of `Caliper::GlobalData::parse_attribute_config` (`/repo/src/caliper/Caliper.cpp:365-388`), of the settings it reads
(`Caliper.cpp:490-515`) and of its call at initialisation (`Caliper.cpp:394`).

Simplified: the message for an unknown default scope is a flag.
-/
namespace Verif.Presets
open Verif Verif.Cali Verif.Config Verif.PropStr

/-- `GlobalData::attribute_prop_presets` and `attribute_default_scope` (`Caliper.cpp:309-310`), and whether a message was written -/
structure Presets where
  props : SMap (BitVec 32)
  scope : BitVec 32
  invalid : Bool

/-- the constructor (`Caliper.cpp:326`) -/
def Presets.new : Presets := ⟨.empty, 20, false⟩

/-- the characters of a C string: up to the first NUL (`c_str()`) -/
def cstr (s : Str) : Str := s.takeWhile fun c => c != 0

/-- the loop body (`Caliper.cpp:369-378`): `attribute_prop_presets.insert(make_pair(…))` keeps existing elements -/
def addPreset (m : SMap (BitVec 32)) (s : Str) : SMap (BitVec 32) :=
  match findFirst (ch '=') s with
  | none => m
  | some p => m.emplace (s.take p) (string2prop (cstr (s.drop (p + 1))))

/-- `parse_attribute_config` (`Caliper.cpp:365-388`) -/
def parseAttributeConfig (cfg : SMap Str) (g : Presets) : Presets :=
  let props := (stringList ((cfg.get (str "attribute_properties")).getD [])).foldl addPreset g.props
  let scope := (cfg.get (str "attribute_default_scope")).getD []
  if scope = str "process" then ⟨props, 12, g.invalid⟩
  else if scope = str "thread" then ⟨props, 20, g.invalid⟩
  else ⟨props, g.scope, true⟩

/-- `s_configdata` (`Caliper.cpp:490-515`): keys and default values -/
def configData : List (Str × Str) := [(str "attribute_properties", []), (str "attribute_default_scope", str "thread")]

/-- `GlobalData::init` (`Caliper.cpp:390-394`), with the configuration in state `s` -/
def initPresets (builtin : List Byte) (W : World) (s : Config.State) : Presets :=
  parseAttributeConfig (s.initConfig builtin W (str "caliper") configData).2 .new

/-- the configuration `create_attribute` sees (`Caliper.cpp:699-712`) -/
def Presets.config (g : Presets) (aggId : Nat) : AttrReg.Config := ⟨fun n => g.props.get n, g.scope, aggId⟩

/-! ## Specification -/

/-- one entry of the list: `name=prop1:prop2:...`, or just a name -/
structure Entry where
  name : Str
  props : Option (List Str)

/-- its text -/
def Entry.word (e : Entry) : Str := e.name ++ match e.props with
  | none => []
  | some ps => ch '=' :: joinC ps

/-- entries as documented: the properties are known ones, and the name has no equal sign -/
def Entry.Ok (e : Entry) : Prop := ch '=' ∉ e.name ∧ ∀ ps, e.props = some ps → ∀ t ∈ ps, ∃ p ∈ propmap, p.name = t

/-- `t` is a way to write the list: entries, quoted or not, with commas and maybe white space between them -/
def ListText (l : List Entry) (t : Str) : Prop := (l = [] ∧ t = []) ∨ ConfMgr.WordsT (ch ',') (l.map Entry.word) t

/-- the property word that has exactly the named properties -/
def unionOf (ps : List Str) : BitVec 32 := propmap.foldl (fun a p => if p.name ∈ ps then a ||| p.prop else a) 0

/-- the properties listed for an attribute: the first entry with properties for it counts -/
def listed (l : List Entry) (n : Str) : Option (BitVec 32) :=
  ((l.filter fun e => decide (e.name = n)).findSome? fun e => e.props).map unionOf

/-- the scope flags for a default scope -/
inductive ScopeName : Str → BitVec 32 → Prop
  | process : ScopeName (str "process") 12
  | thread : ScopeName (str "thread") 20

/-- the properties of an attribute made with property word `u`: global attributes are process-scope and unaligned, attributes without a
scope get the default scope `d` -/
def withScope (d u : BitVec 32) : BitVec 32 :=
  if u &&& 512 ≠ 0 then u &&& ~~~60 ||| 12 ||| 1024 else if u &&& 60 = 0 then u ||| d else u

end Verif.Presets
