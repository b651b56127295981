import Verif.Query.Agg
/-!
# The JSON formatter

Model of `/repo/src/reader/JsonFormatter.cpp` and `write_json_esc_string` (`/repo/src/common/util/format_util.h:33-53`).

Simplified: a context tree node is the list of its (attribute, value) pairs (as in `Verif.Query.Agg`); `db.get_attribute(id)` is a function; the
text goes to one stream (the mutex makes the writing of a record atomic); `std::set<std::string>` is a list.
-/
namespace Verif.Query.Json
open Verif Verif.Cali Verif.Query

abbrev Str := List Byte

/-- what the formatter asks of an attribute -/
structure AInfo where
  name : Str
  ty : AttrType
  hidden : Bool
  isGlobal : Bool
  nested : Bool

/-- `Layout` (`JsonFormatter.cpp:35`) -/
inductive Layout where
  | records
  | split
  | object
  deriving DecidableEq

/-- options (`JsonFormatter.cpp:28-44`) -/
structure JCfg where
  selected : List Str
  pretty : Bool
  quoteAll : Bool
  sepNested : Bool
  layout : Layout
  alias_ : Str → Option Str

/-- one character in `write_json_esc_string` (`format_util.h:36-49`) -/
def escChar (c : Byte) : List Byte :=
  (if c = ch '\n' then [ch '\\', ch 'n'] else []) ++
  (if c.toInt < 0x20 then [] else (if c = ch '\\' ∨ c = ch '"' then [ch '\\'] else []) ++ [c])

/-- `write_json_esc_string` (`format_util.h:33-53`) -/
def writeJsonEsc (s : Str) : List Byte := s.flatMap escChar

/-- order of `std::string` -/
def strLt : Str → Str → Bool
  | [], [] => false
  | [], _ :: _ => true
  | _ :: _, [] => false
  | a :: as, b :: bs => if a.toNat < b.toNat then true else if b.toNat < a.toNat then false else strLt as bs

/-- `std::map<std::string, std::string>` -/
abbrev OMap := List (Str × Str)

/-- `find` -/
def OMap.get (m : OMap) (k : Str) : Option Str := (m.find? fun e => decide (e.1 = k)).map Prod.snd

/-- insertion of a new key in order -/
def OMap.ins (k v : Str) : OMap → OMap
  | [] => [(k, v)]
  | e :: m => if strLt k e.1 then (k, v) :: e :: m else e :: OMap.ins k v m

/-- `m[k] = v` -/
def OMap.set (m : OMap) (k v : Str) : OMap :=
  if k ∈ m.map Prod.fst then m.map fun e => if e.1 = k then (k, v) else e else m.ins k v

/-- `get_key` (`JsonFormatter.cpp:82-97`); empty: not shown -/
def getKey (C : JCfg) (a : AInfo) : Str :=
  let sel := decide (a.name ∈ C.selected)
  if !sel && (decide (C.selected ≠ []) || a.hidden || a.isGlobal) then []
  else if a.nested && !C.sepNested then str "path"
  else (C.alias_ a.name).getD a.name

variable (F : DblFmt) (info : Nat → AInfo)

/-- `quote_kvs` and `noquote_kvs` -/
structure KVs where
  quote : OMap
  noquote : OMap

/-- one node (`JsonFormatter.cpp:124-135`) -/
def addNode (C : JCfg) (m : OMap) (n : Nat × Val) : OMap :=
  let key := getKey C (info n.1)
  if key = [] then m
  else match m.get key with
    | none => m.set key (n.2.toStr F)
    | some s => m.set key (n.2.toStr F ++ str "/" ++ s)

/-- one entry (`JsonFormatter.cpp:122-150`) -/
def addEntry (C : JCfg) (kv : KVs) : QEnt → KVs
  | .ref path => { kv with quote := path.foldl (addNode F info C) kv.quote }
  | .imm a v =>
    let key := getKey C (info a)
    if key = [] then kv
    else if C.quoteAll || (info a).ty = .string || (info a).ty = .usr then { kv with quote := kv.quote.set key (v.toStr F) }
    else { kv with noquote := kv.noquote.set key (v.toStr F) }

/-- the key-value pairs of a record (`JsonFormatter.cpp:114-151`) -/
def collect (C : JCfg) (r : List QEnt) : KVs := r.foldl (addEntry F info C) ⟨[], []⟩

/-- a quoted key-value pair (`JsonFormatter.cpp:171-172`) -/
def quotedKV (e : Str × Str) : List Byte :=
  str "\"" ++ writeJsonEsc e.1 ++ str "\":" ++ str "\"" ++ writeJsonEsc e.2 ++ str "\""
/-- an unquoted key-value pair (`JsonFormatter.cpp:176-177`) -/
def plainKV (e : Str × Str) : List Byte := str "\"" ++ writeJsonEsc e.1 ++ str "\":" ++ writeJsonEsc e.2

/-- Pairs with separators: `first` before the first one, `sep` before the others, `pre` before each (the loops with `count++ > 0`,
`JsonFormatter.cpp:168-178`, `209-224`, `247-255`) -/
def writeSeq (first sep pre : List Byte) : List (List Byte) → List Byte
  | [] => []
  | p :: ps => first ++ pre ++ p ++ writeSeq sep sep pre ps

/-- the text of the pairs of a record (`JsonFormatter.cpp:167-180`) -/
def recordText (C : JCfg) (kv : KVs) : List Byte :=
  str "{" ++ writeSeq [] (str ",") (if C.pretty then str "\n\t" else []) (kv.quote.map quotedKV ++ kv.noquote.map plainKV) ++ (if C.pretty then str "\n" else []) ++ str "}"

/-- `begin_records_section` (`JsonFormatter.cpp:99-105`) -/
def beginText : Layout → List Byte
  | .records => str "[\n"
  | .object => str "{\n\"records\": [\n"
  | .split => []

/-- `end_records_section` (`JsonFormatter.cpp:107-111`) -/
def endText : Layout → List Byte
  | .split => []
  | _ => str "\n]"

/-- output so far and `m_num_recs` -/
structure JState where
  out : List Byte
  num : Nat

/-- `print` (`JsonFormatter.cpp:113-184`) -/
def JState.print (C : JCfg) (s : JState) (r : List QEnt) : JState :=
  let kv := collect F info C r
  if kv.noquote.length + kv.quote.length > 0 then
    { out := s.out ++ (if s.num = 0 then beginText C.layout else []) ++ (if s.num > 0 then str ",\n" else []) ++ recordText C kv,
      num := s.num + 1 }
  else s

/-- a map from attribute ids to strings, ordered by id -/
abbrev GMap := List (Nat × Str)

def GMap.get (m : GMap) (k : Nat) : Option Str := (m.find? fun e => decide (e.1 = k)).map Prod.snd
def GMap.ins (k : Nat) (v : Str) : GMap → GMap
  | [] => [(k, v)]
  | e :: m => if k < e.1 then (k, v) :: e :: m else e :: GMap.ins k v m
def GMap.set (m : GMap) (k : Nat) (v : Str) : GMap :=
  if k ∈ m.map Prod.fst then m.map fun e => if e.1 = k then (k, v) else e else m.ins k v

/-- one node of a globals entry (`JsonFormatter.cpp:236-243`) -/
def addGlobalNode (m : GMap) (n : Nat × Val) : GMap :=
  let old := (m.get n.1).getD []
  m.set n.1 (if old.length > 0 then n.2.toStr F ++ str "/" ++ old else n.2.toStr F)

/-- the global values (`JsonFormatter.cpp:231-246`) -/
def globalVals (globals : List QEnt) : GMap :=
  globals.foldl (fun m e => match e with
    | .ref path => path.foldl (addGlobalNode F) m
    | .imm a v => m.set a (v.toStr F)) []

/-- one global value (`JsonFormatter.cpp:253-254`) -/
def globalKV (e : Nat × Str) : List Byte :=
  str "\"" ++ writeJsonEsc (info e.1).name ++ str "\": " ++ str "\"" ++ writeJsonEsc e.2 ++ str "\""

/-- `write_globals` (`JsonFormatter.cpp:229-258`) -/
def globalsText (pretty : Bool) (m : GMap) : List Byte := writeSeq [] (str ",\n") (if pretty then str "\t" else []) (m.map (globalKV info))

/-- an attribute in `write_attributes`: id and the nodes on the path from its node to the root -/
structure JAttr where
  id : Nat
  path : List (Nat × Val)

/-- one attribute (`JsonFormatter.cpp:211-223`): the name is not escaped -/
def attrText (a : JAttr) : List Byte :=
  str "\"" ++ (info a.id).name ++ str "\": {" ++
  str "\"is_global\": " ++ (if (info a.id).isGlobal then str "true" else str "false") ++
  str ",\"is_nested\": " ++ (if (info a.id).nested then str "true" else str "false") ++
  (a.path.flatMap fun n => str ",\"" ++ writeJsonEsc (info n.1).name ++ str "\": " ++ str "\"" ++ writeJsonEsc (n.2.toStr F) ++ str "\"") ++
  str "}"

/-- the attributes written (`JsonFormatter.cpp:196-206`); `all` is `db.get_all_attributes()`, or the selected ones found by name -/
def shownAttrs (C : JCfg) (all : List JAttr) : List JAttr :=
  (all.filter fun a => C.sepNested || !(info a.id).nested).filter fun a => !(info a.id).hidden

/-- `write_attributes` (`JsonFormatter.cpp:186-227`) -/
def attrsText (C : JCfg) (all : List JAttr) : List Byte :=
  writeSeq (str "\n") (str ",\n") (if C.pretty then str "\t" else []) ((shownAttrs info C all).map (attrText F info))

/-- `flush` (`JsonFormatter.cpp:260-279`) -/
def JState.flush (C : JCfg) (globals : List QEnt) (attrs : List JAttr) (s : JState) : List Byte :=
  s.out ++ (if s.num = 0 then beginText C.layout else []) ++ endText C.layout ++
  (if C.layout = .object then
    str ",\n\"globals\": {\n" ++ globalsText info C.pretty (globalVals F globals) ++ str "\n}" ++
    str ",\n\"attributes\": {" ++ attrsText F info C attrs ++ str "\n}" ++ str "\n}"
  else []) ++ str "\n"

/-- the output for a stream of records -/
def jsonOutput (C : JCfg) (globals : List QEnt) (attrs : List JAttr) (recs : List (List QEnt)) : List Byte :=
  (recs.foldl (JState.print F info C) ⟨[], 0⟩).flush F info C globals attrs

end Verif.Query.Json
