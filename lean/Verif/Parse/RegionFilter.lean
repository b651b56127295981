import Verif.Parse.Stream
/-!
# Region filters

Model of `/repo/src/caliper/RegionFilter.{h,cpp}`.  Compiling a regular expression (`std::regex`) is a parameter: `none` is a
`std::regex_error`, otherwise the predicate `std::regex_match`.
-/
namespace Verif.Parse
open Verif Verif.Cali

/-- `RegionFilter::Filter` (`RegionFilter.h:24-28`); `regex` are the compiled expressions -/
structure Filter where
  startswith : List (List Byte)
  match_ : List (List Byte)
  regex : List (List Byte → Bool)

/-- the separators of the filter language -/
def fsep : List Byte := [ch ',', ch '(', ch ')']

/-- the loop of `ArgumentListParser::parse` (`RegionFilter.cpp:43-50`): arguments, last character read, stream -/
def argLoop : Nat → IS → List (List Byte) × Byte × IS
  | 0, s => ([], eofc, s)
  | fuel + 1, s =>
    let (w, s) := readWord fsep s
    let (c, s) := readChar s
    let ws := if w = [] then [] else [w]
    if s.good && c = ch ',' then
      let (ws', r) := argLoop fuel s
      (ws ++ ws', r)
    else (ws, c, s)

/-- `ArgumentListParser::parse` (`RegionFilter.cpp:33-57`): arguments (`none` on error) and stream -/
def parseArgs (s : IS) : Option (List (List Byte)) × IS :=
  let (c, s) := readChar s
  if c ≠ ch '(' then (some [], s.unget c)
  else
    let (ws, c, s) := argLoop (s.rest.length + 1) s
    (if c = ch ')' then some ws else none, s)

/-- one round of the loop of `parse_filter_config` (`RegionFilter.cpp:72-115`): `none` on error -/
def filterStep (compile : List Byte → Option (List Byte → Bool)) (F : Filter) (s : IS) : Option Filter × IS :=
  let (w, s) := readWord fsep s
  if w = str "match" then
    match parseArgs s with
    | (some a, s) => (some { F with match_ := F.match_ ++ a }, s)
    | (none, s) => (none, s)
  else if w = str "startswith" then
    match parseArgs s with
    | (some a, s) => (some { F with startswith := F.startswith ++ a }, s)
    | (none, s) => (none, s)
  else if w = str "regex" then
    match parseArgs s with
    | (some a, s) => ((a.mapM compile).map fun rs => { F with regex := F.regex ++ rs }, s)
    | (none, s) => (none, s)
  else if w ≠ [] then (some { F with match_ := F.match_ ++ [w] }, s)
  else (some F, s)

/-- the loop of `parse_filter_config` (`RegionFilter.cpp:71-118`) -/
def filterLoop (compile : List Byte → Option (List Byte → Bool)) : Nat → Filter → IS → Option Filter
  | 0, F, _ => some F
  | fuel + 1, F, s =>
    match filterStep compile F s with
    | (none, _) => none
    | (some F, s) =>
      let (c, s) := readChar s
      if s.good && c = ch ',' then filterLoop compile fuel F s else some F

/-- `parse_filter_config` (`RegionFilter.cpp:62-128`): `none` on error, `some none` if there are no filters -/
def parseFilter (compile : List Byte → Option (List Byte → Bool)) (txt : List Byte) : Option (Option Filter) :=
  (filterLoop compile (txt.length + 1) ⟨[], [], []⟩ ⟨txt, true⟩).map fun F =>
    if F.match_.isEmpty && F.startswith.isEmpty && F.regex.isEmpty then none else some F

/-- `RegionFilter::match` (`RegionFilter.cpp:130-149`) -/
def Filter.matches (F : Filter) (v : List Byte) : Bool :=
  F.startswith.any (fun w => decide (w.length ≤ v.length) && decide (w = v.take w.length)) ||
  F.match_.any (fun w => decide (v.length = w.length) && decide (w = v.take w.length)) ||
  F.regex.any (fun r => r v)

/-- a `RegionFilter`: include and exclude filters (`RegionFilter.h:30-31`) -/
structure RegionFilter where
  incl : Option Filter
  excl : Option Filter

/-- `RegionFilter::pass` (`RegionFilter.h:43-52`) -/
def RegionFilter.pass (R : RegionFilter) (v : List Byte) : Bool :=
  if (match R.excl with | some e => e.matches v | none => false) then false
  else match R.incl with
    | some i => i.matches v
    | none => true

/-- `RegionFilter::from_config` (`RegionFilter.cpp:151-177`): `none` on error -/
def fromConfig (compile : List Byte → Option (List Byte → Bool)) (incl excl : List Byte) : Option RegionFilter :=
  match parseFilter compile incl with
  | none => none
  | some i =>
    match parseFilter compile excl with
    | none => none
    | some e => some ⟨i, e⟩

end Verif.Parse
