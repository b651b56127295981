import Verif.Parse.Stream
import Verif.Query.Select
/-!
# The CalQL parser

Model of `/repo/src/reader/CalQLParser.cpp`: from the text of a query to a `QuerySpec`.

Simplified: error messages and positions are dropped, only the error flag is kept; `FunctionSignature`s are `Sig` records; `std::map`s
are association lists; loops have fuel, the number of characters left plus one (every iteration but the last reads a comma), and raise the
error flag without it.  `parse_select`, `parse_sort` and `parse_let` return the keyword of the next clause when they have read it, and the
main loop goes on with it, where the code calls `parse_clause_from_word` at their end.
-/
namespace Verif.Query.CalQL
open Verif Verif.Cali Verif.Parse

abbrev Str := List Byte

/-- `QuerySpec::FunctionSignature` (`QuerySpec.h:41-47`) -/
structure Sig where
  id : Nat
  name : Str
  min : Nat
  max : Nat
  args : List Str
  deriving DecidableEq, Repr

/-- the aggregation functions (`Aggregator.cpp:873-898`) -/
def aggDefs : List Sig :=
  let k := [str "attribute"]
  let r := [str "numerator", str "denominator", str "scale"]
  let s := [str "attribute", str "scale"]
  [⟨0, str "count", 0, 0, []⟩, ⟨1, str "sum", 1, 1, k⟩, ⟨2, str "ratio", 2, 3, r⟩, ⟨3, str "percent_total", 1, 1, k⟩,
   ⟨4, str "inclusive_sum", 1, 1, k⟩, ⟨5, str "min", 1, 1, k⟩, ⟨6, str "max", 1, 1, k⟩, ⟨7, str "avg", 1, 1, k⟩, ⟨8, str "scale", 2, 2, s⟩,
   ⟨9, str "inclusive_scale", 2, 2, s⟩, ⟨10, str "inclusive_percent_total", 1, 1, k⟩, ⟨11, str "any", 1, 1, k⟩,
   ⟨12, str "scale_count", 1, 1, [str "scale"]⟩, ⟨13, str "inclusive_ratio", 2, 3, r⟩, ⟨14, str "inclusive_min", 1, 1, k⟩,
   ⟨15, str "inclusive_max", 1, 1, k⟩, ⟨16, str "variance", 1, 1, k⟩]

/-- the formatters (`FormatProcessor.cpp:23-38`) -/
def fmtDefs : List Sig :=
  [⟨0, str "cali", 0, 0, []⟩,
   ⟨1, str "json", 0, 6, [str "object", str "pretty", str "quote-all", str "separate-nested", str "records", str "split"]⟩,
   ⟨2, str "expand", 0, 0, []⟩, ⟨3, str "format", 1, 2, [str "format", str "title"]⟩, ⟨4, str "table", 0, 2, [str "column-width", str "print-globals"]⟩,
   ⟨5, str "tree", 0, 3, [str "path-attributes", str "column-width", str "print-globals"]⟩, ⟨6, str "json-split", 0, 0, []⟩]

/-- the LET operators (`Preprocessor.cpp:336-348`) -/
def letDefs : List Sig :=
  let s := [str "attribute", str "scale"]
  let f := [str "attribute0", str "attribute1", str "attribute2", str "attribute3", str "attribute4", str "attribute5", str "attribute6",
    str "attribute7", str "attribute8"]
  [⟨0, str "ratio", 2, 3, [str "numerator", str "denominator", str "scale"]⟩, ⟨1, str "scale", 2, 2, s⟩, ⟨2, str "truncate", 1, 2, s⟩,
   ⟨3, str "first", 1, 8, f⟩, ⟨4, str "sum", 1, 8, f⟩, ⟨5, str "leaf", 0, 1, s⟩]

/-- `Aggregator::get_aggregation_attribute_name` (`Aggregator.cpp:1183-1223`) -/
def aggName (d : Sig) (args : List Str) : Str :=
  let a := args.getD 0 []
  let b := args.getD 1 []
  match d.id with
  | 0 => str "count"
  | 1 => str "sum#" ++ a
  | 2 => str "ratio#" ++ a ++ str "/" ++ b
  | 3 => str "percent_total#" ++ a
  | 4 => str "inclusive#" ++ a
  | 5 => str "min#" ++ a
  | 6 => str "max#" ++ a
  | 7 => str "avg#" ++ a
  | 8 => str "scale#" ++ a
  | 9 => str "iscale#" ++ a
  | 10 => str "ipercent_total#" ++ a
  | 11 => str "any#" ++ a
  | 12 => str "scount"
  | 13 => str "iratio#" ++ a ++ str "/" ++ b
  | 14 => str "imin#" ++ a
  | 15 => str "imax#" ++ a
  | 16 => str "variance#" ++ a
  | _ => []

/-- `SelectionList::SelectionOpt` (`QuerySpec.h:25-30`) -/
inductive Sel where
  | default | none | all | list
  deriving DecidableEq, Repr

/-- `SortSpec` (`QuerySpec.h:63-71`) -/
structure SortBy where
  attr : Str
  desc : Bool
  deriving DecidableEq, Repr

/-- `PreprocessSpec` (`QuerySpec.h:95-99`) -/
structure LetSpec where
  target : Str
  op : Sig
  args : List Str
  cond : Cond
  deriving DecidableEq, Repr

/-- `QuerySpec` (`QuerySpec.h:105-141`) -/
structure Spec where
  aggSel : Sel
  aggs : List (Sig × List Str)
  grpSel : Sel
  grp : List Str
  grpPath : Bool
  selSel : Sel
  sel : List Str
  selPath : Bool
  filSel : Sel
  fil : List Cond
  sortSel : Sel
  sort : List SortBy
  fmt : Option (Sig × List (Str × Str))
  aliases : List (Str × Str)
  units : List (Str × Str)
  lets : List LetSpec
  deriving DecidableEq, Repr

/-- constructor of `CalQLParserImpl` (`CalQLParser.cpp:668-676`) -/
def Spec.init : Spec :=
  ⟨.none, [], .default, [], false, .default, [], false, .none, [], .none, [], none, [], [], []⟩

/-- `m[k] = v` of a `std::map` -/
def mapSet (m : List (Str × Str)) (k v : Str) : List (Str × Str) :=
  match m with
  | [] => [(k, v)]
  | x :: m => if x.1 = k then (k, v) :: m else x :: mapSet m k v

/-- parser state -/
structure P where
  spec : Spec
  err : Bool
  is : IS
  deriving DecidableEq, Repr

/-- the usual word separators -/
def sep0 : List Byte := str ",;=<>()\n"
/-- the separators in argument lists (`CalQLParser.cpp:135`) -/
def sepA : List Byte := str ",;()\n"
/-- the separators for units (`CalQLParser.cpp:350`) -/
def sepU : List Byte := str ",;=()\n"

/-- `std::transform(…, ::tolower)` -/
def lower (w : Str) : Str := w.map toLower

/-- `get_definition_id` (`CalQLParser.cpp:21-35`) and the loops over the formatters and LET operators (`CalQLParser.cpp:217-228`, `528-539`) -/
def findDef (w : Str) (defs : List Sig) : Option Sig := if w = [] then none else defs.find? fun d => decide (lower w = d.name)

/-- the loop of `parse_arglist` (`CalQLParser.cpp:134-140`) -/
def argsL : Nat → IS → List Str → List Str × Byte × IS
  | 0, s, ret => (ret, 0, s)
  | f + 1, s, ret =>
    let r := readWord sepA s
    let k := readChar r.2
    let ret := if r.1 ≠ [] ∧ (k.1 = ch ',' ∨ k.1 = ch ')') then ret ++ [r.1] else ret
    if k.2.good = true ∧ k.1 = ch ',' then argsL f k.2 ret else (ret, k.1, k.2)

/-- `parse_arglist` (`CalQLParser.cpp:119-149`): the arguments, whether an error was found, the stream -/
def parseArgs (s : IS) : List Str × Bool × IS :=
  let k := readChar s
  if k.2.good = false then ([], false, k.2)
  else if k.1 ≠ ch '(' then ([], false, k.2.unget k.1)
  else
    let r := argsL (k.2.rest.length + 1) k.2 []
    if r.2.1 ≠ ch ')' then ([], true, r.2.2.unget r.2.1) else (r.1, false, r.2.2)

/-- `get_keyval` (`CalQLParser.cpp:37-50`) -/
def getKeyval (w : Str) : Str × Str :=
  let r := readWord [ch '='] ⟨w, true⟩
  let k := readChar r.2
  if k.1 = ch '=' then (r.1, (readWord [ch ','] k.2).1) else ([], r.1)

/-- the loop of `make_kwargs` (`CalQLParser.cpp:160-176`) from argument `i` on -/
def kwargsL (d : Sig) : Nat → List Str → List (Str × Str) → List (Str × Str) × Bool
  | _, [], m => (m, false)
  | i, w :: ws, m =>
    let p := getKeyval w
    if p.1 = [] then
      if p.2 ∈ d.args then kwargsL d (i + 1) ws (mapSet m p.2 (str "true"))
      else kwargsL d (i + 1) ws (mapSet m (d.args.getD i []) p.2)
    else if p.1 ∈ d.args then kwargsL d (i + 1) ws (mapSet m p.1 p.2)
    else ([], true)

/-- `make_kwargs` (`CalQLParser.cpp:151-179`) -/
def makeKwargs (d : Sig) (args : List Str) : List (Str × Str) × Bool := kwargsL d 0 (args.take d.max) []

/-- the end of the loops over lists: read the next character; go on after a comma, otherwise put it back
(for instance `CalQLParser.cpp:206-210`) -/
def next (p : P) (again : P → P) : P :=
  let k := readChar p.is
  if p.err = false ∧ k.2.good = true ∧ k.1 = ch ',' then again { p with is := k.2 }
  else { p with is := if k.1 ≠ 0 then k.2.unget k.1 else k.2 }

/-- add an aggregation, or raise an error (`CalQLParser.cpp:191-204`) -/
def addAgg (p : P) (w : Str) (args : List Str) : P :=
  match findDef w aggDefs with
  | some d =>
    if d.min > args.length ∨ d.max < args.length then { p with err := true }
    else { p with spec := { p.spec with aggSel := .list, aggs := p.spec.aggs ++ [(d, args)] } }
  | none => { p with err := true }

/-- `parse_aggregate` (`CalQLParser.cpp:181-211`) -/
def aggregateL : Nat → P → P
  | 0, p => { p with err := true }
  | f + 1, p =>
    let r := readWord sep0 p.is
    let a := parseArgs r.2
    next (addAgg { p with is := a.2.2, err := p.err || a.2.1 } r.1 a.1) (aggregateL f)

/-- `parse_format` (`CalQLParser.cpp:213-240`) -/
def format (p : P) : P :=
  let r := readWord sep0 p.is
  match findDef r.1 fmtDefs with
  | none => { p with is := r.2, err := true }
  | some d =>
    let a := parseArgs r.2
    let p := { p with is := a.2.2, err := p.err || a.2.1 }
    if d.min > a.1.length ∨ d.max < a.1.length then { p with err := true }
    else
      let m := makeKwargs d a.1
      { p with spec := { p.spec with fmt := some (d, m.1) }, err := p.err || m.2 }

/-- `parse_groupby` (`CalQLParser.cpp:242-259`) -/
def groupbyL : Nat → P → P
  | 0, p => { p with err := true }
  | f + 1, p =>
    let r := readWord sep0 p.is
    let p := { p with is := r.2 }
    let p := if r.1 ≠ [] then { p with spec := { p.spec with grpSel := .list, grp := p.spec.grp ++ [r.1] } } else p
    next p (groupbyL f)

/-- an aggregation in SELECT, or an error (`CalQLParser.cpp:290-315`); with the name of the selected attribute -/
def selAgg (p : P) (w : Str) : P × Str :=
  match findDef w aggDefs with
  | none => ({ p with err := true }, [])
  | some d =>
    let a := parseArgs p.is
    let p := { p with is := a.2.2, err := p.err || a.2.1 }
    if d.min > a.1.length ∨ d.max < a.1.length then ({ p with err := true }, [])
    else
      let p := { p with spec := { p.spec with aggSel := .list, aggs := p.spec.aggs ++ [(d, a.1)] } }
      let p := if p.spec.selSel ≠ .all then { p with spec := { p.spec with selSel := .list, sel := p.spec.sel ++ [aggName d a.1] } } else p
      (p, aggName d a.1)

/-- one selection: `*`, an aggregation, or an attribute (`CalQLParser.cpp:276-328`) -/
def selItem (p : P) : P × Str :=
  let k := readChar p.is
  if k.1 = ch '*' then ({ p with is := k.2, spec := { p.spec with selSel := .all } }, [])
  else
    let r := readWord sep0 (k.2.unget k.1)
    let k := readChar r.2
    let p := { p with is := k.2.unget k.1 }
    if k.1 = ch '(' then selAgg p r.1
    else if r.1 = [] then ({ p with err := true }, [])
    else ({ p with spec := { p.spec with selSel := .list, sel := p.spec.sel ++ [r.1] } }, r.1)

/-- `AS` (`CalQLParser.cpp:336-347`): the state and the next keyword -/
def selAs (p : P) (name : Str) (kw : Str) : P × Str :=
  if p.err = false ∧ kw = str "as" then
    let r := readWord sep0 p.is
    let p := if r.1 = [] then { p with is := r.2, err := true }
      else { p with is := r.2, spec := { p.spec with aliases := mapSet p.spec.aliases name r.1 } }
    let t := readWord sep0 p.is
    ({ p with is := t.2 }, lower t.1)
  else (p, kw)

/-- `UNIT` (`CalQLParser.cpp:349-360`) -/
def selUnit (p : P) (name : Str) (kw : Str) : P × Str :=
  if p.err = false ∧ kw = str "unit" then
    let r := readWord sepU p.is
    let p := if r.1 = [] then { p with is := r.2, err := true }
      else { p with is := r.2, spec := { p.spec with units := mapSet p.spec.units name r.1 } }
    let t := readWord sep0 p.is
    ({ p with is := t.2 }, lower t.1)
  else (p, kw)

/-- `parse_select` (`CalQLParser.cpp:261-374`) -/
def selectL : Nat → P → P × Str
  | 0, p => ({ p with err := true }, [])
  | f + 1, p =>
    let i := selItem p
    let t := readWord sep0 i.1.is
    let a := selAs { i.1 with is := t.2 } i.2 (lower t.1)
    let u := selUnit a.1 i.2 a.2
    if u.1.err = false ∧ u.2 ≠ [] then u
    else
      let k := readChar u.1.is
      if u.1.err = false ∧ k.2.good = true ∧ k.1 = ch ',' then selectL f { u.1 with is := k.2 }
      else ({ u.1 with is := if k.1 ≠ 0 then k.2.unget k.1 else k.2 }, [])

/-- `parse_sort` (`CalQLParser.cpp:376-418`) -/
def sortL : Nat → P → P × Str
  | 0, p => ({ p with err := true }, [])
  | f + 1, p =>
    let r := readWord sep0 p.is
    if r.1 = [] then ({ p with is := r.2, err := true }, [])
    else
      let t := readWord sep0 r.2
      let kw := lower t.1
      let add := fun d => { p with is := t.2, spec := { p.spec with sortSel := .list, sort := p.spec.sort ++ [⟨r.1, d⟩] } }
      let p := if kw = str "asc" then add false else if kw = str "desc" then add true else add false
      if kw ≠ [] ∧ kw ≠ str "asc" ∧ kw ≠ str "desc" then (p, if p.err then [] else kw)
      else
        let k := readChar p.is
        if p.err = false ∧ k.2.good = true ∧ k.1 = ch ',' then sortL f { p with is := k.2 }
        else ({ p with is := if k.1 ≠ 0 then k.2.unget k.1 else k.2 }, [])

/-- the argument of a comparison (`CalQLParser.cpp:446-478`) -/
def cmpArg (s : IS) (name : Str) (op : COp) : Cond × Bool × IS :=
  let r := readWord sep0 s
  if r.1 = [] then (⟨.none, name, []⟩, true, r.2) else (⟨op, name, r.1⟩, false, r.2)

/-- `parse_filter_clause` (`CalQLParser.cpp:420-489`) -/
def filterClause (s : IS) : Cond × Bool × IS :=
  let r := readWord sep0 s
  let neg := decide (lower r.1 = str "not")
  let r := if neg then readWord sep0 r.2 else r
  if r.1 = [] then (⟨.none, r.1, []⟩, true, r.2)
  else
    let k := readChar r.2
    if k.1 = ch '=' then cmpArg k.2 r.1 (if neg then .notEqual else .equal)
    else if k.1 = ch '<' then cmpArg k.2 r.1 (if neg then .greaterEq else .less)
    else if k.1 = ch '>' then cmpArg k.2 r.1 (if neg then .lessEq else .greater)
    else (⟨if neg then .notExist else .exist, r.1, []⟩, false, k.2.unget k.1)

/-- `parse_where` (`CalQLParser.cpp:491-508`) -/
def whereL : Nat → P → P
  | 0, p => { p with err := true }
  | f + 1, p =>
    let r := filterClause p.is
    let p := { p with is := r.2.2, err := p.err || r.2.1 }
    let p := if p.err = false ∧ r.1.op ≠ .none then { p with spec := { p.spec with filSel := .list, fil := p.spec.fil ++ [r.1] } } else p
    next p (whereL f)

/-- `parse_let` (`CalQLParser.cpp:510-589`) -/
def letL : Nat → P → P × Str
  | 0, p => ({ p with err := true }, [])
  | f + 1, p =>
    let r := readWord sep0 p.is
    let k := readChar r.2
    if k.1 ≠ ch '=' then ({ p with is := k.2, err := true }, [])
    else
      let o := readWord sep0 k.2
      match findDef o.1 letDefs with
      | none => ({ p with is := o.2, err := true }, [])
      | some d =>
        let a := parseArgs o.2
        let p := { p with is := a.2.2, err := p.err || a.2.1 }
        let bad := decide (d.min > a.1.length ∨ d.max < a.1.length)
        if bad = false ∧ (p.spec.lets.any fun l => decide (l.target = r.1)) = true then ({ p with err := true }, [])
        else
          let p := { p with err := p.err || bad }
          let t := readWord sep0 p.is
          let kw := lower t.1
          let c := if kw = str "if" then filterClause t.2 else (⟨.none, [], []⟩, false, t.2)
          let kw := if kw = str "if" then [] else kw
          let p := { p with is := c.2.2, err := p.err || c.2.1 }
          let p := if p.err = false then { p with spec := { p.spec with lets := p.spec.lets ++ [⟨r.1, d, a.1, c.1⟩] } } else p
          if p.err = false ∧ kw ≠ [] then (p, kw)
          else
            let k := readChar p.is
            if p.err = false ∧ k.2.good = true ∧ k.1 = ch ',' then letL f { p with is := k.2 }
            else ({ p with is := if k.1 ≠ 0 then k.2.unget k.1 else k.2 }, [])

/-- `get_clause_from_word`, `parse_clause_from_word` and `parse_clause` (`CalQLParser.cpp:91-109`, `591-643`); with the keyword of the next
clause if it has been read -/
def clause (p : P) (w : Str) : P × Str :=
  let k := lower w
  let n := p.is.rest.length + 1
  if k = str "aggregate" then (aggregateL n p, [])
  else if k = str "format" then (format p, [])
  else if k = str "group" ∨ k = str "order" then
    let r := readWord sep0 p.is
    let p := { p with is := r.2 }
    if lower r.1 ≠ str "by" then ({ p with err := true }, [])
    else if k = str "group" then (groupbyL n p, []) else sortL n p
  else if k = str "select" then selectL n p
  else if k = str "where" then (whereL n p, [])
  else if k = str "let" then letL n p
  else ({ p with err := true }, [])

/-- the loop of `parse` (`CalQLParser.cpp:647-654`), from a clause keyword on -/
def clausesL : Nat → Str → P → P
  | 0, _, p => { p with err := true }
  | f + 1, w, p =>
    let r := clause p w
    if r.2 ≠ [] then clausesL f r.2 r.1
    else if r.1.err = true ∨ r.1.is.good = false then r.1
    else
      let t := readWord sep0 r.1.is
      if t.1 = [] then { r.1 with is := t.2 } else clausesL f t.1 { r.1 with is := t.2 }

/-- `extract_path_keyword` (`CalQLParser.cpp:60-78`) -/
def extractPath (l : List Str) : Bool × List Str :=
  let a := decide (str "path" ∈ l)
  let l := l.erase (str "path")
  let b := decide (str "prop:nested" ∈ l)
  (a || b, l.erase (str "prop:nested"))

/-- `parse` (`CalQLParser.cpp:645-666`): the query and the error flag -/
def parse (text : Str) : Spec × Bool :=
  let r := readWord sep0 ⟨text, true⟩
  let p : P := ⟨Spec.init, false, r.2⟩
  let p := if r.1 = [] then p else clausesL (text.length + 1) r.1 p
  let k := readChar p.is
  let p := if p.err = false ∧ p.is.good = true ∧ k.2.good = true ∧ k.1 ≠ 0 ∧ k.1 ≠ ch '\n' then { p with err := true } else p
  let s := extractPath p.spec.sel
  let g := extractPath p.spec.grp
  ({ p.spec with selPath := s.1, sel := s.2, grpPath := g.1, grp := g.2 }, p.err)

end Verif.Query.CalQL
