import Verif.Cli.ArgsSpec
import Verif.Query.CalQL
/-!
# From the command line options to the query

Model of `QueryArgsParser::parse_args` (`/repo/src/tools/cali-query/query_common.cpp:32-98`, `212-363`).

The options are given by the function `o`: the value of an option that is set, `none` for one that is not (`Args::is_set`, `Args::get`).  Simplified: error messages are dropped; the loops have
fuel, the number of characters left plus one (every iteration but the last reads a comma).
-/
namespace Verif.Cli
open Verif Verif.Cali Verif.Parse Verif.Query
open Verif.Query.CalQL (Sig Spec Sel SortBy mapSet aggDefs fmtDefs)

/-- the separators of function calls (`query_common.cpp:52`, `70`) -/
def sepC : List Byte := str ",()"

/-- the loop of `parse_arglist` (`query_common.cpp:51-57`) -/
def argsC : Nat → IS → List Str → List Str × Byte × IS
  | 0, s, ret => (ret, 0, s)
  | f + 1, s, ret =>
    let r := readWord sepC s
    let k := readChar r.2
    let ret := if r.1 ≠ [] ∧ (k.1 = ch ',' ∨ k.1 = ch ')') then ret ++ [r.1] else ret
    if k.2.good = true ∧ k.1 = ch ',' then argsC f k.2 ret else (ret, k.1, k.2)

/-- `parse_arglist` (`query_common.cpp:36-65`) -/
def arglist (s : IS) : List Str × IS :=
  let k := readChar s
  if k.2.good = false then ([], k.2)
  else if k.1 ≠ ch '(' then ([], k.2.unget k.1)
  else
    let r := argsC (k.2.rest.length + 1) k.2 []
    if r.2.1 ≠ ch ')' then ([], r.2.2.unget r.2.1) else (r.1, r.2.2)

/-- `parse_functioncall` (`query_common.cpp:67-98`): `none` for -1.  Function names are case-sensitive here. -/
def functioncall (defs : List Sig) (s : IS) : Option (Sig × List Str) × IS :=
  let r := readWord sepC s
  if r.1 = [] then (none, r.2)
  else
    match defs.find? fun d => decide (r.1 = d.name) with
    | none => (none, r.2)
    | some d =>
      let a := arglist r.2
      if a.1.length < d.min ∨ d.max < a.1.length then (none, a.2) else (some (d, a.1), a.2)

/-- the loop over the aggregation operators (`query_common.cpp:286-293`) -/
def opsL (defs : List Sig) : Nat → IS → List (Sig × List Str) → List (Sig × List Str)
  | 0, _, l => l
  | f + 1, s, l =>
    let c := functioncall defs s
    let l := l ++ c.1.toList
    let k := readChar c.2
    if k.2.good = true ∧ k.1 = ch ',' then opsL defs f k.2 l else l

/-- the specification before any option is read (`query_common.cpp:214-219`) -/
def Spec0 : Spec := ⟨.none, [], .none, [], false, .default, [], false, .default, [], .default, [], none, [], [], []⟩

/-- the query given on the command line or in a file (`query_common.cpp:226-254`); `file` reads a file -/
def base (o : Str → Option Str) (file : Str → Option Str) : Option Spec :=
  match o (str "query") with
  | some q => let r := CalQL.parse q; if r.2 then none else some r.1
  | none =>
    match o (str "query-file") with
    | some fn =>
      match file fn with
      | none => none
      | some q => let r := CalQL.parse q; if r.2 then none else some r.1
    | none => some Spec0

/-- `--select` (`query_common.cpp:258-261`) -/
def withSelect (o : Str → Option Str) (s : Spec) : Spec :=
  match o (str "select") with
  | some v => { s with filSel := .list, fil := parseSelector v }
  | none => s

/-- `--print-attributes` (`query_common.cpp:265-268`) -/
def withAttributes (o : Str → Option Str) (s : Spec) : Spec :=
  match o (str "attributes") with
  | some v => { s with selSel := .list, sel := s.sel ++ splitLoop (ch ',') v [] }
  | none => s

/-- `--aggregate-key` (`query_common.cpp:299-321`) -/
def withKey (o : Str → Option Str) (s : Spec) : Spec :=
  match o (str "aggregate-key") with
  | none => s
  | some v =>
    let s := if v = str "none" then { s with grpSel := .none } else { s with grpSel := .list, grp := s.grp ++ splitLoop (ch ',') v [] }
    let s := { s with grpPath := false }
    let s := if str "path" ∈ s.grp then { s with grpPath := true, grp := s.grp.erase (str "path") } else s
    if str "prop:nested" ∈ s.grp then { s with grpPath := true, grp := s.grp.erase (str "prop:nested") } else s

/-- `--aggregate` (`query_common.cpp:272-322`) -/
def withAggregate (o : Str → Option Str) (s : Spec) : Spec :=
  match o (str "aggregate") with
  | none => s
  | some v =>
    let s := { s with aggSel := .default }
    let s := if v = [] then s else { s with aggSel := .list, aggs := s.aggs ++ opsL aggDefs (v.length + 1) ⟨v, true⟩ [] }
    withKey o { s with grpSel := .default }

/-- `--sort-by` (`query_common.cpp:326-334`) -/
def withSort (o : Str → Option Str) (s : Spec) : Spec :=
  match o (str "sort") with
  | some v => { s with sortSel := .list, sort := s.sort ++ (splitLoop (ch ',') v []).map fun a => ⟨a, false⟩ }
  | none => s

/-- the formatter arguments (`query_common.cpp:346-348`) -/
def fmtArgs (o : Str → Option Str) (d : Sig) (m : List (Str × Str)) : List (Str × Str) :=
  (d.args.take d.max).foldl (fun m a => match o a with
    | some v => mapSet m a v
    | none => m) m

/-- the formatter options (`query_common.cpp:338-360`) -/
def withFormat (o : Str → Option Str) (s : Spec) : Option Spec :=
  match fmtDefs.find? fun d => (o d.name).isSome with
  | none => some s
  | some d =>
    let m := fmtArgs o d ((s.fmt.map Prod.snd).getD [])
    if m.length < d.min then none else some { s with fmt := some (d, m) }

/-- `parse_args` (`query_common.cpp:212-363`): `none` for an error -/
def queryArgs (o : Str → Option Str) (file : Str → Option Str) : Option Spec :=
  match base o file with
  | none => none
  | some s => withFormat o (withSort o (withAggregate o (withAttributes o (withSelect o s))))

/-- an option of a parsed command line -/
def optOf (T : List Opt) (A : St) (n : Str) : Option Str := if isSet T A n then some (get T A n []) else none

end Verif.Cli
