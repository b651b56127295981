import Verif.Query.JsonSplit
import Verif.Util.StableSort
/-!
# The expand formatter

Model of `/repo/src/reader/Expand.cpp`.

Simplified: as in `Verif.Query.Json`, a context tree node is the list of its (attribute, value) pairs, the innermost first; the names of attributes are
a function of the ids; records are written one after another (the mutex); the stream accepts everything.
-/
namespace Verif.Query.Expand
open Verif Verif.Cali Verif.Query Verif.Util
open Verif.Query.Json (Str SelKind AInfo)

/-- the parts of the query specification used by `configure` -/
structure EQuery where
  sel : SelKind
  selList : List Str
  /-- `use_path`; not used by the formatter -/
  selPath : Bool
  alias_ : Str → Option Str

/-- `m_selected`, `m_aliases` -/
structure ECfg where
  selected : List Str
  alias_ : Str → Option Str

/-- `configure` (`Expand.cpp:37-53`) -/
def expandConfig (q : EQuery) : ECfg :=
  match q.sel with
  | .list => ⟨q.selList, q.alias_⟩
  | _ => ⟨[], q.alias_⟩

variable (S : Sorter) (F : DblFmt) (C : ECfg) (info : Nat → AInfo)

/-- the selection test (`Expand.cpp:69`, `109`) -/
def ECfg.skip (n : Str) : Bool := !C.selected.isEmpty && !decide (n ∈ C.selected)

/-- a name or its alias (`Expand.cpp:90-95`, `112-116`) -/
def ECfg.title (n : Str) : Str :=
  match C.alias_ n with
  | some a => a
  | none => n

/-- the output loop over the sorted nodes (`Expand.cpp:84-103`): the previous attribute, the number of fields so far -/
def refLoop : Option Nat → Nat → List (Nat × Val) → List Byte × Nat
  | _, n, [] => ([], n)
  | prev, n, (a, v) :: l =>
    if prev ≠ some a then
      let t := refLoop (some a) (n + 1) l
      ((if n ≠ 0 then str "," else []) ++ C.title (info a).name ++ str "=" ++ v.toStr F ++ t.1, t.2)
    else
      let t := refLoop prev n l
      (str "/" ++ v.toStr F ++ t.1, t.2)

/-- one entry (`Expand.cpp:61-119`) -/
def entLoop (n : Nat) : QEnt → List Byte × Nat
  | .ref path =>
    let nodes := path.filter fun x => !C.skip (info x.1).name
    if nodes.isEmpty then ([], n)
    else refLoop F C info none n (S.sort (fun x y => decide (x.1 < y.1)) nodes).reverse
  | .imm a v =>
    if C.skip (info a).name then ([], n)
    else ((if n ≠ 0 then str "," else []) ++ C.title (info a).name ++ str "=" ++ v.toStr F, n + 1)

/-- the loop over the entries -/
def recLoop : Nat → List QEnt → List Byte × Nat
  | n, [] => ([], n)
  | n, e :: es =>
    let s := entLoop S F C info n e
    let t := recLoop s.2 es
    (s.1 ++ t.1, t.2)

/-- `print` (`Expand.cpp:55-126`) -/
def printRec (r : List QEnt) : List Byte :=
  let t := recLoop S F C info 0 r
  if t.2 > 0 then t.1 ++ str "\n" else []

/-- the output for a sequence of records -/
def expandOut (q : EQuery) (recs : List (List QEnt)) : List Byte := recs.flatMap (printRec S F (expandConfig q) info)

end Verif.Query.Expand
