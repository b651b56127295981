import Verif.Query.CalQL
import Verif.Query.Pipeline
/-!
# From the parsed query to the query processor

Models the constructors of the query processor's parts: `Aggregator::configure` (`/repo/src/reader/Aggregator.cpp:952-995`), the factories of its kernels
(`Aggregator.cpp:149-160`, `267-276`, `379-388`, `430-439`, `480`, `875-921`), `Preprocessor::configure` (`/repo/src/reader/Preprocessor.cpp:362-376`) with the constructors of
its kernels, and `QueryProcessorImpl` (`/repo/src/reader/QueryProcessor.cpp:41-47`).

Simplified: only the aggregation kernels of `Verif/Query/Pipeline` (count, sum, min, max, avg and their inclusive versions); for the others `aggOf` is `none`.
`std::stod` is a parameter; `none` is an exception, which nobody catches.  The attribute selection and the sort order only concern the formatter and are left out.
-/
namespace Verif.Query.Plan
open Verif Verif.Cali Verif.Query Verif.Query.Pre Verif.Query.Pipe

/-- the factory of an aggregation kernel (`kernel_list[k.op.id].create`, `Aggregator.cpp:900-921`): `cfg.front()` is the target attribute -/
def aggOf (x : CalQL.Sig × List Str) : Option AggOp :=
  match x.1.id, x.2 with
  | 0, _ => some .count
  | 1, a :: _ => some (.red .sum a false)
  | 4, a :: _ => some (.red .sum a true)
  | 5, a :: _ => some (.red .min a false)
  | 6, a :: _ => some (.red .max a false)
  | 7, a :: _ => some (.avg a)
  | 14, a :: _ => some (.red .min a true)
  | 15, a :: _ => some (.red .max a true)
  | _, _ => none

/-- a list of kernels -/
def aggsOf : List (CalQL.Sig × List Str) → Option (List AggOp)
  | [] => some []
  | x :: l => (aggOf x).bind fun a => (aggsOf l).map fun as => a :: as

/-- the constructors of the LET kernels (`Preprocessor.cpp:69-75`, `116-120`, `154-160`, `207-211`, `248-252`, `285-290`, `326-331`, `350-351`);
`one` is `1.0` -/
def letOp (stod : Str → Option U64) (one : U64) (id : Nat) (args : List Str) : Option LOp :=
  match id, args with
  | 0, n :: d :: s :: _ => (stod s).map fun x => .ratio n d x
  | 0, [n, d] => some (.ratio n d one)
  | 1, a :: s :: _ => (stod s).map fun x => .scale a x
  | 2, a :: s :: _ => (stod s).map fun x => .truncate a x
  | 2, [a] => some (.truncate a one)
  | 3, l => some (.first l)
  | 4, l => some (.sum l)
  | 5, [] => some .leafPath
  | 5, a :: _ => some (.leaf a)
  | _, _ => none

/-- `Preprocessor::configure` (`Preprocessor.cpp:362-376`) -/
def letsOf (stod : Str → Option U64) (one : U64) : List CalQL.LetSpec → Option (List LetDef)
  | [] => some []
  | x :: l => (letOp stod one x.op.id x.args).bind fun o => (letsOf stod one l).map fun ds => ⟨x.target, o, x.cond⟩ :: ds

/-- the kernels of the aggregator (`Aggregator.cpp:973-994`): with the default selection there is one `count` kernel -/
def kernels (s : CalQL.Spec) : Option (List AggOp) :=
  match s.aggSel with
  | .default => some [.count]
  | .all => some [.count]
  | .list => aggsOf s.aggs
  | .none => some []

/-- `m_key_strings`, `m_select_all` (`Aggregator.cpp:958-969`) -/
def keys (s : CalQL.Spec) : Bool × List Str :=
  match s.grpSel with
  | .default => (true, [])
  | .all => (true, [])
  | .list => (false, s.grp)
  | .none => (false, [])

/-- the query processor for a parsed query (`QueryProcessor.cpp:41-47`; `RecordSelector(const QuerySpec&)` takes the list of conditions) -/
def plan (stod : Str → Option U64) (one : U64) (s : CalQL.Spec) : Option QSpec :=
  (kernels s).bind fun ks => (letsOf stod one s.lets).map fun ls =>
    { lets := ls, conds := if s.filSel = .none then [] else s.fil, selectAll := (keys s).1, selectNested := s.grpPath, keys := (keys s).2,
      doAgg := decide (s.aggSel ≠ .none), aggs := ks }

/-- `cali-query -q text` on a stream of records (`query_common.cpp:224-254`, `cali-query.cpp:199-258`): the query is not run if the parser complains; `none` is that, or the end of the process by an exception -/
def runText (E : Env) (stod : Str → Option U64) (one : U64) (text : List Byte) (D : PDB) (ps : List PStep) : Option (PDB × List (List QEnt)) :=
  if (CalQL.parse text).2 then none else (plan stod one (CalQL.parse text).1).map fun q => query E q D ps

end Verif.Query.Plan
