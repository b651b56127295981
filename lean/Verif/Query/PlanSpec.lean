import Verif.Query.CalQLSpec
import Verif.Query.Pipeline
/-!
# What the query processor should do for a written query
-/
namespace Verif.Query.Plan
open Verif Verif.Cali Verif.Query Verif.Query.Pre Verif.Query.Pipe

/-- the aggregation a call asks for, by its name in the query language -/
inductive AggIs : Str → List Str → AggOp → Prop
  | count : AggIs (str "count") [] .count
  | sum (a) : AggIs (str "sum") [a] (.red .sum a false)
  | min (a) : AggIs (str "min") [a] (.red .min a false)
  | max (a) : AggIs (str "max") [a] (.red .max a false)
  | avg (a) : AggIs (str "avg") [a] (.avg a)
  | isum (a) : AggIs (str "inclusive_sum") [a] (.red .sum a true)
  | imin (a) : AggIs (str "inclusive_min") [a] (.red .min a true)
  | imax (a) : AggIs (str "inclusive_max") [a] (.red .max a true)

/-- the operation a LET definition asks for; `num` reads numbers -/
inductive LetIs (num : Str → Option U64) (one : U64) : Str → List Str → LOp → Prop
  | ratio (a b) : LetIs num one (str "ratio") [a, b] (.ratio a b one)
  | ratioS (a b s x) : num s = some x → LetIs num one (str "ratio") [a, b, s] (.ratio a b x)
  | scale (a s x) : num s = some x → LetIs num one (str "scale") [a, s] (.scale a x)
  | trunc (a) : LetIs num one (str "truncate") [a] (.truncate a one)
  | truncF (a s x) : num s = some x → LetIs num one (str "truncate") [a, s] (.truncate a x)
  | first (l) : l ≠ [] → LetIs num one (str "first") l (.first l)
  | sum (l) : l ≠ [] → LetIs num one (str "sum") l (.sum l)
  | leafPath : LetIs num one (str "leaf") [] .leafPath
  | leaf (a) : LetIs num one (str "leaf") [a] (.leaf a)

open Verif.Query.CalQL (isPath) in
/-- what is to be computed for the clauses `cs` -/
structure Does (num : Str → Option U64) (one : U64) (cs : List CalQL.Clause) (q : QSpec) : Prop where
  /-- the aggregations, in the order written; there is one output row per record if there are none -/
  aggs : List.Forall₂ (fun x op => AggIs x.1.name x.2 op) (cs.flatMap CalQL.Clause.calls) q.aggs
  doAgg : q.doAgg = true ↔ cs.flatMap CalQL.Clause.calls ≠ []
  /-- the LET definitions, in the order written -/
  lets : List.Forall₂ (fun (x : CalQL.LetSpec) (d : LetDef) => d.target = x.target ∧ d.cond = x.cond ∧ LetIs num one x.op.name x.args d.op)
    (cs.flatMap CalQL.Clause.letSpecs) q.lets
  /-- the conditions -/
  conds : q.conds = cs.flatMap CalQL.Clause.conds
  /-- what to group by: everything if there is no GROUP BY -/
  all : q.selectAll = true ↔ cs.flatMap CalQL.Clause.groups = []
  path : q.selectNested = true ↔ ∃ n ∈ cs.flatMap CalQL.Clause.groups, isPath n
  keys : q.keys = (cs.flatMap CalQL.Clause.groups).filter fun n => ¬isPath n

end Verif.Query.Plan
