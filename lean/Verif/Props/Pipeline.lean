import Verif.Query.PipelineMade
import Verif.Props.QueryAgg
import Verif.Props.Select
/-!
# C80: a query reports what its clauses say, whenever attributes become known
-/
namespace Verif
open Query Query.Pre Query.Pipe Cali

/-- **C80.**  Attributes and records arrive in any order (every record after the attributes it uses), LET and the aggregation create further
attributes as they go.  The output of the query is nevertheless that of a query that knows all attributes from the start - the database is the final one
throughout: every record is extended by LET (C57); those for which all WHERE conditions hold (C31) are kept, in order; without AGGREGATE these are the output; with AGGREGATE the
output has exactly one record for each group of them (and each ancestor path an inclusive kernel reaches), with the results over exactly the records of
that group (C30).

Required: intermediate results (`sum#x`) in the input come with their target attribute (`x`), see `C80_violation_input_order`; operands of LET are not
metadata of other attributes; values in order comparisons are within the range of C31. -/
theorem C80_query_partial (E : Env) (q : QSpec) (D0 : PDB) (hw : ∀ a ∈ D0.attrs, a.id < D0.next) (hm : MetaOk E D0) (ps : List PStep)
    (hin : InputOk E q (QP.init q D0) ps) :
    let D := (query E q D0 ps).1
    let out := (query E q D0 ps).2
    D.next ≤ invN →
    ∃ rs, List.Forall₂ (fun r r' => LetChain E.O E.dcmp E.F q.lets D r D r') (recordsOf ps) rs ∧
      ((∀ r ∈ rs, (D.sel E.dcmp E.F).Comparable q.conds r) →
        ∀ [DecidablePred fun r => ∀ c ∈ q.conds, (D.sel E.dcmp E.F).Holds c r],
        let sel := rs.filter fun r => decide (∀ c ∈ q.conds, (D.sel E.dcmp E.F).Holds c r)
        if q.doAgg then
          ∃ keys : List (List KEnt), keys.Nodup ∧ (∀ K, K ∈ keys ↔ (q.meaning E D).Present E.O.toFOps K sel) ∧
            out = keys.map ((q.meaning E D).report E.O.toFOps sel)
        else out = sel) := by
  intro D out hinv
  obtain ⟨rs, h1, h2, h3⟩ := query_spec hw hm ps hin hinv
  refine ⟨rs, h1, ?_⟩
  intro hc inst sel
  have hk : kept E q D rs = sel := by
    have := C31_stream_partial (D.sel E.dcmp E.F) q.conds rs (fun r hr => ⟨(h2 r hr).1, fun v hv => ?_, hc r hr⟩)
    · exact this
    · have := (h2 r hr).2 _ hv
      have hinv' : (query E q D0 ps).1.next ≤ invN := hinv
      simp at this
      omega
  rw [← QSpec.meaning_eq] at h3
  have h3' : out = if q.doAgg then (QAgg.init.run E.O.toFOps (q.meaning E D) (kept E q D rs)).flush E.O.toFOps (q.meaning E D) else kept E q D rs := h3
  rw [hk] at h3'
  by_cases hag : q.doAgg = true
  · rw [if_pos hag] at h3' ⊢
    obtain ⟨keys, k1, k2, k3⟩ := C30_reports E.O.toFOps (q.meaning E D) sel
    exact ⟨keys, k1, k2, by rw [h3', k3]⟩
  · rw [if_neg hag] at h3' ⊢
    exact h3'

/-- **C80 (groups).**  Without inclusive kernels the groups are the keys of the kept records. -/
theorem C80_groups (E : Env) (q : QSpec) (D : PDB) (h : ∀ k n i, .red k n i ∈ q.aggs → i = false) (sel : List (List QEnt)) (K : List KEnt) :
    (q.meaning E D).Present E.O.toFOps K sel ↔ ∃ r ∈ sel, K = (q.meaning E D).keyOf r := by
  unfold QCfg.Present
  constructor
  · rintro ⟨r, hr, h1 | ⟨c, hc, h1⟩⟩
    · exact ⟨r, hr, h1⟩
    · have hc' : c ∈ q.aggs.map (AggOp.meaning D) := hc
      obtain ⟨op, ho, rfl⟩ := List.mem_map.1 hc'
      have hinc : (op.meaning D).incl = false := by
        cases op with
        | count => rfl
        | avg n => rfl
        | red k n i =>
          have := h k n i ho
          subst this
          cases k <;> rfl
      unfold QCfg.contributes QCfg.up at h1
      simp [hinc] at h1
      exact ⟨r, hr, h1⟩
  · rintro ⟨r, hr, h1⟩
    exact ⟨r, hr, .inl h1⟩

/-- **C80 (attributes).**  A query creates no attributes but its results: every attribute in the final database was there before, or was defined by
the input, or is the target of a LET, or is a result attribute of an aggregation operator - under its documented name, with the type of the operator's target
(counts: unsigned), and not nested. -/
theorem C80_attributes (E : Env) (q : QSpec) (D0 : PDB) (hw : ∀ a ∈ D0.attrs, a.id < D0.next) (ps : List PStep) :
    ∀ a ∈ (query E q D0 ps).1.attrs, a ∈ D0.attrs ∨ .create a.name a.ty a.nested ∈ ps ∨ q.Result (query E q D0 ps).1 a :=
  query_made hw ps

namespace PipeDemo

def dcmp : U64 → U64 → Int := fun _ _ => 0

/-- no metadata on attributes -/
def env : Env := ⟨c57Ops, fun _ => [], dcmp, c57Fmt, fun _ => 0⟩

/-- `region` is a nested attribute -/
def db : PDB := ⟨[⟨20, str "region", .string, true⟩], 21⟩

/-- `LET t=first(time.a,time.b) SELECT * WHERE region GROUP BY kind,path AGGREGATE sum(t),count(),inclusive_sum(t),avg(t)` -/
def q : QSpec :=
  ⟨[⟨str "t", .first [str "time.a", str "time.b"], ⟨.none, [], []⟩⟩], [⟨.exist, str "region", []⟩], false, true, [str "kind"], true,
   [.red .sum (str "t") false, .count, .red .sum (str "t") true, .avg (str "t")]⟩

def main : QEnt := .ref [(20, .string (str "main"))]
def foo : QEnt := .ref [(20, .string (str "foo")), (20, .string (str "main"))]

/-- the reader meets `time.b`, `kind` and `time.a` only when the first record with them appears -/
def input : List PStep :=
  [.record [main], .create (str "time.b") .int false, .record [foo, .imm 22 (.int 5)], .record [.imm 22 (.int 100)],
   .create (str "kind") .string false, .record [foo, .imm 22 (.int 7), .imm 28 (.string (str "k"))],
   .create (str "time.a") .int false, .record [foo, .imm 22 (.int 30), .imm 29 (.int 3)]]

theorem derivedOk_of {q : QSpec} {D : PDB} {r : List QEnt}
    (h : ∀ op ∈ q.aggs, ∀ n ∈ op.derived, ∀ a ∈ D.attr n, ∀ x ∈ pairs r, x.1 = a.id → (D.attr op.tgt).isSome = true) : DerivedOk q D r := by
  rintro op ho n hn ⟨a, v, h1, h2⟩
  exact Option.isSome_iff_exists.1 (h op ho n hn a h1 _ h2 rfl)

theorem metaFree_none {D : PDB} {Ls : List LetDef} : MetaFree env.meta_ D Ls := by
  intro L _ n _ a _ b x hx
  cases hx

/-- the input is well-formed -/
theorem input_ok : InputOk env q (QP.init q db) input := by
  refine ⟨⟨by decide, by decide⟩, metaFree_none, derivedOk_of (by decide +kernel), ?_⟩
  refine ⟨⟨by decide, by decide +kernel⟩, metaFree_none, derivedOk_of (by decide +kernel), ?_⟩
  refine ⟨⟨by decide, by decide +kernel⟩, metaFree_none, derivedOk_of (by decide +kernel), ?_⟩
  refine ⟨⟨by decide, by decide +kernel⟩, metaFree_none, derivedOk_of (by decide +kernel), ?_⟩
  exact ⟨⟨by decide, by decide +kernel⟩, metaFree_none, derivedOk_of (by decide +kernel), trivial⟩

example : (∀ a ∈ db.attrs, a.id < db.next) ∧ MetaOk env db ∧ InputOk env q (QP.init q db) input ∧ (query env q db input).1.next ≤ invN :=
  ⟨by decide, (fun b x hx => nomatch hx), input_ok, by decide +kernel⟩

/-- `count` is 21, `sum#t` 24, `inclusive#t` 25, `avg.sum#t` 26, `avg.count#t` 27, `kind` 28, `avg#t` 30 -/
example : (query env q db input).2 =
    [[main, .imm 21 (.uint 1), .imm 25 (.int 8)],
     [foo, .imm 24 (.int 8), .imm 21 (.uint 2), .imm 25 (.int 8), .imm 30 (.int 4), .imm 26 (.int 8), .imm 27 (.uint 2)],
     [.imm 28 (.string (str "k")), foo, .imm 24 (.int 7), .imm 21 (.uint 1), .imm 25 (.int 7), .imm 30 (.int 7), .imm 26 (.int 7),
      .imm 27 (.uint 1)],
     [.imm 28 (.string (str "k")), main, .imm 25 (.int 7)]] := by decide +kernel

/-- the attributes created on the way -/
example : ((query env q db input).1.attrs.map fun a => (a.name, a.ty, a.nested)) =
    [(str "region", .string, true), (str "count", .uint, false), (str "time.b", .int, false), (str "t", .int, false), (str "sum#t", .int, false),
     (str "inclusive#t", .int, false), (str "avg.sum#t", .int, false), (str "avg.count#t", .uint, false), (str "kind", .string, false),
     (str "time.a", .int, false), (str "avg#t", .int, false)] := by decide +kernel

/-- `AGGREGATE sum(x)` -/
def qs : QSpec := ⟨[], [], false, false, [], true, [.red .sum (str "x") false]⟩

end PipeDemo

open PipeDemo in
/-- **C80 (violation).**  Two records, one with an intermediate result `sum#x = 5` (the output of an earlier query), one with `x = 3`.  When the attribute
`x` is defined before both records, the sum is 8; when it is defined between them, the first record is silently left out and the sum is 3
(`Aggregator.cpp:93-96`: without target attribute the kernel does not look at the record). -/
theorem C80_violation_input_order :
    (query env qs ⟨[⟨20, str "sum#x", .int, false⟩], 21⟩
      [.create (str "x") .int false, .record [.imm 20 (.int 5)], .record [.imm 21 (.int 3)]]).2 = [[.imm 20 (.int 8)]] ∧
    (query env qs ⟨[⟨20, str "sum#x", .int, false⟩], 21⟩
      [.record [.imm 20 (.int 5)], .create (str "x") .int false, .record [.imm 21 (.int 3)]]).2 = [[.imm 20 (.int 3)]] := by
  decide +kernel

end Verif
