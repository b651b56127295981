import Verif.Query.Plan
import Verif.Query.PlanSpec
import Verif.Props.CalQL
/-!
# C92: a query text makes the query processor do what is written
-/
namespace Verif.Query.Plan
open Verif Verif.Cali Verif.Query Verif.Query.Pre Verif.Query.Pipe
open Verif.Query.CalQL (Written Lay Sensible SepBy Call CallOpt ClauseW aggDefs letDefs ItemW LetW)

theorem sepBy_all {α : Type} {R : α → List CalQL.Tok → Prop} {l : List α} {ts : List CalQL.Tok} (h : SepBy R l ts) : ∀ a ∈ l, ∃ us, R a us := by
  induction h with
  | one h => intro a ha; rw [List.mem_singleton] at ha; subst ha; exact ⟨_, h⟩
  | cons h _ ih =>
    intro a ha
    rcases List.mem_cons.1 ha with rfl | ha
    · exact ⟨_, h⟩
    · exact ih a ha

theorem callOpt_ok {defs : List CalQL.Sig} {d : CalQL.Sig} {args : List Str} {ts : List CalQL.Tok} (h : CallOpt defs d args ts) :
    d ∈ defs ∧ d.min ≤ args.length ∧ (args.length ≤ d.max ∨ args = []) := by
  rcases h with h | ⟨h1, h2, h3, _⟩
  · exact ⟨h.1, h.2.1, .inl h.2.2.1⟩
  · subst h3; exact ⟨h1, by simp [h2], .inr rfl⟩

theorem written_clauses {cs : List CalQL.Clause} {ts : List CalQL.Tok} (h : Written cs ts) : ∀ c ∈ cs, ∃ us, ClauseW c us := by
  induction h with
  | nil => intro c hc; cases hc
  | cons h _ ih =>
    intro c hc
    rcases List.mem_cons.1 hc with rfl | hc
    · exact ⟨_, h⟩
    · exact ih c hc

/-- the aggregations of a written query are known and have the right number of arguments -/
theorem calls_ok {cs : List CalQL.Clause} {ts : List CalQL.Tok} (h : Written cs ts) :
    ∀ x ∈ cs.flatMap CalQL.Clause.calls, x.1 ∈ aggDefs ∧ x.1.min ≤ x.2.length ∧ (x.2.length ≤ x.1.max ∨ x.2 = []) := by
  intro x hx
  obtain ⟨c, hc, hx⟩ := List.mem_flatMap.1 hx
  obtain ⟨us, hw⟩ := written_clauses h c hc
  cases c with
  | aggregate l =>
    obtain ⟨a, b, _, _, hs⟩ := hw
    obtain ⟨_, h1⟩ := sepBy_all hs x hx
    exact callOpt_ok h1
  | select l =>
    obtain ⟨a, b, _, _, hs⟩ := hw
    simp only [CalQL.Clause.calls, List.mem_filterMap] at hx
    obtain ⟨i, hi, e⟩ := hx
    obtain ⟨_, h1⟩ := sepBy_all hs i hi
    cases i with
    | call d args as un =>
      simp only [Option.some.injEq] at e
      subst e
      obtain ⟨a', b', _, h2, _⟩ := h1
      exact ⟨h2.1, h2.2.1, .inl h2.2.2.1⟩
    | star => cases e
    | attr _ _ _ => cases e
  | _ => simp [CalQL.Clause.calls] at hx

/-- the LET definitions of a written query use known operators -/
theorem lets_ok {cs : List CalQL.Clause} {ts : List CalQL.Tok} (h : Written cs ts) :
    ∀ x ∈ cs.flatMap CalQL.Clause.letSpecs, x.op ∈ letDefs ∧ x.op.min ≤ x.args.length ∧ (x.args.length ≤ x.op.max ∨ x.args = []) := by
  intro x hx
  obtain ⟨c, hc, hx⟩ := List.mem_flatMap.1 hx
  obtain ⟨us, hw⟩ := written_clauses h c hc
  cases c with
  | lets l =>
    obtain ⟨a, b, _, _, hs⟩ := hw
    simp only [CalQL.Clause.letSpecs, List.mem_map] at hx
    obtain ⟨i, hi, e⟩ := hx
    obtain ⟨_, a1, a2, _, _, us, _, b1, b2, _, h2, _⟩ := sepBy_all hs i hi
    subst e
    exact callOpt_ok h2
  | _ => simp [CalQL.Clause.letSpecs] at hx

/-- the aggregation functions of `Verif/Query/Pipeline` -/
def known : List Str := [str "count", str "sum", str "min", str "max", str "avg", str "inclusive_sum", str "inclusive_min", str "inclusive_max"]

theorem aggOf_ok {x : CalQL.Sig × List Str} (h : x.1 ∈ aggDefs) (h1 : x.1.min ≤ x.2.length) (h2 : x.2.length ≤ x.1.max ∨ x.2 = []) (hk : x.1.name ∈ known) :
    ∃ op, aggOf x = some op ∧ AggIs x.1.name x.2 op := by
  obtain ⟨d, args⟩ := x
  simp only at h h1 h2 hk ⊢
  simp only [aggDefs, List.mem_cons, List.not_mem_nil, or_false] at h
  rcases h with rfl | rfl | rfl | rfl | rfl | rfl | rfl | rfl | rfl | rfl | rfl | rfl | rfl | rfl | rfl | rfl | rfl
  case inl =>
    have : args = [] := by rcases h2 with h2 | h2 <;> [exact List.length_eq_zero_iff.1 (Nat.le_zero.1 h2); exact h2]
    subst this
    exact ⟨_, rfl, .count⟩
  all_goals first
    | exact absurd hk (by decide +kernel)
    | (obtain _ | ⟨a, _ | ⟨b, args⟩⟩ := args
       · exact absurd h1 (by decide)
       · exact ⟨_, rfl, by constructor⟩
       · rcases h2 with h2 | h2
         · exact absurd h2 (by simp)
         · cases h2)

theorem aggsOf_ok : ∀ (l : List (CalQL.Sig × List Str)), (∀ x ∈ l, ∃ op, aggOf x = some op ∧ AggIs x.1.name x.2 op) →
    ∃ ops, aggsOf l = some ops ∧ List.Forall₂ (fun x op => AggIs x.1.name x.2 op) l ops
  | [], _ => ⟨[], rfl, .nil⟩
  | x :: l, h => by
    obtain ⟨op, e, h1⟩ := h x (by simp)
    obtain ⟨ops, e', h2⟩ := aggsOf_ok l fun y hy => h y (by simp [hy])
    exact ⟨op :: ops, by simp [aggsOf, e, e'], .cons h1 h2⟩

/-- where a LET definition needs a number, it has one -/
def Numeric (num : Str → Option U64) (x : CalQL.LetSpec) : Prop :=
  (x.op.name = str "ratio" → ∀ s, x.args[2]? = some s → ∃ v, num s = some v) ∧
  (x.op.name = str "scale" ∨ x.op.name = str "truncate" → ∀ s, x.args[1]? = some s → ∃ v, num s = some v)

theorem letOp_ok {num : Str → Option U64} {one : U64} {x : CalQL.LetSpec} (h : x.op ∈ letDefs) (h1 : x.op.min ≤ x.args.length)
    (h2 : x.args.length ≤ x.op.max ∨ x.args = []) (hn : Numeric num x) : ∃ o, letOp num one x.op.id x.args = some o ∧ LetIs num one x.op.name x.args o := by
  obtain ⟨tgt, d, args, cond⟩ := x
  simp only [Numeric] at h h1 h2 hn ⊢
  obtain ⟨hr, hs⟩ := hn
  simp only [letDefs, List.mem_cons, List.not_mem_nil, or_false] at h
  have hlen : ∀ n, (args.length ≤ n ∨ args = []) → args.length ≤ n := by
    rintro n (h | h)
    · exact h
    · subst h; exact Nat.zero_le _
  rcases h with rfl | rfl | rfl | rfl | rfl | rfl
  · have h2 := hlen 3 h2
    match args, h1, h2 with
    | [a, b], _, _ => exact ⟨_, rfl, .ratio a b⟩
    | [a, b, s], _, _ =>
      obtain ⟨v, hv⟩ := hr rfl s rfl
      exact ⟨.ratio a b v, by simp [letOp, hv], .ratioS a b s v hv⟩
  · have h2 := hlen 2 h2
    match args, h1, h2 with
    | [a, s], _, _ =>
      obtain ⟨v, hv⟩ := hs (.inl rfl) s rfl
      exact ⟨.scale a v, by simp [letOp, hv], .scale a s v hv⟩
  · have h2 := hlen 2 h2
    match args, h1, h2 with
    | [a], _, _ => exact ⟨_, rfl, .trunc a⟩
    | [a, s], _, _ =>
      obtain ⟨v, hv⟩ := hs (.inr rfl) s rfl
      exact ⟨.truncate a v, by simp [letOp, hv], .truncF a s v hv⟩
  · exact ⟨.first args, rfl, .first _ (by rintro rfl; exact absurd h1 (by decide))⟩
  · exact ⟨.sum args, rfl, .sum _ (by rintro rfl; exact absurd h1 (by decide))⟩
  · have h2 := hlen 1 h2
    match args, h2 with
    | [], _ => exact ⟨_, rfl, .leafPath⟩
    | [a], _ => exact ⟨_, rfl, .leaf a⟩

theorem letsOf_ok {num : Str → Option U64} {one : U64} : ∀ (l : List CalQL.LetSpec),
    (∀ x ∈ l, ∃ o, letOp num one x.op.id x.args = some o ∧ LetIs num one x.op.name x.args o) →
    ∃ ds, letsOf num one l = some ds ∧
      List.Forall₂ (fun (x : CalQL.LetSpec) (d : LetDef) => d.target = x.target ∧ d.cond = x.cond ∧ LetIs num one x.op.name x.args d.op) l ds
  | [], _ => ⟨[], rfl, .nil⟩
  | x :: l, h => by
    obtain ⟨op, e, h1⟩ := h x (by simp)
    obtain ⟨ops, e', h2⟩ := letsOf_ok l fun y hy => h y (by simp [hy])
    exact ⟨⟨x.target, op, x.cond⟩ :: ops, by simp [letsOf, e, e'], .cons ⟨rfl, rfl, h1⟩ h2⟩

/-- **C92** The text of a query is written with these clauses (any letter case, white space and quoting), its aggregation functions are among `known`, and
its scale factors are numbers.  Then the query is accepted, and `cali-query` runs exactly what is written: the aggregations, LET definitions, conditions
and grouping keys, in order. -/
theorem C92_text_partial (cs : List CalQL.Clause) (ts : List CalQL.Tok) (text : List Byte) (hw : Written cs ts) (hl : Lay ts text) (hs : Sensible cs)
    (num : Str → Option U64) (one : U64) (hk : ∀ x ∈ cs.flatMap CalQL.Clause.calls, x.1.name ∈ known) (hn : ∀ x ∈ cs.flatMap CalQL.Clause.letSpecs, Numeric num x)
    (E : Env) (D : PDB) (ps : List PStep) :
    ∃ q, Does num one cs q ∧ runText E num one text D ps = some (query E q D ps) := by
  obtain ⟨hp, hm⟩ := CalQL.C61_parse_partial cs ts text hw hl hs
  obtain ⟨ops, e1, h1⟩ := aggsOf_ok (cs.flatMap CalQL.Clause.calls) fun x hx => by
    obtain ⟨a, b, c⟩ := calls_ok hw x hx
    exact aggOf_ok a b c (hk x hx)
  obtain ⟨ds, e2, h2⟩ := letsOf_ok (num := num) (one := one) (cs.flatMap CalQL.Clause.letSpecs) fun x hx => by
    obtain ⟨a, b, c⟩ := lets_ok hw x hx
    exact letOp_ok a b c (hn x hx)
  generalize hsp : (CalQL.parse text).1 = s at hm
  have k1 : kernels s = some ops := by
    unfold kernels
    rw [hm.aggs.2, hm.aggs.1]
    by_cases h0 : cs.flatMap CalQL.Clause.calls = []
    · rw [if_pos h0]
      rw [h0] at e1
      exact e1
    · rw [if_neg h0]
      exact e1
  have k2 : (keys s).1 = true ↔ cs.flatMap CalQL.Clause.groups = [] := by
    unfold keys
    rw [hm.grp.2.2]
    by_cases h0 : cs.flatMap CalQL.Clause.groups = []
    · simp [h0]
    · simp [h0]
  have k3 : (keys s).2 = (cs.flatMap CalQL.Clause.groups).filter fun n => ¬CalQL.isPath n := by
    unfold keys
    rw [hm.grp.2.2]
    by_cases h0 : cs.flatMap CalQL.Clause.groups = []
    · simp [h0]
    · rw [if_neg h0]
      exact hm.grp.1
  refine ⟨⟨ds, if s.filSel = .none then [] else s.fil, (keys s).1, s.grpPath, (keys s).2, decide (s.aggSel ≠ .none), ops⟩, ⟨h1, ?_, h2, ?_, k2, hm.grp.2.1, k3⟩, ?_⟩
  · rw [decide_eq_true_iff, hm.aggs.2]
    by_cases h0 : cs.flatMap CalQL.Clause.calls = [] <;> simp [h0]
  · rw [hm.fil.2, hm.fil.1]
    by_cases h0 : cs.flatMap CalQL.Clause.conds = [] <;> simp [h0]
  · unfold runText plan
    rw [if_neg (by simp [hp]), hsp, k1, hm.lets, e2]
    rfl

/-- the aggregation for a name -/
private def aggFn (n : Str) : List Str → Option AggOp
  | [] => if n = str "count" then some .count else none
  | [a] => if n = str "sum" then some (.red .sum a false) else if n = str "min" then some (.red .min a false) else if n = str "max" then some (.red .max a false)
    else if n = str "avg" then some (.avg a) else if n = str "inclusive_sum" then some (.red .sum a true) else if n = str "inclusive_min" then some (.red .min a true)
    else if n = str "inclusive_max" then some (.red .max a true) else none
  | _ => none

private theorem aggFn_ok {n : Str} {l : List Str} {o : AggOp} (h : AggIs n l o) : aggFn n l = some o := by
  cases h
  case count => rfl
  all_goals
    unfold aggFn
    simp only [show str "min" ≠ str "sum" by decide +kernel, show str "max" ≠ str "sum" by decide +kernel, show str "avg" ≠ str "sum" by decide +kernel,
      show str "inclusive_sum" ≠ str "sum" by decide +kernel, show str "inclusive_min" ≠ str "sum" by decide +kernel, show str "inclusive_max" ≠ str "sum" by decide +kernel,
      show str "max" ≠ str "min" by decide +kernel, show str "avg" ≠ str "min" by decide +kernel,
      show str "inclusive_sum" ≠ str "min" by decide +kernel, show str "inclusive_min" ≠ str "min" by decide +kernel, show str "inclusive_max" ≠ str "min" by decide +kernel,
      show str "avg" ≠ str "max" by decide +kernel,
      show str "inclusive_sum" ≠ str "max" by decide +kernel, show str "inclusive_min" ≠ str "max" by decide +kernel, show str "inclusive_max" ≠ str "max" by decide +kernel,
      show str "inclusive_sum" ≠ str "avg" by decide +kernel, show str "inclusive_min" ≠ str "avg" by decide +kernel, show str "inclusive_max" ≠ str "avg" by decide +kernel,
      show str "inclusive_min" ≠ str "inclusive_sum" by decide +kernel, show str "inclusive_max" ≠ str "inclusive_sum" by decide +kernel,
      show str "inclusive_max" ≠ str "inclusive_min" by decide +kernel, if_true, if_false]

/-- a call asks for one aggregation only -/
theorem aggIs_unique {n : Str} {l : List Str} {o o' : AggOp} (h : AggIs n l o) (h' : AggIs n l o') : o = o' :=
  Option.some.inj ((aggFn_ok h).symm.trans (aggFn_ok h'))

theorem aggs_unique : ∀ {l : List (CalQL.Sig × List Str)} {a b : List AggOp}, List.Forall₂ (fun x op => AggIs x.1.name x.2 op) l a →
    List.Forall₂ (fun x op => AggIs x.1.name x.2 op) l b → a = b
  | _, _, _, .nil, .nil => rfl
  | _, _, _, .cons h t, .cons h' t' => by rw [aggIs_unique h h', aggs_unique t t']

theorem bool_iff {a b : Bool} {p : Prop} (h : a = true ↔ p) (h' : b = true ↔ p) : a = b := by
  have := h.trans h'.symm
  cases a <;> cases b <;> simp_all

/-- **C92** There is only one thing to do for a query without LET (with LET, see `LetIs`) -/
theorem C92_meaning_unique {num : Str → Option U64} {one : U64} {cs : List CalQL.Clause} {q q' : QSpec} (h : Does num one cs q) (h' : Does num one cs q')
    (hl : cs.flatMap CalQL.Clause.letSpecs = []) : q = q' := by
  obtain ⟨l, c, sa, sn, k, da, ag⟩ := q
  obtain ⟨l', c', sa', sn', k', da', ag'⟩ := q'
  have e1 : l = [] := by have := h.lets; rw [hl] at this; exact List.forall₂_nil_left_iff.1 this
  have e1' : l' = [] := by have := h'.lets; rw [hl] at this; exact List.forall₂_nil_left_iff.1 this
  have e2 : c = c' := h.conds.trans h'.conds.symm
  have e3 : sa = sa' := bool_iff h.all h'.all
  have e4 : sn = sn' := bool_iff h.path h'.path
  have e5 : k = k' := h.keys.trans h'.keys.symm
  have e6 : da = da' := bool_iff h.doAgg h'.doAgg
  have e7 : ag = ag' := aggs_unique h.aggs h'.aggs
  subst e1 e1' e2 e3 e4 e5 e6 e7
  rfl

/-- the hypotheses are met by the query of `C61_example` -/
theorem C92_example (num : Str → Option U64) : ∃ text, Written CalQL.exQ CalQL.exToks ∧ Lay CalQL.exToks text ∧ Sensible CalQL.exQ ∧
    (∀ x ∈ CalQL.exQ.flatMap CalQL.Clause.calls, x.1.name ∈ known) ∧ (∀ x ∈ CalQL.exQ.flatMap CalQL.Clause.letSpecs, Numeric num x) := by
  obtain ⟨text, h1, h2, h3, _⟩ := CalQL.C61_example
  refine ⟨text, h1, h2, h3, by decide +kernel, ?_⟩
  intro x hx
  have : x = ⟨str "q", ⟨0, str "ratio", 2, 3, [str "numerator", str "denominator", str "scale"]⟩, [str "a", str "b"], ⟨.less, str "c", str "2"⟩⟩ := by
    simpa [CalQL.exQ, CalQL.Clause.letSpecs, CalQL.WCond.cond] using hx
  subst this
  refine ⟨fun _ s hs => by simp at hs, fun h => ?_⟩
  exact absurd h (by decide +kernel)

/-- **C92** violated: a scale factor that is not a number passes the parser and ends the process by an exception -/
theorem C92_violation_number (E : Env) (num : Str → Option U64) (one : U64) (D : PDB) (ps : List PStep) (h : num (str "abc") = none) :
    (CalQL.parse (str "LET x=scale(y,abc)")).2 = false ∧ runText E num one (str "LET x=scale(y,abc)") D ps = none := by
  have h1 : (CalQL.parse (str "LET x=scale(y,abc)")).2 = false := by decide +kernel
  have h2 : (CalQL.parse (str "LET x=scale(y,abc)")).1.lets.map (fun x => (x.op.id, x.args)) = [(1, [str "y", str "abc"])] := by decide +kernel
  have h3 : (CalQL.parse (str "LET x=scale(y,abc)")).1.aggSel = .none := by decide +kernel
  refine ⟨h1, ?_⟩
  unfold runText plan kernels
  rw [if_neg (by simp [h1]), h3]
  generalize (CalQL.parse (str "LET x=scale(y,abc)")).1 = s at h2
  have : letsOf num one s.lets = none := by
    generalize s.lets = l at h2 ⊢
    obtain _ | ⟨x, _ | ⟨y, l⟩⟩ := l
    · simp at h2
    · simp only [List.map_cons, List.map_nil, List.cons.injEq, Prod.mk.injEq, and_true] at h2
      simp [letsOf, h2.1, h2.2, letOp, h]
    · simp at h2
  simp [this]

end Verif.Query.Plan
