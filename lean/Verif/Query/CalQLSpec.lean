import Verif.Query.CalQL
/-!
# Written CalQL queries and their meaning
-/
namespace Verif.Query.CalQL
open Verif Verif.Cali Verif.Parse

/-! ## documented functions -/

/-- aggregation functions: name, smallest number of arguments, names of the arguments, prefix of the name of the result -/
def AggFunctions : List (String × Nat × List String × String) :=
  [("count", 0, [], "count"), ("sum", 1, ["attribute"], "sum#"), ("ratio", 2, ["numerator", "denominator", "scale"], "ratio#"),
   ("percent_total", 1, ["attribute"], "percent_total#"), ("inclusive_sum", 1, ["attribute"], "inclusive#"), ("min", 1, ["attribute"], "min#"),
   ("max", 1, ["attribute"], "max#"), ("avg", 1, ["attribute"], "avg#"), ("scale", 2, ["attribute", "scale"], "scale#"),
   ("inclusive_scale", 2, ["attribute", "scale"], "iscale#"), ("inclusive_percent_total", 1, ["attribute"], "ipercent_total#"),
   ("any", 1, ["attribute"], "any#"), ("scale_count", 1, ["scale"], "scount"), ("inclusive_ratio", 2, ["numerator", "denominator", "scale"], "iratio#"),
   ("inclusive_min", 1, ["attribute"], "imin#"), ("inclusive_max", 1, ["attribute"], "imax#"), ("variance", 1, ["attribute"], "variance#")]

/-- formatters: name, smallest number of arguments, arguments -/
def Formatters : List (String × Nat × List String) :=
  [("cali", 0, []), ("json", 0, ["object", "pretty", "quote-all", "separate-nested", "records", "split"]), ("expand", 0, []),
   ("format", 1, ["format", "title"]), ("table", 0, ["column-width", "print-globals"]),
   ("tree", 0, ["path-attributes", "column-width", "print-globals"]), ("json-split", 0, [])]

/-- LET operators: name, smallest and largest number of arguments -/
def LetOperators : List (String × Nat × Nat) :=
  [("ratio", 2, 3), ("scale", 2, 2), ("truncate", 1, 2), ("first", 1, 8), ("sum", 1, 8), ("leaf", 0, 1)]

/-- the name of the result: the prefix, and the first argument, or quotient of the first two -/
def Column (f : String × Nat × List String × String) (args : List Str) : Str :=
  if f.1 = "count" ∨ f.1 = "scale_count" then str f.2.2.2
  else if f.1 = "ratio" ∨ f.1 = "inclusive_ratio" then str f.2.2.2 ++ args.getD 0 [] ++ str "/" ++ args.getD 1 []
  else str f.2.2.2 ++ args.getD 0 []

/-! ## queries -/

/-- the comparisons that can be written -/
inductive Cmp where
  | eq | lt | gt

/-- a condition: `[NOT] attr [=|<|> value]` -/
structure WCond where
  neg : Bool
  attr : Str
  cmp : Option (Cmp × Str)

/-- a selection -/
inductive Item where
  | star
  | attr (a : Str) (as unit : Option Str)
  | call (d : Sig) (args : List Str) (as unit : Option Str)

/-- a formatter argument: a value for the parameter at its position, a flag, or `name=value` -/
inductive KArg where
  | pos (v : Str)
  | flag (n : Str)
  | kv (k v : Str)

/-- `target=op(args) [IF cond]` -/
structure WLet where
  target : Str
  op : Sig
  args : List Str
  cond : Option WCond

/-- the clauses of a query -/
inductive Clause where
  | aggregate (l : List (Sig × List Str))
  | format (d : Sig) (l : List KArg)
  | groupBy (l : List Str)
  | select (l : List Item)
  | orderBy (l : List (Str × Option Bool))
  | wher (l : List WCond)
  | lets (l : List WLet)

/-! ## texts -/

/-- a token: a word as written, or a punctuation character -/
inductive Tok where
  | w (t : Str)
  | p (c : Byte)

/-- white space -/
def Spaces (ws : Str) : Prop := ∀ c ∈ ws, isSpace c = true

/-- a word must be followed by the end of the text, white space, or punctuation -/
def Brk (ts : List Tok) (r : Str) : Prop :=
  r = [] ∨ (∃ c cs, r = c :: cs ∧ isSpace c = true) ∨ (∃ c ts' cs, ts = .p c :: ts' ∧ c ≠ ch '*' ∧ r = c :: cs)

/-- a text consists of these tokens, with any white space between them -/
inductive Lay : List Tok → Str → Prop
  | nil {ws} : Spaces ws → Lay [] ws
  | p {ws c ts r} : Spaces ws → Lay ts r → Lay (.p c :: ts) (ws ++ c :: r)
  | w {ws t ts r} : Spaces ws → t ≠ [] → Lay ts r → Brk ts r → Lay (.w t :: ts) (ws ++ t ++ r)

/-- the word `w`, plain or in quotes -/
def Word (sep : Str) (w : Str) (ts : List Tok) : Prop := ∃ t, ts = [.w t] ∧ IsText sep w t

/-- a keyword in any mixture of upper and lower case -/
def Kw (k : String) (ts : List Tok) : Prop := ∃ w, Word sep0 w ts ∧ lower w = str k

/-- items separated by commas -/
inductive SepBy {α : Type} (R : α → List Tok → Prop) : List α → List Tok → Prop
  | one {a ts} : R a ts → SepBy R [a] ts
  | cons {a l ts us} : R a ts → SepBy R l us → SepBy R (a :: l) (ts ++ .p (ch ',') :: us)

/-- two parts -/
def Seq (A B : List Tok → Prop) (ts : List Tok) : Prop := ∃ a b, ts = a ++ b ∧ A a ∧ B b

/-- an optional part -/
def Opt (R : Str → List Tok → Prop) : Option Str → List Tok → Prop
  | none, ts => ts = []
  | some v, ts => R v ts

/-- `(arg, …)` -/
def Args (args : List Str) (ts : List Tok) : Prop :=
  ∃ us, ts = .p (ch '(') :: (us ++ [.p (ch ')')]) ∧ (args = [] ∧ us = [] ∨ SepBy (Word sepA) args us)

/-- a function name -/
def Fn (d : Sig) (ts : List Tok) : Prop := ∃ w, Word sep0 w ts ∧ lower w = d.name

/-- a call with an allowed number of arguments -/
def Call (defs : List Sig) (d : Sig) (args : List Str) : List Tok → Prop :=
  fun ts => d ∈ defs ∧ d.min ≤ args.length ∧ args.length ≤ d.max ∧ Seq (Fn d) (Args args) ts

/-- a call; the parentheses may be left out if there are no arguments -/
def CallOpt (defs : List Sig) (d : Sig) (args : List Str) : List Tok → Prop :=
  fun ts => Call defs d args ts ∨ (d ∈ defs ∧ d.min = 0 ∧ args = [] ∧ Fn d ts)

/-- the comparison operator -/
def Cmp.char : Cmp → Byte
  | .eq => ch '='
  | .lt => ch '<'
  | .gt => ch '>'

/-- a written condition -/
def CondW (c : WCond) : List Tok → Prop :=
  Seq (fun a => if c.neg then Kw "not" a else a = [] ∧ lower c.attr ≠ str "not")
    (Seq (Word sep0 c.attr) fun ts => match c.cmp with
      | none => ts = []
      | some (k, v) => ∃ us, ts = .p k.char :: us ∧ Word sep0 v us)

/-- a written selection; an unquoted name must not begin with `*` -/
def ItemW : Item → List Tok → Prop
  | .star, ts => ts = [.p (ch '*')]
  | .attr a as un, ts => (∀ t, ts.head? = some (.w t) → t.head? ≠ some (ch '*')) ∧
      Seq (Word sep0 a) (Seq (Opt (fun v => Seq (Kw "as") (Word sep0 v)) as) (Opt (fun v => Seq (Kw "unit") (Word sepU v)) un)) ts
  | .call d args as un, ts =>
      Seq (Call aggDefs d args) (Seq (Opt (fun v => Seq (Kw "as") (Word sep0 v)) as) (Opt (fun v => Seq (Kw "unit") (Word sepU v)) un)) ts

/-- a written sort attribute -/
def SortW (x : Str × Option Bool) : List Tok → Prop :=
  Seq (Word sep0 x.1) fun ts => match x.2 with
    | none => ts = []
    | some false => Kw "asc" ts
    | some true => Kw "desc" ts

/-- a word that can stand in `name=value` -/
def Simple (w : Str) : Prop := ∀ c ∈ w, c ≠ ch '\\' ∧ c ≠ ch '"' ∧ c ≠ ch '=' ∧ c ≠ ch ',' ∧ isSpace c = false

/-- a formatter argument as one word -/
def KArg.word (d : Sig) : KArg → Str → Prop
  | .pos v, w => w = v ∧ Simple v ∧ v ∉ d.args
  | .flag n, w => w = n ∧ Simple n ∧ n ∈ d.args
  | .kv k v, w => w = k ++ ch '=' :: v ∧ Simple k ∧ Simple v ∧ k ∈ d.args

/-- a written LET item -/
def LetW (x : WLet) : List Tok → Prop :=
  Seq (Word sep0 x.target) fun ts => ∃ us, ts = .p (ch '=') :: us ∧
    Seq (CallOpt letDefs x.op x.args) (fun vs => match x.cond with
      | none => vs = []
      | some c => Seq (Kw "if") (CondW c) vs) us

/-- a written clause -/
def ClauseW : Clause → List Tok → Prop
  | .aggregate l => Seq (Kw "aggregate") (SepBy (fun x => CallOpt aggDefs x.1 x.2) l)
  | .format d l => Seq (Kw "format") fun ts => ∃ ws, List.Forall₂ (KArg.word d) l ws ∧ CallOpt fmtDefs d ws ts
  | .groupBy l => Seq (Seq (Kw "group") (Kw "by")) (SepBy (Word sep0) l)
  | .select l => Seq (Kw "select") (SepBy ItemW l)
  | .orderBy l => Seq (Seq (Kw "order") (Kw "by")) (SepBy SortW l)
  | .wher l => Seq (Kw "where") (SepBy CondW l)
  | .lets l => Seq (Kw "let") (SepBy LetW l)

/-- a written query -/
inductive Written : List Clause → List Tok → Prop
  | nil : Written [] []
  | cons {c cs ts us} : ClauseW c ts → Written cs us → Written (c :: cs) (ts ++ us)

/-! ## meaning -/

/-- the filter condition: `NOT` gives the opposite comparison -/
def WCond.cond (c : WCond) : Cond :=
  match c.cmp, c.neg with
  | none, false => ⟨.exist, c.attr, []⟩
  | none, true => ⟨.notExist, c.attr, []⟩
  | some (.eq, v), false => ⟨.equal, c.attr, v⟩
  | some (.eq, v), true => ⟨.notEqual, c.attr, v⟩
  | some (.lt, v), false => ⟨.less, c.attr, v⟩
  | some (.lt, v), true => ⟨.greaterEq, c.attr, v⟩
  | some (.gt, v), false => ⟨.greater, c.attr, v⟩
  | some (.gt, v), true => ⟨.lessEq, c.attr, v⟩

/-- the selections -/
def Clause.items : Clause → List Item
  | .select l => l
  | _ => []

/-- the attribute a selection shows -/
def Item.name : Item → Str
  | .star => []
  | .attr a _ _ => a
  | .call d args _ _ => aggName d args

/-- the aggregations of a clause, from AGGREGATE and SELECT -/
def Clause.calls : Clause → List (Sig × List Str)
  | .aggregate l => l
  | .select l => l.filterMap fun i => match i with | .call d args _ _ => some (d, args) | _ => none
  | _ => []

def Clause.conds : Clause → List Cond
  | .wher l => l.map WCond.cond
  | _ => []

def Clause.groups : Clause → List Str
  | .groupBy l => l
  | _ => []

def Clause.sorts : Clause → List SortBy
  | .orderBy l => l.map fun x => ⟨x.1, x.2.getD false⟩
  | _ => []

def Clause.letSpecs : Clause → List LetSpec
  | .lets l => l.map fun x => ⟨x.target, x.op, x.args, match x.cond with | none => ⟨.none, [], []⟩ | some c => c.cond⟩
  | _ => []

/-- `AS` names -/
def Item.alias : Item → Option (Str × Str)
  | .star => none
  | .attr a as _ => as.map fun v => (a, v)
  | .call d args as _ => as.map fun v => (aggName d args, v)

/-- units -/
def Item.unit : Item → Option (Str × Str)
  | .star => none
  | .attr a _ un => un.map fun v => (a, v)
  | .call d args _ un => un.map fun v => (aggName d args, v)

def Item.isStar : Item → Bool
  | .star => true
  | _ => false

def Item.isAttr : Item → Bool
  | .attr .. => true
  | _ => false

/-- the last value given to `k` -/
def lastFor (l : List (Str × Str)) (k : Str) : Option Str := (l.reverse.find? fun x => decide (x.1 = k)).map Prod.snd

/-- the parameter set by the `i`-th formatter argument -/
def KArg.pair (d : Sig) (i : Nat) : KArg → Str × Str
  | .pos v => (d.args.getD i [], v)
  | .flag n => (n, str "true")
  | .kv k v => (k, v)

/-- the format of the last FORMAT clause -/
def lastFormat (cs : List Clause) : Option (Sig × List KArg) :=
  (cs.filterMap fun c => match c with | .format d l => some (d, l) | _ => none).getLast?

/-- the keywords for the region hierarchy -/
def isPath (n : Str) : Prop := n = str "path" ∨ n = str "prop:nested"

instance (n : Str) : Decidable (isPath n) := inferInstanceAs (Decidable (_ ∨ _))

/-- The parsed query says what was written: aggregations, filters, groupings, sort orders and LET definitions in the order written, the
selected attributes (all with `*`), names and units, the output format. -/
structure Means (cs : List Clause) (s : Spec) : Prop where
  aggs : s.aggs = cs.flatMap Clause.calls ∧ s.aggSel = if cs.flatMap Clause.calls = [] then .none else .list
  fil : s.fil = cs.flatMap Clause.conds ∧ s.filSel = if cs.flatMap Clause.conds = [] then .none else .list
  sort : s.sort = cs.flatMap Clause.sorts ∧ s.sortSel = if cs.flatMap Clause.sorts = [] then .none else .list
  lets : s.lets = cs.flatMap Clause.letSpecs
  grp : s.grp = (cs.flatMap Clause.groups).filter (fun n => ¬isPath n) ∧ (s.grpPath = true ↔ ∃ n ∈ cs.flatMap Clause.groups, isPath n) ∧
    s.grpSel = if cs.flatMap Clause.groups = [] then .default else .list
  star : (∃ i ∈ cs.flatMap Clause.items, i.isStar = true) → s.selSel = .all
  sel : (∀ i ∈ cs.flatMap Clause.items, i.isStar = false) → s.sel = ((cs.flatMap Clause.items).map Item.name).filter (fun n => ¬isPath n) ∧
    (s.selPath = true ↔ ∃ n ∈ (cs.flatMap Clause.items).map Item.name, isPath n) ∧
    s.selSel = if cs.flatMap Clause.items = [] then .default else .list
  aliases : ∀ k, s.aliases.lookup k = lastFor ((cs.flatMap Clause.items).filterMap Item.alias) k
  units : ∀ k, s.units.lookup k = lastFor ((cs.flatMap Clause.items).filterMap Item.unit) k
  noFmt : lastFormat cs = none → s.fmt = none
  fmt : ∀ d l, lastFormat cs = some (d, l) → ∃ m, s.fmt = some (d, m) ∧ ∀ k, m.lookup k = lastFor (l.mapIdx fun i a => a.pair d i) k

/-- what a query must satisfy to be understood -/
structure Sensible (cs : List Clause) : Prop where
  /-- LET definitions have different names -/
  lets : ((cs.flatMap Clause.letSpecs).map LetSpec.target).Nodup
  /-- no attribute is selected after `*` -/
  star : (cs.flatMap Clause.items).Pairwise fun i j => i.isStar = true → j.isAttr = false
  /-- each of the keywords for the hierarchy is used at most once in SELECT and GROUP BY -/
  sel : ∀ n, isPath n → ((cs.flatMap Clause.items).map Item.name).count n ≤ 1
  grp : ∀ n, isPath n → (cs.flatMap Clause.groups).count n ≤ 1

end Verif.Query.CalQL
