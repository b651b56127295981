import Verif.Cli.Query
import Verif.Query.CalQLSpec
/-!
# What the report options of cali-query mean
-/
namespace Verif.Cli
open Verif Verif.Cali Verif.Parse Verif.Query
open Verif.Query.CalQL (Sig Spec Sel SortBy Tok Lay SepBy Word)

/-- a text is the list of these pieces, separated by commas -/
def Commas (l : List Str) (t : Str) : Prop := l ≠ [] ∧ t = List.intercalate [ch ','] l ∧ ∀ p ∈ l, p ≠ [] ∧ ch ',' ∉ p

/-- a condition for `--select`: `[-]attribute[=value]` -/
structure SCond where
  neg : Bool
  attr : Str
  value : Option Str

/-- its text -/
def SCond.text (c : SCond) : Str := (if c.neg then str "-" else []) ++ c.attr ++ (match c.value with | none => [] | some v => str "=" ++ v)

/-- what can be written: names without `<`, `>`, `=`, and only negated ones beginning with `-`; values that are not empty -/
def SCond.Ok (c : SCond) : Prop :=
  c.attr ≠ [] ∧ (∀ x ∈ c.attr, x ≠ ch '<' ∧ x ≠ ch '>' ∧ x ≠ ch '=') ∧ (c.neg = false → c.attr.head? ≠ some (ch '-')) ∧ ∀ v, c.value = some v → v ≠ []

/-- its meaning -/
def SCond.cond (c : SCond) : Cond :=
  match c.value, c.neg with
  | none, false => ⟨.exist, c.attr, []⟩
  | none, true => ⟨.notExist, c.attr, []⟩
  | some v, false => ⟨.equal, c.attr, v⟩
  | some v, true => ⟨.notEqual, c.attr, v⟩

/-- `(arg, …)` -/
def ArgsC (args : List Str) (ts : List Tok) : Prop :=
  ∃ us, ts = .p (ch '(') :: (us ++ [.p (ch ')')]) ∧ (args = [] ∧ us = [] ∨ SepBy (Word sepC) args us)

/-- an aggregation: a function name and its arguments; no parentheses are needed if there are none -/
def CallC (x : Sig × List Str) (ts : List Tok) : Prop :=
  x.1 ∈ CalQL.aggDefs ∧ x.1.min ≤ x.2.length ∧ x.2.length ≤ x.1.max ∧
  ∃ fs as, ts = fs ++ as ∧ Word sepC x.1.name fs ∧ (ArgsC x.2 as ∨ x.2 = [] ∧ as = [])

/-- the aggregations, separated by commas, with any white space -/
def Calls (l : List (Sig × List Str)) (t : Str) : Prop := ∃ ts, SepBy CallC l ts ∧ Lay ts t

/-- what the user asks for: every part may be left out -/
structure Wish where
  conds : Option (List SCond)
  attrs : Option (List Str)
  ops : Option (List (Sig × List Str))
  key : Option (List Str)
  sort : Option (List Str)

/-- an option is set to a text for `x`, or not set -/
def SetTo {α : Type} (v : Option Str) (text : α → Str → Prop) : Option α → Prop
  | none => v = none
  | some x => ∃ t, v = some t ∧ text x t

/-- the options say what the user asks for -/
structure Wish.Says (w : Wish) (o : Str → Option Str) : Prop where
  conds : SetTo (o (str "select")) (fun (l : List SCond) t => Commas (l.map SCond.text) t ∧ ∀ c ∈ l, c.Ok) w.conds
  attrs : SetTo (o (str "attributes")) Commas w.attrs
  ops : SetTo (o (str "aggregate")) Calls w.ops
  key : SetTo (o (str "aggregate-key")) (fun l t => Commas l t ∧ l ≠ [str "none"]) w.key
  sort : SetTo (o (str "sort")) Commas w.sort

/-- the value of a key -/
def valueIn (m : List (Str × Str)) (k : Str) : Option Str := (m.find? fun x => decide (x.1 = k)).map Prod.snd

/-- the formatter options, most important first -/
def formatters : List Str := [str "json", str "expand", str "format", str "table", str "tree"]

/-- the list of the query, or instead of it the one asked for -/
def Replaced {α : Type} (sel0 : Sel) (l0 : List α) (sel : Sel) (l : List α) : Option (List α) → Prop
  | none => sel = sel0 ∧ l = l0
  | some x => sel = .list ∧ l = x

/-- the list of the query, and after it the one asked for -/
def Added {α : Type} (sel0 : Sel) (l0 : List α) (sel : Sel) (l : List α) : Option (List α) → Prop
  | none => sel = sel0 ∧ l = l0
  | some x => sel = .list ∧ l = l0 ++ x

/-- the aggregation key: it is used only if there are aggregations; `path` and `prop:nested` stand for all region attributes -/
def Grouped {α : Type} (b s : Spec) : Option α → Option (List Str) → Prop
  | none, _ => s.grpSel = b.grpSel ∧ s.grp = b.grp ∧ s.grpPath = b.grpPath
  | some _, none => s.grpSel = .default ∧ s.grp = b.grp ∧ s.grpPath = b.grpPath
  | some _, some l => s.grpSel = .list ∧ s.grp = ((b.grp ++ l).erase (str "path")).erase (str "prop:nested") ∧
      (s.grpPath = true ↔ str "path" ∈ b.grp ++ l ∨ str "prop:nested" ∈ b.grp ++ l)

/-- the most important formatter that is set, with the formatter arguments among the options; otherwise the one of the query -/
def Formatted (o : Str → Option Str) (b s : Spec) : Prop :=
  ((∀ n ∈ formatters, o n = none) ∧ s.fmt = b.fmt) ∨
  ∃ n d m, (formatters.find? fun n => (o n).isSome) = some n ∧ s.fmt = some (d, m) ∧ d ∈ CalQL.fmtDefs ∧ d.name = n ∧
    ∀ k, valueIn m k = (if k ∈ d.args then o k else none).or (valueIn ((b.fmt.map Prod.snd).getD []) k)

/-- the query `s` is what the options ask for, given the query `b` in CalQL -/
structure Wish.Meets (w : Wish) (o : Str → Option Str) (b s : Spec) : Prop where
  /-- the filter of `--select` replaces the `WHERE` of the query -/
  filter : Replaced b.filSel b.fil s.filSel s.fil (w.conds.map fun l => l.map SCond.cond)
  /-- attributes are added to those of the query -/
  select : s.selPath = b.selPath ∧ Added b.selSel b.sel s.selSel s.sel w.attrs
  /-- and so are aggregations -/
  aggregate : Added b.aggSel b.aggs s.aggSel s.aggs w.ops
  group : Grouped b s w.ops w.key
  /-- sorting by further attributes, in ascending order -/
  sort : Added b.sortSel b.sort s.sortSel s.sort (w.sort.map fun l => l.map fun a => ⟨a, false⟩)
  format : Formatted o b s
  /-- nothing else changes -/
  rest : s.aliases = b.aliases ∧ s.units = b.units ∧ s.lets = b.lets

end Verif.Cli
