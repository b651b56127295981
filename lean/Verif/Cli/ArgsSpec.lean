import Verif.Cli.Args
/-!
# What a command line says
-/
namespace Verif.Cli
open Verif Verif.Cali

/-- an option table in which options can be told apart: different names, long names (not empty, without `=`) and short characters (other than `=` and `-`) -/
structure Table (T : List Opt) : Prop where
  names : (T.map Opt.name).Nodup
  longs : (T.filterMap Opt.long).Nodup
  shorts : (T.filterMap Opt.short).Nodup
  long : ∀ o ∈ T, ∀ n, o.long = some n → n ≠ [] ∧ ch '=' ∉ n
  short : ∀ o ∈ T, ∀ c, o.short = some c → c ≠ ch '=' ∧ c ≠ ch '-'

/-- a part of a command line, as a user means it -/
inductive Item where
  /-- `--long` -/
  | flag (o : Opt)
  /-- `--long=value` -/
  | eq (o : Opt) (v : Str)
  /-- `--long value` -/
  | sep (o : Opt) (v : Str)
  /-- `-abc` -/
  | short (os : List Opt)
  /-- `-abc=value`: the value is for the last one -/
  | shortEq (os : List Opt) (v : Str)
  /-- `-abc value` -/
  | shortSep (os : List Opt) (v : Str)
  /-- an argument that is not an option, such as a file name -/
  | arg (s : Str)

/-- the items a user may write with option table `T` -/
def Item.Ok (T : List Opt) : Item → Prop
  | .flag o => o ∈ T ∧ o.long.isSome ∧ o.hasArg = false
  | .eq o v => o ∈ T ∧ o.long.isSome ∧ v ≠ []
  | .sep o _ => o ∈ T ∧ o.long.isSome ∧ o.hasArg = true
  | .short os => os ≠ [] ∧ (∀ o ∈ os, o ∈ T ∧ o.short.isSome) ∧ ∀ o ∈ os.getLast?, o.hasArg = false
  | .shortEq os v => os ≠ [] ∧ (∀ o ∈ os, o ∈ T ∧ o.short.isSome) ∧ v ≠ []
  | .shortSep os _ => os ≠ [] ∧ (∀ o ∈ os, o ∈ T ∧ o.short.isSome) ∧ ∀ o ∈ os.getLast?, o.hasArg = true
  | .arg s => s ≠ [] ∧ s.head? ≠ some (ch '-')

/-- short option characters -/
def shorts (os : List Opt) : Str := os.filterMap Opt.short

/-- the text of an item: one or two elements of `argv` -/
def Item.text : Item → List Str
  | .flag o => [str "--" ++ o.long.getD []]
  | .eq o v => [str "--" ++ o.long.getD [] ++ str "=" ++ v]
  | .sep o v => [str "--" ++ o.long.getD [], v]
  | .short os => [str "-" ++ shorts os]
  | .shortEq os v => [str "-" ++ shorts os ++ str "=" ++ v]
  | .shortSep os v => [str "-" ++ shorts os, v]
  | .arg s => [s]

/-- the options an item sets: all but the last of a group of short options have no value -/
def Item.options : Item → List (Str × Str)
  | .flag o => [(o.name, [])]
  | .eq o v | .sep o v => [(o.name, v)]
  | .short os => os.map fun o => (o.name, [])
  | .shortEq os v | .shortSep os v => (os.dropLast.map fun o => (o.name, [])) ++ (os.getLast?.toList.map fun o => (o.name, v))
  | .arg _ => []

/-- the other arguments -/
def Item.args : Item → List Str
  | .arg s => [s]
  | _ => []

/-- the value of option `n`: the first one given -/
def valueOf (items : List Item) (n : Str) : Option Str := ((items.flatMap Item.options).find? fun x => decide (x.1 = n)).map Prod.snd

/-- the end of a command line: nothing, or `--` and anything else -/
def dashed : Option (List Str) → List Str
  | none => []
  | some r => str "--" :: r

end Verif.Cli
