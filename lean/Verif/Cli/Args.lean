import Verif.Cali.Text
/-!
# Command lines

Model of `/repo/src/tools/util/Args.cpp`.  A string is its list of bytes (none of them 0); positions in `argv` are natural numbers.
-/
namespace Verif.Cli
open Verif Verif.Cali

abbrev Str := List Byte

/-- `Args::Table` (`Args.h:33-43`) without the help texts -/
structure Opt where
  name : Str
  long : Option Str
  short : Option Byte
  hasArg : Bool
  deriving DecidableEq, Repr

/-- `m_active_options` (option index to argument) and `m_arguments` (`Args.cpp:22-25`) -/
structure St where
  active : List (Nat × Str)
  args : List Str
  deriving DecidableEq, Repr

def St.init : St := ⟨[], []⟩

/-- `m_long_options.find(...)` after `add_table` (`Args.cpp:34-48`): `insert` keeps the first of equal names -/
def findLong (T : List Opt) (n : Str) : Option Nat := T.findIdx? fun o => decide (o.long = some n)
/-- `m_short_options.find(...)` -/
def findShort (T : List Opt) (c : Byte) : Option Nat := T.findIdx? fun o => decide (o.short = some c)
/-- `m_option_map.find(...)` -/
def findName (T : List Opt) (n : Str) : Option Nat := T.findIdx? fun o => decide (o.name = n)

/-- `m_options[i].has_argument` -/
def takes (T : List Opt) (i : Nat) : Bool := (T[i]?.map Opt.hasArg).getD false

/-- `m_active_options.insert(...)`: the first value stays -/
def St.set (A : St) (i : Nat) (v : Str) : St := if A.active.any fun x => decide (x.1 = i) then A else { A with active := A.active ++ [(i, v)] }

/-- text after the first `=`; empty if there is none (`Args.cpp:76-88`) -/
def afterEq (a : Str) : Str := (a.dropWhile fun c => decide (c ≠ ch '=')).drop 1
/-- text before the first `=` -/
def beforeEq (a : Str) : Str := a.takeWhile fun c => decide (c ≠ ch '=')

/-- the characters of a short option string (`Args.cpp:103-119`); `v` is the text after `=` (if there is a `=`), `nx` the next command line argument.
`none`: unknown option; otherwise, whether the next argument was used -/
def shortL (T : List Opt) (v : Option Str) (nx : Option Str) : List Byte → St → St × Option Bool
  | [], A => (A, some false)
  | c :: cs, A =>
    match findShort T c with
    | none => (A, none)
    | some o =>
      if cs = [] then
        match v with
        | some v => (A.set o v, some false)
        | none =>
          if takes T o then
            match nx with
            | some b => (A.set o b, some true)
            | none => (A.set o [], some false)
          else (A.set o [], some false)
      else shortL T v nx cs (A.set o [])

/-- `parse` (`Args.cpp:50-131`) from position `i` on: the state and the position returned -/
def parseL (T : List Opt) : Nat → List Str → St → St × Nat
  | i, [], A => (A, i + 1)
  | i, [a], A =>
    if a = [] then (A, i + 2)
    else if a = str "--" then (A, i + 1)
    else if (str "--").isPrefixOf a then
      match findLong T (beforeEq (a.drop 2)) with
      | none => (A, i)
      | some o => (A.set o (afterEq a), i + 2)
    else if (str "-").isPrefixOf a then
      match shortL T (if ch '=' ∈ a then some (afterEq a) else none) none (beforeEq (a.drop 1)) A with
      | (A, none) => (A, i)
      | (A, some _) => (A, i + 2)
    else ({ A with args := A.args ++ [a] }, i + 2)
  | i, a :: b :: rest, A =>
    if a = [] then parseL T (i + 1) (b :: rest) A
    else if a = str "--" then ({ A with args := A.args ++ b :: rest }, i + 2 + rest.length)
    else if (str "--").isPrefixOf a then
      match findLong T (beforeEq (a.drop 2)) with
      | none => (A, i)
      | some o =>
        if takes T o ∧ afterEq a = [] then parseL T (i + 2) rest (A.set o b)
        else parseL T (i + 1) (b :: rest) (A.set o (afterEq a))
    else if (str "-").isPrefixOf a then
      match shortL T (if ch '=' ∈ a then some (afterEq a) else none) (some b) (beforeEq (a.drop 1)) A with
      | (A, none) => (A, i)
      | (A, some true) => parseL T (i + 2) rest A
      | (A, some false) => parseL T (i + 1) (b :: rest) A
    else parseL T (i + 1) (b :: rest) { A with args := A.args ++ [a] }

/-- `parse(argc, argv)`: the arguments after the program name -/
def parse (T : List Opt) (argv : List Str) : St × Nat := if argv = [] then (St.init, 1) else parseL T 1 argv St.init

/-- is the command line accepted (`cali-query.cpp:136-143`): `parse` returns a position behind the last argument -/
def accepted (T : List Opt) (argv : List Str) : Bool := decide (argv.length + 1 ≤ (parse T argv).2)

/-- `is_set` (`Args.cpp:145-156`) -/
def isSet (T : List Opt) (A : St) (n : Str) : Bool :=
  match findName T n with
  | none => false
  | some i => A.active.any fun x => decide (x.1 = i)

/-- `get` (`Args.cpp:133-143`) -/
def get (T : List Opt) (A : St) (n : Str) (d : Str) : Str :=
  match findName T n with
  | none => d
  | some i => ((A.active.find? fun x => decide (x.1 = i)).map Prod.snd).getD d

end Verif.Cli
