import Verif.Query.Expand
/-!
# Format strings

Model of `/repo/src/reader/UserFormatter.cpp`, `/repo/src/common/SnapshotTextFormatter.cpp`, `/repo/src/common/util/split.hpp` and of file names in
`/repo/src/common/OutputStream.cpp:218-236`.

Simplified: a context tree node is the list of its (attribute, value) pairs, the innermost first; the database is a function from names to attributes with
their types; nothing runs concurrently (the mutexes); text lengths fit an `int`.
-/
namespace Verif.Query.FmtStr
open Verif Verif.Cali Verif.Query
open Verif.Query.Json (Str)

/-- `util::split` (`split.hpp:15-31`): an empty last piece is dropped -/
def split (sep : Byte) (acc : Str) : Str → List Str
  | [] => if acc.isEmpty then [] else [acc]
  | c :: cs => if c = sep then acc :: split sep [] cs else split sep (acc ++ [c]) cs

/-- `util::tokenize` (`split.hpp:33-61`) -/
def tokenize (tokens : List Byte) (acc : Str) : Str → List Str
  | [] => if acc.isEmpty then [] else [acc]
  | c :: cs =>
    if c ∈ tokens then (if acc.isEmpty then [] else [acc]) ++ [c] :: tokenize tokens [] cs
    else tokenize tokens (acc ++ [c]) cs

/-- `std::stoi`: fails (throws) without digits or out of the range of `int` -/
def stoi (s : Str) : Option Int :=
  let (neg, d) := sign (s.dropWhile isSpace)
  let (v, k) := digitsVal 10 d 0 0
  if k = 0 then none
  else
    let i : Int := if neg then -(v : Int) else v
    if i < -(2 ^ 31) ∨ 2 ^ 31 ≤ i then none else some i

/-- the last position of a token (`UserFormatter.cpp:73-77`) -/
def lastPos (t : Str) (l : List Str) : Option Nat := (l.reverse.findIdx? (· = t)).map fun i => l.length - 1 - i

/-- `Field` (`UserFormatter.cpp:28-36`, `SnapshotTextFormatter.cpp:21-29`): `attr` is the attribute found, `right` is `align == 'r'` -/
structure Fld where
  pre : Str
  name : Str
  attr : Option Nat
  width : Int
  right : Bool

/-- a field entry (`UserFormatter.cpp:59-93`, `SnapshotTextFormatter.cpp:52-87`): width and name; `none` if `stoi` throws -/
def parseField (s : Str) : Option (Int × Str) :=
  let toks := tokenize [ch '[', ch ']'] [] s
  let plain : Option (Int × Str) := some (0, toks.headD [])
  match lastPos [ch '['] toks, lastPos [ch ']'] toks with
  | some b, some e =>
    if e > b + 1 then
      match stoi (toks.getD (b + 1) []) with
      | none => none
      | some w => some (w, if b > 0 then toks.headD [] else if e + 1 < toks.length then toks.getD (e + 1) [] else [])
    else plain
  | _, _ => plain

/-- the loop of `parse` (`UserFormatter.cpp:51-97`, `SnapshotTextFormatter.cpp:36-91`) -/
def parsePieces : List Str → Option (List Fld)
  | [] => some []
  | [p] => some [⟨p, [], none, 0, false⟩]
  | p :: f :: rest =>
    match parseField f with
    | none => none
    | some (w, n) => (parsePieces rest).map fun fs => ⟨p, n, none, w, false⟩ :: fs

/-- `parse` -/
def parseFmt (s : Str) : Option (List Fld) := parsePieces (split (ch '%') [] s)

/-- what the formatters ask of the database -/
structure FDB where
  lookup : Str → Option Nat
  numeric : Nat → Bool

/-- `whitespace + (80 - w)` (`UserFormatter.cpp:139-147`) -/
def spaces (w : Nat) : Str := if w > 0 then (List.replicate 80 (ch ' ')).drop (80 - w) else []

variable (F : DblFmt)

/-- the values of an attribute on the path of a node (`UserFormatter.cpp:127-130`, `SnapshotTextFormatter.cpp:135-138`) -/
def pathText (a : Nat) (path : List (Nat × Val)) : Str :=
  path.foldl (fun s n => if n.1 = a then n.2.toStr F ++ (if s.isEmpty then [] else str "/") ++ s else s) []

/-- text of an entry (`UserFormatter.cpp:126-132`) -/
def entText (a : Nat) : QEnt → Str
  | .ref path => pathText F a path
  | .imm b v => if b = a then v.toStr F else []

/-- the loop over the entries (`UserFormatter.cpp:125-136`) -/
def userText (a : Nat) : List QEnt → Str
  | [] => []
  | e :: es => let s := entText F a e; if s.isEmpty then userText a es else s

/-- a width as `size_t` -/
def usize (w : Int) : Nat := (w % 2 ^ 64).toNat

/-- the value of a field (`UserFormatter.cpp:112-136`) -/
def userValue (D : FDB) (r : List QEnt) (n : Str) : Str :=
  match D.lookup n with
  | some a => userText F a r
  | none => []

/-- `print` in `UserFormatter` (`UserFormatter.cpp:107-157`): the line for a record -/
def userPrint (fs : List Fld) (D : FDB) (r : List QEnt) : Str :=
  (fs.flatMap fun f =>
    let s := userValue F D r f.name
    let w := if s.length < usize f.width then min (usize f.width - s.length) 80 else 0
    f.pre ++ s ++ spaces w) ++ str "\n"

/-- the output of a `UserFormatter` (`UserFormatter.cpp:100-105`, `160-177`): `title` and `format` arguments of the query; every record comes with the
database as it is at this time; `none` is an exception -/
def userOut (title format : Option Str) (recs : List (FDB × List QEnt)) : Option Str :=
  match format with
  | none => some ((match title with | some t => t ++ str "\n" | none => []) ++ recs.flatMap fun x => userPrint F [] x.1 x.2)
  | some f => (parseFmt f).map fun fs =>
    (match title with | some t => t ++ str "\n" | none => []) ++ recs.flatMap fun x => userPrint F fs x.1 x.2

/-- `Entry::count` (`Entry.cpp:15-28`) is not zero -/
def hasAttr (a : Nat) : QEnt → Bool
  | .ref path => path.any fun n => decide (n.1 = a)
  | .imm b _ => decide (b = a)

/-- is the attribute's type numeric (`SnapshotTextFormatter.cpp:114-119`) -/
def isNumeric (D : FDB) : Option Nat → Bool
  | some a => D.numeric a
  | none => false

/-- the value of a field (`SnapshotTextFormatter.cpp:124-142`) -/
def snapText (r : List QEnt) : Option Nat → Str
  | none => []
  | some a => match r.find? (hasAttr a) with
    | none => []
    | some (.ref path) => pathText F a path
    | some (.imm _ v) => v.toStr F

/-- one field in `print` of `SnapshotTextFormatter` (`SnapshotTextFormatter.cpp:107-158`): the field afterwards and the text -/
def snapField (D : FDB) (r : List QEnt) (f : Fld) : Fld × Str :=
  let f := if f.name.isEmpty then f else
    let a := D.lookup f.name
    { f with name := [], attr := a, right := isNumeric D a }
  let s := snapText F r f.attr
  let w := if (s.length : Int) < f.width then min (f.width - s.length).toNat 80 else 0
  (f, f.pre ++ if f.right then spaces w ++ s else s ++ spaces w)

/-- `print` (`SnapshotTextFormatter.cpp:93-167`) -/
def snapPrint (fs : List Fld) (D : FDB) (r : List QEnt) : List Fld × Str :=
  ((fs.map (snapField F D r)).map Prod.fst, (fs.map (snapField F D r)).flatMap Prod.snd)

/-- a sequence of calls of `print` -/
def snapRun (fs : List Fld) : List (FDB × List QEnt) → List Str
  | [] => []
  | x :: xs => (snapPrint F fs x.1 x.2).2 :: snapRun (snapPrint F fs x.1 x.2).1 xs

/-- the texts produced by a formatter with this format string; `none` is an exception in the constructor (`SnapshotTextFormatter.cpp:170-173`) -/
def snapOut (format : Str) (calls : List (FDB × List QEnt)) : Option (List Str) := (parseFmt format).map fun fs => snapRun F fs calls

/-- destination of an output stream -/
inductive Dest where
  | stdout | stderr | file (name : Str)
  deriving DecidableEq

/-- `OutputStream::set_filename` (`OutputStream.cpp:212-236`) -/
def setFilename (format : Str) (D : FDB) (r : List QEnt) : Option Dest :=
  if format = str "stdout" then some .stdout
  else if format = str "stderr" then some .stderr
  else (parseFmt format).map fun fs => .file (snapPrint F fs D r).2

end Verif.Query.FmtStr
