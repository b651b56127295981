import Verif.Query.SnapTree
/-!
# Specification of the tree output (C62-C64)

What the printed tree is supposed to say, independently of the tree that is built to print it.
-/
namespace Verif.Query.Tree
open Verif Verif.Cali Verif.Query Verif.Query.Fmt Verif.Util
open Verif.Query.Json (AInfo)

/-- the (attribute, value) pairs of a record; a reference contributes its node and all ancestors of it, node first -/
def pairs (rec : List QEnt) : List (Nat × Val) :=
  rec.flatMap fun
    | .imm a v => [(a, v)]
    | .ref path => path

/-- is this a path entry: an entry of a nested attribute, or of one of the attributes the user named -/
def PathEntry (C : TCfg) (p : Nat × Val) : Bool :=
  match C.info p.1 with
  | some ai => C.isPath ai
  | none => false

/-- an entry that is no path entry, of an attribute the database knows -/
def DataEntry (C : TCfg) (p : Nat × Val) : Bool :=
  match C.info p.1 with
  | some ai => !C.isPath ai
  | none => false

/-- the first pair of each attribute -/
def firsts : List (Nat × Val) → List (Nat × Val)
  | [] => []
  | p :: ps => p :: (firsts ps).filter fun q => q.1 ≠ p.1

/-- the path of a record, outermost region first -/
def recPath (C : TCfg) (rec : List QEnt) : List Lbl := ((pairs rec).filter (PathEntry C)).reverse

/-- the data of a record -/
def recData (C : TCfg) (rec : List QEnt) : Rec := firsts ((pairs rec).filter (DataEntry C))

/-- one line of the output: an indentation level, a label (lines for further records of a node have none), and possibly a record -/
structure TRow where
  level : Nat
  label : Option Lbl
  data : Option Rec

/-- the text of a line -/
def TCfg.renderRow (C : TCfg) (cs : Cols) (pw : Nat) (attrs : List Nat) (r : TRow) : Str :=
  (match r.label with
    | some l => pathCell pw r.level (clampStr (l.2.toStr C.dbl))
    | none => pathCell pw r.level fun _ => str " |-") ++
  ((match r.data with
    | some d => attrs.flatMap (C.cell cs d)
    | none => []) ++ [ch '\n'])

/-- how a reader understands the lines: a label at level `n` replaces everything from level `n` on in the current path; the data of a line
belongs to the current path -/
def readRows : List Lbl → List TRow → List (List Lbl × Rec)
  | _, [] => []
  | cur, r :: rs =>
    let cur' := match r.label with
      | some l => cur.take r.level ++ [l]
      | none => cur
    (match r.data with
      | some d => [(cur', d)]
      | none => []) ++ readRows cur' rs

/-- the paths of the labelled lines, in order -/
def readPaths : List Lbl → List TRow → List (List Lbl)
  | _, [] => []
  | cur, r :: rs =>
    match r.label with
    | some l => (cur.take r.level ++ [l]) :: readPaths (cur.take r.level ++ [l]) rs
    | none => readPaths cur rs

/-- the levels of the labelled lines -/
def labelLevels (rows : List TRow) : List Nat := rows.filterMap fun r => r.label.map fun _ => r.level

/-- the header line (`TreeFormatter.cpp:374-384`) -/
def TCfg.header (C : TCfg) (s : TState) : Str :=
  padRight (clampStr (str "Path") (C.pathWidth s)) (C.pathWidth s) ++
    ((C.attrs s.cols).flatMap (fun a => padRight (clampStr (C.dispName s.cols a) (colWidth C.maxWidth (colBase s.cols a))) (colWidth C.maxWidth (colBase s.cols a))) ++
      [ch '\n'])

end Verif.Query.Tree

namespace Verif.Query.Tree
open Verif Verif.Cali Verif.Query Verif.Query.Fmt Verif.Util

/-! ### columns (C64) -/

/-- a text in a column of the given width, followed by a blank -/
def field (right : Bool) (s : Str) (w : Nat) : Str :=
  if right then List.replicate (w - s.length) (ch ' ') ++ (s ++ [ch ' ']) else s ++ List.replicate (w + 1 - s.length) (ch ' ')

/-- the value of an attribute in a record, as text; nothing if the record has none -/
def TCfg.valueText (C : TCfg) (d : Rec) (a : Nat) : Str :=
  match d.find? fun p => decide (p.1 = a) with
  | some p => p.2.toStr C.dbl
  | none => []

/-- numbers are printed right-aligned -/
def TCfg.numeric (C : TCfg) (a : Nat) : Bool :=
  match C.info a with
  | some ai => decide (ai.ty = .int ∨ ai.ty = .uint ∨ ai.ty = .double ∨ ai.ty = .addr)
  | none => false

/-- the first field of a line: two blanks per level, then the label, or the mark of a further record -/
def TCfg.rowText (C : TCfg) (r : TRow) : Str :=
  List.replicate (2 * r.level) (ch ' ') ++
    match r.label with
    | some l => l.2.toStr C.dbl
    | none => str " |-"

/-- a line in full: the first field in a column of width `pw`, and the values in columns of widths `w` -/
def TCfg.fullLine (C : TCfg) (pw : Nat) (w : Nat → Nat) (attrs : List Nat) (r : TRow) : Str :=
  field false (C.rowText r) pw ++
    ((match r.data with
      | some d => attrs.flatMap fun a => field (C.numeric a) (C.valueText d a) (w a)
      | none => []) ++ [ch '\n'])

/-- no text is longer than the maximal column width (0: no maximum) -/
def Fits (C : TCfg) (recs : List (List QEnt)) : Prop :=
  C.maxWidth = 0 ∨ ∀ rec ∈ recs, (∀ p ∈ recData C rec, (p.2.toStr C.dbl).length ≤ C.maxWidth ∧ (C.disp p.1).length ≤ C.maxWidth) ∧
    ∀ i l, (recPath C rec)[i]? = some l → 2 * i + (l.2.toStr C.dbl).length ≤ C.maxWidth

end Verif.Query.Tree

namespace Verif.Query.Tree
open Verif Verif.Cali Verif.Query Verif.Query.Fmt Verif.Util

/-! ### ORDER BY (C63) -/

/-- the value of an attribute in a record -/
def dataVal (key : Nat) (d : Rec) : Val := ((d.find? fun p => decide (p.1 = key)).map Prod.snd).getD .inv

/-- the values of an attribute in the records at or below a path -/
def valuesUnder (C : TCfg) (recs : List (List QEnt)) (key : Nat) (p : List Lbl) : List Val :=
  (recs.filter fun r => p.isPrefixOf (recPath C r)).map fun r => dataVal key (recData C r)

/-- the comparison of values is a strict weak order on these values, and `>` is the converse of `<` -/
structure GoodOrder (dcmp : U64 → U64 → Int) (vs : List Val) : Prop where
  swo : SWO (vlt dcmp) vs
  conv : ∀ a ∈ vs, ∀ b ∈ vs, vgt dcmp a b = vlt dcmp b a

/-- `v` is a smallest (`asc`) or largest of the values -/
def IsExt (dcmp : U64 → U64 → Int) (asc : Bool) (vs : List Val) (v : Val) : Prop :=
  v ∈ vs ∧ ∀ w ∈ vs, (if asc then vlt dcmp w v else vlt dcmp v w) = false

/-- "comes before" for the values of one sort key -/
def keyLt (dcmp : U64 → U64 → Int) (asc : Bool) (a b : Val) : Bool := if asc then vlt dcmp a b else vlt dcmp b a

/-- the two paths have the same parent -/
def Siblings (p q : List Lbl) : Prop := p ≠ [] ∧ q ≠ [] ∧ p.dropLast = q.dropLast

/-- sort keys as comparisons of paths, most significant (the last one listed) first; `m` gives the value of a path under a key -/
def pathKeys (dcmp : U64 → U64 → Int) (keys : List (Nat × Bool)) (m : Nat × Bool → List Lbl → Val) : List (List Lbl → List Lbl → Bool) :=
  keys.reverse.map fun k p q => keyLt dcmp k.2 (m k p) (m k q)

/-- sort keys as comparisons of records, most significant (the last one listed) first -/
def recKeys (dcmp : U64 → U64 → Int) (keys : List (Nat × Bool)) : List (Rec → Rec → Bool) :=
  keys.reverse.map fun k d d' => keyLt dcmp k.2 (dataVal k.1 d) (dataVal k.1 d')

end Verif.Query.Tree
