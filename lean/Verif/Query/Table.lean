import Verif.Query.Pad
import Verif.Query.Select
import Verif.Query.Json
import Verif.Util.StableSort
/-!
# The table formatter

Model of `/repo/src/reader/TableFormatter.cpp`.

Simplified: attributes are identified by their ids; `db.get_attribute` does not change during the run (an attribute not yet in the database does
not occur in any record before); records are added one after another (the code protects the columns and the rows with two locks); C++ `int` widths
do not overflow; the option `print-globals` is off; a sort order is ascending or descending.
-/
namespace Verif.Query.Table
open Verif Verif.Cali Verif.Query Verif.Query.Fmt Verif.Util
open Verif.Query.Json (AInfo)

/-- `Column` (`TableFormatter.cpp:28-49`); `order` is the sort order, true for ascending, none for a column that is not a sort column -/
structure Col where
  name : Str
  disp : Str
  width : Nat
  attr : Option Nat
  print : Bool
  order : Option Bool

/-- query settings and database -/
structure BCfg where
  /-- attributes of the metadata database -/
  info : Nat → Option AInfo
  /-- look-up by name -/
  byName : Str → Option Nat
  /-- `m_aliases`: aliases from the query -/
  aliases : Str → Option Str
  /-- `attribute.alias` of an attribute -/
  attrAlias : Nat → Option Str
  maxWidth : Nat
  dbl : DblFmt
  dcmp : U64 → U64 → Int
  /-- `SELECT`: none for default and `*` (automatic columns), or the list of names -/
  select : Option (List Str)
  /-- `ORDER BY`: names, with "ascending" -/
  sort : List (Str × Bool)

structure BState where
  cols : List Col
  rows : List (List Str)

/-- `configure` (`TableFormatter.cpp:70-134`) -/
def BCfg.init (C : BCfg) : BState :=
  ⟨C.sort.map (fun s => ⟨s.1, s.1, s.1.length, none, false, some s.2⟩) ++
    (match C.select with
      | none => []
      | some l => l.map fun n => let al := (C.aliases n).getD n; ⟨n, al, al.length, none, true, none⟩), []⟩

/-- `update_column_attribute` (`TableFormatter.cpp:136-166`) -/
def BCfg.updColAttr (C : BCfg) (cols : List Col) (a : Nat) : List Col :=
  if cols.any fun c => c.order.isNone && decide (c.attr = some a) then cols
  else match C.info a with
    | none => cols
    | some ai =>
      if ai.hidden || ai.isGlobal then cols
      else
        let al := match C.aliases ai.name with
          | some s => s
          | none => (C.attrAlias a).getD ai.name
        cols ++ [⟨ai.name, al, al.length, some a, true, none⟩]

/-- new columns for one entry (`TableFormatter.cpp:176-182`) -/
def BCfg.updEntry (C : BCfg) (cs : List Col) : QEnt → List Col
  | .ref path => path.foldl (fun cs p => C.updColAttr cs p.1) cs
  | .imm a _ => C.updColAttr cs a

/-- look up the attribute of a column by name (`TableFormatter.cpp:186-188`) -/
def BCfg.resolve (C : BCfg) (c : Col) : Col :=
  ⟨c.name, c.disp, c.width, if c.attr.isNone then C.byName c.name else c.attr, c.print, c.order⟩

/-- `update_columns` (`TableFormatter.cpp:168-191`) -/
def BCfg.updCols (C : BCfg) (cols : List Col) (rec : List QEnt) : List Col :=
  (if C.select.isNone then rec.foldl C.updEntry cols else cols).map C.resolve

/-- the text of a reference entry (`TableFormatter.cpp:209-213`), from the node to the root -/
def refText (F : DblFmt) (a : Nat) (path : List (Nat × Val)) : Str :=
  path.foldl (fun s p => if p.1 = a then p.2.toStr F ++ ((if s = [] then [] else [ch '/']) ++ s) else s) []

/-- the loop over the entries (`TableFormatter.cpp:207-223`) -/
def cellVal (F : DblFmt) (a : Nat) : List QEnt → Str
  | [] => []
  | .ref path :: es => if refText F a path ≠ [] then refText F a path else cellVal F a es
  | .imm b v :: es => if b = a then v.toStr F else cellVal F a es

/-- one cell of a row (`TableFormatter.cpp:202-227`) -/
def rowCell (F : DblFmt) (rec : List QEnt) (c : Col) : Str :=
  match c.attr with
  | none => []
  | some a => cellVal F a rec

/-- widen a column (`TableFormatter.cpp:229-234`, `244-250`) -/
def Col.widen (c : Col) (n : Nat) : Col := ⟨c.name, c.disp, max c.width n, c.attr, c.print, c.order⟩

/-- `add` (`TableFormatter.cpp:193-251`) -/
def BCfg.add (C : BCfg) (s : BState) (rec : List QEnt) : BState :=
  let cols := C.updCols s.cols rec
  let row := cols.map (rowCell C.dbl rec)
  ⟨cols.map fun c => c.widen (rowCell C.dbl rec c).length,
   if row.any fun v => v ≠ [] then s.rows ++ [row] else s.rows⟩

def BCfg.build (C : BCfg) (recs : List (List QEnt)) : BState := recs.foldl C.add C.init

/-- the type of a column's attribute -/
def BCfg.ctype (C : BCfg) (c : Col) : AttrType :=
  match c.attr with
  | none => .inv
  | some a => ((C.info a).map AInfo.ty).getD .inv

/-- comparators of the sorts (`TableFormatter.cpp:265-270`, `275-281`): column `c` with attribute type `t` -/
def BCfg.rowLt (C : BCfg) (c : Nat) (t : AttrType) (asc : Bool) (l r : List Str) : Bool :=
  match l[c]?, r[c]? with
  | some x, some y =>
    if asc then decide (cmpVal C.dcmp (fromString C.dbl t x) (fromString C.dbl t y) < 0)
    else decide (0 < cmpVal C.dcmp (fromString C.dbl t x) (fromString C.dbl t y))
  | _, _ => if asc then decide (l.length < r.length) else decide (l.length > r.length)

/-- comparators of the sort columns, in column order (`TableFormatter.cpp:260-282`) -/
def BCfg.sortKeys (C : BCfg) : Nat → List Col → List (List Str → List Str → Bool)
  | _, [] => []
  | i, c :: cs => (match c.order with
      | some asc => [C.rowLt i (C.ctype c) asc]
      | none => []) ++ sortKeys C (i + 1) cs

/-- one header cell (`TableFormatter.cpp:286-290`) -/
def BCfg.headCell (C : BCfg) (c : Col) : Str :=
  if c.print then padRight (clampStr c.disp (colWidth C.maxWidth c.width)) (colWidth C.maxWidth c.width) else []

/-- numbers are right-aligned (`TableFormatter.cpp:303-304`) -/
def alignRight (t : AttrType) : Bool := decide (t = .int ∨ t = .uint ∨ t = .double)

/-- one cell (`TableFormatter.cpp:297-310`) -/
def BCfg.printCell (C : BCfg) (p : Col × Str) : Str :=
  if p.1.print then
    let w := colWidth C.maxWidth p.1.width
    let s := clampStr p.2 w
    if alignRight (C.ctype p.1) then padLeft s w else padRight s w
  else []

/-- `flush` (`TableFormatter.cpp:253-314`) -/
def BCfg.flush (C : BCfg) (S : Sorter) (s : BState) : Str :=
  s.cols.flatMap C.headCell ++ (ch '\n' ::
    (sortAll S (C.sortKeys 0 s.cols) s.rows).flatMap fun row => (s.cols.zip row).flatMap C.printCell ++ [ch '\n'])

end Verif.Query.Table
