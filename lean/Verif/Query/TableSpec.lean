import Verif.Query.Table
import Verif.Query.SnapTreeSpec
/-!
# Specification of the table output (C63-C65)
-/
namespace Verif.Query.Table
open Verif Verif.Cali Verif.Query Verif.Query.Fmt Verif.Util
open Verif.Query.Json (AInfo)

/-- texts separated by slashes -/
def slashed : List Str → Str
  | [] => []
  | [s] => s
  | s :: ss => s ++ (ch '/' :: slashed ss)

/-- what a record's entry says about an attribute: the value of an immediate entry; for a reference the values of the attribute from the root to
the node, separated by slashes (empty ones at the end left out), if that is not empty -/
def entryText (F : DblFmt) (a : Nat) : QEnt → Option Str
  | .imm b v => if b = a then some (v.toStr F) else none
  | .ref path =>
    let vs := ((path.filter fun p => p.1 = a).map fun p => p.2.toStr F).dropWhile (fun s => s = [])
    if slashed vs.reverse = [] then none else some (slashed vs.reverse)

/-- the value of an attribute in a record: what the first entry with a value says -/
def valueText (F : DblFmt) (rec : List QEnt) (a : Option Nat) : Str :=
  match a with
  | none => []
  | some a => (rec.findSome? (entryText F a)).getD []

/-- first occurrences -/
def firstOcc : List Nat → List Nat
  | [] => []
  | a :: l => a :: (firstOcc l).filter fun b => b ≠ a

/-- the attributes of a record -/
def recAttrs (rec : List QEnt) : List Nat := (Tree.pairs rec).map Prod.fst

/-- known, not hidden and not global -/
def BCfg.visible (C : BCfg) (a : Nat) : Bool :=
  match C.info a with
  | some ai => !ai.hidden && !ai.isGlobal
  | none => false

/-- column title of an attribute: the alias from the query, the alias of the attribute, or its name -/
def BCfg.title (C : BCfg) (a : Nat) : Str :=
  let name := ((C.info a).map AInfo.name).getD []
  (C.aliases name).getD ((C.attrAlias a).getD name)

/-- the columns that are shown, with title and attribute: those selected, in the order of the list; without selection the visible attributes in the
order in which they occur first -/
def BCfg.shown (C : BCfg) (recs : List (List QEnt)) : List (Str × Option Nat) :=
  match C.select with
  | some l => l.map fun n => ((C.aliases n).getD n, C.byName n)
  | none => (firstOcc ((recs.flatMap recAttrs).filter C.visible)).map fun a => (C.title a, some a)

/-- does the record have a value in a shown column or in a sort column -/
def BCfg.hasValue (C : BCfg) (recs : List (List QEnt)) (rec : List QEnt) : Bool :=
  (C.sort.map fun k => C.byName k.1).any (fun a => valueText C.dbl rec a ≠ []) ||
    (C.shown recs).any fun c => valueText C.dbl rec c.2 ≠ []

/-- type of an attribute -/
def BCfg.typeOf (C : BCfg) (a : Option Nat) : AttrType := ((a.bind C.info).map AInfo.ty).getD .inv

/-- numbers are right-aligned -/
def BCfg.numeric (C : BCfg) (a : Option Nat) : Bool := decide (C.typeOf a = .int ∨ C.typeOf a = .uint ∨ C.typeOf a = .double)

/-- the title line -/
def titleLine (cols : List ((Str × Option Nat) × Nat)) : Str :=
  cols.flatMap (fun c => Tree.field false (clampStr c.1.1 c.2) c.2) ++ [ch '\n']

/-- the line of a record: its values in the first `k` columns -/
def BCfg.line (C : BCfg) (cols : List ((Str × Option Nat) × Nat)) (r : List QEnt × Nat) : Str :=
  (cols.take r.2).flatMap (fun c => Tree.field (C.numeric c.1.2) (clampStr (valueText C.dbl r.1 c.1.2) c.2) c.2) ++ [ch '\n']

/-- the value by which a record is sorted: its text read as a value of the attribute's type -/
def BCfg.sortVal (C : BCfg) (name : Str) (rec : List QEnt) : Val :=
  fromString C.dbl (C.typeOf (C.byName name)) (valueText C.dbl rec (C.byName name))

/-- sort keys as comparisons of records, most significant (the last one listed) first -/
def BCfg.keys (C : BCfg) : List (List QEnt → List QEnt → Bool) :=
  C.sort.reverse.map fun k r r' => Tree.keyLt C.dcmp k.2 (C.sortVal k.1 r) (C.sortVal k.1 r')

end Verif.Query.Table
