import Verif.Query.Expand
/-!
# Specification: the contents of the expand output
-/
namespace Verif.Query.Expand
open Verif Verif.Cali Verif.Query
open Verif.Query.Json (Str SelKind AInfo)

/-- Does the query show this attribute?  A SELECT list names the attributes shown, `path` stands for the nested ones; without a list all are shown. -/
def Shows (q : EQuery) (i : AInfo) : Prop := q.sel = .list → i.name ∈ q.selList ∨ (q.selPath = true ∧ i.nested = true)

instance (q : EQuery) (i : AInfo) : Decidable (Shows q i) := by unfold Shows; infer_instance

/-- a field: attribute and values -/
abbrev Fld := Nat × List Val

/-- The fields of an entry.  A value is one field, if it is shown.  A context tree entry has one field for each attribute shown that is in the path, the
highest attribute id first, with all values of the attribute in the path, the outer ones first. -/
inductive EntFields (q : EQuery) (info : Nat → AInfo) : QEnt → List Fld → Prop where
  | imm {a : Nat} {v : Val} : Shows q (info a) → EntFields q info (.imm a v) [(a, [v])]
  | immHidden {a : Nat} {v : Val} : ¬Shows q (info a) → EntFields q info (.imm a v) []
  | ref {path : List (Nat × Val)} {fs : List Fld} :
      fs.Pairwise (fun f g => f.1 > g.1) →
      (∀ a, (a ∈ fs.map Prod.fst ↔ Shows q (info a) ∧ a ∈ path.map Prod.fst)) →
      (∀ f ∈ fs, f.2 = ((path.filter fun x => x.1 = f.1).map Prod.snd).reverse) →
      EntFields q info (.ref path) fs

/-- the fields of a record: those of its entries, in order -/
inductive RecFields (q : EQuery) (info : Nat → AInfo) : List QEnt → List Fld → Prop where
  | nil : RecFields q info [] []
  | cons {e : QEnt} {es : List QEnt} {fs gs : List Fld} : EntFields q info e fs → RecFields q info es gs → RecFields q info (e :: es) (fs ++ gs)

/-- texts with a separator in between -/
def joined (sep : Byte) : List (List Byte) → List Byte
  | [] => []
  | [x] => x
  | x :: y :: l => x ++ sep :: joined sep (y :: l)

/-- title of an attribute: the alias, if there is one -/
def title (q : EQuery) (n : Str) : Str :=
  match q.alias_ n with
  | some a => a
  | none => n

/-- text of the values of a field -/
def valText (F : DblFmt) (f : Fld) : List Byte := joined (ch '/') (f.2.map (·.toStr F))

/-- text of a field: title=value/value/... -/
def fldText (F : DblFmt) (q : EQuery) (info : Nat → AInfo) (f : Fld) : List Byte := title q (info f.1).name ++ ch '=' :: valText F f

/-- the line for a record -/
def lineText (F : DblFmt) (q : EQuery) (info : Nat → AInfo) (fs : List Fld) : List Byte :=
  if fs = [] then [] else joined (ch ',') (fs.map (fldText F q info)) ++ [ch '\n']

/-! ## A reader -/

/-- pieces between separators -/
def pieces (sep : Byte) : List Byte → List (List Byte)
  | [] => [[]]
  | c :: cs => if c = sep then [] :: pieces sep cs else
    match pieces sep cs with
    | [] => [[c]]
    | p :: ps => (c :: p) :: ps

/-- read a line: fields at commas, title and value at the first equals sign -/
def readLine (l : List Byte) : List (Str × Str) :=
  (pieces (ch ',') l).map fun f => (f.takeWhile (· ≠ ch '='), (f.dropWhile (· ≠ ch '=')).tail)

/-- read the output: every line ends with a newline -/
def readExpand (t : List Byte) : List (List (Str × Str)) := ((pieces (ch '\n') t).dropLast).map readLine

/-- the texts can be told apart: no separators in titles and values -/
structure CleanFields (F : DblFmt) (q : EQuery) (info : Nat → AInfo) (fs : List Fld) : Prop where
  title : ∀ f ∈ fs, ch '=' ∉ title q (info f.1).name ∧ ch ',' ∉ title q (info f.1).name ∧ ch '\n' ∉ title q (info f.1).name
  value : ∀ f ∈ fs, ∀ v ∈ f.2, ch ',' ∉ v.toStr F ∧ ch '\n' ∉ v.toStr F

end Verif.Query.Expand
