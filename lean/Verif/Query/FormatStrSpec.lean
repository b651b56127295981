import Verif.Query.FormatStr
import Verif.Query.ExpandSpec
/-!
# Specification: format strings
-/
namespace Verif.Query.FmtStr
open Verif Verif.Cali Verif.Query
open Verif.Query.Json (Str)
open Verif.Query.Expand (joined)

/-- alignment letters -/
inductive Align where
  | left | right | center
  deriving DecidableEq

def Align.letter : Align → Str
  | .left => str "l"
  | .right => str "r"
  | .center => str "c"

/-- where the width is written: not at all, before the name, after the name -/
inductive WidthAt where
  | no
  | front (w : Nat) (al : Option Align)
  | back (w : Nat) (al : Option Align)

/-- decimal notation of a width, with the alignment letter -/
def widthText (w : Nat) (al : Option Align) : Str :=
  digitsLoop 10 w [] ++ (match al with
    | some a => a.letter
    | none => [])

/-- a place for a value: the text before it, its name and its width -/
structure Place where
  before : Str
  name : Str
  width : WidthAt

def Place.w (p : Place) : Nat :=
  match p.width with
  | .no => 0
  | .front w _ => w
  | .back w _ => w

def Place.align (p : Place) : Option Align :=
  match p.width with
  | .no => none
  | .front _ al => al
  | .back _ al => al

/-- what is written between the percent signs -/
def fieldText (p : Place) : Str :=
  match p.width with
  | .no => p.name
  | .front w al => ch '[' :: (widthText w al ++ ch ']' :: p.name)
  | .back w al => p.name ++ ch '[' :: (widthText w al ++ [ch ']'])

/-- how a place is written: `text%name%`, `text%[w]name%`, `text%name[w]%` -/
def Place.text (p : Place) : Str := p.before ++ ch '%' :: (fieldText p ++ [ch '%'])

/-- a format: places and the text after them -/
structure Fmt where
  places : List Place
  tail : Str

def Fmt.text (f : Fmt) : Str := f.places.flatMap Place.text ++ f.tail

/-- the format can be written: no percent signs in texts and names, no brackets in names, no empty names, widths up to 80 characters -/
structure Fmt.Ok (f : Fmt) : Prop where
  before : ∀ p ∈ f.places, ch '%' ∉ p.before
  tail : ch '%' ∉ f.tail
  name : ∀ p ∈ f.places, p.name ≠ [] ∧ ch '%' ∉ p.name ∧ ch '[' ∉ p.name ∧ ch ']' ∉ p.name
  width : ∀ p ∈ f.places, p.w ≤ 80

/-- the values of an attribute in an entry, the outer ones first -/
def entryVals (a : Nat) : QEnt → List Val
  | .imm b v => if b = a then [v] else []
  | .ref path => ((path.filter fun x => x.1 = a).map Prod.snd).reverse

/-- the text for an attribute in a record: the values in the first entry that has the attribute -/
def valueText (F : DblFmt) (r : List QEnt) (a : Nat) : Str :=
  match r.find? fun e => decide (entryVals a e ≠ []) with
  | some e => joined (ch '/') ((entryVals a e).map (·.toStr F))
  | none => []

/-- the text for a name: nothing if there is no such attribute -/
def nameText (F : DblFmt) (D : FDB) (r : List QEnt) (n : Str) : Str :=
  match D.lookup n with
  | some a => valueText F r a
  | none => []

/-- filled up to the width -/
def pad (right : Bool) (w : Nat) (s : Str) : Str :=
  if right then List.replicate (w - s.length) (ch ' ') ++ s else s ++ List.replicate (w - s.length) (ch ' ')

/-- the texts of all values are not empty -/
def NoEmptyValues (F : DblFmt) (r : List QEnt) : Prop := ∀ e ∈ r, ∀ a, ∀ v ∈ entryVals a e, v.toStr F ≠ []

/-- is the value at a place aligned to the right?  The letter says so, or the attribute. -/
def Place.side (right : Nat → Bool) (D : FDB) (p : Place) : Bool :=
  match p.align with
  | some a => decide (a = .right)
  | none => match D.lookup p.name with
    | some a => right a
    | none => false

/-- the text for a record; `right` tells which attributes are aligned to the right when there is no letter -/
def Fmt.fill (F : DblFmt) (right : Nat → Bool) (f : Fmt) (D : FDB) (r : List QEnt) : Str :=
  (f.places.flatMap fun p =>
    p.before ++ pad (p.side right D) p.w (nameText F D r p.name)) ++ f.tail

end Verif.Query.FmtStr
