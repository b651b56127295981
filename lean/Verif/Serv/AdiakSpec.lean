import Verif.Serv.Adiak
/-!
# What the import of Adiak values should give
-/
namespace Verif.Serv.Adiak
open Verif Verif.Cali

/-- what a value says -/
inductive Meaning where
  | number (i : Int)
  | double (x : BitVec 64)
  | text (s : Str)
  deriving DecidableEq, Repr

/-- what a Caliper value says (a terminating zero does not belong to a text, `Variant.cpp:69`) -/
def CVal.meaning : CVal → Meaning
  | .int x => .number x.toInt
  | .uint x => .number x.toNat
  | .double x => .double x
  | .string s => .text (if s.getLast? = some 0 then s.dropLast else s)

mutual
/-- the text of a value: decimal numbers, `a-b` for ranges, elements separated by commas and enclosed in brackets `[]` (sets), `{}` (lists), `()` (tuples) -/
def V.text (pd : BitVec 64 → Str) : V → Str
  | .long x | .longlong x | .date x => str (toString x.toInt)
  | .ulong x | .ulonglong x => str (toString x.toNat)
  | .int x => str (toString x.toInt)
  | .uint x => str (toString x.toNat)
  | .double x | .timeval x => pd x
  | .str s => s
  | .range a b => a.text pd ++ str "-" ++ b.text pd
  | .set l => str "[" ++ (str ",").intercalate (l.texts pd) ++ str "]"
  | .list l => str "{" ++ (str ",").intercalate (l.texts pd) ++ str "}"
  | .tuple l => str "(" ++ (str ",").intercalate (l.texts pd) ++ str ")"
  | .unset => []
  | .unknown => []
def Vs.texts (pd : BitVec 64 → Str) : Vs → List Str
  | .nil => []
  | .cons v l => v.text pd :: l.texts pd
end

/-- what an Adiak value says -/
def V.meaning (pd : BitVec 64 → Str) : V → Option Meaning
  | .long x => some (.number x.toInt)
  | .ulong x => some (.number x.toNat)
  | .int x => some (.number x.toInt)
  | .uint x => some (.number x.toNat)
  | .longlong x => some (.number x.toInt)
  | .ulonglong x => some (.number x.toNat)
  | .date x => some (.number x.toInt)
  | .double x => some (.double x)
  | .timeval x => some (.double x)
  | .str s => some (.text s)
  | .unset => none
  | .unknown => none
  | v => some (.text (v.text pd))

/-- the values that fit the types the import uses; strings end at their first zero -/
def V.Fits : V → Prop
  | .long x => -2 ^ 31 ≤ x.toInt ∧ x.toInt < 2 ^ 31
  | .uint x => x.toNat < 2 ^ 31
  | .date x => 0 ≤ x.toInt
  | .str s => (0 : Byte) ∉ s
  | .unset => False
  | .unknown => False
  | _ => True

/-- a registered value is to be imported -/
def Chosen (categories : List Nat) (r : Reg) : Prop := r.category ≠ control ∧ (all ∈ categories ∨ r.category ∈ categories)

/-! ## the text of containers -/

/-- integer types -/
inductive Kind where
  | long | ulong | int | uint | longlong | ulonglong | date
  deriving DecidableEq, Repr

mutual
/-- types of values: integers, strings, ranges of integers, sets, lists and tuples -/
inductive Ty where
  | scalar (k : Kind)
  | str
  | range (k : Kind)
  | set (t : Ty)
  | list (t : Ty)
  | tuple (ts : Tys)
inductive Tys where
  | nil
  | cons (t : Ty) (ts : Tys)
end

def V.HasKind : V → Kind → Prop
  | .long _, .long | .ulong _, .ulong | .int _, .int | .uint _, .uint | .longlong _, .longlong | .ulonglong _, .ulonglong | .date _, .date => True
  | _, _ => False

/-- characters that have a meaning in containers -/
def special : List Byte := [ch ',', ch '[', ch ']', ch '{', ch '}', ch '(', ch ')']

mutual
/-- a value has a type; strings are not empty and have no special characters -/
def V.HasTy : V → Ty → Prop
  | .str s, .str => s ≠ [] ∧ ∀ c ∈ s, c ∉ special
  | .range a b, .range k => a.HasKind k ∧ b.HasKind k
  | .set l, .set t => l.AllTy t
  | .list l, .list t => l.AllTy t
  | .tuple l, .tuple ts => l.HasTys ts
  | v, .scalar k => v.HasKind k
  | _, _ => False
def Vs.AllTy : Vs → Ty → Prop
  | .nil, _ => True
  | .cons v l, t => v.HasTy t ∧ l.AllTy t
def Vs.HasTys : Vs → Tys → Prop
  | .nil, .nil => True
  | .cons v l, .cons t ts => v.HasTy t ∧ l.HasTys ts
  | _, _ => False
end

end Verif.Serv.Adiak
