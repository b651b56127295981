import Verif.Cali.Text
/-!
# Import of Adiak values

Model of `/repo/src/services/adiak/AdiakImport.cpp`.  The Adiak library is not part of the repository: its list of values is given, and `adiak_list_namevals` calls back for the values of a category, or for all of
them if the category is `adiak_category_all`, in the order of the list.  Floating-point values are bit patterns; their decimal text is a parameter.  A `timeval` is given by the `double` the code makes of it.
-/
namespace Verif.Serv.Adiak
open Verif Verif.Cali

abbrev Str := List Byte

mutual
/-- Adiak values with their types (`adiak_datatype_t`, `adiak_value_t`); strings, versions, paths and catstrings are all `str` -/
inductive V where
  | long (x : BitVec 64)
  | ulong (x : BitVec 64)
  | int (x : BitVec 32)
  | uint (x : BitVec 32)
  | longlong (x : BitVec 64)
  | ulonglong (x : BitVec 64)
  | date (x : BitVec 64)
  | double (x : BitVec 64)
  | timeval (x : BitVec 64)
  | str (s : Str)
  | range (a b : V)
  | set (l : Vs)
  | list (l : Vs)
  | tuple (l : Vs)
  | unset
  | unknown
/-- lists of values -/
inductive Vs where
  | nil
  | cons (v : V) (l : Vs)
end

/-- `os << n` for unsigned and signed integers -/
def showNat (n : Nat) : Str := digitsLoop 10 n []
def showInt (i : Int) : Str := if i < 0 then ch '-' :: showNat i.natAbs else showNat i.natAbs

mutual
/-- `recursive_unpack` (`AdiakImport.cpp:30-130`); `pd` prints a `double` -/
def unpack (pd : BitVec 64 → Str) : V → Str
  | .long x => showInt x.toInt
  | .date x => showInt x.toInt
  | .ulong x => showNat x.toNat
  | .int x => showInt x.toInt
  | .uint x => showNat x.toNat
  | .longlong x => showInt x.toInt
  | .ulonglong x => showNat x.toNat
  | .double x => pd x
  | .timeval x => pd x
  | .str s => s
  | .range a b => unpack pd a ++ ch '-' :: unpack pd b
  | .set l => ch '[' :: (unpackList pd l ++ [ch ']'])
  | .list l => ch '{' :: (unpackList pd l ++ [ch '}'])
  | .tuple l => ch '(' :: (unpackList pd l ++ [ch ')'])
  | .unset => []
  | .unknown => []
/-- the loops over the elements, with commas between them -/
def unpackList (pd : BitVec 64 → Str) : Vs → Str
  | .nil => []
  | .cons v .nil => unpack pd v
  | .cons v (.cons w l) => unpack pd v ++ ch ',' :: unpackList pd (.cons w l)
end

/-- types of Caliper values that occur here -/
inductive CTy where
  | int | uint | double | string
  deriving DecidableEq, Repr

/-- a Caliper value (`Variant`) -/
inductive CVal where
  | int (x : BitVec 64)
  | uint (x : BitVec 64)
  | double (x : BitVec 64)
  | string (s : Str)
  deriving DecidableEq, Repr

def CVal.ty : CVal → CTy
  | .int _ => .int | .uint _ => .uint | .double _ => .double | .string _ => .string

/-- the variant `nameval_cb` makes (`AdiakImport.cpp:193-264`); a `long` is cast to `int`, an `unsigned` is read as `int` and converted to `uint64_t`, the text of a container has its terminating zero -/
def variant (pd : BitVec 64 → Str) : V → Option CVal
  | .long x => some (.int ((x.truncate 32).signExtend 64))
  | .int x => some (.int (x.signExtend 64))
  | .ulong x => some (.uint x)
  | .longlong x => some (.int x)
  | .ulonglong x => some (.uint x)
  | .uint x => some (.uint (x.signExtend 64))
  | .double x => some (.double x)
  | .date x => some (.uint x)
  | .timeval x => some (.double x)
  | .str s => some (.string s)
  | .range a b => some (.string (unpack pd (.range a b) ++ [0]))
  | .set l => some (.string (unpack pd (.set l) ++ [0]))
  | .list l => some (.string (unpack pd (.list l) ++ [0]))
  | .tuple l => some (.string (unpack pd (.tuple l) ++ [0]))
  | .unset => none
  | .unknown => none

/-- what the import works on: the types of the (global) attributes by name, the channel's globals, and the flag that switches off the annotations of the flushing thread (`Caliper.cpp:984`, `:1006`) -/
structure St where
  types : Str → Option CTy
  globals : Str → Option CVal
  error : Bool

def updS {β : Type} (f : Str → Option β) (n : Str) (v : β) : Str → Option β := fun x => if x = n then some v else f x

/-- `adiak_control` -/
def control : Nat := 4
/-- `adiak_category_all` -/
def all : Nat := 1

/-- `nameval_cb` (`AdiakImport.cpp:163-268`) with `set_val` (`:132-156`): an attribute of the name is made unless it exists, and the value is set on the channel's blackboard.  For an unset value `Caliper::end` is called for the attribute, which looks for it
on the thread's blackboard (`Caliper.cpp:982-1008`), where these values never are -/
def nameval (pd : BitVec 64 → Str) (s : St) (name : Str) (category : Nat) (v : V) : St :=
  if category = control then s
  else match v with
  | .unset => if (s.types name).isSome then { s with error := true } else s
  | v => match variant pd v with
    | some x => { s with types := (if (s.types name).isSome then s.types else updS s.types name x.ty), globals := updS s.globals name x }
    | none => s

/-- a registered value -/
structure Reg where
  name : Str
  category : Nat
  value : V

/-- the `pre_flush` callback (`AdiakImport.cpp:306-314`) -/
def preFlush (pd : BitVec 64 → Str) (categories : List Nat) (rs : List Reg) (s : St) : St :=
  categories.foldl (fun s c => (rs.filter fun r => decide (c = all ∨ r.category = c)).foldl (fun s r => nameval pd s r.name r.category r.value) s) s

end Verif.Serv.Adiak
