import Verif.Query.Agg
import Verif.Variant.Lemmas2
/-!
# WHERE filters

Model of `/repo/src/reader/RecordSelector.cpp` and of the comparison of values by type and contents
(`cali_variant_eq`, `cali_variant_compare`, `/repo/src/common/cali_variant.c:447-525`; the memory-level model is in
`Verif.Variant.Model`).
-/
namespace Verif.Query
open Verif Verif.Cali

/-- `cali_variant_compare` (`cali_variant.c:447-499`) on values; `dcmp` is the comparison of doubles.  An empty variant has
value word 0. -/
def cmpVal (dcmp : U64 → U64 → Int) (l r : Val) : Int :=
  match l, r with
  | .inv, .inv => 0
  | .usr a, .usr b =>
    let ls := toCInt (BitVec.ofNat 64 a.length)
    let rs := toCInt (BitVec.ofNat 64 b.length)
    let n := (min ls rs).toNat
    let c := memcmpSign (a.take n) (b.take n)
    if c ≠ 0 then c else ls - rs
  | .string a, .string b =>
    let ls := toCInt (BitVec.ofNat 64 a.length)
    let rs := toCInt (BitVec.ofNat 64 b.length)
    let n := (min ls rs).toNat
    let c := strncmpSign (a.take n) (b.take n)
    if c ≠ 0 then c else ls - rs
  | .int a, .int b => toCInt (a - b)
  | .addr a, .addr b | .uint a, .uint b =>
    let diff := a - b
    if diff = 0 then 0 else if diff > a then -1 else 1
  | .double a, .double b => dcmp a b
  | .bool a, .bool b => (if a then 1 else 0) - (if b then 1 else 0)
  | .type a, .type b => (a.code : Int) - b.code
  | .ptr a, .ptr b => toCInt (a - b)
  | l, r => (l.ty.code : Int) - r.ty.code

/-- `QuerySpec::Condition::Op` (`QuerySpec.h:77`) -/
inductive COp where
  | none | exist | notExist | equal | notEqual | less | greater | lessEq | greaterEq
  deriving DecidableEq, Repr

/-- `QuerySpec::Condition` (`QuerySpec.h:76-86`) -/
structure Cond where
  op : COp
  name : List Byte
  value : List Byte
  deriving DecidableEq, Repr

/-- the environment: `db.get_attribute(name)` (id and type of a known attribute), comparison and parsing of doubles -/
structure SelEnv where
  attr : List Byte → Option (Nat × AttrType)
  dcmp : U64 → U64 → Int
  F : DblFmt

/-- `Clause` (`RecordSelector.cpp:89-93`) -/
structure Clause where
  op : COp
  attr : Nat
  value : Val

/-- `make_clause` (`RecordSelector.cpp:111-119`); the id of an invalid attribute is `CALI_INV_ID` -/
def SelEnv.clause (E : SelEnv) (f : Cond) : Clause :=
  match E.attr f.name with
  | some (id, t) => ⟨f.op, id, fromString E.F t f.value⟩
  | none => ⟨f.op, invN, .inv⟩

/-- `have_match` (`RecordSelector.cpp:121-133`).  An empty entry (`ref []`) is not a reference: its attribute is
`CALI_INV_ID`. -/
def haveMatch (m : Nat → Val → Bool) : QEnt → Bool
  | .ref [] => m invN .inv
  | .ref p => p.any fun x => m x.1 x.2
  | .imm a v => m a v

/-- the loop "for all entries, if have_match then m = true" -/
def anyMatch (m : Nat → Val → Bool) (rec : List QEnt) : Bool := rec.foldl (fun b e => if haveMatch m e then true else b) false

/-- one filter in the loop of `pass` (`RecordSelector.cpp:137-241`) -/
def SelEnv.passOne (E : SelEnv) (c : Clause) (rec : List QEnt) : Bool :=
  match c.op with
  | .exist => anyMatch (fun a _ => a == c.attr) rec
  | .notExist => !(anyMatch (fun a _ => a == c.attr) rec)
  | .equal => anyMatch (fun a v => a == c.attr && decide (v = c.value)) rec
  | .notEqual => !(anyMatch (fun a v => a == c.attr && decide (v = c.value)) rec)
  | .less => anyMatch (fun a v => a == c.attr && decide (cmpVal E.dcmp v c.value < 0)) rec
  | .greater => anyMatch (fun a v => a == c.attr && decide (0 < cmpVal E.dcmp v c.value)) rec
  | .lessEq => anyMatch (fun a v => a == c.attr && (decide (cmpVal E.dcmp v c.value < 0) || decide (v = c.value))) rec
  | .greaterEq => anyMatch (fun a v => a == c.attr && (decide (0 < cmpVal E.dcmp v c.value) || decide (v = c.value))) rec
  | .none => true

/-- `pass` (`RecordSelector.cpp:135-245`): the first filter that does not hold ends the loop -/
def SelEnv.pass (E : SelEnv) : List Cond → List QEnt → Bool
  | [], _ => true
  | f :: fs, rec => if E.passOne (E.clause f) rec then E.pass fs rec else false

/-- `RecordSelector::operator()` over a stream of records (`RecordSelector.cpp:263-268`) -/
def SelEnv.select (E : SelEnv) (fs : List Cond) (recs : List (List QEnt)) : List (List QEnt) := recs.filter (E.pass fs)

/-! ## Parsing selector strings (`RecordSelector.cpp:27-80`, `270-287`) -/

/-- `util::split` (`split.hpp:16-33`): a trailing empty piece is dropped -/
def splitLoop (sep : Byte) : List Byte → List Byte → List (List Byte)
  | [], acc => if acc = [] then [] else [acc]
  | c :: cs, acc => if c = sep then acc :: splitLoop sep cs [] else splitLoop sep cs (acc ++ [c])

/-- `parse_clause` (`RecordSelector.cpp:27-80`).  `opos` is the position of the first of `<>=`; with none, or with the operator
as the last character, the clause is an existence test. -/
def parseClause (s : List Byte) : Cond :=
  if s = [] then ⟨.none, [], []⟩
  else
    let neg := s.head? = some (ch '-')
    let s' := if neg then s.drop 1 else s
    let name := s'.takeWhile fun c => !(c = ch '<' || c = ch '>' || c = ch '=')
    let rest := s'.dropWhile fun c => !(c = ch '<' || c = ch '>' || c = ch '=')
    let value := rest.drop 1
    let op := match rest with
      | [] => if neg then COp.notExist else .exist
      | [_] => if neg then .notExist else .exist
      | c :: _ :: _ => if c = ch '=' then (if neg then .notEqual else .equal) else (if neg then .notExist else .exist)
    let op := if name = [] ∨ (rest ≠ [] ∧ value = []) then COp.none else op
    ⟨op, name, value⟩

/-- `RecordSelector::parse` (`RecordSelector.cpp:270-287`) -/
def parseSelector (s : List Byte) : List Cond :=
  ((splitLoop (ch ',') s []).map parseClause).filter fun c => decide (c.op ≠ .none)

end Verif.Query
