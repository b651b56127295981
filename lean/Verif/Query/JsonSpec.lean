import Verif.Query.Json
/-!
# Specification: JSON texts and the contents of the JSON output

`parseJson` is a reference reader for JSON texts (RFC 8259).
-/
namespace Verif.Query.Json
open Verif Verif.Cali Verif.Query

/-- JSON values; numbers are given by their text -/
inductive JVal where
  | null
  | bool (b : Bool)
  | num (text : List Byte)
  | string (s : Str)
  | arr (l : List JVal)
  | obj (l : List (Str × JVal))

/-- white space -/
def isWs (c : Byte) : Bool := c = ch ' ' || c = ch '\t' || c = ch '\n' || c = ch '\r'
@[inherit_doc isWs]
def skipWs (l : List Byte) : List Byte := l.dropWhile isWs

/-- characters of numbers -/
def isNumChar (c : Byte) : Bool :=
  (48 ≤ c.toNat && c.toNat ≤ 57) || c = ch '-' || c = ch '+' || c = ch '.' || c = ch 'e' || c = ch 'E'

def isDig (c : Byte) : Bool := 48 ≤ c.toNat && c.toNat ≤ 57

/-- exponent: nothing, or `e`, an optional sign and digits -/
def validExp : List Byte → Bool
  | [] => true
  | c :: r =>
    if c = ch 'e' || c = ch 'E' then
      let d := match r with
        | s :: r' => if s = ch '+' || s = ch '-' then r' else r
        | [] => r
      decide (d ≠ []) && d.all isDig
    else false

/-- fraction: nothing, or a point and digits; then the exponent -/
def validFrac : List Byte → Bool
  | [] => true
  | c :: r =>
    if c = ch '.' then decide (r.takeWhile isDig ≠ []) && validExp (r.dropWhile isDig)
    else validExp (c :: r)

/-- integer part without leading zeros, fraction, exponent -/
def validUnsigned (l : List Byte) : Bool :=
  let d := l.takeWhile isDig
  decide (d ≠ []) && (decide (d.length = 1) || decide (d.head? ≠ some (ch '0'))) && validFrac (l.dropWhile isDig)

/-- the numbers of JSON -/
def validNum : List Byte → Bool
  | [] => false
  | c :: r => if c = ch '-' then validUnsigned r else validUnsigned (c :: r)

def hexVal (c : Byte) : Option Nat := digitVal c

/-- a string after the opening quote.  Code points given by `\u` escapes are not decoded (they do not occur). -/
def parseStr : List Byte → Option (Str × List Byte)
  | [] => none
  | c :: r =>
    if c = ch '"' then some ([], r)
    else if c = ch '\\' then
      match r with
      | [] => none
      | e :: r' =>
        let x := if e = ch '"' || e = ch '\\' || e = ch '/' then some e
          else if e = ch 'n' then some (ch '\n')
          else if e = ch 't' then some (ch '\t')
          else if e = ch 'r' then some (ch '\r')
          else if e = ch 'b' then some 8
          else if e = ch 'f' then some 12
          else none
        match x, parseStr r' with
        | some x, some (s, rest) => some (x :: s, rest)
        | _, _ => none
    else if c.toNat < 0x20 then none
    else match parseStr r with
      | some (s, rest) => some (c :: s, rest)
      | none => none

mutual
/-- a value -/
def parseVal : Nat → List Byte → Option (JVal × List Byte)
  | 0, _ => none
  | n + 1, l =>
    match skipWs l with
    | [] => none
    | c :: r =>
      if c = ch '{' then
        match skipWs r with
        | [] => none
        | d :: r' => if d = ch '}' then some (.obj [], r') else (parseMembers n r).map fun x => (.obj x.1, x.2)
      else if c = ch '[' then
        match skipWs r with
        | [] => none
        | d :: r' => if d = ch ']' then some (.arr [], r') else (parseElems n r).map fun x => (.arr x.1, x.2)
      else if c = ch '"' then (parseStr r).map fun x => (.string x.1, x.2)
      else if (str "true").isPrefixOf (c :: r) then some (.bool true, (c :: r).drop 4)
      else if (str "false").isPrefixOf (c :: r) then some (.bool false, (c :: r).drop 5)
      else if (str "null").isPrefixOf (c :: r) then some (.null, (c :: r).drop 4)
      else
        let w := (c :: r).takeWhile isNumChar
        if validNum w then some (.num w, (c :: r).dropWhile isNumChar) else none
/-- members of an object up to the closing brace -/
def parseMembers : Nat → List Byte → Option (List (Str × JVal) × List Byte)
  | 0, _ => none
  | n + 1, l =>
    match skipWs l with
    | [] => none
    | c :: r =>
      if c = ch '"' then
        match parseStr r with
        | none => none
        | some (k, r1) =>
          match skipWs r1 with
          | [] => none
          | d :: r2 =>
            if d = ch ':' then
              match parseVal n r2 with
              | none => none
              | some (v, r3) =>
                match skipWs r3 with
                | [] => none
                | e :: r4 =>
                  if e = ch ',' then (parseMembers n r4).map fun x => ((k, v) :: x.1, x.2)
                  else if e = ch '}' then some ([(k, v)], r4)
                  else none
            else none
      else none
/-- elements of an array up to the closing bracket -/
def parseElems : Nat → List Byte → Option (List JVal × List Byte)
  | 0, _ => none
  | n + 1, l =>
    match parseVal n l with
    | none => none
    | some (v, r3) =>
      match skipWs r3 with
      | [] => none
      | e :: r4 =>
        if e = ch ',' then (parseElems n r4).map fun x => (v :: x.1, x.2)
        else if e = ch ']' then some ([v], r4)
        else none
end

/-- Read a JSON text. -/
def parseJson (l : List Byte) : Option JVal :=
  match parseVal (l.length + 1) l with
  | some (v, rest) => if skipWs rest = [] then some v else none
  | none => none

/-! ### contents of the output -/

/-- the printable ASCII characters and line breaks of a string; all others are left out of the output -/
def clean (s : Str) : Str := s.filter fun c => c = ch '\n' || (0x20 ≤ c.toNat && c.toNat < 0x80)

/-- A user sees an attribute if it was selected, or if there is no selection and it is neither hidden nor a global attribute. -/
def IsShown (C : JCfg) (a : AInfo) : Prop := a.name ∈ C.selected ∨ (C.selected = [] ∧ a.hidden = false ∧ a.isGlobal = false)

/-- Its label: `path` for nested attributes unless they are to be separated, else its alias or name. -/
def label (C : JCfg) (a : AInfo) : Str :=
  if a.nested = true ∧ C.sepNested = false then str "path"
  else match C.alias_ a.name with
    | some x => x
    | none => a.name

/-- the contents of a record: for each value whether it is in the context tree, its attribute, the value; in a tree path inner values come
first -/
def items (r : List QEnt) : List (Bool × Nat × Val) :=
  r.flatMap fun e => match e with
    | .ref path => path.map fun n => (true, n.1, n.2)
    | .imm a v => [(false, a, v)]

variable (F : DblFmt) (info : Nat → AInfo)

/-- values that are written in quotes -/
def Quoted (C : JCfg) (x : Bool × Nat × Val) : Prop := x.1 = true ∨ C.quoteAll = true ∨ (info x.2.1).ty = .string ∨ (info x.2.1).ty = .usr

/-- an item is shown with label `k` -/
def HasLabel (C : JCfg) (k : Str) (x : Bool × Nat × Val) : Prop := IsShown C (info x.2.1) ∧ label C (info x.2.1) = k ∧ k ≠ []

/-- JSON literal for a value outside of quotes -/
def plainJ : Val → JVal
  | .bool b => .bool b
  | v => .num (v.toStr F)

/-- values that have a JSON literal: integers, truth values, and floating-point numbers that are printed as decimal numbers (not `inf` or
`nan`) -/
def HasLiteral : Val → Prop
  | .int _ | .uint _ | .bool _ => True
  | .double d => validNum (F.toStr d) = true
  | _ => False

instance (C : JCfg) (k : Str) (x : Bool × Nat × Val) : Decidable (HasLabel info C k x) := by unfold HasLabel IsShown; infer_instance
instance (C : JCfg) (x : Bool × Nat × Val) : Decidable (Quoted info C x) := by unfold Quoted; infer_instance

/-- the values with label `k` in a record -/
def labelled (C : JCfg) (r : List QEnt) (k : Str) : List (Bool × Nat × Val) := (items r).filter fun x => decide (HasLabel info C k x)

/-- The values with label `k` in a record give the JSON value `w`: values in the context tree as a path, outer values first, else the (last)
immediate value. -/
inductive Gives (C : JCfg) (r : List QEnt) (k : Str) : JVal → Prop where
  | path : labelled info C r k ≠ [] → (∀ x ∈ labelled info C r k, x.1 = true) →
      Gives C r k (.string (clean (List.intercalate (str "/") (((labelled info C r k).map fun x => x.2.2.toStr F).reverse))))
  | quoted (a : Nat) (v : Val) : (labelled info C r k).getLast? = some (false, a, v) → Quoted info C (false, a, v) →
      Gives C r k (.string (clean (v.toStr F)))
  | plain (a : Nat) (v : Val) : (labelled info C r k).getLast? = some (false, a, v) → ¬Quoted info C (false, a, v) →
      Gives C r k (plainJ F v)

/-- Well-formed input: in a record the values with the same label are all in the context tree or all immediate values to be written in the same
way, labels are printable, and values outside of quotes have JSON literals. -/
structure RecordOk (C : JCfg) (r : List QEnt) : Prop where
  same : ∀ k, ∀ x ∈ labelled info C r k, ∀ y ∈ labelled info C r k, x.1 = y.1 ∧ (Quoted info C x ↔ Quoted info C y)
  ascii : ∀ k, labelled info C r k ≠ [] → clean k = k
  literal : ∀ k, ∀ x ∈ labelled info C r k, ¬Quoted info C x → HasLiteral F x.2.2

/-- the records of which anything is shown -/
def nonEmpty (C : JCfg) (r : List QEnt) : Bool := (items r).any fun x => decide (HasLabel info C (label C (info x.2.1)) x)

end Verif.Query.Json
