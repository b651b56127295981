import Verif.Query.Select
/-!
# What a WHERE filter should select
-/
namespace Verif.Query
open Verif Verif.Cali

/-- the attribute:value pairs of a record, including those on the context tree paths -/
def pairs (rec : List QEnt) : List (Nat × Val) :=
  rec.flatMap fun e => match e with
    | .ref p => p
    | .imm a v => [(a, v)]

/-- the order of values: by type, then numerically, lexicographically, by address; doubles as `dcmp` says -/
def ordVal (dcmp : U64 → U64 → Int) : Val → Val → Ordering
  | .inv, .inv => .eq
  | .usr a, .usr b | .string a, .string b => lexCmp a b
  | .int a, .int b => intCmp a.toInt b.toInt
  | .addr a, .addr b | .uint a, .uint b | .ptr a, .ptr b => intCmp a.toNat b.toNat
  | .double a, .double b => signOrd (dcmp a b)
  | .bool a, .bool b => intCmp (if a then 1 else 0) (if b then 1 else 0)
  | .type a, .type b => intCmp a.code b.code
  | v, w => intCmp v.ty.code w.ty.code

/-- condition `op` with value `w` holds for the value `v` -/
def COp.holds (dcmp : U64 → U64 → Int) (op : COp) (v w : Val) : Prop :=
  match op with
  | .less => ordVal dcmp v w = .lt
  | .greater => ordVal dcmp v w = .gt
  | .lessEq => ordVal dcmp v w = .lt ∨ v = w
  | .greaterEq => ordVal dcmp v w = .gt ∨ v = w
  | .equal => v = w
  | _ => True

/-- the condition holds for the record -/
def SelEnv.Holds (E : SelEnv) (c : Cond) (rec : List QEnt) : Prop :=
  match E.attr c.name with
  | none =>
    -- the attribute does not exist
    match c.op with
    | .none | .notExist | .notEqual => True
    | _ => False
  | some (id, t) =>
    match c.op with
    | .none => True
    | .exist => ∃ v, (id, v) ∈ pairs rec
    | .notExist => ¬∃ v, (id, v) ∈ pairs rec
    | .notEqual => (id, fromString E.F t c.value) ∉ pairs rec
    | op => ∃ v, (id, v) ∈ pairs rec ∧ op.holds E.dcmp v (fromString E.F t c.value)

/-- values the comparison functions order correctly (C04) -/
def Comparable : Val → Val → Prop
  | .int a, .int b => -(2 ^ 31) ≤ a.toInt - b.toInt ∧ a.toInt - b.toInt < 2 ^ 31
  | .ptr a, .ptr b => -(2 ^ 31) ≤ (a.toNat : Int) - b.toNat ∧ (a.toNat : Int) - b.toNat < 2 ^ 31
  | .usr a, .usr b => a.length < 2 ^ 31 ∧ b.length < 2 ^ 31
  | .string a, .string b => a.length < 2 ^ 31 ∧ b.length < 2 ^ 31 ∧ ∀ c ∈ a, c ≠ 0
  | _, _ => True

/-- all values the filters compare with an order are comparable -/
def SelEnv.Comparable (E : SelEnv) (fs : List Cond) (rec : List QEnt) : Prop :=
  ∀ c ∈ fs, c.op = .less ∨ c.op = .greater ∨ c.op = .lessEq ∨ c.op = .greaterEq →
    ∀ id t, E.attr c.name = some (id, t) → ∀ v, (id, v) ∈ pairs rec → Query.Comparable v (fromString E.F t c.value)

end Verif.Query
