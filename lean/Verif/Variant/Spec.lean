import Verif.Variant.Model
/-!
# Specification of variant contents and ordering (independent of the implementation functions)
-/
namespace Verif

/-- Specification: the contents designated by `(type, pointer, size)`: the bytes of the string or blob,
or the bytes of the typed object the pointer points to; for raw pointers the address itself. -/
def contents (m : Mem) (t : AttrType) (p : U64) (size : U64) : Option (List Byte ⊕ U64) :=
  match t with
  | .inv => some (.inl [])
  | .usr | .string => (readBytes m p size.toNat).map .inl
  | .int | .uint | .addr | .double => (readBytes m p 8).map .inl
  | .bool => (readBytes m p 1).map .inl
  | .type => (readBytes m p 4).map .inl
  | .ptr => some (.inr p)

/-- sizes that fit the 32-bit size field of a variant -/
def sizeOk (t : AttrType) (size : U64) : Prop := t = .usr ∨ t = .string → size.toNat < 2 ^ 32


/-- lexicographic order on byte strings, a proper prefix being smaller -/
def lexCmp : List Byte → List Byte → Ordering
  | [], [] => .eq
  | [], _ :: _ => .lt
  | _ :: _, [] => .gt
  | a :: as, b :: bs =>
    if a.toNat < b.toNat then .lt else if b.toNat < a.toNat then .gt else lexCmp as bs

/-- order on integers as an `Ordering` -/
def intCmp (a b : Int) : Ordering := if a < b then .lt else if b < a then .gt else .eq

/-- the 64-bit word as a signed number -/
def signedOf (n : Nat) : Int := if n < 2 ^ 63 then (n : Int) else (n : Int) - 2 ^ 64

/-- Specification of the order of typed values: first by type code; then numerically (signed for INT,
unsigned for UINT/ADDR/BOOL/TYPE), lexicographically for strings and blobs, by address for pointers. -/
def specCmp (t₁ : AttrType) (c₁ : List Byte ⊕ U64) (t₂ : AttrType) (c₂ : List Byte ⊕ U64) : Ordering :=
  if t₁ = t₂ then
    match c₁, c₂ with
    | .inl b₁, .inl b₂ =>
      match t₁ with
      | .usr | .string => lexCmp b₁ b₂
      | .int => intCmp (signedOf (leVal b₁)) (signedOf (leVal b₂))
      | _ => intCmp (leVal b₁) (leVal b₂)
    | .inr p₁, .inr p₂ => intCmp p₁.toNat p₂.toNat
    | .inl _, .inr _ => .lt
    | .inr _, .inl _ => .gt
  else intCmp t₁.code t₂.code

/-- values for which ordering is considered: no floating point; lengths of strings and blobs fit an
`int`; strings are NUL-free; booleans are 0/1 and types valid enumerators -/
def Orderable (t : AttrType) (c : List Byte ⊕ U64) : Prop :=
  match t, c with
  | .double, _ => False
  | .usr, .inl bs => bs.length < 2 ^ 31
  | .string, .inl bs => bs.length < 2 ^ 31 ∧ ∀ b ∈ bs, b ≠ 0
  | .bool, .inl bs => leVal bs ≤ 1
  | .type, .inl bs => leVal bs ≤ 9
  | _, _ => True

/-- the guard under which the truncating comparison of INT and PTR values is right: the distance fits an `int` -/
def CloseEnough (t₁ : AttrType) (c₁ : List Byte ⊕ U64) (t₂ : AttrType) (c₂ : List Byte ⊕ U64) : Prop :=
  match t₁, c₁, t₂, c₂ with
  | .int, .inl b₁, .int, .inl b₂ =>
    -(2 ^ 31) ≤ signedOf (leVal b₁) - signedOf (leVal b₂) ∧ signedOf (leVal b₁) - signedOf (leVal b₂) < 2 ^ 31
  | .ptr, .inr p₁, .ptr, .inr p₂ =>
    -(2 ^ 31) ≤ (p₁.toNat : Int) - p₂.toNat ∧ (p₁.toNat : Int) - p₂.toNat < 2 ^ 31
  | _, _, _, _ => True

end Verif
