import Verif.Serv.Symbols
/-! # Specification of symbol lookup, in terms of the addresses in a record -/
namespace Verif.Sym
open Verif.MTree (PathL)

/-- the number which a value stands for as an address: addresses and unsigned integers as they are, other numbers if not negative -/
def addrVal (E : Env) (v : Val) : Nat :=
  match v.c with
  | .inl _ => 0
  | .inr w =>
    if v.ty = .addr ∨ v.ty = .uint then w.toNat
    else if v.ty = .int then w.toInt.toNat
    else if v.ty = .bool then (if w.toNat % 256 = 0 then 0 else 1)
    else if v.ty = .double then E.d2u w
    else if v.ty = .type then (if w.toNat % 2 ^ 32 < 2 ^ 31 then w.toNat % 2 ^ 32 else w.toNat % 2 ^ 32 + (2 ^ 64 - 2 ^ 32))
    else 0

/-- what is wanted for an address: those of module, file, function, line and location that the options ask for, as values of the
attributes which belong to address attribute `a` -/
def symFields (E : Env) (ch a x : Nat) : PathL :=
  ([((E.opts ch).mod, E.names.mod a, Val.str (E.lk x).module),
    ((E.opts ch).file, E.names.file a, Val.str (E.lk x).file),
    ((E.opts ch).functions, E.names.func a, Val.str (E.lk x).name),
    ((E.opts ch).line, E.names.line a, (⟨.uint, .inr (BitVec.ofInt 64 (E.lk x).line)⟩ : Val)),
    ((E.opts ch).sourceloc, E.names.loc a,
      Val.str ((E.lk x).file ++ (":" ++ toString (E.lk x).line).toList.map fun c => BitVec.ofNat 8 c.toNat))].filter (·.1)).map (·.2)

/-- the addresses of attribute `a` which a record holds: those on the path of the first entry with the attribute, from the
outermost to the innermost, or the value of an immediate entry -/
def addresses (E : Env) (a : Nat) (rec : List Entry) : List Nat :=
  match rec.find? (has a) with
  | none => []
  | some (.ref n) => (n.path.filter fun e => e.1 == a).map fun e => addrVal E e.2
  | some (.imm _ v) => [addrVal E v]

/-- the symbols of a call path, from the outermost address to the innermost -/
def symbols (E : Env) (ch a : Nat) (addrs : List Nat) : PathL := addrs.flatMap (symFields E ch a)

/-- the entries symbol lookup should add to a record: for each address attribute with a symbol, the symbols of its
addresses -/
def wanted (E : Env) (ch : Nat) (rec : List Entry) : List Entry :=
  (E.targets ch).flatMap fun a =>
    if symbols E ch a (addresses E a rec) = [] then []
    else [.ref ⟨E.symRoot ch, symbols E ch a (addresses E a rec)⟩]

/-- in this history, no address of attribute `a` is reached over two different call paths -/
def OneCaller (E : Env) (ch a : Nat) (evs : List Ev) : Prop :=
  ∀ r₁ r₂ l₁ l₂ m₁ m₂ x, .record ch r₁ ∈ evs → .record ch r₂ ∈ evs →
    addresses E a r₁ = l₁ ++ x :: m₁ → addresses E a r₂ = l₂ ++ x :: m₂ → l₁ = l₂

/-- no other instance looks up attribute `a` in this history -/
def Alone (E : Env) (ch : Nat) (evs : List Ev) : Prop :=
  ∀ c r, .record c r ∈ evs → c ≠ ch → ∀ a ∈ E.targets ch, a ∉ E.targets c

end Verif.Sym
