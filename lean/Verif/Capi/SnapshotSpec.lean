import Verif.Capi.Snapshot
import Verif.Runtime.GlobalsSpec
/-!
# Specification of snapshots in the C interface
-/
namespace Verif.Capi
open Verif MTree RT

variable {σ : Type}

/-- run a callback over a list of (attribute, value) pairs until it returns zero -/
def feed (cb : Proc σ) : List (Nat × Verif.Val) → σ → σ
  | [], x => x
  | (a, v) :: D, x =>
    match cb x a v with
    | (x, false) => x
    | (x, true) => feed cb D x

/-- `I` lists each as-value attribute that has a value at location `l`, once, with that value -/
def ValuesOf (s : State) (l : Loc) (I : List (Nat × Verif.Val)) : Prop :=
  (I.map Prod.fst).Nodup ∧ ∀ k v, (k, v) ∈ I ↔ CurrentValue s l k v

/-- `B` lists the open regions at location `l`, innermost first, and the open unaligned values, latest first -/
def PathsOf (s : State) (l : Loc) (B : List (Nat × Verif.Val)) : Prop :=
  ∃ R U, OpenRegions s l R ∧ OpenUnaligned s l U ∧ (B = R.reverse ++ U.reverse ∨ B = U.reverse ++ R.reverse)

/-- what is annotated on thread `th` and on the process, and the measurements `extra` -/
def Annotated (s : State) (th : Nat) (extra D : List (Nat × Verif.Val)) : Prop :=
  ∃ Bt Bp It Ip, PathsOf s (.thread th) Bt ∧ PathsOf s .process Bp ∧ ValuesOf s (.thread th) It ∧ ValuesOf s .process Ip ∧
    D = Bt ++ Bp ++ (extra ++ It ++ Ip)

/-- a value that is read back from its two words -/
def Words.Reads (W : Words) (v : Verif.Val) : Prop := W.dec (W.enc v) = v ∧ ((W.enc v).ts &&& 0xFF#64).toNat ≤ maxType

/-- an immediate entry for attribute `k` -/
def ImmEntry (t : Tree) (e : Entry) (k : Nat) : Prop :=
  ∃ p, e.node = some p ∧ Live t p ∧ p ≠ .root ∧ t.idOf p = k ∧ t.attrOf p = nameAttr

/-- attribute `a` does not occur in the description of any attribute -/
def NotMeta (t : Tree) (a : Nat) : Prop :=
  ∀ p l, t.attrOf p = nameAttr → Path t p l → ∀ x ∈ l, x.1 ≠ a

/-- the first value of an attribute in a list -/
def firstOf (a : Nat) (D : List (Nat × Verif.Val)) : Option Verif.Val := (D.find? fun y => decide (y.1 = a)).map Prod.snd

end Verif.Capi
