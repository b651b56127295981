import Verif.Serv.Trace
/-!
# Specification of the trace service
-/
namespace Verif.Serv.Trace
open Verif Verif.CSR

/-- valid entries: references to context tree nodes, or attributes with a valid value -/
def EntryOk (isAttr : U64 → Bool) : SEntry → Prop
  | .empty => False
  | .ref id => isAttr id = false
  | .imm id v => isAttr id = true ∧ (v.ts &&& 0xFF#64).toNat ≤ maxType

/-- valid records -/
def RecOk (isAttr : U64 → Bool) (r : Record) : Prop := (∀ e ∈ r, EntryOk isAttr e) ∧ r.length < 2 ^ 64

/-- the non-empty snapshots of a thread since the last clear, in order -/
def recsStep (th : Nat) (acc : List Record) : Op → List Record
  | .snap th' _ r => if th' = th ∧ r ≠ [] then acc ++ [r] else acc
  | .clear => []
  | _ => acc

@[inherit_doc recsStep]
def recs (th : Nat) (h : List Op) : List Record := h.foldl (recsStep th) []

/-- threads known to the channel: the one that created it, those that were announced, and those that took snapshots outside of signal
handlers -/
def Known (th0 : Nat) (h : List Op) (th : Nat) : Prop := th = th0 ∨ Op.attach th ∈ h ∨ ∃ r, Op.snap th false r ∈ h

/-- histories in which threads do nothing after they ended, signal handlers run on known threads only, and all records are valid and have
at most `m` entries -/
inductive Valid (isAttr : U64 → Bool) (th0 m : Nat) : List Op → Prop where
  | nil : Valid isAttr th0 m []
  | attach {h} (th : Nat) : Valid isAttr th0 m h → Op.release th ∉ h → Valid isAttr th0 m (h ++ [.attach th])
  | release {h} (th : Nat) : Valid isAttr th0 m h → Op.release th ∉ h → Valid isAttr th0 m (h ++ [.release th])
  | snap {h} (th : Nat) (sig : Bool) (r : Record) : Valid isAttr th0 m h → Op.release th ∉ h → (sig = true → Known th0 h th) →
      RecOk isAttr r → r.length ≤ m → Valid isAttr th0 m (h ++ [.snap th sig r])
  | flush {h} : Valid isAttr th0 m h → Valid isAttr th0 m (h ++ [.flush])
  | clear {h} : Valid isAttr th0 m h → Valid isAttr th0 m (h ++ [.clear])

/-- upper bound of the space a record needs -/
def space (r : Record) : Nat := 10 + 30 * r.length

/-- was there a flush since the last clear? -/
def flushedStep (f : Bool) : Op → Bool
  | .flush => true
  | .clear => false
  | _ => f

@[inherit_doc flushedStep]
def flushed (h : List Op) : Bool := h.foldl flushedStep false

end Verif.Serv.Trace
