import Verif.Out.RecTable

/-! # How a record is to be shown -/

namespace Verif.RecTable
open Verif Verif.Cali

/-- the values in a record: those on the path of each reference from its node upwards, and the immediate ones -/
def items : List Ent → List Item
  | [] => []
  | .ref p :: l => p ++ items l
  | .imm i :: l => i :: items l

/-- the greatest of some lengths -/
def longest : List Str → Nat
  | [] => 0
  | s :: l => max s.length (longest l)

/-- `t` shows `s` in at most `w` characters: completely if that is possible, otherwise by its start and its end -/
def Cut (s t : Str) (w : Nat) : Prop :=
  (s.length ≤ w → t = s) ∧ t.length ≤ w ∧
  (w < s.length → 4 ≤ w → ∃ a b, t = a ++ (str "~~" ++ b) ∧ a <+: s ∧ b <:+ s ∧ a.length = w / 2 - 1 ∧ b.length = w / 2 - 1)

/-- the line of a value: the name, at least one blank up to the colon in the same column in all lines, and the value: numbers completely and right-aligned, others in at most 52 characters -/
def LineOf (kw rw : Nat) (i : Item) (line : Str) : Prop :=
  ∃ k v, Cut i.key k kw ∧ line = k ++ List.replicate (kw + 1 - k.length) (ch ' ') ++ str ": " ++ v ∧
    if i.right then v = List.replicate (rw - i.val.length) (ch ' ') ++ i.val ++ [ch ' '] else Cut i.val v 52

end Verif.RecTable
