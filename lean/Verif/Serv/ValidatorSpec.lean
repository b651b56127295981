import Verif.Serv.Validator
/-!
# Proper nesting
-/
namespace Verif.Serv.Valid
open Verif RT

/-- begin or end of `x` -/
inductive Br (α : Type) where
  | b (x : α)
  | e (x : α)

/-- properly nested: every begin has its end, in last-in-first-out order -/
inductive Dyck {α : Type} : List (Br α) → Prop where
  | nil : Dyck []
  | wrap {w} (x : α) : Dyck w → Dyck (.b x :: (w ++ [.e x]))
  | append {v w} : Dyck v → Dyck w → Dyck (v ++ w)

/-- the begins and ends (attribute, value) among the events that satisfy `p` -/
def brackets (p : Event → Bool) (es : List Event) : List (Br (Nat × Val)) :=
  es.filterMap fun e => if p e then
    match e.kind with
    | .preBegin => some (.b (e.attr, e.val))
    | .preEnd => some (.e (e.attr, e.val))
    | _ => none
  else none

/-- The regions of a thread (`some th`) or of the process (`none`) are properly nested: those of nested attributes with each other, those of
any other attribute among themselves. -/
def Proper (I : VInfo) (es : List Event) (th : Option Nat) : Prop :=
  let here := fun e : Event => match th with
    | none => I.process e.attr
    | some t => !I.process e.attr && decide (e.th = t)
  Dyck (brackets (fun e => here e && I.nested e.attr) es) ∧
  ∀ a, I.nested a = false → Dyck (brackets (fun e => here e && decide (e.attr = a)) es)

end Verif.Serv.Valid
