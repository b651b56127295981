import Verif.Serv.Binding
/-! # Specification of annotation bindings -/
namespace Verif.Bind
open Verif

/-- the attributes to forward: with events, and nested, or named in the configuration -/
def Bound (C : BCfg) (a : BAttr) : Prop :=
  a.skip = false ∧ ((C.names = [] ∧ a.nested = true) ∨ (C.names ≠ [] ∧ a.name ∈ C.names))

/-- the attribute with this id is to be forwarded and was announced (subscription attributes: subscribed) in this history -/
def Known (C : BCfg) (h : List BOp) (id : Nat) : Prop :=
  ∃ a : BAttr, a.id = id ∧ Bound C a ∧ ((.announce a ∈ h ∧ a.subs = false) ∨ .subscribe a ∈ h)

/-- the region's name passes the include and exclude filters -/
def Wanted (C : BCfg) (v : Val) : Prop :=
  (C.filter.excl = none ∧ C.filter.incl = none) ∨ C.filter.pass (Serv.bytesOf C.raw v) = true

/-- begins (`true`) and ends (`false`) of regions -/
abbrev Word := List (Bool × Nat × Val)

/-- properly nested regions: every begin has its end, in the right order -/
inductive Bal : Word → Prop where
  | nil : Bal []
  | pair {a : Nat} {v : Val} {w w' : Word} : Bal w → Bal w' → Bal ((true, a, v) :: w ++ (false, a, v) :: w')

/-- the regions of a thread in a history -/
def regions (th : Nat) (h : List BOp) : Word := h.filterMap fun o => match o with
  | .begin t a v => if t = th then some (true, a, v) else none
  | .end_ t a v => if t = th then some (false, a, v) else none
  | _ => none

/-- the regions of a thread as the third-party tool sees them -/
def seen (th : Nat) (cs : List Call) : Word := cs.filterMap fun c => match c with
  | .onBegin t a v => if t = th then some (true, a, v) else none
  | .onEnd t a v => if t = th then some (false, a, v) else none

/-- every attribute is announced before its first region (on any thread) -/
def Early (h : List BOp) : Prop :=
  ∀ h₁ h₂ o a, h = h₁ ++ o :: h₂ → (o = .announce a ∨ o = .subscribe a) →
    ∀ th v, .begin th a.id v ∉ h₁ ∧ .end_ th a.id v ∉ h₁

/-- what RocTX calls mean: the message of the range that is stopped is that with which it was started -/
def meaning : List (Nat × Val) → List Act → List (Bool × Option Val)
  | _, [] => []
  | st, .push _ v :: r => (true, some v) :: meaning st r
  | st, .pop _ :: r => (false, none) :: meaning st r
  | st, .start i v :: r => (true, some v) :: meaning ((i, v) :: st) r
  | st, .stop i :: r => (false, st.lookup i) :: meaning st r

/-- what should be seen: the message of each begin, and for attributes that are not nested that of each end -/
def should (nested : Nat → Bool) (cs : List Call) : List (Bool × Option Val) := cs.map fun c => match c with
  | .onBegin _ _ v => (true, some v)
  | .onEnd _ a v => (false, if nested a then none else some v)

/-- every end of a region of a non-nested attribute ends the most recent open one of this attribute, on whatever thread -/
def LastFirst (nested : Nat → Bool) : (Nat → List Val) → List Call → Prop
  | _, [] => True
  | st, .onBegin _ a v :: r => LastFirst nested (fun b => if b = a then v :: st b else st b) r
  | st, .onEnd _ a v :: r =>
    if nested a then LastFirst nested st r
    else ∃ vs, st a = v :: vs ∧ LastFirst nested (fun b => if b = a then vs else st b) r

end Verif.Bind
