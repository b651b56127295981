import Verif.Blackboard.Model
/-!
# Specification of the blackboard: a finite map of at most 910 entries
-/
namespace Verif.BB

/-- the map, its number of live entries and the number of refused insertions -/
structure Spec (V : Type) where
  m : Nat → Option V
  n : Nat
  skipped : Nat

variable {V : Type} [Inhabited V]

/-- the empty map -/
def Spec.init : Spec V := ⟨fun _ => none, 0, 0⟩

/-- store a value: overwrite a live key, insert a new key if there is room, else count it as skipped -/
def Spec.put (s : Spec V) (k : Nat) (v : V) : Spec V :=
  match s.m k with
  | some _ => { s with m := fun j => if j = k then some v else s.m j }
  | none =>
    if s.n < 910 then { s with m := fun j => if j = k then some v else s.m j, n := s.n + 1 }
    else { s with skipped := s.skipped + 1 }

/-- remove a key -/
def Spec.erase (s : Spec V) (k : Nat) : Spec V :=
  match s.m k with
  | some _ => { s with m := fun j => if j = k then none else s.m j, n := s.n - 1 }
  | none => s

/-- one call: new map and returned value (empty value if the key is not live) -/
def Spec.step (s : Spec V) : Op V → Spec V × V
  | .get k => (s, (s.m k).getD default)
  | .set k v _ => (s.put k v, default)
  | .del k => (s.erase k, default)
  | .exchange k v _ => (s.put k v, (s.m k).getD default)

/-- a history -/
def Spec.run (s : Spec V) : List (Op V) → Spec V × List V
  | [] => (s, [])
  | op :: ops => ((Spec.run (s.step op).1 ops).1, (s.step op).2 :: (Spec.run (s.step op).1 ops).2)

/-- key of an operation -/
def Op.key : Op V → Nat
  | .get k | .set k _ _ | .del k | .exchange k _ _ => k

/-- visibility of keys: fixed when a key is newly inserted (first insertion, or first after a deletion) -/
def Spec.visStep (s : Spec V) (vis : Nat → Bool) : Op V → Nat → Bool
  | .set k _ incl | .exchange k _ incl =>
    if (s.m k).isNone ∧ s.n < 910 then fun j => if j = k then incl else vis j else vis
  | .get _ | .del _ => vis

/-- visibility after a history -/
def Spec.visRun (s : Spec V) (vis : Nat → Bool) : List (Op V) → Nat → Bool
  | [] => vis
  | op :: ops => Spec.visRun (s.step op).1 (s.visStep vis op) ops

/-- the snapshot lists each live visible entry exactly once and nothing else -/
def SnapshotExact (snap : List V) (m : Nat → Option V) (vis : Nat → Bool) : Prop :=
  ∃ L : List (Nat × V), (L.map Prod.fst).Nodup ∧ (∀ kv ∈ L, kv.1 ≠ invId) ∧
    (∀ k v, k ≠ invId → ((k, v) ∈ L ↔ m k = some v ∧ vis k = true)) ∧ snap = L.map Prod.snd

/-- visibility flag of an inserting operation -/
def Op.incl? : Op V → Option Bool
  | .set _ _ b | .exchange _ _ b => some b
  | _ => none

end Verif.BB
