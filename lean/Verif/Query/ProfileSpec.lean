import Verif.Query.Profile
/-! # What region profiles should contain -/
namespace Verif.Query.Prof
open Verif Verif.Cali Verif.Query

variable {M : Type}

/-- attribute `a` is of the selected region type: the one asked for, or, if none was asked for, any nested attribute -/
def Selected (C : Cfg M) (a : Nat) : Prop := if C.region = invN then a ≠ invN ∧ C.nested a = true else a = C.region

instance (C : Cfg M) (a : Nat) : Decidable (Selected C a) := by unfold Selected; infer_instance

/-- the measurement in a record: the value of its first entry with the metric attribute -/
def measure (C : Cfg M) (rec : List QEnt) : Option M :=
  rec.findSome? fun e => if e.attr = C.metric then some (C.toD e.value) else none

/-- names of the regions of the selected type on an entry's path, outermost first -/
def regionsOf (C : Cfg M) (e : QEnt) : List (List Byte) :=
  match e with
  | .ref p => (p.reverse.filter fun x => decide (Selected C x.1)).map fun x => C.str x.2
  | .imm _ _ => []

/-- all region names in a record -/
def allRegions (C : Cfg M) (rec : List QEnt) : List (List Byte) := rec.flatMap (regionsOf C)

/-- the region path of a record: the regions of the first entry that has any -/
def regionPath (C : Cfg M) (rec : List QEnt) : List (List Byte) := ((rec.map (regionsOf C)).find? fun r => decide (r ≠ [])).getD []

/-- `n` is the record's current region: the name in its first entry of the selected type -/
def Current (C : Cfg M) (rec : List QEnt) (n : List Byte) : Prop :=
  ∃ pre e post, rec = pre ++ e :: post ∧ Selected C e.attr ∧ (∀ x ∈ pre, ¬ Selected C x.attr) ∧ C.str e.value = n

/-- names joined by slashes -/
def slashed (ns : List (List Byte)) : List Byte := [ch '/'].intercalate ns

/-- the path `k` is `p` or a path below `p` -/
def Under (p k : List Byte) : Prop := k = p ∨ ∃ t, k = p ++ ch '/' :: t

/-- every region name is non-empty and has no slash -/
def CleanNames (C : Cfg M) (rec : List QEnt) : Prop := ∀ n ∈ allRegions C rec, n ≠ [] ∧ ch '/' ∉ n

/-- the entries with regions end in one: the innermost node of each such entry is itself a region of the selected type -/
def EndsInRegion (C : Cfg M) (rec : List QEnt) : Prop := ∀ p ∈ rec, regionsOf C p ≠ [] → Selected C p.attr

open Classical in
/-- the measurements of the records with property `P`, in order -/
noncomputable def valuesWhere (C : Cfg M) (recs : List (List QEnt)) (P : List QEnt → Prop) : List M :=
  (recs.filter fun r => decide (P r)).filterMap (measure C)

/-- adding up, starting from zero -/
def sumUp (C : Cfg M) (l : List M) : M := l.foldl C.add C.zero

/-- adding up; nothing at all if there are no values -/
def sumOf (C : Cfg M) (l : List M) : Option M := if l = [] then none else some (sumUp C l)

end Verif.Query.Prof
