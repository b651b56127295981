import Verif.Cali.DB
/-!
# Specification: attributes and globals a program adds to a metadata database
-/
namespace Verif.Cali
open Verif

/-- node `j` is node `i` or lies above it -/
inductive Above (N : Nat → Option Nd) : Nat → Nat → Prop
  | self {i : Nat} {n : Nd} : N i = some n → Above N i i
  | up {i p j : Nat} {n : Nd} : N i = some n → n.parent = some p → Above N p j → Above N i j

/-- the path of node `i` has value `v` for attribute `a` -/
def OnPath (N : Nat → Option Nd) (i a : Nat) (v : Val) : Prop := ∃ j n, Above N i j ∧ N j = some n ∧ n.attr = a ∧ n.data = v

/-- the globals have value `v` for attribute `a`: stored as value, or on the path of a context tree node -/
def HasGlobal (db : DB) (a : Nat) (v : Val) : Prop :=
  ∃ e ∈ db.globals, ∃ i, e.node = some i ∧
    ((db.attribute? i = some a ∧ e.val = v) ∨ (db.attribute? i = none ∧ OnPath db.node? i a v))

/-- the attribute is marked as global / stored as value -/
def IsGlobal (db : DB) (a : Nat) : Prop := db.attrProp (some a) &&& 512#32 ≠ 0
@[inherit_doc IsGlobal]
def AsValue (db : DB) (a : Nat) : Prop := db.attrProp (some a) &&& 1#32 ≠ 0

/-- the last value a sequence of calls gives to an attribute -/
def lastSet (sets : List (Nat × Val)) (a : Nat) : Option Val := (sets.reverse.find? fun s => decide (s.1 = a)).map Prod.snd

/-- the values the globals must have after the calls -/
def Wanted (db : DB) (sets : List (Nat × Val)) (a : Nat) (v : Val) : Prop :=
  IsGlobal db a ∧ ((AsValue db a ∧ lastSet sets a = some v) ∨ (¬ AsValue db a ∧ (a, v) ∈ sets))

/-- attribute `t` is metadata of attribute `s` -/
def IsMetadataOf (db : DB) (t s : Nat) : Prop := ∃ v, OnPath db.node? s t v

end Verif.Cali
