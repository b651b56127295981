import Verif.Serv.Topdown

/-! # What the percentages of perf_topdown are to be -/

namespace Verif.Topdown
open Verif Verif.Cali

/-- a measurement of an interval: the slots and the metrics register -/
abbrev Meas := Nat × BitVec 64

/-- the processor's four fractions of an interval add up to one, and it is long enough -/
def Meas.Ok (m : Meas) : Prop := 480000 ≤ m.1 ∧ (m.2.extractLsb' 0 8).toNat + (m.2.extractLsb' 8 8).toNat + (m.2.extractLsb' 16 8).toNat + (m.2.extractLsb' 24 8).toNat = 255

/-- the parts of the parts are not larger than these -/
def Meas.Sub (m : Meas) : Prop := (m.2.extractLsb' 32 8).toNat ≤ (m.2.extractLsb' 0 8).toNat ∧ (m.2.extractLsb' 40 8).toNat ≤ (m.2.extractLsb' 8 8).toNat ∧
  (m.2.extractLsb' 48 8).toNat ≤ (m.2.extractLsb' 16 8).toNat ∧ (m.2.extractLsb' 56 8).toNat ≤ (m.2.extractLsb' 24 8).toNat

/-- the attributes of the measurements -/
def names (all : Bool) : List Str :=
  [str "topdown.slots", str "topdown.retiring.slots", str "topdown.bad_spec.slots", str "topdown.fe_bound.slots", str "topdown.be_bound.slots"] ++
  if all then [str "topdown.heavy_ops.slots", str "topdown.br_mispred.slots", str "topdown.fetch_lat.slots", str "topdown.mem_bound.slots"] else []

/-- the value of an attribute in the entries of a snapshot (0 if there is none) -/
def valueOf (l : List (Str × Nat)) (a : Str) : Nat := ((l.find? fun e => e.1 = a).map Prod.snd).getD 0

/-- the sum of an attribute over the entries of some snapshots -/
def sumOf (ss : List (List (Str × Nat))) (a : Str) : Nat := (ss.map fun s => valueOf s a).sum

/-- the entries of the aggregated record of some snapshots -/
def aggregated (all : Bool) (ss : List (List (Str × Nat))) : List (Str × Nat) := (names all).map fun a => (str "sum#" ++ a, sumOf ss a)

/-- a percentage in a record -/
def percent (l : List (Str × Rat)) (n : String) : Rat := ((l.find? fun e => e.1 = str ("topdown." ++ n)).map Prod.snd).getD 0

end Verif.Topdown
