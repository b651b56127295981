import Verif.Cali.Text
import Mathlib.Algebra.Order.Field.Rat

/-! # The perf_topdown service

Model of `src/services/perf/PerfTopdown.cpp` for one thread. What the processor counts is an input: for each snapshot the pipeline slots since the last snapshot and the contents of the
metrics register. A record is the list of its entries by the name of the attribute. Simplified: percentages are exact rational numbers where the code has doubles; the
slots counter does not overflow. Not modelled: opening the counters. -/

namespace Verif.Topdown
open Verif Verif.Cali

abbrev Str := List Byte

/-- byte number `k` of the metrics register (PerfTopdown.cpp:182-202) -/
def field (raw : BitVec 64) (k : Nat) : Nat := ((raw >>> (8 * k)) &&& 0xff#64).toNat

/-- `snapshot_cb` after the read (PerfTopdown.cpp:167-213): the entries; `all`: the level -/
def entries (all : Bool) (slots : Nat) (raw : BitVec 64) : List (Str × Nat) :=
  let f := slots / 255
  [(str "topdown.slots", slots), (str "topdown.retiring.slots", field raw 0 * f), (str "topdown.bad_spec.slots", field raw 1 * f),
   (str "topdown.fe_bound.slots", field raw 2 * f), (str "topdown.be_bound.slots", field raw 3 * f)] ++
  if all then
    [(str "topdown.heavy_ops.slots", field raw 4 * f), (str "topdown.br_mispred.slots", field raw 5 * f),
     (str "topdown.fetch_lat.slots", field raw 6 * f), (str "topdown.mem_bound.slots", field raw 7 * f)]
  else []

/-- a snapshot (PerfTopdown.cpp:146-173): the slots counter `acc` is reset only if it is large enough -/
def snapshot (all : Bool) (acc : Nat) (d : Nat) (raw : BitVec 64) : List (Str × Nat) × Nat :=
  if acc + d < 480000 then ([], acc + d) else (entries all (acc + d) raw, 0)

/-- the snapshots of a thread: the entries of each, and the counter at the end -/
def run (all : Bool) : Nat → List (Nat × BitVec 64) → List (List (Str × Nat)) × Nat
  | acc, [] => ([], acc)
  | acc, (d, raw) :: h =>
    let r := snapshot all acc d raw
    let q := run all r.2 h
    (r.1 :: q.1, q.2)

/-- `get_value` (PerfTopdown.cpp:226-235): the first entry of one of the two attributes, scaled -/
def getValue (rc : List (Str × Nat)) (factor : Rat) (a b : Str) : Rat :=
  match rc.find? (fun e => e.1 = a ∨ e.1 = b) with
  | some e => e.2 * factor
  | none => 0

/-- `postprocess_snapshot_cb` (PerfTopdown.cpp:216-264): the entries added to a record -/
def percents (all : Bool) (rc : List (Str × Nat)) : List (Str × Rat) :=
  match (rc.find? (fun e => e.1 = str "sum#topdown.slots")).or (rc.find? fun e => e.1 = str "topdown.slots") with
  | none => []
  | some (_, 0) => []
  | some (_, slots) =>
    let v := fun n : String => getValue rc (100 / slots) (str ("sum#topdown." ++ n ++ ".slots")) (str ("topdown." ++ n ++ ".slots"))
    [(str "topdown.retiring", v "retiring"), (str "topdown.bad_spec", v "bad_spec"), (str "topdown.fe_bound", v "fe_bound"), (str "topdown.be_bound", v "be_bound")] ++
    if all then
      [(str "topdown.heavy_ops", v "heavy_ops"), (str "topdown.light_ops", v "retiring" - v "heavy_ops"),
       (str "topdown.br_mispred", v "br_mispred"), (str "topdown.machine_clears", v "bad_spec" - v "br_mispred"),
       (str "topdown.fetch_lat", v "fetch_lat"), (str "topdown.fetch_bw", v "fe_bound" - v "fetch_lat"),
       (str "topdown.mem_bound", v "mem_bound"), (str "topdown.core_bound", v "be_bound" - v "mem_bound")]
    else []

end Verif.Topdown
