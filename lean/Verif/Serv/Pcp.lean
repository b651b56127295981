import Verif.Cali.Text

/-! # The pcp and pcp.memory services

Model of `src/services/pcp/Pcp.cpp` and `src/services/pcp/PcpMemory.cpp`. What the performance co-pilot library returns is an input. Simplified: values are
whole numbers and times whole numbers of microseconds, where the code adds and subtracts doubles (exact below 2^53 only); a record
is the list of its entries, keyed by the name of the attribute. Not modelled: the limit of a snapshot record (C20), the log lines. -/

namespace Verif.Serv.Pcp
open Verif Verif.Cali

abbrev Str := List Byte

/-- `MetricInfo` (Pcp.cpp:29-33): the name and whether `pmdesc.sem` is `PM_SEM_COUNTER` -/
structure Metric where
  name : Str
  counter : Bool
deriving DecidableEq, Repr

/-- what `pmFetch` returns: for each metric the values of its instances (`none`: `pmExtractValue` fails), and the time stamp -/
structure Fetch where
  vals : List (List (Option Int))
  sec : Int
  usec : Int
deriving DecidableEq, Repr

/-- the members of an instance (Pcp.cpp:35-43) -/
structure PSt where
  prev : List Int
  prevTime : Int
  lookups : Nat
  failedLookups : Nat
  failedValues : Nat
deriving DecidableEq, Repr

/-- after `setup_metrics` (Pcp.cpp:141-145) -/
def PSt.new (ms : List Metric) : PSt := ⟨ms.map fun _ => 0, 0, 0, 0, 0⟩

/-- the loop over the instances of a metric (Pcp.cpp:66-83): the total and the number of values -/
def sumVals : List (Option Int) → Int × Nat
  | [] => (0, 0)
  | none :: l => sumVals l
  | some v :: l => (v + (sumVals l).1, (sumVals l).2 + 1)

/-- the loop over the metrics (Pcp.cpp:60-96): the entries, the new previous values and the number of metrics without values -/
def snapLoop : List Metric → List Int → List (List (Option Int)) → List (Str × Int) × List Int × Nat
  | m :: ms, p :: ps, v :: vs =>
    let r := snapLoop ms ps vs
    if v.length < 1 then (r.1, p :: r.2.1, r.2.2 + 1)
    else
      let t := sumVals v
      let e := if t.2 > 0 then [(str "pcp." ++ m.name, if m.counter then t.1 - p else t.1)] else []
      (e ++ r.1, t.1 :: r.2.1, r.2.2)
  | _, ps, _ => ([], ps, 0)

/-- `snapshot` (Pcp.cpp:49-110); `none`: `pmFetch` fails -/
def snapshot (ms : List Metric) (s : PSt) : Option Fetch → List (Str × Int) × PSt
  | none => ([], { s with failedLookups := s.failedLookups + 1 })
  | some f =>
    let r := snapLoop ms s.prev f.vals
    let t := f.sec * 1000000 + f.usec
    (r.1 ++ [(str "pcp.timestamp.sec", f.sec), (str "pcp.timestamp", t), (str "pcp.time.duration", t - s.prevTime)],
     { s with prev := r.2.1, prevTime := t, lookups := s.lookups + 1, failedValues := s.failedValues + r.2.2 })

/-- the snapshots of a channel, by any threads (Pcp.cpp:235-237): the entries of each -/
def run (ms : List Metric) : PSt → List (Option Fetch) → List (List (Str × Int)) × PSt
  | s, [] => ([], s)
  | s, f :: h =>
    let r := snapshot ms s f
    let q := run ms r.2 h
    (r.1 :: q.1, q.2)

/-- a channel: the fetch in `post_init_evt`, whose entries are dropped (Pcp.cpp:238-242), then the snapshots -/
def channel (ms : List Metric) (first : Option Fetch) (h : List (Option Fetch)) : List (List (Str × Int)) × PSt :=
  run ms (snapshot ms (PSt.new ms) first).2 h

/-! ## The context -/

/-- `s_pcp_context` (`none`: negative), `s_num_instances` (Pcp.cpp:24-25, 253-254), and the library's contexts that exist -/
structure Glob where
  ctx : Option Nat
  num : Nat
  live : List Nat
deriving DecidableEq, Repr

/-- at the start of the process -/
def Glob.new : Glob := ⟨none, 0, []⟩

/-- what happens in the process: a channel with the service is made (whether metrics are given, the rank of the process on
its node, what `pmNewContext` would return, and whether the library knows the metrics), or one is finished -/
inductive Ev where
  | make (metrics : Bool) (rank : Int) (newCtx : Option Nat) (known : Bool)
  | finish
deriving DecidableEq, Repr

/-- `init_pcp_context` (Pcp.cpp:184-192) -/
def initCtx (g : Glob) (newCtx : Option Nat) : Glob :=
  match g.ctx with
  | some _ => g
  | none =>
    match newCtx with
    | none => g
    | some c => { g with ctx := some c, live := c :: g.live }

/-- `finish_pcp_context` (Pcp.cpp:194-198) -/
def finishCtx (g : Glob) : Glob :=
  if g.num - 1 = 0 then
    { g with num := g.num - 1, live := match g.ctx with | some c => g.live.filter (· ≠ c) | none => g.live }
  else { g with num := g.num - 1 }

/-- the library answers: the context in use exists -/
def usable (g : Glob) : Bool :=
  match g.ctx with
  | some c => c ∈ g.live
  | none => false

/-- `register_pcp` (Pcp.cpp:202-250), and whether the service is registered; a look-up without a context fails -/
def make (g : Glob) (metrics : Bool) (rank : Int) (newCtx : Option Nat) (known : Bool) : Glob × Bool :=
  if !metrics then (g, false)
  else if rank ≠ 0 then (g, false)
  else
    let g := initCtx g newCtx
    match g.ctx with
    | none => (g, false)
    | some _ =>
      let g := { g with num := g.num + 1 }
      if usable g && known then (g, true) else (finishCtx g, false)

/-- the state of the process after some events -/
def glob : Glob → List Ev → Glob
  | g, [] => g
  | g, .make m r n k :: h => glob (make g m r n k).1 h
  | g, .finish :: h => glob (finishCtx g) h

/-! ## pcp.memory -/

/-- `rd_cas_metrics` (PcpMemory.cpp:23-27), after `to_stringlist` -/
def rdMetrics : List Str :=
  [str "perfevent.hwcounters.bdx_unc_imc0__UNC_M_CAS_COUNT_RD.value", str "perfevent.hwcounters.bdx_unc_imc1__UNC_M_CAS_COUNT_RD.value",
   str "perfevent.hwcounters.bdx_unc_imc4__UNC_M_CAS_COUNT_RD.value", str "perfevent.hwcounters.bdx_unc_imc5__UNC_M_CAS_COUNT_RD.value"]

/-- `wr_cas_metrics` (PcpMemory.cpp:29-33), after `to_stringlist` -/
def wrMetrics : List Str :=
  [str "perfevent.hwcounters.bdx_unc_imc0__UNC_M_CAS_COUNT_WR.value", str "perfevent.hwcounters.bdx_unc_imc1__UNC_M_CAS_COUNT_WR.value",
   str "perfevent.hwcounters.bdx_unc_imc4__UNC_M_CAS_COUNT_WR.value", str "perfevent.hwcounters.bdx_unc_imc5__UNC_M_CAS_COUNT_WR.value"]

/-- `find_counter_attributes` (PcpMemory.cpp:35-53): `db` are the attributes that exist -/
def findAttrs (db : List Str) : List Str → List Str
  | [] => []
  | m :: ms =>
    if str "sum#pcp." ++ m ∈ db then (str "sum#pcp." ++ m) :: findAttrs db ms
    else if str "pcp." ++ m ∈ db then (str "pcp." ++ m) :: findAttrs db ms
    else findAttrs db ms

/-- `sum_attributes` (PcpMemory.cpp:55-70) -/
def sumAttrs (rc : List (Str × Int)) : List Str → Int × Nat
  | [] => (0, 0)
  | a :: as =>
    match rc.find? (fun e => e.1 = a) with
    | none => sumAttrs rc as
    | some e => (e.2 + (sumAttrs rc as).1, (sumAttrs rc as).2 + 1)

/-- `rd_counter_attrs`, `wr_counter_attrs` and how often the callback is connected -/
structure MSt where
  rd : List Str
  wr : List Str
  cbs : Nat
deriving DecidableEq, Repr

/-- at the start -/
def MSt.new : MSt := ⟨[], [], 0⟩

/-- `pre_flush_cb` (PcpMemory.cpp:97-112) -/
def preFlush (db : List Str) (s : MSt) : MSt :=
  if s.rd.length + s.wr.length > 0 then s
  else
    let rd := findAttrs db rdMetrics
    let wr := findAttrs db wrMetrics
    ⟨rd, wr, if rd.length + wr.length > 0 then s.cbs + 1 else s.cbs⟩

/-- `postprocess_snapshot_cb` (PcpMemory.cpp:83-95) -/
def postprocess (s : MSt) (rc : List (Str × Int)) : List (Str × Int) :=
  let rp := sumAttrs rc s.rd
  let wp := sumAttrs rc s.wr
  let rc := if rp.2 > 0 then rc ++ [(str "mem.bytes.read", 64 * rp.1)] else rc
  if wp.2 > 0 then rc ++ [(str "mem.bytes.written", 64 * wp.1)] else rc

/-- the connected callbacks, one after another -/
def applyCbs (s : MSt) : Nat → List (Str × Int) → List (Str × Int)
  | 0, r => r
  | n + 1, r => applyCbs s n (postprocess s r)

/-- the flushes of a channel: at each, the attributes that exist and the records that are flushed -/
def flushes : MSt → List (List Str × List (List (Str × Int))) → List (List (List (Str × Int)))
  | _, [] => []
  | s, (db, recs) :: h =>
    let s := preFlush db s
    recs.map (applyCbs s s.cbs) :: flushes s h

end Verif.Serv.Pcp
