import Verif.Serv.Pcp

/-! # What the pcp and pcp.memory services are to record -/

namespace Verif.Serv.Pcp
open Verif Verif.Cali

/-- the readable values of metric number `i` in a fetch -/
def readable (i : Nat) (f : Fetch) : List Int := (f.vals.getD i []).filterMap id

/-- the total of metric number `i` in a fetch that gives at least one readable value -/
def total (i : Nat) : Option Fetch → Option Int
  | none => none
  | some f => if readable i f = [] then none else some (readable i f).sum

/-- the last total of metric number `i` in the fetches so far, if there is one -/
def last (i : Nat) (h : List (Option Fetch)) : Option Int := h.reverse.findSome? (total i)

/-- the time of a fetch in microseconds -/
def timeOf (f : Fetch) : Int := f.sec * 1000000 + f.usec

/-- the time of the last fetch that worked -/
def lastTime (h : List (Option Fetch)) : Option Int := h.reverse.findSome? (Option.map timeOf)

/-- the entry for metric number `i` in a snapshot that fetches `f` after the fetches `h`: its total, for a counter the increase since the last total -/
def wantedMetric (h : List (Option Fetch)) (f : Option Fetch) (i : Nat) (m : Metric) : List (Str × Int) :=
  match total i f with
  | none => []
  | some t => [(str "pcp." ++ m.name, if m.counter then t - (last i h).getD 0 else t)]

/-- the entries of a snapshot that fetches `f` after the fetches `h` -/
def wanted (ms : List Metric) (h : List (Option Fetch)) : Option Fetch → List (Str × Int)
  | none => []
  | some f => (ms.mapIdx fun i m => wantedMetric h (some f) i m).flatten ++
      [(str "pcp.timestamp.sec", f.sec), (str "pcp.timestamp", timeOf f), (str "pcp.time.duration", timeOf f - (lastTime h).getD 0)]

/-- the fetch gives a set of values for each of the `n` metrics, and no set has unreadable values only -/
def Sound (n : Nat) : Option Fetch → Prop
  | none => True
  | some f => f.vals.length = n ∧ ∀ l ∈ f.vals, l ≠ [] → l.filterMap id ≠ []

/-- the increase of a counter between the first and the last of some totals -/
def increase (ts : List Int) : Int := ts.getLastD 0 - ts.headD 0

/-- the value of an attribute in a record: its first entry -/
def valueOf (rc : List (Str × Int)) (a : Str) : Option Int := (rc.find? fun e => e.1 = a).map Prod.snd

/-- the bytes moved according to the counters a record has values for, if it has any: 64 for each count -/
def bytes (pre : Str) (ms : List Str) (rc : List (Str × Int)) : Option Int :=
  let vs := ms.filterMap fun m => valueOf rc (pre ++ m)
  if vs = [] then none else some (64 * vs.sum)

/-- a record with the bytes read and written added -/
def withBytes (pre : Str) (rc : List (Str × Int)) : List (Str × Int) :=
  rc ++ ((bytes pre rdMetrics rc).map fun b => (str "mem.bytes.read", b)).toList ++
    ((bytes pre wrMetrics rc).map fun b => (str "mem.bytes.written", b)).toList

/-- the increases of metric number `i` that the records of a channel show -/
def recorded (ms : List Metric) (i : Nat) (hi : i < ms.length) (rs : List (List (Str × Int))) : Int :=
  (rs.filterMap fun r => valueOf r (str "pcp." ++ ms[i].name)).sum

/-- the events so far finished only instances that exist, and never the last one; no metrics were unknown -/
def Kept : List Ev → Nat → Prop
  | [], _ => True
  | .make m r c k :: h, n =>
    if m = false ∨ r ≠ 0 then Kept h n
    else if n = 0 ∧ c = none then Kept h n
    else k = true ∧ Kept h (n + 1)
  | .finish :: h, n => 1 < n ∧ Kept h (n - 1)

end Verif.Serv.Pcp
