import Verif.Capi.Channels
/-!
# What the channel functions should do

A table of channels.  Written from the documentation in `cali.h`.
-/
namespace Verif.Capi.Chn
open Verif Verif.Cali

/-- a channel: configuration, whether it reads the environment, whether it is on, and its buffered snapshots -/
structure Channel where
  cfg : Config
  env : Bool
  on : Bool
  buf : List Snap

/-- existing channels, how many were ever created, the default channel, config sets, and what was written -/
structure World where
  chans : Nat → Option Channel
  n : Nat
  dflt : Option Nat
  sets : Nat → Option Config
  nsets : Nat
  out : List (Nat × List Snap)

/-- change one channel if it exists -/
def World.modify (w : World) (id : Nat) (f : Channel → Channel) : World :=
  { w with chans := fun i => if i = id then (w.chans i).map f else w.chans i }

/-- the pairs of a key-value list before its end mark -/
def pairs : List (Option Str × Option Str) → List (Str × Str)
  | (some k, some v) :: l => (k, v) :: pairs l
  | _ => []

/-- flush: write the buffer, and empty it if asked to; nothing if the channel does not exist -/
def World.flush (w : World) (id : Nat) (clear : Bool) : World :=
  match w.chans id with
  | none => w
  | some c => { w.modify id (fun c => if clear then { c with buf := [] } else c) with out := w.out ++ [(id, c.buf)] }

/-- each call and its result -/
def World.step (w : World) : Call → World × Res
  | .newSet l =>
    ({ w with sets := fun i => if i = w.nsets then some (fun k => lookup k (pairs (l.getD []))) else w.sets i, nsets := w.nsets + 1 }, .num w.nsets)
  | .setSet h k v => ({ w with sets := fun i => if i = h then (w.sets i).map fun m x => if x = k then some v else m x else w.sets i }, .unit)
  | .delSet h => ({ w with sets := fun i => if i = h then none else w.sets i }, .unit)
  | .create flags h =>
    match w.sets h with
    | none => (w, .unit)
    | some m =>
      ({ w with chans := fun i => if i = w.n then some ⟨m, flags.getLsbD 1, !flags.getLsbD 0, []⟩ else w.chans i, n := w.n + 1 }, .num w.n)
  | .delete id => ({ w with chans := fun i => if i = id then none else w.chans i }, .unit)
  | .activate id => (w.modify id fun c => { c with on := true }, .unit)
  | .deactivate id => (w.modify id fun c => { c with on := false }, .unit)
  | .isActive id => (w, .num (if (w.chans id).any (·.on) then 1 else 0))
  | .flush o =>
    match w.dflt with
    | none => (w, .unit)
    | some d => (w.flush d (o.getLsbD 0), .unit)
  | .chFlush id o => (w.flush id (o.getLsbD 0), .unit)
  | .push n l => ({ w with chans := fun i => (w.chans i).map fun c => if c.on then { c with buf := c.buf ++ [l.take n.toNat] } else c }, .unit)
  | .chPush id n l => (w.modify id fun c => if c.on then { c with buf := c.buf ++ [l.take n.toNat] } else c, .unit)
  | .report id q o =>
    match w.chans id with
    | none => (w, .unit)
    | some c => (if o.getLsbD 0 && q then w.modify id fun c => { c with buf := [] } else w, if q then .recs c.buf else .unit)

/-- histories -/
def World.run (w : World) : List Call → World × List Res
  | [] => (w, [])
  | c :: cs => ((w.step c).1.run cs |>.1, (w.step c).2 :: ((w.step c).1.run cs).2)

/-- at start-up -/
def World.init (dflt : Option Config) : World :=
  ⟨fun i => if i = 0 then dflt.map fun m => ⟨m, true, true, []⟩ else none, if dflt.isSome then 1 else 0, dflt.map fun _ => 0, fun _ => none, 0, []⟩

/-- the calls the result is about: config sets exist; a key occurs once in a list; at most 64 entries; flushes of channels that exist; the
buffer is not to be emptied by a report; `cali_flush` only with a default channel -/
def Fine (w : World) : Call → Prop
  | .newSet l => ((pairs (l.getD [])).map Prod.fst).Nodup
  | .setSet h _ _ | .delSet h | .create _ h => w.sets h ≠ none
  | .chFlush id _ => w.chans id ≠ none
  | .push n _ | .chPush _ n _ => n ≤ 64
  | .report _ _ o => o.getLsbD 0 = false
  | .flush _ => w.dflt ≠ none
  | _ => True

/-- all calls of a history are fine -/
def AllFine : World → List Call → Prop
  | _, [] => True
  | w, c :: cs => Fine w c ∧ AllFine (w.step c).1 cs

end Verif.Capi.Chn
