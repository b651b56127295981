import Verif.Serv.Event
import Verif.Runtime.Spec
/-!
# Specification of the event and timer services
-/
namespace Verif.Serv
open Verif RT Verif.Parse

/-- the attributes the user selected to trigger snapshots: not built-in, not marked skip-events, named in the trigger list (if there is
one), and at least of the minimum level -/
def Selected (C : EvtCfg) (a : AttrInfo) : Prop :=
  12 ≤ a.id ∧ a.skip = false ∧ (C.names = [] ∨ a.name ∈ C.names) ∧ C.level ≤ a.level

/-- attribute `i` was selected and announced to the channel: it existed when the channel was created or was created later, or, for
subscription attributes, was subscribed to -/
def Announced (C : EvtCfg) (attrs : List AttrInfo) (h : List (BitVec 64 × COp)) (i : Nat) : Prop :=
  ∃ a : AttrInfo, a.id = i ∧ Selected C a ∧
    ((a.subs = false ∧ (a ∈ attrs ∨ ∃ t, (t, COp.create a) ∈ h)) ∨ ∃ t, (t, COp.subscribe a) ∈ h)

/-- the region (attribute, value) passes the region filter; only string values are filtered -/
def Passes (raw : BitVec 64 → List Byte) (C : EvtCfg) (a : Nat) (v : Val) : Prop :=
  C.isStr a = true → C.region.pass (bytesOf raw v) = true

/-- the snapshot requested for a begin, set or end event -/
def wanted (C : EvtCfg) (e : Event) : Option Req :=
  match e.kind with
  | .preBegin => some ⟨if C.info then some (.begin e.attr e.val) else none, false⟩
  | .preSet => some ⟨if C.info then some (.set e.attr e.val) else none, false⟩
  | .preEnd => some ⟨if C.info then some (.end_ e.attr e.val) else none, true⟩
  | .postBegin => none

/-- properly nested begin and end events of one thread, between other snapshots; `st` are the open regions, outermost first -/
inductive NestedEv (ch th : Nat) : List (BitVec 64 × COp) → List (Nat × Val) → Prop where
  | nil : NestedEv ch th [] []
  | begin {h st} (t : BitVec 64) (a : Nat) (v : Val) : NestedEv ch th h st →
      NestedEv ch th (h ++ [(t, .event ⟨.preBegin, ch, th, a, v⟩)]) (st ++ [(a, v)])
  | end_ {h st} (t : BitVec 64) (a : Nat) (v : Val) : NestedEv ch th h (st ++ [(a, v)]) →
      NestedEv ch th (h ++ [(t, .event ⟨.preEnd, ch, th, a, v⟩)]) st
  | post {h st} (t : BitVec 64) (a : Nat) (v : Val) : NestedEv ch th h st →
      NestedEv ch th (h ++ [(t, .event ⟨.postBegin, ch, th, a, v⟩)]) st
  | snap {h st} (t : BitVec 64) (th' : Nat) (sig : Bool) (i : Option Trig) : NestedEv ch th h st →
      NestedEv ch th (h ++ [(t, .snap th' sig i)]) st

/-! ### time -/

/-- begin (with time) or end -/
inductive Ev where
  | b (t : BitVec 64)
  | e

/-- the begin and end snapshots of attribute `a` among the snapshots of thread `th`, with their time stamps; snapshots taken in
signal handlers do not count -/
def evs (th a : Nat) : List Snap → List Ev
  | [] => []
  | s :: r =>
    if s.th = th ∧ s.sig = false then
      match s.info with
      | some (.begin x _) => if x = a then .b s.time.offset :: evs th a r else evs th a r
      | some (.end_ x _) => if x = a then .e :: evs th a r else evs th a r
      | _ => evs th a r
    else evs th a r

/-- balanced begin/end sequences -/
inductive Bal : List Ev → Prop where
  | nil : Bal []
  | wrap {w} (t : BitVec 64) : Bal w → Bal (.b t :: (w ++ [.e]))
  | append {v w} : Bal v → Bal w → Bal (v ++ w)

/-- sequences after which no begin is open: balanced pieces and surplus ends -/
inductive Drained : List Ev → Prop where
  | nil : Drained []
  | bal {w b} : Drained w → Bal b → Drained (w ++ b)
  | surplus {w} : Drained w → Drained (w ++ [.e])

/-- the durations recorded by a thread's snapshots -/
def durations (th : Nat) (l : List Snap) : List (BitVec 64) := (l.filter fun s => decide (s.th = th)).filterMap fun s => s.time.duration

/-- time stamps of the thread's snapshots that have a duration -/
def stamps (th : Nat) (l : List Snap) : List (BitVec 64) :=
  (l.filter fun s => decide (s.th = th) && s.time.duration.isSome).map fun s => s.time.offset

/-- time stamps (nanoseconds) that do not decrease and fit in 64 bits -/
def Clock (h : List (Nat × COp)) : Prop := (h.map Prod.fst).Pairwise (· ≤ ·) ∧ ∀ x ∈ h, x.1 < 2 ^ 64

/-- the same history with machine time stamps -/
def machine (h : List (Nat × COp)) : List (BitVec 64 × COp) := h.map fun x => (BitVec.ofNat 64 x.1, x.2)

/-! ### annotation calls with time stamps -/

/-- the callbacks of a timed history of annotation calls: each callback carries the time of its call -/
def callbacks : RT.State → List (Nat × RT.Op) → List (Nat × Event)
  | _, [] => []
  | s, (t, op) :: r => ((RT.step s op).log.drop s.log.length).map (fun e => (t, e)) ++ callbacks (RT.step s op) r

/-- what channel `ch` gets from them -/
def onChannel (ch : Nat) (l : List (Nat × Event)) : List (Nat × COp) :=
  (l.filter fun x => decide (x.2.ch = ch)).map fun x => (x.1, COp.event x.2)

end Verif.Serv
