import Verif.Channel.Model
import Verif.Runtime.Spec
/-!
# Specification of channels

Which channels exist and which are on depends only on the history of channel calls.
-/
namespace Verif.Chan
open RT

/-- number of channels created, the existing ones, the ones switched on -/
structure Spec where
  n : Nat
  alive : Nat → Bool
  on : Nat → Bool

/-- nothing yet -/
def Spec.init : Spec := ⟨0, fun _ => false, fun _ => false⟩

/-- effect of a call -/
def Spec.step (p : Spec) : Op → Spec
  | .create => { p with n := p.n + 1, alive := BB.upd p.alive p.n true }
  | .activate c => { p with on := BB.upd p.on c true }
  | .deactivate c => { p with on := BB.upd p.on c false }
  | .delete c => { p with on := BB.upd p.on c false, alive := BB.upd p.alive c false }
  | .finalize => { p with on := fun c => p.on c && !p.alive c, alive := fun _ => false }
  | .releaseThread => p
  | .ann _ => p

/-- effect of a history -/
def spec (ops : List Op) : Spec := ops.foldl Spec.step Spec.init

/-- the calls of a history are for channels that exist at that point -/
def Proper : Spec → List Op → Prop
  | _, [] => True
  | p, op :: ops => (match op with
      | .activate c | .deactivate c | .delete c => p.alive c = true
      | _ => True) ∧ Proper (p.step op) ops

/-- the events `e` due on channel `e.ch` for an annotation: one of each of the given kinds if the channel is on and the attribute does
not skip events -/
def Due (on : Nat → Bool) (a : Attr) (th : Nat) (v : Val) (ks : List EvKind) (e : Event) : Prop :=
  on e.ch = true ∧ a.skipEvents = false ∧ e.kind ∈ ks ∧ e.th = th ∧ e.attr = a.id ∧ e.val = v

/-- the callbacks invoked between two states: exactly one for each due event, and nothing else -/
def ExactlyDue (s s' : State) (due : Event → Prop) : Prop :=
  ∃ new, s'.rt.log = s.rt.log ++ new ∧ ∀ e, (due e → new.count e = 1) ∧ (¬ due e → new.count e = 0)

end Verif.Chan
