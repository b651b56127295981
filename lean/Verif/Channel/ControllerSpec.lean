import Verif.Channel.Controller
import Verif.Channel.Spec
/-!
# What a user expects of channel controllers
-/
namespace Verif.Chan
open RT

/-- a controller has no channel, a stopped one, or a running one -/
inductive Status where
  | nothing | stopped | running
  deriving DecidableEq

/-- effect of a call on the controllers -/
def Status.next (st : Nat → Status) : COp → Nat → Status
  | .start k => BB.upd st k .running
  | .stop k | .deactivate k => BB.upd st k (if st k = .nothing then .nothing else .stopped)
  | .activate k => BB.upd st k (if st k = .nothing then .nothing else .running)
  | .destroy k | .delete k => BB.upd st k .nothing
  | .release => fun _ => .nothing
  | .flush _ | .hold _ | .connect _ | .other _ => st

/-- effect of a history -/
def status (ops : List COp) : Nat → Status := ops.foldl Status.next fun _ => .nothing

/-- the calls are allowed: nothing is started and no runtime call is made after `release`; runtime calls with a channel are for existing channels that do not belong to a
controller (for those there are the calls with a controller); a controller whose channel has further finish callbacks is not destroyed while nobody else holds the channel -/
def Allowed (t : MTree.Tree) (s : CS) : COp → Prop
  | .start k => s.released = true → s.own k ≠ none
  | .destroy k => ∀ c, s.own k = some c → s.late c = true → s.held c = true
  | .other op => s.released = false ∧ (match op with
      | .activate c | .deactivate c | .delete c => (spec s.hist).alive c = true ∧ ∀ k, s.own k ≠ some c
      | .finalize => False
      | _ => True)
  | _ => True

/-- all calls of a history are allowed -/
def AllowedAll (t : MTree.Tree) : CS → List COp → Prop
  | _, [] => True
  | s, op :: ops => Allowed t s op ∧ ∀ s', s.step t op = some s' → AllowedAll t s' ops

end Verif.Chan
