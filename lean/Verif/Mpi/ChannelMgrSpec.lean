import Verif.Mpi.ChannelMgr

/-! # What an `MpiChannelManager` is expected to do, from the calls alone -/

namespace Verif.Mpi.CM

/-- the channel of an `add` call -/
def addArg : Op → Option Nat
  | .add k => k
  | _ => none

/-- the channels added, each with the number of its `add` call -/
def added : List Op → List (Nat × Nat)
  | ops => ((ops.filterMap addArg).zipIdx).map fun p => (p.2, p.1)

/-- the controller that stands for an added channel: its own copy for a channel with an mpireport query -/
def objOf (kind : Nat → Kind) (p : Nat × Nat) : Obj := if kind p.2 = .report then .copy p.1 p.2 else .src p.2

/-- the added channels with collective output, in the order of the calls -/
def collectives (kind : Nat → Kind) (ops : List Op) : List Obj := ((added ops).filter fun p => kind p.2 ≠ .serial).map (objOf kind)

/-- the other ones -/
def serials (kind : Nat → Kind) (ops : List Op) : List Obj := ((added ops).filter fun p => kind p.2 = .serial).map (objOf kind)

/-- the channels of the collective flushes a process takes part in, one after the other -/
def rounds (l : List Ev) : List Nat := l.filterMap fun | .collective o => some o.source | _ => none

end Verif.Mpi.CM
