import Verif.Serv.RegionMonitor
/-!
# What region_monitor should measure
-/
namespace Verif.Serv.RegionMonitor

/-- the regions a thread executes: nothing; an event of an attribute that is not nested; an execution of region `node` from `t0` to `t1`, with what runs inside it, and what follows -/
inductive Forest where
  | nil
  | other (e : Ev) (rest : Forest)
  | region (node : Nat) (t0 t1 : Int) (inside rest : Forest)

/-- only events of attributes that are not nested are taken as `other` -/
def Forest.Ok : Forest → Prop
  | .nil => True
  | .other e rest => (match e with | .begin_ n _ _ => n = false | .end_ n _ _ _ => n = false) ∧ rest.Ok
  | .region _ _ _ k rest => k.Ok ∧ rest.Ok

/-- the events, inside region `parent` -/
def Forest.events (parent : Option Nat) : Forest → List Ev
  | .nil => []
  | .other e rest => e :: rest.events parent
  | .region n t0 t1 k rest => .begin_ true (some n) t0 :: (k.events (some n) ++ .end_ true (some n) parent t1 :: rest.events parent)

/-- an execution that has been observed: region, enclosing region, duration -/
structure Obs where
  node : Nat
  parent : Option Nat
  time : Int
  deriving DecidableEq, Repr

/-- duration of the last execution of a region that was longer than the interval, 0 if there is none -/
def lastTime (min : Int) (h : List Obs) (n : Nat) : Int := (h.filter fun o => decide (o.node = n ∧ o.time > min)).getLast?.elim 0 Obs.time

/-- total duration of the executions directly inside a region that were longer than the interval -/
def insideTime (min : Int) (h : List Obs) (n : Nat) : Int := ((h.filter fun o => decide (o.parent = some n ∧ o.time > min)).map Obs.time).sum

/-- a region is worth measuring: more than half of its time is its own -/
def Wanted (min : Int) (h : List Obs) (n : Nat) : Prop := lastTime min h n > 2 * insideTime min h n
instance (min : Int) (h : List Obs) (n : Nat) : Decidable (Wanted min h n) := by unfold Wanted; infer_instance

/-- the executions that are measured (region, begin, end), and those that have been observed: an execution is measured if the region is worth measuring by what was observed so far,
and what runs inside a measured execution is neither measured nor observed -/
def Forest.measured (min : Int) (parent : Option Nat) : Forest → List Obs → List Obs × List (Nat × Int × Int)
  | .nil, h => (h, [])
  | .other _ rest, h => rest.measured min parent h
  | .region n t0 t1 k rest, h =>
    if Wanted min h n then
      let (h', l) := rest.measured min parent (h ++ [⟨n, parent, t1 - t0⟩])
      (h', (n, t0, t1) :: l)
    else
      let (h1, l1) := k.measured min (some n) h
      let (h2, l2) := rest.measured min parent (h1 ++ [⟨n, parent, t1 - t0⟩])
      (h2, l1 ++ l2)

/-- all executions (region, begin, end) -/
def Forest.executions : Forest → List (Nat × Int × Int)
  | .nil => []
  | .other _ rest => rest.executions
  | .region n t0 t1 k rest => (n, t0, t1) :: (k.executions ++ rest.executions)

/-- the two snapshots of a measurement -/
def pair (x : Nat × Int × Int) : List Snap := [.pull x.1 x.2.1, .push (some x.1) x.2.2]

end Verif.Serv.RegionMonitor
