import Verif.Cali.Text

/-! # The variorum service

Model of `src/services/variorum/Variorum.cpp`. What the Variorum library reports is an input: for each snapshot and domain a whole number of watts, or a failure.
A record is the list of its entries, keyed by the name of the attribute; the hidden attribute's value on the blackboard of a thread is a
map from its name (C13). Not modelled: the limit of a snapshot record (C20), the leak of the text buffer when the library fails. -/

namespace Verif.Serv.Variorum
open Verif Verif.Cali

abbrev Str := List Byte

/-- `MeasurementInfo` (Variorum.cpp:75-83): the domain and the names of its three attributes -/
structure Info where
  domain : Str
  value : Str
  delta : Str
  prval : Str
deriving DecidableEq, Repr

/-- one turn of the loop in `create_measurement_info` (Variorum.cpp:169-206) -/
def setAttrs (chn : Nat) (m : Info) (domain : Str) : Info :=
  { m with value := str "variorum.val." ++ domain, delta := str "variorum." ++ domain,
           prval := str "variorum.pv." ++ str (toString chn) ++ domain }

/-- `create_measurement_info` (Variorum.cpp:149-209): the loop goes over all configured domains -/
def createInfo (chn : Nat) (domains : List Str) (domain : Str) : Info := domains.foldl (setAttrs chn) ⟨domain, [], [], []⟩

/-- `m_info` (Variorum.cpp:211-238) -/
def infos (chn : Nat) (domains : List Str) : List Info := domains.map (createInfo chn domains)

/-- the blackboards' hidden values (0: none, `Variant().to_uint()`) and `m_num_errors` -/
structure VSt where
  prev : Nat → Str → BitVec 64
  errors : Nat

/-- at the start -/
def VSt.new : VSt := ⟨fun _ _ => 0, 0⟩

/-- the loop of `snapshot_cb` (Variorum.cpp:103-130) -/
def snapLoop (th : Nat) (read : Str → Option (BitVec 64)) : List Info → VSt → List (Str × BitVec 64) × VSt
  | [], s => ([], s)
  | m :: l, s =>
    match read m.domain with
    | none => snapLoop th read l { s with errors := s.errors + 1 }
    | some v =>
      let r := snapLoop th read l { s with prev := fun t a => if t = th ∧ a = m.prval then v else s.prev t a }
      ((m.value, v) :: (m.delta, (v + s.prev th m.prval) / 2#64) :: r.1, r.2)

/-- snapshots of any threads (Variorum.cpp:89-131): the entries the service adds to each -/
def run (ms : List Info) : VSt → List (Nat × (Str → Option (BitVec 64))) → List (List (Str × BitVec 64)) × VSt
  | s, [] => ([], s)
  | s, (th, read) :: h =>
    let r := snapLoop th read ms s
    let q := run ms r.2 h
    (r.1 :: q.1, q.2)

end Verif.Serv.Variorum
