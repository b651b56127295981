import Verif.Serv.Variorum

/-! # What the variorum service is to record -/

namespace Verif.Serv.Variorum
open Verif Verif.Cali

/-- a history of snapshots: the thread and what the library reports for each domain -/
abbrev Hist := List (Nat × (Str → Option (BitVec 64)))

/-- the last successful reading of a domain in a thread's snapshots, 0 if there is none -/
def lastRead (th : Nat) (d : Str) (h : Hist) : BitVec 64 :=
  ((h.filter fun x => x.1 = th).reverse.findSome? fun x => x.2 d).getD 0

/-- the entries for a domain in a snapshot after the snapshots `h`: the reading, and the average of it and the last one -/
def wanted (d : Str) (h : Hist) (th : Nat) (read : Str → Option (BitVec 64)) : List (Str × BitVec 64) :=
  match read d with
  | none => []
  | some v => [(str "variorum.val." ++ d, v), (str "variorum." ++ d, BitVec.ofNat 64 ((v.toNat + (lastRead th d h).toNat) / 2))]

/-- the number of failures -/
def failures (ds : List Str) (h : Hist) : Nat := (h.map fun x => (ds.filter fun d => x.2 d = none).length).sum

end Verif.Serv.Variorum
