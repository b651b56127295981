import Verif.Mpi.Messages
import Mathlib.Data.List.Dedup
/-!
# What message tracing should report

The messages and collectives of a program, from the meaning of the MPI calls: an own account of the requests that are live.
-/
namespace Verif.MpiMsg
open Verif

/-- a request, as MPI sees it -/
structure Req where
  recv : Bool
  persistent : Bool
  /-- started and not completed -/
  active : Bool
  ty : Nat
  comm : Comm
  /-- of a send -/
  count : Int := 0
  dst : Int := 0
  tag : Int := 0
  deriving DecidableEq

/-- what happened; sizes in bytes -/
inductive MEv where
  | sent (c : Comm) (dst tag bytes : Int)
  | received (c : Comm) (src tag bytes : Int)
  | coll (c : Comm) (k : CKind) (bytes root : Int)
  | begin
  | fin
  deriving DecidableEq

/-- the live requests -/
abbrev Live := Nat → Option Req

/-- Request `h` completes.  An active request that receives has received a message unless it was cancelled.  Afterwards the request does not exist any more, or is
inactive if it is persistent.  Nothing happens for null handles and inactive requests. -/
def complete (L : Live) (h : Nat) (st : Status) : Live × List MEv :=
  match L h with
  | none => (L, [])
  | some r =>
    if r.active then
      (BB.upd L h (if r.persistent then some { r with active := false } else none),
       if r.recv && !st.cancelled then [.received r.comm st.src st.tag st.bytes] else [])
    else (L, [])

/-- several requests complete -/
def completes (L : Live) : List (Nat × Status) → Live × List MEv
  | [] => (L, [])
  | (h, st) :: l =>
    let x := complete L h st
    let y := completes x.1 l
    (y.1, x.2 ++ y.2)

/-- persistent requests are started: a send sends its message -/
def starts (L : Live) : List Nat → Live × List MEv
  | [] => (L, [])
  | h :: hs =>
    match L h with
    | none => starts L hs
    | some r =>
      let y := starts (BB.upd L h (some { r with active := true })) hs
      (y.1, (if r.recv then [] else [.sent r.comm r.dst r.tag (r.ty * r.count)]) ++ y.2)

/-- number of bytes this process sends in a collective -/
def Coll.bytes (c : Comm) : Coll → Int
  | .barrier => 0
  | .bcast n ty root => if c.rank = root then n * ty else 0
  | .scatter n ty root => if c.rank = root then c.ranks.length * n * (ty.getD 0) else 0
  | .scatterv counts _ ty root => if c.rank = root then (counts.getD []).sum * (ty.getD 0) else 0
  | .gather n ty root => if c.rank = root then 0 else n * ty
  | .gatherv n ty root => if c.rank = root then 0 else n * ty
  | .reduce n ty root => if c.rank = root then 0 else n * ty
  | .scan n ty => n * ty
  | .allreduce n ty => n * ty
  | .allgather n ty => n * ty
  | .allgatherv n ty => n * ty
  | .reduceScatter counts ty => counts.sum * ty
  | .alltoall n ty => c.ranks.length * n * ty
  | .alltoallv counts ty => counts.sum * ty

/-- type of a collective, and its root (0 if it has none) -/
def Coll.kind : Coll → CKind × Int
  | .barrier => (.barrier, 0)
  | .bcast _ _ root => (.oneToN, root)
  | .scatter _ _ root => (.oneToN, root)
  | .scatterv _ _ _ root => (.oneToN, root)
  | .gather _ _ root => (.nToOne, root)
  | .gatherv _ _ root => (.nToOne, root)
  | .reduce _ _ root => (.nToOne, root)
  | _ => (.nxn, 0)

/-- the requests a completion call completes, with their statuses: `MPI_Waitany` names one by index (or none), `MPI_Waitsome` gives the status of the k-th
completed request at position k -/
def Call.completed : Call → List (Nat × Status)
  | .wait h st => [(h, st)]
  | .waitall hs sts => hs.zip sts
  | .waitany hs i st => if i < 0 then [] else ((hs[i.toNat]?).map fun h => (h, st)).toList
  | .waitsome hs idx sts => (idx.zip sts).filterMap fun p => (hs[p.1]?).map fun h => (h, p.2)
  | .test h flag st => if flag then [(h, st)] else []
  | .testall hs flag sts => if flag then hs.zip sts else []
  | .testany hs flag i st => if flag && decide (0 ≤ i) then ((hs[i.toNat]?).map fun h => (h, st)).toList else []
  | _ => []

/-- the effect of a call on the requests, and what is sent and received in it -/
def effect (L : Live) : Call → Live × List MEv
  | .send n ty dst tag c h =>
    (match h with
     | none => L
     | some h => BB.upd L h (some ⟨false, false, true, ty, c, n, dst, tag⟩), [.sent c dst tag (ty * n)])
  | .sendInit n ty dst tag c h => (BB.upd L h (some ⟨false, true, false, ty, c, n, dst, tag⟩), [])
  | .recv _ c st => (L, [.received c st.src st.tag st.bytes])
  | .irecv ty c h => (BB.upd L h (some ⟨true, false, true, ty, c, 0, 0, 0⟩), [])
  | .recvInit ty c h => (BB.upd L h (some ⟨true, true, false, ty, c, 0, 0, 0⟩), [])
  | .sendrecv n sty dst tag _ c st => (L, [.sent c dst tag (sty * n), .received c st.src st.tag st.bytes])
  | .start hs => starts L hs
  | .requestFree h => (BB.upd L h none, [])
  | .coll k c => (L, [.coll c k.kind.1 (k.bytes c) k.kind.2])
  | call => completes L call.completed

/-- all steps: what the channel should see -/
def events (L : Live) : List Step → List MEv
  | [] => []
  | .call seen c :: l => (if seen then (effect L c).2 else []) ++ events (effect L c).1 l
  | .begin :: l => .begin :: events L l
  | .fin :: l => .fin :: events L l

/-- the communicators of a call -/
def Call.comms : Call → List Comm
  | .send _ _ _ _ c _ => [c]
  | .sendInit _ _ _ _ c _ => [c]
  | .recv _ c _ => [c]
  | .irecv _ c _ => [c]
  | .recvInit _ c _ => [c]
  | .sendrecv _ _ _ _ _ c _ => [c]
  | .coll _ c => [c]
  | _ => []

/-- in the range of an `int` -/
def Fits (x : Int) : Prop := -2 ^ 31 ≤ x ∧ x < 2 ^ 31

/-- a message of whole elements of size `ty`, and not too long -/
def Whole (ty : Nat) (st : Status) : Prop := ty ∣ st.bytes ∧ (ty = 0 → st.bytes = 0) ∧ Fits st.bytes

/-- completions for which the wrapper reports the right thing: no cancelled receives, no waiting for inactive receives, whole elements -/
def PlainCompl (L : Live) : List (Nat × Status) → Prop
  | [] => True
  | (h, st) :: l => (∀ r, L h = some r → r.recv = true → r.active = true ∧ st.cancelled = false ∧ Whole r.ty st) ∧ PlainCompl (complete L h st).1 l

/-- collectives for which the wrapper reports the right thing -/
def Coll.Plain (c : Comm) : Coll → Prop
  | .barrier => True
  | .scatter n (some ty) root => (c.rank = root → c.ranks.length = 1) ∧ Fits (n * ty)
  | .scatter _ none _ => False
  | .scatterv .. => False
  | .reduceScatter counts ty => c.ranks.length = 1 ∧ c.rank = 0 ∧ counts.length = 1 ∧ Fits (counts.sum * ty)
  | .alltoall n ty => Fits (c.ranks.length * n) ∧ Fits (c.ranks.length * n * ty)
  | .alltoallv counts ty => (∀ x ∈ counts, 0 ≤ x) ∧ Fits counts.sum ∧ Fits (counts.sum * ty)
  | .bcast n ty _ => Fits (n * ty)
  | .gather n ty _ => Fits (n * ty)
  | .gatherv n ty _ => Fits (n * ty)
  | .reduce n ty _ => Fits (n * ty)
  | .scan n ty => Fits (n * ty)
  | .allreduce n ty => Fits (n * ty)
  | .allgather n ty => Fits (n * ty)
  | .allgatherv n ty => Fits (n * ty)

/-- the call is one MPI allows in this state and the wrapper handles: new requests have handles that are not in use, messages are shorter than 2 GB, and the
restrictions above; `MPI_Waitany` and `MPI_Testany` find a request; `MPI_Waitsome`: the statuses of the completed requests stand also at the positions of these requests, as
when they are the first ones of the array -/
def Call.Plain (L : Live) : Call → Prop
  | .send n ty _ _ _ h => Fits (ty * n) ∧ ∀ h', h = some h' → L h' = none
  | .sendInit n ty _ _ _ h => Fits (ty * n) ∧ L h = none
  | .recv ty _ st => Whole ty st
  | .irecv _ _ h => L h = none
  | .recvInit _ _ h => L h = none
  | .sendrecv n sty _ _ rty _ st => Fits (sty * n) ∧ Whole rty st
  | .start hs => hs.Nodup ∧ ∀ h ∈ hs, ∃ r, L h = some r ∧ r.persistent = true ∧ r.active = false
  | .waitany hs i st => (hs ≠ [] → 0 ≤ i ∧ i < hs.length) ∧ PlainCompl L (Call.completed (.waitany hs i st))
  | .waitsome hs idx sts => (∀ k ∈ idx, k < hs.length) ∧ sts.length = hs.length ∧ idx.length ≤ sts.length ∧
      (∀ (k i : Nat), idx[k]? = some i → sts[i]? = sts[k]?) ∧
      PlainCompl L (Call.completed (.waitsome hs idx sts))
  | .testany hs flag i st => (flag = true → 0 ≤ i ∧ i < hs.length) ∧ PlainCompl L (Call.completed (.testany hs flag i st))
  | .requestFree h => ∃ r, L h = some r
  | .coll k c => k.Plain c
  | call => PlainCompl L call.completed

/-- calls that create, complete or free requests the service keeps track of -/
def Call.managed : Call → Bool
  | .send .. => false
  | .recv .. => false
  | .sendrecv .. => false
  | .start .. => false
  | .coll .. => false
  | _ => true

/-- the whole program: every call is fine, and the service sees all calls that manage requests -/
def Plain (L : Live) : List Step → Prop
  | [] => True
  | .call seen c :: l => c.Plain L ∧ (c.managed = true → seen = true) ∧ Plain (effect L c).1 l
  | .begin :: l => Plain L l
  | .fin :: l => Plain L l

/-- no communicator handle is used for two communicators -/
def HandlesOk (l : List Step) : Prop :=
  ∀ s1 ∈ l, ∀ s2 ∈ l, ∀ b1 c1 b2 c2, s1 = .call b1 c1 → s2 = .call b2 c2 → ∀ x ∈ c1.comms, ∀ y ∈ c2.comms,
    (x.handle = y.handle → x = y) ∧ (x.uid = y.uid → x = y)

/-- the record for a message or collective; `ids`: number of a communicator.  Barriers have no size, only rooted collectives have a root. -/
def record (W : Nat) (ids : Nat → Nat) : MEv → Option TEv
  | .sent c dst tag n => some (.sent (desc c) dst tag n)
  | .received c src tag n => some (.received (desc c) src tag n)
  | .coll c .barrier _ _ => some (.coll (desc c) .barrier none none)
  | .coll c .nxn n _ => some (.coll (desc c) .nxn (some n) none)
  | .coll c .oneToN n root => some (.coll (desc c) .oneToN (some n) (some root))
  | .coll c .nToOne n root => some (.coll (desc c) .nToOne (some n) (some root))
  | .begin => none
  | .fin => none
where
  /-- the description of the communicator: for a communicator with all processes in order `is_world`, otherwise the ranks -/
  desc (c : Comm) : CNode :=
    if c.ranks = (List.range W).map Int.ofNat then ⟨W, true, [], ids c.uid⟩ else ⟨c.ranks.length, false, c.ranks, ids c.uid⟩

/-- the communicator of a message or collective -/
def MEv.comm? : MEv → Option Comm
  | .sent c _ _ _ => some c
  | .received c _ _ _ => some c
  | .coll c _ _ _ => some c
  | .begin => none
  | .fin => none

/-- totals of the messages and collectives in a list of events -/
def totals (l : List MEv) : Report where
  sends := (l.countP fun e => match e with | .sent .. => true | _ => false : Nat)
  recvs := (l.countP fun e => match e with | .received .. => true | _ => false : Nat)
  colls := (l.countP fun e => match e with | .coll .. => true | _ => false : Nat)
  dests := ((l.filterMap fun e => match e with | .sent _ d _ _ => some d | _ => none).dedup).length
  srcs := ((l.filterMap fun e => match e with | .received _ d _ _ => some d | _ => none).dedup).length
  recvSize := (l.map fun e => match e with | .received _ _ _ n => n | _ => 0).sum
  sendSize := (l.map fun e => match e with | .sent _ _ _ n => n | _ => 0).sum
  collSize := (l.map fun e => match e with | .coll _ _ n _ => n | _ => 0).sum

/-- an `int` report -/
def Report.Fits (r : Report) : Prop :=
  MpiMsg.Fits r.sends ∧ MpiMsg.Fits r.recvs ∧ MpiMsg.Fits r.colls ∧ MpiMsg.Fits r.recvSize ∧ MpiMsg.Fits r.sendSize ∧ MpiMsg.Fits r.collSize

/-- begin or end of a region -/
def MEv.isMark : MEv → Bool
  | .begin => true
  | .fin => true
  | _ => false

end Verif.MpiMsg
