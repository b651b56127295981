import Verif.Mpi.MessagesSinks
/-!
# C81, C82: MPI messages
-/
namespace Verif.MpiMsg
open Verif

/-- no requests -/
def noReq : Live := fun _ => none

/-- **C81** (partial: for the calls of `Plain`, calls one at a time; see the violations).  The records of the message tracing service are exactly the messages sent and
received and the collectives, in the order in which they are started or completed, each with partner, tag, size in bytes and a description of its communicator; different
communicators get different numbers; no memory outside the arguments is touched. -/
theorem C81_messages_partial (W : Nat) (l : List Step) (hp : Plain noReq l) (hh : HandlesOk l) :
    (run (tracing W) ⟨Trc.init, fun _ => none, false⟩ l).bad = false ∧
    ∃ ids : Nat → Nat,
      (∀ e ∈ events noReq l, ∀ e' ∈ events noReq l, ∀ x y, e.comm? = some x → e'.comm? = some y → ids x.uid = ids y.uid → x = y) ∧
      (run (tracing W) ⟨Trc.init, fun _ => none, false⟩ l).sink.out = (events noReq l).filterMap (record W ids) := by
  let U : Comm → Prop := fun x => ∃ b c, Step.call b c ∈ l ∧ x ∈ c.comms
  have hU : ∀ x y, U x → U y → (x.handle = y.handle → x = y) ∧ (x.uid = y.uid → x = y) := by
    rintro x y ⟨b1, c1, h1, hx⟩ ⟨b2, c2, h2, hy⟩
    exact hh _ h1 _ h2 b1 c1 b2 c2 rfl rfl x hx y hy
  have h0 : Sim (TInv W U) (TKnow U) noReq ⟨Trc.init, fun _ => none, false⟩ [] := by
    refine ⟨⟨fun _ => 0, ?_, ?_, rfl, fun e he => nomatch he⟩, rfl, fun h => rfl⟩
    · intro c _ n h; exact nomatch h
    · intro c c' _ _ h; exact absurd rfl h
  obtain ⟨⟨ids, -, i2, i3, i4⟩, hb⟩ := sim_run (tracing_ok W U hU) l h0 hp fun b c hm x hx => ⟨b, c, hm, hx⟩
  refine ⟨hb, ids, ?_, by simpa using i3⟩
  intro e he e' he' x y hx hy hxy
  obtain ⟨a1, a2⟩ := i4 e (by simpa using he) x hx
  obtain ⟨b1, b2⟩ := i4 e' (by simpa using he') y hy
  exact i2 x y a1 b1 a2 b2 hxy

/-- **C82** (partial: as C81, for regions without regions inside and totals in the range of an `int`).  One report is made at each end of a communication region, and it has
the numbers of messages sent and received and of collectives between begin and end, their bytes, and the numbers of different destinations and sources. -/
theorem C82_totals_partial (l : List Step) (hp : Plain noReq l) :
    (run pattern ⟨{}, fun _ => none, false⟩ l).bad = false ∧
    (run pattern ⟨{}, fun _ => none, false⟩ l).sink.out.length = (events noReq l).countP (fun e => decide (e = .fin)) ∧
    ∀ pre mid post, events noReq l = pre ++ .begin :: mid ++ .fin :: post → (∀ e ∈ mid, e.isMark = false) → (totals mid).Fits →
      (run pattern ⟨{}, fun _ => none, false⟩ l).sink.out[pre.countP (fun e => decide (e = .fin))]? = some (totals mid) := by
  have h0 : Sim (fun p evs => p = evs.foldl pstep {}) (fun _ _ _ => True) noReq (⟨{}, fun _ => none, false⟩ : St Pat Unit) [] :=
    ⟨rfl, rfl, fun h => rfl⟩
  obtain ⟨hi, hb⟩ := sim_run pattern_ok l h0 hp fun _ _ _ _ _ => trivial
  rw [List.nil_append] at hi
  rw [hi]
  refine ⟨hb, ?_, fun pre mid post he hm hf => fold_report he hm hf⟩
  obtain ⟨rs, h1, h2⟩ := fold_out (events noReq l) {}
  rw [h1]
  simpa using h2

/-! ## A case -/

/-- the world communicator of 4 processes -/
def cw : Comm := ⟨0, 100, 1, [0, 1, 2, 3]⟩
/-- a sub-communicator -/
def cs : Comm := ⟨1, 101, 0, [1, 3]⟩

/-- a status -/
def stx (src tag : Int) (bytes : Nat) : Status := ⟨src, tag, bytes, false⟩

/-- a program: a region with non-blocking and persistent requests in two communicators and collectives; the second send is not seen by the channel -/
def prog : List Step :=
  [.call true (.recvInit 4 cs 9), .begin,
   .call true (.irecv 8 cw 5), .call true (.send 3 8 2 77 cw (some 6)), .call true (.start [9]), .call false (.send 1 8 3 1 cs none),
   .call true (.waitall [5, 6, 9] [stx 0 7 16, stx 0 0 0, stx 1 8 12]),
   .call true (.coll (.allreduce 2 8) cw), .call true (.coll .barrier cs), .call true (.coll (.gather 5 4 1) cs), .fin,
   .call true (.start [9]), .call true (.test 9 true (stx 1 8 4)), .call true (.requestFree 9)]

example : events noReq prog =
    [.begin, .sent cw 2 77 24, .received cw 0 7 16, .received cs 1 8 12, .coll cw .nxn 16 0, .coll cs .barrier 0 0, .coll cs .nToOne 20 1, .fin, .received cs 1 8 4] := by
  decide +kernel

theorem prog_plain : Plain noReq prog := by
  refine ⟨rfl, fun _ => rfl, rfl, fun _ => rfl, ⟨by unfold Fits; decide, by intro h' e; cases e; rfl⟩, (fun h => nomatch h), ?_, (fun h => nomatch h),
    ⟨by unfold Fits; decide, (fun h' e => nomatch e)⟩, (fun h => nomatch h), ?_, fun _ => rfl, ?_, (fun h => nomatch h), trivial, (fun h => nomatch h),
    ?_, (fun h => nomatch h), ?_, (fun h => nomatch h), ?_, fun _ => rfl, ?_, fun _ => rfl, trivial⟩
  · exact ⟨by decide, by intro h hh; simp only [List.mem_singleton] at hh; subst hh; exact ⟨_, rfl, rfl, rfl⟩⟩
  · refine ⟨?_, ?_, ?_, trivial⟩
    · intro r hr _; cases hr; exact ⟨rfl, rfl, ⟨by decide, by decide, by unfold Fits; decide⟩⟩
    · intro r hr hrr; cases hr; exact nomatch hrr
    · intro r hr _; cases hr; exact ⟨rfl, rfl, ⟨by decide, by decide, by unfold Fits; decide⟩⟩
  · show Fits _; unfold Fits; decide
  · show Fits _; unfold Fits; decide
  · exact ⟨by decide, by intro h hh; simp only [List.mem_singleton] at hh; subst hh; exact ⟨_, rfl, rfl, rfl⟩⟩
  · refine ⟨?_, trivial⟩
    intro r hr _; cases hr; exact ⟨rfl, rfl, ⟨by decide, by decide, by unfold Fits; decide⟩⟩
  · exact ⟨_, rfl⟩

theorem prog_handles : HandlesOk prog := by
  have h : ∀ s1 ∈ prog, ∀ s2 ∈ prog, ∀ b1 c1 b2 c2, s1 = Step.call b1 c1 → s2 = Step.call b2 c2 → ∀ x ∈ c1.comms, x = cw ∨ x = cs := by
    intro s1 h1 s2 h2 b1 c1 b2 c2 e1 _ x hx
    subst e1
    simp only [prog, List.mem_cons, Step.call.injEq, reduceCtorEq, List.not_mem_nil, or_false, false_or] at h1
    rcases h1 with ⟨-, rfl⟩ | ⟨-, rfl⟩ | ⟨-, rfl⟩ | ⟨-, rfl⟩ | ⟨-, rfl⟩ | ⟨-, rfl⟩ | ⟨-, rfl⟩ | ⟨-, rfl⟩ | ⟨-, rfl⟩ | ⟨-, rfl⟩ | ⟨-, rfl⟩ | ⟨-, rfl⟩ <;>
      simp [Call.comms] at hx <;> simp [hx]
  intro s1 h1 s2 h2 b1 c1 b2 c2 e1 e2 x hx y hy
  rcases h s1 h1 s2 h2 b1 c1 b2 c2 e1 e2 x hx with rfl | rfl <;> rcases h s2 h2 s1 h1 b2 c2 b1 c1 e2 e1 y hy with rfl | rfl <;> decide

example : (run (tracing 4) ⟨Trc.init, fun _ => none, false⟩ prog).sink.out =
    [.sent ⟨4, true, [], 3⟩ 2 77 24, .received ⟨4, true, [], 3⟩ 0 7 16, .received ⟨2, false, [1, 3], 2⟩ 1 8 12, .coll ⟨4, true, [], 3⟩ .nxn (some 16) none,
     .coll ⟨2, false, [1, 3], 2⟩ .barrier none none, .coll ⟨2, false, [1, 3], 2⟩ .nToOne (some 20) (some 1), .received ⟨2, false, [1, 3], 2⟩ 1 8 4] := by
  decide +kernel

example : (run pattern ⟨{}, fun _ => none, false⟩ prog).sink.out = [⟨1, 2, 3, 1, 2, 28, 24, 36⟩] := by decide +kernel

/-! ## Violations -/

/-- the claim for one program -/
def Claim81 (W : Nat) (l : List Step) : Prop :=
  (run (tracing W) ⟨Trc.init, fun _ => none, false⟩ l).bad = false ∧
    ∃ ids : Nat → Nat,
      (∀ e ∈ events noReq l, ∀ e' ∈ events noReq l, ∀ x y, e.comm? = some x → e'.comm? = some y → ids x.uid = ids y.uid → x = y) ∧
      (run (tracing W) ⟨Trc.init, fun _ => none, false⟩ l).sink.out = (events noReq l).filterMap (record W ids)

/-- `MPI_Waitsome` and `MPI_Testsome` (`Wrapper.w:734`, `908`): only the second of two requests is complete; its status is the first of the array, the wrapper reads the
second. -/
theorem C81_violation_waitsome :
    let l : List Step := [.call true (.irecv 4 cw 5), .call true (.irecv 4 cw 6), .call true (.waitsome [5, 6] [1] [stx 3 7 8, stx 0 0 0])]
    events noReq l = [.received cw 3 7 8] ∧
    (run (tracing 4) ⟨Trc.init, fun _ => none, false⟩ l).sink.out = [.received ⟨4, true, [], 2⟩ 0 0 0] ∧ ¬ Claim81 4 l := by
  refine ⟨by decide +kernel, by decide +kernel, ?_⟩
  rintro ⟨-, ids, -, h⟩
  rw [show events noReq _ = [.received cw 3 7 8] by decide +kernel] at h
  rw [show (run (tracing 4) ⟨Trc.init, fun _ => none, false⟩ _).sink.out = [.received ⟨4, true, [], 2⟩ 0 0 0] by decide +kernel] at h
  simp [record] at h

/-- `MPI_Waitany` when all requests are inactive or null (`Wrapper.w:679`): the index is `MPI_UNDEFINED`, and the wrapper reads a request before its array. -/
theorem C81_violation_waitany :
    (run (tracing 4) ⟨Trc.init, fun _ => none, false⟩ [.call true (.recvInit 4 cw 5), .call true (.waitany [5] undef (stx (-1) (-1) 0))]).bad = true := by decide +kernel

/-- A wait for a persistent receive that has not been started reports a message; so does a cancelled receive. -/
theorem C81_violation_inactive :
    let l : List Step := [.call true (.recvInit 4 cw 5), .call true (.wait 5 (stx (-1) (-1) 0)), .call true (.irecv 4 cw 6), .call true (.wait 6 ⟨-1, -1, 0, true⟩)]
    events noReq l = [] ∧
    (run (tracing 4) ⟨Trc.init, fun _ => none, false⟩ l).sink.out = [.received ⟨4, true, [], 2⟩ (-1) (-1) 0, .received ⟨4, true, [], 2⟩ (-1) (-1) 0] := by
  constructor <;> decide +kernel

/-- The channel does not see the completion of a receive (it is inactive, or the function is not among the wrapped ones).  MPI uses the handle again for a send, and its
completion is reported as a message received. -/
theorem C81_violation_stale :
    let l : List Step := [.call true (.irecv 4 cw 5), .call false (.wait 5 (stx 0 7 8)), .call true (.send 1 4 2 9 cw (some 5)), .call true (.wait 5 (stx 3 1 4))]
    events noReq l = [.sent cw 2 9 4] ∧
    (run (tracing 4) ⟨Trc.init, fun _ => none, false⟩ l).sink.out = [.sent ⟨4, true, [], 2⟩ 2 9 4, .received ⟨4, true, [], 2⟩ 3 1 4] := by
  constructor <;> decide +kernel

/-- A communicator that gets the handle of a freed one is reported as the freed one. -/
theorem C81_violation_comm :
    let c2 : Comm := ⟨2, 101, 0, [0, 1, 2]⟩
    let l : List Step := [.call true (.send 1 4 1 9 cs none), .call true (.send 1 4 1 9 c2 none)]
    events noReq l = [.sent cs 1 9 4, .sent c2 1 9 4] ∧
    (run (tracing 4) ⟨Trc.init, fun _ => none, false⟩ l).sink.out = [.sent ⟨2, false, [1, 3], 2⟩ 1 9 4, .sent ⟨2, false, [1, 3], 2⟩ 1 9 4] := by
  constructor <;> decide +kernel

/-- Collectives: the root of an `MPI_Scatterv` with 10 elements for each process reports the sum of the displacements (60 instead of 40 elements); on the other processes
the wrapper reads the displacements although MPI ignores them (null pointer).  `MPI_Scatter` reports the data for one process, `MPI_Reduce_scatter` this process' part. -/
theorem C81_violation_collectives :
    let r : Comm := { cw with rank := 0 }
    let f := fun (k : Coll) (c : Comm) => (run (tracing 4) ⟨Trc.init, fun _ => none, false⟩ [.call true (.coll k c)])
    (f (.scatterv (some [10, 10, 10, 10]) (some [0, 10, 20, 30]) (some 4) 0) r).sink.out = [.coll ⟨4, true, [], 2⟩ .oneToN (some 240) (some 0)] ∧
    Coll.bytes r (.scatterv (some [10, 10, 10, 10]) (some [0, 10, 20, 30]) (some 4) 0) = 160 ∧
    (f (.scatterv none none none 0) cw).bad = true ∧
    (f (.scatter 10 (some 4) 0) r).sink.out = [.coll ⟨4, true, [], 2⟩ .oneToN (some 40) (some 0)] ∧ Coll.bytes r (.scatter 10 (some 4) 0) = 160 ∧
    (f (.reduceScatter [1, 2, 3, 4] 4) r).sink.out = [.coll ⟨4, true, [], 2⟩ .nxn (some 4) none] ∧ Coll.bytes r (.reduceScatter [1, 2, 3, 4] 4) = 40 := by
  decide +kernel

/-- A message that is not a whole number of elements (a part of a derived datatype): `MPI_Get_count` gives `MPI_UNDEFINED`, and the size is negative. -/
theorem C81_violation_partial_element :
    let l : List Step := [.call true (.recv 16 cw (stx 0 7 24))]
    events noReq l = [.received cw 0 7 24] ∧ (run (tracing 4) ⟨Trc.init, fun _ => none, false⟩ l).sink.out = [.received ⟨4, true, [], 2⟩ 0 7 (-524256)] := by
  constructor <;> decide +kernel

/-- A communication region inside another one: the begin of the inner one clears the totals, the report of the outer region lacks the messages before it. -/
theorem C82_violation_nested :
    let l : List Step := [.begin, .call true (.send 1 4 1 9 cw none), .begin, .call true (.send 1 4 2 9 cw none), .fin, .fin]
    events noReq l = [.begin, .sent cw 1 9 4, .begin, .sent cw 2 9 4, .fin, .fin] ∧
    (run pattern ⟨{}, fun _ => none, false⟩ l).sink.out.map (fun r => (r.sends, r.sendSize)) = [(1, 4), (1, 4)] := by
  constructor <;> decide +kernel

/-- Two messages of 1 GB in a region: the total wraps around. -/
theorem C82_violation_overflow :
    let l : List Step := [.begin, .call true (.send (2 ^ 27) 8 1 9 cw none), .call true (.send (2 ^ 27) 8 1 9 cw none), .fin]
    (totals (events noReq l)).sendSize = 2 ^ 31 ∧
    (run pattern ⟨{}, fun _ => none, false⟩ l).sink.out.map (fun r => r.sendSize) = [-2 ^ 31] := by
  constructor <;> decide +kernel

end Verif.MpiMsg
