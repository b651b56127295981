import Verif.Props.Aggregation
import Verif.Props.Trace
/-!
# C97 Recording in a signal handler allocates no memory

Models: `Verif/Agg/Model.lean` (capacities of the vectors of the aggregation database), `Verif/Serv/Trace.lean` (trace buffers and their
chunks).
-/
namespace Verif.Agg
open Verif Verif.Cali

/-- the memory of the database: the capacities of its vectors -/
def ADB.memory (db : ADB) : Nat × Nat × Nat := (db.capEntries, db.capKeyents, db.capKernels)

/-- the contents lie within that memory -/
def ADB.Within (db : ADB) (m : Nat × Nat × Nat) : Prop :=
  db.entries.length ≤ m.1 ∧ db.keyents.length ≤ m.2.1 ∧ db.kernels.length ≤ m.2.2

/-- what happens to a database: records and clears -/
inductive Event where
  | record (c : Call)
  | clear

/-- a history of records and clears -/
def ADB.events (O : DblOps) (E : Env) (db : ADB) (h : List Event) : ADB :=
  h.foldl (fun db e => match e with | .record c => db.process O E c.info c.snap c.canAlloc | .clear => db.clear) db

theorem newCap_ge (E : Env) (cap need : Nat) : need ≤ E.newCap cap need := by
  unfold Env.newCap
  split
  · assumption
  · exact Nat.le_max_left _ _

theorem newCap_keep (E : Env) {cap need : Nat} (h : need ≤ cap) : E.newCap cap need = cap := if_pos h

theorem updLoop_length (O : DblOps) (r : List DEnt) (base : Nat) (as : List Nat) (a : Nat) (ks : List Kern) :
    (updLoop O r base as a ks).length = ks.length := by
  induction as generalizing a ks with
  | nil => rfl
  | cons x as ih =>
    rw [updLoop]
    simp only [ih]
    split <;> simp

theorem findOrCreate_mem (E : Env) (db : ADB) (key : List DEnt) (h n : Nat) (ca : Bool) (hw : db.Within db.memory) :
    (findOrCreate E db key h n ca).1.Within (findOrCreate E db key h n ca).1.memory ∧
      (ca = false → (findOrCreate E db key h n ca).1.memory = db.memory) := by
  unfold findOrCreate
  cases findLoop E db key (db.entries.length + 1) (db.hash h) with
  | some i => exact ⟨hw, fun _ => rfl⟩
  | none =>
    simp only
    split
    · exact ⟨hw, fun _ => rfl⟩
    · rename_i hc
      refine ⟨⟨?_, ?_, ?_⟩, fun hca => ?_⟩
      · simpa [ADB.memory] using newCap_ge E _ _
      · simpa [ADB.memory] using newCap_ge E _ _
      · simpa [ADB.memory] using newCap_ge E _ _
      · subst hca
        simp only [Bool.not_false, true_and, not_or, Nat.not_le] at hc
        simp only [ADB.memory, newCap_keep E (Nat.le_of_lt hc.1), newCap_keep E (Nat.le_of_lt hc.2.1), newCap_keep E (Nat.le_of_lt hc.2.2)]

theorem process_mem (O : DblOps) (E : Env) (db : ADB) (info : Info) (r : List DEnt) (ca : Bool) (hw : db.Within db.memory) :
    (db.process O E info r ca).Within (db.process O E info r ca).memory ∧ (ca = false → (db.process O E info r ca).memory = db.memory) := by
  obtain ⟨h1, h2⟩ := findOrCreate_mem E db ((E.keyEntries info r).take maxKeyLen) (E.slotOf info r) info.aggr.length ca hw
  unfold ADB.process
  simp only
  obtain ⟨a, b, c⟩ := h1
  split
  · exact ⟨⟨by simpa [ADB.memory] using a, by simpa [ADB.memory] using b, by simpa [ADB.memory] using c⟩, h2⟩
  · exact ⟨⟨by simpa [ADB.memory] using a, by simpa [ADB.memory] using b, by simpa [ADB.memory, updLoop_length] using c⟩, h2⟩

theorem clear_mem (db : ADB) (hw : db.Within db.memory) : db.clear.Within db.clear.memory ∧ db.clear.memory = db.memory := by
  refine ⟨⟨?_, Nat.zero_le _, Nat.zero_le _⟩, rfl⟩
  have := hw.1
  simp only [ADB.clear, ADB.memory, List.length_modify, List.length_take] at this ⊢
  omega

theorem events_within (O : DblOps) (E : Env) (sk : DEnt) (h : List Event) :
    ((ADB.init sk).events O E h).Within ((ADB.init sk).events O E h).memory := by
  have key : ∀ (h : List Event) (db : ADB), db.Within db.memory → (db.events O E h).Within (db.events O E h).memory := by
    intro h
    induction h with
    | nil => exact fun _ h => h
    | cons e h ih =>
      intro db hw
      refine ih _ ?_
      cases e with
      | record c => exact (process_mem O E db c.info c.snap c.canAlloc hw).1
      | clear => exact (clear_mem db hw).1
  exact key h _ ⟨by simp [ADB.init, ADB.memory], by simp [ADB.init, ADB.memory], by simp [ADB.init, ADB.memory]⟩

/-- **C97** (aggregation): after every history of records, in signal handlers or not, and clears, recording a snapshot in a signal handler
allocates no memory, whatever record, key and aggregation attributes it has and however vectors grow: the database afterwards lies within
the memory it had before. -/
theorem C97_aggregation (O : DblOps) (E : Env) (sk : DEnt) (h : List Event) (info : Info) (r : List DEnt) :
    let db := (ADB.init sk).events O E h
    let db' := db.process O E info r false
    db'.memory = db.memory ∧ db'.Within db.memory := by
  have hw := events_within O E sk h
  obtain ⟨h1, h2⟩ := process_mem O E _ info r false hw
  exact ⟨h2 rfl, by rw [← h2 rfl]; exact h1⟩

/-- C97 (aggregation): every record counts nevertheless: outside of signal handlers there is always memory for the contents. -/
theorem C97_aggregation_within (O : DblOps) (E : Env) (sk : DEnt) (h : List Event) :
    ((ADB.init sk).events O E h).Within ((ADB.init sk).events O E h).memory := events_within O E sk h

/-- a database with room for one more key takes the key of a record made in a signal handler; one without room counts it as skipped -/
example : let O : DblOps := ⟨fun _ _ => 0, fun _ _ => false, fun _ _ => 0⟩
    let E : Env := ⟨fun i => decide (i = 7), fun _ => 0, fun _ n => n⟩
    let info : Info := ⟨[], [7], [⟨1, 2, 3, 4⟩], 5, 6⟩
    let r : List DEnt := [⟨some 20, .inv⟩, ⟨some 7, .uint 3⟩]
    (((ADB.init ⟨some 30, .inv⟩).process O E info r false).entries.map AEntry.count = [0, 1]) ∧
      (({ ADB.init ⟨some 30, .inv⟩ with capEntries := 2 }).process O E info r false).entries.map AEntry.count = [1] := by
  decide +kernel

end Verif.Agg

namespace Verif.Serv.Trace

/-- the memory of the trace service: the buffers of the threads with the sizes of their chunks -/
def State.memory (s : State) : List (Nat × List Nat) := s.bufs.map fun b => (b.th, b.chunks.map Chunk.size)

theorem memory_upd (s : State) (th : Nat) (f : Buf → Buf) (h : ∀ b, (f b).th = b.th ∧ (f b).chunks.map Chunk.size = b.chunks.map Chunk.size) :
    (s.upd th f).memory = s.memory := by
  unfold State.memory State.upd
  simp only [List.map_map]
  refine List.map_congr_left fun b _ => ?_
  simp only [Function.comp]
  split
  · rw [(h b).1, (h b).2]
  · rfl

theorem save_size (c : Chunk) (r : Record) : (c.save r).size = c.size := by unfold Chunk.save; split <;> rfl

theorem memory_save (s : State) (th : Nat) (r : Record) : (s.save th r).memory = s.memory := by
  refine memory_upd s th _ fun b => ?_
  cases hb : b.chunks with
  | nil => exact ⟨rfl, by simp [hb]⟩
  | cons c cs => exact ⟨rfl, by simp [save_size]⟩

/-- **C97** (tracing, partial: not with the "grow" policy, and the "flush" policy writes the output): a snapshot in a signal handler
allocates no trace memory, in every state. -/
theorem C97_trace_partial (isAttr : U64 → Bool) (s : State) (th : Nat) (r : Record) (hp : s.policy ≠ .grow) :
    (s.process isAttr th true r).1.memory = s.memory := by
  have ha : s.acquire th (!true) = s := by simp [State.acquire]
  unfold State.process
  simp only [ha]
  split
  · rfl
  · split
    · rfl
    · split
      · exact memory_save _ _ _
      · cases hpol : s.policy with
        | grow => exact absurd hpol hp
        | stop => exact memory_upd s th _ fun _ => ⟨rfl, rfl⟩
        | flush =>
          simp only
          rw [memory_save]
          simp [State.memory, State.flush]

/-- **C97** (tracing, with the "grow" policy): no memory is allocated as long as the record fits, or recording was stopped, or the thread has
no buffer. -/
theorem C97_trace_fits (isAttr : U64 → Bool) (s : State) (th : Nat) (r : Record)
    (hf : ∀ b, s.bufs.find? (fun b => b.th = th) = some b → ∃ c cs, b.chunks = c :: cs ∧ c.fits r = true) :
    (s.process isAttr th true r).1.memory = s.memory := by
  have ha : s.acquire th (!true) = s := by simp [State.acquire]
  unfold State.process
  simp only [ha]
  split
  · rfl
  · rename_i b hb
    obtain ⟨c, cs, e, hc⟩ := hf b hb
    split
    · rfl
    · rw [if_pos (by simp [e, hc])]
      exact memory_save _ _ _

/-- **C97**, violated: with the "grow" policy, which is the default, a snapshot in a signal handler allocates a new chunk if its record does not fit
into the current one (here an empty one). -/
theorem C97_violation_grow (isAttr : U64 → Bool) (size : Nat) (r : Record) (h : size ≤ 10 + 30 * r.length) :
    ((State.init .grow size 0).process isAttr 0 true r).1.memory = [(0, [size, size])] ∧ (State.init .grow size 0).memory = [(0, [size])] := by
  have e : State.init .grow size 0 = ⟨.grow, size, [⟨0, [.new size], false, false⟩], 0, false⟩ := by simp [State.init, State.acquire]
  refine ⟨?_, by rw [e]; rfl⟩
  rw [e]
  unfold State.process
  have hf : (Chunk.new size).fits r = false := by
    simp only [Chunk.fits, Chunk.new, List.length_nil, Nat.zero_add, decide_eq_false_iff_not]
    omega
  simp only [State.acquire, List.any_cons, List.any_nil, decide_true, Bool.or_false, if_true, List.find?_cons, List.head?_cons, Option.map_some,
    hf, Option.getD_some, Bool.false_eq_true, if_false]
  rw [memory_save]
  simp [State.memory, State.upd, Chunk.new]

end Verif.Serv.Trace
