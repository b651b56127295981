import Verif.Conc.Siglock
/-!
# C37: signal handlers never enter Caliper in the middle of an operation
-/
namespace Verif.Conc.Sig

theorem depth_pos_iff (fs : List Frame) : 0 < depth fs ↔ Busy fs := by
  induction fs with
  | nil => simp [depth, Busy]
  | cons f fs ih =>
    have e : depth (f :: fs) = f.depth + depth fs := by simp [depth]
    have e' : 0 < f.depth ↔ true ∈ f.ops := by unfold Frame.depth; exact List.count_pos_iff
    have e'' : Busy (f :: fs) ↔ true ∈ f.ops ∨ Busy fs := by simp [Busy]
    rw [e, e'', ← e', ← ih]; omega

/-- C37, partial (operations that take the signal lock, see `C37_violation_unguarded`): at every interruption point - also
between the load and the store of a lock update, in handlers that interrupted handlers - a handler's
`sigsafe_instance()` evaluates to true exactly if Caliper is initialised and no frame of this thread is inside an operation. -/
theorem C37_check_exact_partial {ready : Bool} {s : St} (h : Reach ready s) :
    usable s true = true ↔ (ready = true ∧ ¬ Busy s.frames) := by
  obtain ⟨_, h2, h3, _⟩ := inv h
  rw [← depth_pos_iff]
  unfold usable isLocked
  simp [h3, h2]

/-- C37: outside of handlers the object is usable as soon as Caliper is initialised, also inside of operations -/
theorem C37_not_in_handler {ready : Bool} {s : St} (h : Reach ready s) : usable s false = ready := by
  obtain ⟨_, _, h3, _⟩ := inv h
  simp [usable, h3]

theorem finv_split {pre : List Frame} {f : Frame} {fs : List Frame} (h : FInv (pre ++ f :: fs)) (hb : Busy (f :: fs)) :
    ∀ g ∈ pre, g.ops = [] := by
  induction pre with
  | nil => simp
  | cons x pre ih =>
    intro g hg
    cases h with
    | cons h hi hd hok hno hmain =>
      rcases List.mem_cons.1 hg with rfl | hg
      · have hsig : g.sig = true := by
          cases hs : g.sig with
          | true => rfl
          | false => have := hmain.1 hs; simp at this
        cases ho : g.ok with
        | false => exact (hno hsig ho).1
        | true =>
          have h0 : depth (pre ++ f :: fs) = 0 := hok hsig ho
          have : 0 < depth (pre ++ f :: fs) := (depth_pos_iff _).2 (by
            obtain ⟨y, hy1, hy2⟩ := hb
            exact ⟨y, by simp only [List.mem_append]; exact .inr hy1, hy2⟩)
          omega
      · exact ih h g hg

/-- C37, partial (same restriction): while a frame is inside an operation, no handler that interrupted it - directly or through
other handlers - is inside any Caliper operation. -/
theorem C37_exclusive_partial {ready : Bool} {s : St} (h : Reach ready s) {pre : List Frame} {f : Frame} {fs : List Frame}
    (hs : s.frames = pre ++ f :: fs) (hin : true ∈ f.ops) : ∀ g ∈ pre, g.ops = [] := by
  have := (inv h).1
  rw [hs] at this
  exact finv_split this ⟨f, by simp, hin⟩

/-- C37: nesting: after returning from an operation, a handler can use Caliper if and only if this was the outermost one of
the interrupted frames. -/
theorem C37_outermost_return {ready : Bool} {s : St} (h : Reach ready s) {f : Frame} {fs : List Frame} {v : Int} {r : List Bool}
    (hs : s.frames = f :: fs) (hp : f.phase = .decLoaded v) (hr : f.ops = true :: r) :
    usable (step s .leaveStore) true = true ↔ (ready = true ∧ true ∉ r ∧ ¬ Busy fs) := by
  rw [C37_check_exact_partial (.step h _)]
  unfold step
  simp only [hs, hp, hr, Busy, List.drop_one, List.tail_cons]
  constructor
  · rintro ⟨h1, h2⟩
    refine ⟨h1, fun hm => h2 ⟨_, List.mem_cons_self .., hm⟩, fun ⟨g, hg, hm⟩ => h2 ⟨g, List.mem_cons_of_mem _ hg, hm⟩⟩
  · rintro ⟨h1, h2, h3⟩
    refine ⟨h1, ?_⟩
    rintro ⟨g, hg, hm⟩
    rcases List.mem_cons.1 hg with rfl | hg
    · exact h2 hm
    · exact h3 ⟨g, hg, hm⟩

/-- run a sequence of steps -/
def run (s : St) : List Act → St
  | [] => s
  | a :: l => run (step s a) l

theorem run_reach {ready : Bool} {s : St} (h : Reach ready s) (l : List Act) : Reach ready (run s l) := by
  induction l generalizing s with
  | nil => exact h
  | cons a l ih => exact ih (.step h a)

/-- C37, violated for operations that take no signal lock: a signal arrives while the thread executes
`deactivate_channel`; the handler's check succeeds, and it enters a guarded operation while `deactivate_channel` is
in the middle of changing the list of active channels. -/
theorem C37_violation_unguarded :
    let s := run (init true) [.enterU, .signal, .check, .load, .store]
    Reach true s ∧ s.frames = [⟨true, [true], .idle, true⟩, ⟨false, [false], .idle, false⟩] :=
  ⟨run_reach .init _, by decide⟩

/-- the theorems apply to runs like this one: the thread is interrupted between load and store while entering an operation; the
handler enters Caliper, is interrupted itself (check fails), leaves, and the thread completes its entry: the lock is correct -/
example : let s := run (init true) [.load, .signal, .check, .load, .store, .signal, .check, .sigret, .leave, .leaveStore, .sigret, .store]
    Reach true s ∧ s = ⟨1, true, [⟨false, [true], .idle, false⟩]⟩ ∧
    (run (init true) [.load, .signal, .check, .load, .store, .signal, .check]).frames.head? = some ⟨true, [], .idle, false⟩ :=
  ⟨run_reach .init _, by decide, by decide⟩

end Verif.Conc.Sig
