import Verif.Agg.ThreadsEpoch
/-!
# C78: the aggregation service with several threads
-/
namespace Verif.AggThreads
variable {R : Type}

/-- a concrete schedule: two threads take snapshots, interleaved; thread 2 ends; thread 1 flushes and clears -/
def exSched : List (Nat × Act Nat) :=
  [(1, .create true), (2, .snapshot 10 false true), (1, .go), (1, .snapshot 11 false true), (2, .go), (2, .go), (1, .go), (2, .go), (1, .go), (2, .release)]

/-- C78 (memory safety; partial: flush and clear must not overlap each other, see `C78_violated_overlap`): whatever the threads do - snapshots,
also in signal handlers, thread creation and exit while one of them flushes or clears - no database is used after it was deleted. -/
theorem C78_memory_safe_partial {s : State R} (h : Reach s) : s.bad = false := by
  obtain ⟨L, F, I, A⟩ := h.inv
  exact I.good

/-- C78 (accounting): when no thread is inside the service, every snapshot the service was called with was either put into a database or counted
as dropped, and was put there once. -/
theorem C78_accounted_partial {s : State R} (h : Reach s) (q : Quiet s) : s.started.Perm (s.taken ++ s.dropped) := by
  obtain ⟨L, F, I, A⟩ := h.inv
  have := A.started
  rwa [A.quiet q, List.map_nil, List.append_nil] at this

/-- C78 (flush): a flush that runs while the other threads are outside the service reports every snapshot that was put into a database and not
cleared, from all threads, also ended ones, exactly once, and changes nothing else. -/
theorem C78_flush_partial {s : State R} (h : Reach s) (q : Quiet s) {th : Nat} (hg : s.gone th = false) :
    (∃ s', Runs s th .flush s') ∧
    ∀ s', Runs s th .flush s' → ∃ X, s' = { s with out := s.out ++ X } ∧ s.taken.Perm (s.cleared ++ X) := by
  obtain ⟨N, X, e, hp⟩ := flush_quiet h q hg
  have hi : (s.run ((th, .flush) :: List.replicate N (th, .go))).pc th = .idle := by rw [e]; exact q th
  refine ⟨⟨_, N, rfl, hi⟩, fun s' hr => ⟨X, ?_, hp⟩⟩
  rw [hr.eq hi, e]

/-- C78 (clear): a clear that runs while the other threads are outside the service removes everything, also the databases of ended threads, and
reports and drops nothing. -/
theorem C78_clear_partial {s : State R} (h : Reach s) (q : Quiet s) {th : Nat} (hg : s.gone th = false) :
    (∃ s', Runs s th .clear s') ∧
    ∀ s', Runs s th .clear s' → Reach s' ∧ Quiet s' ∧ s'.taken.Perm s'.cleared ∧ s'.taken = s.taken ∧ s'.started = s.started ∧
      s'.dropped = s.dropped ∧ s'.out = s.out ∧ s'.gone = s.gone := by
  obtain ⟨N, a1, a2, a3⟩ := clear_quiet h q hg
  have hi := a1 th
  refine ⟨⟨_, N, rfl, hi⟩, fun s' hr => ?_⟩
  refine ⟨h.call q hr, ?_⟩
  rw [hr.eq hi]
  exact ⟨a1, a3, a2.1, a2.2.1, a2.2.2.1, a2.2.2.2.1, a2.2.2.2.2⟩

/-- C78 (one measurement interval): the databases are empty; then any threads take any snapshots in any interleaving, start and end; when they are
outside the service, one thread flushes and clears.  The flush reports exactly the snapshots taken in the interval, each once, none is
dropped, and the next interval begins with empty databases.  So every interval ending in flush and clear reports its own snapshots. -/
theorem C78_interval_partial {s : State R} (h : Reach s) (q : Quiet s) (hc : s.taken.Perm s.cleared) {l : List (Nat × Act R)} (hl : Plain l)
    (q' : Quiet (s.run l)) {th : Nat} (hg : (s.run l).gone th = false) {sf sc : State R} (hf : Runs (s.run l) th .flush sf)
    (hcl : Runs sf th .clear sc) :
    (∃ X, sf.out = s.out ++ X ∧ sc.out = sf.out ∧ (s.started ++ X).Perm sc.started) ∧ sc.dropped = s.dropped ∧
      Reach sc ∧ Quiet sc ∧ sc.taken.Perm sc.cleared := by
  classical
  have hr : Reach (s.run l) := h.run (Solo.plain hl)
  obtain ⟨d1, d2, d3⟩ := plain_run q.calm h.stops l hl
  obtain ⟨X, e, hX⟩ := (C78_flush_partial hr q' hg).2 sf hf
  have hrf : Reach sf := hr.call q' hf
  have qf : Quiet sf := by rw [e]; exact q'
  have hgf : sf.gone th = false := by rw [e]; exact hg
  obtain ⟨c1, c2, c3, c4, c5, c6, c7, _⟩ := (C78_clear_partial hrf qf hgf).2 sc hcl
  have a0 := C78_accounted_partial h q
  have a1 := C78_accounted_partial hr q'
  refine ⟨⟨X, ?_, c7, ?_⟩, ?_, c1, c2, c3⟩
  · rw [e, ← d2]
  · have : sc.started = (s.run l).started := by rw [c5, e]
    rw [this]
    rw [d3] at hX
    rw [d1] at a1
    rw [List.perm_iff_count] at *
    intro x
    have := a0 x
    have := a1 x
    have := hX x
    have := hc x
    simp only [List.count_append] at *
    omega
  · rw [c6, e]; exact d1

/-- the hypotheses are met: the initial state is an empty interval start -/
example : Reach (State.init Nat) ∧ Quiet (State.init Nat) ∧ (State.init Nat).taken.Perm (State.init Nat).cleared :=
  ⟨⟨[], trivial, rfl⟩, fun _ => rfl, List.Perm.refl _⟩

theorem exSched_plain : Plain exSched := by
  intro x hx
  simp only [exSched, List.mem_cons, List.not_mem_nil, or_false] at hx
  rcases hx with rfl | rfl | rfl | rfl | rfl | rfl | rfl | rfl | rfl | rfl <;> simp

theorem exSched_quiet : Quiet ((State.init Nat).run exSched) := by
  intro th
  by_cases h1 : th = 1
  · subst h1; rfl
  · by_cases h2 : th = 2
    · subst h2; rfl
    · simp [exSched, State.run, State.step, State.init, State.call, State.alloc, State.cont, State.linkIn, State.deref, State.goto, State.put, upd, h1, h2]

/-- the concrete interval: both threads' snapshots are taken, thread 2's database is retired -/
example : ((State.init Nat).run exSched).started = [10, 11] ∧ ((State.init Nat).run exSched).taken = [10, 11] ∧
    ((State.init Nat).run exSched).gone 1 = false ∧ ((State.init Nat).run exSched).gone 2 = true := ⟨rfl, rfl, rfl, rfl⟩

example : ∃ sf sc, Runs ((State.init Nat).run exSched) 1 .flush sf ∧ Runs sf 1 .clear sc ∧ sf.out = [10, 11] ∧ sc.heap 1 = none ∧ sc.heap 0 ≠ none :=
  ⟨_, _, ⟨8, rfl, rfl⟩, ⟨10, rfl, rfl⟩, rfl, rfl, by decide⟩

/-! ### What does not hold -/

/-- a thread that has read `stopped` is not waited for: one flush, and it works on a database while its owner puts a snapshot into it -/
theorem C78_violated_race : ∃ l : List (Nat × Act Nat), Solo (State.init Nat) l ∧ Race ((State.init Nat).run l) := by
  refine ⟨[(1, .create true), (1, .go), (1, .snapshot 5 false true), (1, .go), (2, .flush), (2, .go)], ?_, ⟨1, 2, 0, 5, rfl, .inl rfl⟩⟩
  refine ⟨by simp, by simp, by simp, by simp, fun _ th' => ?_, by simp, trivial⟩
  simp only [State.step, State.init, State.call, State.alloc, State.cont, State.linkIn, State.deref, State.goto, State.put]
  by_cases h1 : th' = 1 <;> simp [upd, h1, PC.maint]

/-- a snapshot taken between the flush and the clear is removed without ever being reported, and is not counted as dropped -/
theorem C78_violated_lost : ∃ l : List (Nat × Act Nat), Reach ((State.init Nat).run l) ∧ Quiet ((State.init Nat).run l) ∧
    ((State.init Nat).run l).started = [5] ∧ ((State.init Nat).run l).cleared = [5] ∧ ((State.init Nat).run l).out = [] ∧
    ((State.init Nat).run l).dropped = [] := by
  refine ⟨[(1, .create true), (1, .go), (2, .flush), (2, .go), (2, .go), (2, .go), (2, .go), (1, .snapshot 5 false true), (1, .go), (1, .go),
    (2, .clear), (2, .go), (2, .go), (2, .go), (2, .go)], ⟨_, ?_, rfl⟩, ?_, rfl, rfl, rfl, rfl⟩
  · refine ⟨by simp, by simp, fun _ th' => ?_, by simp, by simp, by simp, by simp, by simp, by simp, by simp, fun _ th' => ?_, by simp, by simp, by simp, by simp, trivial⟩
    all_goals
      simp only [State.step, State.init, State.call, State.alloc, State.cont, State.linkIn, State.deref, State.goto, State.put]
      by_cases h1 : th' = 1
      · subst h1; rfl
      · by_cases h2 : th' = 2
        · subst h2; rfl
        · simp [upd, h1, h2, PC.maint, PC.loop]
  · intro th
    by_cases h1 : th = 1
    · subst h1; rfl
    · by_cases h2 : th = 2
      · subst h2; rfl
      · simp [State.run, State.step, State.init, State.call, State.alloc, State.cont, State.linkIn, State.deref, State.goto, State.put, upd, h1, h2, PC.loop]

/-- a thread that takes a snapshot and ends while clear is at its database: the database is deleted with the snapshot, without the snapshot
being reported by any later flush and without being counted as dropped -/
theorem C78_violated_retire : ∃ l : List (Nat × Act Nat), ((State.init Nat).run l).started = [5] ∧ ((State.init Nat).run l).dropped = [] ∧
    ((State.init Nat).run l).out = [] ∧ ((State.init Nat).run l).head = none ∧ ((State.init Nat).run l).pc 2 = .idle ∧
    ((State.init Nat).run l).bad = false :=
  ⟨[(1, .create true), (1, .go), (2, .clear), (2, .go), (2, .go), (2, .go), (1, .snapshot 5 false true), (1, .go), (1, .go), (1, .release),
    (2, .go), (2, .go), (2, .go)], rfl, rfl, rfl, rfl, rfl, rfl⟩

/-- a flush on one thread and a clear on another: the flush uses a database the clear has deleted -/
theorem C78_violated_overlap : ∃ l : List (Nat × Act Nat), ((State.init Nat).run l).bad = true :=
  ⟨[(1, .create true), (1, .go), (1, .release), (3, .flush), (2, .clear), (2, .go), (2, .go), (2, .go), (2, .go), (2, .go), (2, .go), (3, .go)], rfl⟩

/-- a snapshot taken while its thread's database is being flushed is dropped (and counted) -/
theorem C78_violated_dropped : ∃ l : List (Nat × Act Nat), ((State.init Nat).run l).dropped = [5] ∧ ((State.init Nat).run l).taken = [] :=
  ⟨[(1, .create true), (1, .go), (2, .flush), (2, .go), (1, .snapshot 5 false true), (1, .go)], rfl, rfl⟩

end Verif.AggThreads
