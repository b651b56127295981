import Verif.Conc.Init
/-!
# C46 — first use by several threads
-/
namespace Verif.Conc.Init

/-- invariant of the executions without a race on the first call -/
def SeqInv (s : St) : Prop :=
  (s.sh.initLock = 1 ∧ ∃ a, (∀ j, j ≠ a → s.th j = ⟨none, .idle⟩) ∧
    ((s.sh.created = 0 ∧ s.sh.g = none ∧ (s.th a).t = none ∧
        ((s.th a).pc = .idle ∨ (s.th a).pc = .read ∨ (s.th a).pc = .lock ∨ (s.th a).pc = .clear ∨ (s.th a).pc = .test
          ∨ (s.th a).pc = .create)) ∨
     (s.sh.created = 1 ∧ s.sh.g = some 0 ∧ s.th a = ⟨some 0, .publish 0⟩))) ∨
  (s.sh.initLock = 0 ∧ s.sh.created = 1 ∧ s.sh.g = some 0 ∧ ∀ j, ((s.th j).t = none ∨ (s.th j).t = some 0) ∧
    ((s.th j).pc = .idle ∨ (s.th j).pc = .read ∨ (s.th j).pc = .fast ∨ (s.th j).pc = .unlock 0 ∨
      (s.th j).pc = .reg (some 0) (s.th j).t ∨ (s.th j).pc = .done (some 0) (some 0)))

theorem reachSeq_inv {s : St} (h : ReachSeq s) : SeqInv s := by
  induction h with
  | init => exact Or.inl ⟨rfl, 0, fun _ _ => rfl, Or.inl ⟨rfl, rfl, rfl, Or.inl rfl⟩⟩
  | @step s _ i hseq ih =>
    rcases ih with ⟨hl, a, ho, hc⟩ | ⟨hl, hcr, hg, hall⟩
    · by_cases hia : i = a
      · subst hia
        obtain ⟨⟨l, m, g, cr⟩, th⟩ := s
        simp only at hl hc ho
        subst hl
        generalize hti : th i = ti at hc
        obtain ⟨t, pc⟩ := ti
        have hoth : ∀ x : Thread, ∀ j, j ≠ i → BB.upd th i x j = ⟨none, .idle⟩ := by
          intro x j hj; simp [BB.upd, hj, ho j hj]
        have hself : ∀ x : Thread, BB.upd th i x i = x := by intro x; simp [BB.upd]
        rcases hc with ⟨h1, h2, h3, h4⟩ | ⟨h1, h2, h3⟩
        · simp only at h1 h2 h3 h4
          subst h1 h2 h3
          rcases h4 with rfl | rfl | rfl | rfl | rfl | rfl
          · left; refine ⟨by simp [step, hti, tick], i, hoth _, Or.inl ?_⟩
            simp [step, hti, tick, hself]
          · left; refine ⟨by simp [step, hti, tick], i, hoth _, Or.inl ?_⟩
            simp [step, hti, tick, hself]
          · left
            cases m with
            | none =>
              refine ⟨by simp [step, hti, tick], i, hoth _, Or.inl ?_⟩
              simp [step, hti, tick, hself]
            | some m =>
              refine ⟨by simp [step, hti, tick], i, hoth _, Or.inl ?_⟩
              simp [step, hti, tick, hself]
          · left; refine ⟨by simp [step, hti, tick], i, hoth _, Or.inl ?_⟩
            simp [step, hti, tick, hself]
          · left; refine ⟨by simp [step, hti, tick], i, hoth _, Or.inl ?_⟩
            simp [step, hti, tick, hself]
          · left; refine ⟨by simp [step, hti, tick], i, hoth _, Or.inr ?_⟩
            simp [step, hti, tick, hself]
        · simp only [Thread.mk.injEq] at h1 h2 h3
          obtain ⟨h3, h4⟩ := h3
          subst h1 h2 h3 h4
          right
          refine ⟨by simp [step, hti, tick], by simp [step, hti, tick], by simp [step, hti, tick], ?_⟩
          intro j
          by_cases hj : j = i
          · subst hj; simp [step, hti, tick, hself]
          · have := ho j hj
            simp [step, hti, tick, BB.upd, hj, this]
      · -- another thread: it is idle; it may move only if `a` is not in the first call
        have hidle := ho i hia
        have hnot := hseq a (fun h => hia h.symm)
        have hpc : (s.th i).pc = .idle := by rw [hidle]
        have hl' : s.sh.initLock ≠ 0 := by rw [hl]; decide
        rcases hc with ⟨h1, h2, h3, h4⟩ | ⟨h1, h2, h3⟩
        · have ha : (s.th a).pc = .idle := by
            rcases h4 with h | h | h | h | h | h
            · exact h
            · exact absurd (hnot (Or.inr h) hpc hl') id
            · exact absurd (hnot (Or.inl (Or.inl h)) hpc hl') id
            · exact absurd (hnot (Or.inl (Or.inr (Or.inl h))) hpc hl') id
            · exact absurd (hnot (Or.inl (Or.inr (Or.inr (Or.inl h)))) hpc hl') id
            · exact absurd (hnot (Or.inl (Or.inr (Or.inr (Or.inr (Or.inl h))))) hpc hl') id
          left
          refine ⟨by simp [step, hidle, tick, hl], i, ?_, Or.inl ?_⟩
          · intro j hj
            have : (step s i).th j = s.th j := by simp [step, BB.upd, hj]
            rw [this]
            by_cases hja : j = a
            · subst hja
              have : s.th j = ⟨(s.th j).t, (s.th j).pc⟩ := rfl
              rw [this, h3, ha]
            · exact ho j hja
          · simp [step, hidle, tick, BB.upd, h1, h2]
        · exact absurd (hnot (Or.inl (Or.inr (Or.inr (Or.inr (Or.inr ⟨0, by rw [h3]⟩))))) hpc hl') id
    · right
      obtain ⟨⟨l, m, g, cr⟩, th⟩ := s
      simp only at hl hcr hg hall
      subst hl hcr hg
      have hi := hall i
      generalize hti : th i = ti at hi
      obtain ⟨t, pc⟩ := ti
      simp only at hi
      obtain ⟨ht, hp⟩ := hi
      have key : (step ⟨⟨0, m, some 0, 1⟩, th⟩ i).sh.initLock = 0 ∧ (step ⟨⟨0, m, some 0, 1⟩, th⟩ i).sh.created = 1 ∧
          (step ⟨⟨0, m, some 0, 1⟩, th⟩ i).sh.g = some 0 ∧
          (((step ⟨⟨0, m, some 0, 1⟩, th⟩ i).th i).t = none ∨ ((step ⟨⟨0, m, some 0, 1⟩, th⟩ i).th i).t = some 0) ∧
          (((step ⟨⟨0, m, some 0, 1⟩, th⟩ i).th i).pc = .idle ∨ ((step ⟨⟨0, m, some 0, 1⟩, th⟩ i).th i).pc = .read ∨
           ((step ⟨⟨0, m, some 0, 1⟩, th⟩ i).th i).pc = .fast ∨ ((step ⟨⟨0, m, some 0, 1⟩, th⟩ i).th i).pc = .unlock 0 ∨
           ((step ⟨⟨0, m, some 0, 1⟩, th⟩ i).th i).pc = .reg (some 0) ((step ⟨⟨0, m, some 0, 1⟩, th⟩ i).th i).t ∨
           ((step ⟨⟨0, m, some 0, 1⟩, th⟩ i).th i).pc = .done (some 0) (some 0)) := by
        rcases hp with rfl | rfl | rfl | rfl | rfl | rfl <;> rcases ht with rfl | rfl <;>
          simp [step, hti, tick, BB.upd]
      refine ⟨key.1, key.2.1, key.2.2.1, fun j => ?_⟩
      by_cases hj : j = i
      · subst hj; exact key.2.2.2
      · have : (step ⟨⟨0, m, some 0, 1⟩, th⟩ i).th j = th j := by simp [step, BB.upd, hj]
        rw [this]; exact hall j

/-- **C46 (partial).**  If nobody else calls Caliper until the first call has initialised it, then in every execution, for
any number of threads and calls: at most one runtime object is ever created, and every call in every thread works with
that object, the one its thread data is registered with.  Missing: concurrent first calls; there the property is false
(`C46_violation_race`). -/
theorem C46_single_instance_partial {s : St} (h : ReachSeq s) :
    s.sh.created ≤ 1 ∧ ∀ i g t, (s.th i).pc = .done g t → g = some 0 ∧ t = some 0 ∧ s.sh.g = some 0 := by
  rcases reachSeq_inv h with ⟨hl, a, ho, hc⟩ | ⟨hl, hcr, hg, hall⟩
  · refine ⟨by rcases hc with ⟨h, _⟩ | ⟨h, _⟩ <;> omega, ?_⟩
    intro i g t hd
    exfalso
    by_cases hia : i = a
    · subst hia
      rcases hc with ⟨_, _, _, h⟩ | ⟨_, _, h⟩
      · rcases h with h | h | h | h | h | h <;> rw [hd] at h <;> cases h
      · rw [h] at hd; cases hd
    · rw [ho i hia] at hd; cases hd
  · refine ⟨by omega, ?_⟩
    intro i g t hd
    rcases (hall i).2 with h | h | h | h | h | h <;> rw [hd] at h <;> cases h
    exact ⟨rfl, rfl, hg⟩

/-- run a schedule -/
def run (s : St) : List Nat → St
  | [] => s
  | i :: is => run (step s i) is

theorem run_reach {s : St} (h : Reach s) (l : List Nat) : Reach (run s l) := by
  induction l generalizing s with
  | nil => exact h
  | cons i l ih => exact ih (h.step i)

/-- **C46, violation.**  Two threads make the first call at the same time.  Both see that Caliper is not initialised; the
second one takes the mutex after the first has initialised Caliper, does not check again, and creates a second runtime.
The first thread's data is registered with runtime 0, all later calls of other threads use runtime 1: both calls return,
with different runtimes, and the first one is lost (later calls of any thread read `g_ptr = 1`). -/
theorem C46_violation_race :
    ∃ s, Reach s ∧ s.sh.created = 2 ∧ (s.th 0).pc = .done (some 0) (some 0) ∧ (s.th 1).pc = .done (some 1) (some 1) ∧
      s.sh.g = some 1 :=
  ⟨run init [0, 1, 0, 1, 0, 0, 0, 0, 0, 0, 0, 1, 1, 1, 1, 1, 1, 1],
    run_reach .init _, by decide, by decide, by decide, by decide⟩

/-- … and the first thread's next call mixes the second runtime with thread data that belongs to the first -/
theorem C46_violation_mixed :
    ∃ s, Reach s ∧ (s.th 0).pc = .done (some 1) (some 0) :=
  ⟨run init [0, 1, 0, 1, 0, 0, 0, 0, 0, 0, 0, 1, 1, 1, 1, 1, 1, 1, 0, 0, 0, 0, 0],
    run_reach .init _, by decide⟩

/-- **C46.**  With the race, still no call ever returns without a runtime, and initialisations never overlap: the mutex is held by
the initialising thread. -/
theorem C46_initialisation_exclusive {s : St} (h : Reach s) (i : Nat)
    (hi : (s.th i).pc = .clear ∨ (s.th i).pc = .test ∨ (s.th i).pc = .create ∨ (∃ g, (s.th i).pc = .publish g) ∨ ∃ g, (s.th i).pc = .unlock g) :
    s.sh.mutex = some i := by
  induction h generalizing i with
  | init => simp [init] at hi
  | @step s hs k ih =>
    obtain ⟨⟨l, m, g, cr⟩, th⟩ := s
    by_cases hik : i = k
    · subst hik
      have ih' := ih i
      generalize hti : th i = ti at ih'
      obtain ⟨t, pc⟩ := ti
      have hself : ∀ x : Thread, BB.upd th i x i = x := by intro x; simp [BB.upd]
      cases pc <;> simp_all [step, tick] <;> (try split at hi) <;> simp_all <;> (try split) <;> simp_all
    · have hi0 : (step ⟨⟨l, m, g, cr⟩, th⟩ k).th i = th i := by simp [step, BB.upd, hik]
      rw [hi0] at hi
      have him : m = some i := ih i hi
      have ihk := ih k
      generalize htk : th k = tk at ihk
      obtain ⟨t, pc⟩ := tk
      have hne : some i ≠ some k := by simp [hik]
      cases pc <;> simp_all [step, tick] <;> (try split) <;> simp_all

/-- the hypotheses of `C46_single_instance_partial` are met by an execution with two threads -/
example : ReachSeq (run init [0, 0, 0, 0, 0, 0, 0, 1, 0, 0, 1, 1]) ∧
    ((run init [0, 0, 0, 0, 0, 0, 0, 1, 0, 0, 1, 1]).th 0).pc = .done (some 0) (some 0) := by
  refine ⟨?_, by decide⟩
  have idle : ∀ (s : St) (i : Nat), (∀ j, j ≠ i → ¬ (Initialising s j ∨ (s.th j).pc = .read)) ∨ (s.th i).pc ≠ .idle ∨ s.sh.initLock = 0 →
      ∀ j, j ≠ i → Initialising s j ∨ (s.th j).pc = .read → (s.th i).pc = .idle → s.sh.initLock ≠ 0 → False := by
    intro s i h j hj hr hi hl
    rcases h with h | h | h
    · exact h j hj hr
    · exact h hi
    · exact hl h
  refine .step (.step (.step (.step (.step (.step (.step (.step (.step (.step (.step (.step .init 0 ?_) 0 ?_) 0 ?_) 0 ?_) 0 ?_) 0 ?_) 0 ?_) 1 ?_) 0 ?_) 0 ?_) 1 ?_) 1 ?_
  · apply idle; left; intro j _; simp [Initialising, init]
  all_goals (apply idle; right; first | exact Or.inl (by decide) | exact Or.inr (by decide))

end Verif.Conc.Init
