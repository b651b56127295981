import Verif.Monitor.Spec

/-! # C114: the monitoring thread's snapshots are numbered 0, 1, 2, … and complete, and none of them runs after the channel is gone -/

namespace Verif.Monitor

theorem run_append (c : Cfg) : ∀ (as bs : List Act) (s : St), run c s (as ++ bs) = (run c s as).bind fun t => run c t bs
  | [], bs, s => rfl
  | a :: as, bs, s => by
    simp only [List.cons_append, run]
    cases step c s a with
    | none => rfl
    | some t => exact run_append c as bs t

structure Inv (c : Cfg) (s : St) : Prop where
  rest : (∀ i, s.phase ≠ .snap i) → shape s.log = (List.range s.num).flatMap (wholeSnapshot c.n)
  snap : ∀ i, s.phase = .snap i → i ≤ c.n ∧ ∃ m, s.num = m + 1 ∧
    shape s.log = (List.range m).flatMap (wholeSnapshot c.n) ++ .inl m :: (List.range i).map .inr
  dead : ∀ i, Ev.call i false ∈ s.log → i < c.k
  past : c.k < s.pos → s.phase = .ended ∨ s.phase = .none
  runs : s.running = false ↔ s.phase = .none

theorem init_inv (c : Cfg) : Inv c init :=
  ⟨fun _ => rfl, (by intro i h; cases h), (by intro i h; cases h), (by intro h; simp [init] at h), (by simp [init])⟩

theorem shape_append (a b : List Ev) : shape (a ++ b) = shape a ++ shape b := by simp [shape]

theorem step_inv (c : Cfg) (s t : St) (a : Act) (hi : Inv c s) (h : step c s a = some t) : Inv c t := by
  obtain ⟨h1, h2, h3, h4, h5⟩ := hi
  cases a with
  | create ok =>
    simp only [step, stepMain] at h
    split at h
    · rename_i hc
      cases ok with
      | false => simp only [Bool.false_eq_true, if_false, Option.some.injEq] at h; subst h; exact ⟨h1, h2, h3, h4, h5⟩
      | true =>
        simp only [if_true, Option.some.injEq] at h
        subst h
        refine ⟨fun _ => h1 (by rw [hc.1]; intro i e; cases e), (by intro i e; cases e), h3, ?_, ?_⟩
        · intro e; rw [hc.2] at e; omega
        · simp
    · cases h
  | finish =>
    simp only [step, stepMain] at h
    split at h
    · split at h
      · rename_i hk
        split at h
        · cases h; exact ⟨h1, h2, h3, h4, h5⟩
        · split at h
          · rename_i he
            cases h
            exact ⟨h1, h2, h3, fun _ => .inl he, h5⟩
          · cases h
      · rename_i hk
        cases h
        refine ⟨h1, h2, h3, ?_, h5⟩
        intro hlt
        change c.k < s.pos + 1 at hlt
        by_cases e : c.k < s.pos
        · exact h4 e
        · have e2 : s.pos = c.k := by omega
          have : s.running = false := by
            cases hr : s.running with
            | false => rfl
            | true => exact absurd ⟨e2, hr⟩ hk
          exact .inr (h5.mp this)
    · cases h
  | enter =>
    simp only [step, stepMon] at h
    split at h
    · rename_i hp
      cases h
      refine ⟨fun _ => h1 (by rw [hp]; intro i e; cases e), ?_, h3, ?_, ?_⟩
      · intro i e; cases hc : s.cancel <;> simp [hc] at e
      · intro e; have := h4 e; rw [hp] at this; simp at this
      · constructor
        · intro e; have := h5.mp e; rw [hp] at this; cases this
        · intro e; cases hc : s.cancel <;> simp [hc] at e
    · cases h
  | wake =>
    simp only [step, stepMon] at h
    split at h
    · rename_i hp
      cases h
      have hs := h1 (by rw [hp]; intro i e; cases e)
      refine ⟨fun hn => absurd rfl (hn 0), ?_, ?_, ?_, ?_⟩
      · intro i e
        cases e
        refine ⟨Nat.zero_le _, s.num, rfl, ?_⟩
        change shape (s.log ++ _) = _
        rw [shape_append, hs]; rfl
      · intro i e
        rcases List.mem_append.mp e with e | e
        · exact h3 i e
        · simp at e
      · intro e; have := h4 e; rw [hp] at this; simp at this
      · constructor
        · intro e; have := h5.mp e; rw [hp] at this; cases this
        · intro e; cases e
    · cases h
  | intr =>
    simp only [step, stepMon] at h
    split at h
    · rename_i hp
      cases h
      refine ⟨fun _ => h1 (by rw [hp]; intro i e; cases e), (by intro i e; cases e), h3, fun _ => .inl rfl, ?_⟩
      constructor
      · intro e; have := h5.mp e; rw [hp] at this; cases this
      · intro e; cases e
    · cases h
  | cancelled =>
    simp only [step, stepMon] at h
    split at h
    · rename_i hp
      cases h
      refine ⟨fun _ => h1 (by rw [hp.1]; intro i e; cases e), (by intro i e; cases e), h3, fun _ => .inl rfl, ?_⟩
      constructor
      · intro e; have := h5.mp e; rw [hp.1] at this; cases this
      · intro e; cases e
    · cases h
  | call =>
    simp only [step, stepMon] at h
    cases hp : s.phase with
    | snap i =>
      rw [hp] at h
      simp only at h
      obtain ⟨hi, m, hm, hs⟩ := h2 i hp
      have hpos : ¬ c.k < s.pos := by
        intro e; have := h4 e; rw [hp] at this; simp at this
      have hrun : ¬ s.running = false := by
        intro e; have := h5.mp e; rw [hp] at this; cases this
      split at h
      · rename_i hlt
        cases h
        refine ⟨fun hn => absurd rfl (hn (i + 1)), ?_, ?_, fun e => absurd e hpos, ?_⟩
        · intro j e
          cases e
          refine ⟨hlt, m, hm, ?_⟩
          change shape (s.log ++ _) = _
          rw [shape_append, hs, List.range_succ]
          simp [shape]
        · intro j e
          rcases List.mem_append.mp e with e | e
          · exact h3 j e
          · simp only [List.mem_singleton, Ev.call.injEq] at e
            have := e.2.symm
            simp only [decide_eq_false_iff_not] at this
            omega
        · constructor
          · intro e; exact absurd e hrun
          · intro e; cases e
      · rename_i hlt
        cases h
        have : i = c.n := by omega
        subst this
        refine ⟨fun _ => ?_, (by intro i e; cases e), h3, fun e => absurd e hpos, ?_⟩
        · change shape s.log = (List.range s.num).flatMap _
          rw [hs, hm, List.range_succ]
          simp [wholeSnapshot]
        · constructor
          · intro e; exact absurd e hrun
          · intro e; cases e
    | none => rw [hp] at h; cases h
    | enter => rw [hp] at h; cases h
    | sleep => rw [hp] at h; cases h
    | ended => rw [hp] at h; cases h

theorem run_inv (c : Cfg) : ∀ (as : List Act) (s t : St), Inv c s → run c s as = some t → Inv c t
  | [], s, t, hi, h => by cases h; exact hi
  | a :: as, s, t, hi, h => by
    simp only [run] at h
    cases e : step c s a with
    | none => rw [e] at h; cases h
    | some u => rw [e] at h; exact run_inv c as u t (step_inv c s u a hi e) h

theorem numbers_shape (l : List Ev) : numbers l = (shape l).filterMap fun | .inl n => some n | .inr _ => none := by
  induction l with
  | nil => rfl
  | cons e l ih => cases e <;> simp_all [numbers, shape]

theorem numbers_whole (n m : Nat) :
    ((List.range m).flatMap (wholeSnapshot n)).filterMap (fun | .inl n => some n | .inr (_ : Nat) => none) = List.range m := by
  induction m with
  | zero => rfl
  | succ m ih =>
    rw [List.range_succ, List.flatMap_append, List.filterMap_append, ih]
    congr 1
    simp [wholeSnapshot, List.filterMap_map, Function.comp_def]

/-- **C114**: for every set of services, every position of `thread_monitor` among them and every schedule of the two threads: the
snapshots carry the numbers 0, 1, 2, … without a gap or a repetition -/
theorem C114_numbers (c : Cfg) (as : List Act) (s : St) (h : run c init as = some s) : numbers s.log = List.range (numbers s.log).length := by
  have hi := run_inv c as init s (init_inv c) h
  have key : ∃ m, numbers s.log = List.range m := by
    by_cases hp : ∃ i, s.phase = .snap i
    · obtain ⟨i, hp⟩ := hp
      obtain ⟨_, m, _, hs⟩ := hi.snap i hp
      refine ⟨m + 1, ?_⟩
      rw [numbers_shape, hs, List.filterMap_append, numbers_whole, List.range_succ]
      congr 1
      simp [List.filterMap_map, Function.comp_def]
    · refine ⟨s.num, ?_⟩
      rw [numbers_shape, hi.rest (fun i e => hp ⟨i, e⟩), numbers_whole]
  obtain ⟨m, hm⟩ := key
  rw [hm]; simp

/-- **C114**: every snapshot is complete: apart from one that is being taken, each snapshot runs the callbacks of all services, in
order, before the next one begins (also when the thread is cancelled meanwhile) -/
theorem C114_whole (c : Cfg) (as : List Act) (s : St) (h : run c init as = some s) (hp : ∀ i, s.phase ≠ .snap i) :
    shape s.log = (List.range (numbers s.log).length).flatMap (wholeSnapshot c.n) := by
  have hi := run_inv c as init s (init_inv c) h
  have e := hi.rest hp
  have : numbers s.log = List.range s.num := by rw [numbers_shape, e, numbers_whole]
  rw [this, e]; simp

theorem step_after (c : Cfg) (s t : St) (a : Act) (hp : s.phase = .ended ∨ s.phase = .none) (h0 : 0 < s.pos) (h : step c s a = some t) :
    t.log = s.log ∧ (t.phase = .ended ∨ t.phase = .none) ∧ 0 < t.pos := by
  cases a with
  | create ok =>
    simp only [step, stepMain] at h
    rw [if_neg (by intro e; omega)] at h; cases h
  | finish =>
    simp only [step, stepMain] at h
    split at h
    · split at h
      · split at h
        · cases h; exact ⟨rfl, hp, h0⟩
        · split at h
          · cases h; exact ⟨rfl, hp, Nat.succ_pos _⟩
          · cases h
      · cases h; exact ⟨rfl, hp, Nat.succ_pos _⟩
    · cases h
  | enter => simp only [step, stepMon] at h; rcases hp with hp | hp <;> rw [hp] at h <;> simp at h
  | wake => simp only [step, stepMon] at h; rcases hp with hp | hp <;> rw [hp] at h <;> simp at h
  | intr => simp only [step, stepMon] at h; rcases hp with hp | hp <;> rw [hp] at h <;> simp at h
  | cancelled => simp only [step, stepMon] at h; rcases hp with hp | hp <;> rw [hp] at h <;> simp at h
  | call => simp only [step, stepMon] at h; rcases hp with hp | hp <;> rw [hp] at h <;> simp at h

theorem run_after (c : Cfg) : ∀ (as : List Act) (s t : St), (s.phase = .ended ∨ s.phase = .none) → 0 < s.pos → run c s as = some t → t.log = s.log
  | [], s, t, _, _, h => by cases h; rfl
  | a :: as, s, t, hp, h0, h => by
    simp only [run] at h
    cases e : step c s a with
    | none => rw [e] at h; cases h
    | some u =>
      rw [e] at h
      obtain ⟨e1, e2, e3⟩ := step_after c s u a hp h0 e
      rw [run_after c as u t e2 e3 h, e1]

/-- **C114**: once `thread_monitor`'s finish callback has returned, the thread takes no snapshot any more and calls no service -/
theorem C114_stopped (c : Cfg) (as bs : List Act) (s t : St) (h : run c init as = some s) (hk : c.k < s.pos) (h2 : run c s bs = some t) :
    t.log = s.log :=
  run_after c bs s t ((run_inv c as init s (init_inv c) h).past hk) (by omega) h2

/-- **C114** (partial): the only services the monitoring thread can use after they were deleted are those that were registered
before `thread_monitor`; so if `thread_monitor` comes first, there are none -/
theorem C114_deleted_partial (c : Cfg) (as : List Act) (s : St) (h : run c init as = some s) (i : Nat) (hu : UsedAfterDelete s.log i) : i < c.k :=
  (run_inv c as init s (init_inv c) h).dead i hu

theorem calls_run (c : Cfg) (k : Nat) (s : St) (j : Nat) : ∀ (l : List Ev), j + k ≤ c.n →
    run c { s with phase := .snap j, log := l } (List.replicate k .call) =
      some { s with phase := .snap (j + k), log := l ++ (List.range k).map fun i => .call (j + i) (decide (s.pos ≤ j + i)) } := by
  induction k generalizing j with
  | zero => intro l _; simp [run]
  | succ k ih =>
    intro l hj
    rw [List.replicate_succ]
    simp only [run, step, stepMon]
    rw [if_pos (by omega)]
    simp only
    rw [ih (j + 1) _ (by omega)]
    have e1 : j + 1 + k = j + (k + 1) := by omega
    rw [e1, List.range_succ_eq_map]
    simp [Function.comp_def, Nat.add_assoc, Nat.add_comm 1]

/-- the thread that deletes the channel never waits for ever: whenever it waits for the thread, the monitoring thread can move, and
within `n + 2` of its own steps, all of them forced except for the end of the sleep, it has ended -/
theorem C114_join (c : Cfg) (as : List Act) (s : St) (h : run c init as = some s) (hw : s.running = true) (hc : s.cancel = true) :
    ∃ bs : List Act, bs.length ≤ c.n + 2 ∧ (∀ b ∈ bs, isMon b = true) ∧ ∃ t, run c s bs = some t ∧ t.phase = .ended ∧
      (s.pos < c.n → s.pos = c.k → ∃ u, step c t .finish = some u ∧ u.pos = s.pos + 1) := by
  have hi := run_inv c as init s (init_inv c) h
  have fin : ∀ t : St, t.phase = .ended → t.pos = s.pos → t.cancel = true → t.running = true →
      (s.pos < c.n → s.pos = c.k → ∃ u, step c t .finish = some u ∧ u.pos = s.pos + 1) := by
    intro t h1 h2 h3 h4 h5 h6
    refine ⟨{ t with pos := t.pos + 1 }, ?_, by simp [h2]⟩
    simp only [step, stepMain]
    rw [if_pos (by omega), if_pos ⟨by omega, h4⟩, if_neg (by simp [h3]), if_pos h1]
  cases hp : s.phase with
  | none => have := hi.runs.mpr hp; rw [hw] at this; cases this
  | ended => exact ⟨[], by simp, by simp, s, rfl, hp, fin s hp rfl hc hw⟩
  | sleep =>
    refine ⟨[.cancelled], by simp, by simp [isMon], { s with phase := .ended }, ?_, rfl, fin _ rfl rfl hc hw⟩
    simp [run, step, stepMon, hp, hc]
  | enter =>
    refine ⟨[.enter], by simp, by simp [isMon], { s with phase := .ended }, ?_, rfl, fin _ rfl rfl hc hw⟩
    simp [run, step, stepMon, hp, hc]
  | snap i =>
    obtain ⟨hin, -⟩ := hi.snap i hp
    refine ⟨List.replicate (c.n - i) .call ++ [.call, .enter], ?_, ?_, ?_⟩
    · simp
    · intro b hb
      rcases List.mem_append.mp hb with hb | hb
      · rw [(List.mem_replicate.mp hb).2]; rfl
      · simp at hb; rcases hb with rfl | rfl <;> rfl
    · have e : s = { s with phase := .snap i, log := s.log } := by cases s; simp only at hp; subst hp; rfl
      refine ⟨{ s with phase := .ended, log := s.log ++ (List.range (c.n - i)).map fun j => .call (i + j) (decide (s.pos ≤ i + j)) }, ?_, rfl, fin _ rfl rfl hc hw⟩
      rw [run_append]
      have e3 := calls_run c (c.n - i) s i s.log (by omega)
      rw [← e] at e3
      rw [e3]
      have : i + (c.n - i) = c.n := by omega
      simp [run, step, stepMon, this, hc]

theorem step_num (c : Cfg) (s t : St) (a : Act) (h : step c s a = some t) :
    (numbers t.log).length = (numbers s.log).length + if a = .wake then 1 else 0 := by
  cases a with
  | create ok =>
    simp only [step, stepMain] at h
    split at h
    · cases ok <;> simp at h <;> subst h <;> rfl
    · cases h
  | finish =>
    simp only [step, stepMain] at h
    split at h
    · split at h
      · split at h
        · cases h; rfl
        · split at h
          · cases h; rfl
          · cases h
      · cases h; rfl
    · cases h
  | enter => simp only [step, stepMon] at h; split at h <;> cases h; rfl
  | wake => simp only [step, stepMon] at h; split at h <;> cases h; simp [numbers]
  | intr => simp only [step, stepMon] at h; split at h <;> cases h; rfl
  | cancelled => simp only [step, stepMon] at h; split at h <;> cases h; rfl
  | call =>
    simp only [step, stepMon] at h
    split at h
    · split at h <;> cases h
      · simp [numbers]
      · rfl
    · cases h

/-- **C114**: exactly one snapshot is taken each time the interval is over -/
theorem C114_one_per_interval (c : Cfg) : ∀ (as : List Act) (s t : St), run c s as = some t →
    (numbers t.log).length = (numbers s.log).length + as.count .wake
  | [], s, t, h => by cases h; rfl
  | a :: as, s, t, h => by
    simp only [run] at h
    cases e : step c s a with
    | none => rw [e] at h; cases h
    | some u =>
      rw [e] at h
      rw [C114_one_per_interval c as u t h, step_num c s u a e, List.count_cons]
      by_cases ha : a = .wake
      · subst ha; simp; omega
      · simp [ha]

theorem step_ended (c : Cfg) (s t : St) (a : Act) (hp : s.phase = .ended) (h : step c s a = some t) : t.log = s.log ∧ t.phase = .ended := by
  cases a with
  | create ok => simp [step, stepMain, hp] at h
  | finish =>
    simp only [step, stepMain, hp, if_true] at h
    split at h
    · split at h
      · split at h
        · cases h; exact ⟨rfl, by first | rfl | exact hp⟩
        · cases h; exact ⟨rfl, by first | rfl | exact hp⟩
      · cases h; exact ⟨rfl, by first | rfl | exact hp⟩
    · cases h
  | enter => simp [step, stepMon, hp] at h
  | wake => simp [step, stepMon, hp] at h
  | intr => simp [step, stepMon, hp] at h
  | cancelled => simp [step, stepMon, hp] at h
  | call => simp [step, stepMon, hp] at h

theorem run_ended (c : Cfg) : ∀ (as : List Act) (s t : St), s.phase = .ended → run c s as = some t → t.log = s.log
  | [], s, t, _, h => by cases h; rfl
  | a :: as, s, t, hp, h => by
    simp only [run] at h
    cases e : step c s a with
    | none => rw [e] at h; cases h
    | some u =>
      rw [e] at h
      obtain ⟨e1, e2⟩ := step_ended c s u a hp e
      rw [run_ended c as u t e2 h, e1]

/-- **C114**, violation: the first signal handled in the monitoring thread ends the monitoring: whatever happens afterwards, no
further snapshot is taken (`nanosleep` returns -1, which the code compares with `EINTR`) -/
theorem C114_violation_signal (c : Cfg) (as bs : List Act) (s : St) (h : run c init (as ++ .intr :: bs) = some s) :
    ∃ t, run c init as = some t ∧ s.log = t.log := by
  rw [run_append] at h
  cases e : run c init as with
  | none => rw [e] at h; cases h
  | some t =>
    rw [e] at h
    refine ⟨t, rfl, ?_⟩
    simp only [Option.bind_some, run] at h
    cases e2 : step c t .intr with
    | none => rw [e2] at h; cases h
    | some u =>
      rw [e2] at h
      simp only at h
      simp only [step, stepMon] at e2
      split at e2
      · cases e2; exact run_ended c bs { t with phase := .ended } s rfl h
      · cases e2

theorem finish_one (c : Cfg) (s : St) (h : s.pos < c.n) (hk : s.pos ≠ c.k) : step c s .finish = some { s with pos := s.pos + 1 } := by
  simp only [step, stepMain]
  rw [if_pos h, if_neg (fun e => hk e.1)]

/-- **C114**, violation: whenever `thread_monitor` is not the first service of the channel there is a schedule in which the channel is
being deleted and the monitoring thread calls a service that has been deleted -/
theorem C114_violation_deleted (c : Cfg) (hk : 0 < c.k) (hn : c.k < c.n) :
    ∃ as s, run c init as = some s ∧ UsedAfterDelete s.log 0 := by
  refine ⟨[.create true, .enter, .finish, .wake, .call], ⟨.snap 1, 1, 1, false, true, [.begin 0, .call 0 false]⟩, ?_, by simp [UsedAfterDelete]⟩
  have h0 : ¬ (0 : Nat) = c.k := by omega
  have h1 : 0 < c.n := by omega
  simp [run, step, stepMon, stepMain, init, h0, h1]

/-- the same with two services, aggregate before thread_monitor; and a run in which everything goes well, with two snapshots -/
theorem C114_example :
    (run ⟨2, 0⟩ init [.create true, .enter, .wake, .call, .call, .call, .enter, .wake, .finish, .call, .call, .call, .enter, .finish, .finish]
      = some ⟨.ended, 2, 2, true, true, [.begin 0, .call 0 true, .call 1 true, .begin 1, .call 0 true, .call 1 true]⟩) ∧
    (run ⟨2, 1⟩ init [.create true, .enter, .wake, .finish, .call, .call, .call, .finish, .enter, .finish]
      = some ⟨.ended, 1, 2, true, true, [.begin 0, .call 0 false, .call 1 true]⟩) ∧
    (run ⟨2, 1⟩ init [.create false, .finish, .finish] = some ⟨.none, 0, 2, false, false, []⟩) ∧
    (run ⟨1, 0⟩ init [.create true, .enter, .finish, .finish] = none) := by
  refine ⟨?_, ?_, ?_, ?_⟩ <;> decide +kernel

end Verif.Monitor
