import Verif.Serv.RegionMonitorSpec
/-!
# C90: region_monitor
-/
namespace Verif.Serv.RegionMonitor

theorem run_append (min : Int) (a b : List Ev) : ∀ s, run min s (a ++ b) = (run min s a).bind fun (s', o) => (run min s' b).map fun (s'', o') => (s'', o ++ o') := by
  induction a with
  | nil => intro s; simp [run]
  | cons e a ih =>
    intro s
    simp only [List.cons_append, run]
    cases step min s e with
    | none => rfl
    | some x =>
      simp only [Option.bind_some]
      rw [ih]
      cases run min x.1 a with
      | none => rfl
      | some y =>
        simp only [Option.bind_some, Option.map_some]
        cases run min y.1 b with
        | none => rfl
        | some z => simp

/-- the service's table for a history -/
structure Table (min : Int) (h : List Obs) (regs : Nat → Option Info) : Prop where
  none_ : ∀ n, regs n = none → lastTime min h n = 0 ∧ insideTime min h n = 0
  some_ : ∀ n i, regs n = some i → i.incl = lastTime min h n ∧ i.child = insideTime min h n

theorem lastTime_snoc (min : Int) (h : List Obs) (o : Obs) (n : Nat) : lastTime min (h ++ [o]) n = if o.node = n ∧ o.time > min then o.time else lastTime min h n := by
  unfold lastTime
  by_cases ho : o.node = n ∧ o.time > min
  · rw [if_pos ho, List.filter_append, List.filter_cons_of_pos (by simpa using ho)]; simp
  · rw [if_neg ho, List.filter_append, List.filter_cons_of_neg (by simpa using ho)]; simp

theorem insideTime_snoc (min : Int) (h : List Obs) (o : Obs) (n : Nat) : insideTime min (h ++ [o]) n = insideTime min h n + if o.parent = some n ∧ o.time > min then o.time else 0 := by
  unfold insideTime
  by_cases ho : o.parent = some n ∧ o.time > min
  · rw [if_pos ho, List.filter_append, List.filter_cons_of_pos (by simpa using ho)]; simp
  · rw [if_neg ho, List.filter_append, List.filter_cons_of_neg (by simpa using ho)]; simp

theorem upd_same (f : Nat → Option Info) (n : Nat) (i : Info) : upd f n i n = some i := if_pos rfl
theorem upd_ne (f : Nat → Option Info) {n x : Nat} (i : Info) (h : x ≠ n) : upd f n i x = f x := if_neg h

/-- numbers of a table entry -/
def val (regs : Nat → Option Info) (n : Nat) : Int × Int := (regs n).elim (0, 0) fun i => (i.incl, i.child)

theorem table_iff (min : Int) (h : List Obs) (regs : Nat → Option Info) : Table min h regs ↔ ∀ n, val regs n = (lastTime min h n, insideTime min h n) := by
  constructor
  · intro ht n
    unfold val
    cases hr : regs n with
    | none => obtain ⟨h1, h2⟩ := ht.none_ n hr; rw [h1, h2]; rfl
    | some i => obtain ⟨h1, h2⟩ := ht.some_ n i hr; rw [← h1, ← h2]; rfl
  · intro hv
    constructor
    · intro n hr
      have := hv n
      simp only [val, hr, Option.elim_none, Prod.mk.injEq] at this
      exact ⟨this.1.symm, this.2.symm⟩
    · intro n i hr
      have := hv n
      simp only [val, hr, Option.elim_some, Prod.mk.injEq] at this
      exact this

theorem val_upd (f : Nat → Option Info) (n x : Nat) (i : Info) : val (upd f n i) x = if x = n then (i.incl, i.child) else val f x := by
  unfold val
  by_cases h : x = n
  · subst h; rw [upd_same, if_pos rfl]; rfl
  · rw [upd_ne _ _ h, if_neg h]

theorem val_setIncl (regs : Nat → Option Info) (n : Nat) (d : Int) (y : Nat) : val (setIncl regs n d) y = (if n = y then d else (val regs y).1, (val regs y).2) := by
  unfold setIncl
  cases hr : regs n with
  | none =>
    simp only [val_upd]
    by_cases hy : y = n
    · subst hy; simp [val, hr]
    · simp [hy, Ne.symm hy]
  | some i =>
    simp only [val_upd]
    by_cases hy : y = n
    · subst hy; simp [val, hr]
    · simp [hy, Ne.symm hy]

theorem val_addChild (regs : Nat → Option Info) (p : Nat) (d : Int) (y : Nat) : val (addChild regs p d) y = ((val regs y).1, (val regs y).2 + if p = y then d else 0) := by
  unfold addChild
  cases hr : regs p with
  | none =>
    simp only [val_upd]
    by_cases hy : y = p
    · subst hy; simp [val, hr]
    · simp [hy, Ne.symm hy]
  | some i =>
    simp only [val_upd]
    by_cases hy : y = p
    · subst hy; simp [val, hr]
    · simp [hy, Ne.symm hy]

theorem val_note (min : Int) (regs : Nat → Option Info) (n : Nat) (parent : Option Nat) (d : Int) (x : Nat) :
    val (note min regs n parent d) x = (if n = x ∧ d > min then d else (val regs x).1, (val regs x).2 + if parent = some x ∧ d > min then d else 0) := by
  unfold note
  by_cases hd : d > min
  · cases parent with
    | none => simp [hd, val_setIncl]
    | some p => simp [hd, val_setIncl, val_addChild]
  · simp [hd]

theorem Table.note {min : Int} {h : List Obs} {regs : Nat → Option Info} (ht : Table min h regs) (n : Nat) (parent : Option Nat) (d : Int) :
    Table min (h ++ [⟨n, parent, d⟩]) (RegionMonitor.note min regs n parent d) := by
  rw [table_iff] at *
  intro x
  rw [val_note, lastTime_snoc, insideTime_snoc, ht x]

/-- inside a measured execution nothing happens -/
theorem run_skipped (min : Int) : ∀ (f : Forest) (parent : Option Nat) (s : St), f.Ok → s.measuring = true → s.skip > 0 → run min s (f.events parent) = some (s, []) := by
  intro f
  induction f with
  | nil => intro parent s _ _ _; rfl
  | other e rest ih =>
    intro parent s hok hm hs
    simp only [Forest.events, run]
    have : step min s e = some (s, []) := by
      cases e with
      | begin_ n a b => have := hok.1; simp only at this; subst this; rfl
      | end_ n a b c => have := hok.1; simp only at this; subst this; rfl
    rw [this]
    simp [ih parent s hok.2 hm hs]
  | region n t0 t1 k rest ihk ihr =>
    intro parent s hok hm hs
    simp only [Forest.events, run]
    have h1 : step min s (.begin_ true (some n) t0) = some ({ s with skip := s.skip + 1 }, []) := by simp [step, postBegin, hm]
    rw [h1]
    simp only [Option.bind_some]
    rw [run_append, ihk (some n) { s with skip := s.skip + 1 } hok.1 hm (by show s.skip + 1 > 0; omega)]
    simp only [Option.bind_some, run]
    have h2 : step min { s with skip := s.skip + 1 } (.end_ true (some n) parent t1) = some (s, []) := by
      obtain ⟨r, st, me, sk⟩ := s
      simp only at hm hs
      subst hm
      simp [step, preEnd, hs]
    rw [h2]
    simp [ihr parent s hok.2 hm hs]

theorem run_forest (min : Int) : ∀ (f : Forest) (parent : Option Nat) (s : St) (h : List Obs), f.Ok → s.measuring = false → Table min h s.regs →
    ∃ s', run min s (f.events parent) = some (s', (f.measured min parent h).2.flatMap pair) ∧ s'.measuring = false ∧ s'.stack = s.stack ∧ Table min (f.measured min parent h).1 s'.regs := by
  intro f
  induction f with
  | nil => intro parent s h _ hm ht; exact ⟨s, rfl, hm, rfl, ht⟩
  | other e rest ih =>
    intro parent s h hok hm ht
    have h1 : step min s e = some (s, []) := by
      cases e with
      | begin_ n a b => have := hok.1; simp only at this; subst this; rfl
      | end_ n a b c => have := hok.1; simp only at this; subst this; rfl
    obtain ⟨s', h2, h3⟩ := ih parent s h hok.2 hm ht
    refine ⟨s', ?_, h3⟩
    simp only [Forest.events, run, h1, Option.bind_some, h2]
    simp [Forest.measured]
  | region n t0 t1 k rest ihk ihr =>
    intro parent s h hok hm ht
    simp only [Forest.events, run]
    by_cases hw : Wanted min h n
    · have hreg : ∃ i, s.regs n = some i ∧ i.incl > 2 * i.child := by
        cases hr : s.regs n with
        | none =>
          obtain ⟨h1, h2⟩ := ht.none_ n hr
          unfold Wanted at hw; rw [h1, h2] at hw; omega
        | some i =>
          obtain ⟨h1, h2⟩ := ht.some_ n i hr
          unfold Wanted at hw; rw [← h1, ← h2] at hw
          exact ⟨i, rfl, hw⟩
      obtain ⟨i, hr, hi⟩ := hreg
      have h1 : step min s (.begin_ true (some n) t0) = some ({ s with stack := t0 :: s.stack, measuring := true, skip := 1 }, [.pull n t0]) := by
        simp [step, postBegin, hm, hr, hi]
      rw [h1]
      simp only [Option.bind_some]
      rw [run_append, run_skipped min k (some n) _ hok.1 rfl (by simp)]
      simp only [Option.bind_some, run]
      have h2 : step min { s with stack := t0 :: s.stack, measuring := true, skip := 1 } (.end_ true (some n) parent t1) =
          some ({ s with measuring := false, skip := 0, regs := note min s.regs n parent (t1 - t0) }, [.push (some n) t1]) := by
        simp [step, preEnd]
      rw [h2]
      simp only [Option.bind_some]
      obtain ⟨s', g1, g2, g3, g4⟩ := ihr parent { s with measuring := false, skip := 0, regs := note min s.regs n parent (t1 - t0) } (h ++ [⟨n, parent, t1 - t0⟩]) hok.2 rfl (ht.note n parent (t1 - t0))
      rw [g1]
      refine ⟨s', ?_, g2, g3, ?_⟩
      · simp [Forest.measured, hw, pair]
      · simp only [Forest.measured, hw, if_true]; exact g4
    · have h1 : step min s (.begin_ true (some n) t0) = some ({ s with stack := t0 :: s.stack }, []) := by
        cases hr : s.regs n with
        | none => simp [step, postBegin, hm, hr]
        | some i =>
          obtain ⟨h1, h2⟩ := ht.some_ n i hr
          unfold Wanted at hw; rw [← h1, ← h2] at hw
          simp [step, postBegin, hm, hr]; omega
      rw [h1]
      simp only [Option.bind_some]
      obtain ⟨s1, e1, e2, e3, e4⟩ := ihk (some n) { s with stack := t0 :: s.stack } h hok.1 hm ht
      rw [run_append, e1]
      simp only [Option.bind_some, run]
      have h2 : step min s1 (.end_ true (some n) parent t1) = some ({ s1 with stack := s.stack, regs := note min s1.regs n parent (t1 - t0) }, []) := by
        simp [step, preEnd, e2, e3]
      rw [h2]
      simp only [Option.bind_some]
      obtain ⟨s', g1, g2, g3, g4⟩ := ihr parent { s1 with stack := s.stack, regs := note min s1.regs n parent (t1 - t0) } _ hok.2 e2 (e4.note n parent (t1 - t0))
      rw [g1]
      refine ⟨s', ?_, g2, g3, ?_⟩
      · simp [Forest.measured, hw]
      · simp only [Forest.measured, hw, if_false]; exact g4

theorem table_init (min : Int) : Table min [] St.init.regs := ⟨fun _ _ => ⟨rfl, rfl⟩, fun _ _ h => nomatch h⟩

/-- for regions that are executed one inside the other the service never fails, and its snapshots are the pairs of begin and end snapshots of the executions that should be measured, in order -/
theorem C90_measurements (min : Int) (f : Forest) (hf : f.Ok) :
    ∃ s, run min St.init (f.events none) = some (s, (f.measured min none []).2.flatMap pair) ∧ s.measuring = false ∧ s.stack = [] := by
  obtain ⟨s, h1, h2, h3, -⟩ := run_forest min f none St.init [] hf rfl (table_init min)
  exact ⟨s, h1, h2, h3⟩

theorem measured_sublist (min : Int) : ∀ (f : Forest) (parent : Option Nat) (h : List Obs), (f.measured min parent h).2.Sublist f.executions := by
  intro f
  induction f with
  | nil => intro parent h; exact List.Sublist.refl _
  | other e rest ih => intro parent h; exact ih parent h
  | region n t0 t1 k rest ihk ihr =>
    intro parent h
    simp only [Forest.measured, Forest.executions]
    split
    · exact ((ihr _ _).trans (List.sublist_append_right _ _)).cons_cons _
    · exact ((ihk _ _).append (ihr _ _)).cons _

/-- what is measured are executions that took place, in the order in which they began -/
theorem C90_executions (min : Int) (f : Forest) : (f.measured min none []).2.Sublist f.executions := measured_sublist min f none []

theorem lastTime_zero {min : Int} {h : List Obs} {n : Nat} (hh : ∀ o : Obs, o ∈ h → o.node = n → o.time ≤ min) : lastTime min h n = 0 := by
  unfold lastTime
  rw [show (h.filter fun o => decide (o.node = n ∧ o.time > min)) = [] from ?_]
  · rfl
  · rw [List.filter_eq_nil_iff]
    intro o ho hd
    obtain ⟨h1, h2⟩ : o.node = n ∧ o.time > min := by simpa using hd
    have := hh o ho h1
    omega

theorem insideTime_nonneg {min : Int} (hmin : 0 ≤ min) (h : List Obs) (n : Nat) : 0 ≤ insideTime min h n := by
  unfold insideTime
  induction h with
  | nil => exact Int.le_refl _
  | cons o h ih =>
    by_cases ho : o.parent = some n ∧ o.time > min
    · rw [List.filter_cons_of_pos (by simpa using ho)]; simp only [List.map_cons, List.sum_cons]; omega
    · rw [List.filter_cons_of_neg (by simpa using ho)]; exact ih

theorem measured_short {min : Int} (hmin : 0 ≤ min) (n : Nat) : ∀ (f : Forest) (parent : Option Nat) (h : List Obs), (∀ x ∈ f.executions, x.1 = n → x.2.2 - x.2.1 ≤ min) →
    (∀ o ∈ h, o.node = n → o.time ≤ min) → (∀ x ∈ (f.measured min parent h).2, x.1 ≠ n) ∧ ∀ o ∈ (f.measured min parent h).1, o.node = n → o.time ≤ min := by
  intro f
  induction f with
  | nil => intro parent h _ hh; exact ⟨(fun x hx => nomatch hx), hh⟩
  | other e rest ih => intro parent h hx hh; exact ih parent h hx hh
  | region m t0 t1 k rest ihk ihr =>
    intro parent h hx hh
    simp only [Forest.executions, List.mem_cons, List.mem_append] at hx
    have hnew : ∀ h' : List Obs, (∀ o ∈ h', o.node = n → o.time ≤ min) → ∀ o ∈ h' ++ [⟨m, parent, t1 - t0⟩], o.node = n → o.time ≤ min := by
      intro h' hh' o ho hn
      rcases List.mem_append.mp ho with ho | ho
      · exact hh' o ho hn
      · obtain rfl := List.mem_singleton.mp ho
        exact hx (m, t0, t1) (.inl rfl) hn
    simp only [Forest.measured]
    by_cases hw : Wanted min h m
    · have hmn : m ≠ n := by
        rintro rfl
        unfold Wanted at hw
        rw [lastTime_zero hh] at hw
        have := insideTime_nonneg hmin h m
        omega
      obtain ⟨h1, h2⟩ := ihr parent (h ++ [⟨m, parent, t1 - t0⟩]) (fun x hx' => hx x (.inr (.inr hx'))) (hnew h hh)
      simp only [hw, if_true]
      refine ⟨fun x hx' => ?_, h2⟩
      rcases List.mem_cons.mp hx' with rfl | hx'
      · exact hmn
      · exact h1 x hx'
    · simp only [hw, if_false]
      obtain ⟨k1, k2⟩ := ihk (some m) h (fun x hx' => hx x (.inr (.inl hx'))) hh
      obtain ⟨h1, h2⟩ := ihr parent _ (fun x hx' => hx x (.inr (.inr hx'))) (hnew _ k2)
      refine ⟨fun x hx' => ?_, h2⟩
      rcases List.mem_append.mp hx' with hx' | hx'
      · exact k1 x hx'
      · exact h1 x hx'

/-- a region whose executions are never longer than the interval is never measured -/
theorem C90_short {min : Int} (hmin : 0 ≤ min) (f : Forest) (n : Nat) (hs : ∀ x ∈ f.executions, x.1 = n → x.2.2 - x.2.1 ≤ min) :
    ∀ x ∈ (f.measured min none []).2, x.1 ≠ n := (measured_short hmin n f none [] hs (fun o ho => nomatch ho)).1

/-! ## what does not hold -/

/-- an execution of region `n` without anything inside it -/
def leaf (n : Nat) (t0 t1 : Int) (rest : Forest) : Forest := .region n t0 t1 .nil rest

/-- region 1 runs three times for 100 ticks; only the first time it has something inside it, for 60 ticks.  It is never measured again although all its time is its own from then on:
the time inside is added up over all executions, the region's time is that of the last one -/
theorem C90_violation_history :
    ((Forest.region 1 0 100 (leaf 2 10 70 .nil) (leaf 1 100 200 (leaf 1 200 300 (leaf 1 300 400 .nil)))).measured 1 none []).2 = [] ∧
    ((leaf 1 0 100 (leaf 1 100 200 (leaf 1 200 300 .nil))).measured 1 none []).2 = [(1, 100, 200), (1, 200, 300)] := by decide +kernel

/-- with two threads the begin snapshot belongs to one thread's region and the end snapshot to the other's: region 1 of the first thread begins and is measured, region 2 of the second thread begins,
region 1 ends, region 2 ends -/
theorem C90_violation_threads : ((run 1 St.init ((leaf 1 0 100 .nil).events none ++
    [.begin_ true (some 1) 100, .begin_ true (some 2) 110, .end_ true (some 1) none 200, .end_ true (some 2) none 300])).map Prod.snd) = some [.pull 1 100, .push (some 2) 300] := by decide +kernel

/-- the end of a region that was open when the channel was activated takes the last element of an empty vector -/
theorem C90_violation_open_region (min : Int) (n : Nat) (p : Option Nat) (t : Int) : run min St.init [.end_ true (some n) p t] = none := rfl

/-! ## a case that meets the hypotheses -/

/-- region 1 with region 2 inside it, three times, and an event of another attribute -/
def exampleForest : Forest :=
  .region 1 0 100 (.other (.begin_ false (some 5) 3) (leaf 2 10 90 .nil)) (.region 1 100 200 (leaf 2 110 190 .nil) (.region 3 200 300 (leaf 2 210 220 .nil) (leaf 3 300 400 .nil)))

theorem C90_witness : exampleForest.Ok ∧ (run 20 St.init (exampleForest.events none)).map Prod.snd = some [.pull 2 110, .push (some 2) 190, .pull 2 210, .push (some 2) 220, .pull 3 300, .push (some 3) 400] :=
  ⟨by simp [exampleForest, Forest.Ok, leaf], by decide +kernel⟩

end Verif.Serv.RegionMonitor
