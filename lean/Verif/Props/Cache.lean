import Verif.Conc.Cache
/-!
# C35: the cached process context is never stale
-/
namespace Verif.Conc.Cache

variable {β ρ : Type}

/-- thread `t` is executing the snapshot call it started in state `s0` -/
inductive During (snap : β → ρ) (empty : ρ) (t : Nat) (s0 : St β ρ) : St β ρ → Prop where
  | call (hidle : (s0.th t).pc = .idle) : During snap empty t s0 (step snap empty s0 t .snapshot)
  | mine {s : St β ρ} (h : During snap empty t s0 s) : During snap empty t s0 (step snap empty s t .tick)
  | other {s : St β ρ} {u : Nat} {a : Act β} (h : During snap empty t s0 s) (hu : u ≠ t) :
      During snap empty t s0 (step snap empty s u a)

theorem tick_start (snap : β → ρ) (empty : ρ) (t : Nat) (sh : Shared β) (th : Thread β ρ) :
    (tick snap empty t sh th).2.start = th.start := by
  unfold tick
  split <;> first | rfl | (split <;> rfl)

theorem During.props {snap : β → ρ} {empty b0} {t : Nat} {s0 s : St β ρ} (h0 : Reach snap empty b0 s0)
    (h : During snap empty t s0 s) : Reach snap empty b0 s ∧ (s.th t).start = s0.sh.fin := by
  induction h with
  | call hidle =>
    refine ⟨.step h0 _ _, ?_⟩
    unfold step
    simp only [act, hidle, BB.upd, if_true]
  | mine _ ih =>
    refine ⟨.step ih.1 _ _, ?_⟩
    unfold step
    simp only [act, BB.upd, if_true, tick_start]
    exact ih.2
  | other _ hu ih =>
    refine ⟨.step ih.1 _ _, ?_⟩
    unfold step
    simp only [BB.upd, if_neg (Ne.symm hu)]
    exact ih.2

/-- C35, partial (executions with fewer than 2^31 process-scope updates, see `C35_violation_wraparound`): thread `t`
starts a snapshot in state `s0`, when `s0.sh.fin` updates have been completed; any number of threads update and take
snapshots meanwhile.  The process data `t` puts into its record is the record of the blackboard as it was after some number
`m` of updates with `m` at least `s0.sh.fin` and at most the number of updates so far: it contains every update that was
completed before the call. -/
theorem C35_never_stale_partial {snap : β → ρ} {empty : ρ} {b0 : β} {t : Nat} {s0 s : St β ρ}
    (h0 : Reach snap empty b0 s0) (h : During snap empty t s0 s) (hdone : (s.th t).pc = .rdone)
    (hfew : s.sh.vers.length ≤ 2 ^ 31) :
    ∃ m b, s0.sh.fin ≤ m ∧ s.sh.vers[m]? = some b ∧ (s.th t).cached = snap b := by
  obtain ⟨h1, h2⟩ := h.props h0
  obtain ⟨k, I⟩ := h1.inv hfew
  rw [← h2]
  exact (I.th t).done hdone

/-- what the ghost fields say: the last version is the present contents, and when nobody is inside an update, the number of
completed updates is the number of versions after the initial one -/
theorem C35_ghost_meaning {snap : β → ρ} {empty : ρ} {b0 : β} {s : St β ρ} (h : Reach snap empty b0 s) :
    s.sh.vers[s.sh.vers.length - 1]? = some s.sh.board ∧ s.sh.vers[0]? = some b0 ∧
    ((∀ t f, (s.th t).pc ≠ .wmut f ∧ (s.th t).pc ≠ .wcount ∧ (s.th t).pc ≠ .wunlock) →
      s.sh.fin + 1 = s.sh.vers.length) := by
  have key : s.sh.vers[s.sh.vers.length - 1]? = some s.sh.board ∧ s.sh.vers[0]? = some b0 ∧
      (s.sh.fin + 1 = s.sh.vers.length ∨ ∃ t, (s.th t).pc = .wcount ∨ (s.th t).pc = .wunlock) := by
    induction h with
    | init => exact ⟨rfl, rfl, .inl rfl⟩
    | @step s _ t a ih =>
      obtain ⟨i1, i2, i3⟩ := ih
      have other : ∀ (th' : Thread β ρ), (s.th t).pc ≠ .wcount → (s.th t).pc ≠ .wunlock →
          (s.sh.fin + 1 = s.sh.vers.length ∨ ∃ u, (BB.upd s.th t th' u).pc = .wcount ∨ (BB.upd s.th t th' u).pc = .wunlock) := by
        intro th' n1 n2
        rcases i3 with h | ⟨u, hu⟩
        · exact .inl h
        · right
          have : u ≠ t := by rintro rfl; rcases hu with h | h <;> contradiction
          exact ⟨u, by simp only [BB.upd, if_neg this]; exact hu⟩
      have self : (s.sh.fin + 1 = s.sh.vers.length ∨
          ∃ u, (BB.upd s.th t (s.th t) u).pc = .wcount ∨ (BB.upd s.th t (s.th t) u).pc = .wunlock) := by
        rcases i3 with h | ⟨u, hu⟩
        · exact .inl h
        · right
          refine ⟨u, ?_⟩
          have : BB.upd s.th t (s.th t) u = s.th u := by unfold BB.upd; split; (rename_i e; rw [e]); rfl
          rw [this]; exact hu
      have hne : s.sh.vers.length ≠ 0 := by
        intro h
        rw [List.getElem?_eq_none (by omega)] at i2; cases i2
      unfold step
      cases a with
      | update f =>
        simp only [act]
        cases hpc : (s.th t).pc with
        | idle => exact ⟨i1, i2, other _ (by rw [hpc]; simp) (by rw [hpc]; simp)⟩
        | _ => exact ⟨i1, i2, self⟩
      | snapshot =>
        simp only [act]
        cases hpc : (s.th t).pc with
        | idle => exact ⟨i1, i2, other _ (by rw [hpc]; simp) (by rw [hpc]; simp)⟩
        | _ => exact ⟨i1, i2, self⟩
      | ret =>
        simp only [act]
        cases hpc : (s.th t).pc with
        | rdone => exact ⟨i1, i2, other _ (by rw [hpc]; simp) (by rw [hpc]; simp)⟩
        | _ => exact ⟨i1, i2, self⟩
      | tick =>
        simp only [act, tick]
        cases hpc : (s.th t).pc with
        | idle => exact ⟨i1, i2, self⟩
        | rdone => exact ⟨i1, i2, self⟩
        | wlock f =>
          simp only
          split
          · exact ⟨i1, i2, other _ (by rw [hpc]; simp) (by rw [hpc]; simp)⟩
          · exact ⟨i1, i2, self⟩
        | rlock f =>
          simp only
          split
          · exact ⟨i1, i2, other _ (by rw [hpc]; simp) (by rw [hpc]; simp)⟩
          · exact ⟨i1, i2, self⟩
        | wmut f =>
          simp only
          cases f s.sh.board with
          | none => exact ⟨i1, i2, other _ (by rw [hpc]; simp) (by rw [hpc]; simp)⟩
          | some b =>
            refine ⟨by simp, ?_, .inr ⟨t, .inl (by simp [BB.upd])⟩⟩
            simp only
            rw [List.getElem?_append_left (by omega)]; exact i2
        | wcount => exact ⟨i1, i2, .inr ⟨t, .inr (by simp [BB.upd])⟩⟩
        | wunlock => exact ⟨i1, i2, .inl (by simp only; omega)⟩
        | rload => exact ⟨i1, i2, other _ (by rw [hpc]; simp) (by rw [hpc]; simp)⟩
        | rtest now =>
          simp only
          split <;> exact ⟨i1, i2, other _ (by rw [hpc]; simp) (by rw [hpc]; simp)⟩
        | rcopy now => exact ⟨i1, i2, other _ (by rw [hpc]; simp) (by rw [hpc]; simp)⟩
        | runlock now => exact ⟨i1, i2, other _ (by rw [hpc]; simp) (by rw [hpc]; simp)⟩
  refine ⟨key.1, key.2.1, fun hall => ?_⟩
  rcases key.2.2 with h | ⟨t, h | h⟩
  · exact h
  · exact absurd h (hall t fun _ => none).2.1
  · exact absurd h (hall t fun _ => none).2.2

/-! ## The update count wraps around -/

/-- run a schedule -/
def run (snap : β → ρ) (empty : ρ) (s : St β ρ) : List (Nat × Act β) → St β ρ
  | [] => s
  | (t, a) :: l => run snap empty (step snap empty s t a) l

theorem run_reach {snap : β → ρ} {empty : ρ} {b0 : β} {s : St β ρ} (h : Reach snap empty b0 s) (l : List (Nat × Act β)) :
    Reach snap empty b0 (run snap empty s l) := by
  induction l generalizing s with
  | nil => exact h
  | cons x l ih => exact ih (.step h _ _)

/-- one complete update by thread 1: count the blackboard up -/
def bump : List (Nat × Act Nat) := [(1, .update fun b => some (b + 1)), (1, .tick), (1, .tick), (1, .tick), (1, .tick)]

/-- one complete snapshot by thread 0 with a refresh -/
def look : List (Nat × Act Nat) := [(0, .snapshot), (0, .tick), (0, .tick), (0, .tick), (0, .tick), (0, .tick), (0, .ret)]

/-- all threads idle, `n` updates so far, thread 0 has the copy `c` with count `cc` -/
def quiet (n : Nat) (cc : BitVec 32) (c : Nat) (st : Nat) : St Nat Nat :=
  ⟨⟨n, BitVec.ofNat 32 n, none, List.range (n + 1), n⟩, fun t => if t = 0 then ⟨.idle, cc, c, st⟩ else ⟨.idle, -1, 0, 0⟩⟩

theorem st_eq {a a' : Shared Nat} {b b' : Nat → Thread Nat Nat} (h : a = a') (h' : b = b') : St.mk a b = St.mk a' b' := by
  rw [h, h']

theorem run_bump (n : Nat) (cc : BitVec 32) (c st : Nat) :
    run id 0 (quiet n cc c st) bump = quiet (n + 1) cc c st := by
  have e : ∀ (f : Nat → Thread Nat Nat) (x y : Thread Nat Nat), BB.upd (BB.upd f 1 x) 1 y = BB.upd f 1 y := by
    intro f x y; funext u; unfold BB.upd; split <;> rfl
  have e1 : ∀ (f : Nat → Thread Nat Nat) (x : Thread Nat Nat), BB.upd f 1 x 1 = x := by
    intro f x; simp [BB.upd]
  have e2 : (quiet n cc c st).th 1 = ⟨.idle, -1, 0, 0⟩ := rfl
  have e3 : (quiet n cc c st).sh = ⟨n, BitVec.ofNat 32 n, none, List.range (n + 1), n⟩ := rfl
  simp only [bump, run, step, act, tick, e2, e1, e, e3, if_true]
  unfold quiet
  refine st_eq ?_ ?_
  · have h1 : BitVec.ofNat 32 n + 1 = BitVec.ofNat 32 (n + 1) := by rw [BitVec.ofNat_add]; rfl
    have h2 : List.range (n + 1) ++ [n + 1] = List.range (n + 1 + 1) := by rw [List.range_succ (n := n + 1)]
    have h3 : (List.range (n + 1 + 1)).length - 1 = n + 1 := by rw [List.length_range]; omega
    rw [h1, h2, h3]
  · funext t
    unfold BB.upd
    by_cases h : t = 1
    · rw [if_pos h, if_neg (show ¬ t = 0 by omega)]
    · rw [if_neg h]

theorem run_look (n : Nat) (cc : BitVec 32) (c st : Nat) (h : (BitVec.ofNat 32 n).toInt > cc.toInt) :
    run id 0 (quiet n cc c st) look = quiet n (BitVec.ofNat 32 n) n n := by
  have e : ∀ (f : Nat → Thread Nat Nat) (x y : Thread Nat Nat), BB.upd (BB.upd f 0 x) 0 y = BB.upd f 0 y := by
    intro f x y; funext u; unfold BB.upd; split <;> rfl
  have e1 : ∀ (f : Nat → Thread Nat Nat) (x : Thread Nat Nat), BB.upd f 0 x 0 = x := by
    intro f x; simp [BB.upd]
  have e2 : (quiet n cc c st).th 0 = ⟨.idle, cc, c, st⟩ := rfl
  have e3 : (quiet n cc c st).sh.count = BitVec.ofNat 32 n := rfl
  have e4 : (quiet n cc c st).sh.lock = none := rfl
  simp only [look, run, step, act, tick, e2, e1, e, e3, if_pos h, e4, if_true]
  unfold quiet
  refine st_eq rfl ?_
  funext t
  unfold BB.upd
  by_cases h : t = 0
  · rw [if_pos h, if_pos h]; rfl
  · rw [if_neg h, if_neg h]; exact if_neg h

theorem quiet_reach (n : Nat) : Reach id 0 0 (quiet n (-1) 0 0) := by
  induction n with
  | zero =>
    have : quiet 0 (-1) 0 0 = init 0 0 := by
      unfold quiet init
      congr 1
      funext t
      split <;> rfl
    rw [this]; exact .init
  | succ n ih => rw [← run_bump]; exact run_reach ih _

/-- a snapshot that finds no newer count keeps the copy -/
theorem look_stale (n : Nat) (cc : BitVec 32) (c st : Nat) (h : ¬ (BitVec.ofNat 32 n).toInt > cc.toInt) :
    run id 0 (quiet n cc c st) [(0, .snapshot), (0, .tick), (0, .tick)] =
      ⟨(quiet n cc c st).sh, BB.upd (quiet n cc c st).th 0 ⟨.rdone, cc, c, n⟩⟩ := by
  have e : ∀ (f : Nat → Thread Nat Nat) (x y : Thread Nat Nat), BB.upd (BB.upd f 0 x) 0 y = BB.upd f 0 y := by
    intro f x y; funext u; unfold BB.upd; split <;> rfl
  have e1 : ∀ (f : Nat → Thread Nat Nat) (x : Thread Nat Nat), BB.upd f 0 x 0 = x := by
    intro f x; simp [BB.upd]
  have e2 : (quiet n cc c st).th 0 = ⟨.idle, cc, c, st⟩ := rfl
  have e3 : (quiet n cc c st).sh.count = BitVec.ofNat 32 n := rfl
  have e4 : (quiet n cc c st).sh.fin = n := rfl
  simp only [run, step, act, tick, e2, e1, e, e3, if_neg h, e4]

theorem wrap_general (N : Nat) (h1 : (BitVec.ofNat 32 N).toInt > (-1 : BitVec 32).toInt)
    (h2 : ¬ (BitVec.ofNat 32 (N + 1)).toInt > (BitVec.ofNat 32 N).toInt) :
    ∃ s0 s : St Nat Nat, Reach id 0 0 s0 ∧ During id 0 0 s0 s ∧
    (s.th 0).pc = .rdone ∧ s0.sh.fin = N + 1 ∧ (s.th 0).cached = N ∧
    ¬ ∃ m b, s0.sh.fin ≤ m ∧ s.sh.vers[m]? = some b ∧ (s.th 0).cached = id b := by
  have r1 : Reach id 0 0 (quiet N (BitVec.ofNat 32 N) N N) := by
    rw [← run_look N (-1) 0 0 h1]
    exact run_reach (quiet_reach _) _
  have r2 : Reach id 0 0 (quiet (N + 1) (BitVec.ofNat 32 N) N N) := by
    rw [← run_bump]
    exact run_reach r1 _
  have d1 := During.call (snap := id) (empty := 0) (t := 0) (s0 := quiet (N + 1) (BitVec.ofNat 32 N) N N) rfl
  have d2 := d1.mine.mine
  have e := look_stale (N + 1) (BitVec.ofNat 32 N) N N h2
  simp only [run] at e
  rw [e] at d2
  refine ⟨_, _, r2, d2, by simp [BB.upd], rfl, by simp [BB.upd], ?_⟩
  rintro ⟨m, b, h1, h2, h3⟩
  have h1 : N + 1 ≤ m := h1
  have h2 : (List.range (N + 1 + 1))[m]? = some b := h2
  have h3 : N = b := by simpa [BB.upd] using h3
  rw [List.getElem?_eq_some_iff] at h2
  obtain ⟨h4, h5⟩ := h2
  rw [List.getElem_range] at h5
  omega

/-- C35, violated: after 2^31 process-scope updates the signed update count overflows.  Thread 0 takes a snapshot after
2^31 - 1 updates; then one more update is completed; in its next snapshot thread 0 still uses the old copy, which
no longer is the blackboard's contents at any moment since the call began. -/
theorem C35_violation_wraparound : ∃ s0 s : St Nat Nat, Reach id 0 0 s0 ∧ During id 0 0 s0 s ∧
    (s.th 0).pc = .rdone ∧ s0.sh.fin = (2 ^ 31 - 1) + 1 ∧ (s.th 0).cached = 2 ^ 31 - 1 ∧
    ¬ ∃ m b, s0.sh.fin ≤ m ∧ s.sh.vers[m]? = some b ∧ (s.th 0).cached = id b := by
  have h1 : (BitVec.ofNat 32 (2 ^ 31 - 1)).toInt > (-1 : BitVec 32).toInt := by decide
  have h2 : ¬ (BitVec.ofNat 32 (2 ^ 31 - 1 + 1)).toInt > (BitVec.ofNat 32 (2 ^ 31 - 1)).toInt := by decide
  generalize 2 ^ 31 - 1 = N at h1 h2 ⊢
  exact wrap_general N h1 h2

/-- the hypotheses of `C35_never_stale_partial` hold in a run in which an update is completed between two snapshots and
another one is in the middle of its critical section while the second snapshot runs -/
example : ∃ s0 s : St Nat Nat, Reach id 0 0 s0 ∧ During id 0 0 s0 s ∧ (s.th 0).pc = .rdone ∧ s0.sh.fin = 1 ∧
    (s.th 0).cached = 2 ∧ s.sh.vers.length ≤ 2 ^ 31 := by
  have r1 : Reach id 0 0 (run id 0 (init 0 0) (look ++ bump)) := run_reach .init _
  have d0 := During.call (snap := id) (empty := 0) (t := 0) (s0 := run id 0 (init 0 0) (look ++ bump)) rfl
  -- thread 0 loads the count and compares; thread 1 updates completely; thread 0 continues
  have d1 := d0.mine.mine
  have d2 := ((((d1.other (u := 1) (a := .update fun b => some (b + 1)) (by decide)).other (u := 1) (a := .tick) (by decide)).other
    (u := 1) (a := .tick) (by decide)).other (u := 1) (a := .tick) (by decide)).other (u := 1) (a := .tick) (by decide)
  refine ⟨_, _, r1, d2.mine.mine.mine, rfl, rfl, rfl, ?_⟩
  decide

end Verif.Conc.Cache
