import Verif.Blackboard.Model
/-!
# The per-thread copy of the process blackboard

Small-step model of `ThreadData::update_process_snapshot` (`/repo/src/caliper/Caliper.cpp:274-291`), of the process-scope
updates that compete with it (`Blackboard::set` / `del` / `exchange` called with `process_blackboard_lock` held,
`Caliper.cpp:969`, `1000`, `1021`, `1044`; `/repo/src/caliper/Blackboard.cpp:60-120`), and of the snapshot
functions that use it (`Caliper.cpp:833-890`).  Any number of threads; one step per access to shared data.

`β` is the contents of the process blackboard, `ρ` the record taken from it, `snap` is `Blackboard::snapshot` (any
function: also one that drops entries because the record is too small).  Simplifications: an update is an arbitrary
function of the contents, executed in one step (only the holder of the lock accesses the table); sequentially
consistent memory.  *Ghost*: `vers`, all contents the blackboard ever had, oldest first; `fin`, the number of
updates that have been completed (unlocked); `start` in a thread, the value of `fin` when its call began.
-/
namespace Verif.Conc.Cache

variable {β ρ : Type}

/-- shared data: the process blackboard, its update count (`std::atomic<int>`, `Blackboard.h:44`) and the lock -/
structure Shared (β : Type) where
  board : β
  count : BitVec 32
  lock : Option Nat
  vers : List β
  fin : Nat

/-- program counter -/
inductive PC (β : Type) where
  | idle
  /-- update: about to take the lock -/
  | wlock (f : β → Option β)
  /-- about to change the table (`f` returns `none` if there is nothing to do, `Blackboard.cpp:78-79`) -/
  | wmut (f : β → Option β)
  /-- about to execute `++ucount` (`Blackboard.cpp:71`, `99`, `117`) -/
  | wcount
  /-- about to release the lock -/
  | wunlock
  /-- snapshot: about to load the count (`Caliper.cpp:281`) -/
  | rload
  /-- comparing the loaded count with the one of the copy (`Caliper.cpp:282`) -/
  | rtest (now : BitVec 32)
  /-- about to take the lock (`Caliper.cpp:286`) -/
  | rlock (now : BitVec 32)
  /-- about to copy (`Caliper.cpp:287`) -/
  | rcopy (now : BitVec 32)
  /-- about to set `process_bb_count` and release the lock (`Caliper.cpp:288-289`) -/
  | runlock (now : BitVec 32)
  /-- the copy is appended to the record (`Caliper.cpp:841`, `853`, `865`, `882`) -/
  | rdone

/-- a thread: `process_bb_count`, `process_snapshot` (`Caliper.cpp:251-253`) and the program counter -/
structure Thread (β ρ : Type) where
  pc : PC β
  cachedCount : BitVec 32
  cached : ρ
  start : Nat

/-- global state -/
structure St (β ρ : Type) where
  sh : Shared β
  th : Nat → Thread β ρ

/-- next step of a thread: start an update, start a snapshot, execute the next instruction, return -/
inductive Act (β : Type) where
  | update (f : β → Option β)
  | snapshot
  | tick
  | ret

/-- execute the next instruction of thread `t`; taking a lock that is held is no step -/
def tick (snap : β → ρ) (empty : ρ) (t : Nat) (sh : Shared β) (th : Thread β ρ) : Shared β × Thread β ρ :=
  match th.pc with
  | .idle => (sh, th)
  | .wlock f => if sh.lock = none then ({ sh with lock := some t }, { th with pc := .wmut f }) else (sh, th)
  | .wmut f =>
    match f sh.board with
    | some b => ({ sh with board := b, vers := sh.vers ++ [b] }, { th with pc := .wcount })
    | none => (sh, { th with pc := .wunlock })
  | .wcount => ({ sh with count := sh.count + 1 }, { th with pc := .wunlock })
  | .wunlock => ({ sh with lock := none, fin := sh.vers.length - 1 }, { th with pc := .idle })
  | .rload => (sh, { th with pc := .rtest sh.count })
  | .rtest now =>
    if now.toInt > th.cachedCount.toInt then (sh, { th with pc := .rlock now, cached := empty })
    else (sh, { th with pc := .rdone })
  | .rlock now => if sh.lock = none then ({ sh with lock := some t }, { th with pc := .rcopy now }) else (sh, th)
  | .rcopy now => (sh, { th with pc := .runlock now, cached := snap sh.board })
  | .runlock now => ({ sh with lock := none }, { th with pc := .rdone, cachedCount := now })
  | .rdone => (sh, th)

/-- a step of thread `t` -/
def act (snap : β → ρ) (empty : ρ) (t : Nat) (sh : Shared β) (th : Thread β ρ) : Act β → Shared β × Thread β ρ
  | .update f => match th.pc with | .idle => (sh, { th with pc := .wlock f }) | _ => (sh, th)
  | .snapshot => match th.pc with | .idle => (sh, { th with pc := .rload, start := sh.fin }) | _ => (sh, th)
  | .tick => tick snap empty t sh th
  | .ret => match th.pc with | .rdone => (sh, { th with pc := .idle }) | _ => (sh, th)

/-- a step of thread `t` in the global state -/
def step (snap : β → ρ) (empty : ρ) (s : St β ρ) (t : Nat) (a : Act β) : St β ρ :=
  let r := act snap empty t s.sh (s.th t) a
  ⟨r.1, BB.upd s.th t r.2⟩

/-- initial state (`Blackboard.h:77`, `Caliper.cpp:259`) -/
def init (b0 : β) (empty : ρ) : St β ρ :=
  ⟨⟨b0, 0, none, [b0], 0⟩, fun _ => ⟨.idle, -1, empty, 0⟩⟩

/-- the states the program can be in -/
inductive Reach (snap : β → ρ) (empty : ρ) (b0 : β) : St β ρ → Prop where
  | init : Reach snap empty b0 (init b0 empty)
  | step {s : St β ρ} (h : Reach snap empty b0 s) (t : Nat) (a : Act β) : Reach snap empty b0 (step snap empty s t a)

/-! ## Invariant -/

/-- the thread is inside a critical section -/
def PC.inside : PC β → Bool
  | .wmut _ | .wcount | .wunlock | .rcopy _ | .runlock _ => true
  | _ => false

/-- a version not older than number `k` was recorded as `r` -/
def Recent (snap : β → ρ) (sh : Shared β) (k : Nat) (r : ρ) : Prop := ∃ m b, k ≤ m ∧ sh.vers[m]? = some b ∧ r = snap b

/-- invariant of a thread; `k` is the number of counted updates -/
structure TInv (snap : β → ρ) (sh : Shared β) (k t : Nat) (th : Thread β ρ) : Prop where
  excl : th.pc.inside = true → sh.lock = some t
  wc : th.pc = .wcount → k + 2 = sh.vers.length
  cached : th.cachedCount = -1 ∨ ∃ x, x ≤ k ∧ th.cachedCount = BitVec.ofNat 32 x ∧
      ((∀ n, th.pc ≠ .rlock n ∧ th.pc ≠ .rcopy n ∧ th.pc ≠ .runlock n) → Recent snap sh x th.cached)
  test : ∀ now, (th.pc = .rtest now ∨ th.pc = .rlock now ∨ th.pc = .rcopy now) →
    ∃ x, th.start ≤ x ∧ x ≤ k ∧ now = BitVec.ofNat 32 x
  unl : ∀ now, th.pc = .runlock now → ∃ x, th.start ≤ x ∧ x ≤ k ∧ now = BitVec.ofNat 32 x ∧ Recent snap sh x th.cached
  load : th.pc = .rload → th.start ≤ k
  done : th.pc = .rdone → Recent snap sh th.start th.cached

/-- invariant of the whole state -/
structure Inv (snap : β → ρ) (s : St β ρ) (k : Nat) : Prop where
  last : s.sh.vers[s.sh.vers.length - 1]? = some s.sh.board
  cnt : s.sh.count = BitVec.ofNat 32 k
  eq : k + 1 = s.sh.vers.length ∨ ∃ t, (s.th t).pc = .wcount ∧ k + 2 = s.sh.vers.length
  fin : s.sh.fin ≤ k
  th : ∀ t, TInv snap s.sh k t (s.th t)

theorem Recent.mono {snap : β → ρ} {sh sh' : Shared β} {k : Nat} {r : ρ} (h : Recent snap sh k r)
    (hv : sh.vers <+: sh'.vers) : Recent snap sh' k r := by
  obtain ⟨m, b, h1, h2, h3⟩ := h
  obtain ⟨e, he⟩ := hv
  refine ⟨m, b, h1, ?_, h3⟩
  rw [← he, List.getElem?_append_left]
  · exact h2
  · rcases Nat.lt_or_ge m sh.vers.length with hc | hc
    · exact hc
    · rw [List.getElem?_eq_none hc] at h2
      cases h2

theorem Recent.le {snap : β → ρ} {sh : Shared β} {k k' : Nat} {r : ρ} (h : Recent snap sh k r) (hk : k' ≤ k) :
    Recent snap sh k' r := by
  obtain ⟨m, b, h1, h2, h3⟩ := h
  exact ⟨m, b, by omega, h2, h3⟩

/-- what the other threads can do -/
theorem TInv.frame {snap : β → ρ} {sh sh' : Shared β} {k k' t : Nat} {th : Thread β ρ} (T : TInv snap sh k t th)
    (hv : sh.vers <+: sh'.vers) (hk : k ≤ k') (hl : th.pc.inside = true → sh'.lock = sh.lock ∧ k' = k ∧ sh'.vers = sh.vers) :
    TInv snap sh' k' t th := by
  refine ⟨fun h => by rw [(hl h).1]; exact T.excl h, ?_, ?_, ?_, ?_, fun h => Nat.le_trans (T.load h) hk, fun h => (T.done h).mono hv⟩
  · intro h
    obtain ⟨_, h2, h3⟩ := hl (by rw [h]; rfl)
    rw [h2, h3]; exact T.wc h
  · rcases T.cached with h | ⟨x, h1, h2, h3⟩
    · exact .inl h
    · exact .inr ⟨x, Nat.le_trans h1 hk, h2, fun h => (h3 h).mono hv⟩
  · intro now h
    obtain ⟨x, h1, h2, h3⟩ := T.test now h
    exact ⟨x, h1, Nat.le_trans h2 hk, h3⟩
  · intro now h
    obtain ⟨x, h1, h2, h3, h4⟩ := T.unl now h
    exact ⟨x, h1, Nat.le_trans h2 hk, h3, h4.mono hv⟩

theorem toInt_small {x : Nat} (h : x < 2 ^ 31) : (BitVec.ofNat 32 x).toInt = x := by
  rw [BitVec.toInt_eq_toNat_of_lt] <;> simp only [BitVec.toNat_ofNat] <;> omega

/-- a thread starts or returns: only its program counter changes -/
theorem Inv.local {snap : β → ρ} {s : St β ρ} {k : Nat} (I : Inv snap s k) (t : Nat) (th' : Thread β ρ)
    (hw : (s.th t).pc ≠ .wcount) (T : TInv snap s.sh k t th') : Inv snap ⟨s.sh, BB.upd s.th t th'⟩ k := by
  refine ⟨I.last, I.cnt, ?_, I.fin, fun u => ?_⟩
  · rcases I.eq with h | ⟨u, h1, h2⟩
    · exact .inl h
    · right
      refine ⟨u, ?_, h2⟩
      have : u ≠ t := by rintro rfl; exact hw h1
      simp only [BB.upd, if_neg this]; exact h1
  · simp only [BB.upd]
    split
    · rename_i e; subst e; exact T
    · exact I.th u

/-- two threads are not in the critical section at the same time -/
theorem Inv.alone {snap : β → ρ} {s : St β ρ} {k : Nat} (I : Inv snap s k) {t u : Nat} (h : (s.th t).pc.inside = true)
    (h' : (s.th u).pc.inside = true) : u = t := by
  have h1 := (I.th t).excl h
  have h2 := (I.th u).excl h'
  rw [h1] at h2; cases h2; rfl

theorem Inv.eq_of_inside {snap : β → ρ} {s : St β ρ} {k : Nat} (I : Inv snap s k) {t : Nat} (h : (s.th t).pc.inside = true)
    (hw : (s.th t).pc ≠ .wcount) : k + 1 = s.sh.vers.length := by
  rcases I.eq with h1 | ⟨u, h1, _⟩
  · exact h1
  · have := I.alone h (u := u) (by rw [h1]; rfl)
    subst this; exact absurd h1 hw

/-- closes fields about other program counters -/
macro "vacc" : tactic => `(tactic| (intros; first | (rename_i h; cases h; done) | (rename_i h; rcases h with h | h | h <;> cases h; done)))

theorem Inv.act {snap : β → ρ} {empty : ρ} {s : St β ρ} {k : Nat} (I : Inv snap s k) (hk : k < 2 ^ 31) (t : Nat) (a : Act β) :
    ∃ k', k ≤ k' ∧ Inv snap (Cache.step snap empty s t a) k' := by
  have T := I.th t
  have stay : ∃ k', k ≤ k' ∧ Inv snap ⟨s.sh, BB.upd s.th t (s.th t)⟩ k' := by
    refine ⟨k, Nat.le_refl k, ?_⟩
    have : BB.upd s.th t (s.th t) = s.th := by
      funext u; unfold BB.upd; split
      · rename_i h; rw [h]
      · rfl
    rw [this]; exact I
  -- the copy is as recent as before when the program counter is not in the copying part
  have keep : ∀ pc : PC β, (∀ n, (s.th t).pc ≠ .rlock n ∧ (s.th t).pc ≠ .rcopy n ∧ (s.th t).pc ≠ .runlock n) →
      ((s.th t).cachedCount = -1 ∨ ∃ x, x ≤ k ∧ (s.th t).cachedCount = BitVec.ofNat 32 x ∧
      ((∀ n, pc ≠ .rlock n ∧ pc ≠ .rcopy n ∧ pc ≠ .runlock n) → Recent snap s.sh x (s.th t).cached)) := by
    intro pc hp
    rcases T.cached with h | ⟨x, h1, h2, h3⟩
    · exact .inl h
    · exact .inr ⟨x, h1, h2, fun _ => h3 hp⟩
  -- frames for the others
  have others : ∀ (sh' : Shared β) (k' : Nat) (th' : Thread β ρ), s.sh.vers <+: sh'.vers → k ≤ k' →
      (∀ u, u ≠ t → (s.th u).pc.inside = true → sh'.lock = s.sh.lock ∧ k' = k ∧ sh'.vers = s.sh.vers) →
      TInv snap sh' k' t th' → ∀ u, TInv snap sh' k' u (BB.upd s.th t th' u) := by
    intro sh' k' th' hv hk' ho hT u
    simp only [BB.upd]
    split
    · rename_i e; subst e; exact hT
    · rename_i e; exact (I.th u).frame hv hk' (ho u e)
  have noneInside : (s.th t).pc.inside = true → ∀ u, u ≠ t → (s.th u).pc.inside = true → False :=
    fun h u hu h' => hu (I.alone h h')
  unfold Cache.step
  cases a with
  | update f =>
    simp only [Cache.act]
    cases hpc : (s.th t).pc with
    | idle =>
      refine ⟨k, Nat.le_refl k, I.local t _ (by rw [hpc]; simp) ⟨by vacc, by vacc, ?_, by vacc, by vacc, by vacc, by vacc⟩⟩
      exact keep _ (by rw [hpc]; simp)
    | _ => exact stay
  | snapshot =>
    simp only [Cache.act]
    cases hpc : (s.th t).pc with
    | idle =>
      refine ⟨k, Nat.le_refl k, I.local t _ (by rw [hpc]; simp) ⟨by vacc, by vacc, ?_, by vacc, by vacc, fun _ => I.fin, by vacc⟩⟩
      exact keep _ (by rw [hpc]; simp)
    | _ => exact stay
  | ret =>
    simp only [Cache.act]
    cases hpc : (s.th t).pc with
    | rdone =>
      refine ⟨k, Nat.le_refl k, I.local t _ (by rw [hpc]; simp) ⟨by vacc, by vacc, ?_, by vacc, by vacc, by vacc, by vacc⟩⟩
      exact keep _ (by rw [hpc]; simp)
    | _ => exact stay
  | tick =>
    simp only [Cache.act, tick]
    cases hpc : (s.th t).pc with
    | idle => exact stay
    | rdone => exact stay
    | wlock f =>
      by_cases hl : s.sh.lock = none
      · simp only [if_pos hl]
        have hno : ∀ u, (s.th u).pc.inside = true → False := by
          intro u hu
          have := (I.th u).excl hu
          rw [hl] at this; cases this
        refine ⟨k, Nat.le_refl k, I.last, I.cnt, ?_, I.fin, ?_⟩
        · rcases I.eq with h | ⟨u, h1, _⟩
          · exact .inl h
          · exact (hno u (by rw [h1]; rfl)).elim
        · refine others _ k _ (List.prefix_refl _) (Nat.le_refl k) (fun u _ h => (hno u h).elim)
            ⟨fun _ => rfl, by vacc, ?_, by vacc, by vacc, by vacc, by vacc⟩
          exact keep _ (by rw [hpc]; simp)
      · simp only [if_neg hl]; exact stay
    | rlock now =>
      by_cases hl : s.sh.lock = none
      · simp only [if_pos hl]
        have hno : ∀ u, (s.th u).pc.inside = true → False := by
          intro u hu
          have := (I.th u).excl hu
          rw [hl] at this; cases this
        refine ⟨k, Nat.le_refl k, I.last, I.cnt, ?_, I.fin, ?_⟩
        · rcases I.eq with h | ⟨u, h1, _⟩
          · exact .inl h
          · exact (hno u (by rw [h1]; rfl)).elim
        · refine others _ k _ (List.prefix_refl _) (Nat.le_refl k) (fun u _ h => (hno u h).elim)
            ⟨fun _ => rfl, by vacc, ?_, ?_, by vacc, by vacc, by vacc⟩
          · rcases T.cached with h | ⟨x, h1, h2, h3⟩
            · exact .inl h
            · exact .inr ⟨x, h1, h2, fun h => absurd rfl (h now).2.1⟩
          · intro n h
            rcases h with h | h | h <;> cases h
            exact T.test now (.inr (.inl hpc))
      · simp only [if_neg hl]; exact stay
    | wmut f =>
      have hin : (s.th t).pc.inside = true := by rw [hpc]; rfl
      have hlen := I.eq_of_inside hin (by rw [hpc]; simp)
      have hlock := T.excl hin
      simp only
      cases hf : f s.sh.board with
      | some b =>
        refine ⟨k, Nat.le_refl k, ?_, I.cnt, ?_, I.fin, ?_⟩
        · simp
        · right
          refine ⟨t, by simp [BB.upd], ?_⟩
          simp only [List.length_append, List.length_cons, List.length_nil]; omega
        · refine others _ k _ (List.prefix_append _ _) (Nat.le_refl k) (fun u hu h => (noneInside hin u hu h).elim)
            ⟨fun _ => hlock, ?_, ?_, by vacc, by vacc, by vacc, by vacc⟩
          · intro _; simp only [List.length_append, List.length_cons, List.length_nil]; omega
          · rcases keep (PC.wcount) (by rw [hpc]; simp) with h | ⟨x, h1, h2, h3⟩
            · exact .inl h
            · exact .inr ⟨x, h1, h2, fun h => (h3 h).mono (List.prefix_append _ _)⟩
      | none =>
        refine ⟨k, Nat.le_refl k, I.local t _ (by rw [hpc]; simp) ⟨fun _ => hlock, by vacc, ?_, by vacc, by vacc, by vacc, by vacc⟩⟩
        exact keep _ (by rw [hpc]; simp)
    | wcount =>
      have hin : (s.th t).pc.inside = true := by rw [hpc]; rfl
      have hlock := T.excl hin
      refine ⟨k + 1, Nat.le_succ k, I.last, ?_, ?_, Nat.le_succ_of_le I.fin, ?_⟩
      · simp only [I.cnt]
        rw [BitVec.ofNat_add]; rfl
      · exact .inl (T.wc hpc)
      · refine others _ (k + 1) _ (List.prefix_refl _) (Nat.le_succ k) (fun u hu h => (noneInside hin u hu h).elim)
            ⟨fun _ => hlock, by vacc, ?_, by vacc, by vacc, by vacc, by vacc⟩
        rcases keep (PC.wunlock) (by rw [hpc]; simp) with h | ⟨x, h1, h2, h3⟩
        · exact .inl h
        · exact .inr ⟨x, Nat.le_succ_of_le h1, h2, h3⟩
    | wunlock =>
      have hin : (s.th t).pc.inside = true := by rw [hpc]; rfl
      have hlen := I.eq_of_inside hin (by rw [hpc]; simp)
      refine ⟨k, Nat.le_refl k, I.last, I.cnt, .inl hlen, by simp only; omega, ?_⟩
      refine others _ k _ (List.prefix_refl _) (Nat.le_refl k) (fun u hu h => (noneInside hin u hu h).elim)
            ⟨by vacc, by vacc, ?_, by vacc, by vacc, by vacc, by vacc⟩
      exact keep _ (by rw [hpc]; simp)
    | rload =>
      refine ⟨k, Nat.le_refl k, I.local t _ (by rw [hpc]; simp) ⟨by vacc, by vacc, ?_, ?_, by vacc, by vacc, by vacc⟩⟩
      · exact keep _ (by rw [hpc]; simp)
      · intro n h
        rcases h with h | h | h <;> cases h
        exact ⟨k, T.load hpc, Nat.le_refl k, I.cnt⟩
    | rtest now =>
      obtain ⟨x, h1, h2, h3⟩ := T.test now (.inl hpc)
      simp only
      by_cases hc : now.toInt > (s.th t).cachedCount.toInt
      · simp only [if_pos hc]
        refine ⟨k, Nat.le_refl k, I.local t _ (by rw [hpc]; simp) ⟨by vacc, by vacc, ?_, ?_, by vacc, by vacc, by vacc⟩⟩
        · rcases T.cached with h | ⟨x, h1, h2, h3⟩
          · exact .inl h
          · exact .inr ⟨x, h1, h2, fun h => absurd rfl (h now).1⟩
        · intro n h
          rcases h with h | h | h <;> cases h
          exact ⟨x, h1, h2, h3⟩
      · simp only [if_neg hc]
        refine ⟨k, Nat.le_refl k, I.local t _ (by rw [hpc]; simp) ⟨by vacc, by vacc, ?_, by vacc, by vacc, by vacc, ?_⟩⟩
        · exact keep _ (by rw [hpc]; simp)
        · intro _
          rw [h3, toInt_small (by omega)] at hc
          rcases T.cached with h | ⟨y, g1, g2, g3⟩
          · rw [h] at hc
            have : (-1 : BitVec 32).toInt = -1 := by decide
            rw [this] at hc
            omega
          · rw [g2, toInt_small (by omega)] at hc
            exact (g3 (by rw [hpc]; simp)).le (by simp only; omega)
    | rcopy now =>
      have hin : (s.th t).pc.inside = true := by rw [hpc]; rfl
      have hlen := I.eq_of_inside hin (by rw [hpc]; simp)
      have hlock := T.excl hin
      obtain ⟨x, h1, h2, h3⟩ := T.test now (.inr (.inr hpc))
      refine ⟨k, Nat.le_refl k, I.local t _ (by rw [hpc]; simp) ⟨fun _ => hlock, by vacc, ?_, by vacc, ?_, by vacc, by vacc⟩⟩
      · rcases T.cached with h | ⟨x, h1, h2, h3⟩
        · exact .inl h
        · exact .inr ⟨x, h1, h2, fun h => absurd rfl (h now).2.2⟩
      · intro n h; cases h
        exact ⟨x, h1, h2, h3, s.sh.vers.length - 1, s.sh.board, by omega, I.last, rfl⟩
    | runlock now =>
      have hin : (s.th t).pc.inside = true := by rw [hpc]; rfl
      have hlen := I.eq_of_inside hin (by rw [hpc]; simp)
      obtain ⟨x, h1, h2, h3, h4⟩ := T.unl now hpc
      refine ⟨k, Nat.le_refl k, I.last, I.cnt, .inl hlen, I.fin, ?_⟩
      refine others _ k _ (List.prefix_refl _) (Nat.le_refl k) (fun u hu h => (noneInside hin u hu h).elim)
            ⟨by vacc, by vacc, ?_, by vacc, by vacc, by vacc, ?_⟩
      · exact .inr ⟨x, h2, h3, fun _ => h4⟩
      · intro _; exact h4.le h1

theorem Inv.init (snap : β → ρ) (b0 : β) (empty : ρ) : Inv snap (Cache.init b0 empty) 0 := by
  refine ⟨rfl, rfl, .inl rfl, Nat.le_refl 0, fun t => ⟨by vacc, by vacc, .inl rfl, by vacc, by vacc, by vacc, by vacc⟩⟩

/-- the blackboard's history only grows -/
theorem step_vers (snap : β → ρ) (empty : ρ) (s : St β ρ) (t : Nat) (a : Act β) :
    s.sh.vers.length ≤ (Cache.step snap empty s t a).sh.vers.length := by
  unfold Cache.step
  cases a with
  | tick =>
    simp only [Cache.act, tick]
    split <;> try exact Nat.le_refl _
    all_goals (split <;> first | exact Nat.le_refl _ | (simp only [List.length_append]; omega))
  | _ => simp only [Cache.act]; split <;> exact Nat.le_refl _

theorem Reach.inv {snap : β → ρ} {empty : ρ} {b0 : β} {s : St β ρ} (h : Reach snap empty b0 s)
    (hv : s.sh.vers.length ≤ 2 ^ 31) : ∃ k, Inv snap s k := by
  induction h with
  | init => exact ⟨0, .init snap b0 empty⟩
  | @step s _ t a ih =>
    have := step_vers snap empty s t a
    obtain ⟨k, I⟩ := ih (by omega)
    have hk : k < 2 ^ 31 := by
      rcases I.eq with h | ⟨_, _, h⟩ <;> omega
    obtain ⟨k', _, I'⟩ := I.act (empty := empty) hk t a
    exact ⟨k', I'⟩

end Verif.Conc.Cache
