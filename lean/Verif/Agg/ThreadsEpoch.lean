import Verif.Agg.ThreadsRun
/-!
# Between a clear and the next flush
-/
namespace Verif.AggThreads
variable {R : Type}

theorem Solo.append {s : State R} {l l' : List (Nat × Act R)} (h : Solo s l) (h' : Solo (s.run l) l') : Solo s (l ++ l') := by
  induction l generalizing s with
  | nil => exact h'
  | cons x l ih => exact ⟨h.1, ih h.2 h'⟩

theorem Reach.run {s : State R} (h : Reach s) {l : List (Nat × Act R)} (hl : Solo s l) : Reach (s.run l) := by
  obtain ⟨l0, h1, rfl⟩ := h
  exact ⟨l0 ++ l, h1.append hl, (run_append ..).symm⟩

theorem Solo.go {s : State R} {th : Nat} (n : Nat) : Solo s (List.replicate n (th, .go)) := by
  induction n generalizing s with
  | zero => trivial
  | succ n ih => exact ⟨fun h => h.elim, ih⟩

theorem Solo.plain {s : State R} {l : List (Nat × Act R)} (h : Plain l) : Solo s l := by
  induction l generalizing s with
  | nil => trivial
  | cons x l ih =>
    obtain ⟨th, a⟩ := x
    refine ⟨fun hm => ?_, ih fun y hy => h y (by simp [hy])⟩
    have := h (th, a) (by simp)
    cases a <;> simp_all

/-- no flush or clear is running -/
def Calm (s : State R) : Prop := ∀ th, (s.pc th).maint = false

theorem Calm.notStopped {s : State R} (h : Calm s) (hs : Stops s) : ∀ d t, s.heap d = some t → t.stopped = false := by
  intro d t ht
  cases hst : t.stopped with
  | false => rfl
  | true =>
    obtain ⟨th, h1⟩ := hs d t ht hst
    have h2 := h th
    generalize s.pc th = p at *
    cases p <;> simp_all [PC.holds, PC.maint]

theorem Quiet.calm {s : State R} (h : Quiet s) : Calm s := fun th => by rw [h th]; rfl

/-- what calls other than flush and clear leave alone -/
def SameOut (s s' : State R) : Prop := s'.dropped = s.dropped ∧ s'.out = s.out ∧ s'.cleared = s.cleared

theorem SameOut.trans {s s' s'' : State R} (h : SameOut s s') (g : SameOut s' s'') : SameOut s s'' :=
  ⟨g.1.trans h.1, g.2.1.trans h.2.1, g.2.2.trans h.2.2⟩

theorem linkIn_same (s : State R) (d : Nat) : SameOut s (s.linkIn d) ∧ (s.linkIn d).started = s.started := by
  unfold State.linkIn State.deref
  split
  · split <;> exact ⟨⟨rfl, rfl, rfl⟩, rfl⟩
  · split
    · exact ⟨⟨rfl, rfl, rfl⟩, rfl⟩
    · simp only; split <;> exact ⟨⟨rfl, rfl, rfl⟩, rfl⟩

theorem Calm.move {s s' : State R} (h : Calm s) {th : Nat} {p : PC R} (hpc : s'.pc = upd s.pc th p) (hp : p.maint = false) : Calm s' := by
  intro th'
  rw [hpc]
  by_cases e : th' = th
  · rw [e, upd_same]; exact hp
  · rw [upd_ne _ _ e]; exact h th'

theorem plain_step {s : State R} (h : Calm s) (hs : Stops s) (th : Nat) (a : Act R) (ha : Plain [(th, a)]) :
    Calm (s.step th a) ∧ SameOut s (s.step th a) := by
  have hst := h.notStopped hs
  have ha := ha (th, a) (by simp)
  unfold State.step
  split
  · exact ⟨h, rfl, rfl, rfl⟩
  · split
    · cases a with
      | snapshot r sig ok =>
        simp only at ha
        subst ha
        simp only [State.call]
        split
        · exact ⟨h.move rfl rfl, rfl, rfl, rfl⟩
        · exact ⟨h.move rfl rfl, rfl, rfl, rfl⟩
      | create ok =>
        simp only [State.call]
        split
        · exact ⟨h, rfl, rfl, rfl⟩
        · exact ⟨h.move rfl rfl, rfl, rfl, rfl⟩
      | release =>
        simp only [State.call]
        split
        · unfold State.deref
          split
          · exact ⟨h, rfl, rfl, rfl⟩
          · exact ⟨h, rfl, rfl, rfl⟩
        · exact ⟨h, rfl, rfl, rfl⟩
      | flush => exact ha.elim
      | clear => exact ha.elim
      | go => exact ⟨h, rfl, rfl, rfl⟩
    · have hm := h th
      generalize hp : s.pc th = p at *
      cases p with
      | idle => exact ⟨h, rfl, rfl, rfl⟩
      | link d k =>
        refine ⟨?_, (linkIn_same s d).1⟩
        simp only [State.cont]
        cases k with
        | none => exact h.move (th := th) (p := .idle) (by simp only [State.goto]; rw [(linkIn_keep s d).2]) rfl
        | some r => exact h.move (th := th) (p := .check d r) (by simp only [State.goto]; rw [(linkIn_keep s d).2]) rfl
      | check d r =>
        simp only [State.cont, State.deref]
        split
        · exact ⟨h, rfl, rfl, rfl⟩
        · rename_i t ht
          rw [if_neg (by simp [hst d t ht])]
          exact ⟨h.move rfl rfl, rfl, rfl, rfl⟩
      | proc d r =>
        simp only [State.cont, State.deref]
        split
        · exact ⟨h, rfl, rfl, rfl⟩
        · exact ⟨h.move rfl rfl, rfl, rfl, rfl⟩
      | _ => exact absurd hm (by simp [PC.maint])

theorem plain_run {s : State R} (h : Calm s) (hs : Stops s) (l : List (Nat × Act R)) (hl : Plain l) : SameOut s (s.run l) := by
  induction l generalizing s with
  | nil => exact ⟨rfl, rfl, rfl⟩
  | cons x l ih =>
    obtain ⟨h1, h2⟩ := plain_step h hs x.1 x.2 (fun y hy => hl y (by simp only [List.mem_singleton] at hy; simp [hy]))
    exact h2.trans (ih h1 (hs.step x.1 x.2) fun y hy => hl y (by simp [hy]))

theorem Acc.quiet {s : State R} {L : List Nat} {F : List (Nat × R)} (A : Acc s L F) (q : Quiet s) : F = [] := by
  cases F with
  | nil => rfl
  | cons x F =>
    have := (A.carries.carry x.1 x.2).1 (by simp)
    rw [q x.1] at this
    cases this

/-- a flush that runs while the other threads are outside the service -/
theorem flush_quiet {s : State R} (h : Reach s) (q : Quiet s) {th : Nat} (hg : s.gone th = false) :
    ∃ N X, s.run ((th, .flush) :: List.replicate N (th, .go)) = { s with out := s.out ++ X } ∧ s.taken.Perm (s.cleared ++ X) := by
  obtain ⟨L, F, I, A⟩ := h.inv
  have hst := q.calm.notStopped h.stops
  have e1 : s.step th .flush = s.goto th (PC.loop .fStop s.head) := by
    unfold State.step
    rw [if_neg (by simp [hg]), q th]; rfl
  refine ⟨4 * L.length, L.flatMap (recsOf s.heap), ?_, A.stored⟩
  rw [State.run, e1, flush_loop (s := s.goto th (PC.loop .fStop s.head)) I.seg hg (by simp [State.goto, upd_same]) hst]
  have : upd (upd s.pc th (PC.loop .fStop s.head)) th .idle = s.pc := by
    funext j; unfold upd; split
    · rename_i hj; rw [hj, q th]
    · rfl
  simp only [State.goto, this]

/-- a clear that runs while the other threads are outside the service -/
theorem clear_quiet {s : State R} (h : Reach s) (q : Quiet s) {th : Nat} (hg : s.gone th = false) :
    ∃ N, Quiet (s.run ((th, .clear) :: List.replicate N (th, .go))) ∧ SameHist s (s.run ((th, .clear) :: List.replicate N (th, .go))) ∧
      (s.run ((th, .clear) :: List.replicate N (th, .go))).taken.Perm (s.run ((th, .clear) :: List.replicate N (th, .go))).cleared := by
  obtain ⟨L, F, I, A⟩ := h.inv
  have e1 : s.step th .clear = s.goto th (PC.loop .cStop s.head) := by
    unfold State.step
    rw [if_neg (by simp [hg]), q th]; rfl
  obtain ⟨F', I1, A1⟩ := call_step (a := .clear) I A hg (q th) (fun _ => q.calm)
  have e2 : s.call th .clear = s.goto th (PC.loop .cStop s.head) := rfl
  rw [e2] at I1 A1
  have hh : s.head = L.head? := by
    have := I.seg
    cases L with
    | nil => exact this
    | cons d L => exact this.1
  obtain ⟨n, L', i1, i2, i3, i4, i5⟩ := clear_loop (A := []) (B := L) I1 A1 (th := th) hg (by simp [State.goto, upd_same, hh]) (by simp)
  refine ⟨n, ?_⟩
  rw [State.run, e1]
  refine ⟨?_, i2, ?_⟩
  · intro j
    rw [i1]
    unfold upd
    split
    · rfl
    · rename_i hj
      show upd s.pc th _ j = _
      rw [upd_ne _ _ hj, q j]
  · have := i4.stored
    rwa [List.flatMap_eq_nil_iff.2 i5, List.append_nil] at this

theorem Reach.call {s s' : State R} (h : Reach s) (q : Quiet s) {th : Nat} {a : Act R} (hr : Runs s th a s') : Reach s' := by
  obtain ⟨n, rfl, _⟩ := hr
  exact h.run ⟨fun _ => q.calm, Solo.go n⟩

end Verif.AggThreads
