import Verif.Agg.ThreadsStep
/-!
# Flushing and clearing from a quiet state
-/
namespace Verif.AggThreads
variable {R : Type}

/-- the database a thread has stopped -/
def PC.holds : PC R → Option Nat
  | .fWork c | .fStart c | .cWork c | .cStart c => some c
  | _ => none

/-- a stopped database is one that a flush or clear is working on -/
def Stops (s : State R) : Prop := ∀ d t, s.heap d = some t → t.stopped = true → ∃ th, (s.pc th).holds = some d

/-- every stopped database was stopped before -/
def Keep (s s' : State R) : Prop := ∀ d t', s'.heap d = some t' → t'.stopped = true → ∃ t, s.heap d = some t ∧ t.stopped = true

theorem Keep.refl (s : State R) : Keep s s := fun _ t h1 h2 => ⟨t, h1, h2⟩

theorem Keep.put {s : State R} {d : Nat} {t t' : TDB R} (h : s.heap d = some t) (hs : t'.stopped = true → t.stopped = true) : Keep s (s.put d t') := by
  intro e u h1 h2
  by_cases he : e = d
  · subst he
    simp only [State.put, upd_same] at h1
    cases h1
    exact ⟨t, h, hs h2⟩
  · simp only [State.put, upd_ne _ _ he] at h1
    exact ⟨u, h1, h2⟩

theorem Keep.trans {s s' s'' : State R} (h : Keep s s') (g : Keep s' s'') : Keep s s'' := by
  intro d t h1 h2
  obtain ⟨t', e1, e2⟩ := g d t h1 h2
  exact h d t' e1 e2

theorem Keep.deref {s : State R} {d : Nat} {f : TDB R → State R} (h : ∀ t, s.heap d = some t → Keep s (f t)) : Keep s (s.deref d f) := by
  unfold State.deref
  split
  · exact Keep.refl s
  · rename_i t ht; exact h t ht

theorem linkIn_keep (s : State R) (d : Nat) : Keep s (s.linkIn d) ∧ (s.linkIn d).pc = s.pc := by
  unfold State.linkIn
  split
  · constructor
    · refine Keep.deref fun t ht => ?_
      exact (Keep.put (t' := { t with next := none }) ht (fun h => h) :)
    · unfold State.deref; split <;> rfl
  · rename_i h _
    constructor
    · refine Keep.deref fun t ht => ?_
      refine Keep.trans (Keep.put (t' := { t with prev := some d }) ht (fun h => h)) ?_
      refine Keep.deref fun t' ht' => ?_
      exact (Keep.put (t' := { t' with next := some h }) ht' (fun h => h) :)
    · unfold State.deref
      split
      · rfl
      · simp only; split <;> rfl

theorem unlink_keep (s : State R) (c : Nat) (tmp : Option Nat) : Keep s (s.unlink c tmp) ∧ (s.unlink c tmp).pc = s.pc := by
  unfold State.unlink
  have k1 : ∀ (s : State R) (n : Option Nat) (f : TDB R → TDB R), (∀ t, (f t).stopped = t.stopped) →
      Keep s (match n with | none => s | some n => s.deref n fun tn => s.put n (f tn)) ∧
      (match n with | none => s | some n => s.deref n fun tn => s.put n (f tn)).pc = s.pc := by
    intro s n f hf
    cases n with
    | none => exact ⟨Keep.refl s, rfl⟩
    | some n =>
      refine ⟨Keep.deref fun t ht => Keep.put ht (fun h => by rw [← hf]; exact h), ?_⟩
      simp only
      unfold State.deref
      split <;> rfl
  constructor
  · refine Keep.deref fun t ht => ?_
    have a := k1 s t.next (fun tn => { tn with prev := t.prev }) (fun _ => rfl)
    have b := k1 (match t.next with | none => s | some n => s.deref n fun tn => s.put n { tn with prev := t.prev }) t.prev (fun tp => { tp with next := t.next }) (fun _ => rfl)
    exact Keep.trans a.1 b.1
  · unfold State.deref
    split
    · rfl
    · rename_i t ht
      have a := k1 s t.next (fun tn => { tn with prev := t.prev }) (fun _ => rfl)
      have b := k1 (match t.next with | none => s | some n => s.deref n fun tn => s.put n { tn with prev := t.prev }) t.prev (fun tp => { tp with next := t.next }) (fun _ => rfl)
      exact b.2.trans a.2

theorem Stops.move {s s' : State R} (h : Stops s) {th : Nat} {p : PC R} (hk : Keep s s') (hpc : s'.pc = upd s.pc th p)
    (hh : (s.pc th).holds = none ∨ (s.pc th).holds = p.holds) : Stops s' := by
  intro d t h1 h2
  obtain ⟨t', e1, e2⟩ := hk d t h1 h2
  obtain ⟨th', h3⟩ := h d t' e1 e2
  refine ⟨th', ?_⟩
  rw [hpc]
  by_cases e : th' = th
  · subst e
    rw [upd_same]
    rcases hh with hh | hh
    · rw [hh] at h3; cases h3
    · rw [← hh]; exact h3
  · rw [upd_ne _ _ e]; exact h3

theorem Stops.bad {s : State R} (h : Stops s) : Stops { s with bad := true } := h

theorem Stops.deref {s : State R} (h : Stops s) {d : Nat} {f : TDB R → State R} (hf : ∀ t, s.heap d = some t → Stops (f t)) : Stops (s.deref d f) := by
  unfold State.deref
  split
  · exact h
  · rename_i t ht; exact hf t ht

theorem Stops.stop {s : State R} (h : Stops s) {th c : Nat} {t : TDB R} {p : PC R} (hh : (s.pc th).holds = none) (hp : p.holds = some c) :
    Stops ((s.put c { t with stopped := true }).goto th p) := by
  intro d t' h1 h2
  by_cases e : d = c
  · subst e
    exact ⟨th, by simp [State.goto, upd_same, hp]⟩
  · simp only [State.goto, State.put, upd_ne _ _ e] at h1
    obtain ⟨th', h3⟩ := h d t' h1 h2
    refine ⟨th', ?_⟩
    have : th' ≠ th := by rintro rfl; rw [hh] at h3; cases h3
    simpa only [State.goto, State.put, upd_ne _ _ this] using h3

theorem Stops.start {s : State R} (h : Stops s) {th c : Nat} {t : TDB R} {p : PC R} (hh : (s.pc th).holds = some c) :
    Stops ((s.put c { t with stopped := false }).goto th p) := by
  intro d t' h1 h2
  by_cases e : d = c
  · subst e
    simp only [State.goto, State.put, upd_same] at h1
    cases h1
    cases h2
  · simp only [State.goto, State.put, upd_ne _ _ e] at h1
    obtain ⟨th', h3⟩ := h d t' h1 h2
    refine ⟨th', ?_⟩
    have : th' ≠ th := by rintro rfl; rw [hh] at h3; cases h3; exact e rfl
    simpa only [State.goto, State.put, upd_ne _ _ this] using h3

theorem Stops.step {s : State R} (h : Stops s) (th : Nat) (a : Act R) : Stops (s.step th a) := by
  unfold State.step
  split
  · exact h
  · split
    · rename_i hi
      have hn : (s.pc th).holds = none := by rw [hi]; rfl
      have halloc : ∀ (st : List R) ok k, Stops (State.alloc { s with started := st } th ok k) := by
        intro st ok k
        refine h.move (p := .link s.nextId k) ?_ rfl (.inl hn)
        intro d t' h1 h2
        by_cases e : d = s.nextId
        · subst e
          simp only [State.alloc, upd_same] at h1
          cases h1; cases h2
        · simp only [State.alloc, upd_ne _ _ e] at h1
          exact ⟨t', h1, h2⟩
      cases a with
      | snapshot r sig ok =>
        simp only [State.call]
        split
        · exact h.move (Keep.refl s) rfl (.inl hn)
        · split
          · exact h
          · exact halloc _ _ _
      | create ok =>
        simp only [State.call]
        split
        · exact h
        · exact halloc s.started _ _
      | release =>
        simp only [State.call]
        split
        · rename_i d _
          intro e t' h1 h2
          have hk : Keep s (s.deref d fun t => s.put d { t with retired := true }) := Keep.deref fun t ht => Keep.put ht (fun h => h)
          obtain ⟨t, e1, e2⟩ := hk e t' h1 h2
          obtain ⟨th', h3⟩ := h e t e1 e2
          refine ⟨th', ?_⟩
          rw [← h3]
          simp only [State.deref]
          split <;> rfl
        · exact h
      | flush => exact h.move (Keep.refl s) rfl (.inl hn)
      | clear => exact h.move (Keep.refl s) rfl (.inl hn)
      | go => exact h
    · rename_i hni
      generalize hp : s.pc th = p at *
      cases p with
      | idle => exact h
      | link d k =>
        obtain ⟨a1, a2⟩ := linkIn_keep s d
        exact h.move a1 (by simp only [State.cont, State.goto]; rw [a2]) (.inl (by rw [hp]; rfl))
      | check d r =>
        refine h.deref fun t ht => ?_
        split <;> exact h.move (Keep.refl s) rfl (.inl (by rw [hp]; rfl))
      | proc d r =>
        refine h.deref fun t ht => ?_
        exact h.move (Keep.put (t' := { t with recs := t.recs ++ [r] }) ht (fun h => h)) rfl (.inl (by rw [hp]; rfl))
      | fStop c => exact h.deref fun t ht => h.stop (by rw [hp]; rfl) rfl
      | fWork c => exact h.deref fun t ht => h.move (Keep.refl s) rfl (.inr (by rw [hp]; rfl))
      | fStart c => exact h.deref fun t ht => h.start (by rw [hp]; rfl)
      | fNext c => exact h.deref fun t ht => h.move (Keep.refl s) rfl (.inl (by rw [hp]; rfl))
      | cStop c => exact h.deref fun t ht => h.stop (by rw [hp]; rfl) rfl
      | cWork c =>
        refine h.deref fun t ht => ?_
        exact h.move (Keep.put (t' := { t with recs := [] }) ht (fun h => h)) rfl (.inr (by rw [hp]; rfl))
      | cStart c => exact h.deref fun t ht => h.start (by rw [hp]; rfl)
      | cRet c =>
        refine h.deref fun t ht => ?_
        split <;> exact h.move (Keep.refl s) rfl (.inl (by rw [hp]; rfl))
      | cUnlink c tmp =>
        obtain ⟨a1, a2⟩ := unlink_keep s c tmp
        exact h.move a1 (by simp only [State.cont, State.goto]; rw [a2]) (.inl (by rw [hp]; rfl))
      | cDel c tmp =>
        refine h.deref fun t ht => ?_
        refine h.move (p := PC.loop .cStop tmp) ?_ rfl (.inl (by rw [hp]; rfl))
        intro d t' h1 h2
        by_cases e : d = c
        · subst e; simp only [State.goto, upd_same] at h1; cases h1
        · simp only [State.goto, upd_ne _ _ e] at h1
          exact ⟨t', h1, h2⟩

theorem Stops.run {s : State R} (h : Stops s) (l : List (Nat × Act R)) : Stops (s.run l) := by
  induction l generalizing s with
  | nil => exact h
  | cons x l ih => exact ih (h.step x.1 x.2)

theorem Reach.stops {s : State R} (h : Reach s) : Stops s := by
  obtain ⟨l, _, rfl⟩ := h
  exact Stops.run (fun d t h => by simp [State.init] at h) l

theorem Seg.unique {h : Nat → Option (TDB R)} {L : List Nat} : ∀ {p p' cur L'}, Seg h p cur L → Seg h p' cur L' → L = L' := by
  induction L with
  | nil =>
    intro p p' cur L' h1 h2
    cases L' with
    | nil => rfl
    | cons d L' => rw [show cur = none from h1] at h2; cases h2.1
  | cons d L ih =>
    intro p p' cur L' h1 h2
    obtain ⟨e1, t, e2, _, e3⟩ := h1
    cases L' with
    | nil => rw [show cur = none from h2] at e1; cases e1
    | cons d' L' =>
      obtain ⟨f1, t', f2, _, f3⟩ := h2
      rw [e1] at f1
      cases f1
      rw [e2] at f2
      cases f2
      rw [ih e3 f3]

theorem go_step {s : State R} {th : Nat} (hg : s.gone th = false) : s.step th .go = s.cont th (s.pc th) := by
  unfold State.step
  rw [if_neg (by simp [hg])]
  split
  · rename_i h; rw [h]; rfl
  · rfl

theorem run_append (s : State R) (l l' : List (Nat × Act R)) : s.run (l ++ l') = (s.run l).run l' := by
  induction l generalizing s with
  | nil => rfl
  | cons x l ih => exact ih _

theorem run_idle {s : State R} {th : Nat} (hi : s.pc th = .idle) (n : Nat) : s.run (List.replicate n (th, .go)) = s := by
  induction n with
  | zero => rfl
  | succ n ih =>
    have e : s.step th .go = s := by
      unfold State.step
      split
      · rfl
      · rw [hi]; rfl
    rw [List.replicate_succ, State.run, e, ih]

/-- what a call does does not depend on how often the thread is asked to go on -/
theorem Runs.eq {s s' : State R} {th : Nat} {a : Act R} (h : Runs s th a s') {N : Nat}
    (hN : (s.run ((th, a) :: List.replicate N (th, .go))).pc th = .idle) : s' = s.run ((th, a) :: List.replicate N (th, .go)) := by
  obtain ⟨n, rfl, hi⟩ := h
  have key : ∀ m k, (s.run ((th, a) :: List.replicate m (th, .go))).pc th = .idle →
      s.run ((th, a) :: List.replicate (m + k) (th, .go)) = s.run ((th, a) :: List.replicate m (th, .go)) := by
    intro m k h
    rw [← List.replicate_append_replicate, ← List.cons_append, run_append, run_idle h]
  rcases Nat.le_total n N with h | h
  · rw [show N = n + (N - n) by omega, key n _ hi]
  · rw [show n = N + (n - N) by omega, key N _ hN]

theorem flush_loop {th : Nat} {L : List Nat} : ∀ {s : State R} {p cur}, Seg s.heap p cur L → s.gone th = false → s.pc th = PC.loop .fStop cur →
    (∀ d t, s.heap d = some t → t.stopped = false) →
    s.run (List.replicate (4 * L.length) (th, .go)) = { s with out := s.out ++ L.flatMap (recsOf s.heap), pc := upd s.pc th .idle } := by
  induction L with
  | nil =>
    intro s p cur h1 h2 h3 h4
    rw [show cur = none from h1] at h3
    have e : upd s.pc th .idle = s.pc := by
      funext j; unfold upd; split
      · rename_i hj; rw [hj, h3]; rfl
      · rfl
    simp [State.run, e]
  | cons c L ih =>
    intro s p cur h1 h2 h3 h4
    obtain ⟨e1, t, e2, e3, e4⟩ := h1
    subst e1
    have hst := h4 c t e2
    have e : ∀ t' : TDB R, upd (upd s.heap c (some t')) c (some { t' with stopped := false }) = upd s.heap c (some { t' with stopped := false }) := by
      intro t'; funext j; unfold upd; split <;> rfl
    have e' : upd s.heap c (some { t with stopped := false }) = s.heap := by
      funext j; unfold upd; split
      · rename_i hj; rw [hj, e2, ← hst]
      · rfl
    have hu : ∀ p q : PC R, upd (upd s.pc th p) th q = upd s.pc th q := by
      intro p q; funext j; unfold upd; split <;> rfl
    have r4 : s.run (List.replicate 4 (th, .go)) = { s with out := s.out ++ t.recs, pc := upd s.pc th (PC.loop .fStop t.next) } := by
      have s1 : s.step th .go = { s with heap := upd s.heap c (some { t with stopped := true }), pc := upd s.pc th (.fWork c) } := by
        rw [go_step h2, h3]; simp [PC.loop, State.cont, State.deref, e2, State.put, State.goto]
      have s2 : State.step { s with heap := upd s.heap c (some { t with stopped := true }), pc := upd s.pc th (.fWork c) } th .go =
          { s with heap := upd s.heap c (some { t with stopped := true }), out := s.out ++ t.recs, pc := upd s.pc th (.fStart c) } := by
        rw [go_step (by exact h2)]
        simp only [upd_same, State.cont, State.deref, State.goto, hu]
      have s3 : State.step { s with heap := upd s.heap c (some { t with stopped := true }), out := s.out ++ t.recs, pc := upd s.pc th (.fStart c) } th .go =
          { s with out := s.out ++ t.recs, pc := upd s.pc th (.fNext c) } := by
        rw [go_step (by exact h2)]
        simp only [upd_same, State.cont, State.deref, State.goto, hu, State.put]
        rw [e { t with stopped := true }]
        simp only
        rw [e']
      have s4 : State.step { s with out := s.out ++ t.recs, pc := upd s.pc th (.fNext c) } th .go =
          { s with out := s.out ++ t.recs, pc := upd s.pc th (PC.loop .fStop t.next) } := by
        rw [go_step (by exact h2)]
        simp only [upd_same, State.cont, State.deref, State.goto, hu, e2]
      show (((s.step th .go).step th .go).step th .go).step th .go = _
      rw [s1, s2, s3, s4]
    rw [show 4 * (c :: L).length = 4 + 4 * L.length by simp; omega, ← List.replicate_append_replicate, run_append, r4]
    have := ih (s := { s with out := s.out ++ t.recs, pc := upd s.pc th (PC.loop .fStop t.next) }) e4 h2 (by simp [upd_same]) h4
    rw [this]
    simp only [hu, List.flatMap_cons, recsOf_some e2, List.append_assoc]

/-- histories of the calls inside `clear` -/
def SameHist (s s' : State R) : Prop :=
  s'.taken = s.taken ∧ s'.started = s.started ∧ s'.dropped = s.dropped ∧ s'.out = s.out ∧ s'.gone = s.gone

theorem SameHist.trans {s s' s'' : State R} (h : SameHist s s') (g : SameHist s' s'') : SameHist s s'' :=
  ⟨g.1.trans h.1, g.2.1.trans h.2.1, g.2.2.1.trans h.2.2.1, g.2.2.2.1.trans h.2.2.2.1, g.2.2.2.2.trans h.2.2.2.2⟩

theorem unlink_hist (s : State R) (c : Nat) (tmp : Option Nat) : SameHist s (s.unlink c tmp) := by
  unfold State.unlink
  unfold State.deref
  split
  · exact ⟨rfl, rfl, rfl, rfl, rfl⟩
  · rename_i t _
    have k : ∀ (s : State R) (n : Option Nat) (f : TDB R → TDB R),
        SameHist s (match n with | none => s | some n => s.deref n fun tn => s.put n (f tn)) := by
      intro s n f
      cases n with
      | none => exact ⟨rfl, rfl, rfl, rfl, rfl⟩
      | some n =>
        simp only
        unfold State.deref
        split <;> exact ⟨rfl, rfl, rfl, rfl, rfl⟩
    exact (k s t.next (fun tn => { tn with prev := t.prev })).trans (k _ t.prev (fun tp => { tp with next := t.next }))

theorem clear_loop {th : Nat} {B : List Nat} : ∀ {s : State R} {A : List Nat} {F : List (Nat × R)}, Inv s (A ++ B) → Acc s (A ++ B) F → s.gone th = false →
    s.pc th = PC.loop .cStop B.head? → (∀ d ∈ A, recsOf s.heap d = []) →
    ∃ n L', (s.run (List.replicate n (th, .go))).pc = upd s.pc th .idle ∧ SameHist s (s.run (List.replicate n (th, .go))) ∧
      Inv (s.run (List.replicate n (th, .go))) L' ∧ Acc (s.run (List.replicate n (th, .go))) L' F ∧
      ∀ d ∈ L', recsOf (s.run (List.replicate n (th, .go))).heap d = [] := by
  induction B with
  | nil =>
    intro s A F I Ac hg hp hA
    refine ⟨0, A ++ [], ?_, ⟨rfl, rfl, rfl, rfl, rfl⟩, I, Ac, fun d hd => hA d (by simpa using hd)⟩
    funext j; unfold upd; split
    · rename_i hj; rw [hj]; exact hp
    · rfl
  | cons c B ih =>
    intro s A F I Ac hg hp hA
    have hc : c ∈ A ++ c :: B := by simp
    obtain ⟨t, ht⟩ := I.curIn hc
    have hnd := I.nodup
    have hnc : c ∉ A ++ B := by
      rw [List.perm_middle.nodup_iff] at hnd
      exact (List.nodup_cons.1 hnd).1
    have hu : ∀ p q : PC R, upd (upd s.pc th p) th q = upd s.pc th q := by
      intro p q; funext j; unfold upd; split <;> rfl
    have huh : ∀ t t' : Option (TDB R), upd (upd s.heap c t) c t' = upd s.heap c t' := by
      intro p q; funext j; unfold upd; split <;> rfl
    have hpm : (s.pc th).maint = true := by rw [hp]; rfl
    -- the state after the first three steps
    let s3 : State R := { s with heap := upd s.heap c (some { t with stopped := false, recs := [] }), cleared := s.cleared ++ t.recs, pc := upd s.pc th (.cRet c) }
    have r3 : s.run (List.replicate 3 (th, .go)) = s3 := by
      have s1 : s.step th .go = { s with heap := upd s.heap c (some { t with stopped := true }), pc := upd s.pc th (.cWork c) } := by
        rw [go_step hg, hp]; simp [PC.loop, State.cont, State.deref, ht, State.put, State.goto]
      have s2 : State.step { s with heap := upd s.heap c (some { t with stopped := true }), pc := upd s.pc th (.cWork c) } th .go =
          { s with heap := upd s.heap c (some { t with stopped := true, recs := [] }), cleared := s.cleared ++ t.recs, pc := upd s.pc th (.cStart c) } := by
        rw [go_step (by exact hg)]
        simp only [upd_same, State.cont, State.deref, State.goto, hu, State.put, huh]
      have s3' : State.step { s with heap := upd s.heap c (some { t with stopped := true, recs := [] }), cleared := s.cleared ++ t.recs, pc := upd s.pc th (.cStart c) } th .go = s3 := by
        rw [go_step (by exact hg)]
        simp only [upd_same, State.cont, State.deref, State.goto, hu, State.put, huh]
        rfl
      show ((s.step th .go).step th .go).step th .go = _
      rw [s1, s2, s3']
    obtain ⟨I3, A3⟩ : Inv s3 (A ++ c :: B) ∧ Acc s3 (A ++ c :: B) F := by
      refine put_step I Ac (p := .cRet c) (t' := { t with stopped := false, recs := [] }) hg hc ht rfl rfl rfl (by rw [hp]; simp [PC.loop]) (by rfl) (by rfl) (by rfl) (by rfl) (by rfl) (by rfl) (by rfl)
        (by simp [PC.use]) hc (fun _ => .inl hpm) (Ac.carries.same (by rw [hp]; rfl)) Ac.started ?_
      intro X h
      simpa only [s3, List.nil_append, List.append_assoc] using h
    have h3c : s3.heap c = some { t with stopped := false, recs := [] } := upd_same ..
    have hA3 : ∀ d ∈ A ++ [c], recsOf s3.heap d = [] := by
      intro d hd
      by_cases e : d = c
      · rw [e, recsOf_some h3c]
      · rw [show s3.heap = upd s.heap c _ from rfl, recsOf_upd_ne _ _ e]
        exact hA d (by simpa [e] using hd)
    have hnext : t.next = B.head? := (Seg.links ht I.seg).2
    cases hr : t.retired with
    | false =>
      -- next database
      let s4 : State R := { s3 with pc := upd s3.pc th (PC.loop .cStop t.next) }
      have r4 : s3.step th .go = s4 := by
        rw [go_step (by exact hg)]
        simp only [s3, upd_same, State.cont, State.deref, hr, Bool.false_eq_true, if_false, State.goto, s4]
      obtain ⟨I4, A4⟩ : Inv s4 (A ++ c :: B) ∧ Acc s4 (A ++ c :: B) F := by
        refine id_step I3 A3 (p := PC.loop .cStop t.next) hg (by simp [s3, upd_same]) (by rfl) (by rfl) (by rfl) (by rfl) (by rfl) (by rfl) (by rfl) ?_ (loop_ok ?_ fun _ => Iff.rfl) (fun _ => .inl ?_) ?_ A3.started rfl rfl
        · intro d; cases t.next <;> simp [PC.loop, PC.use]
        · intro e he; exact I.seg.next_mem hc ht he
        · simp [s3, upd_same, PC.maint]
        · refine A3.carries.same ?_
          simp only [s3, upd_same]; cases t.next <;> rfl
      obtain ⟨n, L', i1, i2, i3, i4, i5⟩ := ih (s := s4) (A := A ++ [c]) (by simpa using I4) (by simpa using A4) hg (by simp [s4, upd_same, hnext]) hA3
      have e : s.run (List.replicate (3 + (1 + n)) (th, .go)) = s4.run (List.replicate n (th, .go)) := by
        rw [← List.replicate_append_replicate, run_append, r3, ← List.replicate_append_replicate, run_append]
        show ((s3.step th .go).run []).run _ = _
        rw [r4]; rfl
      refine ⟨3 + (1 + n), L', ?_⟩
      rw [e]
      refine ⟨?_, ?_, i3, i4, i5⟩
      · rw [i1]; simp only [s4, s3, hu]
      · exact SameHist.trans (s' := s4) ⟨rfl, rfl, rfl, rfl, rfl⟩ i2
    | true =>
      let s4 : State R := { s3 with pc := upd s3.pc th (.cUnlink c t.next) }
      have r4 : s3.step th .go = s4 := by
        rw [go_step (by exact hg)]
        simp only [s3, upd_same, State.cont, State.deref, hr, if_true, State.goto, s4]
      obtain ⟨I4, A4⟩ : Inv s4 (A ++ c :: B) ∧ Acc s4 (A ++ c :: B) F := by
        refine id_step I3 A3 (p := .cUnlink c t.next) hg (by simp [s3, upd_same]) (by rfl) (by rfl) (by rfl) (by rfl) (by rfl) (by rfl) (by rfl) (by simp [PC.use]) ⟨hc, _, h3c, hr, rfl⟩ (fun _ => .inl ?_) ?_ A3.started rfl rfl
        · simp [s3, upd_same, PC.maint]
        · exact A3.carries.same (by simp only [s3, upd_same]; rfl)
      have p4 : s4.pc th = .cUnlink c t.next := by simp [s4, upd_same]
      obtain ⟨I5, A5, R5⟩ := unlink_step I4 A4 (th := th) hg p4
      have r5 : s4.step th .go = (s4.unlink c t.next).goto th (.cDel c t.next) := by
        rw [go_step (by exact hg), p4]; rfl
      have H5 : SameHist s4 (s4.unlink c t.next) := unlink_hist ..
      have g5 : ((s4.unlink c t.next).goto th (.cDel c t.next)).gone th = false := by
        show (s4.unlink c t.next).gone th = false
        rw [H5.2.2.2.2]; exact hg
      have pcU : (s4.unlink c t.next).pc = s4.pc := (unlink_keep ..).2
      have p5 : ((s4.unlink c t.next).goto th (.cDel c t.next)).pc th = .cDel c t.next := by simp [State.goto, upd_same]
      obtain ⟨I6, A6⟩ := delete_step I5 A5 (th := th) g5 p5
      obtain ⟨_, ⟨t5, h5, _⟩, _⟩ : PcOK _ _ (PC.cDel c t.next) := by rw [← p5]; exact I5.pcs th
      have r6 : ((s4.unlink c t.next).goto th (.cDel c t.next)).step th .go =
          State.goto { (s4.unlink c t.next).goto th (.cDel c t.next) with heap := upd ((s4.unlink c t.next).goto th (.cDel c t.next)).heap c none } th (PC.loop .cStop t.next) := by
        rw [go_step g5, p5]
        simp only [State.cont, deref_some h5]
      generalize hs6 : State.goto { (s4.unlink c t.next).goto th (.cDel c t.next) with heap := upd ((s4.unlink c t.next).goto th (.cDel c t.next)).heap c none } th (PC.loop .cStop t.next) = s6 at *
      have H6 : SameHist s s6 := by
        rw [← hs6]
        exact SameHist.trans (s' := s4) ⟨rfl, rfl, rfl, rfl, rfl⟩ H5
      have pc6 : s6.pc = upd s.pc th (PC.loop .cStop t.next) := by
        rw [← hs6]
        simp only [State.goto, pcU, s4, s3]
        funext j; unfold upd; split <;> rfl
      obtain ⟨n, L', i1, i2, i3, i4, i5⟩ := ih (s := s6) (A := A) I6 A6 (by rw [H6.2.2.2.2]; exact hg) (by rw [pc6, upd_same, hnext]) (by
        intro d hd
        have hdc : d ≠ c := by rintro rfl; exact hnc (by simp [hd])
        rw [← hs6]
        show recsOf (upd (s4.unlink c t.next).heap c none) d = []
        rw [recsOf_upd_ne _ _ hdc]
        exact (R5 d (by simp [hd])).trans (hA3 d (by simp [hd])))
      have e : s.run (List.replicate (3 + (3 + n)) (th, .go)) = s6.run (List.replicate n (th, .go)) := by
        rw [← List.replicate_append_replicate, run_append, r3, ← List.replicate_append_replicate, run_append]
        show (((s3.step th .go).step th .go).step th .go).run _ = _
        rw [r4, r5, r6]
      refine ⟨3 + (3 + n), L', ?_⟩
      rw [e]
      refine ⟨?_, H6.trans i2, i3, i4, i5⟩
      rw [i1, pc6]
      exact hu _ _

end Verif.AggThreads
