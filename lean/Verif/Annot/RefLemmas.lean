import Verif.Annot.Ref
namespace Verif.Annot.Ref

theorem count_eq (s : State) (i : Nat) : s.count i = s.hs.countP (fun e => decide (e.2 = i)) := by
  unfold State.count; rw [List.countP_eq_length_filter]

theorem count_pos {s : State} {h i : Nat} (hm : (h, i) ∈ s.hs) : 0 < s.count i := by
  rw [count_eq, List.countP_pos_iff]; exact ⟨_, hm, by simp⟩

/-- the member function holds its handle -/
def Pc.held (p : Pc) (hs : List (Nat × Nat)) : Prop :=
  match p with
  | .chk (some h) i | .call (some h) i | .dec (some h) i => (h, i) ∈ hs
  | .test _ (some (_, g, j)) => (g, j) ∈ hs
  | _ => True

/-- the `Impl`s a thread works on -/
def Pc.on (p : Pc) (i : Nat) : Prop := p.closing i ∨ p.inEnd i

/-- `Annotation` threads are only in `detach`, `Loop` threads never -/
def Pc.isTest : Pc → Prop
  | .test _ _ => True
  | _ => False

/-- invariant of the reference counts -/
structure Inv (c : Cls) (s : State) : Prop where
  uaf : s.uaf = false
  ref : ∀ i, i < s.next → (s.heap i).ref = s.count i
  alloc : ∀ e ∈ s.hs, e.2 < s.next
  pcs : ∀ t i, (s.pc t).on i → i < s.next
  freed : ∀ i, 0 < (s.heap i).freed → (s.heap i).freed = 1 ∧ s.count i = 0 ∧ (∀ t, ¬ (s.pc t).closing i) ∧ i < s.next
  last : ∀ i, i < s.next → s.count i = 0 → (s.heap i).freed = 0 → ∃ t, (s.pc t).closing i
  alive : ∀ i t, 0 < s.count i → (s.pc t).closing i → (s.pc t).isTest
  uniq : ∀ i t u, (s.pc t).closing i → (s.pc u).closing i → t = u
  held : ∀ t, (s.pc t).held s.hs
  cls : ∀ t, s.pc t = .idle ∨ ((s.pc t).isTest ↔ c = .ann)

theorem inv_init (c : Cls) : Inv c init := by
  refine ⟨rfl, ?_, ?_, ?_, ?_, ?_, ?_, ?_, ?_, ?_⟩ <;> simp [init, Pc.on, Pc.closing, Pc.inEnd, Pc.held]

theorem closing_upd (pc : Nat → Pc) (t : Nat) (p : Pc) (u i : Nat) :
    (upd pc t p u).closing i ↔ if u = t then p.closing i else (pc u).closing i := by
  unfold upd; split <;> rfl

/-- a step that only moves a thread, without starting or ending a closing -/
theorem Inv.goto {c : Cls} {s : State} (I : Inv c s) {t : Nat} {p : Pc} (h1 : ∀ i, p.closing i ↔ (s.pc t).closing i)
    (h2 : ∀ i, p.inEnd i → i < s.next) (h3 : p.held s.hs) (h4 : p = .idle ∨ (p.isTest ↔ c = .ann))
    (h5 : (s.pc t).isTest → p.isTest) : Inv c (s.goto t p) := by
  have hc : ∀ u i, (upd s.pc t p u).closing i ↔ (s.pc u).closing i := by
    intro u i; rw [closing_upd]; split
    · rename_i e; subst e; exact h1 i
    · rfl
  refine ⟨I.uaf, I.ref, I.alloc, ?_, ?_, ?_, ?_, ?_, ?_, ?_⟩
  · intro u i hu
    rcases hu with hu | hu
    · exact I.pcs u i (.inl ((hc u i).1 hu))
    · simp only [State.goto, upd] at hu
      split at hu
      · exact h2 i hu
      · exact I.pcs u i (.inr hu)
  · intro i hi
    obtain ⟨a, b, d, e⟩ := I.freed i hi
    exact ⟨a, b, fun u hu => d u ((hc u i).1 hu), e⟩
  · intro i hi hcnt hf
    obtain ⟨u, hu⟩ := I.last i hi hcnt hf
    exact ⟨u, (hc u i).2 hu⟩
  · intro i u hp hu
    have := I.alive i u hp ((hc u i).1 hu)
    simp only [State.goto, upd]
    split
    · rename_i e; subst e; exact h5 this
    · exact this
  · intro i u v hu hv
    exact I.uniq i u v ((hc u i).1 hu) ((hc v i).1 hv)
  · intro u
    simp only [State.goto, upd]
    split
    · exact h3
    · exact I.held u
  · intro u
    simp only [State.goto, upd]
    split
    · exact h4
    · exact I.cls u

/-- an access that changes neither the reference count nor whether it is deleted -/
theorem Inv.mod {c : Cls} {s : State} (I : Inv c s) {i : Nat} {f : Impl → Impl} (h1 : (f (s.heap i)).ref = (s.heap i).ref)
    (h2 : (f (s.heap i)).freed = (s.heap i).freed) (h3 : (s.heap i).freed = 0) : Inv c (s.mod i f) := by
  have e1 : ∀ j, (upd s.heap i (f (s.heap i)) j).ref = (s.heap j).ref := by
    intro j; unfold upd; split
    · rename_i e; subst e; exact h1
    · rfl
  have e2 : ∀ j, (upd s.heap i (f (s.heap i)) j).freed = (s.heap j).freed := by
    intro j; unfold upd; split
    · rename_i e; subst e; exact h2
    · rfl
  refine ⟨?_, ?_, I.alloc, I.pcs, ?_, ?_, I.alive, I.uniq, I.held, I.cls⟩
  · simp [State.mod, I.uaf, h3]
  · intro j hj; simp only [State.mod]; rw [e1]; exact I.ref j hj
  · intro j hj; simp only [State.mod] at hj ⊢; rw [e2] at hj ⊢; exact I.freed j hj
  · intro j hj hc hf; simp only [State.mod] at hf; rw [e2] at hf; exact I.last j hj hc hf

theorem Inv.notFreed {c : Cls} {s : State} (I : Inv c s) {t i : Nat} (h : (s.pc t).closing i) : (s.heap i).freed = 0 := by
  by_contra hf
  exact (I.freed i (by omega)).2.2.1 t h

theorem Inv.notFreed' {c : Cls} {s : State} (I : Inv c s) {i : Nat} (h : 0 < s.count i) : (s.heap i).freed = 0 := by
  by_contra hf
  have := (I.freed i (by omega)).2.1
  omega

theorem held_cons {p : Pc} {hs : List (Nat × Nat)} (e : Nat × Nat) (h : p.held hs) : p.held (e :: hs) := by
  unfold Pc.held at *
  split at h <;> simp_all

theorem held_erase {p : Pc} {hs : List (Nat × Nat)} {h i : Nat} (hp : p.held hs) (hu : ¬ p.uses h) : p.held (hs.erase (h, i)) := by
  cases p with
  | idle => trivial
  | del j => trivial
  | chk o j =>
    cases o with
    | none => trivial
    | some g => exact (List.mem_erase_of_ne (by rintro ⟨⟩; exact hu rfl)).2 hp
  | call o j =>
    cases o with
    | none => trivial
    | some g => exact (List.mem_erase_of_ne (by rintro ⟨⟩; exact hu rfl)).2 hp
  | dec o j =>
    cases o with
    | none => trivial
    | some g => exact (List.mem_erase_of_ne (by rintro ⟨⟩; exact hu rfl)).2 hp
  | test j k =>
    cases k with
    | none => trivial
    | some k => obtain ⟨a, g, b⟩ := k; exact (List.mem_erase_of_ne (by rintro ⟨⟩; exact hu rfl)).2 hp

/-- a new handle of a living object -/
theorem Inv.attach {c : Cls} {s : State} (I : Inv c s) (g : Nat) {i : Nat} (hi : i < s.next) (hp : 0 < s.count i) : Inv c (s.attach g i) := by
  have hc : ∀ j, (s.attach g i).count j = s.count j + (if j = i then 1 else 0) := by
    intro j
    simp only [count_eq, State.attach, State.mod, List.countP_cons]
    by_cases e : j = i
    · subst e; simp
    · simp [e, Ne.symm e]
  have hf := I.notFreed' hp
  have e2 : ∀ j, ((s.attach g i).heap j).freed = (s.heap j).freed := by
    intro j; simp only [State.attach, State.mod, upd]; split
    · rename_i e; subst e; rfl
    · rfl
  refine ⟨?_, ?_, ?_, I.pcs, ?_, ?_, ?_, I.uniq, fun t => held_cons _ (I.held t), I.cls⟩
  · simp [State.attach, State.mod, I.uaf, hf]
  · intro j hj
    rw [hc]
    have := I.ref j hj
    simp only [State.attach, State.mod, upd]
    split
    · rename_i e; subst e; simp [this]
    · simp [this]
  · intro e he
    rcases List.mem_cons.1 he with rfl | he
    · exact hi
    · exact I.alloc e he
  · intro j hj
    rw [e2] at hj ⊢
    obtain ⟨a, b, d, e⟩ := I.freed j hj
    refine ⟨a, ?_, d, e⟩
    rw [hc, b]
    have : j ≠ i := by rintro rfl; omega
    simp [this]
  · intro j hj hcn hfr
    rw [e2] at hfr
    rw [hc] at hcn
    exact I.last j hj (by omega) hfr
  · intro j t hcn hcl
    by_cases e : j = i
    · subst e; exact I.alive j t hp hcl
    · rw [hc] at hcn
      exact I.alive j t (by simpa [e] using hcn) hcl

/-- a handle given up -/
theorem Inv.release {c : Cls} {s : State} (I : Inv c s) {t h i : Nat} {p : Pc} (hi : (h, i) ∈ s.hs) (ht : s.pc t = .idle)
    (hu : ∀ u, ¬ (s.pc u).uses h) (hcl : ∀ u, ¬ (s.pc u).closing i) (hq : ∀ j, p.closing j → j = i) (hp0 : s.count i = 1 → p.closing i)
    (hp1 : s.count i ≠ 1 → p.closing i → p.isTest) (h2 : ∀ i, p.inEnd i → i < s.next) (h3 : p.held (s.hs.erase (h, i)))
    (h4 : p = .idle ∨ (p.isTest ↔ c = .ann)) : Inv c ((s.release h i).goto t p) := by
  have hpos := count_pos hi
  have hf := I.notFreed' hpos
  have hlt := I.alloc _ hi
  have hc : ∀ j, ((s.release h i).goto t p).count j = s.count j - (if j = i then 1 else 0) := by
    intro j
    simp only [count_eq, State.release, State.mod, State.goto]
    rw [(List.perm_cons_erase hi).countP_eq (fun e => decide (e.2 = j)), List.countP_cons]
    by_cases e : j = i
    · subst e; simp
    · simp [e, Ne.symm e]
  have e2 : ∀ j, (((s.release h i).goto t p).heap j).freed = (s.heap j).freed := by
    intro j; simp only [State.release, State.goto, State.mod, upd]; split
    · rename_i e; subst e; rfl
    · rfl
  have hpc : ∀ u, ((s.release h i).goto t p).pc u = if u = t then p else s.pc u := fun u => rfl
  have hcl' : ∀ u j, (((s.release h i).goto t p).pc u).closing j → (u = t ∧ j = i ∧ p.closing i) ∨ (u ≠ t ∧ j ≠ i ∧ (s.pc u).closing j) := by
    intro u j hh
    rw [hpc] at hh
    split at hh
    · rename_i e; have := hq j hh; subst this; exact .inl ⟨e, rfl, hh⟩
    · rename_i e; exact .inr ⟨e, by rintro rfl; exact hcl u hh, hh⟩
  refine ⟨?_, ?_, ?_, ?_, ?_, ?_, ?_, ?_, ?_, ?_⟩
  · simp [State.release, State.mod, State.goto, I.uaf, hf]
  · intro j hj
    rw [hc]
    have := I.ref j hj
    simp only [State.release, State.goto, State.mod, upd]
    split
    · rename_i e; subst e; simp only [this, if_true]; omega
    · rename_i e; simpa using this
  · intro e he
    exact I.alloc e (List.mem_of_mem_erase he)
  · intro u j hh
    rcases hh with hh | hh
    · rcases hcl' u j hh with ⟨_, rfl, _⟩ | ⟨_, _, hh⟩
      · exact hlt
      · exact I.pcs u j (.inl hh)
    · rw [hpc] at hh
      split at hh
      · exact h2 j hh
      · exact I.pcs u j (.inr hh)
  · intro j hj
    rw [e2] at hj ⊢
    obtain ⟨a, b, d, e⟩ := I.freed j hj
    refine ⟨a, by rw [hc, b]; simp, ?_, e⟩
    intro u hh
    rcases hcl' u j hh with ⟨_, rfl, _⟩ | ⟨_, _, hh⟩
    · omega
    · exact d u hh
  · intro j hj hcn hfr
    rw [e2] at hfr
    rw [hc] at hcn
    by_cases e : j = i
    · subst e
      simp only [if_true] at hcn
      refine ⟨t, ?_⟩
      rw [hpc]
      simpa using hp0 (by omega)
    · obtain ⟨u, hh⟩ := I.last j hj (by simpa [e] using hcn) hfr
      refine ⟨u, ?_⟩
      rw [hpc, if_neg]
      · exact hh
      · rintro rfl; rw [ht] at hh; exact hh
  · intro j u hcn hh
    rw [hc] at hcn
    rcases hcl' u j hh with ⟨rfl, rfl, hp⟩ | ⟨hne, hj, hh⟩
    · rw [hpc, if_pos rfl]
      simp only [if_true] at hcn
      exact hp1 (by omega) hp
    · rw [hpc, if_neg hne]
      exact I.alive j u (by simpa [hj] using hcn) hh
  · intro j u v h1 h2
    rcases hcl' u j h1 with ⟨e1, e2, _⟩ | ⟨e1, e2, h1⟩ <;> rcases hcl' v j h2 with ⟨f1, f2, _⟩ | ⟨f1, f2, h2⟩
    · rw [e1, f1]
    · exact absurd e2 f2
    · exact absurd f2 e2
    · exact I.uniq j u v h1 h2
  · intro u
    rw [hpc]
    split
    · exact h3
    · exact held_erase (I.held u) (hu u)
  · intro u
    rw [hpc]
    split
    · exact h4
    · exact I.cls u

/-- the object is deleted by its only closing thread -/
theorem Inv.free {c : Cls} {s : State} (I : Inv c s) {t i : Nat} {f : Impl → Impl} (ht : (s.pc t).closing i) (hcn : s.count i = 0)
    (h1 : (f (s.heap i)).ref = (s.heap i).ref) (h2 : (f (s.heap i)).freed = (s.heap i).freed + 1)
    (hon : ∀ j, (s.pc t).closing j → j = i) : Inv c ((s.mod i f).goto t .idle) := by
  have hf := I.notFreed ht
  have hlt := I.pcs t i (.inl ht)
  have hpc : ∀ u, ((s.mod i f).goto t .idle).pc u = if u = t then .idle else s.pc u := fun u => rfl
  have hcl : ∀ u j, (((s.mod i f).goto t .idle).pc u).closing j → u ≠ t ∧ j ≠ i ∧ (s.pc u).closing j := by
    intro u j hh
    rw [hpc] at hh
    split at hh
    · exact hh.elim
    · rename_i e
      exact ⟨e, by rintro rfl; exact e (I.uniq j u t hh ht), hh⟩
  have e2 : ∀ j, j ≠ i → (((s.mod i f).goto t .idle).heap j) = (s.heap j) := by
    intro j hj; simp [State.mod, State.goto, upd, hj]
  have e3 : (((s.mod i f).goto t .idle).heap i) = f (s.heap i) := by simp [State.mod, State.goto, upd]
  refine ⟨?_, ?_, I.alloc, ?_, ?_, ?_, ?_, ?_, ?_, ?_⟩
  · simp [State.mod, State.goto, I.uaf, hf]
  · intro j hj
    by_cases e : j = i
    · subst e; rw [e3, h1]; exact I.ref j hj
    · rw [e2 j e]; exact I.ref j hj
  · intro u j hh
    rcases hh with hh | hh
    · exact I.pcs u j (.inl (hcl u j hh).2.2)
    · rw [hpc] at hh
      split at hh
      · exact hh.elim
      · exact I.pcs u j (.inr hh)
  · intro j hj
    by_cases e : j = i
    · subst e
      rw [e3, h2, hf]
      exact ⟨rfl, hcn, fun u hh => (hcl u j hh).2.1 rfl, hlt⟩
    · rw [e2 j e] at hj ⊢
      obtain ⟨a, b, d, g⟩ := I.freed j hj
      exact ⟨a, b, fun u hh => d u (hcl u j hh).2.2, g⟩
  · intro j hj hcn' hfr
    by_cases e : j = i
    · subst e; rw [e3, h2] at hfr; omega
    · rw [e2 j e] at hfr
      obtain ⟨u, hh⟩ := I.last j hj hcn' hfr
      refine ⟨u, ?_⟩
      rw [hpc, if_neg]
      · exact hh
      · rintro rfl; exact e (hon j hh)
  · intro j u hp hh
    obtain ⟨a, _, b⟩ := hcl u j hh
    rw [hpc, if_neg a]
    exact I.alive j u hp b
  · intro j u v hu hv
    exact I.uniq j u v (hcl u j hu).2.2 (hcl v j hv).2.2
  · intro u
    rw [hpc]; split
    · trivial
    · exact I.held u
  · intro u
    rw [hpc]; split
    · exact .inl rfl
    · exact I.cls u

/-- a pending test is left while handles remain -/
theorem Inv.leave {c : Cls} {s : State} (I : Inv c s) {t : Nat} (h : ∀ i, (s.pc t).closing i → 0 < s.count i) : Inv c (s.goto t .idle) := by
  have hpc : ∀ u, (s.goto t .idle).pc u = if u = t then .idle else s.pc u := fun u => rfl
  have hcl : ∀ u j, ((s.goto t .idle).pc u).closing j → u ≠ t ∧ (s.pc u).closing j := by
    intro u j hh
    rw [hpc] at hh
    split at hh
    · exact hh.elim
    · rename_i e; exact ⟨e, hh⟩
  refine ⟨I.uaf, I.ref, I.alloc, ?_, ?_, ?_, ?_, ?_, ?_, ?_⟩
  · intro u j hh
    rcases hh with hh | hh
    · exact I.pcs u j (.inl (hcl u j hh).2)
    · rw [hpc] at hh
      split at hh
      · exact hh.elim
      · exact I.pcs u j (.inr hh)
  · intro j hj
    obtain ⟨a, b, d, g⟩ := I.freed j hj
    exact ⟨a, b, fun u hh => d u (hcl u j hh).2, g⟩
  · intro j hj hcn hfr
    obtain ⟨u, hh⟩ := I.last j hj hcn hfr
    refine ⟨u, ?_⟩
    rw [hpc, if_neg]
    · exact hh
    · rintro rfl
      have h1 := h j hh
      have h2 : s.count j = 0 := hcn
      omega
  · intro j u hp hh
    obtain ⟨a, b⟩ := hcl u j hh
    rw [hpc, if_neg a]
    exact I.alive j u hp b
  · intro j u v hu hv
    exact I.uniq j u v (hcl u j hu).2 (hcl v j hv).2
  · intro u
    rw [hpc]; split
    · trivial
    · exact I.held u
  · intro u
    rw [hpc]; split
    · exact .inl rfl
    · exact I.cls u

theorem Inv.step {c : Cls} {R : Rules} (hR1 : R.assignLoop = false) (hR2 : c = .ann → R.overlapDetach = false) {s s' : State} (I : Inv c s)
    (h : Step c R s s') : Inv c s' := by
  cases h with
  | new t h ht hn _ =>
    have h0 : s.count s.next = 0 := by
      rw [count_eq, List.countP_eq_zero]
      intro e he hh
      have := I.alloc e he
      have hh : e.2 = s.next := by simpa using hh
      omega
    have hc : ∀ j, ({ s with hs := (h, s.next) :: s.hs, next := s.next + 1, heap := upd s.heap s.next ⟨1, 1, 0, 0⟩ } : State).count j =
        s.count j + (if j = s.next then 1 else 0) := by
      intro j
      simp only [count_eq, List.countP_cons]
      by_cases e : j = s.next
      · subst e; simp
      · simp [e, Ne.symm e]
    refine ⟨I.uaf, ?_, ?_, ?_, ?_, ?_, ?_, I.uniq, fun t => held_cons _ (I.held t), I.cls⟩
    · intro j hj
      rw [hc]
      simp only [upd]
      split
      · rename_i e; subst e; simp [h0]
      · rename_i e; simp only [e, if_false, Nat.add_zero]; exact I.ref j (by simp only at hj; omega)
    · intro e he
      rcases List.mem_cons.1 he with rfl | he
      · simp
      · have := I.alloc e he; simp only; omega
    · intro u j hu
      have := I.pcs u j hu; simp only; omega
    · intro j hj
      simp only [upd] at hj
      split at hj
      · simp at hj
      · rename_i e
        obtain ⟨a, b, d, g⟩ := I.freed j hj
        refine ⟨by simpa [upd, e] using a, by rw [hc, b]; simp [e], d, by simp only; omega⟩
    · intro j hj hcn hfr
      rw [hc] at hcn
      by_cases e : j = s.next
      · simp [e] at hcn
      · simp only [upd, e, if_false] at hfr
        exact I.last j (by simp only at hj; omega) (by simpa [e] using hcn) hfr
    · intro j u hp hh
      rw [hc] at hp
      by_cases e : j = s.next
      · have := I.pcs u j (.inl hh); omega
      · exact I.alive j u (by simpa [e] using hp) hh
  | copy t h g i ht hi hg _ => exact I.attach g (I.alloc _ hi) (count_pos hi)
  | dropLoop t h i hc ht hi hu =>
    have hcl : ∀ u, ¬ (s.pc u).closing i := by
      intro u hh
      have h1 := I.alive i u (count_pos hi) hh
      rcases I.cls u with h2 | h2
      · rw [h2] at hh; exact hh
      · rw [hc] at h2; exact absurd (h2.1 h1) (by simp)
    have hr := I.ref i (I.alloc _ hi)
    have hpos := count_pos hi
    by_cases h0 : s.count i = 1
    · rw [if_pos (by omega)]
      exact I.release hi ht hu hcl (fun j hj => hj.symm) (fun _ => rfl) (fun h => absurd h0 h)
        (fun j hj => by have := I.alloc _ hi; have hj : i = j := hj; simp only at this; omega) trivial (.inr (by simp [Pc.isTest, hc]))
    · rw [if_neg (by omega)]
      exact I.release hi ht hu hcl (fun j hj => hj.elim) (fun h => absurd h h0) (fun _ h => h.elim) (fun j hj => hj.elim) trivial (.inl rfl)
  | dropAnn t h i hc ht hi hu ho =>
    exact I.release hi ht hu (ho (hR2 hc)) (fun j hj => hj.symm) (fun _ => rfl) (fun _ _ => trivial) (fun j hj => hj.elim) trivial
      (.inr (by simp [Pc.isTest, hc]))
  | assignAnn t h i g j hc ht hi hg hij hu ho =>
    refine I.release hi ht hu (ho (hR2 hc)) (fun j hj => hj.symm) (fun _ => rfl) (fun _ _ => trivial) (fun j hj => hj.elim) ?_
      (.inr (by simp [Pc.isTest, hc]))
    exact (List.mem_erase_of_ne (by rintro ⟨⟩; exact hij rfl)).2 hg
  | test t i k ht =>
    have hcl : (s.pc t).closing i := by rw [ht]; rfl
    have hf := I.notFreed hcl
    have hlt := I.pcs t i (.inl hcl)
    have hr := I.ref i hlt
    have main : Inv c ((s.mod i fun m => if m.ref = 0 then { m with freed := m.freed + 1 } else m).goto t .idle) := by
      by_cases h0 : s.count i = 0
      · have h00 : (s.heap i).ref = 0 := by omega
        exact I.free hcl h0 (by simp [h00]) (by simp [h00]) (fun j hj => by rw [ht] at hj; exact hj.symm)
      · have h00 : (s.heap i).ref ≠ 0 := by omega
        have I' := I.mod (i := i) (f := fun m => if m.ref = 0 then { m with freed := m.freed + 1 } else m)
          (by simp [h00]) (by simp [h00]) hf
        refine I'.leave (t := t) ?_
        intro j hj
        have hj : (s.pc t).closing j := hj
        rw [ht] at hj
        have hj : i = j := hj
        subst hj
        show 0 < s.count i
        omega
    cases k with
    | none => exact main
    | some k =>
      obtain ⟨h, g, j⟩ := k
      have hh := I.held t
      rw [ht] at hh
      have hh : (g, j) ∈ s.hs := hh
      exact main.attach h (I.alloc _ hh) (count_pos (s := s) hh)
  | assignLoop t h i g j hc hr => rw [hR1] at hr; cases hr
  | callEnd t h i hc ht hi ho =>
    refine I.goto (fun j => ?_) (fun j hj => ?_) hi (.inr (by simp [Pc.isTest, hc])) (fun h => ?_)
    · rw [ht]; exact Iff.rfl
    · have := I.alloc _ hi; have hj : i = j := hj; simp only at this; omega
    · rw [ht] at h; exact h
  | chk t i o ht =>
    have hf : (s.heap i).freed = 0 := by
      cases o with
      | none => exact I.notFreed (t := t) (by rw [ht]; rfl)
      | some h => exact I.notFreed' (count_pos (h := h) (by have := I.held t; rw [ht] at this; exact this))
    have hlt : i < s.next := I.pcs t i (.inr (by rw [ht]; rfl))
    have hcls := I.cls t
    rw [ht] at hcls
    have hna : c ≠ .ann := by
      rcases hcls with h | h
      · cases h
      · intro e; exact h.2 e
    have I' := I.mod (i := i) (f := id) rfl rfl hf
    have hpc : (s.mod i id).pc t = .chk o i := ht
    have hheld : o ≠ none → ∀ h, o = some h → (h, i) ∈ s.hs := by
      intro _ h e; subst e; have := I.held t; rw [ht] at this; exact this
    split
    · refine I'.goto (fun j => ?_) (fun j hj => ?_) ?_ (.inr (by simp [Pc.isTest, hna])) (fun h => ?_)
      · rw [hpc]; cases o <;> rfl
      · have hj : i = j := hj; subst hj; exact hlt
      · cases o with
        | none => trivial
        | some h => exact hheld (by simp) h rfl
      · rw [hpc] at h; exact h.elim
    · split
      · rename_i e; subst e
        refine I'.goto (fun j => ?_) (fun j hj => hj.elim) trivial (.inr (by simp [Pc.isTest, hna])) (fun h => ?_)
        · rw [hpc]; rfl
        · rw [hpc] at h; exact h.elim
      · rename_i e
        refine I'.goto (fun j => ?_) (fun j hj => hj.elim) trivial (.inl rfl) (fun h => ?_)
        · rw [hpc]; cases o with
          | none => exact absurd rfl e
          | some h => exact Iff.rfl
        · rw [hpc] at h; exact h.elim
  | call t i o ht =>
    have hf : (s.heap i).freed = 0 := by
      cases o with
      | none => exact I.notFreed (t := t) (by rw [ht]; rfl)
      | some h => exact I.notFreed' (count_pos (h := h) (by have := I.held t; rw [ht] at this; exact this))
    have hlt : i < s.next := I.pcs t i (.inr (by rw [ht]; rfl))
    have hcls := I.cls t
    rw [ht] at hcls
    have hna : c ≠ .ann := by
      rcases hcls with h | h
      · cases h
      · intro e; exact h.2 e
    have I' := I.mod (i := i) (f := fun m => { m with ended := m.ended + 1 }) rfl rfl hf
    have hpc : (s.mod i fun m => { m with ended := m.ended + 1 }).pc t = .call o i := ht
    have I'' : Inv c ((s.mod i fun m => { m with ended := m.ended + 1 }).goto t (.dec o i)) := by
      refine I'.goto (fun j => ?_) (fun j hj => ?_) ?_ (.inr (by simp [Pc.isTest, hna])) (fun h => ?_)
      · rw [hpc]; cases o <;> rfl
      · have hj : i = j := hj; subst hj; exact hlt
      · cases o with
        | none => trivial
        | some h => have := I.held t; rw [ht] at this; exact this
      · rw [hpc] at h; exact h.elim
    have : ({ s with heap := upd s.heap i { (s.heap i) with ended := (s.heap i).ended + 1 }, pc := upd s.pc t (.dec o i) } : State) =
        (s.mod i fun m => { m with ended := m.ended + 1 }).goto t (.dec o i) := by
      simp [State.mod, State.goto, I.uaf, hf]
    rw [this]; exact I''
  | dec t i o ht =>
    have hf : (s.heap i).freed = 0 := by
      cases o with
      | none => exact I.notFreed (t := t) (by rw [ht]; rfl)
      | some h => exact I.notFreed' (count_pos (h := h) (by have := I.held t; rw [ht] at this; exact this))
    have hcls := I.cls t
    rw [ht] at hcls
    have hna : c ≠ .ann := by
      rcases hcls with h | h
      · cases h
      · intro e; exact h.2 e
    have I' := I.mod (i := i) (f := fun m => { m with level := m.level - 1 }) rfl rfl hf
    have hpc : (s.mod i fun m => { m with level := m.level - 1 }).pc t = .dec o i := ht
    split
    · rename_i e; subst e
      refine I'.goto (fun j => ?_) (fun j hj => hj.elim) trivial (.inr (by simp [Pc.isTest, hna])) (fun h => ?_)
      · rw [hpc]; rfl
      · rw [hpc] at h; exact h.elim
    · rename_i e
      refine I'.goto (fun j => ?_) (fun j hj => hj.elim) trivial (.inl rfl) (fun h => ?_)
      · rw [hpc]; cases o with
        | none => exact absurd rfl e
        | some h => exact Iff.rfl
      · rw [hpc] at h; exact h.elim
  | del t i ht =>
    have hcl : (s.pc t).closing i := by rw [ht]; rfl
    have h0 : s.count i = 0 := by
      by_contra hne
      have := I.alive i t (by omega) hcl
      rw [ht] at this; exact this
    exact I.free hcl h0 rfl rfl (fun j hj => by rw [ht] at hj; exact hj.symm)

theorem Reach.inv {c : Cls} {R : Rules} (hR1 : R.assignLoop = false) (hR2 : c = .ann → R.overlapDetach = false) {s : State} (h : Reach c R s) :
    Inv c s := by
  induction h with
  | init => exact inv_init c
  | step _ hs ih => exact ih.step hR1 hR2 hs

end Verif.Annot.Ref
