import Verif.Annot.RefLemmas
namespace Verif.Annot.Ref

/-- invariant of `Loop::end()` without overlapping calls -/
structure EInv (s : State) : Prop where
  bal : ∀ i, i < s.next → (∀ t o, s.pc t ≠ .dec o i) → ((s.heap i).ended : Int) + (s.heap i).level = 1 ∧ 0 ≤ (s.heap i).level
  atDec : ∀ t o i, s.pc t = .dec o i → (s.heap i).ended = 1 ∧ (s.heap i).level = 1
  atCall : ∀ t o i, s.pc t = .call o i → (s.heap i).ended = 0 ∧ (s.heap i).level = 1
  atDel : ∀ t i, s.pc t = .del i → (s.heap i).ended = 1
  freed : ∀ i, 0 < (s.heap i).freed → (s.heap i).ended = 1
  one : ∀ i t u, (s.pc t).inEnd i → (s.pc u).inEnd i → t = u

theorem einv_init : EInv init := by
  refine ⟨?_, ?_, ?_, ?_, ?_, ?_⟩ <;> simp [init, Pc.inEnd]

theorem pc_goto (s : State) (t : Nat) (p : Pc) (u : Nat) : (s.goto t p).pc u = if u = t then p else s.pc u := rfl

/-- counters for ended loops and levels unchanged, a thread leaves `end()` or stays outside -/
theorem EInv.same {s s' : State} (I : EInv s) (h1 : ∀ i, (s'.heap i).ended = (s.heap i).ended ∧ (s'.heap i).level = (s.heap i).level)
    (hn : s'.next = s.next) {t : Nat} {p : Pc} (hp : s'.pc = upd s.pc t p) (h2 : ∀ o i, s.pc t ≠ .dec o i)
    (h3 : ∀ o i, p ≠ .dec o i) (h4 : ∀ o i, p = .call o i → (s.heap i).ended = 0 ∧ (s.heap i).level = 1)
    (h5 : ∀ i, p = .del i → (s.heap i).ended = 1) (h6 : ∀ i, 0 < (s'.heap i).freed → (s.heap i).ended = 1)
    (h7 : ∀ i u, p.inEnd i → (s.pc u).inEnd i → u = t) : EInv s' := by
  have hpc : ∀ u, s'.pc u = if u = t then p else s.pc u := by intro u; rw [hp]; rfl
  refine ⟨?_, ?_, ?_, ?_, ?_, ?_⟩
  · intro i hi hd
    rw [(h1 i).1, (h1 i).2]
    refine I.bal i (by omega) (fun u o hu => ?_)
    by_cases e : u = t
    · subst e; exact h2 o i hu
    · exact hd u o (by rw [hpc, if_neg e]; exact hu)
  · intro u o i hu
    rw [(h1 i).1, (h1 i).2]
    rw [hpc] at hu
    split at hu
    · exact absurd hu (h3 o i)
    · exact I.atDec u o i hu
  · intro u o i hu
    rw [(h1 i).1, (h1 i).2]
    rw [hpc] at hu
    split at hu
    · exact h4 o i hu
    · exact I.atCall u o i hu
  · intro u i hu
    rw [(h1 i).1]
    rw [hpc] at hu
    split at hu
    · exact h5 i hu
    · exact I.atDel u i hu
  · intro i hi
    rw [(h1 i).1]
    exact h6 i hi
  · intro i u v hu hv
    rw [hpc] at hu hv
    split at hu <;> split at hv
    · simp_all
    · rename_i e1 e2; exact absurd (h7 i v hu hv) e2
    · rename_i e1 e2; exact absurd (h7 i u hv hu) e1
    · exact I.one i u v hu hv

theorem upd_self {β : Type} (f : Nat → β) (t : Nat) : upd f t (f t) = f := by
  funext u; unfold upd; split
  · rename_i e; subst e; rfl
  · rfl

theorem EInv.step {R : Rules} (hR1 : R.assignLoop = false) (hR2 : R.overlapEnd = false) {s s' : State} (V : Inv .loop s) (I : EInv s)
    (h : Step .loop R s s') : EInv s' := by
  cases h with
  | new t h ht hn _ =>
    have hpcs : ∀ u, (∀ o, s.pc u ≠ .dec o s.next) ∧ (∀ o, s.pc u ≠ .call o s.next) ∧ s.pc u ≠ .del s.next := by
      intro u
      refine ⟨fun o hu => ?_, fun o hu => ?_, fun hu => ?_⟩
      · have := V.pcs u s.next (.inr (by rw [hu]; rfl)); omega
      · have := V.pcs u s.next (.inr (by rw [hu]; rfl)); omega
      · have := V.pcs u s.next (.inl (by rw [hu]; rfl)); omega
    refine ⟨?_, ?_, ?_, ?_, ?_, I.one⟩
    · intro i hi hd
      simp only [upd]
      split
      · simp
      · exact I.bal i (by simp only at hi; omega) hd
    · intro u o i hu
      simp only [upd]
      split
      · rename_i e; subst e; exact absurd hu ((hpcs u).1 o)
      · exact I.atDec u o i hu
    · intro u o i hu
      simp only [upd]
      split
      · rename_i e; subst e; exact absurd hu ((hpcs u).2.1 o)
      · exact I.atCall u o i hu
    · intro u i hu
      simp only [upd]
      split
      · rename_i e; subst e; exact absurd hu (hpcs u).2.2
      · exact I.atDel u i hu
    · intro i hi
      simp only [upd] at hi ⊢
      split
      · rename_i e; simp [e] at hi
      · rename_i e; exact I.freed i (by simpa [e] using hi)
  | copy t h g i ht hi hg _ =>
    refine I.same (t := t) (p := s.pc t) ?_ rfl (upd_self _ _).symm (by simp [ht]) (by simp [ht]) (by simp [ht]) (by simp [ht]) ?_ (by simp [ht, Pc.inEnd])
    · intro j; simp only [State.attach, State.mod, upd]; split
      · rename_i e; subst e; exact ⟨rfl, rfl⟩
      · exact ⟨rfl, rfl⟩
    · intro j hj
      refine I.freed j ?_
      simp only [State.attach, State.mod, upd] at hj
      split at hj
      · rename_i e; subst e; exact hj
      · exact hj
  | dropLoop t h i hc ht hi hu =>
    refine I.same (t := t) (p := if (s.heap i).ref - 1 = 0 then .chk none i else .idle) ?_ rfl rfl (by simp [ht]) ?_ ?_ ?_ ?_ ?_
    · intro j; simp only [State.release, State.goto, State.mod, upd]; split
      · rename_i e; subst e; exact ⟨rfl, rfl⟩
      · exact ⟨rfl, rfl⟩
    · intro o j; split <;> simp
    · intro o j; split <;> simp
    · intro j; split <;> simp
    · intro j hj
      refine I.freed j ?_
      simp only [State.release, State.goto, State.mod, upd] at hj
      split at hj
      · rename_i e; subst e; exact hj
      · exact hj
    · intro j u hj hh
      split at hj
      swap
      · exact hj.elim
      rename_i hr
      have hj : i = j := hj
      subst hj
      exfalso
      have href := V.ref i (V.alloc _ hi)
      have h1 : s.count i = 1 := by omega
      -- another thread in end() has its own handle
      have hcl : ¬ (s.pc u).closing i := by
        intro hh
        have h1 := V.alive i u (count_pos hi) hh
        rcases V.cls u with h2 | h2
        · rw [h2] at hh; exact hh
        · exact absurd (h2.1 h1) (by simp)
      have two : ∀ g, (g, i) ∈ s.hs → g ≠ h → False := by
        intro g hg hne
        have : (g, i) ∈ s.hs.erase (h, i) := (List.mem_erase_of_ne (by rintro ⟨⟩; exact hne rfl)).2 hg
        have h2 := (List.perm_cons_erase hi).countP_eq (fun e => decide (e.2 = i))
        rw [List.countP_cons] at h2
        have h3 : 0 < (s.hs.erase (h, i)).countP (fun e => decide (e.2 = i)) := List.countP_pos_iff.2 ⟨_, this, by simp⟩
        rw [count_eq] at h1
        simp only [decide_true, if_true] at h2
        omega
      have hheld := V.held u
      have huse := hu u
      cases hpu : s.pc u with
      | idle => rw [hpu] at hh; exact hh
      | del j => rw [hpu] at hh; exact hh
      | test j k => rw [hpu] at hh; exact hh
      | chk o j =>
        rw [hpu] at hh hheld huse hcl
        have hh : j = i := hh
        subst hh
        cases o with
        | none => exact hcl rfl
        | some g => exact two g hheld (by rintro rfl; exact huse rfl)
      | call o j =>
        rw [hpu] at hh hheld huse hcl
        have hh : j = i := hh
        subst hh
        cases o with
        | none => exact hcl rfl
        | some g => exact two g hheld (by rintro rfl; exact huse rfl)
      | dec o j =>
        rw [hpu] at hh hheld huse hcl
        have hh : j = i := hh
        subst hh
        cases o with
        | none => exact hcl rfl
        | some g => exact two g hheld (by rintro rfl; exact huse rfl)
  | dropAnn t h i hc => cases hc
  | assignAnn t h i g j hc => cases hc
  | test t i k ht =>
    rcases V.cls t with h2 | h2
    · rw [ht] at h2; cases h2
    · rw [ht] at h2; exact absurd (h2.1 trivial) (by simp)
  | assignLoop t h i g j hc hr => rw [hR1] at hr; cases hr
  | callEnd t h i hc ht hi ho =>
    refine I.same (t := t) (p := .chk (some h) i) (fun j => ⟨rfl, rfl⟩) rfl rfl (by simp [ht]) (by simp) (by simp) (by simp) I.freed ?_
    intro j u hj hh
    have hj : i = j := hj
    subst hj
    exact absurd hh (ho hR2 u)
  | chk t i o ht =>
    have hin : (s.pc t).inEnd i := by rw [ht]; rfl
    have hlt : i < s.next := V.pcs t i (.inr hin)
    have hb := I.bal i hlt (by
      intro u o' hu
      have := I.one i t u hin (by rw [hu]; rfl)
      subst this
      rw [ht] at hu; cases hu)
    refine I.same (t := t) (p := if (s.heap i).level > 0 then .call o i else if o = none then .del i else .idle) ?_ rfl rfl (by simp [ht]) ?_ ?_ ?_ ?_ ?_
    · intro j; simp only [State.goto, State.mod, upd]; split
      · rename_i e; subst e; exact ⟨rfl, rfl⟩
      · exact ⟨rfl, rfl⟩
    · intro o' j; repeat' split
      all_goals simp
    · intro o' j hj
      split at hj
      · cases hj; omega
      · split at hj <;> cases hj
    · intro j hj
      split at hj
      · cases hj
      · split at hj
        · cases hj; omega
        · cases hj
    · intro j hj
      refine I.freed j ?_
      simp only [State.goto, State.mod, upd] at hj
      split at hj
      · rename_i e; subst e; exact hj
      · exact hj
    · intro j u hj hh
      split at hj
      · have hj : i = j := hj
        subst hj
        exact I.one i u t hh hin
      · split at hj <;> exact hj.elim
  | call t i o ht =>
    have hin : (s.pc t).inEnd i := by rw [ht]; rfl
    have hlt : i < s.next := V.pcs t i (.inr hin)
    obtain ⟨c1, c2⟩ := I.atCall t o i ht
    have hpc : ∀ u, (upd s.pc t (.dec o i)) u = if u = t then .dec o i else s.pc u := fun u => rfl
    have hoth : ∀ u, u ≠ t → ¬ (s.pc u).inEnd i := fun u hu hh => hu (I.one i u t hh hin)
    refine ⟨?_, ?_, ?_, ?_, ?_, ?_⟩
    · intro j hj hd
      simp only [upd]
      split
      · rename_i e; subst e
        exact absurd (show upd s.pc t (.dec o j) t = .dec o j by simp [upd]) (hd t o)
      · refine I.bal j hj (fun u o' hu => ?_)
        by_cases e : u = t
        · subst e; rw [ht] at hu; cases hu
        · exact hd u o' (by show upd s.pc t (.dec o i) u = _; rw [hpc, if_neg e]; exact hu)
    · intro u o' j hu
      simp only at hu ⊢
      rw [hpc] at hu
      split at hu
      · cases hu; simp [upd, c1, c2]
      · rename_i e
        have : j ≠ i := by rintro rfl; exact hoth u e (by rw [hu]; rfl)
        simp only [upd, this, if_false]
        exact I.atDec u o' j hu
    · intro u o' j hu
      simp only at hu ⊢
      rw [hpc] at hu
      split at hu
      · cases hu
      · rename_i e
        have : j ≠ i := by rintro rfl; exact hoth u e (by rw [hu]; rfl)
        simp only [upd, this, if_false]
        exact I.atCall u o' j hu
    · intro u j hu
      simp only at hu ⊢
      rw [hpc] at hu
      split at hu
      · cases hu
      · have := I.atDel u j hu
        by_cases e : j = i
        · subst e; omega
        · simpa [upd, e] using this
    · intro j hj
      by_cases e : j = i
      · subst e; simp [upd, c1]
      · simp only [upd, e, if_false] at hj ⊢
        exact I.freed j hj
    · intro j u v hu hv
      simp only at hu hv
      rw [hpc] at hu hv
      split at hu <;> split at hv
      · simp_all
      · rename_i e1 e2
        have hu : i = j := hu
        subst hu; exact absurd hv (hoth v e2)
      · rename_i e1 e2
        have hv : i = j := hv
        subst hv; exact absurd hu (hoth u e1)
      · exact I.one j u v hu hv
  | dec t i o ht =>
    have hin : (s.pc t).inEnd i := by rw [ht]; rfl
    obtain ⟨c1, c2⟩ := I.atDec t o i ht
    have hoth : ∀ u, u ≠ t → ¬ (s.pc u).inEnd i := fun u hu hh => hu (I.one i u t hh hin)
    generalize hp : (if o = none then Pc.del i else Pc.idle) = p
    have hpc : ∀ u, (upd s.pc t p) u = if u = t then p else s.pc u := fun u => rfl
    have p1 : ∀ o' j, p ≠ .dec o' j ∧ p ≠ .call o' j ∧ ¬ p.inEnd j := by
      intro o' j; subst hp; split <;> simp [Pc.inEnd]
    have p2 : ∀ j, p = .del j → j = i := by
      intro j hj; subst hp; split at hj <;> simp_all
    refine ⟨?_, ?_, ?_, ?_, ?_, ?_⟩
    · intro j hj hd
      simp only [State.goto, State.mod, upd]
      split
      · rename_i e; subst e; simp [c1, c2]
      · rename_i e
        refine I.bal j hj (fun u o' hu => ?_)
        by_cases e' : u = t
        · subst e'; rw [ht] at hu; cases hu; exact e rfl
        · exact hd u o' (by show upd s.pc t p u = _; rw [hpc, if_neg e']; exact hu)
    · intro u o' j hu
      replace hu : upd s.pc t p u = .dec o' j := hu
      rw [hpc] at hu
      split at hu
      · exact absurd hu (p1 o' j).1
      · rename_i e
        have : j ≠ i := by rintro rfl; exact hoth u e (by rw [hu]; rfl)
        simp only [State.goto, State.mod, upd, this, if_false]
        exact I.atDec u o' j hu
    · intro u o' j hu
      replace hu : upd s.pc t p u = .call o' j := hu
      rw [hpc] at hu
      split at hu
      · exact absurd hu (p1 o' j).2.1
      · rename_i e
        have : j ≠ i := by rintro rfl; exact hoth u e (by rw [hu]; rfl)
        simp only [State.goto, State.mod, upd, this, if_false]
        exact I.atCall u o' j hu
    · intro u j hu
      have hu : upd s.pc t p u = .del j := hu
      rw [hpc] at hu
      have key : (s.heap j).ended = 1 := by
        split at hu
        · rw [p2 j hu]; exact c1
        · exact I.atDel u j hu
      simp only [State.goto, State.mod, upd]
      split
      · rename_i e; subst e; exact key
      · exact key
    · intro j hj
      simp only [State.goto, State.mod, upd] at hj ⊢
      by_cases e : j = i
      · subst e; simpa using c1
      · simp only [e, if_false] at hj ⊢
        exact I.freed j hj
    · intro j u v hu hv
      have hu : (upd s.pc t p u).inEnd j := hu
      have hv : (upd s.pc t p v).inEnd j := hv
      rw [hpc] at hu hv
      split at hu
      · exact absurd hu (p1 none j).2.2
      · split at hv
        · exact absurd hv (p1 none j).2.2
        · exact I.one j u v hu hv
  | del t i ht =>
    have hd := I.atDel t i ht
    refine I.same (t := t) (p := .idle) ?_ rfl rfl (by simp [ht]) (by simp) (by simp) (by simp) ?_ (by simp [Pc.inEnd])
    · intro j; simp only [State.goto, State.mod, upd]; split
      · rename_i e; subst e; exact ⟨rfl, rfl⟩
      · exact ⟨rfl, rfl⟩
    · intro j hj
      by_cases e : j = i
      · subst e; exact hd
      · simp only [State.goto, State.mod, upd, e, if_false] at hj
        exact I.freed j hj

theorem Reach.einv {R : Rules} (hR1 : R.assignLoop = false) (hR2 : R.overlapEnd = false) {s : State} (h : Reach .loop R s) : EInv s := by
  induction h with
  | init => exact einv_init
  | step hr hs ih => exact ih.step hR1 hR2 (hr.inv hR1 (by simp)) hs

end Verif.Annot.Ref
