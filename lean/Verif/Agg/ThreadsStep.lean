import Verif.Agg.ThreadsInv
/-!
# One step keeps the invariants
-/
namespace Verif.AggThreads
variable {R : Type}

theorem Inv.curIn {s : State R} {L : List Nat} (I : Inv s L) {c : Nat} (h : c ∈ L) : ∃ t, s.heap c = some t := I.seg.some_of_mem c h

theorem loop_ok {h : Nat → Option (TDB R)} {L : List Nat} {o : Option Nat} (ho : ∀ e, o = some e → e ∈ L) {f : Nat → PC R} (hf : ∀ c, PcOK h L (f c) ↔ c ∈ L) :
    PcOK h L (PC.loop f o) := by
  cases o with
  | none => trivial
  | some e => exact (hf e).2 (ho e rfl)

/-- thread exit -/
theorem release_step {s : State R} {L : List Nat} {F : List (Nat × R)} (I : Inv s L) (A : Acc s L F) {th : Nat} (hg : s.gone th = false) (hi : s.pc th = .idle) :
    Inv (s.call th .release) L ∧ Acc (s.call th .release) L F := by
  cases hsl : s.slot th with
  | none =>
    have e : s.call th .release = { s with gone := upd s.gone th true } := by simp [State.call, hsl]
    rw [e]
    refine ⟨⟨I.nodup, I.seg, I.fresh, ?_, I.uniq, I.usesLt, I.pcs, I.solo, ?_, I.good⟩, A.stored, A.carries, A.started⟩
    · intro th' d hg' hu
      have hne : th' ≠ th := by rintro rfl; simp [upd_same] at hg'
      simp only [upd_ne _ _ hne] at hg'
      exact I.usesOK th' d hg' hu
    · intro th' hg'
      by_cases h : th' = th
      · subst h; exact hi
      · simp only [upd_ne _ _ h] at hg'
        exact I.gone th' hg'
  | some d =>
    obtain ⟨t, h1, h2, h3⟩ := I.usesOK th d hg (.inl hsl)
    have hd : d ∈ L := by
      rcases h3 with h3 | ⟨k, h3⟩
      · exact h3
      · rw [hi] at h3; cases h3
    have e : s.call th .release = { s with heap := upd s.heap d (some { t with retired := true }), gone := upd s.gone th true } := by
      simp [State.call, hsl, State.deref, h1, State.put]
    rw [e]
    have hk : ∀ e te, e ≠ d → s.heap e = some te → upd s.heap d (some { t with retired := true }) e = some te := fun e te he h => by rw [upd_ne _ _ he, h]
    refine ⟨⟨I.nodup, ?_, ?_, ?_, I.uniq, I.usesLt, ?_, I.solo, ?_, I.good⟩, ?_, A.carries, A.started⟩
    · refine I.seg.congr ?_
      intro e _ te hte
      by_cases he : e = d
      · subst he; rw [h1] at hte; cases hte
        exact ⟨_, upd_same .., rfl, rfl⟩
      · exact ⟨te, hk e te he hte, rfl, rfl⟩
    · intro e he
      have := I.fresh e he
      show upd s.heap d _ e = none
      rw [upd_ne _ _ (by rintro rfl; rw [h1] at this; cases this)]
      exact this
    · intro th' e hg' hu
      have hne : th' ≠ th := by rintro rfl; simp [upd_same] at hg'
      simp only [upd_ne _ _ hne] at hg'
      obtain ⟨te, f1, f2, f3⟩ := I.usesOK th' e hg' hu
      have hed : e ≠ d := by rintro rfl; exact hne (I.uniq _ _ _ hu (.inl hsl))
      exact ⟨te, hk e te hed f1, f2, f3⟩
    · intro th'
      have hx := I.pcs th'
      show PcOK (upd s.heap d _) L (s.pc th')
      cases hq : s.pc th' <;> rw [hq] at hx <;> simp only [PcOK] at hx ⊢
      all_goals try exact hx
      · obtain ⟨a1, ta, a2, a3⟩ := hx
        exact ⟨a1, ta, hk _ _ (by rintro rfl; exact a1 hd) a2, a3⟩
      · rename_i c tmp
        obtain ⟨a1, ta, a2, a3, a4⟩ := hx
        refine ⟨a1, ?_⟩
        by_cases he : c = d
        · subst he
          rw [h1] at a2; cases a2
          exact ⟨_, upd_same .., rfl, a4⟩
        · exact ⟨ta, hk _ _ he a2, a3, a4⟩
      · obtain ⟨a1, ⟨ta, a2, a3⟩, a4⟩ := hx
        exact ⟨a1, ⟨ta, hk _ _ (by rintro rfl; exact a1 hd) a2, a3⟩, a4⟩
    · intro th' hg'
      by_cases h : th' = th
      · subst h; exact hi
      · simp only [upd_ne _ _ h] at hg'
        exact I.gone th' hg'
    · show s.taken.Perm (s.cleared ++ L.flatMap (recsOf (upd s.heap d _)))
      rw [flatMap_same (f := recsOf s.heap)]
      · exact A.stored
      · intro e _
        by_cases he : e = d
        · subst he; rw [recsOf_upd_self, recsOf_some h1]
        · exact recsOf_upd_ne _ _ he

theorem start_perm {st tk dr : List R} {F F' : List (Nat × R)} {th : Nat} {r : R} (h : st.Perm (tk ++ dr ++ F.map Prod.snd)) (hF : F.Perm ((th, r) :: F')) :
    st.Perm ((tk ++ [r]) ++ dr ++ F'.map Prod.snd) ∧ st.Perm (tk ++ (dr ++ [r]) ++ F'.map Prod.snd) := by
  classical
  have := h.trans ((hF.map Prod.snd).append_left _)
  rw [List.perm_iff_count] at this
  constructor <;>
  · rw [List.perm_iff_count]
    intro x
    have := this x
    simp only [List.map_cons, List.count_append, List.count_cons, List.count_nil] at this ⊢
    omega

/-- the first step of a call -/
theorem call_step {s : State R} {L : List Nat} {F : List (Nat × R)} (I : Inv s L) (A : Acc s L F) {th : Nat} {a : Act R} (hg : s.gone th = false) (hi : s.pc th = .idle)
    (hm : (match a with | .flush | .clear => True | _ => False) → ∀ th', (s.pc th').maint = false) :
    ∃ F', Inv (s.call th a) L ∧ Acc (s.call th a) L F' := by
  have hnl : ∀ d k, s.pc th ≠ .link d k := by intro d k; rw [hi]; simp
  have hsnoc : ∀ r : R, (s.started ++ [r]).Perm (s.taken ++ s.dropped ++ ((th, r) :: F).map Prod.snd) := by
    intro r
    classical
    have := A.started
    rw [List.perm_iff_count] at this ⊢
    intro x
    have := this x
    simp only [List.map_cons, List.count_append, List.count_cons, List.count_nil] at this ⊢
    omega
  cases a with
  | snapshot r sig ok =>
    simp only [State.call]
    cases hsl : s.slot th with
    | some d =>
      simp only
      obtain ⟨t, h1, h2, h3⟩ := I.usesOK th d hg (.inl hsl)
      have hd : d ∈ L := by
        rcases h3 with h3 | ⟨k, h3⟩
        · exact h3
        · rw [hi] at h3; cases h3
      refine ⟨(th, r) :: F, id_step I A (p := .check d r) hg hnl (by rfl) (by rfl) (by rfl) (by rfl) (by rfl) (by rfl) (by rfl) ?_ trivial (by simp [PC.maint]) (A.carries.add (by rw [hi]; rfl) rfl) (hsnoc r) rfl rfl⟩
      intro e he
      cases he
      exact ⟨.inl hsl, hd⟩
    | none =>
      simp only
      cases sig with
      | true =>
        simp only [if_true]
        have e : ({ s with started := s.started ++ [r], dropped := s.dropped ++ [r] } : State R) =
            State.goto { s with started := s.started ++ [r], dropped := s.dropped ++ [r] } th .idle := by
          simp only [State.goto]
          congr 1
          funext j
          unfold upd
          split
          · rename_i h; rw [h, hi]
          · rfl
        refine ⟨F, ?_⟩
        rw [e]
        refine id_step I A (p := .idle) hg hnl (by rfl) (by rfl) (by rfl) (by rfl) (by rfl) (by rfl) (by rfl) (by simp [PC.use]) trivial (by simp [PC.maint]) (A.carries.same (by rw [hi])) ?_ rfl rfl
        have := A.started
        classical
        rw [List.perm_iff_count] at this ⊢
        intro x
        have := this x
        simp only [State.goto, List.count_append] at this ⊢
        omega
      | false =>
        simp only [Bool.false_eq_true, if_false]
        exact ⟨(th, r) :: F, alloc_step I A ok (some r) hg hi hsl (A.carries.add (by rw [hi]; rfl) rfl) (hsnoc r)⟩
  | create ok =>
    simp only [State.call]
    cases hsl : s.slot th with
    | some d => exact ⟨F, I, A⟩
    | none => exact ⟨F, alloc_step (st := s.started) I A ok none hg hi hsl (A.carries.same (by rw [hi]; rfl)) A.started⟩
  | release => exact ⟨F, release_step I A hg hi⟩
  | flush =>
    refine ⟨F, id_step I A (p := PC.loop .fStop s.head) hg hnl (by rfl) (by rfl) (by rfl) (by rfl) (by rfl) (by rfl) (by rfl) ?_ (loop_ok ?_ fun _ => Iff.rfl) (fun _ => .inr (hm trivial)) ?_ A.started rfl rfl⟩
    · intro d; cases s.head <;> simp [PC.loop, PC.use]
    · intro e he
      have := I.seg.cur_eq
      rw [he] at this
      exact List.mem_of_mem_head? this.symm
    · refine A.carries.same ?_
      rw [hi]; cases s.head <;> rfl
  | clear =>
    refine ⟨F, id_step I A (p := PC.loop .cStop s.head) hg hnl (by rfl) (by rfl) (by rfl) (by rfl) (by rfl) (by rfl) (by rfl) ?_ (loop_ok ?_ fun _ => Iff.rfl) (fun _ => .inr (hm trivial)) ?_ A.started rfl rfl⟩
    · intro d; cases s.head <;> simp [PC.loop, PC.use]
    · intro e he
      have := I.seg.cur_eq
      rw [he] at this
      exact List.mem_of_mem_head? this.symm
    · refine A.carries.same ?_
      rw [hi]; cases s.head <;> rfl
  | go => exact ⟨F, I, A⟩

/-- a step inside a call -/
theorem cont_step {s : State R} {L : List Nat} {F : List (Nat × R)} (I : Inv s L) (A : Acc s L F) {th : Nat} (hg : s.gone th = false) {p : PC R} (hp : s.pc th = p) :
    ∃ L' F', Inv (s.cont th p) L' ∧ Acc (s.cont th p) L' F' := by
  have hok := I.pcs th
  rw [hp] at hok
  have useIn : ∀ d r, p = .check d r ∨ p = .proc d r → d ∈ L ∧ ∃ t, s.heap d = some t ∧ t.retired = false := by
    intro d r h
    obtain ⟨t, h1, h2, h3⟩ := I.usesOK th d hg (.inr (by rw [hp]; rcases h with rfl | rfl <;> rfl))
    rcases h3 with h3 | ⟨k, h3⟩
    · exact ⟨h3, t, h1, h2⟩
    · rw [hp] at h3; rcases h with rfl | rfl <;> cases h3
  have mm : ∀ q : PC R, p.maint = true → (q.maint = true → (s.pc th).maint = true ∨ ∀ th', (s.pc th').maint = false) := by
    intro q h _; left; rw [hp]; exact h
  cases p with
  | idle => exact ⟨L, F, I, A⟩
  | link d k =>
    refine ⟨d :: L, F, ?_⟩
    simp only [State.cont]
    cases k with
    | none => exact link_step I A hg hp (by simp [PC.use]) trivial rfl (by simp) (by simp) (by simp) rfl
    | some r => exact link_step I A hg hp (by simp [PC.use]) trivial rfl (by simp) (by simp) (by simp) rfl
  | check d r =>
    obtain ⟨hd, t, ht, _⟩ := useIn d r (.inl rfl)
    simp only [State.cont, deref_some ht]
    have hnl : ∀ d k, s.pc th ≠ .link d k := by intro d k; rw [hp]; simp
    split
    · obtain ⟨F', f1, f2⟩ := A.carries.remove (th := th) (p := .idle) (r := r) (by rw [hp]; rfl) rfl
      exact ⟨L, F', id_step I A (p := .idle) hg hnl (by rfl) (by rfl) (by rfl) (by rfl) (by rfl) (by rfl) (by rfl) (by simp [PC.use]) trivial (by simp [PC.maint]) f2
        (start_perm A.started f1).2 rfl rfl⟩
    · refine ⟨L, F, id_step I A (p := .proc d r) hg hnl (by rfl) (by rfl) (by rfl) (by rfl) (by rfl) (by rfl) (by rfl) ?_ trivial (by simp [PC.maint]) (A.carries.same (by rw [hp]; rfl)) A.started rfl rfl⟩
      intro e he
      cases he
      exact ⟨.inr (by rw [hp]; rfl), hd⟩
  | proc d r =>
    obtain ⟨hd, t, ht, _⟩ := useIn d r (.inr rfl)
    simp only [State.cont, deref_some ht]
    have hnl : ∀ d k, s.pc th ≠ .link d k := by intro d k; rw [hp]; simp
    obtain ⟨F', f1, f2⟩ := A.carries.remove (th := th) (p := .idle) (r := r) (by rw [hp]; rfl) rfl
    refine ⟨L, F', put_step I A (p := .idle) (t' := { t with recs := t.recs ++ [r] }) hg hd ht rfl rfl rfl hnl (by rfl) (by rfl) (by rfl) (by rfl) (by rfl) (by rfl) (by rfl)
      (by simp [PC.use]) trivial (by simp [PC.maint]) f2 (start_perm A.started f1).1 ?_⟩
    intro X hX
    simp only [State.goto]
    classical
    rw [List.perm_iff_count] at hX ⊢
    intro x
    have := hX x
    simp only [State.put, List.count_append] at this ⊢
    omega
  | fStop c =>
    obtain ⟨t, ht⟩ := I.curIn hok
    simp only [State.cont, deref_some ht]
    exact ⟨L, F, put_step I A (p := .fWork c) (t' := { t with stopped := true }) hg hok ht rfl rfl rfl (by rw [hp]; simp) (by rfl) (by rfl) (by rfl) (by rfl) (by rfl) (by rfl) (by rfl)
      (by simp [PC.use]) hok (mm _ rfl) (A.carries.same (by rw [hp]; rfl)) A.started (fun X h => h)⟩
  | fWork c =>
    obtain ⟨t, ht⟩ := I.curIn hok
    simp only [State.cont, deref_some ht]
    exact ⟨L, F, id_step I A (p := .fStart c) hg (by rw [hp]; simp) (by rfl) (by rfl) (by rfl) (by rfl) (by rfl) (by rfl) (by rfl) (by simp [PC.use]) hok (mm _ rfl)
      (A.carries.same (by rw [hp]; rfl)) A.started rfl rfl⟩
  | fStart c =>
    obtain ⟨t, ht⟩ := I.curIn hok
    simp only [State.cont, deref_some ht]
    exact ⟨L, F, put_step I A (p := .fNext c) (t' := { t with stopped := false }) hg hok ht rfl rfl rfl (by rw [hp]; simp) (by rfl) (by rfl) (by rfl) (by rfl) (by rfl) (by rfl) (by rfl)
      (by simp [PC.use]) hok (mm _ rfl) (A.carries.same (by rw [hp]; rfl)) A.started (fun X h => h)⟩
  | fNext c =>
    obtain ⟨t, ht⟩ := I.curIn hok
    simp only [State.cont, deref_some ht]
    refine ⟨L, F, id_step I A (p := PC.loop .fStop t.next) hg (by rw [hp]; simp) (by rfl) (by rfl) (by rfl) (by rfl) (by rfl) (by rfl) (by rfl) ?_ (loop_ok ?_ fun _ => Iff.rfl) (mm _ rfl) ?_ A.started rfl rfl⟩
    · intro d; cases t.next <;> simp [PC.loop, PC.use]
    · intro e he; exact I.seg.next_mem hok ht he
    · refine A.carries.same ?_
      rw [hp]; cases t.next <;> rfl
  | cStop c =>
    obtain ⟨t, ht⟩ := I.curIn hok
    simp only [State.cont, deref_some ht]
    exact ⟨L, F, put_step I A (p := .cWork c) (t' := { t with stopped := true }) hg hok ht rfl rfl rfl (by rw [hp]; simp) (by rfl) (by rfl) (by rfl) (by rfl) (by rfl) (by rfl) (by rfl)
      (by simp [PC.use]) hok (mm _ rfl) (A.carries.same (by rw [hp]; rfl)) A.started (fun X h => h)⟩
  | cWork c =>
    obtain ⟨t, ht⟩ := I.curIn hok
    simp only [State.cont, deref_some ht]
    refine ⟨L, F, put_step I A (p := .cStart c) (t' := { t with recs := [] }) hg hok ht rfl rfl rfl (by rw [hp]; simp) (by rfl) (by rfl) (by rfl) (by rfl) (by rfl) (by rfl) (by rfl)
      (by simp [PC.use]) hok (mm _ rfl) (A.carries.same (by rw [hp]; rfl)) A.started ?_⟩
    intro X h
    simpa only [State.goto, State.put, List.nil_append, List.append_assoc] using h
  | cStart c =>
    obtain ⟨t, ht⟩ := I.curIn hok
    simp only [State.cont, deref_some ht]
    exact ⟨L, F, put_step I A (p := .cRet c) (t' := { t with stopped := false }) hg hok ht rfl rfl rfl (by rw [hp]; simp) (by rfl) (by rfl) (by rfl) (by rfl) (by rfl) (by rfl) (by rfl)
      (by simp [PC.use]) hok (mm _ rfl) (A.carries.same (by rw [hp]; rfl)) A.started (fun X h => h)⟩
  | cRet c =>
    obtain ⟨t, ht⟩ := I.curIn hok
    simp only [State.cont, deref_some ht]
    split
    · rename_i hr
      exact ⟨L, F, id_step I A (p := .cUnlink c t.next) hg (by rw [hp]; simp) (by rfl) (by rfl) (by rfl) (by rfl) (by rfl) (by rfl) (by rfl) (by simp [PC.use]) ⟨hok, t, ht, hr, rfl⟩ (mm _ rfl)
        (A.carries.same (by rw [hp]; rfl)) A.started rfl rfl⟩
    · refine ⟨L, F, id_step I A (p := PC.loop .cStop t.next) hg (by rw [hp]; simp) (by rfl) (by rfl) (by rfl) (by rfl) (by rfl) (by rfl) (by rfl) ?_ (loop_ok ?_ fun _ => Iff.rfl) (mm _ rfl) ?_ A.started rfl rfl⟩
      · intro d; cases t.next <;> simp [PC.loop, PC.use]
      · intro e he; exact I.seg.next_mem hok ht he
      · refine A.carries.same ?_
        rw [hp]; cases t.next <;> rfl
  | cUnlink c tmp =>
    simp only [State.cont]
    obtain ⟨hc, _⟩ := hok
    obtain ⟨A', B, rfl⟩ := List.append_of_mem hc
    obtain ⟨h1, h2, _⟩ := unlink_step I A hg hp
    exact ⟨_, F, h1, h2⟩
  | cDel c tmp =>
    obtain ⟨_, ⟨t, ht, _⟩, _⟩ := hok
    simp only [State.cont, deref_some ht]
    exact ⟨L, F, delete_step I A hg hp⟩

theorem step_inv {s : State R} {L : List Nat} {F : List (Nat × R)} (I : Inv s L) (A : Acc s L F) (th : Nat) (a : Act R)
    (hm : (match a with | .flush | .clear => True | _ => False) → ∀ th', (s.pc th').maint = false) :
    ∃ L' F', Inv (s.step th a) L' ∧ Acc (s.step th a) L' F' := by
  unfold State.step
  split
  · exact ⟨L, F, I, A⟩
  · rename_i hg
    have hg : s.gone th = false := by simpa using hg
    split
    · rename_i hi
      obtain ⟨F', h⟩ := call_step I A hg hi hm
      exact ⟨L, F', h⟩
    · rename_i hp
      exact cont_step I A hg rfl

theorem run_inv {s : State R} {L : List Nat} {F : List (Nat × R)} (I : Inv s L) (A : Acc s L F) (l : List (Nat × Act R)) (hs : Solo s l) :
    ∃ L' F', Inv (s.run l) L' ∧ Acc (s.run l) L' F' := by
  induction l generalizing s L F with
  | nil => exact ⟨L, F, I, A⟩
  | cons x l ih =>
    obtain ⟨th, a⟩ := x
    obtain ⟨L', F', I', A'⟩ := step_inv I A th a hs.1
    exact ih I' A' hs.2

theorem Acc.init : Acc (State.init R) [] [] :=
  ⟨by simp [State.init], ⟨by simp, by simp [State.init, PC.carry]⟩, by simp [State.init]⟩

theorem Reach.inv {s : State R} (h : Reach s) : ∃ L F, Inv s L ∧ Acc s L F := by
  obtain ⟨l, h1, rfl⟩ := h
  exact run_inv Inv.init Acc.init l h1

end Verif.AggThreads
