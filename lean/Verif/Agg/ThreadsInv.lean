import Verif.Agg.ThreadsLemmas
import Mathlib.Tactic.Tauto
/-!
# Preservation of the invariants
-/
namespace Verif.AggThreads
variable {R : Type}

/-- the snapshots in a database -/
def recsOf (h : Nat → Option (TDB R)) (d : Nat) : List R := match h d with
  | some t => t.recs
  | none => []

/-- `F`: the snapshots threads are carrying -/
structure Carries (pc : Nat → PC R) (F : List (Nat × R)) : Prop where
  keys : (F.map Prod.fst).Nodup
  carry : ∀ th r, (th, r) ∈ F ↔ (pc th).carry = some r

theorem Carries.same {pc : Nat → PC R} {F : List (Nat × R)} (C : Carries pc F) {th : Nat} {p : PC R} (h : p.carry = (pc th).carry) :
    Carries (upd pc th p) F := by
  refine ⟨C.keys, fun th' r => ?_⟩
  rw [C.carry]
  by_cases e : th' = th
  · subst e; rw [upd_same, h]
  · rw [upd_ne _ _ e]

theorem Carries.add {pc : Nat → PC R} {F : List (Nat × R)} (C : Carries pc F) {th : Nat} {p : PC R} {r : R} (h0 : (pc th).carry = none)
    (h : p.carry = some r) : Carries (upd pc th p) ((th, r) :: F) := by
  refine ⟨?_, fun th' r' => ?_⟩
  · simp only [List.map_cons, List.nodup_cons]
    refine ⟨?_, C.keys⟩
    intro hm
    obtain ⟨⟨a, b⟩, h1, h2⟩ := List.mem_map.1 hm
    cases h2
    have := (C.carry _ _).1 h1
    rw [h0] at this; cases this
  · by_cases e : th' = th
    · subst e
      rw [upd_same, h, List.mem_cons, C.carry, h0]
      simp [eq_comm]
    · rw [upd_ne _ _ e, List.mem_cons, C.carry]
      simp [e]

theorem Carries.remove {pc : Nat → PC R} {F : List (Nat × R)} (C : Carries pc F) {th : Nat} {p : PC R} {r : R} (h0 : (pc th).carry = some r)
    (h : p.carry = none) : ∃ F', F.Perm ((th, r) :: F') ∧ Carries (upd pc th p) F' := by
  obtain ⟨A, B, rfl⟩ := List.append_of_mem ((C.carry _ _).2 h0)
  refine ⟨A ++ B, List.perm_middle, ?_, fun th' r' => ?_⟩
  · have := C.keys
    rw [(List.perm_middle.map _).nodup_iff] at this
    simp only [List.map_cons, List.nodup_cons] at this
    exact this.2
  · have hk := C.keys
    rw [(List.perm_middle.map _).nodup_iff] at hk
    simp only [List.map_cons, List.nodup_cons] at hk
    by_cases e : th' = th
    · subst e
      rw [upd_same, h]
      simp only [reduceCtorEq, iff_false]
      intro hm
      exact hk.1 (List.mem_map.2 ⟨_, hm, rfl⟩)
    · rw [upd_ne _ _ e, ← C.carry, List.mem_append, List.mem_append, List.mem_cons]
      simp [e]

/-- where every snapshot is -/
structure Acc (s : State R) (L : List Nat) (F : List (Nat × R)) : Prop where
  stored : s.taken.Perm (s.cleared ++ L.flatMap (recsOf s.heap))
  carries : Carries s.pc F
  started : s.started.Perm (s.taken ++ s.dropped ++ F.map Prod.snd)

theorem flatMap_change {L : List Nat} (hn : L.Nodup) {d : Nat} (hd : d ∈ L) {f g : Nat → List R} (h : ∀ e ∈ L, e ≠ d → g e = f e) :
    ∃ X, (L.flatMap f).Perm (f d ++ X) ∧ (L.flatMap g).Perm (g d ++ X) := by
  obtain ⟨A, B, rfl⟩ := List.append_of_mem hd
  have hd' : d ∉ A ++ B := by
    rw [List.perm_middle.nodup_iff] at hn
    exact (List.nodup_cons.1 hn).1
  have e : (A ++ B).flatMap g = (A ++ B).flatMap f := by
    apply List.flatMap_congr
    intro x hx
    refine h x ?_ (by rintro rfl; exact hd' hx)
    rw [List.mem_append] at hx
    rw [List.mem_append, List.mem_cons]
    rcases hx with h | h
    · exact .inl h
    · exact .inr (.inr h)
  refine ⟨(A ++ B).flatMap f, ?_, ?_⟩
  · exact (List.perm_middle.flatMap_right f).trans (by simp)
  · rw [← e]
    exact (List.perm_middle.flatMap_right g).trans (by simp)

theorem flatMap_same {L : List Nat} {f g : Nat → List R} (h : ∀ e ∈ L, g e = f e) : L.flatMap g = L.flatMap f := List.flatMap_congr h

theorem recsOf_upd_self (h : Nat → Option (TDB R)) (d : Nat) (t : TDB R) : recsOf (upd h d (some t)) d = t.recs := by simp [recsOf, upd]
theorem recsOf_upd_ne (h : Nat → Option (TDB R)) {d e : Nat} (t : Option (TDB R)) (hne : e ≠ d) : recsOf (upd h d t) e = recsOf h e := by simp [recsOf, upd, hne]
theorem recsOf_some {h : Nat → Option (TDB R)} {d : Nat} {t : TDB R} (e : h d = some t) : recsOf h d = t.recs := by simp [recsOf, e]

theorem heap_put {s : State R} {L : List Nat} {c : Nat} {t t' : TDB R} (hc : c ∈ L) (ht : s.heap c = some t) (h1 : t'.prev = t.prev) (h2 : t'.next = t.next)
    (h3 : t'.retired = t.retired) : (∀ d t₀, s.heap d = some t₀ → ∃ t₁, upd s.heap c (some t') d = some t₁ ∧ t₁.prev = t₀.prev ∧ t₁.next = t₀.next ∧
      t₁.retired = t₀.retired ∧ (d ∉ L → t₁ = t₀)) ∧ ∀ d, s.heap d = none → upd s.heap c (some t') d = none := by
  constructor
  · intro d t₀ h0
    by_cases e : d = c
    · subst e
      rw [ht] at h0; cases h0
      exact ⟨t', upd_same .., h1, h2, h3, fun h => absurd hc h⟩
    · exact ⟨t₀, by rw [upd_ne _ _ e, h0], rfl, rfl, rfl, fun _ => rfl⟩
  · intro d h0
    by_cases e : d = c
    · subst e; rw [ht] at h0; cases h0
    · rw [upd_ne _ _ e, h0]

theorem heap_id {s : State R} {L : List Nat} : (∀ d t₀, s.heap d = some t₀ → ∃ t₁, s.heap d = some t₁ ∧ t₁.prev = t₀.prev ∧ t₁.next = t₀.next ∧
      t₁.retired = t₀.retired ∧ (d ∉ L → t₁ = t₀)) := fun _ t h => ⟨t, h, rfl, rfl, rfl, fun _ => rfl⟩

/-- the slot of a thread that is not linking is in the list -/
theorem Inv.slotIn {s : State R} {L : List Nat} (I : Inv s L) {th : Nat} (hg : s.gone th = false) (hp : ∀ d k, s.pc th ≠ .link d k) :
    (∃ d, s.slot th = some d ∧ d ∉ L) → False := by
  rintro ⟨d, h1, h2⟩
  obtain ⟨_, _, _, h | ⟨k, h⟩⟩ := I.usesOK th d hg (.inl h1)
  · exact h2 h
  · exact hp d k h

theorem deref_some {s : State R} {d : Nat} {f : TDB R → State R} {t : TDB R} (h : s.heap d = some t) : s.deref d f = f t := by
  simp [State.deref, h]

/-- steps of `flush_cb`, `clear_cb` and snapshot processing that change no links -/
theorem put_step {s s' : State R} {L : List Nat} {F : List (Nat × R)} (I : Inv s L) (A : Acc s L F) {th c : Nat} {t t' : TDB R} {p : PC R} (hg : s.gone th = false)
    (hc : c ∈ L) (ht : s.heap c = some t) (h1 : t'.prev = t.prev) (h2 : t'.next = t.next) (h3 : t'.retired = t.retired)
    (hnl : ∀ d k, s.pc th ≠ .link d k) (hs : s'.heap = upd s.heap c (some t')) (hid : s'.nextId = s.nextId) (hhead : s'.head = s.head)
    (hslot : s'.slot = s.slot) (hgone : s'.gone = s.gone) (hbad : s'.bad = s.bad) (hpc : s'.pc = upd s.pc th p)
    (huse : ∀ d, p.use = some d → Uses s th d ∧ d ∈ L) (hok : PcOK s'.heap L p)
    (hm : p.maint = true → (s.pc th).maint = true ∨ ∀ th', (s.pc th').maint = false) {F' : List (Nat × R)} (hF : Carries s'.pc F')
    (hst : s'.started.Perm (s'.taken ++ s'.dropped ++ F'.map Prod.snd))
    (hsto : ∀ X, s.taken.Perm (s.cleared ++ (t.recs ++ X)) → s'.taken.Perm (s'.cleared ++ (t'.recs ++ X))) : Inv s' L ∧ Acc s' L F' := by
  obtain ⟨a1, a2⟩ := heap_put (L := L) hc ht h1 h2 h3
  refine ⟨I.move hg (by rw [hs]; exact a1) (by rw [hs]; exact a2) hid hhead hslot hgone hbad hpc huse (I.slotIn hg hnl) hok hm, ⟨?_, hF, hst⟩⟩
  obtain ⟨X, x1, x2⟩ := flatMap_change I.nodup hc (f := recsOf s.heap) (g := recsOf s'.heap) (by
    intro e _ he; rw [hs]; exact recsOf_upd_ne _ _ he)
  rw [recsOf_some ht] at x1
  rw [hs, recsOf_upd_self] at x2
  rw [hs]
  exact (hsto X (A.stored.trans (x1.append_left _))).trans (x2.symm.append_left _)

/-- steps that change neither the databases nor the links -/
theorem id_step {s s' : State R} {L : List Nat} {F : List (Nat × R)} (I : Inv s L) (A : Acc s L F) {th : Nat} {p : PC R} (hg : s.gone th = false)
    (hnl : ∀ d k, s.pc th ≠ .link d k) (hs : s'.heap = s.heap) (hid : s'.nextId = s.nextId) (hhead : s'.head = s.head)
    (hslot : s'.slot = s.slot) (hgone : s'.gone = s.gone) (hbad : s'.bad = s.bad) (hpc : s'.pc = upd s.pc th p)
    (huse : ∀ d, p.use = some d → Uses s th d ∧ d ∈ L) (hok : PcOK s.heap L p)
    (hm : p.maint = true → (s.pc th).maint = true ∨ ∀ th', (s.pc th').maint = false) {F' : List (Nat × R)} (hF : Carries s'.pc F')
    (hst : s'.started.Perm (s'.taken ++ s'.dropped ++ F'.map Prod.snd)) (ht : s'.taken = s.taken) (hcl : s'.cleared = s.cleared) :
    Inv s' L ∧ Acc s' L F' := by
  refine ⟨I.move hg (by rw [hs]; exact heap_id) (by rw [hs]; exact fun _ h => h) hid hhead hslot hgone hbad hpc huse (I.slotIn hg hnl)
    (by rw [hs]; exact hok) hm, ⟨?_, hF, hst⟩⟩
  rw [hs, ht, hcl]
  exact A.stored

/-- a new database -/
theorem alloc_step {s : State R} {L : List Nat} {F : List (Nat × R)} (I : Inv s L) (A : Acc s L F) {th : Nat} (ok : Bool) (k : Option R) (hg : s.gone th = false)
    (hi : s.pc th = .idle) (hsl : s.slot th = none) {st : List R} {F' : List (Nat × R)} (hF : Carries (upd s.pc th (.link s.nextId k)) F')
    (hst : st.Perm (s.taken ++ s.dropped ++ F'.map Prod.snd)) :
    Inv (State.alloc { s with started := st } th ok k) L ∧ Acc (State.alloc { s with started := st } th ok k) L F' := by
  have hlt : ∀ d ∈ L, d < s.nextId := by
    intro d hd
    obtain ⟨t, ht⟩ := I.seg.some_of_mem d hd
    by_contra hn
    rw [I.fresh d (by omega)] at ht; cases ht
  have hne : ∀ d t, s.heap d = some t → d ≠ s.nextId := by
    rintro d t ht rfl
    rw [I.fresh _ (Nat.le_refl _)] at ht; cases ht
  have hkeep : ∀ d t, s.heap d = some t → upd s.heap s.nextId (some (⟨none, none, false, false, []⟩ : TDB R)) d = some t := by
    intro d t ht; rw [upd_ne _ _ (hne d t ht)]; exact ht
  have huses : ∀ th' d, Uses (State.alloc { s with started := st } th ok k) th' d → (th' = th ∧ d = s.nextId) ∨ Uses s th' d := by
    intro th' d hu
    by_cases e : th' = th
    · subst e
      left
      rcases hu with hu | hu
      · simp only [State.alloc] at hu
        cases ok with
        | true => simp only [if_true, upd_same] at hu; cases hu; exact ⟨rfl, rfl⟩
        | false => simp only [Bool.false_eq_true, if_false] at hu; rw [hsl] at hu; cases hu
      · simp only [State.alloc, upd_same, PC.use] at hu; cases hu; exact ⟨rfl, rfl⟩
    · right
      rcases hu with hu | hu
      · left
        simp only [State.alloc] at hu
        cases ok with
        | true => simp only [if_true] at hu; rw [upd_ne _ _ e] at hu; exact hu
        | false => exact hu
      · right
        simp only [State.alloc] at hu; rw [upd_ne _ _ e] at hu; exact hu
  refine ⟨?_, ?_, hF, hst⟩
  · refine { nodup := I.nodup, seg := ?_, fresh := ?_, usesOK := ?_, uniq := ?_, usesLt := ?_, pcs := ?_, solo := ?_, gone := ?_, good := I.good }
    · exact I.seg.congr fun d _ t ht => ⟨t, hkeep d t ht, rfl, rfl⟩
    · intro d hd
      simp only [State.alloc] at hd ⊢
      rw [upd_ne _ _ (by omega)]
      exact I.fresh d (by omega)
    · intro th' d hg' hu
      rcases huses th' d hu with ⟨rfl, rfl⟩ | hu
      · exact ⟨_, upd_same .., rfl, .inr ⟨k, upd_same ..⟩⟩
      · obtain ⟨t, h1, h2, h3⟩ := I.usesOK th' d hg' hu
        refine ⟨t, hkeep d t h1, h2, ?_⟩
        rcases h3 with h3 | ⟨k', h3⟩
        · exact .inl h3
        · refine .inr ⟨k', ?_⟩
          show upd s.pc th _ th' = _
          rw [upd_ne _ _ (by rintro rfl; rw [hi] at h3; cases h3), h3]
    · intro th₁ th₂ d h1 h2
      rcases huses _ _ h1 with ⟨e1, e2⟩ | h3
      · rcases huses _ _ h2 with ⟨e3, _⟩ | h4
        · rw [e1, e3]
        · exact absurd (I.usesLt _ _ h4) (by omega)
      · rcases huses _ _ h2 with ⟨_, e2⟩ | h4
        · exact absurd (I.usesLt _ _ h3) (by omega)
        · exact I.uniq _ _ _ h3 h4
    · intro th' d hu
      show d < s.nextId + 1
      rcases huses _ _ hu with ⟨_, rfl⟩ | hu
      · omega
      · have := I.usesLt _ _ hu; omega
    · intro th'
      show PcOK _ L (upd s.pc th _ th')
      by_cases e : th' = th
      · subst e; rw [upd_same]
        exact ⟨fun h => absurd (hlt _ h) (Nat.lt_irrefl _), _, upd_same .., rfl, rfl⟩
      · rw [upd_ne _ _ e]
        have := I.pcs th'
        cases hp : s.pc th' <;> rw [hp] at this <;> simp only [PcOK] at this ⊢
        all_goals try exact this
        · obtain ⟨a1, t, a2, a3, a4⟩ := this
          exact ⟨a1, t, hkeep _ t a2, a3, a4⟩
        · obtain ⟨a1, t, a2, a3, a4⟩ := this
          exact ⟨a1, t, hkeep _ t a2, a3, a4⟩
        · obtain ⟨a1, ⟨t, a2, a3⟩, a4⟩ := this
          exact ⟨a1, ⟨t, hkeep _ t a2, a3⟩, a4⟩
    · intro th₁ th₂ h1 h2
      have key : ∀ th', ((State.alloc { s with started := st } th ok k).pc th').maint = true → (s.pc th').maint = true := by
        intro th' h
        by_cases e : th' = th
        · subst e; simp [State.alloc, upd_same, PC.maint] at h
        · simpa [State.alloc, upd_ne _ _ e] using h
      exact I.solo _ _ (key _ h1) (key _ h2)
    · intro th' hg'
      show upd s.pc th _ th' = _
      rw [upd_ne _ _ (by rintro rfl; have : s.gone th' = true := hg'; rw [hg] at this; cases this)]
      exact I.gone th' hg'
  · show s.taken.Perm (s.cleared ++ L.flatMap (recsOf (upd s.heap s.nextId _)))
    rw [flatMap_same (f := recsOf s.heap) (fun e he => recsOf_upd_ne _ _ (by have := hlt e he; omega))]
    exact A.stored

/-- linking a new database -/
theorem link_step {s : State R} {L : List Nat} {F : List (Nat × R)} (I : Inv s L) (A : Acc s L F) {th d : Nat} {k : Option R} (hg : s.gone th = false)
    (hp : s.pc th = .link d k) {p : PC R} (hpu : ∀ e, p.use = some e → e = d) (hpk : PcOK s.heap L p) (hpm : p.maint = false)
    (hpl : ∀ d k, p ≠ .link d k) (hpd : ∀ c tmp, p ≠ .cDel c tmp) (hpr : ∀ c tmp, p ≠ .cUnlink c tmp) (hpc : p.carry = k) :
    Inv ((s.linkIn d).goto th p) (d :: L) ∧ Acc ((s.linkIn d).goto th p) (d :: L) F := by
  obtain ⟨k1, t, k2, k3, k4⟩ : d ∉ L ∧ ∃ t, s.heap d = some t ∧ t.recs = [] ∧ t.prev = none := by
    have := I.pcs th
    rw [hp] at this; exact this
  have hr : t.retired = false := by
    obtain ⟨t', e1, e2, _⟩ := I.usesOK th d hg (.inr (by rw [hp]; rfl))
    rw [k2] at e1; cases e1; exact e2
  -- the heap afterwards
  obtain ⟨h', hs', hd', hh', hseg⟩ : ∃ h', s.linkIn d = { s with heap := h', head := some d } ∧
      (∃ t', h' d = some t' ∧ t'.recs = [] ∧ t'.retired = false) ∧
      (∀ e, e ≠ d → (h' e = none ↔ s.heap e = none) ∧ ∀ te, s.heap e = some te → ∃ te', h' e = some te' ∧ te'.next = te.next ∧ te'.retired = te.retired ∧
        te'.recs = te.recs ∧ (e ∉ L → te' = te)) ∧ Seg h' none (some d) (d :: L) := by
    have hsg := I.seg
    cases L with
    | nil =>
      have hh : s.head = none := hsg
      refine ⟨upd s.heap d (some { t with next := none }), ?_, ⟨_, upd_same .., k3, hr⟩, ?_, ?_⟩
      · unfold State.linkIn
        rw [hh]
        simp only [deref_some k2]
        rfl
      · intro e he
        rw [upd_ne _ _ he]
        exact ⟨Iff.rfl, fun te h => ⟨te, h, rfl, rfl, rfl, fun _ => rfl⟩⟩
      · exact ⟨rfl, _, upd_same .., k4, rfl⟩
    | cons b L =>
      obtain ⟨hh, tb, b1, b2, b3⟩ := hsg
      have hbd : d ≠ b := by rintro rfl; exact k1 (by simp)
      refine ⟨upd (upd s.heap b (some { tb with prev := some d })) d (some { t with next := some b }), ?_, ⟨_, upd_same .., k3, hr⟩, ?_, ?_⟩
      · unfold State.linkIn
        rw [hh]
        simp only [deref_some b1]
        rw [deref_some (t := t) (by simp only [State.put]; rw [upd_ne _ _ hbd, k2])]
        rfl
      · intro e he
        rw [upd_ne _ _ he]
        by_cases heb : e = b
        · subst heb
          rw [upd_same, b1]
          refine ⟨by simp, fun te h => ?_⟩
          cases h
          exact ⟨_, rfl, rfl, rfl, rfl, fun h => absurd (by simp) h⟩
        · rw [upd_ne _ _ heb]
          exact ⟨Iff.rfl, fun te h => ⟨te, h, rfl, rfl, rfl, fun _ => rfl⟩⟩
      · refine ⟨rfl, _, upd_same .., k4, rfl, { tb with prev := some d }, ?_, rfl, ?_⟩
        · rw [upd_ne _ _ (Ne.symm hbd), upd_same]
        · refine b3.congr ?_
          intro e he te hte
          have hn := I.nodup
          simp only [List.nodup_cons] at hn
          refine ⟨te, ?_, rfl, rfl⟩
          rw [upd_ne _ _ (by rintro rfl; exact k1 (by simp [he])), upd_ne _ _ (by rintro rfl; exact hn.1 he), hte]
  have hkeep : ∀ e te, s.heap e = some te → ∃ te', h' e = some te' ∧ te'.retired = te.retired := by
    intro e te hte
    by_cases he : e = d
    · subst he
      obtain ⟨t', e1, _, e3⟩ := hd'
      rw [k2] at hte; cases hte
      exact ⟨t', e1, by rw [e3, hr]⟩
    · obtain ⟨te', e1, _, e3, _⟩ := (hh' e he).2 te hte
      exact ⟨te', e1, e3⟩
  rw [hs']
  have huses : ∀ th' e, Uses (State.goto { s with heap := h', head := some d } th p) th' e → Uses s th' e := by
    intro th' e hu
    rcases hu with hu | hu
    · exact .inl hu
    · right
      by_cases h : th' = th
      · subst h
        simp only [State.goto, upd_same] at hu
        rw [hp, hpu e hu]; rfl
      · simpa only [State.goto, upd_ne _ _ h] using hu
  have hother : ∀ th' e k', th' ≠ th → s.pc th' = .link e k' → e ≠ d := by
    rintro th' e k' hne h rfl
    exact hne (I.uniq th' th e (.inr (by rw [h]; rfl)) (.inr (by rw [hp]; rfl)))
  refine ⟨?_, ?_, ?_, ?_⟩
  · refine { nodup := List.nodup_cons.2 ⟨k1, I.nodup⟩, seg := hseg, fresh := ?_, usesOK := ?_, uniq := ?_, usesLt := ?_, pcs := ?_, solo := ?_, gone := ?_,
             good := I.good }
    · intro e he
      have hed : e ≠ d := by
        rintro rfl
        have := I.fresh e he
        rw [k2] at this; cases this
      exact ((hh' e hed).1).2 (I.fresh e he)
    · intro th' e hg' hu
      obtain ⟨te, h1, h2, h3⟩ := I.usesOK th' e hg' (huses _ _ hu)
      obtain ⟨te', e1, e2⟩ := hkeep e te h1
      refine ⟨te', e1, e2.trans h2, ?_⟩
      rcases h3 with h3 | ⟨k', h3⟩
      · exact .inl (by simp [h3])
      · by_cases h : th' = th
        · subst h
          rw [hp] at h3; cases h3
          exact .inl (by simp)
        · exact .inr ⟨k', by simpa only [State.goto, upd_ne _ _ h] using h3⟩
    · exact fun th₁ th₂ e h1 h2 => I.uniq _ _ e (huses _ _ h1) (huses _ _ h2)
    · exact fun th' e hu => I.usesLt _ _ (huses _ _ hu)
    · intro th'
      show PcOK h' (d :: L) (upd s.pc th p th')
      by_cases h : th' = th
      · subst h
        rw [upd_same]
        cases p <;> simp only [PcOK, PC.maint, Bool.true_eq_false] at hpk hpm ⊢
        exact absurd rfl (hpl _ _)
      · rw [upd_ne _ _ h]
        have hx := I.pcs th'
        have ho := hother th'
        cases hq : s.pc th' <;> rw [hq] at hx ho <;> simp only [PcOK] at hx ⊢
        all_goals try exact List.mem_cons_of_mem _ hx
        · obtain ⟨a1, ta, a2, a3, a4⟩ := hx
          have hed := ho _ _ h rfl
          obtain ⟨te', e1, _, _, _, e2⟩ := (hh' _ hed).2 ta a2
          rw [e2 a1] at e1
          exact ⟨by simp [hed, a1], ta, e1, a3, a4⟩
        · obtain ⟨a1, ta, a2, a3, a4⟩ := hx
          have hed : _ ≠ d := fun e => k1 (e ▸ a1)
          obtain ⟨te', e1, e2, e3, _⟩ := (hh' _ hed).2 ta a2
          exact ⟨by simp [a1], te', e1, e3.trans a3, e2.trans a4⟩
        · rename_i c₁ tmp₁
          obtain ⟨a1, ⟨ta, a2, a3⟩, a4⟩ := hx
          have hed : c₁ ≠ d := by
            intro e
            rw [e, k2] at a2
            cases a2
            rw [hr] at a3; cases a3
          obtain ⟨te', e1, e2, e3, _⟩ := (hh' _ hed).2 ta a2
          exact ⟨by simp [hed, a1], ⟨te', e1, e3.trans a3⟩, fun e he => by simp [a4 e he]⟩
    · have key : ∀ th', ((State.goto { s with heap := h', head := some d } th p).pc th').maint = true → (s.pc th').maint = true := by
        intro th' hm
        by_cases h : th' = th
        · subst h
          simp only [State.goto, upd_same] at hm
          rw [hpm] at hm; cases hm
        · simpa only [State.goto, upd_ne _ _ h] using hm
      exact fun th₁ th₂ h1 h2 => I.solo _ _ (key _ h1) (key _ h2)
    · intro th' hg'
      show upd s.pc th p th' = _
      rw [upd_ne _ _ (by rintro rfl; have : s.gone th' = true := hg'; rw [hg] at this; cases this)]
      exact I.gone th' hg'
  · show s.taken.Perm (s.cleared ++ (d :: L).flatMap (recsOf h'))
    obtain ⟨t', e1, e2, _⟩ := hd'
    rw [List.flatMap_cons, recsOf_some e1, e2, List.nil_append, flatMap_same (f := recsOf s.heap)]
    · exact A.stored
    · intro e he
      obtain ⟨te, hte⟩ := I.seg.some_of_mem e he
      obtain ⟨te', f1, _, _, f2, _⟩ := (hh' e (by rintro rfl; exact k1 he)).2 te hte
      rw [recsOf_some f1, recsOf_some hte, f2]
  · exact A.carries.same (by rw [hp]; exact hpc)
  · exact A.started

/-- unlinking -/
theorem unlink_step {s : State R} {A' B : List Nat} {F : List (Nat × R)} {c : Nat} (I : Inv s (A' ++ c :: B)) (A : Acc s (A' ++ c :: B) F) {th : Nat} {tmp : Option Nat}
    (hg : s.gone th = false) (hp : s.pc th = .cUnlink c tmp) :
    Inv ((s.unlink c tmp).goto th (.cDel c tmp)) (A' ++ B) ∧ Acc ((s.unlink c tmp).goto th (.cDel c tmp)) (A' ++ B) F ∧
      ∀ d ∈ A' ++ B, recsOf (s.unlink c tmp).heap d = recsOf s.heap d := by
  obtain ⟨k1, t, k2, k3, k4⟩ : c ∈ A' ++ c :: B ∧ ∃ t, s.heap c = some t ∧ t.retired = true ∧ t.next = tmp := by
    have := I.pcs th
    rw [hp] at this; exact this
  have hn := I.nodup
  obtain ⟨l1, l2⟩ := Seg.links k2 I.seg
  rw [Option.or_none] at l1
  have hnc : c ∉ A' ++ B := by
    rw [List.perm_middle.nodup_iff] at hn
    exact (List.nodup_cons.1 hn).1
  have nextIn : ∀ n, t.next = some n → n ∈ B := by
    intro n h; rw [l2] at h
    cases B with
    | nil => simp at h
    | cons b B => simp at h; simp [h]
  have prevIn : ∀ q, t.prev = some q → q ∈ A' := by
    intro q h; rw [l1] at h
    exact List.mem_of_getLast? h
  have dis : ∀ x, x ∈ A' → x ∈ B → False := by
    intro x h1 h2
    have := (List.nodup_append.1 hn).2.2 x h1 x (by simp [h2])
    exact this rfl
  -- the heap afterwards
  obtain ⟨h', hs', hc', hprev, hnext, hoth, hgen⟩ : ∃ h', s.unlink c tmp = { s with heap := h', head := if s.head = some c then tmp else s.head, cleared := s.cleared ++ t.recs } ∧
      h' c = some t ∧
      (∀ n tn, t.next = some n → s.heap n = some tn → ∃ t', h' n = some t' ∧ t'.prev = t.prev ∧ t'.next = tn.next) ∧
      (∀ p tp, t.prev = some p → s.heap p = some tp → ∃ t', h' p = some t' ∧ t'.prev = tp.prev ∧ t'.next = t.next) ∧
      (∀ d, t.next ≠ some d → t.prev ≠ some d → d ≠ c → h' d = s.heap d) ∧
      (∀ d td, s.heap d = some td → ∃ td', h' d = some td' ∧ td'.retired = td.retired ∧ td'.recs = td.recs) := by
    have hN : ∀ n, t.next = some n → n ∈ B ∧ n ≠ c := fun n h => ⟨nextIn n h, by rintro rfl; exact hnc (by simp [nextIn n h])⟩
    have hP : ∀ q, t.prev = some q → q ∈ A' ∧ q ≠ c := fun q h => ⟨prevIn q h, by rintro rfl; exact hnc (by simp [prevIn q h])⟩
    unfold State.unlink
    rw [deref_some k2]
    cases hnx : t.next with
    | none =>
      cases hpv : t.prev with
      | none =>
        refine ⟨s.heap, rfl, k2, by simp, by simp, fun d _ _ _ => rfl, fun d td h => ⟨td, h, rfl, rfl⟩⟩
      | some q =>
        obtain ⟨q1, q2⟩ := hP q hpv
        obtain ⟨tq, hq⟩ := I.seg.some_of_mem q (by simp [q1])
        refine ⟨upd s.heap q (some { tq with next := none }), ?_, by rw [upd_ne _ _ (Ne.symm q2), k2], by simp, ?_, ?_, ?_⟩
        · simp only [deref_some hq]; rfl
        · intro p tp h1 h2
          cases h1
          rw [hq] at h2; cases h2
          exact ⟨_, upd_same .., rfl, rfl⟩
        · intro d _ h2 _
          exact upd_ne _ _ (by rintro rfl; exact h2 rfl)
        · intro d td h
          by_cases e : d = q
          · subst e; rw [hq] at h; cases h
            exact ⟨_, upd_same .., rfl, rfl⟩
          · exact ⟨td, by rw [upd_ne _ _ e, h], rfl, rfl⟩
    | some n =>
      obtain ⟨n1, n2⟩ := hN n hnx
      obtain ⟨tn, hn'⟩ := I.seg.some_of_mem n (by simp [n1])
      cases hpv : t.prev with
      | none =>
        refine ⟨upd s.heap n (some { tn with prev := none }), ?_, by rw [upd_ne _ _ (Ne.symm n2), k2], ?_, by simp, ?_, ?_⟩
        · simp only [deref_some hn']; rfl
        · intro p tp h1 h2
          cases h1
          rw [hn'] at h2; cases h2
          exact ⟨_, upd_same .., rfl, rfl⟩
        · intro d h2 _ _
          exact upd_ne _ _ (by rintro rfl; exact h2 rfl)
        · intro d td h
          by_cases e : d = n
          · subst e; rw [hn'] at h; cases h
            exact ⟨_, upd_same .., rfl, rfl⟩
          · exact ⟨td, by rw [upd_ne _ _ e, h], rfl, rfl⟩
      | some q =>
        obtain ⟨q1, q2⟩ := hP q hpv
        obtain ⟨tq, hq⟩ := I.seg.some_of_mem q (by simp [q1])
        have hqn : q ≠ n := by rintro rfl; exact dis q q1 n1
        refine ⟨upd (upd s.heap n (some { tn with prev := some q })) q (some { tq with next := some n }), ?_,
          by rw [upd_ne _ _ (Ne.symm q2), upd_ne _ _ (Ne.symm n2), k2], ?_, ?_, ?_, ?_⟩
        · simp only [deref_some hn']
          rw [deref_some (t := tq) (by simp only [State.put]; rw [upd_ne _ _ hqn, hq])]
          rfl
        · intro p tp h1 h2
          cases h1
          rw [hn'] at h2; cases h2
          exact ⟨{ tn with prev := some q }, by rw [upd_ne _ _ (Ne.symm hqn), upd_same], rfl, rfl⟩
        · intro p tp h1 h2
          cases h1
          rw [hq] at h2; cases h2
          exact ⟨_, upd_same .., rfl, rfl⟩
        · intro d h1 h2 _
          rw [upd_ne _ _ (by rintro rfl; exact h2 rfl), upd_ne _ _ (by rintro rfl; exact h1 rfl)]
        · intro d td h
          by_cases e : d = q
          · subst e; rw [hq] at h; cases h
            exact ⟨_, upd_same .., rfl, rfl⟩
          · rw [upd_ne _ _ e]
            by_cases e : d = n
            · subst e; rw [hn'] at h; cases h
              exact ⟨_, upd_same .., rfl, rfl⟩
            · exact ⟨td, by rw [upd_ne _ _ e, h], rfl, rfl⟩
  have hout : ∀ d, d ∉ A' ++ c :: B → h' d = s.heap d := by
    intro d hd
    refine hoth d ?_ ?_ ?_
    · intro h; exact hd (by simp [nextIn d h])
    · intro h; exact hd (by simp [prevIn d h])
    · rintro rfl; exact hd (by simp)
  have hseg := Seg.remove k2 hprev hnext hoth I.seg hn (by simp)
  have hhead : (if s.head = some c then tmp else s.head) = if A' = [] then t.next else s.head := by
    have hc := I.seg.cur_eq
    cases A' with
    | nil => simp at hc; rw [if_pos hc, if_pos rfl, k4]
    | cons a A' =>
      simp at hc
      rw [if_neg (by rw [hc]; intro e; cases e; exact hnc (by simp)), if_neg (by simp)]
  rw [hs', hhead]
  have hrec : ∀ d ∈ A' ++ B, recsOf h' d = recsOf s.heap d := by
    intro x hx
    obtain ⟨tx, htx⟩ := I.seg.some_of_mem x (by rw [List.mem_append] at hx; rw [List.mem_append, List.mem_cons]; tauto)
    obtain ⟨tx', f1, _, f2⟩ := hgen x tx htx
    rw [recsOf_some f1, recsOf_some htx, f2]
  refine ⟨?_, ⟨?_, ?_, ?_⟩, hrec⟩
  · have huses : ∀ th' e, Uses (State.goto { s with heap := h', head := if A' = [] then t.next else s.head, cleared := s.cleared ++ t.recs } th (.cDel c tmp)) th' e → Uses s th' e := by
      intro th' e hu
      rcases hu with hu | hu
      · exact .inl hu
      · right
        by_cases h : th' = th
        · subst h; simp [State.goto, upd_same, PC.use] at hu
        · simpa only [State.goto, upd_ne _ _ h] using hu
    refine { nodup := ?_, seg := hseg, fresh := ?_, usesOK := ?_, uniq := ?_, usesLt := ?_, pcs := ?_, solo := ?_, gone := ?_, good := I.good }
    · rw [List.perm_middle.nodup_iff] at hn
      exact (List.nodup_cons.1 hn).2
    · intro e he
      have he' := I.fresh e he
      rw [← he']
      refine hout e ?_
      intro hm
      obtain ⟨te, hte⟩ := I.seg.some_of_mem e hm
      rw [he'] at hte; cases hte
    · intro th' e hg' hu
      obtain ⟨te, h1, h2, h3⟩ := I.usesOK th' e hg' (huses _ _ hu)
      obtain ⟨te', e1, e2, _⟩ := hgen e te h1
      refine ⟨te', e1, e2.trans h2, ?_⟩
      rcases h3 with h3 | ⟨k', h3⟩
      · left
        rw [List.mem_append, List.mem_cons] at h3
        rcases h3 with h3 | rfl | h3
        · simp [h3]
        · rw [k2] at h1; cases h1; rw [k3] at h2; cases h2
        · simp [h3]
      · right
        have h : th' ≠ th := by rintro rfl; rw [hp] at h3; cases h3
        exact ⟨k', by simpa only [State.goto, upd_ne _ _ h] using h3⟩
    · exact fun th₁ th₂ e h1 h2 => I.uniq _ _ e (huses _ _ h1) (huses _ _ h2)
    · exact fun th' e hu => I.usesLt _ _ (huses _ _ hu)
    · intro th'
      show PcOK h' (A' ++ B) (upd s.pc th _ th')
      by_cases h : th' = th
      · subst h
        rw [upd_same]
        refine ⟨hnc, ⟨t, hc', k3⟩, ?_⟩
        intro e he
        rw [← k4] at he
        simp [nextIn e he]
      · rw [upd_ne _ _ h]
        have hx := I.pcs th'
        have hm : (s.pc th').maint = false := by
          cases hm : (s.pc th').maint with
          | false => rfl
          | true => exact absurd (I.solo th' th hm (by rw [hp]; rfl)) h
        cases hq : s.pc th' <;> rw [hq] at hx hm <;> simp only [PcOK, PC.maint, Bool.true_eq_false] at hx hm ⊢
        obtain ⟨a1, ta, a2, a3, a4⟩ := hx
        exact ⟨fun h => a1 (by rw [List.mem_append] at h; rw [List.mem_append, List.mem_cons]; tauto), ta, by rw [hout _ a1]; exact a2, a3, a4⟩
    · have key : ∀ th', ((State.goto { s with heap := h', head := if A' = [] then t.next else s.head, cleared := s.cleared ++ t.recs } th (.cDel c tmp)).pc th').maint = true → (s.pc th').maint = true := by
        intro th' hm
        by_cases h : th' = th
        · subst h
          rw [hp]; rfl
        · simpa only [State.goto, upd_ne _ _ h] using hm
      exact fun th₁ th₂ h1 h2 => I.solo _ _ (key _ h1) (key _ h2)
    · intro th' hg'
      show upd s.pc th _ th' = _
      rw [upd_ne _ _ (by rintro rfl; have : s.gone th' = true := hg'; rw [hg] at this; cases this)]
      exact I.gone th' hg'
  · show s.taken.Perm (s.cleared ++ t.recs ++ (A' ++ B).flatMap (recsOf h'))
    refine A.stored.trans ?_
    have e : (A' ++ B).flatMap (recsOf h') = (A' ++ B).flatMap (recsOf s.heap) := by
      exact flatMap_same hrec
    rw [e, List.append_assoc]
    refine List.Perm.append_left _ ?_
    refine (List.perm_middle.flatMap_right _).trans ?_
    rw [List.flatMap_cons, recsOf_some k2]
  · exact A.carries.same (by rw [hp]; rfl)
  · exact A.started

/-- deleting an unlinked database -/
theorem delete_step {s : State R} {L : List Nat} {F : List (Nat × R)} (I : Inv s L) (A : Acc s L F) {th c : Nat} {tmp : Option Nat} (hg : s.gone th = false)
    (hp : s.pc th = .cDel c tmp) :
    Inv (State.goto { s with heap := upd s.heap c none } th (PC.loop .cStop tmp)) L ∧ Acc (State.goto { s with heap := upd s.heap c none } th (PC.loop .cStop tmp)) L F := by
  obtain ⟨k1, ⟨t, k2, k3⟩, k4⟩ : c ∉ L ∧ (∃ t, s.heap c = some t ∧ t.retired = true) ∧ ∀ e, tmp = some e → e ∈ L := by
    have := I.pcs th
    rw [hp] at this; exact this
  have hne : ∀ d, d ∈ L → upd s.heap c none d = s.heap d := fun d hd => upd_ne _ _ (by rintro rfl; exact k1 hd)
  have hloop : (PC.loop (R := R) .cStop tmp).use = none ∧ (PC.loop (R := R) .cStop tmp).carry = none := by cases tmp <;> exact ⟨rfl, rfl⟩
  have huses : ∀ th' e, Uses (State.goto { s with heap := upd s.heap c none } th (PC.loop .cStop tmp)) th' e → Uses s th' e := by
    intro th' e hu
    rcases hu with hu | hu
    · exact .inl hu
    · right
      by_cases h : th' = th
      · subst h
        simp only [State.goto, upd_same] at hu
        rw [hloop.1] at hu; cases hu
      · simpa only [State.goto, upd_ne _ _ h] using hu
  refine ⟨?_, ?_, ?_, A.started⟩
  · refine { nodup := I.nodup, seg := ?_, fresh := ?_, usesOK := ?_, uniq := ?_, usesLt := ?_, pcs := ?_, solo := ?_, gone := ?_, good := I.good }
    · exact I.seg.congr fun d hd t ht => ⟨t, by show upd s.heap c none d = _; rw [hne d hd, ht], rfl, rfl⟩
    · intro e he
      show upd s.heap c none e = none
      by_cases h : e = c
      · rw [h, upd_same]
      · rw [upd_ne _ _ h]; exact I.fresh e he
    · intro th' e hg' hu
      obtain ⟨te, h1, h2, h3⟩ := I.usesOK th' e hg' (huses _ _ hu)
      have hec : e ≠ c := by rintro rfl; rw [k2] at h1; cases h1; rw [k3] at h2; cases h2
      refine ⟨te, by show upd s.heap c none e = _; rw [upd_ne _ _ hec, h1], h2, ?_⟩
      rcases h3 with h3 | ⟨k', h3⟩
      · exact .inl h3
      · right
        have h : th' ≠ th := by rintro rfl; rw [hp] at h3; cases h3
        exact ⟨k', by simpa only [State.goto, upd_ne _ _ h] using h3⟩
    · exact fun th₁ th₂ e h1 h2 => I.uniq _ _ e (huses _ _ h1) (huses _ _ h2)
    · exact fun th' e hu => I.usesLt _ _ (huses _ _ hu)
    · intro th'
      show PcOK (upd s.heap c none) L (upd s.pc th _ th')
      by_cases h : th' = th
      · subst h
        rw [upd_same]
        cases tmp with
        | none => trivial
        | some e => exact k4 e rfl
      · rw [upd_ne _ _ h]
        have hx := I.pcs th'
        have hm : (s.pc th').maint = false := by
          cases hm : (s.pc th').maint with
          | false => rfl
          | true => exact absurd (I.solo th' th hm (by rw [hp]; rfl)) h
        have hu := I.usesOK th'
        cases hq : s.pc th' <;> rw [hq] at hx hm <;> simp only [PcOK, PC.maint, Bool.true_eq_false] at hx hm ⊢
        rename_i d k
        obtain ⟨a1, ta, a2, a3, a4⟩ := hx
        have hg' : s.gone th' = false := by
          cases hg' : s.gone th' with
          | false => rfl
          | true => have := I.gone th' hg'; rw [hq] at this; cases this
        obtain ⟨te, h1, h2, _⟩ := hu d hg' (.inr (by rw [hq]; rfl))
        have hec : d ≠ c := by rintro rfl; rw [k2] at h1; cases h1; rw [k3] at h2; cases h2
        exact ⟨a1, ta, by rw [upd_ne _ _ hec]; exact a2, a3, a4⟩
    · have key : ∀ th', ((State.goto { s with heap := upd s.heap c none } th (PC.loop .cStop tmp)).pc th').maint = true → (s.pc th').maint = true := by
        intro th' hm
        by_cases h : th' = th
        · subst h
          rw [hp]; rfl
        · simpa only [State.goto, upd_ne _ _ h] using hm
      exact fun th₁ th₂ h1 h2 => I.solo _ _ (key _ h1) (key _ h2)
    · intro th' hg'
      show upd s.pc th _ th' = _
      rw [upd_ne _ _ (by rintro rfl; have : s.gone th' = true := hg'; rw [hg] at this; cases this)]
      exact I.gone th' hg'
  · show s.taken.Perm (s.cleared ++ L.flatMap (recsOf (upd s.heap c none)))
    rw [flatMap_same (f := recsOf s.heap) (fun e he => recsOf_upd_ne _ _ (by rintro rfl; exact k1 he))]
    exact A.stored
  · exact A.carries.same (by rw [hp]; exact hloop.2)

end Verif.AggThreads
