import Verif.Agg.ThreadsSpec
import Mathlib.Data.List.Nodup
/-!
# Invariants of the aggregation service with several threads
-/
namespace Verif.AggThreads
variable {R : Type}

/-- the doubly linked list from `cur` on, with predecessor `p` -/
def Seg (h : Nat → Option (TDB R)) : Option Nat → Option Nat → List Nat → Prop
  | _, cur, [] => cur = none
  | p, cur, d :: L => cur = some d ∧ ∃ t, h d = some t ∧ t.prev = p ∧ Seg h (some d) t.next L

theorem Seg.congr {h h' : Nat → Option (TDB R)} {L : List Nat} : ∀ {p cur}, Seg h p cur L →
    (∀ d ∈ L, ∀ t, h d = some t → ∃ t', h' d = some t' ∧ t'.prev = t.prev ∧ t'.next = t.next) → Seg h' p cur L := by
  induction L with
  | nil => intro p cur hs _; exact hs
  | cons d L ih =>
    intro p cur hs hc
    obtain ⟨h1, t, h2, h3, h4⟩ := hs
    obtain ⟨t', e1, e2, e3⟩ := hc d (by simp) t h2
    exact ⟨h1, t', e1, e2.trans h3, by rw [e3]; exact ih h4 fun d hd => hc d (by simp [hd])⟩

theorem Seg.some_of_mem {h : Nat → Option (TDB R)} {L : List Nat} : ∀ {p cur}, Seg h p cur L → ∀ d ∈ L, ∃ t, h d = some t := by
  induction L with
  | nil => intro p cur _ d hd; simp at hd
  | cons a L ih =>
    intro p cur hs d hd
    obtain ⟨_, t, h2, _, h4⟩ := hs
    rcases List.mem_cons.1 hd with rfl | hd
    · exact ⟨t, h2⟩
    · exact ih h4 d hd

theorem Seg.cur_eq {h : Nat → Option (TDB R)} {L : List Nat} {p cur} (hs : Seg h p cur L) : cur = L.head? := by
  cases L with
  | nil => exact hs
  | cons d L => exact hs.1

theorem Seg.links {h : Nat → Option (TDB R)} {A B : List Nat} {c : Nat} {t : TDB R} (ht : h c = some t) :
    ∀ {p cur}, Seg h p cur (A ++ c :: B) → t.prev = A.getLast?.or p ∧ t.next = B.head? := by
  induction A with
  | nil =>
    intro p cur hs
    obtain ⟨_, t', h2, h3, h4⟩ := hs
    rw [ht] at h2
    cases h2
    exact ⟨by simpa using h3, h4.cur_eq⟩
  | cons a A ih =>
    intro p cur hs
    obtain ⟨_, t', h2, h3, h4⟩ := hs
    obtain ⟨i1, i2⟩ := ih h4
    refine ⟨?_, i2⟩
    rw [i1, List.getLast?_cons]
    cases A.getLast? <;> simp

theorem Seg.next_mem {h : Nat → Option (TDB R)} {L : List Nat} {p cur} (hs : Seg h p cur L) {c e : Nat} (hc : c ∈ L) {t : TDB R} (ht : h c = some t)
    (hn : t.next = some e) : e ∈ L := by
  obtain ⟨A, B, rfl⟩ := List.append_of_mem hc
  have := (Seg.links ht hs).2
  rw [hn] at this
  cases B with
  | nil => simp at this
  | cons b B => simp at this; simp [this]

/-- taking a node out of the list -/
theorem Seg.remove {h h' : Nat → Option (TDB R)} {c : Nat} {t : TDB R} (ht : h c = some t) {B : List Nat}
    (hprev : ∀ n tn, t.next = some n → h n = some tn → ∃ t', h' n = some t' ∧ t'.prev = t.prev ∧ t'.next = tn.next)
    (hnext : ∀ p tp, t.prev = some p → h p = some tp → ∃ t', h' p = some t' ∧ t'.prev = tp.prev ∧ t'.next = t.next)
    (hoth : ∀ d, t.next ≠ some d → t.prev ≠ some d → d ≠ c → h' d = h d) {A : List Nat} :
    ∀ {p cur}, Seg h p cur (A ++ c :: B) → (A ++ c :: B).Nodup → (∀ q, p = some q → q ∉ A ++ c :: B) →
      Seg h' p (if A = [] then t.next else cur) (A ++ B) := by
  induction A with
  | nil =>
    intro p cur hs hn hp
    obtain ⟨_, t', h2, h3, h4⟩ := hs
    rw [ht] at h2
    cases h2
    simp only [if_true, List.nil_append]
    cases B with
    | nil => exact h4
    | cons n B =>
      obtain ⟨e1, tn, e2, e3, e4⟩ := h4
      obtain ⟨t', f1, f2, f3⟩ := hprev n tn e1 e2
      refine ⟨e1, t', f1, f2.trans h3, ?_⟩
      rw [f3]
      refine e4.congr ?_
      intro d hd td htd
      simp only [List.nil_append, List.nodup_cons, List.mem_cons, not_or] at hn
      refine ⟨td, ?_, rfl, rfl⟩
      rw [hoth d (by rw [e1]; intro e; cases e; exact hn.2.1 hd) (by rw [h3]; intro e; exact hp d e (by simp [hd]))
        (by rintro rfl; exact hn.1.2 hd), htd]
  | cons a A ih =>
    intro p cur hs hn hp
    have hl := (Seg.links ht hs)
    obtain ⟨e1, ta, e2, e3, e4⟩ := hs
    have hn' := hn
    simp only [List.cons_append, List.nodup_cons] at hn'
    have := ih e4 hn'.2 (fun q hq => by cases hq; exact hn'.1)
    rw [if_neg (by simp)]
    have hnb : t.next ≠ some a := by
      rw [hl.2]
      intro e
      cases B with
      | nil => simp at e
      | cons b B => simp at e; exact hn'.1 (by simp [e])
    have hac : a ≠ c := by rintro rfl; exact hn'.1 (by simp)
    by_cases hA : A = []
    · subst hA
      have hp2 : t.prev = some a := by rw [hl.1]; rfl
      obtain ⟨t', f1, f2, f3⟩ := hnext a ta hp2 e2
      refine ⟨e1, t', f1, f2.trans e3, ?_⟩
      rw [f3]; simpa using this
    · have hpa : t.prev ≠ some a := by
        rw [hl.1, List.getLast?_cons]
        intro e
        have hg : ∃ x, A.getLast? = some x := by
          cases hx : A.getLast? with
          | none => simp at hx; exact absurd hx hA
          | some x => exact ⟨x, rfl⟩
        obtain ⟨x, hx⟩ := hg
        rw [hx] at e
        simp at e
        subst e
        exact hn'.1 (by simp [List.mem_of_getLast? hx])
      refine ⟨e1, ta, by rw [hoth a hnb hpa hac, e2], e3, ?_⟩
      rw [if_neg hA] at this
      exact this

/-- the database a thread is about to use -/
def PC.use : PC R → Option Nat
  | .link d _ | .check d _ | .proc d _ => some d
  | _ => none

/-- the snapshot a thread carries -/
def PC.carry : PC R → Option R
  | .link _ k => k
  | .check _ r | .proc _ r => some r
  | _ => none

def Uses (s : State R) (th d : Nat) : Prop := s.slot th = some d ∨ (s.pc th).use = some d

/-- what holds for the position of a thread -/
def PcOK (h : Nat → Option (TDB R)) (L : List Nat) : PC R → Prop
  | .idle | .check .. | .proc .. => True
  | .link d _ => d ∉ L ∧ ∃ t, h d = some t ∧ t.recs = [] ∧ t.prev = none
  | .fStop c | .fWork c | .fStart c | .fNext c | .cStop c | .cWork c | .cStart c | .cRet c => c ∈ L
  | .cUnlink c tmp => c ∈ L ∧ ∃ t, h c = some t ∧ t.retired = true ∧ t.next = tmp
  | .cDel c tmp => c ∉ L ∧ (∃ t, h c = some t ∧ t.retired = true) ∧ ∀ e, tmp = some e → e ∈ L

structure Inv (s : State R) (L : List Nat) : Prop where
  nodup : L.Nodup
  seg : Seg s.heap none s.head L
  fresh : ∀ d, s.nextId ≤ d → s.heap d = none
  usesOK : ∀ th d, s.gone th = false → Uses s th d → ∃ t, s.heap d = some t ∧ t.retired = false ∧ (d ∈ L ∨ ∃ k, s.pc th = .link d k)
  uniq : ∀ th th' d, Uses s th d → Uses s th' d → th = th'
  usesLt : ∀ th d, Uses s th d → d < s.nextId
  pcs : ∀ th, PcOK s.heap L (s.pc th)
  solo : ∀ th th', (s.pc th).maint = true → (s.pc th').maint = true → th = th'
  gone : ∀ th, s.gone th = true → s.pc th = .idle
  good : s.bad = false

theorem upd_same {β : Type} (f : Nat → β) (i : Nat) (x : β) : upd f i x i = x := by simp [upd]
theorem upd_ne {β : Type} (f : Nat → β) {i j : Nat} (x : β) (h : j ≠ i) : upd f i x j = f j := by simp [upd, h]

theorem Inv.init : Inv (State.init R) [] where
  nodup := by simp
  seg := rfl
  fresh := fun _ _ => rfl
  usesOK := fun th d _ h => by simp [Uses, State.init, PC.use] at h
  uniq := fun th th' d h => by simp [Uses, State.init, PC.use] at h
  usesLt := fun th d h => by simp [Uses, State.init, PC.use] at h
  pcs := fun _ => trivial
  solo := fun th th' h => by simp [State.init, PC.maint] at h
  gone := fun th h => by simp [State.init] at h
  good := rfl

/-- a step that changes no links and moves one thread -/
theorem Inv.move {s : State R} {L : List Nat} (I : Inv s L) {s' : State R} {th : Nat} {p : PC R} (hg : s.gone th = false)
    (hheap : ∀ d t, s.heap d = some t → ∃ t', s'.heap d = some t' ∧ t'.prev = t.prev ∧ t'.next = t.next ∧ t'.retired = t.retired ∧ (d ∉ L → t' = t))
    (hnone : ∀ d, s.heap d = none → s'.heap d = none)
    (hid : s'.nextId = s.nextId) (hhead : s'.head = s.head) (hslot : s'.slot = s.slot) (hgone : s'.gone = s.gone) (hbad : s'.bad = s.bad)
    (hpc : s'.pc = upd s.pc th p)
    (huse : ∀ d, p.use = some d → Uses s th d ∧ d ∈ L) (hnl : (∃ d, s.slot th = some d ∧ d ∉ L) → False)
    (hok : PcOK s'.heap L p)
    (hm : p.maint = true → (s.pc th).maint = true ∨ ∀ th', (s.pc th').maint = false) : Inv s' L where
  nodup := I.nodup
  seg := by
    rw [hhead]
    exact I.seg.congr fun d _ t ht => by
      obtain ⟨t', h1, h2, h3, _⟩ := hheap d t ht
      exact ⟨t', h1, h2, h3⟩
  fresh := fun d hd => hnone d (I.fresh d (by rw [← hid]; exact hd))
  usesOK := by
    intro th' d hg' hu
    rw [hgone] at hg'
    by_cases h : th' = th
    · subst h
      have hu' : Uses s th' d ∧ d ∈ L := by
        rcases hu with hu | hu
        · rw [hslot] at hu
          refine ⟨.inl hu, ?_⟩
          by_cases hd : d ∈ L
          · exact hd
          · exact absurd ⟨d, hu, hd⟩ hnl
        · rw [hpc, upd_same] at hu
          exact huse d hu
      obtain ⟨t, h1, h2, _⟩ := I.usesOK th' d hg' hu'.1
      obtain ⟨t', e1, _, _, e2, _⟩ := hheap d t h1
      exact ⟨t', e1, e2.trans h2, .inl hu'.2⟩
    · have hu' : Uses s th' d := by
        rcases hu with hu | hu
        · left; rw [hslot] at hu; exact hu
        · right; rw [hpc, upd_ne _ _ h] at hu; exact hu
      obtain ⟨t, h1, h2, h3⟩ := I.usesOK th' d hg' hu'
      obtain ⟨t', e1, _, _, e2, _⟩ := hheap d t h1
      refine ⟨t', e1, e2.trans h2, ?_⟩
      rw [hpc, upd_ne _ _ h]
      exact h3
  uniq := by
    have key : ∀ th' d, Uses s' th' d → Uses s th' d := by
      intro th' d hu
      rcases hu with hu | hu
      · left; rw [hslot] at hu; exact hu
      · rw [hpc] at hu
        by_cases h : th' = th
        · subst h; rw [upd_same] at hu; exact (huse d hu).1
        · rw [upd_ne _ _ h] at hu; exact .inr hu
    exact fun th₁ th₂ d h1 h2 => I.uniq _ _ d (key _ _ h1) (key _ _ h2)
  usesLt := by
    intro th' d hu
    rw [hid]
    rcases hu with hu | hu
    · rw [hslot] at hu; exact I.usesLt th' d (.inl hu)
    · rw [hpc] at hu
      by_cases h : th' = th
      · subst h; rw [upd_same] at hu; exact I.usesLt _ _ (huse d hu).1
      · rw [upd_ne _ _ h] at hu; exact I.usesLt th' d (.inr hu)
  pcs := by
    intro th'
    rw [hpc]
    by_cases h : th' = th
    · subst h; rw [upd_same]; exact hok
    · rw [upd_ne _ _ h]
      have := I.pcs th'
      cases hp : s.pc th' <;> rw [hp] at this <;> simp only [PcOK] at this ⊢
      all_goals try exact this
      · obtain ⟨a1, t, a2, a3, a4⟩ := this
        obtain ⟨t', e1, _, _, _, e2⟩ := hheap _ t a2
        rw [e2 a1] at e1
        exact ⟨a1, t, e1, a3, a4⟩
      · obtain ⟨a1, t, a2, a3, a4⟩ := this
        obtain ⟨t', e1, _, e2, e3, _⟩ := hheap _ t a2
        exact ⟨a1, t', e1, e3.trans a3, e2.trans a4⟩
      · obtain ⟨a1, ⟨t, a2, a3⟩, a4⟩ := this
        obtain ⟨t', e1, _, _, e3, _⟩ := hheap _ t a2
        exact ⟨a1, ⟨t', e1, e3.trans a3⟩, a4⟩
  solo := by
    intro th₁ th₂ h1 h2
    rw [hpc] at h1 h2
    by_cases e1 : th₁ = th
    · by_cases e2 : th₂ = th
      · rw [e1, e2]
      · rw [e1, upd_same] at h1
        rw [upd_ne _ _ e2] at h2
        rcases hm h1 with h | h
        · rw [e1]; exact I.solo _ _ h h2
        · rw [h th₂] at h2; cases h2
    · rw [upd_ne _ _ e1] at h1
      by_cases e2 : th₂ = th
      · rw [e2, upd_same] at h2
        rcases hm h2 with h | h
        · rw [e2]; exact I.solo _ _ h1 h
        · rw [h th₁] at h1; cases h1
      · rw [upd_ne _ _ e2] at h2
        exact I.solo _ _ h1 h2
  gone := by
    intro th' hg'
    rw [hgone] at hg'
    rw [hpc, upd_ne _ _ (by rintro rfl; rw [hg] at hg'; cases hg')]
    exact I.gone th' hg'
  good := hbad.trans I.good

end Verif.AggThreads
