import Verif.Runtime.Spec
import Verif.Tree.Ops
import Verif.Blackboard.Refine
namespace Verif.RT
open MTree

/-! ### blackboard facts -/

theorem bb_get {bb : Board} {p : BB.Spec Entry} (h : BB.Rel bb p) {k : Nat} (hk : k ≠ invId) :
    BB.get bb k = some ((p.m k).getD default) := by
  obtain ⟨s', h1, _⟩ := h.step (.get k) hk
  simp only [BB.step, BB.Spec.step] at h1
  cases hg : BB.get bb k with
  | none => rw [hg] at h1; simp at h1
  | some x => rw [hg] at h1; simp at h1; rw [h1.2]

theorem bb_set {bb : Board} {p : BB.Spec Entry} (h : BB.Rel bb p) {k : Nat} (hk : k ≠ invId) (e : Entry) (incl : Bool) :
    ∃ bb', BB.set bb k e incl = some bb' ∧ BB.Rel bb' (p.put k e) := by
  obtain ⟨s', h1, h2⟩ := h.step (.set k e incl) hk
  simp only [BB.step, BB.Spec.step] at h1 h2
  cases hg : BB.set bb k e incl with
  | none => rw [hg] at h1; simp at h1
  | some x => rw [hg] at h1; simp at h1; subst h1; exact ⟨_, rfl, h2⟩

theorem bb_del {bb : Board} {p : BB.Spec Entry} (h : BB.Rel bb p) {k : Nat} (hk : k ≠ invId) :
    ∃ bb', BB.del bb k = some bb' ∧ BB.Rel bb' (p.erase k) := by
  obtain ⟨s', h1, h2⟩ := h.step (.del k) hk
  simp only [BB.step, BB.Spec.step] at h1 h2
  cases hg : BB.del bb k with
  | none => rw [hg] at h1; simp at h1
  | some x => rw [hg] at h1; simp at h1; subst h1; exact ⟨_, rfl, h2⟩

theorem put_skipped {p : BB.Spec Entry} {k : Nat} {e : Entry} (h : (p.put k e).skipped = p.skipped) :
    (p.put k e).m = fun j => if j = k then some e else p.m j := by
  unfold BB.Spec.put at h ⊢
  split
  · rfl
  · split
    · rfl
    · rename_i h1 h2
      simp only [h1, if_neg h2] at h
      omega

theorem erase_m {p : BB.Spec Entry} {k : Nat} : (p.erase k).m = fun j => if j = k then none else p.m j := by
  unfold BB.Spec.erase
  split
  · rfl
  · rename_i h
    funext j
    split
    · rename_i e; rw [e]; exact h
    · rfl

theorem erase_skipped {p : BB.Spec Entry} {k : Nat} : (p.erase k).skipped = p.skipped := by
  unfold BB.Spec.erase; split <;> rfl

theorem set_mono {bb bb' : Board} {k : Nat} {e : Entry} {incl : Bool} (h : BB.set bb k e incl = some bb') :
    bb.skipped ≤ bb'.skipped := by
  unfold BB.set at h
  cases hf : BB.findExisting bb k with
  | none => rw [hf] at h; simp at h
  | some i =>
    rw [hf, Option.bind_some] at h
    split at h
    · simp at h; subst h; exact Nat.le_refl _
    · unfold BB.add at h
      cases hg : BB.findFree bb k with
      | none => rw [hg] at h; simp at h
      | some j =>
        rw [hg] at h
        simp only [Option.map_some, Option.some.injEq] at h
        subst h
        simp only
        split
        · exact Nat.le_succ _
        · simp only; split <;> exact Nat.le_refl _

theorem del_mono {bb bb' : Board} {k : Nat} (h : BB.del bb k = some bb') : bb.skipped ≤ bb'.skipped := by
  unfold BB.del at h
  cases hf : BB.findExisting bb k with
  | none => rw [hf] at h; simp at h
  | some i =>
    rw [hf, Option.bind_some] at h
    split at h
    · simp at h; subst h; exact Nat.le_refl _
    · cases hd : BB.delLoop BB.Nmax bb.key bb.val i i with
      | none => rw [hd] at h; simp at h
      | some x =>
        obtain ⟨k', v', I⟩ := x
        rw [hd] at h
        simp at h
        rw [← h]; exact Nat.le_refl _

/-! ### simulation of one blackboard -/

/-- a slot holding a path -/
def Slot (t : Tree) (e : Option Entry) (l : PathL) : Prop :=
  (∀ x ∈ l, 12 ≤ x.1) ∧
  match e with
  | none => l = []
  | some e => l ≠ [] ∧ ∃ n, e = Entry.ofNode t n ∧ Path t n l

/-- a slot holding an as-value attribute's value -/
def ValSlot (t : Tree) (k : Nat) (e : Option Entry) (v : Option Val) : Prop :=
  match e, v with
  | none, none => True
  | some e, some v => ∃ p, e = ⟨some p, v⟩ ∧ Live t p ∧ p ≠ .root ∧ t.idOf p = k ∧ t.attrOf p = nameAttr
  | _, _ => False

structure CtxRel (t : Tree) (bb : Board) (c : Ctx) : Prop where
  ex : ∃ p, BB.Rel bb p ∧ Slot t (p.m 1) c.region ∧ Slot t (p.m 2) c.unal ∧
    ∀ k, k ≠ 1 → k ≠ 2 → k ≠ invId → ValSlot t k (p.m k) (c.vals k)

theorem Slot.ext {t t' : Tree} (x : Ext t t') {e : Option Entry} {l : PathL} (h : Slot t e l) : Slot t' e l := by
  obtain ⟨h0, h⟩ := h
  refine ⟨h0, ?_⟩
  cases e with
  | none => exact h
  | some e =>
    obtain ⟨h1, n, rfl, h3⟩ := h
    exact ⟨h1, n, by simp [Entry.ofNode, x.valOf h3.live], x.path h3⟩

theorem ValSlot.ext {t t' : Tree} (x : Ext t t') {k : Nat} {e : Option Entry} {v : Option Val} (h : ValSlot t k e v) :
    ValSlot t' k e v := by
  unfold ValSlot at h ⊢
  split at h
  · trivial
  · obtain ⟨p, h1, h2, h3, h4, h5⟩ := h
    exact ⟨p, h1, x.live h2, h3, by rw [x.idOf h2]; exact h4, by rw [x.attrOf h2]; exact h5⟩
  · exact h

theorem CtxRel.ext {t t' : Tree} (x : Ext t t') {bb : Board} {c : Ctx} (h : CtxRel t bb c) : CtxRel t' bb c := by
  obtain ⟨p, h1, h2, h3, h4⟩ := h
  exact ⟨p, h1, h2.ext x, h3.ext x, fun k a b c => (h4 k a b c).ext x⟩

theorem CtxRel.empty (t : Tree) : CtxRel t BB.init Ctx.empty := by
  refine ⟨_, BB.Rel.init, ?_, ?_, ?_⟩
  · exact ⟨by simp [Ctx.empty], rfl⟩
  · exact ⟨by simp [Ctx.empty], rfl⟩
  · intro k _ _ _; trivial

theorem Attr.Valid.ext {t t' : Tree} (x : Ext t t') {a : Attr} (h : a.Valid t) : a.Valid t' := by
  obtain ⟨h1, h2, h3, h4, h5⟩ := h
  exact ⟨x.live h1, h2, by rw [x.idOf h1]; exact h3, by rw [x.attrOf h1]; exact h4, h5⟩

/-! ### paths -/

theorem innermost_none {a : Nat} {l : PathL} (h : ∀ e ∈ l, e.1 ≠ a) : innermost a l = none := by
  unfold innermost
  rw [List.find?_eq_none.2]
  · rfl
  · intro x hx; simp; exact h x (by simpa using hx)

theorem innermost_split {a : Nat} {v : Val} {l₁ l₂ : PathL} (h : ∀ e ∈ l₂, e.1 ≠ a) :
    innermost a (l₁ ++ [(a, v)] ++ l₂) = some v := by
  unfold innermost
  simp only [List.reverse_append, List.reverse_cons, List.reverse_nil, List.nil_append]
  rw [List.find?_append, List.find?_eq_none.2]
  · simp
  · intro x hx; simp; exact h x (by simpa using hx)

/-- either the attribute does not occur, or there is an innermost occurrence -/
theorem inner_cases (a : Nat) (l : PathL) : (∀ e ∈ l, e.1 ≠ a) ∨ ∃ l₁ v l₂, l = l₁ ++ [(a, v)] ++ l₂ ∧ ∀ e ∈ l₂, e.1 ≠ a := by
  induction l using List.reverseRecOn with
  | nil => left; simp
  | append_singleton l x ih =>
    by_cases hx : x.1 = a
    · right; exact ⟨l, x.2, [], by simp [← hx], by simp⟩
    · rcases ih with h | ⟨l₁, v, l₂, rfl, h⟩
      · left; intro e he; rcases List.mem_append.1 he with he | he
        · exact h e he
        · simp at he; rw [he]; exact hx
      · right; refine ⟨l₁, v, l₂ ++ [x], by simp, ?_⟩
        intro e he; rcases List.mem_append.1 he with he | he
        · exact h e he
        · simp at he; rw [he]; exact hx

/-- what `Entry::get` finds on a path -/
theorem get_path {t : Tree} (I : Inv t) {n : Ptr} {l : PathL} (hn : Path t n l) (hl : l ≠ []) (h12 : ∀ x ∈ l, 12 ≤ x.1)
    {a : Attr} (ha : a.Valid t) :
    ((Entry.ofNode t n).get t a.id = default ∧ ∀ e ∈ l, e.1 ≠ a.id) ∨
    ∃ l₁ v l₂ q, l = l₁ ++ [(a.id, v)] ++ l₂ ∧ (∀ e ∈ l₂, e.1 ≠ a.id) ∧
      (Entry.ofNode t n).get t a.id = Entry.ofNode t q ∧ Path t q (l₁ ++ [(a.id, v)]) ∧ t.valOf q = v := by
  obtain ⟨g1, g2, g3, g4, g5, g6⟩ := ha
  rcases snoc_cases l with rfl | ⟨l', x, v, rfl⟩
  · exact absurd rfl hl
  obtain ⟨q, h1, h2, h3, h4⟩ := parentOf_path hn
  have hx : 12 ≤ x := h12 (x, v) (by simp)
  have hnr : n ≠ .root := by
    rintro rfl
    simp [Tree.parentOf, Tree.get?] at h1
  have hid : t.idOf n ≠ a.id := by
    intro he
    have := I.idOf_inj hn.live g1 hnr g2 (he.trans g3.symm)
    rw [← this, h3] at g4
    simp [nameAttr] at g4; omega
  have hat : t.attrOf n ≠ nameAttr := by rw [h3]; simp [nameAttr]; omega
  have hr := hn.rank I
  have hfu : t.fuelOf (some n) = (l' ++ [(x, v)]).length + 3 := by simp [Tree.fuelOf, hr]
  have e : (Entry.ofNode t n).get t a.id = match findUp t a.id (t.fuelOf (some n)) (some n) with
      | some m => Entry.ofNode t m
      | none => default := by
    unfold Entry.get Entry.ofNode
    simp only
    rw [if_neg hid, if_pos hat]
    rfl
  rcases findUp_spec I g6 hn (fuel := t.fuelOf (some n)) (by rw [hfu]; omega) with ⟨k1, k2⟩ | ⟨l₁, w, l₂, q', k1, k2, k3, k4⟩
  · left; rw [e, k1]; exact ⟨rfl, k2⟩
  · right
    obtain ⟨_, _, _, _, hv⟩ := parentOf_path k4
    exact ⟨l₁, w, l₂, q', k1, k2, by rw [e, k3], k4, hv⟩

theorem attribute_path {t : Tree} {n : Ptr} {l : PathL} {x : Nat} {v : Val} (hn : Path t n (l ++ [(x, v)])) (hx : 12 ≤ x) :
    (Entry.ofNode t n).attribute t = x := by
  obtain ⟨q, h1, h2, h3, h4⟩ := parentOf_path hn
  unfold Entry.attribute Entry.ofNode
  simp only
  rw [h3, if_neg (by simp [nameAttr]; omega)]

end Verif.RT
