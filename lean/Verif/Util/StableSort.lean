import Mathlib.Data.List.Sort
import Mathlib.Data.List.Perm.Basic
import Mathlib.Data.List.Induction
/-!
# `std::stable_sort`

The C++ standard's contract of `std::stable_sort`, as used by `/repo/src/reader/TableFormatter.cpp:260-282` and
`/repo/src/reader/TreeFormatter.cpp:200-226`, `/repo/src/reader/SnapshotTree.cpp:69-87`: if the comparator is a strict weak ordering of the
elements, the result is the sorted permutation that keeps the order of equivalent elements.
-/
namespace Verif.Util

variable {α : Type}

/-- the comparator is a strict weak ordering of the elements of the list -/
structure SWO (lt : α → α → Bool) (l : List α) : Prop where
  irrefl : ∀ a ∈ l, lt a a = false
  trans : ∀ a ∈ l, ∀ b ∈ l, ∀ c ∈ l, lt a b = true → lt b c = true → lt a c = true
  incomp : ∀ a ∈ l, ∀ b ∈ l, ∀ c ∈ l, lt a b = false → lt b a = false → lt b c = false → lt c b = false → lt a c = false ∧ lt c a = false

/-- neither is less -/
def eqv (lt : α → α → Bool) (a b : α) : Bool := !lt a b && !lt b a

/-- `l'` is `l`, sorted, with equivalent elements in their old order -/
structure IsStableSort (lt : α → α → Bool) (l l' : List α) : Prop where
  perm : l'.Perm l
  sorted : l'.Pairwise fun a b => lt b a = false
  stable : ∀ x ∈ l, l'.filter (eqv lt x) = l.filter (eqv lt x)

/-- an implementation of `std::stable_sort`: it moves elements only, and meets the contract -/
structure Sorter where
  sort : {α : Type} → (α → α → Bool) → List α → List α
  perm : ∀ {α : Type} (lt : α → α → Bool) (l : List α), (sort lt l).Perm l
  contract : ∀ {α : Type} (lt : α → α → Bool) (l : List α), SWO lt l → IsStableSort lt l (sort lt l)

theorem SWO.asymm {lt : α → α → Bool} {l : List α} (h : SWO lt l) {a b : α} (ha : a ∈ l) (hb : b ∈ l) (hab : lt a b = true) : lt b a = false := by
  cases hba : lt b a with
  | false => rfl
  | true => have := h.trans a ha b hb a ha hab hba; rw [h.irrefl a ha] at this; exact this.symm

theorem SWO.le_trans {lt : α → α → Bool} {l : List α} (h : SWO lt l) {a b c : α} (ha : a ∈ l) (hb : b ∈ l) (hc : c ∈ l)
    (hab : lt b a = false) (hbc : lt c b = false) : lt c a = false := by
  cases hca : lt c a with
  | false => rfl
  | true =>
    cases h1 : lt a b with
    | true => have := h.trans c hc a ha b hb hca h1; rw [hbc] at this; exact this.symm
    | false =>
      cases h2 : lt b c with
      | true => have := h.trans b hb c hc a ha h2 hca; rw [hab] at this; exact this.symm
      | false => have := (h.incomp a ha b hb c hc h1 hab h2 hbc).2; rw [hca] at this; exact this

theorem SWO.mono {lt : α → α → Bool} {l l' : List α} (h : SWO lt l) (hs : ∀ x ∈ l', x ∈ l) : SWO lt l' :=
  ⟨fun a ha => h.irrefl a (hs a ha), fun a ha b hb c hc => h.trans a (hs a ha) b (hs b hb) c (hs c hc),
   fun a ha b hb c hc => h.incomp a (hs a ha) b (hs b hb) c (hs c hc)⟩

/-- keys compared through a function -/
theorem SWO.comap {β : Type} {lt : β → β → Bool} (f : α → β) {l : List α} (h : SWO lt (l.map f)) : SWO (fun a b => lt (f a) (f b)) l :=
  ⟨fun a ha => h.irrefl _ (List.mem_map_of_mem ha),
   fun a ha b hb c hc => h.trans _ (List.mem_map_of_mem ha) _ (List.mem_map_of_mem hb) _ (List.mem_map_of_mem hc),
   fun a ha b hb c hc => h.incomp _ (List.mem_map_of_mem ha) _ (List.mem_map_of_mem hb) _ (List.mem_map_of_mem hc)⟩

/-- the reverse comparison -/
theorem SWO.flip {lt : α → α → Bool} {l : List α} (h : SWO lt l) : SWO (fun a b => lt b a) l :=
  ⟨h.irrefl, fun a ha b hb c hc h1 h2 => h.trans c hc b hb a ha h2 h1,
   fun a ha b hb c hc h1 h2 h3 h4 => (h.incomp a ha b hb c hc h2 h1 h4 h3).symm⟩

/-- merge sort meets the contract -/
def mergeSorter : Sorter where
  sort lt l := (l.attach.mergeSort fun a b => !lt b.1 a.1).map Subtype.val
  perm lt l := by
    have := (List.mergeSort_perm l.attach fun a b => !lt b.1 a.1).map Subtype.val
    simpa using this
  contract := by
    intro α lt l h
    have tr : ∀ a b c : { x // x ∈ l }, (!lt b.1 a.1) = true → (!lt c.1 b.1) = true → (!lt c.1 a.1) = true := by
      intro a b c h1 h2
      simp only [Bool.not_eq_true'] at h1 h2 ⊢
      exact h.le_trans a.2 b.2 c.2 h1 h2
    have tot : ∀ a b : { x // x ∈ l }, ((!lt b.1 a.1) || (!lt a.1 b.1)) = true := by
      intro a b
      cases hb : lt b.1 a.1 with
      | false => rfl
      | true => simp [h.asymm b.2 a.2 hb]
    have hp : ((l.attach.mergeSort fun a b => !lt b.1 a.1).map Subtype.val).Perm l := by
      have := (List.mergeSort_perm l.attach fun a b => !lt b.1 a.1).map Subtype.val
      simpa using this
    refine ⟨hp, ?_, ?_⟩
    · rw [List.pairwise_map]
      refine (List.pairwise_mergeSort tr tot l.attach).imp ?_
      intro a b hab; simpa using hab
    · intro x hx
      have hsub : ((l.attach.filter fun y => eqv lt x y.1)).Sublist (l.attach.mergeSort fun a b => !lt b.1 a.1) := by
        refine List.sublist_mergeSort tr tot ?_ List.filter_sublist
        rw [List.pairwise_filter]
        refine List.Pairwise.imp ?_ (List.pairwise_of_forall (R := fun _ _ => True) (fun _ _ => trivial))
        intro a b _ ha hb
        simp only [eqv, Bool.and_eq_true, Bool.not_eq_true'] at ha hb ⊢
        exact (h.incomp b.1 b.2 x hx a.1 a.2 hb.2 hb.1 ha.1 ha.2).1
      have hs2 := (hsub.map Subtype.val).filter (eqv lt x)
      have e1 : ((l.attach.filter fun y => eqv lt x y.1).map Subtype.val).filter (eqv lt x) = l.filter (eqv lt x) := by
        have : (l.attach.filter fun y => eqv lt x y.1).map Subtype.val = l.filter (eqv lt x) := by
          have h3 := List.filter_map (p := eqv lt x) (f := Subtype.val) (l := l.attach)
          rw [List.attach_map_subtype_val] at h3
          rw [h3]; rfl
        rw [this, List.filter_filter]; simp
      rw [e1] at hs2
      exact (hs2.eq_of_length (hp.filter _).length_eq.symm).symm

/-- insertion of an element that comes before all of the list -/
def insertStable (lt : α → α → Bool) (a : α) : List α → List α
  | [] => [a]
  | b :: l => if lt b a then b :: insertStable lt a l else a :: b :: l

theorem insertStable_perm (lt : α → α → Bool) (a : α) : ∀ l : List α, (insertStable lt a l).Perm (a :: l)
  | [] => List.Perm.refl _
  | b :: l => by
    unfold insertStable
    split
    · exact ((insertStable_perm lt a l).cons b).trans (List.Perm.swap ..)
    · exact List.Perm.refl _

theorem insertStable_spec (lt : α → α → Bool) (a : α) : ∀ (l L : List α), SWO lt L → a ∈ L → (∀ x ∈ l, x ∈ L) →
    l.Pairwise (fun a b => lt b a = false) →
    (insertStable lt a l).Pairwise (fun a b => lt b a = false) ∧ ∀ x ∈ L, (insertStable lt a l).filter (eqv lt x) = (a :: l).filter (eqv lt x)
  | [], L, h, ha, hl, hs => ⟨List.pairwise_singleton _ _, fun _ _ => rfl⟩
  | b :: l, L, h, ha, hl, hs => by
    have hb : b ∈ L := hl b (List.mem_cons_self ..)
    rw [List.pairwise_cons] at hs
    obtain ⟨i1, i2⟩ := insertStable_spec lt a l L h ha (fun x hx => hl x (List.mem_cons_of_mem _ hx)) hs.2
    unfold insertStable
    split
    · rename_i hlt
      refine ⟨List.pairwise_cons.2 ⟨?_, i1⟩, ?_⟩
      · intro x hx
        rcases List.mem_cons.1 ((insertStable_perm lt a l).mem_iff.1 hx) with rfl | hx'
        · exact h.asymm hb ha hlt
        · exact hs.1 x hx'
      · intro x hx
        rw [List.filter_cons, i2 x hx, List.filter_cons, List.filter_cons, List.filter_cons]
        by_cases e1 : eqv lt x b = true
        · by_cases e2 : eqv lt x a = true
          · simp only [eqv, Bool.and_eq_true, Bool.not_eq_true'] at e1 e2
            have := (h.incomp b hb x hx a ha e1.2 e1.1 e2.1 e2.2).1
            rw [hlt] at this; exact absurd this (by simp)
          · simp [e1, e2]
        · simp [e1]
    · rename_i hlt
      rw [Bool.not_eq_true] at hlt
      refine ⟨List.pairwise_cons.2 ⟨?_, List.pairwise_cons.2 hs⟩, fun _ _ => rfl⟩
      intro x hx
      rcases List.mem_cons.1 hx with rfl | hx'
      · exact hlt
      · exact h.le_trans ha hb (hl x hx) hlt (hs.1 x hx')

theorem insertionSort_perm (lt : α → α → Bool) : ∀ l : List α, (l.foldr (insertStable lt) []).Perm l
  | [] => List.Perm.refl _
  | a :: l => (insertStable_perm lt a _).trans ((insertionSort_perm lt l).cons a)

theorem insertionSort_spec (lt : α → α → Bool) : ∀ (l L : List α), SWO lt L → (∀ x ∈ l, x ∈ L) →
    (l.foldr (insertStable lt) []).Pairwise (fun a b => lt b a = false) ∧
    ∀ x ∈ L, (l.foldr (insertStable lt) []).filter (eqv lt x) = l.filter (eqv lt x)
  | [], L, h, hl => ⟨List.Pairwise.nil, fun _ _ => rfl⟩
  | a :: l, L, h, hl => by
    obtain ⟨i1, i2⟩ := insertionSort_spec lt l L h fun x hx => hl x (List.mem_cons_of_mem _ hx)
    obtain ⟨j1, j2⟩ := insertStable_spec lt a (l.foldr (insertStable lt) []) L h (hl a (List.mem_cons_self ..))
      (fun x hx => hl x (List.mem_cons_of_mem _ ((insertionSort_perm lt l).mem_iff.1 hx))) i1
    refine ⟨j1, fun x hx => ?_⟩
    rw [List.foldr_cons, j2 x hx, List.filter_cons, List.filter_cons, i2 x hx]

/-- insertion sort meets the contract -/
def insertionSorter : Sorter where
  sort lt l := l.foldr (insertStable lt) []
  perm lt l := insertionSort_perm lt l
  contract lt l h :=
    ⟨insertionSort_perm lt l, (insertionSort_spec lt l l h fun _ hx => hx).1, (insertionSort_spec lt l l h fun _ hx => hx).2⟩

/-! ### successive stable sorts -/

/-- the loop `for key in keys: stable_sort(rows, key)` (`TableFormatter.cpp:260-282`, `TreeFormatter.cpp:210-223`) -/
def sortAll (S : Sorter) (keys : List (α → α → Bool)) (l : List α) : List α := keys.foldl (fun l lt => S.sort lt l) l

/-- **Spec.** `a` may stand before `b` when the first key of the list is the most significant one -/
def LexLe : List (α → α → Bool) → α → α → Prop
  | [], _, _ => True
  | lt :: ks, a, b => lt a b = true ∨ lt b a = false ∧ LexLe ks a b

/-- **Spec.** equivalent under all keys -/
def eqvAll (keys : List (α → α → Bool)) (a b : α) : Bool := keys.all fun lt => eqv lt a b

theorem pairwise_of_filter {E : α → α → Bool} {R : α → α → Prop} :
    ∀ {l : List α}, (∀ x ∈ l, (l.filter (E x)).Pairwise R) → (∀ x ∈ l, E x x = true) → l.Pairwise fun a b => E a b = true → R a b
  | [], _, _ => List.Pairwise.nil
  | a :: t, h, hr => by
    refine List.Pairwise.cons ?_ (pairwise_of_filter ?_ fun x hx => hr x (List.mem_cons_of_mem _ hx))
    · intro b hb hE
      have h1 := h a (List.mem_cons_self ..)
      rw [List.filter_cons_of_pos (hr a (List.mem_cons_self ..)), List.pairwise_cons] at h1
      exact h1.1 b (List.mem_filter.2 ⟨hb, hE⟩)
    · intro x hx
      exact (h x (List.mem_cons_of_mem _ hx)).sublist ((List.sublist_cons_self a t).filter _)

theorem sortAll_perm (S : Sorter) (keys : List (α → α → Bool)) (l : List α) : (sortAll S keys l).Perm l := by
  induction keys generalizing l with
  | nil => exact List.Perm.refl _
  | cons k ks ih => exact (ih _).trans (S.perm k l)

/-- after the loop the rows are ordered by the last key, equivalent ones by the key before it, and so on; rows equivalent under all keys are
in input order -/
theorem sortAll_spec (S : Sorter) (keys : List (α → α → Bool)) (l : List α) (h : ∀ lt ∈ keys, SWO lt l) :
    (sortAll S keys l).Pairwise (LexLe keys.reverse) ∧
    ∀ x ∈ l, (sortAll S keys l).filter (eqvAll keys x) = l.filter (eqvAll keys x) := by
  induction keys using List.reverseRecOn with
  | nil =>
    refine ⟨List.pairwise_of_forall fun _ _ => trivial, fun x _ => rfl⟩
  | append_singleton ks lt ih =>
    obtain ⟨ih1, ih2⟩ := ih fun k hk => h k (List.mem_append_left _ hk)
    have hw : SWO lt l := h lt (by simp)
    have hp := sortAll_perm S ks l
    have hc := S.contract lt (sortAll S ks l) (hw.mono fun x hx => hp.mem_iff.1 hx)
    have e : sortAll S (ks ++ [lt]) l = S.sort lt (sortAll S ks l) := by simp [sortAll]
    rw [e]
    have hm : ∀ {x}, x ∈ S.sort lt (sortAll S ks l) → x ∈ l := fun hx => hp.mem_iff.1 (hc.perm.mem_iff.1 hx)
    refine ⟨?_, ?_⟩
    · rw [List.reverse_append]
      have h1 : (S.sort lt (sortAll S ks l)).Pairwise fun a b => eqv lt a b = true → LexLe ks.reverse a b := by
        refine pairwise_of_filter ?_ fun x hx => by simp [eqv, hw.irrefl x (hm hx)]
        intro x hx
        rw [hc.stable x (hc.perm.mem_iff.1 hx)]
        exact ih1.sublist List.filter_sublist
      refine (h1.and hc.sorted).imp ?_
      intro a b hab
      show lt a b = true ∨ lt b a = false ∧ LexLe ks.reverse a b
      cases hl : lt a b with
      | true => exact .inl rfl
      | false => exact .inr ⟨hab.2, hab.1 (by simp [eqv, hl, hab.2])⟩
    · intro x hx
      have e2 : ∀ m : List α, m.filter (eqvAll (ks ++ [lt]) x) = (m.filter (eqv lt x)).filter (eqvAll ks x) := by
        intro m
        rw [List.filter_filter]
        congr 1
        funext y
        simp [eqvAll]
      rw [e2, e2, hc.stable x (hp.mem_iff.2 hx), List.filter_filter, List.filter_filter]
      have e3 : ∀ m : List α, m.filter (fun a => eqvAll ks x a && eqv lt x a) = (m.filter (eqvAll ks x)).filter (eqv lt x) := by
        intro m; rw [List.filter_filter]; congr 1; funext y; exact Bool.and_comm _ _
      rw [e3, e3, ih2 x hx]

/-- with one key this is an ordinary stable sort -/
example (S : Sorter) (l : List Nat) : (sortAll S [fun a b => decide (a < b)] l).Pairwise (· ≤ ·) := by
  have := (sortAll_spec S [fun a b => decide (a < b)] l (by
    intro lt h; simp only [List.mem_singleton] at h; subst h
    exact ⟨by simp, by simp; omega, by simp; omega⟩)).1
  refine this.imp ?_
  intro a b h
  simp [LexLe] at h
  omega

end Verif.Util
