import Verif.Splay.Ops

/-! The public operations of the tree on represented trees. -/

namespace Verif.Splay

variable {α : Type} {κ : Type} [LinearOrder κ]

/-- The tree object holds exactly the elements of `L`, in this order. -/
def Represents (t : Tree α) (L : List α) : Prop :=
  ∃ m : T α, Zip t.heap m [] ∧ t.root = m.ptr ∧ vals m.flat = L

theorem whole_nil (t : T α) : whole t [] = t.flat := by simp [whole, pre, post]

theorem zip_length {h : Heap α} {t : T α} {c} (z : Zip h t c) : (whole t c).length ≤ h.next := by
  have hd := z.dist
  unfold Distinct at hd
  have hsub : List.map (fun x : Nat × α => x.1) (whole t c) ⊆ List.range h.next := by
    intro j hj
    rw [mem_whole'] at hj
    exact List.mem_range.2 (z.bound j hj)
  have := (List.subperm_of_subset hd hsub).length_le
  simpa [whole] using this

theorem ctx_length (c : List (Frame α)) : c.length ≤ (pre c).length + (post c).length := by
  induction c with
  | nil => simp
  | cons f fs ih =>
    cases hf : f.isR <;> simp [pre, post, hf] <;> omega

theorem zip_fuel {h : Heap α} {t : T α} {c} (z : Zip h t c) :
    c.length ≤ h.next ∧ t.flat.length ≤ h.next := by
  have := zip_length z
  have h2 := ctx_length c
  simp only [whole, List.length_append] at this
  omega

theorem represents_empty : Represents (Tree.empty : Tree α) [] :=
  ⟨.leaf, ⟨trivial, trivial, by simp [Distinct, pre, post, T.flat], by
    intro j hj; simp [T.ids, T.flat, idsC, pre, post] at hj⟩, rfl, rfl⟩

/-- A splayed zipper is the tree again. -/
theorem zip_of_splayed {h h' : Heap α} {c i} {v : α} {l r l' r'} (z : Zip h (.node l i v r) c)
    (S : Splayed h h' c i v l r l' r') :
    Zip h' (.node l' i v r') [] ∧ whole (.node l' i v r') [] = whole (.node l i v r) c := by
  have hw : whole (.node l' i v r') [] = whole (.node l i v r) c := by
    rw [whole_nil]
    simp [whole, T.flat, S.fl, S.fr]
  refine ⟨⟨S.rep, trivial, ?_, ?_⟩, hw⟩
  · have := z.dist
    unfold Distinct at this ⊢
    unfold whole at hw
    rw [hw]; exact this
  · intro j hj
    rw [← mem_whole', hw, mem_whole'] at hj
    rw [S.next]; exact z.bound j hj

theorem insert_spec {cmp : α → α → Int} {key : α → κ} (hcmp : IsCmp cmp key) {t : Tree α} {L : List α}
    (hr : Represents t L) (hs : Sorted key L) (v : α) :
    ∃ t' L', t.insert cmp v = some t' ∧ Represents t' L' ∧ Sorted key L' ∧
      ∀ y, y ∈ L' ↔ y = v ∨ (y ∈ L ∧ key y ≠ key v) := by
  obtain ⟨m, z, hroot, hv⟩ := hr
  cases m with
  | leaf =>
    simp only [T.ptr] at hroot
    simp only [T.flat, vals, List.map_nil] at hv
    subst hv
    refine ⟨_, [v], by simp only [Tree.insert, hroot]; rfl, ⟨.node .leaf t.heap.next v .leaf, ⟨⟨?_, trivial, trivial⟩, trivial, ?_, ?_⟩, rfl, rfl⟩, ?_, ?_⟩
    · show (t.heap.set t.heap.next _).mem t.heap.next = _
      rw [set_mem, if_pos rfl]; rfl
    · simp [Distinct, pre, post, T.flat]
    · intro j hj
      simp [T.ids, T.flat, idsC, pre, post] at hj
      subst hj
      exact Nat.lt_succ_self _
    · simp [Sorted]
    · simp
  | node l i w r =>
    simp only [T.ptr] at hroot
    have hz := zip_fuel z
    obtain ⟨h1, x, c1, l1, r1, e1, I⟩ := nodeInsert_spec hcmp v l i w r [] t.fuel t.heap L z
      (by unfold Tree.fuel; omega) (by rw [whole_nil]; exact hv) hs (by simp [pre]) (by simp [post])
    have hz1 := zip_fuel I.zip
    have hnx := I.next
    obtain ⟨h2, l2, r2, e2, S⟩ := splay_spec c1.length t.fuel c1 h1 l1 r1 x v (Nat.le_refl _)
      (by unfold Tree.fuel; omega) I.zip.rep I.zip.ctx I.zip.dist
    obtain ⟨z2, hw⟩ := zip_of_splayed I.zip S
    rw [whole_nil] at hw
    refine ⟨⟨h2, some x⟩, _, ?_, ⟨.node l2 x v r2, z2, rfl, rfl⟩, ?_, ?_⟩
    · simp only [Tree.insert, hroot, e1, Option.bind_eq_bind, Option.bind_some, e2]; rfl
    · rw [hw]; exact I.sorted
    · intro y; rw [hw]; exact I.mem y

/-- `find` on a represented tree. -/
theorem find_spec {key : α → κ} {t : Tree α} {L : List α} (hr : Represents t L) (hs : Sorted key L)
    (p : α → Int) (hp : IsPred p key L) :
    (t.find p = some none ∧ ∀ x ∈ L, p x ≠ 0) ∨
    (∃ x w l r c, t.find p = some (some x) ∧ Zip t.heap (.node l x w r) c ∧ p w = 0 ∧
      vals (whole (.node l x w r) c) = L) := by
  obtain ⟨m, z, hroot, hv⟩ := hr
  cases m with
  | leaf =>
    simp only [T.ptr] at hroot
    simp only [T.flat, vals, List.map_nil] at hv
    subst hv
    left
    exact ⟨by simp only [Tree.find, hroot], by simp⟩
  | node l i w r =>
    simp only [T.ptr] at hroot
    have hz := zip_fuel z
    have e0 : t.find p = nodeFind p t.fuel t.heap i := by simp only [Tree.find, hroot]
    rw [e0]
    rcases nodeFind_spec (key := key) p _ l i w r rfl [] t.fuel t.heap L z (by unfold Tree.fuel; omega)
      (by rw [whole_nil]; exact hv) hs hp (by simp [pre]) (by simp [post]) with h | ⟨x, w', l', r', c', e, z', hp', hw⟩
    · exact Or.inl h
    · right
      exact ⟨x, w', l', r', c', e, z', hp', by rw [hw, whole_nil]; exact hv⟩

theorem deref_spec {t : Tree α} {l r : T α} {x w c} (z : Zip t.heap (.node l x w r) c) : t.deref x = some w := by
  simp [Tree.deref, Heap.get, z.rep.1]

theorem flat_nil {t : T α} (h : t.flat = []) : t = .leaf := by
  cases t with
  | leaf => rfl
  | node l i v r => simp [T.flat] at h

theorem modifyIf_parent {h : Heap α} {p hd} {t : T α} (hr : Rep h p hd t) (p') :
    h.modifyIf t.ptr (fun x => { x with parent := p' }) = h.modifyIf t.ptr (fun x => { x with parent := p', hand := hd }) := by
  cases t with
  | leaf => rfl
  | node l i v r =>
    simp only [T.ptr, Heap.modifyIf]
    rw [modify_some hr.1, modify_some hr.1]

/-- `remove` on a handle returned by `find`. -/
theorem remove_spec {t : Tree α} {l r : T α} {x w c} (z : Zip t.heap (.node l x w r) c) :
    ∃ t', t.remove x = some t' ∧
      Represents t' (vals (pre c ++ l.flat) ++ vals (r.flat ++ post c)) := by
  have hz := zip_fuel z
  obtain ⟨h1, l1, r1, e1, S⟩ := splay_spec c.length t.fuel c t.heap l r x w (Nat.le_refl _)
    (by unfold Tree.fuel; omega) z.rep z.ctx z.dist
  obtain ⟨z1, hw1⟩ := zip_of_splayed z S
  obtain ⟨⟨a, b, cc⟩, d, e, bd⟩ := id z1
  obtain ⟨dn, _, _⟩ := distinct_ids e
  obtain ⟨n1, n2, n3, n4, n5⟩ := nodup_node dn
  have nxt : h1.next = t.heap.next := S.next
  have hz1 := zip_fuel z1
  have bd1 : ∀ j ∈ (T.node l1 x w r1).ids, j < h1.next := fun j hj => bd j (Or.inl hj)
  rw [← S.fl, ← S.fr]
  cases hl1 : l1 with
  | leaf =>
    cases hr1 : r1 with
    | leaf =>
      refine ⟨⟨h1.free x, none⟩, ?_, ⟨.leaf, ⟨trivial, trivial, by simp [Distinct, pre, post, T.flat], by
        intro j hj; simp [T.ids, T.flat, idsC, pre, post] at hj⟩, rfl, rfl⟩⟩
      simp only [Tree.remove, e1, Option.bind_eq_bind, Option.bind_some, Heap.get, a, hl1, hr1, T.ptr]; rfl
    | node a2 i2 v2 b2 =>
      rw [← hr1]
      obtain ⟨h2, e2, p2, nx2, fr2⟩ := rep_reparent cc n5 none .na
      have hp : r1.ptr = some i2 := by rw [hr1]; rfl
      have hpl : l1.ptr = none := by rw [hl1]; rfl
      rw [hp] at e2
      refine ⟨⟨h2.free x, some i2⟩, ?_, ⟨r1, ⟨?_, trivial, ?_, ?_⟩, hp.symm, by simp [T.flat, vals]⟩⟩
      · simp only [Tree.remove, e1, Option.bind_eq_bind, Option.bind_some, Heap.get, a, hpl, hp]
        simp only [Heap.modifyIf] at e2
        rw [e2]; rfl
      · refine rep_frame (fun j hj => ?_) p2
        have : j ≠ x := fun e => n2 (e ▸ hj)
        show (if j = x then none else h2.mem j) = _
        rw [if_neg this]
      · unfold Distinct
        simpa [pre, post, T.ids] using n5
      · intro j hj
        show j < h2.next
        rw [nx2]
        refine bd1 j ((mem_ids_node ..).2 (Or.inr (Or.inr ?_)))
        simpa [idsC, pre, post] using hj
  | node a2 i2 v2 b2 =>
    rw [← hl1]
    have hp : l1.ptr = some i2 := by rw [hl1]; rfl
    obtain ⟨h2, e2, p2, nx2, fr2⟩ := rep_reparent b n4 none .na
    rw [hp] at e2
    -- the left subtree as a tree of its own
    have z2 : Zip h2 (.node a2 i2 v2 b2) [] := by
      rw [← hl1]
      refine ⟨p2, trivial, ?_, ?_⟩
      · unfold Distinct; simpa [pre, post, T.ids] using n4
      · intro j hj
        rw [nx2]
        refine bd1 j ((mem_ids_node ..).2 (Or.inr (Or.inl ?_)))
        simpa [idsC, pre, post] using hj
    have hlen : (T.node a2 i2 v2 b2).flat.length ≤ t.fuel := by
      have := (zip_fuel z2).2
      unfold Tree.fuel
      omega
    obtain ⟨y, w', l', c', e3, z3, hpost, hw3⟩ := nodeFindMax_spec _ a2 i2 v2 b2 rfl [] t.fuel h2 z2 hlen rfl
    have hz3 := zip_fuel z3
    obtain ⟨h4, l4, r4, e4, S4⟩ := splay_spec c'.length t.fuel c' h2 l' .leaf y w' (Nat.le_refl _)
      (by unfold Tree.fuel; omega) z3.rep z3.ctx z3.dist
    obtain ⟨z4, hw4⟩ := zip_of_splayed z3 S4
    have hr4 : r4 = .leaf := flat_nil (by rw [S4.fr, hpost]; rfl)
    subst hr4
    rw [hw3, whole_nil, ← hl1, whole_nil] at hw4
    -- ids of the left tree
    have hids : (T.node l4 y w' .leaf).ids = l1.ids := by simp only [T.ids]; rw [hw4]
    have hout : ∀ j, j ∉ l1.ids → h4.mem j = h1.mem j := by
      intro j hj
      have : j ∉ (T.node l' y w' .leaf).ids ∧ j ∉ idsC c' := by
        have k : ¬ (j ∈ (T.node l' y w' .leaf).ids ∨ j ∈ idsC c') := by
          rw [← mem_whole', hw3, whole_nil, ← hl1]; exact hj
        exact ⟨fun h => k (Or.inl h), fun h => k (Or.inr h)⟩
      rw [S4.frame j this.1 this.2, fr2 j hj]
    obtain ⟨⟨a4, b4, _⟩, _, e4d, bd4⟩ := id z4
    have m4 : h4.mem x = some ⟨none, l1.ptr, r1.ptr, w, .na⟩ := by rw [hout x n1]; exact a
    have hy1 : y ∈ l1.ids := by rw [← hids]; exact (mem_ids_node ..).2 (Or.inl rfl)
    have hyx : y ≠ x := fun e => n1 (e ▸ hy1)
    obtain ⟨dn4, _, _⟩ := distinct_ids e4d
    obtain ⟨k1, _, _, k4, _⟩ := nodup_node dn4
    let h5 := h4.set y ⟨none, l4.ptr, r1.ptr, w', .na⟩
    have e5 : h4.modify y (fun x => { x with right := r1.ptr }) = some h5 := modify_some a4 _
    have cc5 : Rep h5 (some x) .right r1 := by
      refine rep_frame (fun j hj => ?_) cc
      have j1 : j ≠ y := fun e => n3 y hy1 (e ▸ hj)
      rw [set_mem, if_neg j1, hout j (fun hm => n3 j hm hj)]
    obtain ⟨h6, e6, p6, nx6, fr6⟩ := rep_reparent cc5 n5 (some y) .right
    rw [← modifyIf_parent cc5] at e6
    refine ⟨⟨h6.free x, some y⟩, ?_, ⟨.node l4 y w' r1, ⟨⟨?_, ?_, ?_⟩, trivial, ?_, ?_⟩, rfl, ?_⟩⟩
    · simp only [Tree.remove, e1, Option.bind_eq_bind, Option.bind_some, Heap.get, a, hp]
      simp only [Heap.modifyIf] at e2
      rw [e2]
      simp only [Option.bind_some, e3, e4, m4, e5, e6]
      rfl
    · show (if y = x then none else h6.mem y) = _
      rw [if_neg hyx, fr6 y (n3 y hy1), set_mem, if_pos rfl]; rfl
    · refine rep_frame (fun j hj => ?_) b4
      have jl : j ∈ l1.ids := by rw [← hids]; exact (mem_ids_node ..).2 (Or.inr (Or.inl hj))
      have j1 : j ≠ x := fun e => n1 (e ▸ jl)
      have j2 : j ≠ y := fun e => k1 (e ▸ hj)
      show (if j = x then none else h6.mem j) = _
      rw [if_neg j1, fr6 j (n3 j jl), set_mem, if_neg j2]
    · refine rep_frame (fun j hj => ?_) p6
      have j1 : j ≠ x := fun e => n2 (e ▸ hj)
      show (if j = x then none else h6.mem j) = _
      rw [if_neg j1]
    · unfold Distinct
      simp only [pre, post, List.nil_append, List.append_nil]
      have hfl : (T.node l4 y w' r1).flat = l1.flat ++ r1.flat := by
        rw [← hw4]; simp [T.flat]
      rw [hfl, List.map_append, List.nodup_append]
      exact ⟨n4, n5, fun p hp q hq e => n3 p hp (e ▸ hq)⟩
    · intro j hj
      have hj' : j ∈ l1.ids ∨ j ∈ r1.ids := by
        rcases hj with hj | hj
        · rcases (mem_ids_node ..).1 hj with rfl | hj | hj
          · exact Or.inl hy1
          · left; rw [← hids]; exact (mem_ids_node ..).2 (Or.inr (Or.inl hj))
          · exact Or.inr hj
        · simp [idsC, pre, post] at hj
      have : j < h1.next := bd1 j ((mem_ids_node ..).2 (Or.inr hj'))
      show j < h6.next
      have h54 : h5.next = h4.next := rfl
      rw [nx6, h54, S4.next, nx2]; exact this
    · have hfl : (T.node l4 y w' r1).flat = l1.flat ++ r1.flat := by
        rw [← hw4]; simp [T.flat]
      rw [hfl]; simp [vals]

end Verif.Splay
