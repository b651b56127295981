import Verif.Splay.Lemmas

/-! The operations of `Verif.Splay.Model` on represented trees. -/

namespace Verif.Splay

variable {α : Type} {κ : Type} [LinearOrder κ]

/-- A zipper over a heap. -/
structure Zip (h : Heap α) (t : T α) (c : List (Frame α)) : Prop where
  rep : Rep h (parC c) (handC c) t
  ctx : RepC h c
  dist : Distinct t c
  bound : ∀ j, j ∈ t.ids ∨ j ∈ idsC c → j < h.next

/-- All elements in a zipper, in tree order. -/
def whole (t : T α) (c : List (Frame α)) : List (Nat × α) := pre c ++ t.flat ++ post c

theorem whole_left (l r : T α) (i w) (c : List (Frame α)) :
    whole l (⟨false, i, w, r⟩ :: c) = whole (.node l i w r) c := by
  simp [whole, pre, post, T.flat]

theorem whole_right (l r : T α) (i w) (c : List (Frame α)) :
    whole r (⟨true, i, w, l⟩ :: c) = whole (.node l i w r) c := by
  simp [whole, pre, post, T.flat]

theorem mem_whole' {t : T α} {c} {j : Nat} :
    j ∈ List.map (fun x : Nat × α => x.1) (whole t c) ↔ j ∈ t.ids ∨ j ∈ idsC c := mem_whole

theorem zip_left {h : Heap α} {l r : T α} {i w c} (z : Zip h (.node l i w r) c) :
    Zip h l (⟨false, i, w, r⟩ :: c) := by
  obtain ⟨⟨a, b, cc⟩, d, e, f⟩ := z
  refine ⟨b, ⟨⟨l.ptr, by simpa using a⟩, cc, d⟩, ?_, ?_⟩
  · unfold Distinct at e ⊢
    have := whole_left l r i w c
    unfold whole at this
    rw [this]; exact e
  · intro j hj
    rw [← mem_whole', whole_left, mem_whole'] at hj
    exact f j hj

theorem zip_right {h : Heap α} {l r : T α} {i w c} (z : Zip h (.node l i w r) c) :
    Zip h r (⟨true, i, w, l⟩ :: c) := by
  obtain ⟨⟨a, b, cc⟩, d, e, f⟩ := z
  refine ⟨cc, ⟨⟨r.ptr, by simpa using a⟩, b, d⟩, ?_, ?_⟩
  · unfold Distinct at e ⊢
    have := whole_right l r i w c
    unfold whole at this
    rw [this]; exact e
  · intro j hj
    rw [← mem_whole', whole_right, mem_whole'] at hj
    exact f j hj

/-- `cmp` is the three-way comparison of a sort key. -/
def IsCmp (cmp : α → α → Int) (key : α → κ) : Prop :=
  ∀ a b, (cmp a b < 0 ↔ key a < key b) ∧ (cmp a b > 0 ↔ key b < key a)

/-- `p` is a three-way search predicate that agrees with the order of `key`. -/
def IsPred (p : α → Int) (key : α → κ) (S : List α) : Prop :=
  ∀ a ∈ S, ∀ b ∈ S, key a < key b → (p a < 0 → p b < 0) ∧ (p b > 0 → p a > 0)

abbrev vals (l : List (Nat × α)) : List α := l.map (·.2)

def Sorted (key : α → κ) (l : List α) : Prop := l.Pairwise (fun a b => key a < key b)

/-- Result of `nodeInsert`. -/
structure Inserted (key : α → κ) (v : α) (old : List α) (n : Nat) (h' : Heap α) (x : Nat) (c' : List (Frame α)) (l' r' : T α) : Prop where
  zip : Zip h' (.node l' x v r') c'
  sorted : Sorted key (vals (whole (.node l' x v r') c'))
  mem : ∀ y, y ∈ vals (whole (.node l' x v r') c') ↔ y = v ∨ (y ∈ old ∧ key y ≠ key v)
  next : n ≤ h'.next ∧ h'.next ≤ n + 1

theorem alloc_zip {h : Heap α} {c : List (Frame α)} {v : α} {f : Frame α} (z : Zip h (.leaf : T α) (f :: c))
    (g : Nd α → Nd α) (hg : ∀ n, h.mem f.id = some n → ∃ hole, g n =
      (if f.isR then ⟨parC c, f.sib.ptr, hole, f.val, handC c⟩
       else ⟨parC c, hole, f.sib.ptr, f.val, handC c⟩)) :
    ∃ h', (h.alloc (some f.id) v f.hand).1.modify f.id g = some h' ∧ (h.alloc (some f.id) v f.hand).2 = h.next ∧
      Zip h' (.node .leaf h.next v .leaf) (f :: c) ∧ h'.next = h.next + 1 := by
  obtain ⟨_, ⟨⟨hole, a⟩, b, cc⟩, e, bd⟩ := z
  have bd' : ∀ j ∈ idsC (f :: c), j < h.next := fun j hj => bd j (Or.inr hj)
  have hlt : f.id < h.next := bd' _ ((mem_idsC_cons ..).2 (Or.inl rfl))
  have hne : f.id ≠ h.next := by omega
  obtain ⟨hole', hgn⟩ := hg _ a
  have hm : (h.alloc (some f.id) v f.hand).1.mem f.id = h.mem f.id := by
    show (h.set h.next _).mem f.id = _
    rw [set_mem, if_neg hne]
  refine ⟨_, modify_some (hm.trans a) g, rfl, ⟨⟨?_, trivial, trivial⟩, ⟨⟨hole', ?_⟩, ?_, ?_⟩, ?_, ?_⟩, rfl⟩
  · rw [set_mem, if_neg (Ne.symm hne)]
    show (h.set h.next _).mem h.next = _
    rw [set_mem, if_pos rfl]
    rfl
  · rw [set_mem, if_pos rfl]
    rw [hgn]
  · obtain ⟨d1, d2, d3, d4, d5, d6⟩ := distinct_cons e
    refine rep_frame (fun j hj => ?_) b
    have j1 : j ≠ f.id := fun e => d3 (e ▸ hj)
    have j2 : j ≠ h.next := by have := bd' j ((mem_idsC_cons ..).2 (Or.inr (Or.inl hj))); omega
    rw [set_mem, if_neg j1]
    show (h.set h.next _).mem j = _
    rw [set_mem, if_neg j2]
  · obtain ⟨d1, d2, d3, d4, d5, d6⟩ := distinct_cons e
    refine repC_frame (fun j hj => ?_) cc
    have j1 : j ≠ f.id := fun e => d4 (e ▸ hj)
    have j2 : j ≠ h.next := by have := bd' j ((mem_idsC_cons ..).2 (Or.inr (Or.inr hj))); omega
    rw [set_mem, if_neg j1]
    show (h.set h.next _).mem j = _
    rw [set_mem, if_neg j2]
  · unfold Distinct at e ⊢
    have hnm : h.next ∉ List.map (fun x : Nat × α => x.1) (pre (f :: c) ++ (T.leaf : T α).flat ++ post (f :: c)) := by
      intro hm
      rcases mem_whole.1 hm with hm | hm
      · simp [T.ids, T.flat] at hm
      · have := bd' _ hm; omega
    have hp : (List.map (fun x : Nat × α => x.1) (pre (f :: c) ++ (T.node .leaf h.next v .leaf : T α).flat ++ post (f :: c))).Perm
        (h.next :: List.map (fun x : Nat × α => x.1) (pre (f :: c) ++ (T.leaf : T α).flat ++ post (f :: c))) := by
      simp only [T.flat, List.nil_append, List.append_nil, List.map_append, List.map_cons, List.map_nil, List.append_assoc]
      exact List.perm_middle
    rw [hp.nodup_iff, List.nodup_cons]
    exact ⟨hnm, e⟩
  · intro j hj
    show j < h.next + 1
    rcases hj with hj | hj
    · simp [T.ids, T.flat] at hj; omega
    · have := bd' j hj; omega

theorem nodeInsert_spec {cmp : α → α → Int} {key : α → κ} (hcmp : IsCmp cmp key) (v : α) :
    ∀ (l : T α) (i : Nat) (w : α) (r : T α) (c : List (Frame α)) (fuel : Nat) (h : Heap α) (L : List α),
      Zip h (.node l i w r) c → (T.node l i w r).flat.length ≤ fuel →
      vals (whole (.node l i w r) c) = L → Sorted key L →
      (∀ x ∈ vals (pre c), key x < key v) → (∀ x ∈ vals (post c), key v < key x) →
      ∃ h' x c' l' r', nodeInsert cmp v fuel h i = some (h', x) ∧ Inserted key v L h.next h' x c' l' r' := by
  suffices H : ∀ (t : T α) (l : T α) (i : Nat) (w : α) (r : T α) (_ : t = .node l i w r) (c : List (Frame α)) (fuel : Nat) (h : Heap α) (L : List α),
      Zip h (.node l i w r) c → (T.node l i w r).flat.length ≤ fuel →
      vals (whole (.node l i w r) c) = L → Sorted key L →
      (∀ x ∈ vals (pre c), key x < key v) → (∀ x ∈ vals (post c), key v < key x) →
      ∃ h' x c' l' r', nodeInsert cmp v fuel h i = some (h', x) ∧ Inserted key v L h.next h' x c' l' r' from
    fun l i w r => H _ l i w r rfl
  intro t
  induction t with
  | leaf => intro l i w r e; cases e
  | node tl ti tw tr ihl ihr =>
    intro l i w r e c fuel h L z hfu hL hs hpre hpost
    cases e
    simp only [T.flat, List.length_append, List.length_cons] at hfu
    obtain ⟨fuel, rfl⟩ : ∃ k, fuel = k + 1 := ⟨fuel - 1, by omega⟩
    obtain ⟨⟨a, b, cc⟩, d, e, bd⟩ := id z
    have hsplit : L = vals (pre c) ++ (vals tl.flat ++ tw :: vals tr.flat) ++ vals (post c) := by
      rw [← hL]; simp [whole, vals, T.flat]
    have hs' := hs
    rw [hsplit] at hs'
    unfold Sorted at hs'
    simp only [List.pairwise_append, List.pairwise_cons, List.mem_append, List.mem_cons] at hs'
    obtain ⟨⟨s1, ⟨s2, ⟨s3, s4⟩, s5⟩, s6⟩, s7, s8⟩ := hs'
    have hcv := hcmp v tw
    by_cases hlt : key v < key tw
    · -- go left
      have hlt' : cmp v tw < 0 := hcv.1.2 hlt
      have zl := zip_left z
      have hL' : vals (whole tl (⟨false, ti, tw, tr⟩ :: c)) = L := by rw [whole_left]; exact hL
      have hpre' : ∀ x ∈ vals (pre (⟨false, ti, tw, tr⟩ :: c)), key x < key v := by
        intro x hx; simp only [pre, Bool.false_eq_true, if_false, List.append_nil] at hx; exact hpre x hx
      have hpost' : ∀ x ∈ vals (post (⟨false, ti, tw, tr⟩ :: c)), key v < key x := by
        intro x hx
        simp only [post, Bool.false_eq_true, if_false, vals, List.map_append, List.map_cons, List.mem_append, List.mem_cons] at hx
        rcases hx with (rfl | hx) | hx
        · exact hlt
        · exact lt_trans hlt (s3 x hx)
        · exact hpost x hx
      cases htl : tl with
      | node l2 i2 w2 r2 =>
        rw [htl] at zl hL'
        obtain ⟨h', x, c', l', r', e1, I⟩ := ihl l2 i2 w2 r2 htl _ fuel h L zl (by rw [← htl]; omega) hL' hs hpre' hpost'
        refine ⟨h', x, c', l', r', ?_, I⟩
        simp only [nodeInsert, Heap.get, a, Option.bind_eq_bind, Option.bind_some, hlt', if_true, htl, T.ptr]
        exact e1
      | leaf =>
        rw [htl] at zl hL' hsplit
        obtain ⟨h', e1, e2, z', nx⟩ := alloc_zip (v := v) zl (fun n => { n with left := some h.next }) (by
          intro n hn
          refine ⟨some h.next, ?_⟩
          rw [a] at hn; cases hn; simp)
        refine ⟨h', h.next, _, .leaf, .leaf, ?_, ⟨z', ?_, ?_, by omega⟩⟩
        · simp only [nodeInsert, Heap.get, a, Option.bind_eq_bind, Option.bind_some, hlt', if_true, htl, T.ptr]
          simp only [Frame.hand, Bool.false_eq_true, if_false] at e1
          show ((h.alloc (some ti) v Hand.left).1.modify ti _).bind _ = _
          simp only [Heap.alloc] at e1 ⊢
          rw [e1]; rfl
        · have : vals (whole (.node .leaf h.next v .leaf) (⟨false, ti, tw, tr⟩ :: c)) =
              vals (pre (⟨false, ti, tw, tr⟩ :: c)) ++ v :: vals (post (⟨false, ti, tw, tr⟩ :: c)) := by
            simp [whole, T.flat, vals]
          rw [this]
          have h0 : L = vals (pre (⟨false, ti, tw, tr⟩ :: c)) ++ vals (post (⟨false, ti, tw, tr⟩ :: c)) := by
            rw [← hL']; simp [whole, T.flat, vals]
          rw [h0] at hs
          unfold Sorted at hs ⊢
          rw [List.pairwise_append] at hs ⊢
          refine ⟨hs.1, List.pairwise_cons.2 ⟨hpost', hs.2.1⟩, ?_⟩
          intro x hx y hy
          rcases List.mem_cons.1 hy with rfl | hy
          · exact hpre' x hx
          · exact hs.2.2 x hx y hy
        · intro y
          have : vals (whole (.node .leaf h.next v .leaf) (⟨false, ti, tw, tr⟩ :: c)) =
              vals (pre (⟨false, ti, tw, tr⟩ :: c)) ++ v :: vals (post (⟨false, ti, tw, tr⟩ :: c)) := by
            simp [whole, T.flat, vals]
          have h0 : L = vals (pre (⟨false, ti, tw, tr⟩ :: c)) ++ vals (post (⟨false, ti, tw, tr⟩ :: c)) := by
            rw [← hL']; simp [whole, T.flat, vals]
          rw [this, h0]
          simp only [List.mem_append, List.mem_cons]
          constructor
          · rintro (hy | hy | hy)
            · exact Or.inr ⟨Or.inl hy, ne_of_lt (hpre' y hy)⟩
            · exact Or.inl hy
            · exact Or.inr ⟨Or.inr hy, ne_of_gt (hpost' y hy)⟩
          · rintro (hy | ⟨hy | hy, _⟩)
            · exact Or.inr (Or.inl hy)
            · exact Or.inl hy
            · exact Or.inr (Or.inr hy)
    · have hlt' : ¬ cmp v tw < 0 := fun hc => hlt (hcv.1.1 hc)
      by_cases hgt : key tw < key v
      · -- go right
        have hgt' : cmp v tw > 0 := hcv.2.2 hgt
        have zr := zip_right z
        have hL' : vals (whole tr (⟨true, ti, tw, tl⟩ :: c)) = L := by rw [whole_right]; exact hL
        have hpre' : ∀ x ∈ vals (pre (⟨true, ti, tw, tl⟩ :: c)), key x < key v := by
          intro x hx
          simp only [pre, if_true, vals, List.map_append, List.map_cons, List.map_nil, List.mem_append, List.mem_cons, List.not_mem_nil, or_false] at hx
          rcases hx with hx | hx | rfl
          · exact hpre x hx
          · exact lt_trans (s5 x hx tw (Or.inl rfl)) hgt
          · exact hgt
        have hpost' : ∀ x ∈ vals (post (⟨true, ti, tw, tl⟩ :: c)), key v < key x := by
          intro x hx; simp only [post, if_true, List.nil_append] at hx; exact hpost x hx
        cases htr : tr with
        | node l2 i2 w2 r2 =>
          rw [htr] at zr hL'
          obtain ⟨h', x, c', l', r', e1, I⟩ := ihr l2 i2 w2 r2 htr _ fuel h L zr (by rw [← htr]; omega) hL' hs hpre' hpost'
          refine ⟨h', x, c', l', r', ?_, I⟩
          simp only [nodeInsert, Heap.get, a, Option.bind_eq_bind, Option.bind_some, hlt', hgt', if_true, if_false, htr, T.ptr]
          exact e1
        | leaf =>
          rw [htr] at zr hL' hsplit
          obtain ⟨h', e1, e2, z', nx⟩ := alloc_zip (v := v) zr (fun n => { n with right := some h.next }) (by
            intro n hn
            refine ⟨some h.next, ?_⟩
            rw [a] at hn; cases hn; simp)
          refine ⟨h', h.next, _, .leaf, .leaf, ?_, ⟨z', ?_, ?_, by omega⟩⟩
          · simp only [nodeInsert, Heap.get, a, Option.bind_eq_bind, Option.bind_some, hlt', hgt', if_true, if_false, htr, T.ptr]
            simp only [Frame.hand, if_true] at e1
            show ((h.alloc (some ti) v Hand.right).1.modify ti _).bind _ = _
            simp only [Heap.alloc] at e1 ⊢
            rw [e1]; rfl
          · have : vals (whole (.node .leaf h.next v .leaf) (⟨true, ti, tw, tl⟩ :: c)) =
                vals (pre (⟨true, ti, tw, tl⟩ :: c)) ++ v :: vals (post (⟨true, ti, tw, tl⟩ :: c)) := by
              simp [whole, T.flat, vals]
            rw [this]
            have h0 : L = vals (pre (⟨true, ti, tw, tl⟩ :: c)) ++ vals (post (⟨true, ti, tw, tl⟩ :: c)) := by
              rw [← hL']; simp [whole, T.flat, vals]
            rw [h0] at hs
            unfold Sorted at hs ⊢
            rw [List.pairwise_append] at hs ⊢
            refine ⟨hs.1, List.pairwise_cons.2 ⟨hpost', hs.2.1⟩, ?_⟩
            intro x hx y hy
            rcases List.mem_cons.1 hy with rfl | hy
            · exact hpre' x hx
            · exact hs.2.2 x hx y hy
          · intro y
            have : vals (whole (.node .leaf h.next v .leaf) (⟨true, ti, tw, tl⟩ :: c)) =
                vals (pre (⟨true, ti, tw, tl⟩ :: c)) ++ v :: vals (post (⟨true, ti, tw, tl⟩ :: c)) := by
              simp [whole, T.flat, vals]
            have h0 : L = vals (pre (⟨true, ti, tw, tl⟩ :: c)) ++ vals (post (⟨true, ti, tw, tl⟩ :: c)) := by
              rw [← hL']; simp [whole, T.flat, vals]
            rw [this, h0]
            simp only [List.mem_append, List.mem_cons]
            constructor
            · rintro (hy | hy | hy)
              · exact Or.inr ⟨Or.inl hy, ne_of_lt (hpre' y hy)⟩
              · exact Or.inl hy
              · exact Or.inr ⟨Or.inr hy, ne_of_gt (hpost' y hy)⟩
            · rintro (hy | ⟨hy | hy, _⟩)
              · exact Or.inr (Or.inl hy)
              · exact Or.inl hy
              · exact Or.inr (Or.inr hy)
      · -- equal key: replace the value
        have hgt' : ¬ cmp v tw > 0 := fun hc => hgt (hcv.2.1 hc)
        have heq : key tw = key v := le_antisymm (not_lt.1 hlt) (not_lt.1 hgt)
        obtain ⟨dn, di, _⟩ := distinct_ids e
        obtain ⟨n1, n2, n3, n4, n5⟩ := nodup_node dn
        have hw : vals (whole (.node tl ti v tr) c) = vals (pre c) ++ (vals tl.flat ++ v :: vals tr.flat) ++ vals (post c) := by
          simp [whole, T.flat, vals]
        refine ⟨h.set ti ⟨parC c, tl.ptr, tr.ptr, v, handC c⟩, ti, c, tl, tr, ?_, ⟨⟨⟨?_, ?_, ?_⟩, ?_, ?_, ?_⟩, ?_, ?_, Nat.le_refl _, Nat.le_succ _⟩⟩
        · simp only [nodeInsert, Heap.get, a, Option.bind_eq_bind, Option.bind_some, hlt', hgt', if_false]
          rw [modify_some a]; rfl
        · rw [set_mem, if_pos rfl]
        · refine rep_frame (fun j hj => ?_) b
          have x1 : j ≠ ti := fun e => n1 (e ▸ hj)
          rw [set_mem, if_neg x1]
        · refine rep_frame (fun j hj => ?_) cc
          have x1 : j ≠ ti := fun e => n2 (e ▸ hj)
          rw [set_mem, if_neg x1]
        · refine repC_frame (fun j hj => ?_) d
          have x1 : j ≠ ti := fun e => di ti ((mem_ids_node ..).2 (Or.inl rfl)) (e ▸ hj)
          rw [set_mem, if_neg x1]
        · unfold Distinct at e ⊢
          simpa [T.flat] using e
        · intro j hj
          exact bd j (by simpa [mem_ids_node] using hj)
        · rw [hw]
          unfold Sorted
          simp only [List.pairwise_append, List.pairwise_cons, List.mem_append, List.mem_cons]
          refine ⟨⟨s1, ⟨s2, ⟨?_, s4⟩, ?_⟩, ?_⟩, s7, ?_⟩
          · rw [← heq]; exact s3
          · intro x hx y hy
            rcases hy with rfl | hy
            · rw [← heq]; exact s5 x hx tw (Or.inl rfl)
            · exact s5 x hx y (Or.inr hy)
          · intro x hx y hy
            rcases hy with hy | rfl | hy
            · exact s6 x hx y (Or.inl hy)
            · exact hpre x hx
            · exact s6 x hx y (Or.inr (Or.inr hy))
          · intro x hx y hy
            rcases hx with hx | hx | rfl | hx
            · exact s8 x (Or.inl hx) y hy
            · exact s8 x (Or.inr (Or.inl hx)) y hy
            · exact hpost y hy
            · exact s8 x (Or.inr (Or.inr (Or.inr hx))) y hy
        · intro y
          rw [hw, hsplit]
          simp only [List.mem_append, List.mem_cons]
          constructor
          · rintro ((hy | hy | rfl | hy) | hy)
            · exact Or.inr ⟨Or.inl (Or.inl hy), ne_of_lt (hpre y hy)⟩
            · exact Or.inr ⟨Or.inl (Or.inr (Or.inl hy)), by rw [← heq]; exact ne_of_lt (s5 y hy tw (Or.inl rfl))⟩
            · exact Or.inl rfl
            · exact Or.inr ⟨Or.inl (Or.inr (Or.inr (Or.inr hy))), by rw [← heq]; exact ne_of_gt (s3 y hy)⟩
            · exact Or.inr ⟨Or.inr hy, ne_of_gt (hpost y hy)⟩
          · rintro (rfl | ⟨(hy | hy | rfl | hy) | hy, hk⟩)
            · exact Or.inl (Or.inr (Or.inr (Or.inl rfl)))
            · exact Or.inl (Or.inl hy)
            · exact Or.inl (Or.inr (Or.inl hy))
            · exact absurd heq hk
            · exact Or.inl (Or.inr (Or.inr (Or.inr hy)))
            · exact Or.inr hy

/-- Result of `nodeFind`. -/
theorem nodeFind_spec {key : α → κ} (p : α → Int) :
    ∀ (t l : T α) (i : Nat) (w : α) (r : T α) (_ : t = .node l i w r) (c : List (Frame α)) (fuel : Nat) (h : Heap α) (L : List α),
      Zip h (.node l i w r) c → (T.node l i w r).flat.length ≤ fuel →
      vals (whole (.node l i w r) c) = L → Sorted key L → IsPred p key L →
      (∀ x ∈ vals (pre c), p x ≠ 0) → (∀ x ∈ vals (post c), p x ≠ 0) →
      (nodeFind p fuel h i = some none ∧ ∀ x ∈ L, p x ≠ 0) ∨
      (∃ x w' l' r' c', nodeFind p fuel h i = some (some x) ∧ Zip h (.node l' x w' r') c' ∧ p w' = 0 ∧
        whole (.node l' x w' r') c' = whole (.node l i w r) c) := by
  intro t
  induction t with
  | leaf => intro l i w r e; cases e
  | node tl ti tw tr ihl ihr =>
    intro l i w r e c fuel h L z hfu hL hs hp hpre hpost
    cases e
    simp only [T.flat, List.length_append, List.length_cons] at hfu
    obtain ⟨fuel, rfl⟩ : ∃ k, fuel = k + 1 := ⟨fuel - 1, by omega⟩
    obtain ⟨⟨a, b, cc⟩, d, e, bd⟩ := id z
    have hsplit : L = vals (pre c) ++ (vals tl.flat ++ tw :: vals tr.flat) ++ vals (post c) := by
      rw [← hL]; simp [whole, vals, T.flat]
    have hmem : ∀ x, x ∈ L ↔ x ∈ vals (pre c) ∨ x ∈ vals tl.flat ∨ x = tw ∨ x ∈ vals tr.flat ∨ x ∈ vals (post c) := by
      intro x; rw [hsplit]; simp only [List.mem_append, List.mem_cons]; tauto
    have hs' := hs
    rw [hsplit] at hs'
    unfold Sorted at hs'
    simp only [List.pairwise_append, List.pairwise_cons, List.mem_append, List.mem_cons] at hs'
    obtain ⟨⟨s1, ⟨s2, ⟨s3, s4⟩, s5⟩, s6⟩, s7, s8⟩ := hs'
    have htw : tw ∈ L := (hmem tw).2 (by tauto)
    by_cases hlt : p tw < 0
    · have hr : ∀ x ∈ vals tr.flat, p x < 0 := fun x hx =>
        (hp tw htw x ((hmem x).2 (by tauto)) (s3 x hx)).1 hlt
      have zl := zip_left z
      cases htl : tl with
      | node l2 i2 w2 r2 =>
        rw [htl] at zl
        have := ihl l2 i2 w2 r2 htl _ fuel h L zl (by rw [← htl]; omega) (by rw [← htl, whole_left]; exact hL) hs hp
          (by intro x hx; simp only [pre, Bool.false_eq_true, if_false, List.append_nil] at hx; exact hpre x hx)
          (by
            intro x hx
            simp only [post, Bool.false_eq_true, if_false, vals, List.map_append, List.map_cons, List.mem_append, List.mem_cons] at hx
            rcases hx with (rfl | hx) | hx
            · omega
            · have := hr x hx; omega
            · exact hpost x hx)
        rw [← htl, whole_left] at this
        rw [← htl]
        have e0 : nodeFind p (fuel + 1) h ti = nodeFind p fuel h i2 := by
          simp only [nodeFind, Heap.get, a, Option.bind_eq_bind, Option.bind_some, hlt, if_true, htl, T.ptr]
        rw [e0]; exact this
      | leaf =>
        left
        refine ⟨?_, ?_⟩
        · simp only [nodeFind, Heap.get, a, Option.bind_eq_bind, Option.bind_some, hlt, if_true, htl, T.ptr]; rfl
        · intro x hx
          rcases (hmem x).1 hx with hx | hx | rfl | hx | hx
          · exact hpre x hx
          · rw [htl] at hx; simp [T.flat, vals] at hx
          · omega
          · have := hr x hx; omega
          · exact hpost x hx
    · by_cases hgt : p tw > 0
      · have hl : ∀ x ∈ vals tl.flat, p x > 0 := fun x hx =>
          (hp x ((hmem x).2 (by tauto)) tw htw (s5 x hx tw (Or.inl rfl))).2 hgt
        have zr := zip_right z
        cases htr : tr with
        | node l2 i2 w2 r2 =>
          rw [htr] at zr
          have := ihr l2 i2 w2 r2 htr _ fuel h L zr (by rw [← htr]; omega) (by rw [← htr, whole_right]; exact hL) hs hp
            (by
              intro x hx
              simp only [pre, if_true, vals, List.map_append, List.map_cons, List.map_nil, List.mem_append, List.mem_cons, List.not_mem_nil, or_false] at hx
              rcases hx with hx | hx | rfl
              · exact hpre x hx
              · have := hl x hx; omega
              · omega)
            (by intro x hx; simp only [post, if_true, List.nil_append] at hx; exact hpost x hx)
          rw [← htr, whole_right] at this
          rw [← htr]
          have e0 : nodeFind p (fuel + 1) h ti = nodeFind p fuel h i2 := by
            simp only [nodeFind, Heap.get, a, Option.bind_eq_bind, Option.bind_some, hlt, hgt, if_true, if_false, htr, T.ptr]
          rw [e0]; exact this
        | leaf =>
          left
          refine ⟨?_, ?_⟩
          · simp only [nodeFind, Heap.get, a, Option.bind_eq_bind, Option.bind_some, hlt, hgt, if_true, if_false, htr, T.ptr]; rfl
          · intro x hx
            rcases (hmem x).1 hx with hx | hx | rfl | hx | hx
            · exact hpre x hx
            · have := hl x hx; omega
            · omega
            · rw [htr] at hx; simp [T.flat, vals] at hx
            · exact hpost x hx
      · right
        refine ⟨ti, tw, tl, tr, c, ?_, z, by omega, rfl⟩
        simp only [nodeFind, Heap.get, a, Option.bind_eq_bind, Option.bind_some, hlt, hgt, if_false]; rfl

/-- Result of `nodeFindMax`: the last node, whose context has only right turns. -/
theorem nodeFindMax_spec :
    ∀ (t l : T α) (i : Nat) (w : α) (r : T α) (_ : t = .node l i w r) (c : List (Frame α)) (fuel : Nat) (h : Heap α),
      Zip h (.node l i w r) c → (T.node l i w r).flat.length ≤ fuel → post c = [] →
      (∃ x w' l' c', nodeFindMax fuel h i = some x ∧ Zip h (.node l' x w' .leaf) c' ∧ post c' = [] ∧
        whole (.node l' x w' .leaf) c' = whole (.node l i w r) c) := by
  intro t
  induction t with
  | leaf => intro l i w r e; cases e
  | node tl ti tw tr ihl ihr =>
    intro l i w r e c fuel h z hfu hpost
    cases e
    simp only [T.flat, List.length_append, List.length_cons] at hfu
    obtain ⟨fuel, rfl⟩ : ∃ k, fuel = k + 1 := ⟨fuel - 1, by omega⟩
    obtain ⟨⟨a, b, cc⟩, d, e, bd⟩ := id z
    have zr := zip_right z
    cases htr : tr with
    | node l2 i2 w2 r2 =>
      rw [htr] at zr
      have := ihr l2 i2 w2 r2 htr _ fuel h zr (by rw [← htr]; omega) (by simp [post, hpost])
      rw [← htr, whole_right] at this
      have e0 : nodeFindMax (fuel + 1) h ti = nodeFindMax fuel h i2 := by
        simp only [nodeFindMax, Heap.get, a, Option.bind_eq_bind, Option.bind_some, htr, T.ptr]
      rw [e0, ← htr]; exact this
    | leaf =>
      refine ⟨ti, tw, tl, c, ?_, htr ▸ z, hpost, rfl⟩
      simp only [nodeFindMax, Heap.get, a, Option.bind_eq_bind, Option.bind_some, htr, T.ptr]; rfl

end Verif.Splay
