import Verif.Splay.Model
import Mathlib.Data.List.Sort
import Mathlib.Data.List.Perm.Basic
import Mathlib.Data.List.Perm.Subperm
import Mathlib.Data.List.Range

/-! Proof machinery for `Verif.Splay.Model`: mathematical trees, the heap
representation predicate, and zipper contexts whose hole-side child pointer may
be stale (as it is between two rotations). -/

namespace Verif.Splay

/-- Mathematical binary trees with node addresses. -/
inductive T (α : Type)
  | leaf
  | node (l : T α) (i : Nat) (v : α) (r : T α)

variable {α : Type}

def T.ptr : T α → Option Nat
  | .leaf => none
  | .node _ i _ _ => some i

def T.flat : T α → List (Nat × α)
  | .leaf => []
  | .node l i v r => l.flat ++ (i, v) :: r.flat

def T.ids (t : T α) : List Nat := t.flat.map (·.1)

/-- The heap holds tree `t`, whose root has the given parent and handedness. -/
def Rep (h : Heap α) : Option Nat → Hand → T α → Prop
  | _, _, .leaf => True
  | p, hd, .node l i v r =>
    h.mem i = some ⟨p, l.ptr, r.ptr, v, hd⟩ ∧ Rep h (some i) .left l ∧ Rep h (some i) .right r

/-- One step of the path from a node to the root: the parent's address and
value, the side on which the path came up, and the other subtree. -/
structure Frame (α : Type) where
  isR : Bool
  id : Nat
  val : α
  sib : T α

def Frame.hand (f : Frame α) : Hand := if f.isR then .right else .left
def Frame.other (f : Frame α) : Hand := if f.isR then .left else .right

def parC : List (Frame α) → Option Nat
  | [] => none
  | f :: _ => some f.id

def handC : List (Frame α) → Hand
  | [] => .na
  | f :: _ => f.hand

/-- The heap holds the context; the pointer to the hole is unconstrained. -/
def RepC (h : Heap α) : List (Frame α) → Prop
  | [] => True
  | f :: fs =>
    (∃ hole, h.mem f.id = some
      (if f.isR then ⟨parC fs, f.sib.ptr, hole, f.val, handC fs⟩
       else ⟨parC fs, hole, f.sib.ptr, f.val, handC fs⟩)) ∧
    Rep h (some f.id) f.other f.sib ∧ RepC h fs

def pre : List (Frame α) → List (Nat × α)
  | [] => []
  | f :: fs => pre fs ++ (if f.isR then f.sib.flat ++ [(f.id, f.val)] else [])

def post : List (Frame α) → List (Nat × α)
  | [] => []
  | f :: fs => (if f.isR then [] else (f.id, f.val) :: f.sib.flat) ++ post fs

def idsC (c : List (Frame α)) : List Nat := (pre c).map (·.1) ++ (post c).map (·.1)

theorem mem_idsC_cons (f : Frame α) (fs) (j : Nat) :
    j ∈ idsC (f :: fs) ↔ j = f.id ∨ j ∈ f.sib.ids ∨ j ∈ idsC fs := by
  cases hf : f.isR
  · simp only [idsC, pre, post, hf, T.ids, List.map_append, List.mem_append, List.map_cons, List.mem_cons,
      Bool.false_eq_true, if_false, List.append_nil]
    tauto
  · simp only [idsC, pre, post, hf, T.ids, if_true, List.map_append, List.mem_append, List.map_cons, List.map_nil,
      List.mem_cons, List.not_mem_nil, List.nil_append, or_false]
    tauto

theorem rep_frame {h h' : Heap α} : ∀ {t : T α} {p hd}, (∀ j ∈ t.ids, h'.mem j = h.mem j) →
    Rep h p hd t → Rep h' p hd t
  | .leaf, _, _, _, _ => trivial
  | .node l i v r, p, hd, hf, ⟨a, b, c⟩ => by
    refine ⟨?_, rep_frame ?_ b, rep_frame ?_ c⟩
    · rw [hf i (by simp [T.ids, T.flat])]; exact a
    · intro j hj; exact hf j (by simp only [T.ids, T.flat, List.map_append, List.mem_append] at hj ⊢; exact Or.inl hj)
    · intro j hj; exact hf j (by simp only [T.ids, T.flat, List.map_append, List.mem_append, List.map_cons, List.mem_cons] at hj ⊢; exact Or.inr (Or.inr hj))

theorem repC_frame {h h' : Heap α} : ∀ {c : List (Frame α)}, (∀ j ∈ idsC c, h'.mem j = h.mem j) →
    RepC h c → RepC h' c
  | [], _, _ => trivial
  | f :: fs, hf, ⟨⟨hole, a⟩, b, c⟩ => by
    refine ⟨⟨hole, ?_⟩, rep_frame ?_ b, repC_frame ?_ c⟩
    · rw [hf f.id ((mem_idsC_cons ..).2 (Or.inl rfl))]; exact a
    · intro j hj; exact hf j ((mem_idsC_cons ..).2 (Or.inr (Or.inl hj)))
    · intro j hj; exact hf j ((mem_idsC_cons ..).2 (Or.inr (Or.inr hj)))

/-- All addresses in a zipper are distinct. -/
def Distinct (t : T α) (c : List (Frame α)) : Prop :=
  (((pre c) ++ t.flat ++ post c).map (·.1)).Nodup

theorem mem_ids_node (l r : T α) (i : Nat) (v : α) (j : Nat) :
    j ∈ (T.node l i v r).ids ↔ j = i ∨ j ∈ l.ids ∨ j ∈ r.ids := by
  simp only [T.ids, T.flat, List.map_append, List.mem_append, List.map_cons, List.mem_cons]
  tauto

theorem distinct_ids {t : T α} {c} (h : Distinct t c) : t.ids.Nodup ∧ (∀ j ∈ t.ids, j ∉ idsC c) ∧ (idsC c).Nodup := by
  unfold Distinct at h
  simp only [List.map_append, List.nodup_append] at h
  obtain ⟨⟨a, b, ab⟩, cc, d⟩ := h
  refine ⟨b, ?_, ?_⟩
  · intro j hj hk
    unfold idsC at hk
    rcases List.mem_append.1 hk with hk | hk
    · exact ab _ hk _ hj rfl
    · exact d _ (List.mem_append_right _ hj) _ hk rfl
  · unfold idsC
    rw [List.nodup_append]
    exact ⟨a, cc, fun x hx y hy => d x (List.mem_append_left _ hx) y hy⟩

theorem nodup_node {l r : T α} {i v} (h : (T.node l i v r).ids.Nodup) :
    i ∉ l.ids ∧ i ∉ r.ids ∧ (∀ j ∈ l.ids, j ∉ r.ids) ∧ l.ids.Nodup ∧ r.ids.Nodup := by
  simp only [T.ids, T.flat, List.map_append, List.map_cons, List.nodup_append, List.nodup_cons] at h
  obtain ⟨a, ⟨b, c⟩, d⟩ := h
  refine ⟨fun hi => d _ hi i List.mem_cons_self rfl, b, fun j hj hk => d j hj j (List.mem_cons_of_mem _ hk) rfl, a, c⟩

theorem distinct_cons {t : T α} {f : Frame α} {fs} (h : Distinct t (f :: fs)) :
    f.id ∉ t.ids ∧ (∀ j ∈ t.ids, j ∉ f.sib.ids) ∧ f.id ∉ f.sib.ids ∧ f.id ∉ idsC fs ∧
    (∀ j ∈ f.sib.ids, j ∉ idsC fs) ∧ (∀ j ∈ t.ids, j ∉ idsC fs) := by
  obtain ⟨_, b, c⟩ := distinct_ids h
  have b' : ∀ j ∈ t.ids, ¬ (j = f.id ∨ j ∈ f.sib.ids ∨ j ∈ idsC fs) := fun j hj hk =>
    b j hj ((mem_idsC_cons ..).2 hk)
  have key : f.id ∉ f.sib.ids ∧ f.id ∉ idsC fs ∧ (∀ j ∈ f.sib.ids, j ∉ idsC fs) := by
    unfold idsC at c ⊢
    cases hf : f.isR
    · simp only [pre, post, hf, Bool.false_eq_true, if_false, List.append_nil, List.map_append, List.map_cons, List.nodup_append, List.nodup_cons] at c
      obtain ⟨_, ⟨⟨c1, c2⟩, c3, c4⟩, c5⟩ := c
      refine ⟨c1, ?_, ?_⟩
      · intro hm
        rcases List.mem_append.1 hm with hm | hm
        · exact c5 _ hm f.id (by simp) rfl
        · exact c4 f.id (by simp) _ hm rfl
      · intro j hj hm
        rcases List.mem_append.1 hm with hm | hm
        · exact c5 _ hm j (by simp only [T.ids] at hj; simp only [List.mem_append, List.mem_cons]; exact Or.inl (Or.inr hj)) rfl
        · exact c4 j (by simp only [T.ids] at hj; simp only [List.mem_cons]; exact Or.inr hj) _ hm rfl
    · simp only [pre, post, hf, if_true, List.nil_append, List.map_append, List.map_cons, List.map_nil, List.nodup_append, List.nodup_cons] at c
      obtain ⟨⟨_, ⟨_, _, c1⟩, c2⟩, _, c5⟩ := c
      refine ⟨fun hm => c1 _ hm f.id (by simp) rfl, ?_, ?_⟩
      · intro hm
        rcases List.mem_append.1 hm with hm | hm
        · exact c2 _ hm f.id (by simp) rfl
        · exact c5 f.id (by simp) _ hm rfl
      · intro j hj hm
        rcases List.mem_append.1 hm with hm | hm
        · exact c2 _ hm j (by simp only [T.ids] at hj; simp only [List.mem_append]; exact Or.inl hj) rfl
        · exact c5 j (by simp only [T.ids] at hj; simp only [List.mem_append]; exact Or.inr (Or.inl hj)) _ hm rfl
  exact ⟨fun hm => b' _ hm (Or.inl rfl), fun j hj hk => b' j hj (Or.inr (Or.inl hk)), key.1, key.2.1, key.2.2,
    fun j hj hk => b' j hj (Or.inr (Or.inr hk))⟩

theorem set_mem (h : Heap α) (i n j) : (h.set i n).mem j = if j = i then some n else h.mem j := rfl
theorem modify_some {h : Heap α} {i n} (hm : h.mem i = some n) (f : Nd α → Nd α) :
    h.modify i f = some (h.set i (f n)) := by
  simp [Heap.modify, Heap.get, hm]

/-- Give the root of a represented tree a new parent and handedness. -/
theorem rep_reparent {h : Heap α} {l : T α} {p hd} (hr : Rep h p hd l) (hn : l.ids.Nodup) (p' hd') :
    ∃ h', h.modifyIf l.ptr (fun x => { x with parent := p', hand := hd' }) = some h' ∧ Rep h' p' hd' l ∧ h'.next = h.next ∧
      (∀ j, j ∉ l.ids → h'.mem j = h.mem j) := by
  cases l with
  | leaf => exact ⟨h, rfl, trivial, rfl, fun _ _ => rfl⟩
  | node a i v b =>
    obtain ⟨r1, r2, r3⟩ := hr
    obtain ⟨n1, n2, n3, n4, n5⟩ := nodup_node hn
    refine ⟨_, modify_some r1 _, ⟨by simp [set_mem], ?_, ?_⟩, rfl, ?_⟩
    · refine rep_frame (fun j hj => ?_) r2
      rw [set_mem, if_neg]; rintro rfl; exact n1 hj
    · refine rep_frame (fun j hj => ?_) r3
      rw [set_mem, if_neg]; rintro rfl; exact n2 hj
    · intro j hj
      rw [set_mem, if_neg]; rintro rfl; exact hj ((mem_ids_node ..).2 (Or.inl rfl))

theorem handC_na {fs : List (Frame α)} :
    (if (parC fs).isSome then handC fs else Hand.na) = handC fs := by
  cases fs <;> rfl

/-- What a rotation achieves. -/
structure Rotated (h h' : Heap α) (c : List (Frame α)) (fs : List (Frame α)) (i : Nat) (v : α) (t t' : T α) : Prop where
  rep : Rep h' (parC fs) (handC fs) t'
  ctx : RepC h' fs
  next : h'.next = h.next
  frame : ∀ j, j ∉ t.ids → j ∉ idsC c → h'.mem j = h.mem j

theorem rotateLeft_spec {h : Heap α} {l r : T α} {i v} {f : Frame α} {fs}
    (hf : f.isR = true) (hr : Rep h (some f.id) .right (.node l i v r)) (hc : RepC h (f :: fs))
    (hd : Distinct (.node l i v r) (f :: fs)) :
    ∃ h', rotateLeft h i = some h' ∧
      Rotated h h' (f :: fs) fs i v (.node l i v r) (.node (.node f.sib f.id f.val l) i v r) := by
  obtain ⟨r1, r2, r3⟩ := hr
  obtain ⟨⟨hole, c1⟩, c2, c3⟩ := hc
  rw [hf] at c1
  simp only [if_true] at c1
  have c2' : Rep h (some f.id) .left f.sib := by simpa [Frame.other, hf] using c2
  obtain ⟨d1, d2, d3, d4, d5, d6⟩ := distinct_cons hd
  obtain ⟨dn, _, _⟩ := distinct_ids hd
  obtain ⟨n1, n2, n3, n4, n5⟩ := nodup_node dn
  have di : ∀ j, j ∈ l.ids → j ∈ (T.node l i v r).ids := fun j hj => (mem_ids_node ..).2 (Or.inr (Or.inl hj))
  have dr : ∀ j, j ∈ r.ids → j ∈ (T.node l i v r).ids := fun j hj => (mem_ids_node ..).2 (Or.inr (Or.inr hj))
  have ds : i ∈ (T.node l i v r).ids := (mem_ids_node ..).2 (Or.inl rfl)
  have hfi : f.id ≠ i := fun e => d1 (e ▸ ds)
  obtain ⟨h1, e1, p1, nx1, fr1⟩ := rep_reparent r2 n4 (some f.id) .right
  have m1 : h1.mem i = some ⟨some f.id, l.ptr, r.ptr, v, .right⟩ := by rw [fr1 i n1]; exact r1
  have m2 : h1.mem f.id = some ⟨parC fs, f.sib.ptr, hole, f.val, handC fs⟩ := by
    rw [fr1 f.id (fun hm => d1 (di _ hm))]; exact c1
  let h2 := h1.set f.id ⟨some i, f.sib.ptr, l.ptr, f.val, .left⟩
  have e2 : h1.modify f.id (fun x => { x with parent := some i, hand := .left, right := l.ptr }) = some h2 :=
    modify_some m2 _
  have m3 : h2.mem i = some ⟨some f.id, l.ptr, r.ptr, v, .right⟩ := by
    rw [set_mem, if_neg (Ne.symm hfi)]; exact m1
  let h3 := h2.set i ⟨parC fs, some f.id, r.ptr, v, handC fs⟩
  have e3 : h2.modify i (fun x => { x with left := some f.id, parent := parC fs, hand := if (parC fs).isSome then handC fs else Hand.na }) = some h3 := by
    rw [modify_some m3 _, handC_na]
  refine ⟨h3, ?_, ⟨?_, ?_, nx1, ?_⟩⟩
  · unfold rotateLeft
    simp only [Heap.get, r1, e1, m1, m2, Option.bind_eq_bind, Option.bind_some, e2]
    exact e3
  · have k : ∀ j, j ≠ f.id → j ≠ i → h3.mem j = h1.mem j := by
      intro j a b
      rw [set_mem, if_neg b, set_mem, if_neg a]
    refine ⟨by simp [h3, set_mem, T.ptr], ⟨?_, ?_, ?_⟩, ?_⟩
    · rw [set_mem, if_neg hfi, set_mem, if_pos rfl]
    · refine rep_frame (fun j hj => ?_) c2'
      have a1 : j ∉ (T.node l i v r).ids := fun hm => d2 j hm hj
      rw [k j (fun e => d3 (e ▸ hj)) (fun e => a1 (e ▸ ds)), fr1 j (fun hm => a1 (di _ hm))]
    · refine rep_frame (fun j hj => ?_) p1
      rw [k j (fun e => d1 (di _ (e ▸ hj))) (fun e => n1 (e ▸ hj))]
    · refine rep_frame (fun j hj => ?_) r3
      rw [k j (fun e => d1 (dr _ (e ▸ hj))) (fun e => n2 (e ▸ hj)), fr1 j (fun hm => n3 j hm hj)]
  · refine repC_frame (fun j hj => ?_) c3
    have a1 : j ∉ (T.node l i v r).ids := fun hm => d6 j hm hj
    have x1 : j ≠ i := fun e => a1 (e ▸ ds)
    have x2 : j ≠ f.id := fun e => d4 (e ▸ hj)
    rw [set_mem, if_neg x1, set_mem, if_neg x2, fr1 j (fun hm => a1 (di _ hm))]
  · intro j ht hcc
    have a2 : j ≠ f.id := fun e => hcc ((mem_idsC_cons ..).2 (Or.inl e))
    have x1 : j ≠ i := fun e => ht (e ▸ ds)
    rw [set_mem, if_neg x1, set_mem, if_neg a2, fr1 j (fun hm => ht (di _ hm))]

theorem rotateRight_spec {h : Heap α} {l r : T α} {i v} {f : Frame α} {fs}
    (hf : f.isR = false) (hr : Rep h (some f.id) .left (.node l i v r)) (hc : RepC h (f :: fs))
    (hd : Distinct (.node l i v r) (f :: fs)) :
    ∃ h', rotateRight h i = some h' ∧
      Rotated h h' (f :: fs) fs i v (.node l i v r) (.node l i v (.node r f.id f.val f.sib)) := by
  obtain ⟨r1, r2, r3⟩ := hr
  obtain ⟨⟨hole, c1⟩, c2, c3⟩ := hc
  rw [hf] at c1
  simp only [Bool.false_eq_true, if_false] at c1
  have c2' : Rep h (some f.id) .right f.sib := by simpa [Frame.other, hf] using c2
  obtain ⟨d1, d2, d3, d4, d5, d6⟩ := distinct_cons hd
  obtain ⟨dn, _, _⟩ := distinct_ids hd
  obtain ⟨n1, n2, n3, n4, n5⟩ := nodup_node dn
  have di : ∀ j, j ∈ l.ids → j ∈ (T.node l i v r).ids := fun j hj => (mem_ids_node ..).2 (Or.inr (Or.inl hj))
  have dr : ∀ j, j ∈ r.ids → j ∈ (T.node l i v r).ids := fun j hj => (mem_ids_node ..).2 (Or.inr (Or.inr hj))
  have ds : i ∈ (T.node l i v r).ids := (mem_ids_node ..).2 (Or.inl rfl)
  have hfi : f.id ≠ i := fun e => d1 (e ▸ ds)
  obtain ⟨h1, e1, p1, nx1, fr1⟩ := rep_reparent r3 n5 (some f.id) .left
  have m1 : h1.mem i = some ⟨some f.id, l.ptr, r.ptr, v, .left⟩ := by rw [fr1 i n2]; exact r1
  have m2 : h1.mem f.id = some ⟨parC fs, hole, f.sib.ptr, f.val, handC fs⟩ := by
    rw [fr1 f.id (fun hm => d1 (dr _ hm))]; exact c1
  let h2 := h1.set f.id ⟨some i, r.ptr, f.sib.ptr, f.val, .right⟩
  have e2 : h1.modify f.id (fun x => { x with parent := some i, hand := .right, left := r.ptr }) = some h2 :=
    modify_some m2 _
  have m3 : h2.mem i = some ⟨some f.id, l.ptr, r.ptr, v, .left⟩ := by
    rw [set_mem, if_neg (Ne.symm hfi)]; exact m1
  let h3 := h2.set i ⟨parC fs, l.ptr, some f.id, v, handC fs⟩
  have e3 : h2.modify i (fun x => { x with right := some f.id, parent := parC fs, hand := if (parC fs).isSome then handC fs else Hand.na }) = some h3 := by
    rw [modify_some m3 _, handC_na]
  refine ⟨h3, ?_, ⟨?_, ?_, nx1, ?_⟩⟩
  · unfold rotateRight
    simp only [Heap.get, r1, e1, m1, m2, Option.bind_eq_bind, Option.bind_some, e2]
    exact e3
  · have k : ∀ j, j ≠ f.id → j ≠ i → h3.mem j = h1.mem j := by
      intro j a b
      rw [set_mem, if_neg b, set_mem, if_neg a]
    refine ⟨by simp [h3, set_mem, T.ptr], ?_, ?_, ?_, ?_⟩
    · refine rep_frame (fun j hj => ?_) r2
      rw [k j (fun e => d1 (di _ (e ▸ hj))) (fun e => n1 (e ▸ hj)), fr1 j (fun hm => n3 j hj hm)]
    · rw [set_mem, if_neg hfi, set_mem, if_pos rfl]
    · refine rep_frame (fun j hj => ?_) p1
      rw [k j (fun e => d1 (dr _ (e ▸ hj))) (fun e => n2 (e ▸ hj))]
    · refine rep_frame (fun j hj => ?_) c2'
      have a1 : j ∉ (T.node l i v r).ids := fun hm => d2 j hm hj
      rw [k j (fun e => d3 (e ▸ hj)) (fun e => a1 (e ▸ ds)), fr1 j (fun hm => a1 (dr _ hm))]
  · refine repC_frame (fun j hj => ?_) c3
    have a1 : j ∉ (T.node l i v r).ids := fun hm => d6 j hm hj
    have x1 : j ≠ i := fun e => a1 (e ▸ ds)
    have x2 : j ≠ f.id := fun e => d4 (e ▸ hj)
    rw [set_mem, if_neg x1, set_mem, if_neg x2, fr1 j (fun hm => a1 (dr _ hm))]
  · intro j ht hcc
    have a2 : j ≠ f.id := fun e => hcc ((mem_idsC_cons ..).2 (Or.inl e))
    have x1 : j ≠ i := fun e => ht (e ▸ ds)
    rw [set_mem, if_neg x1, set_mem, if_neg a2, fr1 j (fun hm => ht (dr _ hm))]

/-- The tree after rotating the focus over frame `f`. -/
def up (l : T α) (i : Nat) (v : α) (r : T α) (f : Frame α) : T α × T α :=
  if f.isR then (.node f.sib f.id f.val l, r) else (l, .node r f.id f.val f.sib)

/-- One rotation in the direction the handedness asks for. -/
def rot (h : Heap α) (i : Nat) (f : Frame α) : Option (Heap α) :=
  if f.isR then rotateLeft h i else rotateRight h i

theorem rot_spec {h : Heap α} {l r : T α} {i v} {f : Frame α} {fs}
    (hr : Rep h (some f.id) f.hand (.node l i v r)) (hc : RepC h (f :: fs))
    (hd : Distinct (.node l i v r) (f :: fs)) :
    ∃ h', rot h i f = some h' ∧
      Rotated h h' (f :: fs) fs i v (.node l i v r) (.node (up l i v r f).1 i v (up l i v r f).2) := by
  cases hf : f.isR
  · simp only [rot, up, hf, Bool.false_eq_true, if_false]
    exact rotateRight_spec hf (by simpa [Frame.hand, hf] using hr) hc hd
  · simp only [rot, up, hf, if_true]
    exact rotateLeft_spec hf (by simpa [Frame.hand, hf] using hr) hc hd

theorem up_flat_l (l r : T α) (i v) (f : Frame α) (fs) :
    pre fs ++ (up l i v r f).1.flat = pre (f :: fs) ++ l.flat := by
  cases hf : f.isR <;> simp [up, hf, pre, T.flat]

theorem up_flat_r (l r : T α) (i v) (f : Frame α) (fs) :
    (up l i v r f).2.flat ++ post fs = r.flat ++ post (f :: fs) := by
  cases hf : f.isR <;> simp [up, hf, post, T.flat]

theorem up_flat (l r : T α) (i v) (f : Frame α) (fs) :
    pre fs ++ (T.node (up l i v r f).1 i v (up l i v r f).2).flat ++ post fs =
      pre (f :: fs) ++ (T.node l i v r).flat ++ post (f :: fs) := by
  have a := up_flat_l l r i v f fs
  have b := up_flat_r l r i v f fs
  simp only [T.flat, List.append_assoc, List.cons_append] at *
  rw [b, ← List.append_assoc, a, List.append_assoc]

theorem up_distinct {l r : T α} {i v} {f : Frame α} {fs} (hd : Distinct (.node l i v r) (f :: fs)) :
    Distinct (.node (up l i v r f).1 i v (up l i v r f).2) fs := by
  unfold Distinct at *
  rw [up_flat]; exact hd

theorem mem_whole {t : T α} {c} {j : Nat} :
    j ∈ List.map (fun x : Nat × α => x.1) (pre c ++ t.flat ++ post c) ↔ j ∈ t.ids ∨ j ∈ idsC c := by
  simp only [List.map_append, List.mem_append, T.ids, idsC]
  tauto

/-- What `splay` achieves. -/
structure Splayed (h h' : Heap α) (c : List (Frame α)) (i : Nat) (v : α) (l r l' r' : T α) : Prop where
  rep : Rep h' none .na (.node l' i v r')
  next : h'.next = h.next
  fl : l'.flat = pre c ++ l.flat
  fr : r'.flat = r.flat ++ post c
  frame : ∀ j, j ∉ (T.node l i v r).ids → j ∉ idsC c → h'.mem j = h.mem j

/-- Unfold one iteration of the loop of `splay` when there is one frame. -/
theorem splay_one {h : Heap α} {fuel i : Nat} {f : Frame α} {l r : T α} {v}
    (hr : Rep h (some f.id) f.hand (.node l i v r)) (hc : RepC h [f]) :
    splay (fuel + 1) h i = (rot h i f).bind (fun h => splay fuel h i) := by
  obtain ⟨r1, _, _⟩ := hr
  obtain ⟨⟨hole, c1⟩, _, _⟩ := hc
  cases hf : f.isR
  · simp only [hf, Bool.false_eq_true, if_false] at c1
    simp only [splay, Heap.get, r1, c1, Option.bind_eq_bind, Option.bind_some, Frame.hand, hf, rot, parC,
      Bool.false_eq_true, if_false, if_true, reduceCtorEq]
  · simp only [hf, if_true] at c1
    simp only [splay, Heap.get, r1, c1, Option.bind_eq_bind, Option.bind_some, Frame.hand, hf, rot, parC, if_true]

/-- Unfold one iteration of the loop of `splay` when there are more frames. -/
theorem splay_two {h : Heap α} {fuel i : Nat} {f g : Frame α} {fs} {l r : T α} {v}
    (hr : Rep h (some f.id) f.hand (.node l i v r)) (hc : RepC h (f :: g :: fs)) :
    splay (fuel + 1) h i =
      (rot h i f).bind (fun h => (rot h i g).bind (fun h => splay fuel h i)) := by
  obtain ⟨r1, _, _⟩ := hr
  obtain ⟨⟨hole, c1⟩, _, _⟩ := hc
  cases hf : f.isR <;> cases hg : g.isR <;>
    simp only [hf, Bool.false_eq_true, if_false, if_true] at c1 <;>
    simp only [splay, Heap.get, r1, c1, Option.bind_eq_bind, Option.bind_some, Frame.hand, hf, hg, rot, parC, handC,
      Bool.false_eq_true, if_false, if_true, reduceCtorEq, and_self, and_true, and_false]

theorem splay_spec : ∀ (n fuel : Nat) (c : List (Frame α)) (h : Heap α) (l r : T α) (i : Nat) (v : α),
    c.length ≤ n → n < fuel → Rep h (parC c) (handC c) (.node l i v r) → RepC h c →
    Distinct (.node l i v r) c →
    ∃ h' l' r', splay fuel h i = some h' ∧ Splayed h h' c i v l r l' r' := by
  intro n
  induction n using Nat.strongRecOn with
  | _ n ih =>
  intro fuel c h l r i v hn hfu hr hc hd
  obtain ⟨fuel, rfl⟩ : ∃ k, fuel = k + 1 := ⟨fuel - 1, by omega⟩
  match c with
  | [] =>
    obtain ⟨r1, r2, r3⟩ := hr
    refine ⟨h, l, r, ?_, ⟨⟨r1, r2, r3⟩, rfl, by simp [pre], by simp [post], fun _ _ _ => rfl⟩⟩
    simp only [splay, Heap.get, r1, Option.bind_eq_bind, Option.bind_some, parC]
    rfl
  | [f] =>
    simp only [List.length_cons, List.length_nil] at hn
    rw [splay_one hr hc]
    obtain ⟨h1, e1, R⟩ := rot_spec hr hc hd
    obtain ⟨h2, l', r', e2, S⟩ := ih (n - 1) (by omega) fuel [] h1 _ _ i v (by simp) (by omega) R.rep R.ctx (up_distinct hd)
    refine ⟨h2, l', r', by rw [e1]; exact e2, ⟨S.rep, S.next.trans R.next, ?_, ?_, ?_⟩⟩
    · rw [S.fl, up_flat_l]
    · rw [S.fr, up_flat_r]
    · intro j a b
      rw [S.frame j ?_ ?_, R.frame j a b]
      · intro hm
        have := (mem_whole (t := T.node (up l i v r f).1 i v (up l i v r f).2) (c := []) (j := j)).2 (Or.inl hm)
        rw [up_flat] at this
        exact (mem_whole.1 this).elim a b
      · simp [idsC, pre, post]
  | f :: g :: fs =>
    simp only [List.length_cons] at hn
    rw [splay_two hr hc]
    obtain ⟨h1, e1, R⟩ := rot_spec hr hc hd
    have hd1 := up_distinct hd
    obtain ⟨h2, e2, R2⟩ := rot_spec R.rep R.ctx hd1
    obtain ⟨h3, l', r', e3, S⟩ := ih (n - 1) (by omega) fuel fs h2 _ _ i v (by omega) (by omega) R2.rep R2.ctx (up_distinct hd1)
    refine ⟨h3, l', r', by rw [e1]; simp only [Option.bind_some]; rw [e2]; exact e3, ⟨S.rep, S.next.trans (R2.next.trans R.next), ?_, ?_, ?_⟩⟩
    · rw [S.fl, up_flat_l, up_flat_l]
    · rw [S.fr, up_flat_r, up_flat_r]
    · intro j a b
      have step : ∀ (l r : T α) (f : Frame α) (fs), j ∉ (T.node l i v r).ids → j ∉ idsC (f :: fs) →
          j ∉ (T.node (up l i v r f).1 i v (up l i v r f).2).ids ∧ j ∉ idsC fs := by
        intro l r f fs a b
        have key : ¬ (j ∈ (T.node (up l i v r f).1 i v (up l i v r f).2).ids ∨ j ∈ idsC fs) := by
          intro hm
          have := mem_whole.2 hm
          rw [up_flat] at this
          exact (mem_whole.1 this).elim a b
        exact ⟨fun hm => key (Or.inl hm), fun hm => key (Or.inr hm)⟩
      obtain ⟨a1, b1⟩ := step _ _ _ _ a b
      obtain ⟨a2, b2⟩ := step _ _ _ _ a1 b1
      rw [S.frame j a2 b2, R2.frame j a1 b1, R.frame j a b]

end Verif.Splay
