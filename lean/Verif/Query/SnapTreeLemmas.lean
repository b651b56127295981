import Verif.Query.SnapTreeSpec
import Mathlib.Data.List.Infix
/-!
# Proofs about the tree formatter
-/
namespace Verif.Query.Tree
open Verif Verif.Cali Verif.Query Verif.Query.Fmt Verif.Util
open Verif.Query.Json (AInfo)

/-! ### taking a record apart -/

theorem push_run (C : TCfg) (ps : List (Nat × Val)) : ∀ (s : List Lbl × Rec),
    ps.foldl (pushEntry C.info C.isPath) s =
      (s.1 ++ ps.filter (PathEntry C), s.2 ++ (firsts (ps.filter (DataEntry C))).filter fun q => !(s.2.any fun r => r.1 = q.1)) := by
  induction ps with
  | nil => intro s; simp [firsts]
  | cons p ps ih =>
    intro s
    rw [List.foldl_cons, ih]
    unfold pushEntry
    cases hi : C.info p.1 with
    | none =>
      have h1 : PathEntry C p = false := by simp [PathEntry, hi]
      have h2 : DataEntry C p = false := by simp [DataEntry, hi]
      simp [List.filter_cons, h1, h2]
    | some ai =>
      cases hp : C.isPath ai with
      | true =>
        have h1 : PathEntry C p = true := by simp [PathEntry, hi, hp]
        have h2 : DataEntry C p = false := by simp [DataEntry, hi, hp]
        simp [List.filter_cons, h1, h2, hp]
      | false =>
        have h1 : PathEntry C p = false := by simp [PathEntry, hi, hp]
        have h2 : DataEntry C p = true := by simp [DataEntry, hi, hp]
        simp only [List.filter_cons, h1, h2, if_true, firsts]
        rw [if_neg (show ¬ (C.isPath ai = true) by rw [hp]; exact Bool.false_ne_true)]
        cases ha : s.2.any fun q => decide (q.1 = p.1) with
        | true =>
          simp only [if_true, Bool.not_true, Bool.false_eq_true, if_false, ha, List.filter_cons]
          congr 2
          rw [List.filter_filter]
          refine List.filter_congr fun q _ => ?_
          by_cases hq : q.1 = p.1
          · rw [hq, ha]; rfl
          · simp [hq]
        | false =>
          simp only [Bool.false_eq_true, if_false, ha, List.filter_cons, Bool.not_false, if_true]
          congr 1
          rw [List.append_assoc]
          congr 1
          simp only [List.singleton_append]
          congr 1
          rw [List.filter_filter]
          refine List.filter_congr fun q _ => ?_
          rw [List.any_append]
          by_cases hq : q.1 = p.1
          · simp [hq]
          · simp [hq, Ne.symm hq]

theorem unpack_eq (rec : List QEnt) : unpack rec = pairs rec := rfl

theorem push_spec (C : TCfg) (rec : List QEnt) :
    (unpack rec).foldl (pushEntry C.info C.isPath) ([], []) = ((recPath C rec).reverse, recData C rec) := by
  rw [push_run, unpack_eq]
  simp [recPath, recData]

/-! ### the tree -/

mutual
/-- the records in a subtree with their paths, in printing order -/
def entries (pre : List Lbl) : SNode → List (List Lbl × Rec)
  | .mk l rs ks => rs.map (fun r => (pre ++ [l], r)) ++ entriesL (pre ++ [l]) ks
def entriesL (pre : List Lbl) : List SNode → List (List Lbl × Rec)
  | [] => []
  | k :: ks => entries pre k ++ entriesL pre ks
end

mutual
/-- the paths of the nodes of a subtree -/
def paths (pre : List Lbl) : SNode → List (List Lbl)
  | .mk l _ ks => (pre ++ [l]) :: pathsL (pre ++ [l]) ks
def pathsL (pre : List Lbl) : List SNode → List (List Lbl)
  | [] => []
  | k :: ks => paths pre k ++ pathsL pre ks
end

mutual
/-- the labels of siblings differ -/
def WF : SNode → Prop
  | .mk _ _ ks => (ks.map SNode.label).Nodup ∧ WFL ks
def WFL : List SNode → Prop
  | [] => True
  | k :: ks => WF k ∧ WFL ks
end

theorem entriesL_append (pre : List Lbl) (a b : List SNode) : entriesL pre (a ++ b) = entriesL pre a ++ entriesL pre b := by
  induction a with
  | nil => simp [entriesL]
  | cons k ks ih => simp [entriesL, ih]

mutual
theorem entries_prefix (pre : List Lbl) : ∀ (n : SNode), ∀ e ∈ entries pre n, pre ++ [n.label] <+: e.1
  | .mk l rs ks, e, he => by
    rw [entries, List.mem_append] at he
    rcases he with he | he
    · obtain ⟨r, -, rfl⟩ := List.mem_map.1 he
      exact List.prefix_refl _
    · obtain ⟨k, -, hk⟩ := entriesL_prefix (pre ++ [l]) ks e he
      exact (List.prefix_append _ _).trans hk
theorem entriesL_prefix (pre : List Lbl) : ∀ (ks : List SNode), ∀ e ∈ entriesL pre ks, ∃ k ∈ ks, pre ++ [k.label] <+: e.1
  | [], e, he => by simp [entriesL] at he
  | k :: ks, e, he => by
    rw [entriesL, List.mem_append] at he
    rcases he with he | he
    · exact ⟨k, List.mem_cons_self .., entries_prefix pre k e he⟩
    · obtain ⟨k', h1, h2⟩ := entriesL_prefix pre ks e he
      exact ⟨k', List.mem_cons_of_mem _ h1, h2⟩
end

theorem prefix_label {pre : List Lbl} {l p : Lbl} {ps : List Lbl} (h : pre ++ [l] <+: pre ++ p :: ps) : l = p := by
  rw [List.prefix_append_right_inj] at h
  exact (List.cons_prefix_cons.1 h).1

theorem filter_entriesL_nil {pre : List Lbl} {p : Lbl} {ps : List Lbl} {ks : List SNode} (h : ∀ k ∈ ks, k.label ≠ p) {q : List Lbl}
    (hq : q = pre ++ p :: ps) : (entriesL pre ks).filter (fun e => e.1 = q) = [] := by
  rw [List.filter_eq_nil_iff]
  intro e he hE
  obtain ⟨k, hk, hpr⟩ := entriesL_prefix pre ks e he
  have : e.1 = q := by simpa using hE
  rw [this, hq] at hpr
  exact h k hk (prefix_label hpr)

@[simp] theorem addAt_label (d : Rec) (ps : List Lbl) (n : SNode) : (addAt d ps n).label = n.label := by
  cases n; cases ps <;> rfl

theorem modifyFirst_labels {p : Lbl} {f : SNode → SNode} (hf : ∀ n, (f n).label = n.label) (ks : List SNode) :
    (modifyFirst p f ks).map SNode.label = ks.map SNode.label := by
  induction ks with
  | nil => rfl
  | cons k ks ih =>
    unfold modifyFirst
    by_cases h : k.label = p
    · rw [if_pos h]; simp [hf]
    · rw [if_neg h]; simp [ih]

/-- a list of children in which a record is added keeps distinct labels -/
theorem stepKid_nodup {p : Lbl} {f : SNode → SNode} (hf : ∀ n, (f n).label = n.label) {ks : List SNode} (h : (ks.map SNode.label).Nodup) :
    ((stepKid p f ks).map SNode.label).Nodup := by
  unfold stepKid
  by_cases hp : (ks.any fun k => decide (k.label = p)) = true
  · rw [if_pos hp, modifyFirst_labels hf]; exact h
  · rw [if_neg hp, List.map_cons, hf]
    refine List.nodup_cons.2 ⟨?_, h⟩
    intro hm
    obtain ⟨k, hk, he⟩ := List.mem_map.1 hm
    exact hp (List.any_eq_true.2 ⟨k, hk, decide_eq_true he⟩)

theorem modifyFirst_WFL {p : Lbl} {f : SNode → SNode} (hf : ∀ n, WF n → WF (f n)) : ∀ {ks : List SNode}, WFL ks → WFL (modifyFirst p f ks)
  | [], _ => by simp [modifyFirst, WFL]
  | k :: ks, h => by
    rw [WFL] at h
    unfold modifyFirst
    by_cases hk : k.label = p
    · rw [if_pos hk, WFL]; exact ⟨hf k h.1, h.2⟩
    · rw [if_neg hk, WFL]; exact ⟨h.1, modifyFirst_WFL hf h.2⟩

theorem stepKid_WFL {p : Lbl} {f : SNode → SNode} (hf : ∀ n, WF n → WF (f n)) {ks : List SNode} (h : WFL ks) : WFL (stepKid p f ks) := by
  unfold stepKid
  by_cases hp : (ks.any fun k => decide (k.label = p)) = true
  · rw [if_pos hp]; exact modifyFirst_WFL hf h
  · rw [if_neg hp, WFL]
    refine ⟨hf _ ?_, h⟩
    simp [WF, WFL]

theorem addAt_WF (d : Rec) : ∀ (ps : List Lbl) (n : SNode), WF n → WF (addAt d ps n)
  | [], .mk l rs ks, h => by simpa [addAt, WF] using h
  | p :: ps, .mk l rs ks, h => by
    rw [WF] at h
    rw [addAt, WF]
    exact ⟨stepKid_nodup (fun n => addAt_label d ps n) h.1, stepKid_WFL (addAt_WF d ps) h.2⟩

/-- what adding a record does to the records of one path, for a function on nodes that adds the record below the node -/
theorem stepKid_filter {pre : List Lbl} {p : Lbl} {ps : List Lbl} {d : Rec} {f : SNode → SNode} {q : List Lbl}
    (hf : ∀ n, WF n → n.label = p →
      (entries pre (f n)).filter (fun e => e.1 = q) = (entries pre n).filter (fun e => e.1 = q) ++ if q = pre ++ p :: ps then [(q, d)] else [])
    {ks : List SNode} (hn : (ks.map SNode.label).Nodup) (hw : WFL ks) :
    (entriesL pre (stepKid p f ks)).filter (fun e => e.1 = q) =
      (entriesL pre ks).filter (fun e => e.1 = q) ++ if q = pre ++ p :: ps then [(q, d)] else [] := by
  unfold stepKid
  by_cases hp : (ks.any fun k => decide (k.label = p)) = true
  · rw [if_pos hp]
    induction ks with
    | nil => simp at hp
    | cons k ks ih =>
      rw [WFL] at hw
      rw [List.map_cons, List.nodup_cons] at hn
      unfold modifyFirst
      by_cases hk : k.label = p
      · rw [if_pos hk, entriesL, entriesL, List.filter_append, List.filter_append, hf k hw.1 hk]
        by_cases hq : q = pre ++ p :: ps
        · have : (entriesL pre ks).filter (fun e => e.1 = q) = [] := by
            refine filter_entriesL_nil (p := p) (ps := ps) ?_ hq
            intro k' hk' he
            exact hn.1 (List.mem_map.2 ⟨k', hk', by rw [he, hk]⟩)
          rw [this]; simp
        · simp [hq]
      · rw [if_neg hk, entriesL, entriesL, List.filter_append, List.filter_append, ih hn.2 hw.2 (by simpa [hk] using hp)]
        simp
  · rw [if_neg hp, entriesL, List.filter_append, hf _ (by simp [WF, WFL]) rfl]
    by_cases hq : q = pre ++ p :: ps
    · have : (entriesL pre ks).filter (fun e => e.1 = q) = [] := by
        refine filter_entriesL_nil (p := p) (ps := ps) ?_ hq
        intro k' hk' he
        exact hp (List.any_eq_true.2 ⟨k', hk', by simpa using he⟩)
      rw [this]; simp [entries, entriesL]
    · simp [hq, entries, entriesL]

theorem addAt_filter (d : Rec) (q : List Lbl) : ∀ (ps : List Lbl) (pre : List Lbl) (n : SNode), WF n →
    (entries pre (addAt d ps n)).filter (fun e => e.1 = q) =
      (entries pre n).filter (fun e => e.1 = q) ++ if q = pre ++ n.label :: ps then [(q, d)] else []
  | [], pre, .mk l rs ks, h => by
    rw [addAt, entries, entries, List.map_append, List.filter_append, List.filter_append, List.filter_append]
    by_cases hq : q = pre ++ [l]
    · have : (entriesL (pre ++ [l]) ks).filter (fun e => e.1 = q) = [] := by
        rw [List.filter_eq_nil_iff]
        intro e he hE
        obtain ⟨k, -, hpr⟩ := entriesL_prefix _ ks e he
        have h1 : e.1 = q := by simpa using hE
        rw [h1, hq] at hpr
        have := hpr.length_le
        simp at this
      rw [this]
      simp [hq, SNode.label]
    · simp [hq, SNode.label, Ne.symm hq, eq_comm]
  | p :: ps, pre, .mk l rs ks, h => by
    rw [WF] at h
    rw [addAt, entries, entries, List.filter_append, List.filter_append, stepKid_filter (ps := ps) (d := d) ?_ h.1 h.2]
    · have e : (pre ++ [l]) ++ p :: ps = pre ++ l :: p :: ps := by simp
      rw [e, ← List.append_assoc]
      rfl
    · intro n hn hl
      rw [addAt_filter d q ps _ n hn, hl]

theorem addKids_filter (d : Rec) (q : List Lbl) {path : List Lbl} (hne : path ≠ []) {ks : List SNode} (hn : (ks.map SNode.label).Nodup) (hw : WFL ks) :
    (entriesL [] (addKids d path ks)).filter (fun e => e.1 = q) =
      (entriesL [] ks).filter (fun e => e.1 = q) ++ if q = path then [(q, d)] else [] := by
  cases path with
  | nil => exact absurd rfl hne
  | cons p ps =>
    rw [addKids, stepKid_filter (ps := ps) (d := d) ?_ hn hw]
    · simp
    · intro n hn' hl
      rw [addAt_filter d q ps _ n hn', hl]

/-! ### node paths -/

theorem modifyFirst_paths {pre : List Lbl} {p : Lbl} {ps : List Lbl} {f : SNode → SNode} {q : List Lbl}
    (hf : ∀ n, n.label = p → (q ∈ paths pre (f n) ↔ q ∈ paths pre n ∨ ∃ r, r <+: ps ∧ q = pre ++ p :: r))
    {ks : List SNode} (hp : (ks.any fun k => decide (k.label = p)) = true) :
    q ∈ pathsL pre (modifyFirst p f ks) ↔ q ∈ pathsL pre ks ∨ ∃ r, r <+: ps ∧ q = pre ++ p :: r := by
  induction ks with
  | nil => simp at hp
  | cons k ks ih =>
    unfold modifyFirst
    by_cases hk : k.label = p
    · rw [if_pos hk, pathsL, pathsL, List.mem_append, List.mem_append, hf k hk]
      exact or_right_comm
    · rw [if_neg hk, pathsL, pathsL, List.mem_append, List.mem_append, ih (by simpa [hk] using hp)]
      exact or_assoc.symm

theorem stepKid_paths {pre : List Lbl} {p : Lbl} {ps : List Lbl} {f : SNode → SNode} {q : List Lbl}
    (hf : ∀ n, n.label = p → (q ∈ paths pre (f n) ↔ q ∈ paths pre n ∨ ∃ r, r <+: ps ∧ q = pre ++ p :: r))
    (ks : List SNode) :
    q ∈ pathsL pre (stepKid p f ks) ↔ q ∈ pathsL pre ks ∨ ∃ r, r <+: ps ∧ q = pre ++ p :: r := by
  unfold stepKid
  by_cases hp : (ks.any fun k => decide (k.label = p)) = true
  · rw [if_pos hp]; exact modifyFirst_paths hf hp
  · rw [if_neg hp, pathsL, List.mem_append, hf _ rfl]
    simp only [paths, pathsL, List.mem_singleton]
    constructor
    · rintro ((h | h) | h)
      · exact .inr ⟨[], List.nil_prefix, h⟩
      · exact .inr h
      · exact .inl h
    · rintro (h | h)
      · exact .inr h
      · exact .inl (.inr h)

theorem addAt_paths (d : Rec) (q : List Lbl) : ∀ (ps : List Lbl) (pre : List Lbl) (n : SNode),
    q ∈ paths pre (addAt d ps n) ↔ q ∈ paths pre n ∨ ∃ r, r <+: ps ∧ q = pre ++ n.label :: r
  | [], pre, .mk l rs ks => by
    rw [addAt, paths, paths]
    constructor
    · exact .inl
    · rintro (h | ⟨r, hr, hq⟩)
      · exact h
      · rw [List.prefix_nil] at hr; subst hr; rw [hq]; exact List.mem_cons_self ..
  | p :: ps, pre, .mk l rs ks => by
    rw [addAt, paths, paths, List.mem_cons, List.mem_cons, stepKid_paths (ps := ps)]
    · simp only [SNode.label]
      constructor
      · rintro (h | h | ⟨r, hr, hq⟩)
        · exact .inl (.inl h)
        · exact .inl (.inr h)
        · exact .inr ⟨p :: r, List.cons_prefix_cons.2 ⟨rfl, hr⟩, by rw [hq]; simp⟩
      · rintro ((h | h) | ⟨r, hr, hq⟩)
        · exact .inl h
        · exact .inr (.inl h)
        · cases r with
          | nil => exact .inl hq
          | cons x r =>
            rw [List.cons_prefix_cons] at hr
            refine .inr (.inr ⟨r, hr.2, ?_⟩)
            rw [hq, hr.1]; simp
    · intro n hl
      rw [addAt_paths d q ps _ n, hl]

theorem addKids_paths (d : Rec) (q : List Lbl) {path : List Lbl} (hne : path ≠ []) (ks : List SNode) :
    q ∈ pathsL [] (addKids d path ks) ↔ q ∈ pathsL [] ks ∨ (q ≠ [] ∧ q <+: path) := by
  cases path with
  | nil => exact absurd rfl hne
  | cons p ps =>
    rw [addKids, stepKid_paths (ps := ps)]
    · refine or_congr_right ⟨?_, ?_⟩
      · rintro ⟨r, hr, hq⟩
        rw [hq]; exact ⟨by simp, by simpa using hr⟩
      · rintro ⟨h0, hq⟩
        cases q with
        | nil => exact absurd rfl h0
        | cons x q =>
          rw [List.cons_prefix_cons] at hq
          exact ⟨q, hq.2, by rw [hq.1]; rfl⟩
    · intro n hl
      rw [addAt_paths d q ps _ n, hl]

mutual
theorem paths_prefix (pre : List Lbl) : ∀ (n : SNode), ∀ q ∈ paths pre n, pre ++ [n.label] <+: q
  | .mk l rs ks, q, hq => by
    rw [paths, List.mem_cons] at hq
    rcases hq with rfl | hq
    · exact List.prefix_refl _
    · obtain ⟨k, -, hk⟩ := pathsL_prefix (pre ++ [l]) ks q hq
      exact (List.prefix_append _ _).trans hk
theorem pathsL_prefix (pre : List Lbl) : ∀ (ks : List SNode), ∀ q ∈ pathsL pre ks, ∃ k ∈ ks, pre ++ [k.label] <+: q
  | [], q, hq => by simp [pathsL] at hq
  | k :: ks, q, hq => by
    rw [pathsL, List.mem_append] at hq
    rcases hq with hq | hq
    · exact ⟨k, List.mem_cons_self .., paths_prefix pre k q hq⟩
    · obtain ⟨k', h1, h2⟩ := pathsL_prefix pre ks q hq
      exact ⟨k', List.mem_cons_of_mem _ h1, h2⟩
end

mutual
theorem paths_nodup (pre : List Lbl) : ∀ (n : SNode), WF n → (paths pre n).Nodup
  | .mk l rs ks, h => by
    rw [WF] at h
    rw [paths, List.nodup_cons]
    refine ⟨?_, pathsL_nodup _ ks h.1 h.2⟩
    intro hm
    obtain ⟨k, -, hk⟩ := pathsL_prefix _ ks _ hm
    have := hk.length_le
    simp at this
theorem pathsL_nodup (pre : List Lbl) : ∀ (ks : List SNode), (ks.map SNode.label).Nodup → WFL ks → (pathsL pre ks).Nodup
  | [], _, _ => by simp [pathsL]
  | k :: ks, hn, hw => by
    rw [WFL] at hw
    rw [List.map_cons, List.nodup_cons] at hn
    rw [pathsL]
    refine List.Nodup.append (paths_nodup pre k hw.1) (pathsL_nodup pre ks hn.2 hw.2) ?_
    intro q h1 h2
    have e1 := paths_prefix pre k q h1
    obtain ⟨k', hk', e2⟩ := pathsL_prefix pre ks q h2
    have e3 : pre ++ [k.label] = pre ++ [k'.label] := by
      have := List.prefix_of_prefix_length_le e1 e2 (by simp)
      exact this.eq_of_length (by simp)
    have e4 : k.label = k'.label := by simpa using e3
    exact hn.1 (List.mem_map.2 ⟨k', hk', e4.symm⟩)
end

/-! ### arranging the tree permutes it -/

theorem entriesL_eq_flatMap (pre : List Lbl) (ks : List SNode) : entriesL pre ks = ks.flatMap (entries pre) := by
  induction ks with
  | nil => rfl
  | cons k ks ih => rw [entriesL, ih]; rfl

theorem pathsL_eq_flatMap (pre : List Lbl) (ks : List SNode) : pathsL pre ks = ks.flatMap (paths pre) := by
  induction ks with
  | nil => rfl
  | cons k ks ih => rw [pathsL, ih]; rfl

theorem entriesL_perm {pre : List Lbl} {a b : List SNode} (h : a.Perm b) : (entriesL pre a).Perm (entriesL pre b) := by
  rw [entriesL_eq_flatMap, entriesL_eq_flatMap]; exact h.flatMap_right _

theorem pathsL_perm {pre : List Lbl} {a b : List SNode} (h : a.Perm b) : (pathsL pre a).Perm (pathsL pre b) := by
  rw [pathsL_eq_flatMap, pathsL_eq_flatMap]; exact h.flatMap_right _

theorem sortRecs_entries (S : Sorter) (dcmp : U64 → U64 → Int) (keys : List (Nat × Bool)) (pre : List Lbl) (n : SNode) :
    (entries pre (n.sortRecs S dcmp keys)).Perm (entries pre n) ∧ paths pre (n.sortRecs S dcmp keys) = paths pre n := by
  cases n with
  | mk l rs ks =>
    simp only [SNode.sortRecs, entries, paths]
    exact ⟨((sortAll_perm S _ rs).map _).append_right _, trivial⟩

theorem flatMap_perm_congr {α β : Type} {f g : α → List β} {l : List α} (h : ∀ x ∈ l, (f x).Perm (g x)) : (l.flatMap f).Perm (l.flatMap g) := by
  induction l with
  | nil => exact List.Perm.refl _
  | cons x l ih =>
    rw [List.flatMap_cons, List.flatMap_cons]
    exact (h x (List.mem_cons_self ..)).append (ih fun y hy => h y (List.mem_cons_of_mem _ hy))

theorem arrange_perm (S : Sorter) (dcmp : U64 → U64 → Int) (pre : List Lbl) (keys : List (Nat × Bool)) : ∀ (ps : List (SNode × SNode)),
    (entriesL pre ((arrange S dcmp keys ps).map Prod.snd)).Perm (entriesL pre (ps.map Prod.snd)) ∧
    (pathsL pre ((arrange S dcmp keys ps).map Prod.snd)).Perm (pathsL pre (ps.map Prod.snd)) := by
  intro ps
  have h2 := sortAll_perm S (keys.map fun k (a b : SNode × SNode) => nodeLt dcmp k.1 k.2 a.1 b.1) ps
  unfold arrange
  rw [entriesL_eq_flatMap, entriesL_eq_flatMap, pathsL_eq_flatMap, pathsL_eq_flatMap, List.flatMap_map, List.flatMap_map, List.flatMap_map,
    List.flatMap_map, List.flatMap_map, List.flatMap_map]
  refine ⟨List.Perm.trans ?_ (h2.flatMap_right _), List.Perm.trans ?_ (h2.flatMap_right _)⟩
  · exact flatMap_perm_congr fun p _ => (sortRecs_entries S dcmp keys pre p.2).1
  · exact flatMap_perm_congr fun p _ => by
      show (paths pre (p.2.sortRecs S dcmp keys)).Perm _
      rw [(sortRecs_entries S dcmp keys pre p.2).2]

mutual
theorem sortT_perm (S : Sorter) (dcmp : U64 → U64 → Int) (keys : List (Nat × Bool)) (pre : List Lbl) : ∀ (n : SNode),
    (entries pre (sortT S dcmp keys n)).Perm (entries pre n) ∧ (paths pre (sortT S dcmp keys n)).Perm (paths pre n)
  | .mk l rs ks => by
    rw [sortT, entries, entries, paths, paths]
    have h1 := arrange_perm S dcmp (pre ++ [l]) keys (sortTs S dcmp keys ks)
    have h2 := sortTs_perm S dcmp keys (pre ++ [l]) ks
    exact ⟨(h1.1.trans h2.1).append_left _, (h1.2.trans h2.2).cons _⟩
theorem sortTs_perm (S : Sorter) (dcmp : U64 → U64 → Int) (keys : List (Nat × Bool)) (pre : List Lbl) : ∀ (ks : List SNode),
    (entriesL pre ((sortTs S dcmp keys ks).map Prod.snd)).Perm (entriesL pre ks) ∧
    (pathsL pre ((sortTs S dcmp keys ks).map Prod.snd)).Perm (pathsL pre ks)
  | [] => by simp [sortTs, entriesL, pathsL]
  | k :: ks => by
    rw [sortTs, List.map_cons, entriesL, entriesL, pathsL, pathsL]
    have h1 := sortT_perm S dcmp keys pre k
    have h2 := sortTs_perm S dcmp keys pre ks
    exact ⟨h1.1.append h2.1, h1.2.append h2.2⟩
end

theorem sortTop_perm (S : Sorter) (dcmp : U64 → U64 → Int) (keys : List (Nat × Bool)) (pre : List Lbl) (ks : List SNode) :
    (entriesL pre (sortTop S dcmp keys ks)).Perm (entriesL pre ks) ∧ (pathsL pre (sortTop S dcmp keys ks)).Perm (pathsL pre ks) := by
  have h1 := arrange_perm S dcmp pre keys (sortTs S dcmp keys ks)
  have h2 := sortTs_perm S dcmp keys pre ks
  exact ⟨h1.1.trans h2.1, h1.2.trans h2.2⟩

mutual
theorem sortT_nil (S : Sorter) (dcmp : U64 → U64 → Int) : ∀ (n : SNode), sortT S dcmp [] n = n
  | .mk l rs ks => by
    rw [sortT]
    congr 1
    have e : arrange S dcmp [] (sortTs S dcmp [] ks) = sortTs S dcmp [] ks := by
      unfold arrange
      simp only [List.map_nil, sortAll, List.foldl_nil]
      refine (List.map_congr_left fun p _ => ?_).trans (List.map_id _)
      obtain ⟨n, m⟩ := p
      cases m; rfl
    rw [e]
    exact sortTs_nil S dcmp ks
theorem sortTs_nil (S : Sorter) (dcmp : U64 → U64 → Int) : ∀ (ks : List SNode), (sortTs S dcmp [] ks).map Prod.snd = ks
  | [] => rfl
  | k :: ks => by rw [sortTs, List.map_cons, sortT_nil S dcmp k, sortTs_nil S dcmp ks]
end

/-! ### lines -/

/-- the lines of one node -/
def nodeRows (level : Nat) (l : Lbl) : List Rec → List TRow
  | [] => [⟨level, some l, none⟩]
  | [r] => [⟨level, some l, some r⟩]
  | rs => ⟨level, some l, none⟩ :: rs.map fun r => ⟨level, none, some r⟩

mutual
/-- the lines of a subtree -/
def rows (level : Nat) : SNode → List TRow
  | .mk l rs ks => nodeRows level l rs ++ rowsL (level + 1) ks
def rowsL (level : Nat) : List SNode → List TRow
  | [] => []
  | k :: ks => rows level k ++ rowsL level ks
end

theorem recLines_pos (C : TCfg) (cs : Cols) (pw level : Nat) (attrs : List Nat) (rs : List Rec) : ∀ (n : Nat), 0 < n →
    C.recLines cs pw level attrs n rs ++ [ch '\n'] = ch '\n' :: (rs.map fun r => (⟨level, none, some r⟩ : TRow)).flatMap (C.renderRow cs pw attrs) := by
  induction rs with
  | nil => intro n _; rfl
  | cons r rs ih =>
    intro n hn
    rw [TCfg.recLines, if_pos hn, List.map_cons, List.flatMap_cons]
    have := ih (n + 1) (by omega)
    simp only [List.append_assoc, this, TCfg.renderRow, List.cons_append, List.nil_append]

theorem nodeRows_text (C : TCfg) (cs : Cols) (pw level : Nat) (attrs : List Nat) (l : Lbl) (rs : List Rec) (rest : Str) :
    pathCell pw level (clampStr (l.2.toStr C.dbl)) ++ (C.recLines cs pw level attrs (if rs.length > 1 then 1 else 0) rs ++ (ch '\n' :: rest)) =
      (nodeRows level l rs).flatMap (C.renderRow cs pw attrs) ++ rest := by
  match rs with
  | [] => simp [nodeRows, TCfg.recLines, TCfg.renderRow]
  | [r] => simp [nodeRows, TCfg.recLines, TCfg.renderRow]
  | r :: r' :: rs =>
    have h1 : (r :: r' :: rs).length > 1 := by simp
    rw [if_pos h1, nodeRows]
    · have h2 := recLines_pos C cs pw level attrs (r :: r' :: rs) 1 (by omega)
      have h3 : C.recLines cs pw level attrs 1 (r :: r' :: rs) ++ (ch '\n' :: rest) =
          (C.recLines cs pw level attrs 1 (r :: r' :: rs) ++ [ch '\n']) ++ rest := by simp
      rw [h3, h2, List.flatMap_cons]
      simp [TCfg.renderRow]
    · simp
    · simp

mutual
theorem printNode_rows (C : TCfg) (cs : Cols) (pw : Nat) (attrs : List Nat) (level : Nat) : ∀ (n : SNode),
    C.printNode cs pw attrs level n = (rows level n).flatMap (C.renderRow cs pw attrs)
  | .mk l rs ks => by
    rw [TCfg.printNode, rows, List.flatMap_append, ← printKids_rows C cs pw attrs (level + 1) ks]
    exact nodeRows_text C cs pw level attrs l rs _
theorem printKids_rows (C : TCfg) (cs : Cols) (pw : Nat) (attrs : List Nat) (level : Nat) : ∀ (ks : List SNode),
    C.printKids cs pw attrs level ks = (rowsL level ks).flatMap (C.renderRow cs pw attrs)
  | [] => by rw [TCfg.printKids, rowsL]; rfl
  | k :: ks => by
    rw [TCfg.printKids, rowsL, List.flatMap_append, printNode_rows C cs pw attrs level k, printKids_rows C cs pw attrs level ks]
end

/-! ### reading the lines -/

/-- the lines `m` read from the current path as `E` and `P`, and leave a current path with the same first `n` elements -/
def Reads (n : Nat) (pre : List Lbl) (m : List TRow) (E : List (List Lbl × Rec)) (P : List (List Lbl)) : Prop :=
  ∀ cur : List Lbl, cur.take n = pre → ∃ cur', cur'.take n = pre ∧
    (∀ rest, readRows cur (m ++ rest) = E ++ readRows cur' rest) ∧ (∀ rest, readPaths cur (m ++ rest) = P ++ readPaths cur' rest)

theorem Reads.append {n : Nat} {pre : List Lbl} {m m' : List TRow} {E E' : List (List Lbl × Rec)} {P P' : List (List Lbl)}
    (h : Reads n pre m E P) (h' : Reads n pre m' E' P') : Reads n pre (m ++ m') (E ++ E') (P ++ P') := by
  intro cur hc
  obtain ⟨c1, h1, h2, h3⟩ := h cur hc
  obtain ⟨c2, h4, h5, h6⟩ := h' c1 h1
  exact ⟨c2, h4, fun rest => by rw [List.append_assoc, h2, h5, List.append_assoc], fun rest => by rw [List.append_assoc, h3, h6, List.append_assoc]⟩

theorem read_conts (level : Nat) (cur : List Lbl) (rs : List Rec) (rest : List TRow) :
    readRows cur ((rs.map fun r => (⟨level, none, some r⟩ : TRow)) ++ rest) = rs.map (fun r => (cur, r)) ++ readRows cur rest ∧
    readPaths cur ((rs.map fun r => (⟨level, none, some r⟩ : TRow)) ++ rest) = readPaths cur rest := by
  induction rs with
  | nil => exact ⟨rfl, rfl⟩
  | cons r rs ih => simp [readRows, readPaths, ih.1, ih.2]

theorem nodeRows_read (level : Nat) (l : Lbl) (rs : List Rec) (cur : List Lbl) (rest : List TRow) :
    readRows cur (nodeRows level l rs ++ rest) = rs.map (fun r => (cur.take level ++ [l], r)) ++ readRows (cur.take level ++ [l]) rest ∧
    readPaths cur (nodeRows level l rs ++ rest) = (cur.take level ++ [l]) :: readPaths (cur.take level ++ [l]) rest := by
  match rs with
  | [] => simp [nodeRows, readRows, readPaths]
  | [r] => simp [nodeRows, readRows, readPaths]
  | r :: r' :: rs =>
    rw [nodeRows]
    · have := read_conts level (cur.take level ++ [l]) (r :: r' :: rs) rest
      simp only [List.cons_append, readRows, readPaths, List.nil_append]
      exact ⟨this.1, by rw [this.2]⟩
    · simp
    · simp

mutual
theorem rows_reads (pre : List Lbl) : ∀ (n : SNode), Reads pre.length pre (rows pre.length n) (entries pre n) (paths pre n)
  | .mk l rs ks => by
    intro cur hc
    have hl : (pre ++ [l]).length = pre.length + 1 := by simp
    obtain ⟨c, h1, h2, h3⟩ := rowsL_reads (pre ++ [l]) ks (pre ++ [l]) (by simp)
    refine ⟨c, ?_, ?_, ?_⟩
    · rw [hl] at h1
      have : (c.take (pre.length + 1)).take pre.length = c.take pre.length := by rw [List.take_take]; congr 1; omega
      rw [← this, h1]; simp
    · intro rest
      rw [rows, List.append_assoc, (nodeRows_read _ l rs cur _).1, hc, ← hl, h2, entries, List.append_assoc]
    · intro rest
      rw [rows, List.append_assoc, (nodeRows_read _ l rs cur _).2, hc, ← hl, h3, paths]; rfl
theorem rowsL_reads (pre : List Lbl) : ∀ (ks : List SNode), Reads pre.length pre (rowsL pre.length ks) (entriesL pre ks) (pathsL pre ks)
  | [] => fun cur hc => ⟨cur, hc, fun _ => rfl, fun _ => rfl⟩
  | k :: ks => by
    rw [rowsL, entriesL, pathsL]
    exact (rows_reads pre k).append (rowsL_reads pre ks)
end

theorem readRows_rowsL (ks : List SNode) : readRows [] (rowsL 0 ks) = entriesL [] ks ∧ readPaths [] (rowsL 0 ks) = pathsL [] ks := by
  obtain ⟨c, -, h1, h2⟩ := rowsL_reads [] ks [] rfl
  have h1 := h1 []
  have h2 := h2 []
  rw [List.append_nil] at h1 h2
  exact ⟨by simpa [readRows] using h1, by simpa [readPaths] using h2⟩

mutual
theorem rows_levels (pre : List Lbl) : ∀ (n : SNode), labelLevels (rows pre.length n) = (paths pre n).map fun q => q.length - 1
  | .mk l rs ks => by
    have h := rowsL_levels (pre ++ [l]) ks
    rw [List.length_append] at h
    rw [rows, paths, labelLevels, List.filterMap_append, List.map_cons, ← h]
    have : (nodeRows pre.length l rs).filterMap (fun r => r.label.map fun _ => r.level) = [pre.length] := by
      match rs with
      | [] => rfl
      | [r] => rfl
      | r :: r' :: rs => 
        rw [nodeRows]
        · simp [List.filterMap_cons]
        · simp
        · simp
    rw [this]
    simp [labelLevels]
theorem rowsL_levels (pre : List Lbl) : ∀ (ks : List SNode), labelLevels (rowsL pre.length ks) = (pathsL pre ks).map fun q => q.length - 1
  | [] => by simp [rowsL, pathsL, labelLevels]
  | k :: ks => by
    rw [rowsL, pathsL, labelLevels, List.filterMap_append, List.map_append, ← rows_levels pre k, ← rowsL_levels pre ks]
    rfl
end

/-! ### the whole run -/

theorem add_eq (C : TCfg) (s : TState) (rec : List QEnt) :
    C.add s rec = if recPath C rec = [] then s else ⟨addKids (recData C rec) (recPath C rec) s.kids, (recData C rec).foldl C.updCol s.cols⟩ := by
  unfold TCfg.add
  simp only [push_spec, List.reverse_reverse, List.reverse_eq_nil_iff]

/-- what the tree holds after a list of records -/
structure Holds (C : TCfg) (rs : List (List QEnt)) (ks : List SNode) : Prop where
  nodup : (ks.map SNode.label).Nodup
  wf : WFL ks
  recs : ∀ q, (entriesL [] ks).filter (fun e => e.1 = q) =
    ((rs.filter fun r => recPath C r ≠ []).map fun r => (recPath C r, recData C r)).filter fun e => e.1 = q
  paths : ∀ q, q ∈ pathsL [] ks ↔ q ≠ [] ∧ ∃ r ∈ rs, q <+: recPath C r

theorem build_holds (C : TCfg) (recs : List (List QEnt)) : Holds C recs (C.build recs).kids := by
  induction recs using List.reverseRecOn with
  | nil => exact ⟨by simp [TCfg.build], by simp [TCfg.build, WFL], by simp [TCfg.build, entriesL], by simp [TCfg.build, pathsL]⟩
  | append_singleton recs r ih =>
    have e : C.build (recs ++ [r]) = C.add (C.build recs) r := by simp [TCfg.build]
    rw [e, add_eq]
    by_cases hp : recPath C r = []
    · rw [if_pos hp]
      refine ⟨ih.nodup, ih.wf, ?_, ?_⟩
      · intro q
        rw [ih.recs q, List.filter_append]
        simp [hp]
      · intro q
        rw [ih.paths q]
        refine and_congr_right fun h0 => ?_
        constructor
        · rintro ⟨x, hx, h⟩; exact ⟨x, List.mem_append_left _ hx, h⟩
        · rintro ⟨x, hx, h⟩
          rcases List.mem_append.1 hx with hx | hx
          · exact ⟨x, hx, h⟩
          · rw [List.mem_singleton] at hx; subst hx
            rw [hp, List.prefix_nil] at h; exact absurd h h0
    · rw [if_neg hp]
      refine ⟨?_, ?_, ?_, ?_⟩
      · cases hc : recPath C r with
        | nil => exact absurd hc hp
        | cons p ps => exact stepKid_nodup (fun n => addAt_label _ ps n) ih.nodup
      · cases hc : recPath C r with
        | nil => exact absurd hc hp
        | cons p ps => exact stepKid_WFL (addAt_WF _ ps) ih.wf
      · intro q
        simp only
        rw [addKids_filter _ q hp ih.nodup ih.wf, ih.recs q, List.filter_append, List.map_append, List.filter_append]
        congr 1
        by_cases hq : q = recPath C r
        · simp [hq, hp]
        · simp [hp, hq, Ne.symm hq]
      · intro q
        simp only
        rw [addKids_paths _ q hp, ih.paths q]
        constructor
        · rintro (⟨h0, x, hx, h⟩ | ⟨h0, h⟩)
          · exact ⟨h0, x, List.mem_append_left _ hx, h⟩
          · exact ⟨h0, r, by simp, h⟩
        · rintro ⟨h0, x, hx, h⟩
          rcases List.mem_append.1 hx with hx | hx
          · exact .inl ⟨h0, x, hx, h⟩
          · rw [List.mem_singleton] at hx; subst hx; exact .inr ⟨h0, h⟩

/-- lists with the same elements of each path in the same order are permutations of each other -/
theorem perm_of_filters {a b : List (List Lbl × Rec)} (h : ∀ q, a.filter (fun e => e.1 = q) = b.filter (fun e => e.1 = q)) : a.Perm b := by
  rw [List.perm_iff_count]
  intro e
  have h1 : ∀ l : List (List Lbl × Rec), (l.filter fun x => x.1 = e.1).count e = l.count e := by
    intro l
    exact List.count_filter (by simp)
  rw [← h1 a, ← h1 b, h e.1]

end Verif.Query.Tree
