import Verif.Cli.StatSpec
import Mathlib.Tactic.Convert
import Mathlib.Data.List.Induction

/-! # C116: the statistics of cali-stat -/

namespace Verif.Stat
open Verif.Cali

theorem countEnts_eq : ∀ es : List Ent, countEnts es = (es.countP isImm, es.countP isRef, (es.map fun e => (pathOf e).length).sum)
  | [] => rfl
  | .imm :: es => by simp [countEnts, countEnts_eq es, List.countP_cons, isImm, isRef, pathOf]
  | .ref p :: es => by simp [countEnts, countEnts_eq es, List.countP_cons, isImm, isRef, pathOf, Nat.add_comm]
  | .none :: es => by simp [countEnts, countEnts_eq es, List.countP_cons, isImm, isRef, pathOf]

theorem rec_eq (s : S) (es : List Ent) : s.rec' es =
    { s with snapshots := s.snapshots + 1, nref := s.nref + es.countP isRef, nval := s.nval + es.countP isImm, ntot := s.ntot + elements es,
             min := Nat.min s.min (elements es), max := Nat.max s.max (elements es),
             attrRefs := s.attrRefs + attributes es, sizeSnapshots := s.sizeSnapshots + es.countP isRef * 8 } := by
  simp only [S.rec', countEnts_eq, elements, attributes]

theorem recs_cons_node (a t d l) : recs (.node a t d :: l) = recs l := rfl
theorem recs_cons_rec (es l) : recs (.snap es :: l) = es :: recs l := rfl
theorem nodeRecs_cons_node (a t d l) : nodeRecs (.node a t d :: l) = (a, t, d) :: nodeRecs l := rfl
theorem nodeRecs_cons_rec (es l) : nodeRecs (.snap es :: l) = nodeRecs l := rfl

theorem fold_counts : ∀ (l : List Item) (st : S × Reuse),
    (l.foldl process st).1 = ⟨st.1.snapshots + (recs l).length, st.1.nodes + (nodeRecs l).length,
      (recs l).foldl (fun m es => Nat.max m (elements es)) st.1.max, (recs l).foldl (fun m es => Nat.min m (elements es)) st.1.min,
      st.1.nref + ((recs l).map fun es => es.countP isRef).sum, st.1.nval + ((recs l).map fun es => es.countP isImm).sum,
      st.1.ntot + ((recs l).map elements).sum, st.1.attrRefs + ((recs l).map attributes).sum,
      st.1.sizeNodes + ((nodeRecs l).map nodeSize).sum,
      st.1.sizeSnapshots + ((recs l).map fun es => es.countP isRef * 8).sum⟩
  | [], st => rfl
  | .node a t d :: l, st => by
    rw [List.foldl_cons, fold_counts l]
    simp only [process, S.node, recs_cons_node, nodeRecs_cons_node, List.length_cons, List.map_cons, List.sum_cons, nodeSize, S.mk.injEq, true_and, and_true]
    omega
  | .snap es :: l, st => by
    rw [List.foldl_cons, fold_counts l]
    simp only [process, rec_eq, recs_cons_rec, nodeRecs_cons_rec, List.length_cons, List.map_cons, List.sum_cons, List.foldl_cons, S.mk.injEq, true_and, and_true]
    omega

/-- **C116**: for every stream, the first three tables: numbers of records, numbers of elements (four for a node record, one for a reference,
two for an immediate value), estimated size of the node records -/
theorem C116_totals (items : List Item) :
    let p := (processAll items).1.print
    p.records = (items.length, (nodeRecs items).length, (recs items).length) ∧
    p.elements = (4 * (nodeRecs items).length + ((recs items).map elements).sum, 4 * (nodeRecs items).length,
      ((recs items).map fun es => es.countP isRef).sum, 2 * ((recs items).map fun es => es.countP isImm).sum) ∧
    p.elements.1 = p.elements.2.1 + p.elements.2.2.1 + p.elements.2.2.2 ∧
    p.size.2.1 = ((nodeRecs items).map nodeSize).sum ∧ p.size.1 = p.size.2.1 + p.size.2.2 := by
  simp only [processAll, fold_counts, S.print, S.new]
  have hl : ∀ l : List Item, l.length = (recs l).length + (nodeRecs l).length := by
    intro l
    induction l with
    | nil => rfl
    | cons i l ih => cases i <;> simp [recs_cons_node, recs_cons_rec, nodeRecs_cons_node, nodeRecs_cons_rec, ih] <;> omega
  have hs : ∀ l : List (List Ent), (l.map elements).sum = (l.map fun es => es.countP isRef).sum + 2 * (l.map fun es => es.countP isImm).sum := by
    intro l
    induction l with
    | nil => rfl
    | cons e l ih => simp only [List.map_cons, List.sum_cons, ih, elements]; omega
  refine ⟨?_, ?_, ?_, ?_, trivial⟩
  · rw [hl items]; simp
  · simp [Nat.add_comm]
  · have := hs (recs items); simp only [Nat.zero_add]; omega
  · simp

theorem foldl_max (f : List Ent → Nat) : ∀ (l : List (List Ent)) (m : Nat),
    m ≤ l.foldl (fun m es => Nat.max m (f es)) m ∧ (∀ es ∈ l, f es ≤ l.foldl (fun m es => Nat.max m (f es)) m) ∧
    (l.foldl (fun m es => Nat.max m (f es)) m = m ∨ ∃ es ∈ l, f es = l.foldl (fun m es => Nat.max m (f es)) m)
  | [], m => ⟨Nat.le_refl _, by simp, .inl rfl⟩
  | e :: l, m => by
    obtain ⟨h1, h2, h3⟩ := foldl_max f l (Nat.max m (f e))
    have hl := Nat.le_max_left m (f e)
    have hr := Nat.le_max_right m (f e)
    simp only [List.foldl_cons]
    refine ⟨Nat.le_trans hl h1, ?_, ?_⟩
    · intro es hes
      rcases List.mem_cons.mp hes with rfl | hes
      · exact Nat.le_trans hr h1
      · exact h2 es hes
    · rcases h3 with h3 | ⟨es, hes, h3⟩
      · rcases Nat.le_total m (f e) with hc | hc
        · refine .inr ⟨e, by simp, ?_⟩
          rw [h3]; exact (Nat.max_eq_right hc).symm
        · refine .inl ?_
          rw [h3]; exact Nat.max_eq_left hc
      · exact .inr ⟨es, List.mem_cons_of_mem _ hes, h3⟩

theorem foldl_min (f : List Ent → Nat) : ∀ (l : List (List Ent)) (m : Nat),
    l.foldl (fun m es => Nat.min m (f es)) m ≤ m ∧ (∀ es ∈ l, l.foldl (fun m es => Nat.min m (f es)) m ≤ f es) ∧
    (l.foldl (fun m es => Nat.min m (f es)) m = m ∨ ∃ es ∈ l, f es = l.foldl (fun m es => Nat.min m (f es)) m)
  | [], m => ⟨Nat.le_refl _, by simp, .inl rfl⟩
  | e :: l, m => by
    obtain ⟨h1, h2, h3⟩ := foldl_min f l (Nat.min m (f e))
    have hl := Nat.min_le_left m (f e)
    have hr := Nat.min_le_right m (f e)
    simp only [List.foldl_cons]
    refine ⟨Nat.le_trans h1 hl, ?_, ?_⟩
    · intro es hes
      rcases List.mem_cons.mp hes with rfl | hes
      · exact Nat.le_trans h1 hr
      · exact h2 es hes
    · rcases h3 with h3 | ⟨es, hes, h3⟩
      · rcases Nat.le_total (f e) m with hc | hc
        · refine .inr ⟨e, by simp, ?_⟩
          rw [h3]; exact (Nat.min_eq_right hc).symm
        · refine .inl ?_
          rw [h3]; exact Nat.min_eq_left hc
      · exact .inr ⟨es, List.mem_cons_of_mem _ hes, h3⟩

/-- **C116**: the last two tables, for every stream whose records have fewer than 2^31 elements: they are printed exactly when there is a snapshot
record; the minimum and the maximum are numbers of elements of records of the stream, and no record has fewer or more; the number of attributes
referenced is exact -/
theorem C116_snapshots (items : List Item) (hsmall : ∀ es ∈ recs items, elements es < 2 ^ 31) :
    let p := (processAll items).1.print
    (recs items = [] → p.perSnapshot = none ∧ p.attrRefs = none) ∧
    (recs items ≠ [] → p.attrRefs = some ((recs items).map attributes).sum ∧
      ∃ mn mx, p.perSnapshot = some (mn, mx) ∧ (∃ es ∈ recs items, elements es = mn) ∧ (∃ es ∈ recs items, elements es = mx) ∧
        ∀ es ∈ recs items, mn ≤ elements es ∧ elements es ≤ mx) := by
  simp only [processAll, fold_counts, S.print, S.new]
  refine ⟨?_, ?_⟩
  · intro h; simp [h]
  · intro h
    have hlen : ¬ 0 + (recs items).length < 1 := by
      have := List.length_pos_iff.mpr h; omega
    rw [if_neg hlen, if_neg hlen]
    refine ⟨by simp, _, _, rfl, ?_, ?_, ?_⟩
    · obtain ⟨_, h2, h3⟩ := foldl_min elements (recs items) (2 ^ 31 - 1)
      rcases h3 with h3 | h3
      · obtain ⟨es, hes⟩ := List.exists_mem_of_ne_nil _ h
        refine ⟨es, hes, ?_⟩
        have := h2 es hes
        have := hsmall es hes
        rw [h3] at *
        omega
      · exact h3
    · obtain ⟨_, h2, h3⟩ := foldl_max elements (recs items) 0
      rcases h3 with h3 | h3
      · obtain ⟨es, hes⟩ := List.exists_mem_of_ne_nil _ h
        refine ⟨es, hes, ?_⟩
        have := h2 es hes
        rw [h3] at *
        omega
      · exact h3
    · intro es hes
      exact ⟨(foldl_min elements (recs items) (2 ^ 31 - 1)).2.1 es hes, (foldl_max elements (recs items) 0).2.1 es hes⟩

/-! ## Reuse -/

theorem incr_sum (k : Str) : ∀ l : List (Str × Nat), ((incr k l).map Prod.snd).sum = (l.map Prod.snd).sum + 1
  | [] => rfl
  | (k', n) :: l => by
    simp only [incr]
    split
    · simp; omega
    · simp [incr_sum k l]; omega

theorem incr_keys (k : Str) : ∀ l : List (Str × Nat), (incr k l).map Prod.fst = if k ∈ l.map Prod.fst then l.map Prod.fst else l.map Prod.fst ++ [k]
  | [] => rfl
  | (k', n) :: l => by
    simp only [incr, List.map_cons, List.mem_cons]
    by_cases e : k' = k
    · simp [e]
    · rw [if_neg e]
      have e' : ¬ k = k' := fun h => e h.symm
      simp only [List.map_cons, incr_keys k l, e', false_or]
      split <;> simp

theorem incr_nodup (k : Str) (l : List (Str × Nat)) (h : (l.map Prod.fst).Nodup) : ((incr k l).map Prod.fst).Nodup := by
  rw [incr_keys]
  split
  · exact h
  · rename_i hk
    rw [List.nodup_append]
    refine ⟨h, by simp, ?_⟩
    intro a ha b hb
    simp at hb
    subst hb
    exact fun e => hk (e ▸ ha)

/-- the state of one attribute's row: the values are `vs` (each once), the numbers of nodes and uses -/
structure RowIs (o : Option Info) (n : Nat) (vs : List Str) (u : Nat) : Prop where
  none : n = 0 → o = none ∧ u = 0
  some : n ≠ 0 → ∃ i, o = some i ∧ i.nodes = n ∧ (i.data.map Prod.fst).Nodup ∧ (∀ v, v ∈ i.data.map Prod.fst ↔ v ∈ vs) ∧ (i.data.map Prod.snd).sum = n + u

theorem row_node (m : Reuse) (a b : Nat) (d : Str) (n : Nat) (vs : List Str) (u : Nat) (h : RowIs (m a) n vs u) :
    RowIs (m.node b d a) (if b = a then n + 1 else n) (if b = a then vs ++ [d] else vs) u ∨ (n = 0 ∧ vs ≠ []) := by
  by_cases e : b = a
  · subst e
    by_cases hn : n = 0
    · by_cases hv : vs = []
      · left
        obtain ⟨h1, h2⟩ := h.none hn
        subst hn hv h2
        simp only [Reuse.node, if_true, h1]
        refine ⟨by simp, fun _ => ⟨_, rfl, rfl, by simp [incr], by simp [incr], by simp [incr]⟩⟩
      · exact .inr ⟨hn, hv⟩
    · left
      obtain ⟨i, h1, h2, h3, h4, h5⟩ := h.some hn
      simp only [Reuse.node, if_true, h1]
      refine ⟨by simp, fun _ => ⟨_, rfl, by simp [h2], incr_nodup _ _ h3, ?_, by simp only [incr_sum, h5]; omega⟩⟩
      intro v
      simp only [incr_keys, List.mem_append, List.mem_singleton, ← h4]
      split
      · rename_i hk
        constructor
        · exact .inl
        · rintro (hv | rfl)
          · exact hv
          · exact hk
      · simp
  · left
    rw [if_neg e, if_neg e]
    simp only [Reuse.node]
    rw [if_neg (fun h => e h.symm)]
    exact h

theorem row_use (m : Reuse) (a : Nat) (x : Nat × Str) (n : Nat) (vs : List Str) (u : Nat) (h : RowIs (m a) n vs u) (hx : x.1 = a → x.2 ∈ vs ∧ n ≠ 0) :
    RowIs (m.use x a) n vs (if x.1 = a then u + 1 else u) := by
  by_cases e : x.1 = a
  · obtain ⟨hv, hn⟩ := hx e
    subst e
    obtain ⟨i, h1, h2, h3, h4, h5⟩ := h.some hn
    simp only [Reuse.use, if_true, h1, Option.map_some]
    refine ⟨fun h => absurd h hn, fun _ => ⟨_, rfl, h2, incr_nodup _ _ h3, ?_, by simp only [incr_sum, h5]; omega⟩⟩
    intro v
    rw [incr_keys, if_pos ((h4 _).mpr hv)]
    exact h4 v
  · rw [if_neg e]
    simp only [Reuse.use]
    rw [if_neg (fun h => e h.symm)]
    exact h

theorem row_path (a n : Nat) (vs : List Str) : ∀ (p : List (Nat × Str)) (m : Reuse) (u : Nat), RowIs (m a) n vs u →
    (∀ x ∈ p, x.1 = a → x.2 ∈ vs ∧ n ≠ 0) → RowIs (p.foldl Reuse.use m a) n vs (u + p.countP fun x => x.1 = a)
  | [], m, u, h, _ => h
  | x :: p, m, u, h, hx => by
    have := row_path a n vs p (m.use x) _ (row_use m a x n vs u h (hx x (by simp))) (fun y hy => hx y (List.mem_cons_of_mem _ hy))
    rw [List.foldl_cons]
    convert this using 1
    rw [List.countP_cons]
    by_cases e : x.1 = a <;> simp [e]; omega

theorem row_rec (a n : Nat) (vs : List Str) : ∀ (es : List Ent) (m : Reuse) (u : Nat), RowIs (m a) n vs u →
    (∀ e ∈ es, ∀ x ∈ pathOf e, x.1 = a → x.2 ∈ vs ∧ n ≠ 0) → RowIs (m.rec' es a) n vs (u + (es.flatMap pathOf).countP fun x => x.1 = a)
  | [], m, u, h, _ => h
  | e :: es, m, u, h, hx => by
    have hx' := fun e he => hx e (List.mem_cons_of_mem _ he)
    rw [List.flatMap_cons, List.countP_append, ← Nat.add_assoc]
    cases e with
    | imm => exact row_rec a n vs es m u h hx'
    | none => exact row_rec a n vs es m u h hx'
    | ref p => exact row_rec a n vs es _ _ (row_path a n vs p m u h (fun x hm => hx _ (List.mem_cons_self ..) x hm)) hx'

theorem processAll_append (l : List Item) (i : Item) : processAll (l ++ [i]) = process (processAll l) i := by
  simp [processAll, List.foldl_append]

theorem recs_append (l r) : recs (l ++ r) = recs l ++ recs r := by simp [recs]
theorem nodeRecs_append (l r) : nodeRecs (l ++ r) = nodeRecs l ++ nodeRecs r := by simp [nodeRecs]

theorem valuesOf_ne (l : List Item) (a : Nat) (h : ((nodeRecs l).countP fun n => n.1 = a) = 0) : valuesOf l a = [] := by
  rw [List.countP_eq_length_filter, List.length_eq_zero_iff] at h
  rw [valuesOf, h]; rfl

theorem rows (a : Nat) (items : List Item) (hc : Complete items) :
    RowIs ((processAll items).2 a) ((nodeRecs items).countP fun n => n.1 = a) (valuesOf items a) ((uses items).countP fun x => x.1 = a) := by
  induction items using List.reverseRecOn with
  | nil => exact ⟨fun _ => ⟨rfl, rfl⟩, fun h => absurd rfl h⟩
  | append_singleton l i ih =>
    have hcl : Complete l := by
      intro pre es post e
      exact hc pre es (post ++ [i]) (by rw [e]; simp)
    have ih := ih hcl
    rw [processAll_append]
    cases i with
    | node b t d =>
      have hv := row_node (processAll l).2 a b d _ _ _ ih
      rcases hv with hv | ⟨h1, h2⟩
      · convert hv using 1
        · rfl
        · rw [nodeRecs_append, List.countP_append]
          by_cases e : b = a <;> simp [nodeRecs, e]
        · simp only [valuesOf, nodeRecs_append, List.filter_append, List.map_append]
          by_cases e : b = a <;> simp [nodeRecs, e]
        · simp [uses, recs_append, recs]
      · exact absurd (valuesOf_ne l a h1) h2
    | snap es =>
      have := row_rec a _ _ es _ _ ih (by
        intro e he x hx hxa
        obtain ⟨t, ht⟩ := hc l es [] rfl e he x hx
        have hm : (x.1, t, x.2) ∈ (nodeRecs l).filter fun n => n.1 = a := List.mem_filter.mpr ⟨ht, by simp [hxa]⟩
        refine ⟨List.mem_map.mpr ⟨_, hm, rfl⟩, ?_⟩
        rw [List.countP_eq_length_filter]
        exact fun h => by rw [List.length_eq_zero_iff] at h; rw [h] at hm; cases hm)
      convert this using 1
      · rfl
      · simp [nodeRecs_append, nodeRecs]
      · simp [valuesOf, nodeRecs_append, nodeRecs]
      · simp [uses, recs_append, recs, List.flatMap_append]

/-- **C116**, the reuse table, for every complete stream: an attribute has a row exactly if there are nodes with it; the row has the number of its node
records, the number of different values of them, and the number of uses, where - unlike what the title says - each node record counts as a use
beside the occurrences in the records -/
theorem C116_reuse_partial (a : Nat) (items : List Item) (hc : Complete items) :
    (((processAll items).2 a).isSome = true ↔ ∃ n ∈ nodeRecs items, n.1 = a) ∧
    ∀ i, (processAll items).2 a = some i → ∃ vs : List Str, vs.Nodup ∧ (∀ v, v ∈ vs ↔ v ∈ valuesOf items a) ∧
      i.row = ((nodeRecs items).countP (fun n => n.1 = a), vs.length, (nodeRecs items).countP (fun n => n.1 = a) + (uses items).countP fun x => x.1 = a) := by
  have h := rows a items hc
  by_cases hn : ((nodeRecs items).countP fun n => n.1 = a) = 0
  · have h1 := (h.none hn).1
    rw [h1]
    refine ⟨?_, fun i e => by cases e⟩
    simp only [Option.isSome_none, Bool.false_eq_true, false_iff]
    rintro ⟨n, h2, h3⟩
    have := List.countP_eq_zero.mp hn n h2
    simp [h3] at this
  · obtain ⟨i, h1, h2, h3, h4, h5⟩ := h.some hn
    rw [h1]
    refine ⟨?_, ?_⟩
    · simp only [Option.isSome_some, true_iff]
      have := List.countP_pos_iff.mp (Nat.pos_of_ne_zero hn)
      obtain ⟨n, h6, h7⟩ := this
      exact ⟨n, h6, by simpa using h7⟩
    · intro j e
      cases e
      refine ⟨i.data.map Prod.fst, h3, h4, ?_⟩
      simp only [Info.row, h2, h5, List.length_map]

/-- **C116**, violation: the estimated size of the snapshots leaves out immediate values: records with any number of values have size 0 -/
theorem C116_violation_size (recs' : List Nat) :
    ((processAll (recs'.map fun k => .snap (List.replicate k .imm))).1.print).size = (0, 0, 0) := by
  simp only [processAll, fold_counts, S.print, S.new]
  have h1 : recs (recs'.map fun k => Item.snap (List.replicate k .imm)) = recs'.map fun k => List.replicate k .imm := by
    simp [recs, List.filterMap_map, Function.comp_def]
  have h2 : nodeRecs (recs'.map fun k => Item.snap (List.replicate k .imm)) = [] := by
    simp [nodeRecs, List.filterMap_map, Function.comp_def]
  have h3 : ∀ k : Nat, (List.replicate k Ent.imm).countP isRef = 0 := by
    intro k; rw [List.countP_eq_zero]; intro e he; rw [(List.mem_replicate.mp he).2]; simp [isRef]
  rw [h1, h2]
  simp only [List.map_map, Function.comp_def, h3, Nat.zero_mul]
  have h4 : (recs'.map fun _ => 0).sum = 0 := by
    clear h1 h2
    induction recs' with
    | nil => rfl
    | cons k l ih => simpa using ih
  simp [h4]

def exItems : List Item :=
  [.node 1 true (str "main"), .node 1 true (str "foo"), .node 2 false (str "7"), .snap [.ref [(1, str "foo"), (1, str "main")], .imm],
   .node 1 true (str "foo"), .snap [.ref [(1, str "main")]], .snap [.imm, .imm, .none]]

/-- **C116**, violation: a stream without any record has "uses" -/
theorem C116_violation_uses : (((processAll [.node 1 true (str "a")]).2 1).map Info.row) = some (1, 1, 1) := by decide +kernel

theorem C116_example :
    (processAll exItems).1.print = ⟨(7, 4, 3), (24, 16, 2, 6), (130, 114, 16), some (1, 4), some 6⟩ ∧
    (((processAll exItems).2 1).map Info.row) = some (3, 2, 6) ∧ (((processAll exItems).2 2).map Info.row) = some (1, 1, 1) ∧
    (((processAll exItems).2 3).map Info.row) = none := by
  refine ⟨?_, ?_, ?_, ?_⟩ <;> decide +kernel

end Verif.Stat
