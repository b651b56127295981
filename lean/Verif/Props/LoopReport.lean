import Verif.Mpi.LoopReportSpec
import Mathlib.Data.List.Basic
import Mathlib.Data.List.Nodup
import Mathlib.Data.List.Perm.Subperm
import Mathlib.Data.List.Forall2
/-!
# C111: the loop report over MPI
-/
namespace Verif.Mpi.LR
open Verif Verif.Cali

variable {κ β : Type} [DecidableEq κ]

/-! ### Aggregation rows -/

theorem ins_keys (f : β → β → β) (l : List (κ × β)) (x : κ × β) :
    (ins f l x).map Prod.fst = if x.1 ∈ l.map Prod.fst then l.map Prod.fst else l.map Prod.fst ++ [x.1] := by
  induction l with
  | nil => simp [ins]
  | cons y l ih =>
    unfold ins
    by_cases h : y.1 = x.1
    · simp [h]
    · have h' : ¬ x.1 = y.1 := fun e => h e.symm
      rw [if_neg h]
      simp only [List.map_cons, ih, List.mem_cons, h', false_or]
      split <;> simp

theorem fold_nodup (f : β → β → β) (xs : List (κ × β)) : ∀ l : List (κ × β), (l.map Prod.fst).Nodup → ((xs.foldl (ins f) l).map Prod.fst).Nodup := by
  induction xs with
  | nil => intro l h; exact h
  | cons x xs ih =>
    intro l h
    apply ih
    rw [ins_keys]
    split
    · exact h
    · rename_i hx
      rw [List.nodup_append]
      exact ⟨h, by simp, by intro a ha b hb; simp at hb; subst hb; exact fun e => hx (e ▸ ha)⟩

theorem fold_mem_keys (f : β → β → β) (xs : List (κ × β)) : ∀ (l : List (κ × β)) (k : κ),
    k ∈ (xs.foldl (ins f) l).map Prod.fst ↔ k ∈ l.map Prod.fst ∨ k ∈ xs.map Prod.fst := by
  induction xs with
  | nil => intro l k; simp
  | cons x xs ih =>
    intro l k
    rw [List.foldl_cons, ih, ins_keys]
    by_cases h : x.1 ∈ l.map Prod.fst
    · rw [if_pos h]
      simp only [List.map_cons, List.mem_cons]
      constructor
      · rintro (h1 | h1)
        · exact Or.inl h1
        · exact Or.inr (Or.inr h1)
      · rintro (h1 | rfl | h1)
        · exact Or.inl h1
        · exact Or.inl h
        · exact Or.inr h1
    · rw [if_neg h]
      simp only [List.map_cons, List.mem_cons, List.mem_append, List.not_mem_nil, or_false]
      tauto

/-- values with a key -/
def vals (k : κ) (xs : List (κ × β)) : List β := (xs.filter fun x => x.1 = k).map Prod.snd

theorem ins_vals (f : β → β → β) (l : List (κ × β)) (x : κ × β) (k : κ) (h : (l.map Prod.fst).Nodup) :
    vals k (ins f l x) = if x.1 = k then (match vals k l with | [] => [x.2] | v :: _ => [f v x.2]) else vals k l := by
  induction l with
  | nil => simp only [ins, vals, List.filter_cons, List.filter_nil]; split <;> simp_all
  | cons y l ih =>
    simp only [List.map_cons, List.nodup_cons] at h
    have ih := ih h.2
    unfold ins
    by_cases hy : y.1 = x.1
    · rw [if_pos hy]
      by_cases hk : x.1 = k
      · have hyk : y.1 = k := hy.trans hk
        have hl : vals k l = [] := by
          unfold vals
          rw [List.map_eq_nil_iff, List.filter_eq_nil_iff]
          intro a ha e
          simp only [decide_eq_true_eq] at e
          exact h.1 (by rw [hyk, ← e]; exact List.mem_map_of_mem ha)
        have e1 : vals k ((y.1, f y.2 x.2) :: l) = f y.2 x.2 :: vals k l := by simp [vals, hyk]
        have e2 : vals k (y :: l) = y.2 :: vals k l := by simp [vals, hyk]
        rw [e1, e2, if_pos hk, hl]
      · have hyk : ¬ y.1 = k := fun e => hk (hy ▸ e)
        have e1 : vals k ((y.1, f y.2 x.2) :: l) = vals k l := by simp [vals, hyk]
        have e2 : vals k (y :: l) = vals k l := by simp [vals, hyk]
        rw [e1, e2, if_neg hk]
    · rw [if_neg hy]
      by_cases hyk : y.1 = k
      · have hk : ¬ x.1 = k := fun e => hy (hyk.trans e.symm)
        have e1 : ∀ m, vals k (y :: m) = y.2 :: vals k m := fun m => by simp [vals, hyk]
        rw [e1, e1, ih, if_neg hk, if_neg hk]
      · have e1 : ∀ m, vals k (y :: m) = vals k m := fun m => by simp [vals, hyk]
        rw [e1, e1, ih]

theorem fold_vals (f : β → β → β) (xs : List (κ × β)) : ∀ (l : List (κ × β)) (k : κ), (l.map Prod.fst).Nodup →
    vals k (xs.foldl (ins f) l) = match vals k l ++ vals k xs with
      | [] => []
      | v :: vs => match vals k l with
        | [] => [vs.foldl f v]
        | u :: us => u :: us |>.map (fun w => (vals k xs).foldl f w) := by
  induction xs with
  | nil =>
    intro l k h
    have e0 : vals k ([] : List (κ × β)) = [] := rfl
    rw [e0, List.append_nil, List.foldl_nil]
    cases hv : vals k l with
    | nil => rfl
    | cons u us => simp
  | cons x xs ih =>
    intro l k h
    have hn : ((ins f l x).map Prod.fst).Nodup := fold_nodup f [x] l h
    rw [List.foldl_cons, ih _ _ hn, ins_vals f l x k h]
    have hlen : (vals k l).length ≤ 1 := by
      have : (vals k l).length = ((l.map Prod.fst).filter fun a => a = k).length := by
        unfold vals; rw [List.length_map, List.filter_map, List.length_map]; rfl
      rw [this]
      have hc := List.nodup_iff_count_le_one.mp h k
      rw [List.count_eq_length_filter] at hc
      simpa [beq_iff_eq, BEq.beq] using hc
    by_cases hk : x.1 = k
    · have e1 : vals k (x :: xs) = x.2 :: vals k xs := by simp [vals, hk]
      rw [if_pos hk, e1]
      cases hv : vals k l with
      | nil => simp
      | cons u us =>
        rw [hv] at hlen
        have : us = [] := by cases us <;> simp_all
        subst this
        simp
    · have e1 : vals k (x :: xs) = vals k xs := by simp [vals, hk]
      rw [if_neg hk, e1]

/-- the row of a key: all its values combined -/
theorem fold_row (f : β → β → β) (xs : List (κ × β)) (k : κ) (b : β) :
    (k, b) ∈ xs.foldl (ins f) [] ↔ ∃ v vs, vals k xs = v :: vs ∧ b = vs.foldl f v := by
  have h0 : ∀ m : List (κ × β), (k, b) ∈ m ↔ b ∈ vals k m := by
    intro m
    simp only [vals, List.mem_map, List.mem_filter, decide_eq_true_eq]
    constructor
    · intro h; exact ⟨_, ⟨h, rfl⟩, rfl⟩
    · rintro ⟨⟨a, c⟩, ⟨h, rfl⟩, rfl⟩; exact h
  rw [h0, fold_vals f xs [] k (by simp)]
  cases hv : vals k xs with
  | nil => simp [vals]
  | cons v vs => simp [vals]

theorem fold_keys_of_known (f : β → β → β) (xs l : List (κ × β)) (h : ∀ k ∈ xs.map Prod.fst, k ∈ l.map Prod.fst) :
    (xs.foldl (ins f) l).map Prod.fst = l.map Prod.fst := by
  induction xs generalizing l with
  | nil => rfl
  | cons x xs ih =>
    have hx := h x.1 (by simp)
    have e : (ins f l x).map Prod.fst = l.map Prod.fst := by rw [ins_keys, if_pos hx]
    rw [List.foldl_cons, ih _ (by intro k hk; rw [e]; exact h k (by simp only [List.map_cons, List.mem_cons]; exact Or.inr hk)), e]

theorem mem_order (k : List Str) (ks : List (List Str)) : k ∈ order ks ↔ k ∈ ks := by
  induction ks with
  | nil => simp [order]
  | cons a ks ih =>
    simp only [order, List.mem_cons, List.mem_filter, decide_eq_true_eq, ih]
    by_cases h : k = a <;> simp [h]

theorem fold_keys (f : β → β → β) (xs : List (List Str × β)) : ∀ l : List (List Str × β),
    (xs.foldl (ins f) l).map Prod.fst = l.map Prod.fst ++ (order (xs.map Prod.fst)).filter fun k => k ∉ l.map Prod.fst := by
  induction xs with
  | nil => intro l; simp [order]
  | cons x xs ih =>
    intro l
    rw [List.foldl_cons, ih, ins_keys]
    by_cases h : x.1 ∈ l.map Prod.fst
    · rw [if_pos h]
      congr 1
      simp only [List.map_cons, order]
      rw [List.filter_cons_of_neg (by simpa using h), List.filter_filter]
      apply List.filter_congr
      intro k _
      by_cases hk : k = x.1
      · subst hk; simp only [h]; simp
      · simp [hk]
    · rw [if_neg h, List.append_assoc]
      congr 1
      simp only [List.map_cons, order]
      rw [List.filter_cons_of_pos (by simpa using h), List.filter_filter]
      show _ :: _ = _ :: _
      congr 1
      apply List.filter_congr
      intro k _
      by_cases hk : k = x.1 <;> simp [hk]

/-! ### Reduction -/

theorem share_mem {n r : Nat} (hr : r < n) : ∀ k, (∀ q ∈ share n r k, q < n) ∧ (share n r k).head? = some r := by
  intro k
  induction k generalizing r with
  | zero => simp [share, hr]
  | succ k ih =>
    obtain ⟨i1, i2⟩ := ih hr
    refine ⟨?_, ?_⟩
    · intro q hq
      simp only [share, List.mem_append] at hq
      rcases hq with hq | hq
      · exact i1 q hq
      · split at hq
        · rename_i hc; exact (ih hc.2).1 q hq
        · simp at hq
    · simp [share, List.head?_append, i2]

theorem share_range (n : Nat) : ∀ k r, r % 2 ^ k = 0 → r < n → share n r k = List.range' r (min (2 ^ k) (n - r)) := by
  intro k
  induction k with
  | zero => intro r _ h; simp only [share, Nat.pow_zero]; rw [Nat.min_eq_left (by omega)]; rfl
  | succ k ih =>
    intro r hr h
    have e2 : 2 ^ (k + 1) = 2 * 2 ^ k := by rw [Nat.pow_succ]; omega
    have hd : 2 ^ (k + 1) ∣ r := Nat.dvd_of_mod_eq_zero hr
    have hd' : 2 ^ k ∣ r := Nat.dvd_trans ⟨2, by omega⟩ hd
    have h0 : r % 2 ^ k = 0 := Nat.mod_eq_zero_of_dvd hd'
    have h1 : (r + 2 ^ k) % 2 ^ k = 0 := by rw [Nat.add_mod_right]; exact h0
    unfold share
    rw [ih r h0 h]
    by_cases hc : r + 2 ^ k < n
    · rw [if_pos ⟨hr, hc⟩, ih _ h1 hc]
      have e1 : min (2 ^ k) (n - r) = 2 ^ k := by omega
      have e3 : min (2 ^ (k + 1)) (n - r) = 2 ^ k + min (2 ^ k) (n - (r + 2 ^ k)) := by omega
      rw [e1, e3, ← List.range'_append]
      simp
    · rw [if_neg (by rintro ⟨_, h⟩; exact hc h), List.append_nil]
      congr 1; omega

theorem share_all {n : Nat} (h : 0 < n) : share n 0 n = List.range n := by
  rw [share_range n n 0 (by simp) h, List.range_eq_range']
  congr 1
  have : n < 2 ^ n := Nat.lt_two_pow_self
  omega

/-! ### Summaries -/

theorem vals_map {γ : Type} (g : γ → κ) (h : γ → β) (xs : List γ) (k : κ) :
    vals k (xs.map fun x => (g x, h x)) = (xs.filter fun x => g x = k).map h := by
  unfold vals
  rw [List.filter_map, List.map_map]
  rfl

theorem foldl_add (l : List Nat) (a : Nat) : l.foldl (· + ·) a = a + l.sum := by
  induction l generalizing a with
  | nil => simp
  | cons x l ih => simp [ih]; omega

theorem foldl_tot (l : List Tot) (a : Tot) : l.foldl Tot.add a = ⟨a.iterations + (l.map Tot.iterations).sum, a.count + (l.map Tot.count).sum⟩ := by
  induction l generalizing a with
  | nil => simp
  | cons x l ih => simp [ih, Tot.add]; omega

theorem filter_ne {recs : List LRec} {k : List Str} (hk : k ≠ []) :
    (recs.filter fun r => r.loops ≠ []).filter (fun r => r.loops = k) = recs.filter fun r => r.loops = k := by
  rw [List.filter_filter]
  apply List.filter_congr
  intro x _
  by_cases h : x.loops = k <;> simp [h, hk]

theorem local_row (recs : List LRec) (k : List Str) (t : Tot) :
    (k, t) ∈ localSummary recs ↔ k ≠ [] ∧ (∃ x ∈ recs, x.loops = k) ∧ t = ⟨total recs k, number recs k⟩ := by
  unfold localSummary
  rw [fold_row, vals_map]
  by_cases hk : k = []
  · subst hk
    have : (recs.filter fun r => r.loops ≠ []).filter (fun r => r.loops = []) = [] := by
      rw [List.filter_filter, List.filter_eq_nil_iff]; intro x _; simp
    rw [this]; simp
  · rw [filter_ne hk]
    have hv : ∀ l : List LRec, (∃ v vs, l.map (fun r => Tot.mk r.iters 1) = v :: vs ∧ t = vs.foldl Tot.add v) ↔
        l ≠ [] ∧ t = ⟨(l.map LRec.iters).sum, l.length⟩ := by
      intro l
      cases l with
      | nil => simp
      | cons a l =>
        have e : (l.map fun r => Tot.mk r.iters 1).foldl Tot.add ⟨a.iters, 1⟩ = ⟨((a :: l).map LRec.iters).sum, (a :: l).length⟩ := by
          rw [foldl_tot]
          simp only [List.map_map, List.map_cons, List.sum_cons, List.length_cons]
          congr 1
          · have : (Tot.count ∘ fun r : LRec => Tot.mk r.iters 1) = fun _ => 1 := rfl
            rw [this]; simp; omega
        constructor
        · rintro ⟨v, vs, h1, rfl⟩
          simp only [List.map_cons, List.cons.injEq] at h1
          obtain ⟨rfl, rfl⟩ := h1
          exact ⟨by simp, e⟩
        · rintro ⟨_, rfl⟩
          exact ⟨_, _, rfl, e.symm⟩
    rw [hv]
    have hne : (recs.filter fun r => decide (r.loops = k)) ≠ [] ↔ ∃ x ∈ recs, x.loops = k := by
      rw [ne_eq, List.filter_eq_nil_iff]; simp
    rw [hne]
    simp [hk, total, number]

theorem local_keys (recs : List LRec) : (localSummary recs).map Prod.fst = loopsOf recs := by
  unfold localSummary loopsOf
  rw [fold_keys, List.map_map, List.filter_map]
  simp only [List.map_nil, List.nil_append, List.not_mem_nil, not_false_eq_true, decide_true, List.filter_true]
  rfl

/-- a maximum over a list -/
theorem foldl_max_it (l : List Tot) (a : Tot) : (l.foldl Tot.max a).iterations = (l.map Tot.iterations).foldl Nat.max a.iterations ∧
    (l.foldl Tot.max a).count = (l.map Tot.count).foldl Nat.max a.count := by
  induction l generalizing a with
  | nil => simp
  | cons x l ih => simp only [List.foldl_cons, List.map_cons]; exact ih _

theorem foldl_max_spec (l : List Nat) (a : Nat) : ∀ m, l.foldl Nat.max a ≤ m ↔ a ≤ m ∧ ∀ x ∈ l, x ≤ m := by
  induction l generalizing a with
  | nil => simp
  | cons x l ih =>
    intro m
    rw [List.foldl_cons, ih]
    have : Nat.max a x ≤ m ↔ a ≤ m ∧ x ≤ m := Nat.max_le
    rw [this]
    simp [and_assoc]

theorem maxOver_spec (n : Nat) (f : Nat → Nat) (m : Nat) : maxOver n f ≤ m ↔ ∀ r < n, f r ≤ m := by
  unfold maxOver
  have : ∀ l : List Nat, l.foldr (fun r m => Nat.max (f r) m) 0 ≤ m ↔ ∀ r ∈ l, f r ≤ m := by
    intro l
    induction l with
    | nil => simp
    | cons a l ih =>
      rw [List.foldr_cons]
      have : Nat.max (f a) (l.foldr (fun r m => Nat.max (f r) m) 0) ≤ m ↔ f a ≤ m ∧ l.foldr (fun r m => Nat.max (f r) m) 0 ≤ m := Nat.max_le
      rw [this, ih]; simp
  rw [this]; simp

theorem eq_of_le_iff {a b : Nat} (h : ∀ m, a ≤ m ↔ b ≤ m) : a = b := Nat.le_antisymm ((h b).mpr (Nat.le_refl _)) ((h a).mp (Nat.le_refl _))

theorem vals_flatMap {γ : Type} (g : γ → List (κ × β)) (xs : List γ) (k : κ) : vals k (xs.flatMap g) = xs.flatMap fun x => vals k (g x) := by
  induction xs with
  | nil => rfl
  | cons x xs ih => simp only [List.flatMap_cons, ← ih]; simp [vals]

theorem mem_vals (k : κ) (b : β) (l : List (κ × β)) : b ∈ vals k l ↔ (k, b) ∈ l := by
  simp only [vals, List.mem_map, List.mem_filter, decide_eq_true_eq]
  constructor
  · rintro ⟨⟨a, c⟩, ⟨h, rfl⟩, rfl⟩; exact h
  · intro h; exact ⟨_, ⟨h, rfl⟩, rfl⟩

/-- the summary on rank 0: one row for each loop, with the maxima over the ranks -/
theorem cross_row {n : Nat} (hn : 0 < n) (R : Nat → List LRec) (k : List Str) (t : Tot) :
    (k, t) ∈ crossSummary n R 0 ↔ k ≠ [] ∧ (∃ r < n, ∃ x ∈ R r, x.loops = k) ∧
      t = ⟨maxOver n fun r => total (R r) k, maxOver n fun r => number (R r) k⟩ := by
  unfold crossSummary
  rw [fold_row, vals_flatMap, share_all hn]
  have hmem : ∀ t, t ∈ (List.range n).flatMap (fun q => vals k (localSummary (R q))) ↔
      ∃ r < n, k ≠ [] ∧ (∃ x ∈ R r, x.loops = k) ∧ t = ⟨total (R r) k, number (R r) k⟩ := by
    intro t
    simp only [List.mem_flatMap, List.mem_range, mem_vals, local_row]
  have hzero : ∀ r, (¬ ∃ x ∈ R r, x.loops = k) → total (R r) k = 0 ∧ number (R r) k = 0 := by
    intro r h
    have : (R r).filter (fun x => decide (x.loops = k)) = [] := by
      rw [List.filter_eq_nil_iff]; intro x hx e; exact h ⟨x, hx, by simpa using e⟩
    simp [total, number, this]
  generalize hL : (List.range n).flatMap (fun q => vals k (localSummary (R q))) = L at hmem
  cases L with
  | nil =>
    constructor
    · rintro ⟨v, vs, h, _⟩; simp at h
    · rintro ⟨h1, ⟨r, hr, h2⟩, _⟩
      have := (hmem _).mpr ⟨r, hr, h1, h2, rfl⟩
      simp at this
  | cons v vs =>
    obtain ⟨r0, hr0, hk0, hx0, _⟩ := (hmem v).mp (by simp)
    have hit : (vs.foldl Tot.max v) = ⟨maxOver n fun r => total (R r) k, maxOver n fun r => number (R r) k⟩ := by
      have e := foldl_max_it vs v
      have e1 : (vs.foldl Tot.max v).iterations = maxOver n fun r => total (R r) k := by
        rw [e.1]
        apply eq_of_le_iff
        intro m
        rw [foldl_max_spec, maxOver_spec]
        constructor
        · rintro ⟨h1, h2⟩ r hr
          by_cases hx : ∃ x ∈ R r, x.loops = k
          · have := (hmem ⟨total (R r) k, number (R r) k⟩).mpr ⟨r, hr, hk0, hx, rfl⟩
            rcases List.mem_cons.mp this with h | h
            · rw [← h] at h1; exact h1
            · exact h2 _ (List.mem_map_of_mem h)
          · rw [(hzero r hx).1]; omega
        · intro h
          refine ⟨?_, ?_⟩
          · obtain ⟨r, hr, _, _, rfl⟩ := (hmem v).mp (by simp); exact h r hr
          · intro x hx
            obtain ⟨y, hy, rfl⟩ := List.mem_map.mp hx
            obtain ⟨r, hr, _, _, rfl⟩ := (hmem y).mp (List.mem_cons_of_mem _ hy)
            exact h r hr
      have e2 : (vs.foldl Tot.max v).count = maxOver n fun r => number (R r) k := by
        rw [e.2]
        apply eq_of_le_iff
        intro m
        rw [foldl_max_spec, maxOver_spec]
        constructor
        · rintro ⟨h1, h2⟩ r hr
          by_cases hx : ∃ x ∈ R r, x.loops = k
          · have := (hmem ⟨total (R r) k, number (R r) k⟩).mpr ⟨r, hr, hk0, hx, rfl⟩
            rcases List.mem_cons.mp this with h | h
            · rw [← h] at h1; exact h1
            · exact h2 _ (List.mem_map_of_mem h)
          · rw [(hzero r hx).2]; omega
        · intro h
          refine ⟨?_, ?_⟩
          · obtain ⟨r, hr, _, _, rfl⟩ := (hmem v).mp (by simp); exact h r hr
          · intro x hx
            obtain ⟨y, hy, rfl⟩ := List.mem_map.mp hx
            obtain ⟨r, hr, _, _, rfl⟩ := (hmem y).mp (List.mem_cons_of_mem _ hy)
            exact h r hr
      rw [← e1, ← e2]
    constructor
    · rintro ⟨w, ws, h, rfl⟩
      simp only [List.cons.injEq] at h
      obtain ⟨rfl, rfl⟩ := h
      exact ⟨hk0, ⟨r0, hr0, hx0⟩, hit⟩
    · rintro ⟨_, _, rfl⟩
      exact ⟨v, vs, rfl, hit.symm⟩

/-! ### Time series -/

theorem block_iff {bs s : Int} (hb : 0 < bs) (hs : 0 ≤ s) (b : Int) : block bs s = b ↔ bs ∣ b ∧ b ≤ s ∧ s < b + bs := by
  unfold block
  rw [Int.tmod_eq_emod_of_nonneg hs]
  have h1 := Int.emod_nonneg s (by omega : bs ≠ 0)
  have h2 := Int.emod_lt_of_pos s hb
  constructor
  · intro e
    subst e
    exact ⟨Int.dvd_self_sub_emod, by omega, by omega⟩
  · rintro ⟨⟨c, rfl⟩, h3, h4⟩
    have : s % bs = s - bs * c := by
      have e : s = (s - bs * c) + bs * c := by omega
      rw [e, Int.add_mul_emod_self_left, Int.emod_eq_of_lt (by omega) (by omega)]
      omega
    omega

theorem localRows_row (name : Str) (bs : Int) (recs : List LRec) (hb : 0 < bs) (hs : ∀ x ∈ recs, 0 ≤ x.start) (b : Int) (v : Nat) :
    (b, v) ∈ localRows name bs recs ↔ bs ∣ b ∧ (∃ x ∈ recs, name ∈ x.loops ∧ InBlock bs b x) ∧ v = inBlock name bs b recs := by
  unfold localRows
  rw [fold_row, vals_map, List.filter_filter]
  by_cases hd : bs ∣ b
  · have hf : recs.filter (fun a => decide (block bs a.start = b) && decide (name ∈ a.loops)) =
        recs.filter fun x => decide (name ∈ x.loops ∧ InBlock bs b x) := by
      apply List.filter_congr
      intro x hx
      have := block_iff hb (hs x hx) b
      simp only [hd, true_and] at this
      by_cases h1 : name ∈ x.loops <;> simp [h1, this, InBlock]
    rw [hf]
    unfold inBlock
    have hne : recs.filter (fun x => decide (name ∈ x.loops ∧ InBlock bs b x)) ≠ [] ↔ ∃ x ∈ recs, name ∈ x.loops ∧ InBlock bs b x := by
      rw [ne_eq, List.filter_eq_nil_iff]; simp only [decide_eq_true_eq]; push Not; rfl
    rw [← hne]
    simp only [hd, true_and]
    generalize recs.filter (fun x => decide (name ∈ x.loops ∧ InBlock bs b x)) = l
    cases l with
    | nil => simp
    | cons a l =>
      constructor
      · rintro ⟨w, ws, h, rfl⟩
        simp only [List.map_cons, List.cons.injEq] at h
        obtain ⟨rfl, rfl⟩ := h
        refine ⟨by simp, ?_⟩
        rw [foldl_add]; simp
      · rintro ⟨_, rfl⟩
        refine ⟨_, _, rfl, ?_⟩
        rw [foldl_add]; simp
  · have hf : recs.filter (fun a => decide (block bs a.start = b) && decide (name ∈ a.loops)) = [] := by
      rw [List.filter_eq_nil_iff]
      intro x hx e
      simp only [Bool.and_eq_true, decide_eq_true_eq] at e
      exact hd ((block_iff hb (hs x hx) b).mp e.1).1
    rw [hf]
    simp [hd]

/-- the printed rows are those of the specification -/
theorem crossRows_rows {n : Nat} (hn : 0 < n) (name : Str) (bs : Int) (R : Nat → List LRec) (hb : 0 < bs) (hs : ∀ r < n, ∀ x ∈ R r, 0 ≤ x.start) :
    Rows n name bs R (crossRows n name bs R) := by
  refine ⟨fold_nodup _ _ _ (by simp), ?_⟩
  intro b v
  unfold crossRows
  rw [fold_row, vals_flatMap, share_all hn]
  have hmem : ∀ v, v ∈ (List.range n).flatMap (fun q => vals b (localRows name bs (R q))) ↔
      ∃ r < n, bs ∣ b ∧ (∃ x ∈ R r, name ∈ x.loops ∧ InBlock bs b x) ∧ v = inBlock name bs b (R r) := by
    intro v
    simp only [List.mem_flatMap, List.mem_range, mem_vals]
    constructor
    · rintro ⟨r, hr, h⟩; exact ⟨r, hr, (localRows_row name bs (R r) hb (hs r hr) b v).mp h⟩
    · rintro ⟨r, hr, h⟩; exact ⟨r, hr, (localRows_row name bs (R r) hb (hs r hr) b v).mpr h⟩
  have hzero : ∀ r, (¬ ∃ x ∈ R r, name ∈ x.loops ∧ InBlock bs b x) → inBlock name bs b (R r) = 0 := by
    intro r h
    have : (R r).filter (fun x => decide (name ∈ x.loops ∧ InBlock bs b x)) = [] := by
      rw [List.filter_eq_nil_iff]; intro x hx e; exact h ⟨x, hx, by simpa using e⟩
    unfold inBlock; rw [this]; rfl
  generalize hL : (List.range n).flatMap (fun q => vals b (localRows name bs (R q))) = L at hmem
  cases L with
  | nil =>
    constructor
    · rintro ⟨w, ws, h, _⟩; simp at h
    · rintro ⟨h1, ⟨r, hr, h2⟩, _⟩
      have := (hmem _).mpr ⟨r, hr, h1, h2, rfl⟩
      simp at this
  | cons w ws =>
    obtain ⟨r0, hr0, hk0, hx0, _⟩ := (hmem w).mp (by simp)
    have hit : ws.foldl Nat.max w = maxOver n fun r => inBlock name bs b (R r) := by
      apply eq_of_le_iff
      intro m
      rw [foldl_max_spec, maxOver_spec]
      constructor
      · rintro ⟨h1, h2⟩ r hr
        by_cases hx : ∃ x ∈ R r, name ∈ x.loops ∧ InBlock bs b x
        · have := (hmem _).mpr ⟨r, hr, hk0, hx, rfl⟩
          rcases List.mem_cons.mp this with h | h
          · rw [h]; exact h1
          · exact h2 _ h
        · rw [hzero r hx]; omega
      · intro h
        refine ⟨?_, ?_⟩
        · obtain ⟨r, hr, _, _, rfl⟩ := (hmem w).mp (by simp); exact h r hr
        · intro x hx
          obtain ⟨r, hr, _, _, rfl⟩ := (hmem x).mp (List.mem_cons_of_mem _ hx)
          exact h r hr
    constructor
    · rintro ⟨y, ys, h, rfl⟩
      simp only [List.cons.injEq] at h
      obtain ⟨rfl, rfl⟩ := h
      exact ⟨hk0, ⟨r0, hr0, hx0⟩, hit⟩
    · rintro ⟨_, _, rfl⟩
      exact ⟨w, ws, rfl, hit.symm⟩

/-! ### The report -/

theorem order_of_nodup : ∀ {l : List (List Str)}, l.Nodup → order l = l
  | [], _ => rfl
  | k :: l, h => by
    rw [List.nodup_cons] at h
    unfold order
    rw [order_of_nodup h.2]
    congr 1
    rw [List.filter_eq_self]
    intro x hx
    have : x ≠ k := fun e => h.1 (e ▸ hx)
    simpa using this

theorem cross_nodup (n : Nat) (R : Nat → List LRec) (r : Nat) : ((crossSummary n R r).map Prod.fst).Nodup := fold_nodup _ _ _ (by simp)

theorem local_nodup (recs : List LRec) : ((localSummary recs).map Prod.fst).Nodup := fold_nodup _ _ _ (by simp)

theorem cross_keys {n r : Nat} (hr : r < n) (R : Nat → List LRec) (ks : List (List Str)) (h : ∀ r < n, loopsOf (R r) = ks) :
    (crossSummary n R r).map Prod.fst = ks := by
  obtain ⟨h1, h2⟩ := share_mem hr n
  unfold crossSummary
  cases hs : share n r n with
  | nil => rw [hs] at h2; simp at h2
  | cons a l =>
    rw [hs] at h2 h1
    simp only [List.head?_cons, Option.some.injEq] at h2
    subst h2
    rw [List.flatMap_cons, List.foldl_append]
    have e : ((localSummary (R a)).foldl (ins Tot.max) []).map Prod.fst = ks := by
      rw [fold_keys]
      simp only [List.map_nil, List.nil_append, List.not_mem_nil, not_false_eq_true, decide_true, List.filter_true]
      rw [order_of_nodup (local_nodup _), local_keys, h a hr]
    rw [fold_keys_of_known, e]
    intro k hk
    rw [e]
    simp only [List.map_flatMap, List.mem_flatMap] at hk
    obtain ⟨q, hq, hk⟩ := hk
    rw [local_keys, h q (h1 q (List.mem_cons_of_mem _ hq))] at hk
    exact hk

theorem cross_pos {n r : Nat} (hr : r < n) (R : Nat → List LRec) (ks : List (List Str)) (h : ∀ r < n, loopsOf (R r) = ks)
    (hp : ∀ r < n, ∀ k ∈ ks, 0 < total (R r) k) (x : List Str × Tot) (hx : x ∈ crossSummary n R r) : 0 < x.2.iterations := by
  obtain ⟨k, t⟩ := x
  unfold crossSummary at hx
  obtain ⟨v, vs, hv, rfl⟩ := (fold_row _ _ _ _).mp hx
  have hm : v ∈ vals k ((share n r n).flatMap fun q => localSummary (R q)) := by rw [hv]; simp
  rw [mem_vals, List.mem_flatMap] at hm
  obtain ⟨q, hq, hm⟩ := hm
  have hqn := (share_mem hr n).1 q hq
  have hk : k ∈ ks := by rw [← h q hqn, ← local_keys]; exact List.mem_map_of_mem hm
  obtain ⟨_, _, rfl⟩ := (local_row _ _ _).mp hm
  have h1 := (foldl_max_it vs ⟨total (R q) k, number (R q) k⟩).1
  have h2 := ((foldl_max_spec (vs.map Tot.iterations) (total (R q) k) _).mp (Nat.le_refl _)).1
  have := hp q hqn k hk
  show 0 < (vs.foldl Tot.max _).iterations
  rw [h1]; exact Nat.lt_of_lt_of_le this h2

theorem infos_names {n r : Nat} (hr : r < n) (R : Nat → List LRec) (ks : List (List Str)) (h : ∀ r < n, loopsOf (R r) = ks)
    (hp : ∀ r < n, ∀ k ∈ ks, 0 < total (R r) k) : (infos n R r).map Info.name = ks.map innermost := by
  unfold infos
  have : ((crossSummary n R r).map getInfo).filter (fun i => decide (0 < i.iterations)) = (crossSummary n R r).map getInfo := by
    rw [List.filter_eq_self]
    intro i hi
    obtain ⟨x, hx, rfl⟩ := List.mem_map.mp hi
    exact decide_eq_true (cross_pos hr R ks h hp x hx)
  rw [this, ← cross_keys hr R ks h, List.map_map, List.map_map]
  rfl

/-- the section that rank 0 prints for a loop it found -/
def secOf (m : Option Int) (n : Nat) (R : Nat → List LRec) (i : Info) : Section := ⟨i.name, crossRows n i.name (blocksize m i.count i.iterations) R⟩

theorem rounds_done (m : Option Int) (n : Nat) (R : Nat → List LRec) : ∀ (is : List Info) (os : Nat → List Info),
    (rounds m n R is os).2 = .done → (rounds m n R is os).1 = is.map (secOf m n R)
  | [], os => by intro _; rfl
  | i :: is, os => by
    unfold rounds
    split
    · intro h; cases h
    · split
      · intro h; cases h
      · intro h
        have := rounds_done m n R is _ h
        simp only [List.map_cons, this]
        rfl

theorem rounds_same (m : Option Int) (n : Nat) (R : Nat → List LRec) : ∀ (is : List Info) (os : Nat → List Info),
    (∀ r < n, (os r).map Info.name = is.map Info.name) → (rounds m n R is os).2 = .done
  | [], os => by
    intro h
    unfold rounds
    rw [if_pos]
    rw [List.all_eq_true]
    intro r hr
    have := h r (List.mem_range.mp hr)
    simp at this
    simp [this]
  | i :: is, os => by
    intro h
    unfold rounds
    have h0 : ∀ r < n, ∃ o l, os r = o :: l ∧ o.name = i.name ∧ l.map Info.name = is.map Info.name := by
      intro r hr
      have := h r hr
      cases ho : os r with
      | nil => rw [ho] at this; simp at this
      | cons o l => rw [ho] at this; simp only [List.map_cons, List.cons.injEq] at this; exact ⟨o, l, rfl, this.1, this.2⟩
    rw [if_neg, if_neg]
    · apply rounds_same
      intro r hr
      obtain ⟨o, l, e, _, e2⟩ := h0 r hr
      rw [e]; exact e2
    · rw [List.any_eq_true]
      rintro ⟨r, hr, e⟩
      obtain ⟨o, l, e1, _, _⟩ := h0 r (List.mem_range.mp hr)
      simp [e1] at e
    · rw [List.any_eq_true]
      rintro ⟨r, hr, e⟩
      obtain ⟨o, l, e1, e2, _⟩ := h0 r (List.mem_range.mp hr)
      simp [e1, copyOverflows, e2] at e

theorem blocksize_eq (m : Option Int) (c t : Nat) : blocksize m c t = BlockSize m c t := by
  unfold blocksize BlockSize
  cases m with
  | none =>
    have e0 : (if (20 : Int) ≤ 0 then (c : Int) else 20) = 20 := if_neg (by decide)
    simp only [Option.getD_none]
    rw [e0]
    by_cases h : (20 : Int) < c
    · have h' : 20 < c := by omega
      rw [if_pos (by omega), if_pos h', Int.tdiv_eq_ediv_of_nonneg (by omega), Int.max_comm]
    · have h' : ¬ 20 < c := by omega
      rw [if_neg (by omega), if_neg h']; rfl
  | some m =>
    simp only [Option.getD_some]
    by_cases h0 : m ≤ 0
    · rw [if_pos h0, if_neg (by omega), if_neg (by omega)]; rfl
    · rw [if_neg h0]
      by_cases h : m < c
      · rw [if_pos (by omega), if_pos ⟨by omega, h⟩, Int.tdiv_eq_ediv_of_nonneg (by omega), Int.max_comm]
      · rw [if_neg (by omega), if_neg (by omega)]; rfl

theorem BlockSize_pos (m : Option Int) (c t : Nat) : 0 < BlockSize m c t := by
  unfold BlockSize
  split <;> split <;> omega

/-- **C111 (content)**: when the report returns, it has one section for every loop for which some rank recorded iterations, with the rows of its
time series. -/
theorem C111_content {n : Nat} (hn : 0 < n) (m : Option Int) (R : Nat → List LRec) (hs : ∀ r < n, ∀ x ∈ R r, 0 ≤ x.start)
    (hd : (report m n R).2 = .done) :
    ∃ ks : List (List Str), ks.Nodup ∧ (∀ k, k ∈ ks ↔ k ≠ [] ∧ ∃ r < n, 0 < total (R r) k) ∧
      List.Forall₂ (SectionOf m n R) ks (report m n R).1 := by
  have e1 : (report m n R).1 = (infos n R 0).map (secOf m n R) := rounds_done m n R _ _ hd
  let rows := (crossSummary n R 0).filter fun x => 0 < x.2.iterations
  have e2 : infos n R 0 = rows.map getInfo := by
    show List.filter _ (List.map _ _) = _
    rw [List.filter_map]; rfl
  refine ⟨rows.map Prod.fst, ?_, ?_, ?_⟩
  · exact (cross_nodup n R 0).sublist (List.filter_sublist.map _)
  · intro k
    simp only [List.mem_map, rows, List.mem_filter, decide_eq_true_eq]
    constructor
    · rintro ⟨⟨k', t⟩, ⟨h1, h2⟩, rfl⟩
      obtain ⟨h3, _, rfl⟩ := (cross_row hn R _ _).mp h1
      refine ⟨h3, ?_⟩
      by_contra hc
      have hc : ∀ r < n, ¬ 0 < total (R r) k' := fun r hr h => hc ⟨r, hr, h⟩
      have := (maxOver_spec n (fun r => total (R r) k') 0).mpr fun r hr => Nat.le_of_not_lt (hc r hr)
      simp only at h2; omega
    · rintro ⟨h1, r, hr, h2⟩
      refine ⟨(k, ⟨maxOver n fun r => total (R r) k, maxOver n fun r => number (R r) k⟩), ⟨(cross_row hn R _ _).mpr ⟨h1, ?_, rfl⟩, ?_⟩, rfl⟩
      · refine ⟨r, hr, ?_⟩
        by_contra hc
        have : (R r).filter (fun x => decide (x.loops = k)) = [] := by
          rw [List.filter_eq_nil_iff]; intro x hx e; exact hc ⟨x, hx, by simpa using e⟩
        simp [total, this] at h2
      · have := (maxOver_spec n (fun r => total (R r) k) _).mp (Nat.le_refl _) r hr
        simp only at this ⊢; omega
  · rw [e1, e2, List.map_map, List.forall₂_map_left_iff, List.forall₂_map_right_iff, List.forall₂_same]
    rintro ⟨k, t⟩ hx
    obtain ⟨h3, _, rfl⟩ := (cross_row hn R _ _).mp (List.mem_of_mem_filter hx)
    refine ⟨rfl, ?_⟩
    show Rows n (innermost k) _ R (crossRows n (innermost k) (blocksize m _ _) R)
    rw [← blocksize_eq]
    exact crossRows_rows hn _ _ R (by rw [blocksize_eq]; exact BlockSize_pos _ _ _) hs

/-- **C111**: if all ranks have records of the same loops, first met in the same order, and iterations were counted on each, then the report
returns on every rank and has one section for each loop, in that order, with the rows of its time series.
Missing: ranks with different loops (`C111_violation_hang`, `C111_violation_overflow`). -/
theorem C111_report_partial {n : Nat} (hn : 0 < n) (m : Option Int) (R : Nat → List LRec) (ks : List (List Str)) (h : ∀ r < n, loopsOf (R r) = ks)
    (hp : ∀ r < n, ∀ k ∈ ks, 0 < total (R r) k) (hs : ∀ r < n, ∀ x ∈ R r, 0 ≤ x.start) :
    (report m n R).2 = .done ∧ List.Forall₂ (SectionOf m n R) ks (report m n R).1 := by
  have hd : (report m n R).2 = .done := by
    apply rounds_same
    intro r hr
    rw [infos_names hr R ks h hp, infos_names hn R ks h hp]
  refine ⟨hd, ?_⟩
  have e1 : (report m n R).1 = (infos n R 0).map (secOf m n R) := rounds_done m n R _ _ hd
  have e2 : infos n R 0 = (crossSummary n R 0).map getInfo := by
    unfold infos
    rw [List.filter_eq_self]
    intro i hi
    obtain ⟨x, hx, rfl⟩ := List.mem_map.mp hi
    exact decide_eq_true (cross_pos hn R ks h hp x hx)
  rw [e1, e2, ← cross_keys hn R ks h, List.map_map, List.forall₂_map_left_iff, List.forall₂_map_right_iff, List.forall₂_same]
  rintro ⟨k, t⟩ hx
  obtain ⟨h3, _, rfl⟩ := (cross_row hn R _ _).mp hx
  refine ⟨rfl, ?_⟩
  show Rows n (innermost k) _ R (crossRows n (innermost k) (blocksize m _ _) R)
  rw [← blocksize_eq]
  exact crossRows_rows hn _ _ R (by rw [blocksize_eq]; exact BlockSize_pos _ _ _) hs

/-- **C111 (one rank)**: on a single rank the report always returns. -/
theorem C111_single (m : Option Int) (R : Nat → List LRec) : (report m 1 R).2 = .done := by
  apply rounds_same
  intro r hr
  have : r = 0 := by omega
  subst this; rfl

/-! ### Number of rows -/

/-- **C111 (rows, one rank)**: for a loop with `c` records of `t` iterations, numbered from 0 to `t - 1`, and more records than the wanted number of
rows, the time series of one rank has fewer than twice the wanted number of rows (`C111_violation_rows`: this bound is reached). -/
theorem C111_rows_bound (name : Str) (mr : Nat) (hm : 0 < mr) (recs : List LRec) (c t : Nat) (rows : List (Int × Nat)) (R : Nat → List LRec)
    (hR : R 0 = recs) (hr : ∀ x ∈ recs, 0 ≤ x.start ∧ x.start < t) (hlt : mr < c) (hct : c ≤ t) (h : Rows 1 name (BlockSize (some mr) c t) R rows) :
    rows.length < 2 * mr := by
  have hbs : BlockSize (some (mr : Int)) c t = ((t / mr : Nat) : Int) := by
    show (if 0 < (mr : Int) ∧ (mr : Int) < c then max 1 ((t : Int) / mr) else 1) = _
    rw [if_pos (by omega)]
    have : 1 ≤ t / mr := (Nat.one_le_div_iff hm).mpr (by omega)
    rw [Int.max_eq_right (by exact_mod_cast this)]
    rfl
  have hb : 1 ≤ t / mr := (Nat.one_le_div_iff hm).mpr (by omega)
  rw [hbs] at h
  generalize hd : t / mr = d at *
  -- every block begins below t at a multiple of d
  have hk : ∀ b ∈ rows.map Prod.fst, ∃ j : Nat, b = (d : Int) * j ∧ j < 2 * mr - 1 := by
    intro b hb'
    obtain ⟨⟨b, v⟩, hm', rfl⟩ := List.mem_map.mp hb'
    obtain ⟨⟨j, hj⟩, ⟨r, hr0, x, hx, _, hin⟩, _⟩ := (h.rows b v).mp hm'
    have : r = 0 := by omega
    subst this
    rw [hR] at hx
    obtain ⟨h1, h2⟩ := hr x hx
    obtain ⟨h3, h4⟩ := hin
    have hdp : (0 : Int) < d := by omega
    have hj0 : 0 ≤ j := by
      by_contra hc
      have : (d : Int) * j ≤ d * (-1) := Int.mul_le_mul_of_nonneg_left (by omega) (by omega)
      omega
    obtain ⟨j', rfl⟩ := Int.eq_ofNat_of_zero_le hj0
    refine ⟨j', hj, ?_⟩
    have hlt' : d * j' < t := by
      have : (d : Int) * j' < t := by omega
      exact_mod_cast this
    by_contra hc
    have hge : 2 * mr - 1 ≤ j' := by omega
    have h5 : d * (2 * mr - 1) ≤ d * j' := Nat.mul_le_mul_left _ hge
    have h6 : t < mr * (d + 1) := by rw [← hd]; exact Nat.lt_mul_div_succ t hm
    have h7 : d * (2 * mr - 1) + d = 2 * (mr * d) := by
      rw [← Nat.mul_succ, show (2 * mr - 1).succ = 2 * mr by omega, Nat.mul_left_comm, Nat.mul_comm d mr]
    have h8 : mr * (d + 1) = mr * d + mr := Nat.mul_succ _ _
    have h9 : mr + d ≤ mr * d + 1 := by
      obtain ⟨a, rfl⟩ : ∃ a, mr = a + 1 := ⟨mr - 1, by omega⟩
      obtain ⟨b, rfl⟩ : ∃ b, d = b + 1 := ⟨d - 1, by omega⟩
      have : (a + 1) * (b + 1) = a * b + a + b + 1 := by rw [Nat.add_mul, Nat.mul_add]; omega
      rw [this]
      have := Nat.zero_le (a * b)
      omega
    omega
  have hsub : rows.map Prod.fst ⊆ (List.range (2 * mr - 1)).map fun j : Nat => (d : Int) * j := by
    intro b hb'
    obtain ⟨j, rfl, hj⟩ := hk b hb'
    exact List.mem_map.mpr ⟨j, List.mem_range.mpr hj, rfl⟩
  have := (List.subperm_of_subset h.once hsub).length_le
  simp at this
  omega

/-! ### A concrete case and violations -/

def rec1 (l : String) (s : Int) (n : Nat) : LRec := ⟨[str l], s, n⟩

/-- two ranks with the loops `main` and `init` -/
def exR : Nat → List LRec
  | 0 => [rec1 "init" 0 5, rec1 "main" 0 2, rec1 "main" 2 2, rec1 "main" 4 2]
  | _ => [rec1 "init" 0 3, rec1 "main" 0 3, ⟨[], 0, 0⟩, rec1 "main" 3 3]

theorem C111_example : (∀ r < 2, loopsOf (exR r) = [[str "init"], [str "main"]]) ∧
    (∀ r < 2, ∀ k ∈ [[str "init"], [str "main"]], 0 < total (exR r) k) ∧ (∀ r < 2, ∀ x ∈ exR r, 0 ≤ x.start) ∧
    report (some 2) 2 exR = ([⟨str "init", [(0, 5)]⟩, ⟨str "main", [(0, 4), (3, 3)]⟩], .done) := by
  refine ⟨?_, ?_, ?_, ?_⟩ <;> decide +kernel

/-- ranks with these records -/
def ranks (l : List (List LRec)) (r : Nat) : List LRec := l.getD r []

/-- **Violation**: a loop that only some ranks execute: rank 0 waits for ever for the others. -/
theorem C111_violation_hang : (report none 2 (ranks [[rec1 "a" 0 1], []])).2 = .hangs ∧
    (report none 2 (ranks [[rec1 "a" 0 1], [rec1 "a" 0 1, rec1 "b" 0 1]])).2 = .done ∧
    (report none 3 (ranks [[rec1 "a" 0 1, rec1 "b" 0 1], [rec1 "a" 0 1], [rec1 "b" 0 1]])).2 = .hangs := by
  refine ⟨?_, ?_, ?_⟩ <;> decide +kernel

/-- **Violation**: ranks that execute the same loops in a different order overwrite memory when the name of the loop is longer on another rank
than on rank 0. -/
theorem C111_violation_overflow : (report none 2 (ranks [[rec1 "a" 0 1, rec1 "bb" 0 1], [rec1 "bb" 0 1, rec1 "a" 0 1]])).2 = .overflow := by
  decide +kernel

/-- **Violation**: more rows than `timeseries.maxrows`: 39 iterations with at most 20 rows are printed as 39 rows. -/
theorem C111_violation_rows : ((report (some 20) 1 (ranks [(List.range 39).map fun i => rec1 "a" i 1])).1.map fun s => s.rows.length) = [39] := by
  decide +kernel

/-- **Violation**: the number of rows grows with the number of ranks: the size of the blocks is from one rank, the iterations of the ranks may
differ. -/
theorem C111_violation_ranks : ((report (some 2) 2 (ranks [[rec1 "a" 0 1, rec1 "a" 1 1], [rec1 "a" 2 1, rec1 "a" 3 1]])).1.map fun s => s.rows.length) = [4] := by
  decide +kernel

/-- **Violation**: a loop that is executed in two places has two sections with the same name, and both show all its iterations. -/
theorem C111_violation_nested : report none 1 (ranks [[⟨[str "a"], 0, 1⟩, ⟨[str "b", str "a"], 1, 1⟩]]) =
    ([⟨str "a", [(0, 1), (1, 1)]⟩, ⟨str "a", [(0, 1), (1, 1)]⟩], .done) := by
  decide +kernel

end Verif.Mpi.LR
