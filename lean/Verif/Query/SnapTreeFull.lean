import Verif.Query.SnapTreeLemmas
import Mathlib.Data.List.Induction
/-!
# Trees with one record per node

If every path has exactly one record, every line of the output has a label and data.
-/
namespace Verif.Query.Tree
open Verif Verif.Cali Verif.Query Verif.Query.Fmt Verif.Util

mutual
theorem entries_sub (pre : List Lbl) : ∀ (n : SNode), ∀ e ∈ entries pre n, e.1 ∈ paths pre n
  | .mk l rs ks, e, he => by
    rw [entries, List.mem_append] at he
    rw [paths, List.mem_cons]
    rcases he with he | he
    · obtain ⟨r, -, rfl⟩ := List.mem_map.1 he
      exact .inl rfl
    · exact .inr (entriesL_sub _ ks e he)
theorem entriesL_sub (pre : List Lbl) : ∀ (ks : List SNode), ∀ e ∈ entriesL pre ks, e.1 ∈ pathsL pre ks
  | [], e, he => by simp [entriesL] at he
  | k :: ks, e, he => by
    rw [entriesL, List.mem_append] at he
    rw [pathsL, List.mem_append]
    rcases he with he | he
    · exact .inl (entries_sub pre k e he)
    · exact .inr (entriesL_sub pre ks e he)
end

/-- a line with a label and data -/
def TRow.full (r : TRow) : Prop := r.label.isSome = true ∧ r.data.isSome = true

mutual
theorem rows_full (pre : List Lbl) (lv : Nat) : ∀ (n : SNode), (paths pre n).Nodup → (∀ q ∈ paths pre n, ((entries pre n).map Prod.fst).count q = 1) →
    ∀ r ∈ rows lv n, r.full
  | .mk l rs ks, hn, h => by
    rw [paths] at hn
    rw [paths, entries] at h
    obtain ⟨hn1, hn2⟩ := List.nodup_cons.1 hn
    have hz : ((entriesL (pre ++ [l]) ks).map Prod.fst).count (pre ++ [l]) = 0 := by
      rw [List.count_eq_zero]
      intro hm
      obtain ⟨e, he, e1⟩ := List.mem_map.1 hm
      have := entriesL_sub (pre ++ [l]) ks e he
      rw [e1] at this
      exact hn1 this
    have hone : rs.length = 1 := by
      have := h (pre ++ [l]) (by simp)
      rw [List.map_append, List.count_append, hz, List.map_map] at this
      have e : rs.map (Prod.fst ∘ fun r => (pre ++ [l], r)) = List.replicate rs.length (pre ++ [l]) := by
        rw [List.eq_replicate_iff]
        exact ⟨by simp, by simp⟩
      rw [e, List.count_replicate_self] at this
      omega
    obtain ⟨r0, rfl⟩ := List.length_eq_one_iff.1 hone
    intro r hr
    rw [rows, List.mem_append] at hr
    rcases hr with hr | hr
    · simp only [nodeRows, List.mem_singleton] at hr
      subst hr
      exact ⟨rfl, rfl⟩
    · refine rowsL_full (pre ++ [l]) _ ks hn2 ?_ r hr
      intro q hq
      have := h q (by simp [hq])
      rw [List.map_append, List.count_append] at this
      have e0 : (([r0] : List Rec).map (fun r => (pre ++ [l], r))).map Prod.fst = [pre ++ [l]] := rfl
      rw [e0, List.count_eq_zero.2 (by
        intro hc
        rw [List.mem_singleton] at hc
        exact hn1 (hc ▸ hq)), Nat.zero_add] at this
      exact this
theorem rowsL_full (pre : List Lbl) (lv : Nat) : ∀ (ks : List SNode), (pathsL pre ks).Nodup → (∀ q ∈ pathsL pre ks, ((entriesL pre ks).map Prod.fst).count q = 1) →
    ∀ r ∈ rowsL lv ks, r.full
  | [], _, _ => by intro r hr; simp [rowsL] at hr
  | k :: ks, hn, h => by
    rw [pathsL] at hn
    rw [pathsL, entriesL] at h
    obtain ⟨n1, n2, n3⟩ := List.nodup_append.1 hn
    intro r hr
    rw [rowsL, List.mem_append] at hr
    rcases hr with hr | hr
    · refine rows_full pre lv k n1 ?_ r hr
      intro q hq
      have := h q (by simp [hq])
      rw [List.map_append, List.count_append] at this
      have hz : ((entriesL pre ks).map Prod.fst).count q = 0 := by
        rw [List.count_eq_zero]
        intro hm
        obtain ⟨e, he, rfl⟩ := List.mem_map.1 hm
        exact n3 _ hq _ (entriesL_sub _ ks e he) rfl
      omega
    · refine rowsL_full pre lv ks n2 ?_ r hr
      intro q hq
      have := h q (by simp [hq])
      rw [List.map_append, List.count_append] at this
      have hz : ((entries pre k).map Prod.fst).count q = 0 := by
        rw [List.count_eq_zero]
        intro hm
        obtain ⟨e, he, rfl⟩ := List.mem_map.1 hm
        exact n3 _ (entries_sub _ k e he) _ hq rfl
      omega
end

end Verif.Query.Tree

namespace Verif.Query.Tree
open Verif Verif.Cali Verif.Query Verif.Query.Fmt Verif.Util

/-! ### columns are in the order of the attribute ids -/

theorem insCol_sorted (a w : Nat) (cs : Cols) (h : (cs.map Prod.fst).Pairwise (· < ·)) (ha : ¬ ∃ c ∈ cs, c.1 = a) :
    ((insCol a w cs).map Prod.fst).Pairwise (· < ·) ∧ ∀ c ∈ insCol a w cs, c.1 = a ∨ c ∈ cs := by
  induction cs with
  | nil => simp [insCol]
  | cons c cs ih =>
    rw [List.map_cons, List.pairwise_cons] at h
    obtain ⟨i1, i2⟩ := ih h.2 fun ⟨d, hd, e⟩ => ha ⟨d, by simp [hd], e⟩
    have hne : c.1 ≠ a := fun e => ha ⟨c, by simp, e⟩
    simp only [insCol]
    by_cases hlt : a < c.1
    · rw [if_pos hlt]
      refine ⟨?_, ?_⟩
      · simp only [List.map_cons, List.pairwise_cons]
        refine ⟨?_, h.1, h.2⟩
        intro b hb
        rcases List.mem_cons.1 hb with rfl | hb
        · exact hlt
        · exact Nat.lt_trans hlt (h.1 b hb)
      · intro d hd
        rcases List.mem_cons.1 hd with rfl | hd
        · exact .inl rfl
        · exact .inr hd
    · rw [if_neg hlt]
      refine ⟨?_, ?_⟩
      · simp only [List.map_cons, List.pairwise_cons]
        refine ⟨?_, i1⟩
        intro b hb
        obtain ⟨d, hd, rfl⟩ := List.mem_map.1 hb
        rcases i2 d hd with e | hd'
        · omega
        · exact h.1 _ (List.mem_map_of_mem hd')
      · intro d hd
        rcases List.mem_cons.1 hd with rfl | hd
        · exact .inr (by simp)
        · rcases i2 d hd with e | hd'
          · exact .inl e
          · exact .inr (by simp [hd'])

theorem updCol_sorted (C : TCfg) (cs : Cols) (p : Nat × Val) (h : (cs.map Prod.fst).Pairwise (· < ·)) : ((C.updCol cs p).map Prod.fst).Pairwise (· < ·) := by
  unfold TCfg.updCol
  simp only
  split
  · rw [List.map_map]
    have : cs.map (Prod.fst ∘ fun c => if c.1 = p.1 then (c.1, max c.2 (p.2.toStr C.dbl).length) else c) = cs.map Prod.fst := by
      apply List.map_congr_left
      intro c _
      simp only [Function.comp]
      split <;> rfl
    rw [this]; exact h
  · rename_i hn
    refine (insCol_sorted _ _ _ h ?_).1
    rintro ⟨c, hc, e⟩
    exact hn (List.any_eq_true.2 ⟨c, hc, by simpa using e⟩)

theorem updAll_sorted (C : TCfg) (ps : List (Nat × Val)) : ∀ cs : Cols, (cs.map Prod.fst).Pairwise (· < ·) → ((ps.foldl C.updCol cs).map Prod.fst).Pairwise (· < ·) := by
  induction ps with
  | nil => exact fun _ h => h
  | cons p ps ih => exact fun cs h => ih _ (updCol_sorted C cs p h)

theorem build_sorted (C : TCfg) (recs : List (List QEnt)) : ((C.build recs).cols.map Prod.fst).Pairwise (· < ·) := by
  induction recs using List.reverseRecOn with
  | nil => simp [TCfg.build]
  | append_singleton recs r ih =>
    have e : C.build (recs ++ [r]) = C.add (C.build recs) r := by simp [TCfg.build]
    rw [e, add_eq]
    split
    · exact ih
    · exact updAll_sorted C _ _ ih

/-- a strictly increasing list with two members -/
theorem sorted_two {l : List Nat} (h : l.Pairwise (· < ·)) {a b : Nat} (hab : a < b) (hm : ∀ x, x ∈ l ↔ x = a ∨ x = b) : l = [a, b] := by
  match l, h, hm with
  | [], _, hm => exact absurd ((hm a).2 (.inl rfl)) (by simp)
  | [x], _, hm =>
    have h1 := (hm a).2 (.inl rfl)
    have h2 := (hm b).2 (.inr rfl)
    simp only [List.mem_singleton] at h1 h2
    omega
  | [x, y], h, hm =>
    have h0 : x < y := by simpa using h
    have h1 := (hm x).1 (by simp)
    have h2 := (hm y).1 (by simp)
    have : x = a ∧ y = b := by omega
    rw [this.1, this.2]
  | x :: y :: z :: l, h, hm =>
    simp only [List.pairwise_cons] at h
    have h0 := h.1 y (by simp)
    have h00 := h.2.1 z (by simp)
    have h1 := (hm x).1 (by simp)
    have h2 := (hm y).1 (by simp)
    have h3 := (hm z).1 (by simp)
    omega

end Verif.Query.Tree
