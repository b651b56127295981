import Verif.E2E.Read
import Verif.E2E.Query
import Verif.Props.RegionProfile
/-!
# The rows of a profile, as the query processor sees them
-/
namespace Verif.E2E
open Verif Verif.Cali Verif.Query Verif.Query.Pre Verif.Query.Pipe Verif.Prof

/-! ## the records written -/

/-- unsigned immediate entries -/
def uents (l : List (Nat × U64)) : List DEnt := l.map fun x => ⟨some x.1, .uint x.2⟩

theorem statEntries_uints (O : Agg.DblOps) (recs : List (List DEnt)) (zs : List (Nat × Agg.ResAttr))
    (hv : ∀ z ∈ zs, ∃ xs : List U64, Agg.valuesOf z.1 recs = xs.map .uint) :
    ∃ l, Agg.statEntries (Agg.kernStats O) recs zs = uents l ∧ (l.map Prod.fst).Sublist (resIds zs) := by
  induction zs with
  | nil => exact ⟨[], rfl, .slnil⟩
  | cons z zs ih =>
    obtain ⟨a, q⟩ := z
    obtain ⟨l, h1, h2⟩ := ih fun z hz => hv z (by simp [hz])
    obtain ⟨xs, hx⟩ := hv (a, q) (by simp)
    simp only [Agg.statEntries, resIds, List.flatMap_cons]
    by_cases hn : xs = []
    · rw [hx, hn, List.map_nil, if_pos rfl, h1]
      exact ⟨l, rfl, h2.trans (List.sublist_append_right _ _)⟩
    · obtain ⟨lo, hi, -, -, -, -, hs⟩ := Agg.C28_uint_stats O xs hn
      rw [hx, if_neg (by simpa using hn), hs, h1]
      refine ⟨[(q.min, lo), (q.max, hi), (q.sum, xs.sum), (q.avg, BitVec.ofNat 64 (xs.sum.toNat / xs.length))] ++ l, by simp [Agg.Stats.entries, uents], ?_⟩
      rw [List.map_append]
      exact (List.Sublist.refl _).append h2

theorem valueIn_uents (l : List (Nat × U64)) (hn : (l.map Prod.fst).Nodup) {a : Nat} {w : U64} (h : Agg.valueIn a (uents l) = some (.uint w)) : (a, w) ∈ l := by
  induction l with
  | nil => simp [uents, Agg.valueIn] at h
  | cons x l ih =>
    simp only [uents, List.map_cons, Agg.valueIn, Option.some.injEq] at h
    split at h
    · rename_i e
      simp only [Option.some.injEq, Cali.Val.uint.injEq] at h
      rw [← e, ← h]; simp
    · exact List.mem_cons_of_mem _ (ih (List.nodup_cons.1 hn).2 h)

/-- an output record -/
structure OutRec (S : Src) (ids : List Nat) (imms : List (Nat × U64)) (r : List DEnt) : Prop where
  refs : S.refsOf r = ids
  imms : S.immsOf r = imms.map fun x => (x.1, .uint x.2)
  has : S.Has r

theorem refsOf_append (S : Src) (a b : List DEnt) : S.refsOf (a ++ b) = S.refsOf a ++ S.refsOf b := by simp [Src.refsOf]
theorem immsOf_append (S : Src) (a b : List DEnt) : S.immsOf (a ++ b) = S.immsOf a ++ S.immsOf b := by simp [Src.immsOf]

theorem outRec_of {S : Src} {E : Agg.Env} (r : List DEnt) (l : List (Nat × U64)) (hr : ∀ i ∈ E.refNodes r, S.isImm i = false ∧ (S.node i).isSome)
    (hl : ∀ x ∈ l, S.isImm x.1 = true) :
    OutRec S (E.refNodes r) l (r.filter (fun e => e.node.isSome && !E.isImm e) ++ uents l) := by
  have hu1 : S.refsOf (uents l) = [] := by
    unfold Src.refsOf uents
    rw [List.filterMap_map]
    apply List.filterMap_eq_nil_iff.2
    intro x hx
    simp [hl x hx]
  have hu2 : S.immsOf (uents l) = l.map fun x => (x.1, .uint x.2) := by
    clear hu1
    induction l with
    | nil => rfl
    | cons x l ih =>
      have := ih fun y hy => hl y (by simp [hy])
      unfold Src.immsOf uents at this ⊢
      simp only [List.map_cons, List.filterMap_cons, hl x (by simp), if_true, this]
  have hk : S.refsOf (r.filter (fun e => e.node.isSome && !E.isImm e)) = E.refNodes r ∧
      S.immsOf (r.filter (fun e => e.node.isSome && !E.isImm e)) = [] := by
    induction r with
    | nil => exact ⟨rfl, rfl⟩
    | cons e r ih =>
      cases hn : e.node with
      | none =>
        have e0 : E.refNodes (e :: r) = E.refNodes r := by simp [Agg.Env.refNodes, hn]
        rw [e0] at hr ⊢
        simpa [List.filter_cons, hn] using ih hr
      | some i =>
        cases ha : E.isAttr i with
        | true =>
          have e0 : E.refNodes (e :: r) = E.refNodes r := by simp [Agg.Env.refNodes, hn, ha]
          rw [e0] at hr ⊢
          simpa [List.filter_cons, hn, Agg.Env.isImm, ha] using ih hr
        | false =>
          have e0 : E.refNodes (e :: r) = i :: E.refNodes r := by simp [Agg.Env.refNodes, hn, ha]
          rw [e0] at hr ⊢
          obtain ⟨i1, i2⟩ := ih fun j hj => hr j (by simp [hj])
          have hi := (hr i (by simp)).1
          have e1 : (e :: r).filter (fun e => e.node.isSome && !E.isImm e) = e :: r.filter (fun e => e.node.isSome && !E.isImm e) := by
            simp [List.filter_cons, hn, Agg.Env.isImm, ha]
          rw [e1]
          unfold Src.refsOf Src.immsOf at *
          simp only [List.filterMap_cons, hn, hi, Bool.false_eq_true, if_false, i1, i2, and_self]
  refine ⟨by rw [refsOf_append, hu1, hk.1, List.append_nil], by rw [immsOf_append, hu2, hk.2, List.nil_append], ?_⟩
  intro e he i hi
  rcases List.mem_append.1 he with he | he
  · have h1 := (List.mem_filter.1 he)
    have hm : i ∈ E.refNodes r := by
      have ha : E.isAttr i = false := by simpa [hi, Agg.Env.isImm] using h1.2
      have : ∀ r : List DEnt, e ∈ r → i ∈ E.refNodes r := by
        intro r
        induction r with
        | nil => intro h; simp at h
        | cons f r ih =>
          intro h
          rcases List.mem_cons.1 h with rfl | h
          · simp [Agg.Env.refNodes, hi, ha]
          · have := ih h
            simp only [Agg.Env.refNodes]
            split
            · split
              · exact this
              · exact List.mem_cons_of_mem _ this
            · exact this
      exact this r h1.1
    exact (hr i hm).2
  · obtain ⟨x, hx, rfl⟩ := List.mem_map.1 he
    simp only [Option.some.injEq] at hi
    subst hi
    have := hl x hx
    unfold Src.isImm at this
    cases hn : S.node x.1 with
    | none => rw [hn] at this; cases this
    | some n => rfl

/-- one row of the profile as a record of the file -/
theorem report_out {S : Src} {E : Agg.Env} {t : MTree.Tree} {I : Ids} (O : Agg.DblOps) (hi : MTree.Inv t) {info : Agg.Info} {rd rc : Agg.ResAttr}
    (ho : InfoOk E I info rd rc) (hag : ∀ a ∈ info.aggr, a = I.dur ∨ a = I.count) {recs : List (List DEnt)} {Y : List (MTree.PathL × Nat × Bool)}
    (h : List.Forall₂ (Says E t I) recs Y) {r : List DEnt} {P : MTree.PathL} (hr : HasPath E t r P) (hne : atP P Y ≠ []) (slot : Nat)
    (hids : ∀ i ∈ resIds (info.aggr.zip info.res) ++ [info.countA, info.slotA], S.isImm i = true)
    (hrefs : ∀ i ∈ E.refNodes r, S.isImm i = false ∧ (S.node i).isSome) :
    ∃ l : List (Nat × U64), OutRec S (E.refNodes r) l (E.report (Agg.kernStats O) info recs r slot) ∧
      (l.map Prod.fst).Sublist (resIds (info.aggr.zip info.res) ++ [info.countA, info.slotA]) ∧ 2 ≤ l.length ∧
      (rd.sum, BitVec.ofNat 64 ((atP P Y).map fun y => y.2.1).sum) ∈ l := by
  obtain ⟨s1, s2, s3⟩ := same_values hi ho.key h hr
  obtain ⟨-, hv, -, -⟩ := report_row O hi ho h hr hne slot
  obtain ⟨l, h1, h2⟩ := statEntries_uints O (E.sameKey info recs r) (info.aggr.zip info.res) (by
    rintro ⟨a, q⟩ hz
    rcases hag a (List.of_mem_zip hz).1 with e | e
    · exact ⟨_, by rw [e]; exact s2⟩
    · exact ⟨_, by rw [e]; exact s3⟩)
  have hrep : E.report (Agg.kernStats O) info recs r slot = r.filter (fun e => e.node.isSome && !E.isImm e) ++
      uents (l ++ [(info.countA, BitVec.ofNat 64 (E.sameKey info recs r).length), (info.slotA, BitVec.ofNat 64 slot)]) := by
    unfold Agg.Env.report Agg.Env.keyEntries
    rw [h1, ho.key, List.filterMap_nil, List.append_nil, List.append_assoc]
    simp [uents]
  have hsub : ((l ++ [(info.countA, BitVec.ofNat 64 (E.sameKey info recs r).length), (info.slotA, BitVec.ofNat 64 slot)]).map Prod.fst).Sublist
      (resIds (info.aggr.zip info.res) ++ [info.countA, info.slotA]) := by
    rw [List.map_append]; exact h2.append (List.Sublist.refl _)
  refine ⟨_, ?_, hsub, by simp, ?_⟩
  · rw [hrep]
    exact outRec_of r _ hrefs fun x hx => hids _ (hsub.subset (List.mem_map_of_mem hx))
  · apply valueIn_uents _ (hsub.nodup ho.nodup)
    rw [hrep, valueIn_append, valueIn_none] at hv
    · exact hv
    · intro e he hn
      have := (List.mem_filter.1 he).2
      have ha : E.isAttr rd.sum = true := ho.attrs _ (List.mem_append_left _ (List.mem_flatMap.2 ⟨(I.dur, rd), ho.dur, by simp⟩))
      simp [Agg.Env.isImm, hn, ha] at this

end Verif.E2E
