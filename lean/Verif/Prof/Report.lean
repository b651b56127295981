import Verif.Prof.Run
/-!
# Lemmas for region profiles: what is reported
-/
namespace Verif.Prof
open Verif RT MTree Agg

variable {E : Agg.Env} {t : Tree} {I : Ids}

theorem key_length (E : Agg.Env) (info : Info) (hk : info.immKey = []) (rec : List Cali.DEnt) :
    (E.keyEntries info rec).length = (E.refNodes rec).length := by
  unfold Agg.Env.keyEntries
  rw [hk, List.filterMap_nil, List.append_nil]
  induction rec with
  | nil => rfl
  | cons e rec ih =>
    simp only [List.filter_cons, Agg.Env.refNodes, Agg.Env.isImm] at *
    cases e.node with
    | none => simpa using ih
    | some i => cases h : E.isAttr i <;> simpa [h] using ih

theorem key_iff (E : Agg.Env) (info : Info) (hk : info.immKey = []) (r r' : List Cali.DEnt) :
    E.keyId info r = E.keyId info r' ↔ E.refNodes r = E.refNodes r' := by
  rw [(C28_key_meaning E info (by rw [hk]; simp) r r').1, hk]
  simp [keyValues]

theorem HasPath.len {r : List Cali.DEnt} {P : PathL} (h : HasPath E t r P) : (E.refNodes r).length ≤ 1 := by
  rcases h with ⟨-, h⟩ | ⟨n, -, h, -⟩ <;> rw [h] <;> simp

theorem HasPath.iff (hi : Inv t) {r r' : List Cali.DEnt} {P P' : PathL} (h : HasPath E t r P) (h' : HasPath E t r' P') :
    E.refNodes r = E.refNodes r' ↔ P = P' := by
  rcases h with ⟨a, h⟩ | ⟨n, a, h, hp⟩ <;> rcases h' with ⟨a', h'⟩ | ⟨n', a', h', hp'⟩ <;> rw [h, h']
  · simp [a, a']
  · simp [a, Ne.symm a']
  · simp [a, a']
  · have hr : ∀ (m : Ptr) (l : PathL), l ≠ [] → Path t m l → m ≠ .root := by
      rintro m l hl hm rfl; exact hl (hm.fun .root)
    constructor
    · intro e
      have := hi.idOf_inj hp.live hp'.live (hr _ _ a hp) (hr _ _ a' hp') (by simpa using e)
      subst this
      exact hp.fun hp'
    · rintro rfl
      rw [hp.inj hi hp']

/-- records and what they say -/
abbrev Says (E : Agg.Env) (t : Tree) (I : Ids) (rec : List Cali.DEnt) (y : PathL × Nat × Bool) : Prop :=
  RecIs E t I rec y.1 (BitVec.ofNat 64 y.2.1) y.2.2

theorem forall2_sublist {α β : Type} {R : α → β → Prop} {l l' : List α} (hs : l'.Sublist l) : ∀ {m : List β}, List.Forall₂ R l m →
    ∃ m', m'.Sublist m ∧ List.Forall₂ R l' m' := by
  induction hs with
  | slnil => intro m h; exact ⟨[], List.nil_sublist _, .nil⟩
  | cons a _ ih =>
    intro m h
    cases h with
    | cons h1 h2 => obtain ⟨m', a1, a2⟩ := ih h2; exact ⟨m', a1.cons _, a2⟩
  | cons_cons a _ ih =>
    intro m h
    cases h with
    | cons h1 h2 => obtain ⟨m', a1, a2⟩ := ih h2; exact ⟨_, a1.cons_cons _, .cons h1 a2⟩

/-- the visits of `P` -/
def atP (P : PathL) (Y : List (PathL × Nat × Bool)) : List (PathL × Nat × Bool) := Y.filter fun y => decide (y.1 = P)

theorem same_values (hi : Inv t) {info : Info} (hk : info.immKey = []) {recs : List (List Cali.DEnt)} {Y : List (PathL × Nat × Bool)}
    (h : List.Forall₂ (Says E t I) recs Y) {r : List Cali.DEnt} {P : PathL} (hr : HasPath E t r P) :
    (E.sameKey info recs r).length = (atP P Y).length ∧
    valuesOf I.dur (E.sameKey info recs r) = ((atP P Y).map fun y => BitVec.ofNat 64 y.2.1).map .uint ∧
    valuesOf I.count (E.sameKey info recs r) = (((atP P Y).filter fun y => y.2.2).map fun _ => (1 : BitVec 64)).map .uint := by
  induction h with
  | nil => exact ⟨rfl, rfl, rfl⟩
  | @cons rec y recs Y h1 _ ih =>
    obtain ⟨i1, i2, i3⟩ := ih
    unfold Agg.Env.sameKey atP at *
    have hkey : E.keyId info rec = E.keyId info r ↔ y.1 = P := by rw [key_iff E info hk, h1.path.iff hi hr]
    simp only [List.filter_cons, hkey]
    by_cases hy : y.1 = P
    · simp only [hy, decide_true, if_true, List.length_cons, i1, List.map_cons, List.filter_cons]
      refine ⟨trivial, ?_, ?_⟩
      · rw [← i2]; simp [valuesOf, List.filterMap_cons, h1.dur]
      · cases he : y.2.2
        · simp only [Bool.false_eq_true, if_false]
          rw [← i3]; simp [valuesOf, List.filterMap_cons, h1.count, he]
        · simp only [if_true, List.map_cons]
          rw [← i3]; simp [valuesOf, List.filterMap_cons, h1.count, he]
    · simp only [hy, decide_false, Bool.false_eq_true, if_false]
      exact ⟨i1, i2, i3⟩

theorem statEntries_ids (stats : List Cali.Val → Stats) (recs : List (List Cali.DEnt)) (zs : List (Nat × ResAttr)) :
    ∀ e ∈ statEntries stats recs zs, ∃ i ∈ resIds zs, e.node = some i := by
  induction zs with
  | nil => intro e he; simp [statEntries] at he
  | cons z zs ih =>
    obtain ⟨a, r⟩ := z
    intro e he
    simp only [statEntries] at he
    rcases List.mem_append.1 he with he | he
    · split at he
      · simp at he
      · simp only [Stats.entries, List.mem_cons, List.not_mem_nil, or_false] at he
        rcases he with rfl | rfl | rfl | rfl
        · exact ⟨r.min, by simp [resIds], rfl⟩
        · exact ⟨r.max, by simp [resIds], rfl⟩
        · exact ⟨r.sum, by simp [resIds], rfl⟩
        · exact ⟨r.avg, by simp [resIds], rfl⟩
    · obtain ⟨i, h1, h2⟩ := ih e he
      exact ⟨i, by simp only [resIds, List.flatMap_cons] at *; exact List.mem_append_right _ h1, h2⟩

theorem statEntries_sum (stats : List Cali.Val → Stats) (recs : List (List Cali.DEnt)) (zs : List (Nat × ResAttr)) (hn : (resIds zs).Nodup)
    {a : Nat} {r : ResAttr} (hm : (a, r) ∈ zs) (hv : valuesOf a recs ≠ []) :
    valueIn r.sum (statEntries stats recs zs) = some (stats (valuesOf a recs)).sum := by
  induction zs with
  | nil => simp at hm
  | cons z zs ih =>
    obtain ⟨b, q⟩ := z
    simp only [resIds, List.flatMap_cons] at hn
    rw [List.nodup_append] at hn
    obtain ⟨n1, n2, n3⟩ := hn
    simp only [statEntries]
    rw [valueIn_append]
    rcases List.mem_cons.1 hm with he | he
    · cases he
      rw [if_neg hv]
      simp only [List.nodup_cons, List.mem_cons, List.not_mem_nil, not_or, or_false] at n1
      simp only [Stats.entries, valueIn, Option.some.injEq]
      rw [if_neg n1.1.2.1, if_neg n1.2.1.1]
      simp
    · have hin : r.sum ∈ resIds zs := List.mem_flatMap.2 ⟨(a, r), he, by simp⟩
      have : valueIn r.sum (if valuesOf b recs = [] then [] else (stats (valuesOf b recs)).entries q) = none := by
        apply valueIn_none
        intro e hee hc
        split at hee
        · simp at hee
        · simp only [Stats.entries, List.mem_cons, List.not_mem_nil, or_false] at hee
          rcases hee with rfl | rfl | rfl | rfl <;> simp only [Option.some.injEq] at hc
          · exact n3 q.min (by simp) r.sum hin hc
          · exact n3 q.max (by simp) r.sum hin hc
          · exact n3 q.sum (by simp) r.sum hin hc
          · exact n3 q.avg (by simp) r.sum hin hc
      rw [this]
      exact ih n2 he

theorem refNodes_attrs (E : Agg.Env) (x : List Cali.DEnt) (h : ∀ e ∈ x, ∃ i, e.node = some i ∧ E.isAttr i = true) : E.refNodes x = [] := by
  induction x with
  | nil => rfl
  | cons e x ih =>
    obtain ⟨i, h1, h2⟩ := h e (by simp)
    simp only [Agg.Env.refNodes, h1, h2, if_true]
    exact ih fun e he => h e (by simp [he])

theorem key_not_attr (E : Agg.Env) (info : Info) (hk : info.immKey = []) (r : List Cali.DEnt) {a : Nat} (ha : E.isAttr a = true) :
    valueIn a (E.keyEntries info r) = none := by
  apply valueIn_none
  intro e he hn
  unfold Agg.Env.keyEntries at he
  rw [hk, List.filterMap_nil, List.append_nil] at he
  have := (List.mem_filter.1 he).2
  simp [Agg.Env.isImm, hn, ha] at this

theorem sum_ofNat (l : List Nat) : (l.map (BitVec.ofNat 64)).sum = BitVec.ofNat 64 l.sum := by
  induction l with
  | nil => rfl
  | cons a l ih => rw [List.map_cons, List.sum_cons, List.sum_cons, ih, BitVec.ofNat_add]

/-- the record reported for a key -/
theorem report_row (O : DblOps) (hi : Inv t) {info : Info} {rd rc : ResAttr} (ho : InfoOk E I info rd rc) {recs : List (List Cali.DEnt)}
    {Y : List (PathL × Nat × Bool)} (h : List.Forall₂ (Says E t I) recs Y) {r : List Cali.DEnt} {P : PathL} (hr : HasPath E t r P)
    (hne : atP P Y ≠ []) (slot : Nat) :
    HasPath E t (E.report (kernStats O) info recs r slot) P ∧
    valueIn rd.sum (E.report (kernStats O) info recs r slot) = some (.uint (BitVec.ofNat 64 ((atP P Y).map fun y => y.2.1).sum)) ∧
    valueIn info.countA (E.report (kernStats O) info recs r slot) = some (.uint (BitVec.ofNat 64 (atP P Y).length)) ∧
    (((atP P Y).filter fun y => y.2.2) ≠ [] →
      valueIn rc.sum (E.report (kernStats O) info recs r slot) = some (.uint (BitVec.ofNat 64 ((atP P Y).filter fun y => y.2.2).length))) := by
  obtain ⟨s1, s2, s3⟩ := same_values hi ho.key h hr
  obtain ⟨n1, n2, n3⟩ := List.nodup_append.1 ho.nodup
  have hsum : ∀ {a : Nat} {q : ResAttr}, (a, q) ∈ info.aggr.zip info.res → q.sum ∈ resIds (info.aggr.zip info.res) :=
    fun {a q} hm => List.mem_flatMap.2 ⟨(a, q), hm, by simp⟩
  have get : ∀ {a : Nat} {q : ResAttr} (xs : List (BitVec 64)), (a, q) ∈ info.aggr.zip info.res → xs ≠ [] → valuesOf a (E.sameKey info recs r) = xs.map .uint →
      valueIn q.sum (E.report (kernStats O) info recs r slot) = some (.uint xs.sum) := by
    intro a q xs hm hx hv
    unfold Agg.Env.report
    rw [valueIn_append, valueIn_append, key_not_attr E info ho.key r (ho.attrs _ (List.mem_append_left _ (hsum hm))),
      statEntries_sum _ _ _ n1 hm (by rw [hv]; simpa using hx), hv]
    obtain ⟨lo, hi', -, -, -, -, hs⟩ := C28_uint_stats O xs hx
    rw [hs]; rfl
  refine ⟨?_, ?_, ?_, ?_⟩
  · have : E.refNodes (E.report (kernStats O) info recs r slot) = E.refNodes r := by
      have t1 : E.refNodes (statEntries (kernStats O) (E.sameKey info recs r) (info.aggr.zip info.res)) = [] :=
        refNodes_attrs E _ fun e he => by
          obtain ⟨i, h1, h2⟩ := statEntries_ids _ _ _ e he
          exact ⟨i, h2, ho.attrs i (List.mem_append_left _ h1)⟩
      have t2 : E.isAttr info.countA = true := ho.attrs _ (by simp)
      have t3 : E.isAttr info.slotA = true := ho.attrs _ (by simp)
      unfold Agg.Env.report
      rw [refNodes_append, refNodes_append, (C28_key_meaning E info (by rw [ho.key]; simp) r r).2.1, t1]
      simp [Agg.Env.refNodes, t2, t3]
    unfold HasPath at hr ⊢
    rw [this]; exact hr
  · have := get ((atP P Y).map fun y => BitVec.ofNat 64 y.2.1) ho.dur (by simpa using hne) s2
    rw [this, ← sum_ofNat, List.map_map]; rfl
  · unfold Agg.Env.report
    rw [valueIn_append, valueIn_append, key_not_attr E info ho.key r (ho.attrs _ (by simp)), valueIn_none, s1]
    · simp [valueIn]
    · intro e he hc
      obtain ⟨i, h1, h2⟩ := statEntries_ids _ _ _ e he
      rw [hc] at h2
      simp only [Option.some.injEq] at h2
      exact n3 i h1 info.countA (by simp) h2.symm
  · intro hf
    have := get (((atP P Y).filter fun y => y.2.2).map fun _ => (1 : BitVec 64)) ho.count (by simpa using hf) s3
    rw [this]
    have e1 : ∀ l : List (PathL × Nat × Bool), (l.map fun _ => (1 : BitVec 64)).sum = BitVec.ofNat 64 l.length := by
      intro l
      induction l with
      | nil => rfl
      | cons a l ih => rw [List.map_cons, List.sum_cons, ih, List.length_cons, Nat.add_comm, BitVec.ofNat_add]; rfl
    rw [e1]

/-! ### the numbers of the specification -/

theorem visits_eq (th : Nat) (h : List (Nat × RT.Op)) : ∀ st prev, (stays th st prev h).map Prod.fst = visits th st h := by
  induction h with
  | nil => intro st prev; rfl
  | cons y h ih =>
    obtain ⟨t, op⟩ := y
    intro st prev
    simp only [stays, visits]
    split
    · rw [List.map_cons, ih]
    · exact ih _ _

theorem spent_eq (th : Nat) (P : PathL) (h : List (Nat × RT.Op)) : ∀ st prev, ((atP P (stays th st prev h)).map fun y => y.2.1).sum = spent th P st prev h := by
  induction h with
  | nil => intro st prev; rfl
  | cons y h ih =>
    obtain ⟨t, op⟩ := y
    intro st prev
    simp only [stays, spent]
    split
    · have := ih (after st op) t
      unfold atP at *
      rw [List.filter_cons]
      by_cases hs : st = P
      · subst hs; simp [← this]
      · simp [hs, ← this]
    · exact ih _ _

theorem ends_eq (th : Nat) (P : PathL) (h : List (Nat × RT.Op)) : ∀ st prev,
    ((atP P (stays th st prev h)).filter fun y => y.2.2).length = ends th P st h := by
  induction h with
  | nil => intro st prev; rfl
  | cons y h ih =>
    obtain ⟨t, op⟩ := y
    intro st prev
    simp only [stays, ends]
    split
    · have := ih (after st op) t
      unfold atP at *
      rw [List.filter_cons]
      by_cases hs : st = P
      · subst hs
        cases he : op.isEnd
        · simp [he, ← this]
        · simp [he, ← this]; omega
      · simp [hs, ← this]
    · exact ih _ _

theorem visits_count (P : PathL) (Y : List (PathL × Nat × Bool)) : (atP P Y).length = (Y.map Prod.fst).count P := by
  induction Y with
  | nil => rfl
  | cons y Y ih =>
    unfold atP at *
    rw [List.filter_cons, List.map_cons, List.count_cons]
    by_cases h : y.1 = P <;> simp [h, ih]

theorem spent_lt (th : Nat) (P : PathL) (h : List (Nat × RT.Op)) : ∀ st prev, Times prev h → spent th P st prev h + prev < 2 ^ 64 := by
  induction h with
  | nil => intro st prev ht; simpa [spent, Times] using ht
  | cons y h ih =>
    obtain ⟨t, op⟩ := y
    intro st prev ht
    have h1 := ht.1
    simp only [spent]
    split
    · have := ih (after st op) t ht.2
      split <;> omega
    · have := ih st prev (by
        cases h with
        | nil => have := ht.2; simp only [Times] at *; omega
        | cons z h => exact ⟨Nat.le_trans h1 ht.2.1, ht.2.2⟩)
      exact this

end Verif.Prof
