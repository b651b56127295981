import Verif.Query.JsonLemmas
/-!
# Contents of the maps behind JSON objects
-/
namespace Verif.Query.Json
open Verif Verif.Cali Verif.Query

variable {F : DblFmt} {info : Nat → AInfo}

theorem OMap.mem_ins {k v : Str} {m : OMap} {e : Str × Str} : e ∈ m.ins k v ↔ e = (k, v) ∨ e ∈ m := by
  induction m with
  | nil => simp [OMap.ins]
  | cons x m ih =>
    unfold OMap.ins
    split
    · simp
    · simp only [List.mem_cons, ih]
      constructor
      · rintro (h | h | h) <;> simp [h]
      · rintro (h | h | h) <;> simp [h]

/-- keys are distinct -/
def OMap.Ok (m : OMap) : Prop := (m.map Prod.fst).Nodup

theorem OMap.ok_ins {k v : Str} {m : OMap} (h : OMap.Ok m) (hk : k ∉ m.map Prod.fst) : OMap.Ok (m.ins k v) := by
  induction m with
  | nil => simp [OMap.ins, OMap.Ok]
  | cons x m ih =>
    unfold OMap.ins
    simp only [OMap.Ok, List.map_cons, List.nodup_cons] at h ⊢
    simp only [List.map_cons, List.mem_cons, not_or] at hk
    split
    · simp only [List.map_cons, List.nodup_cons, List.mem_cons, not_or]
      exact ⟨⟨hk.1, hk.2⟩, h.1, h.2⟩
    · simp only [List.map_cons, List.nodup_cons]
      refine ⟨?_, ih h.2 hk.2⟩
      intro hx
      obtain ⟨e, he, hxe⟩ := List.mem_map.1 hx
      rcases OMap.mem_ins.1 he with rfl | he
      · exact hk.1 hxe
      · exact h.1 (hxe ▸ List.mem_map_of_mem he)

theorem OMap.ok_set {k v : Str} {m : OMap} (h : OMap.Ok m) : OMap.Ok (m.set k v) := by
  unfold OMap.set
  split
  · unfold OMap.Ok
    have : (m.map fun e => if e.1 = k then (k, v) else e).map Prod.fst = m.map Prod.fst := by
      rw [List.map_map]
      refine List.map_congr_left fun e _ => ?_
      simp only [Function.comp]
      split
      · next he => exact he.symm
      · rfl
    rw [this]; exact h
  · next hk => exact OMap.ok_ins h hk

theorem OMap.mem_set {k v : Str} {m : OMap} {e : Str × Str} :
    e ∈ m.set k v ↔ e = (k, v) ∨ (e ∈ m ∧ e.1 ≠ k) := by
  unfold OMap.set
  split
  · next hk =>
    simp only [List.mem_map]
    constructor
    · rintro ⟨x, hx, rfl⟩
      split
      · exact .inl rfl
      · next hne => exact .inr ⟨hx, hne⟩
    · rintro (rfl | ⟨he, hne⟩)
      · obtain ⟨x, hx, hxk⟩ := List.mem_map.1 hk
        exact ⟨x, hx, if_pos hxk⟩
      · exact ⟨e, he, if_neg hne⟩
  · next hk =>
    rw [OMap.mem_ins]
    constructor
    · rintro (h | h)
      · exact .inl h
      · refine .inr ⟨h, ?_⟩
        rintro rfl
        exact hk (List.mem_map_of_mem h)
    · rintro (h | h)
      · exact .inl h
      · exact .inr h.1

theorem OMap.get_mem {k v : Str} {m : OMap} (h : m.get k = some v) : (k, v) ∈ m := by
  unfold OMap.get at h
  cases hf : m.find? (fun e => decide (e.1 = k)) with
  | none => rw [hf] at h; cases h
  | some e =>
    rw [hf] at h
    simp only [Option.map_some, Option.some.injEq] at h
    have h1 := List.mem_of_find?_eq_some hf
    have h2 : e.1 = k := by simpa using List.find?_some hf
    rw [← h, ← h2]; exact h1

theorem OMap.get_none {k : Str} {m : OMap} (h : m.get k = none) (v : Str) : (k, v) ∉ m := by
  unfold OMap.get at h
  rw [Option.map_eq_none_iff, List.find?_eq_none] at h
  intro hm
  have := h _ hm
  simp at this

/-- `getKey` is the label of a shown attribute -/
theorem getKey_iff (C : JCfg) (a : AInfo) (k : Str) (hk : k ≠ []) : getKey C a = k ↔ IsShown C a ∧ label C a = k := by
  have hl : label C a = if a.nested && !C.sepNested then str "path" else (C.alias_ a.name).getD a.name := by
    unfold label
    cases a.nested <;> cases C.sepNested <;> cases C.alias_ a.name <;> simp
  unfold getKey IsShown
  rw [hl]
  by_cases hs : a.name ∈ C.selected
  · have : C.selected ≠ [] := by rintro e; rw [e] at hs; cases hs
    simp [hs]
  · by_cases hsel : C.selected = []
    · cases hh : a.hidden <;> cases hg : a.isGlobal <;> simp [hsel, Ne.symm hk]
    · simp [hs, hsel, Ne.symm hk]

theorem getKey_label (C : JCfg) (x : Bool × Nat × Val) (k : Str) (hk : k ≠ []) : getKey C (info x.2.1) = k ↔ HasLabel info C k x := by
  rw [getKey_iff C _ k hk]; simp [HasLabel, hk]

/-- one item of a record -/
def addItem (F : DblFmt) (info : Nat → AInfo) (C : JCfg) (kv : KVs) (x : Bool × Nat × Val) : KVs :=
  if x.1 then { kv with quote := addNode F info C kv.quote x.2 } else addEntry F info C kv (.imm x.2.1 x.2.2)

theorem collect_items (C : JCfg) (r : List QEnt) : collect F info C r = (items r).foldl (addItem F info C) ⟨[], []⟩ := by
  unfold collect items
  generalize (⟨[], []⟩ : KVs) = kv
  induction r generalizing kv with
  | nil => rfl
  | cons e r ih =>
    rw [List.foldl_cons, List.flatMap_cons, List.foldl_append, ih]
    congr 1
    cases e with
    | imm a v => rfl
    | ref path =>
      simp only [addEntry]
      induction path generalizing kv with
      | nil => rfl
      | cons n path ihp =>
        simp only [List.foldl_cons, List.map_cons]
        rw [← ihp]
        rfl

/-- items with a label -/
def lab (info : Nat → AInfo) (C : JCfg) (l : List (Bool × Nat × Val)) (k : Str) : List (Bool × Nat × Val) :=
  l.filter fun x => decide (HasLabel info C k x)

/-- items with the same label are of the same kind -/
def Same (info : Nat → AInfo) (C : JCfg) (l : List (Bool × Nat × Val)) : Prop :=
  ∀ k, ∀ x ∈ lab info C l k, ∀ y ∈ lab info C l k, x.1 = y.1 ∧ (Quoted info C x ↔ Quoted info C y)

/-- the quoted text for the items with a label -/
inductive QText (F : DblFmt) (info : Nat → AInfo) (C : JCfg) (xs : List (Bool × Nat × Val)) : Str → Prop where
  | path : xs ≠ [] → (∀ x ∈ xs, x.1 = true) →
      QText F info C xs (List.intercalate (str "/") ((xs.map fun x => x.2.2.toStr F).reverse))
  | imm (a : Nat) (v : Val) : xs.getLast? = some (false, a, v) → Quoted info C (false, a, v) → QText F info C xs (v.toStr F)

/-- the plain text for the items with a label -/
inductive PText (F : DblFmt) (info : Nat → AInfo) (C : JCfg) (xs : List (Bool × Nat × Val)) : Str → Prop where
  | imm (a : Nat) (v : Val) : xs.getLast? = some (false, a, v) → ¬Quoted info C (false, a, v) → PText F info C xs (v.toStr F)

theorem QText.ne {C : JCfg} {xs : List (Bool × Nat × Val)} {t : Str} (h : QText F info C xs t) : xs ≠ [] := by
  rcases h with ⟨h1, -⟩ | ⟨a, v, h1, -⟩
  · exact h1
  · intro hh; rw [hh] at h1; simp at h1

theorem PText.elim {C : JCfg} {xs : List (Bool × Nat × Val)} {t : Str} (h : PText F info C xs t) :
    ∃ a v, xs.getLast? = some (false, a, v) ∧ ¬Quoted info C (false, a, v) ∧ t = v.toStr F ∧ xs ≠ [] := by
  obtain ⟨a, v, h1, h2⟩ := h
  exact ⟨a, v, h1, h2, rfl, by intro hh; rw [hh] at h1; simp at h1⟩

structure Contents (F : DblFmt) (info : Nat → AInfo) (C : JCfg) (l : List (Bool × Nat × Val)) (kv : KVs) : Prop where
  qok : OMap.Ok kv.quote
  pok : OMap.Ok kv.noquote
  q : ∀ k t, (k, t) ∈ kv.quote ↔ k ≠ [] ∧ QText F info C (lab info C l k) t
  p : ∀ k t, (k, t) ∈ kv.noquote ↔ k ≠ [] ∧ PText F info C (lab info C l k) t

theorem lab_snoc (C : JCfg) (l : List (Bool × Nat × Val)) (x : Bool × Nat × Val) (k : Str) :
    lab info C (l ++ [x]) k = lab info C l k ++ if HasLabel info C k x then [x] else [] := by
  unfold lab
  rw [List.filter_append]
  congr 1
  by_cases h : HasLabel info C k x <;> simp [h]

theorem intercalate_snoc_rev (sep x : Str) (l : List Str) (h : l ≠ []) :
    List.intercalate sep ((l ++ [x]).reverse) = x ++ sep ++ List.intercalate sep l.reverse := by
  rw [List.reverse_append, List.reverse_singleton, List.singleton_append]
  cases hr : l.reverse with
  | nil => simp at hr; exact absurd hr h
  | cons a b => rw [List.intercalate_cons_cons]

theorem contents_snoc {C : JCfg} {l : List (Bool × Nat × Val)} {kv : KVs} (h : Contents F info C l kv) (x : Bool × Nat × Val)
    (hs : Same info C (l ++ [x])) : Contents F info C (l ++ [x]) (addItem F info C kv x) := by
  by_cases hk : getKey C (info x.2.1) = []
  · -- not shown
    have hlab : ∀ k, k ≠ [] → lab info C (l ++ [x]) k = lab info C l k := by
      intro k hk0
      rw [lab_snoc, if_neg, List.append_nil]
      rw [← getKey_label C x k hk0, hk]; exact Ne.symm hk0
    have e : addItem F info C kv x = kv := by
      unfold addItem
      split
      · simp only [addNode, hk, if_true]
      · simp only [addEntry, hk, if_true]
    rw [e]
    refine ⟨h.qok, h.pok, ?_, ?_⟩
    · intro k t; rw [h.q]
      refine and_congr_right fun hk0 => ?_
      rw [hlab k hk0]
    · intro k t; rw [h.p]
      refine and_congr_right fun hk0 => ?_
      rw [hlab k hk0]
  · generalize hK : getKey C (info x.2.1) = K at hk
    have hx : HasLabel info C K x := (getKey_label C x K hk).1 hK
    have hlab1 : lab info C (l ++ [x]) K = lab info C l K ++ [x] := by rw [lab_snoc, if_pos hx]
    have hlab2 : ∀ k, k ≠ K → lab info C (l ++ [x]) k = lab info C l k := by
      intro k hne
      rw [lab_snoc, if_neg, List.append_nil]
      intro hh; exact hne (hh.2.1.symm.trans hx.2.1)
    have hsame : ∀ y ∈ lab info C l K, y.1 = x.1 ∧ (Quoted info C y ↔ Quoted info C x) := by
      intro y hy
      exact hs K y (by rw [hlab1]; simp [hy]) x (by rw [hlab1]; simp)
    obtain ⟨b, a, v⟩ := x
    simp only at *
    cases b with
    | true =>
      have hq : Quoted info C (true, a, v) := .inl rfl
      -- the new text of the label
      have key : ∀ t, QText F info C (lab info C l K ++ [(true, a, v)]) t ↔
          t = List.intercalate (str "/") (((lab info C l K ++ [(true, a, v)]).map fun x => x.2.2.toStr F).reverse) := by
        intro t
        constructor
        · rintro (⟨-, -⟩ | ⟨a', v', h1, h2⟩)
          · rfl
          · simp at h1
        · rintro rfl
          refine .path (by simp) ?_
          intro y hy
          rcases List.mem_append.1 hy with hy | hy
          · exact (hsame y hy).1
          · simp at hy; rw [hy]
      have keyP : ∀ t, ¬PText F info C (lab info C l K ++ [(true, a, v)]) t := by
        rintro t ⟨a', v', h1, h2⟩
        simp at h1
      have keyP0 : ∀ t, ¬PText F info C (lab info C l K) t := by
        rintro t ⟨a', v', h1, h2⟩
        exact h2 ((hsame _ (List.mem_of_getLast? h1)).2.2 hq)
      have e : ∃ t, addItem F info C kv (true, a, v) = { kv with quote := kv.quote.set K t } ∧
          t = List.intercalate (str "/") (((lab info C l K ++ [(true, a, v)]).map fun x => x.2.2.toStr F).reverse) := by
        simp only [addItem, if_true, addNode, hK, if_neg hk]
        cases hg : OMap.get kv.quote K with
        | none =>
          refine ⟨_, rfl, ?_⟩
          have : lab info C l K = [] := by
            by_contra hne
            have := (h.q K _).2 ⟨hk, .path hne fun y hy => (hsame y hy).1⟩
            exact OMap.get_none hg _ this
          rw [this]; simp [List.intercalate]
        | some s =>
          refine ⟨_, rfl, ?_⟩
          have hm := (h.q K s).1 (OMap.get_mem hg)
          have hne : lab info C l K ≠ [] := by
            rintro e
            rw [e] at hm
            rcases hm.2 with ⟨h1, -⟩ | ⟨a', v', h1, -⟩
            · exact h1 rfl
            · simp at h1
          have hs' : s = List.intercalate (str "/") (((lab info C l K).map fun x => x.2.2.toStr F).reverse) := by
            rcases hm.2 with ⟨-, -⟩ | ⟨a', v', h1, -⟩
            · rfl
            · have := (hsame _ (List.mem_of_getLast? h1)).1
              cases this
          rw [List.map_append, List.map_singleton, intercalate_snoc_rev _ _ _ (by simpa using hne), ← hs']
      obtain ⟨t0, e1, e2⟩ := e
      rw [e1]
      refine ⟨OMap.ok_set h.qok, h.pok, ?_, ?_⟩
      · intro k t
        rw [OMap.mem_set]
        by_cases hkK : k = K
        · subst hkK
          rw [hlab1, key, ← e2]
          simp [hk]
        · rw [hlab2 k hkK, ← h.q]
          simp [hkK]
      · intro k t
        rw [h.p]
        by_cases hkK : k = K
        · subst hkK
          rw [hlab1]
          simp [keyP, keyP0]
        · rw [hlab2 k hkK]
    | false =>
      have hlast : ∀ xs : List (Bool × Nat × Val), (xs ++ [(false, a, v)]).getLast? = some (false, a, v) := by simp
      have nopath : ¬∀ y ∈ lab info C l K ++ [((false, a, v) : Bool × Nat × Val)], y.1 = true := by
        intro hh; have := hh (false, a, v) (by simp); cases this
      by_cases hq : Quoted info C (false, a, v)
      · have hcond : (C.quoteAll || (info a).ty = .string || (info a).ty = .usr) = true := by
          rcases hq with h1 | h1 | h1 | h1
          · cases h1
          · simp [h1]
          · simp only at h1; simp [h1]
          · simp only at h1; simp [h1]
        have key : ∀ t, QText F info C (lab info C l K ++ [(false, a, v)]) t ↔ t = v.toStr F := by
          intro t
          constructor
          · rintro (⟨-, h1⟩ | ⟨a', v', h1, h2⟩)
            · exact absurd h1 nopath
            · rw [hlast] at h1
              simp only [Option.some.injEq, Prod.mk.injEq, true_and] at h1
              rw [h1.2]
          · rintro rfl; exact .imm a v (hlast _) hq
        have keyP : ∀ t, ¬PText F info C (lab info C l K ++ [(false, a, v)]) t := by
          rintro t ⟨a', v', h1, h2⟩
          rw [hlast] at h1
          simp only [Option.some.injEq, Prod.mk.injEq, true_and] at h1
          rw [← h1.1, ← h1.2] at h2
          exact h2 hq
        have keyP0 : ∀ t, ¬PText F info C (lab info C l K) t := by
          rintro t ⟨a', v', h1, h2⟩
          exact h2 ((hsame _ (List.mem_of_getLast? h1)).2.2 hq)
        have e : addItem F info C kv (false, a, v) = { kv with quote := kv.quote.set K (v.toStr F) } := by
          simp only [addItem, Bool.false_eq_true, if_false, addEntry, hK, if_neg hk]
          rw [if_pos hcond]
        rw [e]
        refine ⟨OMap.ok_set h.qok, h.pok, ?_, ?_⟩
        · intro k t
          rw [OMap.mem_set]
          by_cases hkK : k = K
          · subst hkK
            rw [hlab1, key]
            simp [hk]
          · rw [hlab2 k hkK, ← h.q]
            simp [hkK]
        · intro k t
          rw [h.p]
          by_cases hkK : k = K
          · subst hkK
            rw [hlab1]
            simp [keyP, keyP0]
          · rw [hlab2 k hkK]
      · have hcond : ¬(C.quoteAll || (info a).ty = .string || (info a).ty = .usr) = true := by
          intro hh
          simp only [Bool.or_eq_true, decide_eq_true_eq] at hh
          rcases hh with (h1 | h1) | h1
          · exact hq (.inr (.inl h1))
          · exact hq (.inr (.inr (.inl h1)))
          · exact hq (.inr (.inr (.inr h1)))
        have key : ∀ t, PText F info C (lab info C l K ++ [(false, a, v)]) t ↔ t = v.toStr F := by
          intro t
          constructor
          · rintro ⟨a', v', h1, h2⟩
            rw [hlast] at h1
            simp only [Option.some.injEq, Prod.mk.injEq, true_and] at h1
            rw [h1.2]
          · rintro rfl; exact .imm a v (hlast _) hq
        have keyQ : ∀ t, ¬QText F info C (lab info C l K ++ [(false, a, v)]) t := by
          rintro t (⟨-, h1⟩ | ⟨a', v', h1, h2⟩)
          · exact nopath h1
          · rw [hlast] at h1
            simp only [Option.some.injEq, Prod.mk.injEq, true_and] at h1
            rw [← h1.1, ← h1.2] at h2
            exact hq h2
        have keyQ0 : ∀ t, ¬QText F info C (lab info C l K) t := by
          rintro t (⟨h0, h1⟩ | ⟨a', v', h1, h2⟩)
          · obtain ⟨y, hy⟩ := List.exists_mem_of_ne_nil _ h0
            have := h1 y hy
            rw [(hsame y hy).1] at this; cases this
          · exact hq ((hsame _ (List.mem_of_getLast? h1)).2.1 h2)
        have e : addItem F info C kv (false, a, v) = { kv with noquote := kv.noquote.set K (v.toStr F) } := by
          simp only [addItem, Bool.false_eq_true, if_false, addEntry, hK, if_neg hk]
          rw [if_neg hcond]
        rw [e]
        refine ⟨h.qok, OMap.ok_set h.pok, ?_, ?_⟩
        · intro k t
          rw [h.q]
          by_cases hkK : k = K
          · subst hkK
            rw [hlab1]
            simp [keyQ, keyQ0]
          · rw [hlab2 k hkK]
        · intro k t
          rw [OMap.mem_set]
          by_cases hkK : k = K
          · subst hkK
            rw [hlab1, key]
            simp [hk]
          · rw [hlab2 k hkK, ← h.p]
            simp [hkK]

theorem contents_all {C : JCfg} (l : List (Bool × Nat × Val)) (hs : Same info C l) :
    Contents F info C l (l.foldl (addItem F info C) ⟨[], []⟩) := by
  induction l using List.reverseRecOn with
  | nil =>
    refine ⟨by simp [OMap.Ok], by simp [OMap.Ok], ?_, ?_⟩
    · intro k t
      simp only [List.foldl_nil, List.not_mem_nil, false_iff, not_and]
      rintro - (⟨h1, -⟩ | ⟨a', v', h1, -⟩)
      · exact h1 rfl
      · simp [lab] at h1
    · intro k t
      simp only [List.foldl_nil, List.not_mem_nil, false_iff, not_and]
      rintro - ⟨a', v', h1, -⟩
      simp [lab] at h1
  | append_singleton l x ih =>
    rw [List.foldl_append, List.foldl_cons, List.foldl_nil]
    refine contents_snoc (ih ?_) x hs
    intro k y hy z hz
    refine hs k y ?_ z ?_ <;> rw [lab_snoc] <;> simp [hy, hz]

end Verif.Query.Json
