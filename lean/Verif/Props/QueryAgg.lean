import Verif.Query.AggMerge
/-!
# C30: aggregation results do not depend on processing order or partitioning
-/
namespace Verif.Query
open Verif Verif.Cali Verif.Agg

/-- C30 (what is reported): for every configuration and list of records, the aggregator reports exactly one record for every key
that occurs (and for every ancestor path an inclusive kernel reaches), with the kernel results over exactly the contributing
records. -/
theorem C30_reports (O : FOps) (C : QCfg) (recs : List (List QEnt)) :
    ∃ keys : List (List KEnt), keys.Nodup ∧ (∀ K, K ∈ keys ↔ C.Present O K recs) ∧
      (QAgg.init.run O C recs).flush O C = keys.map (C.report O recs) := flush_report O C recs

/-- C30 (order): with integer metrics, aggregating the same records in any other order reports the same records, up to order -
for all kernels including the inclusive ones, whatever the hash function. -/
theorem C30_order_independent (O : FOps) (C : QCfg) {recs recs' : List (List QEnt)} (h : recs.Perm recs') (hi : C.IntMetrics recs) :
    ((QAgg.init.run O C recs).flush O C).Perm ((QAgg.init.run O C recs').flush O C) := by
  refine flush_perm O C ?_ ?_
  · intro K
    unfold QCfg.Present
    constructor
    · rintro ⟨r, hr, h'⟩; exact ⟨r, h.mem_iff.1 hr, h'⟩
    · rintro ⟨r, hr, h'⟩; exact ⟨r, h.mem_iff.2 hr, h'⟩
  · intro K _
    unfold QCfg.report
    congr 1
    rw [List.flatMap_def, List.flatMap_def]
    congr 1
    apply List.map_congr_left
    intro c hc
    rw [stateOf_perm O C c K h (hi c hc)]

/-! ## Merging partial results -/

/-- the attributes a kernel reads -/
def KCfg.matchAttrs : KCfg → List Nat
  | .count c => [c]
  | .sum t d _ | .min t d _ | .max t d _ => [t, d]
  | .avg t s _ c => [t, s, c]

/-- the attributes a kernel writes -/
def KCfg.resultAttrs : KCfg → List Nat
  | .count c => [c]
  | .sum _ d _ | .min _ d _ | .max _ d _ => [d]
  | .avg _ s a c => [a, s, c]

/-- the attributes of an average kernel are distinct -/
def KCfg.ownOk : KCfg → Prop
  | .avg t s a c => [t, s, c, a].Nodup
  | _ => True

/-- queries whose partial results can be merged: no inclusive kernels, no kernel reads what another one writes (in particular no
kernel is given twice), and no kernel attribute is a key -/
structure QCfg.Mergeable (C : QCfg) : Prop where
  noincl : ∀ c ∈ C.kernels, c.incl = false
  pair : C.kernels.Pairwise fun c c' => (∀ a ∈ c.resultAttrs, a ∉ c'.matchAttrs) ∧ (∀ a ∈ c'.resultAttrs, a ∉ c.matchAttrs)
  own : ∀ c ∈ C.kernels, c.ownOk
  key : ∀ c ∈ C.kernels, ∀ a ∈ c.matchAttrs ++ c.resultAttrs, C.isKey a = false

/-- kernel attributes are not used for context tree nodes -/
def QCfg.RefsOk (C : QCfg) (recs : List (List QEnt)) : Prop :=
  ∀ r ∈ recs, ∀ p, QEnt.ref p ∈ r → ∀ x ∈ p, ∀ c ∈ C.kernels, x.1 ∉ c.matchAttrs

/-- counts do not wrap around to zero -/
def QCfg.NoWrap (O : FOps) (C : QCfg) (recs : List (List QEnt)) : Prop :=
  ∀ K, C.Present O K recs → ∀ c ∈ C.kernels, match c with
    | .count _ => (C.stateOf O c K recs).count ≠ 0
    | .avg _ _ _ _ => ((C.stateOf O c K recs).count = 0 ↔ (C.stateOf O c K recs).val = .inv)
    | _ => True

/-- an entry a kernel does not read -/
def Irr (c : KCfg) (e : QEnt) : Prop := e.attr ∉ c.matchAttrs

theorem matching_append (known : Nat → Bool) (t d : Nat) (l m : List QEnt) :
    matching known t d (l ++ m) = matching known t d l ++ matching known t d m := by
  unfold matching
  split
  · exact List.filterMap_append
  · rfl

theorem vals_append (known : Nat → Bool) (c : KCfg) (l m : List QEnt) : c.vals known (l ++ m) = c.vals known l ++ c.vals known m := by
  cases c with
  | count a => rfl
  | sum t d i => exact matching_append known t d l m
  | min t d i => exact matching_append known t d l m
  | max t d i => exact matching_append known t d l m
  | avg t s a cc => unfold KCfg.vals; simp only; split <;> simp [List.filterMap_append]

theorem vals_irr (known : Nat → Bool) (c : KCfg) (l : List QEnt) (h : ∀ e ∈ l, Irr c e) : c.vals known l = [] := by
  have hm : ∀ t d, (∀ e ∈ l, e.attr ∉ [t, d]) → matching known t d l = [] := by
    intro t d h
    unfold matching
    split
    · rw [List.filterMap_eq_nil_iff]
      intro e he
      have := h e he
      cases e with
      | ref p => rfl
      | imm a v =>
        simp only [QEnt.attr, List.mem_cons, List.not_mem_nil, or_false] at this
        simp [this]
    · rfl
  cases c with
  | count a => rfl
  | sum t d i => exact hm t d h
  | min t d i => exact hm t d h
  | max t d i => exact hm t d h
  | avg t s a cc =>
    unfold KCfg.vals
    simp only
    split
    · rw [List.filterMap_eq_nil_iff]
      intro e he
      have := h e he
      simp only [Irr, KCfg.matchAttrs, List.mem_cons, List.not_mem_nil, or_false, not_or] at this
      simp [this]
    · rfl

theorem countOf_skip (O : FOps) (c : Nat) (l m : List QEnt) (h : ∀ e ∈ l, e.attr ≠ c) : countOf O c (l ++ m) = countOf O c m := by
  induction l with
  | nil => rfl
  | cons e l ih =>
    rw [List.cons_append, countOf, if_neg (h e (by simp)), ih (fun e he => h e (List.mem_cons_of_mem _ he))]

theorem cnt_mid (O : FOps) (known : Nat → Bool) (c : KCfg) (l m n : List QEnt) (hl : ∀ e ∈ l, Irr c e) (hn : ∀ e ∈ n, Irr c e) :
    c.cnt O known (l ++ m ++ n) = c.cnt O known m := by
  cases c with
  | count a =>
    simp only [KCfg.cnt]
    have hl' : ∀ e ∈ l, e.attr ≠ a := fun e he => by simpa [Irr, KCfg.matchAttrs] using hl e he
    have hn' : ∀ e ∈ n, e.attr ≠ a := fun e he => by simpa [Irr, KCfg.matchAttrs] using hn e he
    rw [List.append_assoc, countOf_skip O a l _ hl']
    induction m with
    | nil =>
      have := countOf_skip O a n [] hn'
      rw [List.append_nil] at this
      simpa using this
    | cons e m ih => simp only [List.cons_append, countOf, ih]
  | sum t d i => rfl
  | min t d i => rfl
  | max t d i => rfl
  | avg t s a cc =>
    simp only [KCfg.cnt]
    split
    · have z : ∀ l : List QEnt, (∀ e ∈ l, Irr (KCfg.avg t s a cc) e) →
          (l.map fun e => if e.attr = t then 1 else if e.attr = s then 0 else if e.attr = cc then toU64 O e.value else 0).sum = (0 : U64) := by
        intro l
        induction l with
        | nil => intro _; rfl
        | cons e l ih =>
          intro h
          have he := h e (by simp)
          simp only [Irr, KCfg.matchAttrs, List.mem_cons, List.not_mem_nil, or_false, not_or] at he
          simp only [List.map_cons, List.sum_cons, ih (fun e he => h e (List.mem_cons_of_mem _ he)), he, if_false]
          rfl
      simp only [List.map_append, List.sum_append, z l hl, z n hn]
      simp
    · rfl

theorem result_attr (O : FOps) (c : KCfg) (s : KSt) : ∀ e ∈ c.result O s, e.attr ∈ c.resultAttrs ∧ ∃ a v, e = .imm a v := by
  intro e he
  cases c <;> simp only [KCfg.result] at he
  · split at he
    · simp at he
    · simp at he; subst he; exact ⟨by simp [QEnt.attr, KCfg.resultAttrs], _, _, rfl⟩
  · split at he
    · simp at he
    · simp at he; subst he; exact ⟨by simp [QEnt.attr, KCfg.resultAttrs], _, _, rfl⟩
  · split at he
    · simp at he
    · simp at he; subst he; exact ⟨by simp [QEnt.attr, KCfg.resultAttrs], _, _, rfl⟩
  · split at he
    · simp at he
    · simp at he; subst he; exact ⟨by simp [QEnt.attr, KCfg.resultAttrs], _, _, rfl⟩
  · split at he
    · simp at he
    · simp at he
      rcases he with rfl | rfl | rfl <;> exact ⟨by simp [QEnt.attr, KCfg.resultAttrs], _, _, rfl⟩

theorem contributes_noincl (O : FOps) (C : QCfg) {c : KCfg} (h : c.incl = false) (K : List KEnt) (r : List QEnt) :
    C.contributes O c K r = decide (K = C.keyOf r) := by
  unfold QCfg.contributes QCfg.up
  simp [h]

theorem present_noincl (O : FOps) (C : QCfg) (h : ∀ c ∈ C.kernels, c.incl = false) (K : List KEnt) (recs : List (List QEnt)) :
    C.Present O K recs ↔ ∃ r ∈ recs, K = C.keyOf r := by
  unfold QCfg.Present
  constructor
  · rintro ⟨r, hr, h' | ⟨c, hc, h'⟩⟩
    · exact ⟨r, hr, h'⟩
    · rw [contributes_noincl O C (h c hc)] at h'
      exact ⟨r, hr, by simpa using h'⟩
  · rintro ⟨r, hr, h'⟩
    exact ⟨r, hr, .inl h'⟩

theorem selected_attr (C : QCfg) (b : Bool) (r : List QEnt) : ∀ x ∈ C.selected b r,
    (∃ p, QEnt.ref p ∈ r ∧ x ∈ p) ∧ C.nested x.1 = b ∧ (C.selectAll || (C.selectNested && C.nested x.1) || C.isKey x.1) = true := by
  intro x hx
  unfold QCfg.selected at hx
  obtain ⟨e, he, hx⟩ := List.mem_flatMap.1 hx
  cases e with
  | imm a v => simp at hx
  | ref p =>
    simp only [List.mem_filter, Bool.and_eq_true, decide_eq_true_eq] at hx
    exact ⟨⟨p, he, hx.1⟩, hx.2.1, hx.2.2⟩

theorem immKey_attr (C : QCfg) (r : List QEnt) : ∀ x ∈ C.immKey r, C.isKey x.1 = true := by
  intro x hx
  unfold QCfg.immKey at hx
  obtain ⟨e, _, hx⟩ := List.mem_filterMap.1 hx
  cases e with
  | ref p => simp at hx
  | imm a v =>
    simp only at hx
    split at hx
    · simp at hx; subst hx; assumption
    · simp at hx

/-- the key of a reported record is the key it is reported for -/
theorem keyOf_report (O : FOps) (C : QCfg) (hm : C.Mergeable) (r : List QEnt) (rs : List QEnt)
    (hrs : ∀ e ∈ rs, ∃ a v, e = .imm a v ∧ C.isKey a = false) : C.keyOf ((C.keyOf r).map KEnt.toQ ++ rs) = C.keyOf r := by
  obtain ⟨is, his⟩ : ∃ is, is = (C.immKey r).insertionSort fun x y => x.1 ≤ y.1 := ⟨_, rfl⟩
  obtain ⟨np, hnp⟩ : ∃ np, np = (C.selected false r).reverse := ⟨_, rfl⟩
  obtain ⟨pp, hpp⟩ : ∃ pp, pp = C.pathOf r := ⟨_, rfl⟩
  have hsorted : is.Pairwise fun x y => x.1 ≤ y.1 := by
    rw [his]
    haveI : Std.Total (fun x y : Nat × Val => x.1 ≤ y.1) := ⟨fun x y => Nat.le_total x.1 y.1⟩
    haveI : IsTrans (Nat × Val) (fun x y => x.1 ≤ y.1) := ⟨fun x y z h1 h2 => Nat.le_trans h1 h2⟩
    exact List.pairwise_insertionSort _ _
  have hisk : ∀ x ∈ is, C.isKey x.1 = true := by
    intro x hx
    rw [his, List.mem_insertionSort] at hx
    exact immKey_attr C r x hx
  have hnpk : ∀ x ∈ np, C.nested x.1 = false ∧ (C.selectAll || (C.selectNested && C.nested x.1) || C.isKey x.1) = true := by
    intro x hx
    rw [hnp, List.mem_reverse] at hx
    exact (selected_attr C false r x hx).2
  have hppk : ∀ x ∈ pp, C.nested x.1 = true ∧ (C.selectAll || (C.selectNested && C.nested x.1) || C.isKey x.1) = true := by
    intro x hx
    rw [hpp, QCfg.pathOf, List.mem_reverse] at hx
    exact (selected_attr C true r x hx).2
  have hkey : C.keyOf r = is.map (fun x => KEnt.imm x.1 x.2) ++ (if np = [] then [] else [.node np]) ++ (if pp = [] then [] else [.node pp]) := by
    unfold QCfg.keyOf mkKey QCfg.preKey
    rw [← his, ← hnp, ← hpp]
    by_cases h : pp = [] <;> simp [h]
  have hq : (C.keyOf r).map KEnt.toQ = is.map (fun x => QEnt.imm x.1 x.2) ++ (if np = [] then [] else [.ref np.reverse]) ++
      (if pp = [] then [] else [.ref pp.reverse]) := by
    rw [hkey]
    simp only [List.map_append, List.map_map]
    congr 1
    · congr 1
      by_cases h : np = [] <;> simp [h, KEnt.toQ]
    · by_cases h : pp = [] <;> simp [h, KEnt.toQ]
  have hrs1 : ∀ b, C.selected b rs = [] := by
    intro b
    unfold QCfg.selected
    rw [List.flatMap_eq_nil_iff]
    intro e he
    obtain ⟨a, v, rfl, _⟩ := hrs e he
    rfl
  have hrs2 : C.immKey rs = [] := by
    unfold QCfg.immKey
    rw [List.filterMap_eq_nil_iff]
    intro e he
    obtain ⟨a, v, rfl, h⟩ := hrs e he
    simp [h]
  have hselis : ∀ b, C.selected b (is.map (fun x => QEnt.imm x.1 x.2)) = [] := by
    intro b
    unfold QCfg.selected
    rw [List.flatMap_eq_nil_iff]
    intro e he
    obtain ⟨x, _, rfl⟩ := List.mem_map.1 he
    rfl
  have hselref : ∀ b p, C.selected b [QEnt.ref p] = p.filter fun x => decide (C.nested x.1 = b) && (C.selectAll || (C.selectNested && C.nested x.1) || C.isKey x.1) := by
    intro b p; simp [QCfg.selected]
  have happ : ∀ b l m, C.selected b (l ++ m) = C.selected b l ++ C.selected b m := by
    intro b l m; simp [QCfg.selected]
  have happ2 : ∀ l m, C.immKey (l ++ m) = C.immKey l ++ C.immKey m := by
    intro l m; simp [QCfg.immKey]
  have hfalse : C.selected false ((C.keyOf r).map KEnt.toQ ++ rs) = np.reverse := by
    rw [hq, happ, happ, happ, hselis, hrs1, List.nil_append, List.append_nil]
    have e1 : C.selected false (if np = [] then [] else [.ref np.reverse]) = np.reverse := by
      by_cases h : np = []
      · simp [h, QCfg.selected]
      · rw [if_neg h, hselref, List.filter_eq_self]
        intro x hx
        rw [List.mem_reverse] at hx
        rw [Bool.and_eq_true]
        exact ⟨by simp [(hnpk x hx).1], (hnpk x hx).2⟩
    have e2 : C.selected false (if pp = [] then [] else [.ref pp.reverse]) = [] := by
      by_cases h : pp = []
      · simp [h, QCfg.selected]
      · rw [if_neg h, hselref, List.filter_eq_nil_iff]
        intro x hx
        rw [List.mem_reverse] at hx
        simp [hppk x hx]
    rw [e1, e2, List.append_nil]
  have htrue : C.selected true ((C.keyOf r).map KEnt.toQ ++ rs) = pp.reverse := by
    rw [hq, happ, happ, happ, hselis, hrs1, List.nil_append, List.append_nil]
    have e1 : C.selected true (if np = [] then [] else [.ref np.reverse]) = [] := by
      by_cases h : np = []
      · simp [h, QCfg.selected]
      · rw [if_neg h, hselref, List.filter_eq_nil_iff]
        intro x hx
        rw [List.mem_reverse] at hx
        simp [hnpk x hx]
    have e2 : C.selected true (if pp = [] then [] else [.ref pp.reverse]) = pp.reverse := by
      by_cases h : pp = []
      · simp [h, QCfg.selected]
      · rw [if_neg h, hselref, List.filter_eq_self]
        intro x hx
        rw [List.mem_reverse] at hx
        rw [Bool.and_eq_true]
        exact ⟨by simp [(hppk x hx).1], (hppk x hx).2⟩
    rw [e1, e2, List.nil_append]
  have himm : C.immKey ((C.keyOf r).map KEnt.toQ ++ rs) = is := by
    rw [hq, happ2, happ2, happ2, hrs2, List.append_nil]
    have e1 : C.immKey (is.map (fun x => QEnt.imm x.1 x.2)) = is := by
      have : ∀ l : List (Nat × Val), (∀ x ∈ l, C.isKey x.1 = true) → C.immKey (l.map (fun x => QEnt.imm x.1 x.2)) = l := by
        intro l
        induction l with
        | nil => intro _; rfl
        | cons x l ih =>
          intro h
          have := ih (fun x hx => h x (List.mem_cons_of_mem _ hx))
          unfold QCfg.immKey at this ⊢
          simp [h x (by simp), this]
      exact this is hisk
    have e2 : ∀ q : List (Nat × Val), C.immKey (if q = [] then [] else [.ref q.reverse]) = [] := by
      intro q; by_cases h : q = [] <;> simp [h, QCfg.immKey]
    rw [e1, e2, e2, List.append_nil, List.append_nil]
  rw [hkey]
  rw [hkey] at hfalse htrue himm
  unfold QCfg.keyOf mkKey QCfg.preKey QCfg.pathOf
  rw [hfalse, htrue, himm]
  have hso : is.insertionSort (fun x y => x.1 ≤ y.1) = is := List.Pairwise.insertionSort_eq hsorted
  rw [hso]
  simp only [List.reverse_reverse]
  by_cases h : pp = [] <;> simp [h]

theorem keyOf_irr (C : QCfg) (hm : C.Mergeable) {c : KCfg} (hc : c ∈ C.kernels) {recs : List (List QEnt)} (hr : C.RefsOk recs)
    {r : List QEnt} (h : r ∈ recs) : ∀ e ∈ (C.keyOf r).map KEnt.toQ, Irr c e := by
  intro e he
  obtain ⟨k, hk, rfl⟩ := List.mem_map.1 he
  have hnode : ∀ b, (C.selected b r).reverse ≠ [] → Irr c (KEnt.toQ (.node (C.selected b r).reverse)) := by
    intro b hb
    unfold Irr KEnt.toQ
    simp only [List.reverse_reverse]
    cases hs : C.selected b r with
    | nil => rw [hs] at hb; simp at hb
    | cons x xs =>
      obtain ⟨a, v⟩ := x
      simp only [QEnt.attr]
      obtain ⟨⟨p, hp, hx⟩, _⟩ := selected_attr C b r (a, v) (by rw [hs]; simp)
      exact hr r h p hp (a, v) hx c hc
  unfold QCfg.keyOf mkKey at hk
  have hpre : ∀ k ∈ C.preKey r, Irr c k.toQ := by
    intro k hk
    unfold QCfg.preKey at hk
    rcases List.mem_append.1 hk with hk | hk
    · obtain ⟨x, hx, rfl⟩ := List.mem_map.1 hk
      rw [List.mem_insertionSort] at hx
      have := immKey_attr C r x hx
      unfold Irr KEnt.toQ
      simp only [QEnt.attr]
      intro hc'
      rw [hm.key c hc x.1 (List.mem_append_left _ hc')] at this
      simp at this
    · split at hk
      · simp at hk
      · rename_i hne
        simp at hk; subst hk
        exact hnode false hne
  split at hk
  · exact hpre k hk
  · rename_i hne
    rcases List.mem_append.1 hk with hk | hk
    · exact hpre k hk
    · simp at hk; subst hk
      exact hnode true hne

/-- a reported record carries, for each kernel, just the kernel's own results -/
theorem report_split (O : FOps) (C : QCfg) (hm : C.Mergeable) {recs : List (List QEnt)} (hr : C.RefsOk recs) {r : List QEnt} (h : r ∈ recs)
    {c : KCfg} (hc : c ∈ C.kernels) (st : KCfg → KSt) :
    ∃ l n, ((C.keyOf r).map KEnt.toQ ++ C.kernels.flatMap fun c => c.result O (st c)) = l ++ c.result O (st c) ++ n ∧
      (∀ e ∈ l, Irr c e) ∧ (∀ e ∈ n, Irr c e) := by
  obtain ⟨A, B, hAB⟩ := List.append_of_mem hc
  have hp := hm.pair
  rw [hAB, List.pairwise_append, List.pairwise_cons] at hp
  refine ⟨(C.keyOf r).map KEnt.toQ ++ A.flatMap (fun c => c.result O (st c)), B.flatMap (fun c => c.result O (st c)), ?_, ?_, ?_⟩
  · rw [hAB]; simp
  · intro e he
    rcases List.mem_append.1 he with he | he
    · exact keyOf_irr C hm hc hr h e he
    · obtain ⟨c', hc', he⟩ := List.mem_flatMap.1 he
      exact (hp.2.2 c' hc' c (by simp)).1 _ (result_attr O c' _ e he).1
  · intro e he
    obtain ⟨c', hc', he⟩ := List.mem_flatMap.1 he
    exact (hp.2.1.1 c' hc').2 _ (result_attr O c' _ e he).1

theorem val_unknown (O : FOps) (C : QCfg) (c : KCfg) (K : List KEnt) (recs : List (List QEnt)) (h : ∀ r, c.vals C.known r = []) :
    (C.stateOf O c K recs).val = .inv := by
  rw [stateOf_eq]
  have : ∀ l : List (List QEnt), l.flatMap (c.vals C.known) = [] := by intro l; simp [h]
  simp [this]

/-- what a reported record contributes when it is aggregated again -/
theorem report_contrib (O : FOps) (C : QCfg) (hm : C.Mergeable) {recs : List (List QEnt)} (hr : C.RefsOk recs) (hw : C.NoWrap O recs)
    {r : List QEnt} (h : r ∈ recs) {c : KCfg} (hc : c ∈ C.kernels) :
    c.cnt O C.known (C.report O recs (C.keyOf r)) = (C.stateOf O c (C.keyOf r) recs).count ∧
    c.vals C.known (C.report O recs (C.keyOf r)) =
      if (C.stateOf O c (C.keyOf r) recs).val = .inv then [] else [(C.stateOf O c (C.keyOf r) recs).val] := by
  have hpres : C.Present O (C.keyOf r) recs := ⟨r, h, .inl rfl⟩
  have hnw := hw _ hpres c hc
  have hun := val_unknown O C c (C.keyOf r) recs
  have hcount0 : (∀ r, c.cnt O C.known r = 0) → (C.stateOf O c (C.keyOf r) recs).count = 0 := by
    intro hz
    rw [stateOf_eq]
    show ((recs.filter (C.contributes O c (C.keyOf r))).map (c.cnt O C.known)).sum = 0
    generalize recs.filter (C.contributes O c (C.keyOf r)) = l
    induction l with
    | nil => rfl
    | cons x l ih => simp only [List.map_cons, List.sum_cons, ih, hz]; rfl
  obtain ⟨l, n, he, hl, hn⟩ := report_split O C hm hr h hc (fun c => C.stateOf O c (C.keyOf r) recs)
  have he' : C.report O recs (C.keyOf r) = l ++ c.result O (C.stateOf O c (C.keyOf r) recs) ++ n := he
  rw [he', cnt_mid O C.known c l _ n hl hn, vals_append, vals_append, vals_irr C.known c l hl, vals_irr C.known c n hn,
    List.nil_append, List.append_nil]
  have hone : ∀ t d v, matching C.known t d [QEnt.imm d v] = if C.known t then [v] else [] := by
    intro t d v; unfold matching; split <;> simp
  have hmn : ∀ t d, matching C.known t d [] = [] := by intro t d; unfold matching; split <;> rfl
  have hnk : ∀ t d, C.known t ≠ true → ∀ r, matching C.known t d r = [] := by
    intro t d hk r; unfold matching; rw [if_neg hk]
  generalize C.stateOf O c (C.keyOf r) recs = S at *
  cases c with
  | count a =>
    have h0 : S.count ≠ 0 := hnw
    refine ⟨?_, ?_⟩
    · show countOf O a (if S.count = 0 then [] else [.imm a (.uint S.count)]) = S.count
      rw [if_neg h0]
      simp [countOf, QEnt.attr, QEnt.value, toU64]
    · rw [if_pos (hun (fun r => rfl))]; rfl
  | sum t d i =>
    refine ⟨(hcount0 (fun r => rfl)).symm, ?_⟩
    by_cases hv : S.val = .inv
    · rw [if_pos hv]
      simp only [KCfg.vals, KCfg.result, hv, if_true]
      exact hmn t d
    · rw [if_neg hv]
      have hk : C.known t = true := by
        by_contra hk
        exact hv (hun (hnk t d hk))
      simp only [KCfg.vals, KCfg.result, if_neg hv, hone, hk, if_true]
  | min t d i =>
    refine ⟨(hcount0 (fun r => rfl)).symm, ?_⟩
    by_cases hv : S.val = .inv
    · rw [if_pos hv]
      simp only [KCfg.vals, KCfg.result, hv, if_true]
      exact hmn t d
    · rw [if_neg hv]
      have hk : C.known t = true := by
        by_contra hk
        exact hv (hun (hnk t d hk))
      simp only [KCfg.vals, KCfg.result, if_neg hv, hone, hk, if_true]
  | max t d i =>
    refine ⟨(hcount0 (fun r => rfl)).symm, ?_⟩
    by_cases hv : S.val = .inv
    · rw [if_pos hv]
      simp only [KCfg.vals, KCfg.result, hv, if_true]
      exact hmn t d
    · rw [if_neg hv]
      have hk : C.known t = true := by
        by_contra hk
        exact hv (hun (hnk t d hk))
      simp only [KCfg.vals, KCfg.result, if_neg hv, hone, hk, if_true]
  | avg t sA aA cA =>
    have hiff : S.count = 0 ↔ S.val = .inv := hnw
    have ho : [t, sA, cA, aA].Nodup := hm.own _ hc
    simp only [List.nodup_cons, List.mem_cons, List.not_mem_nil, or_false, not_or, List.nodup_nil, not_false_eq_true, and_true] at ho
    by_cases hk : C.known t = true
    · by_cases h0 : S.count = 0
      · rw [if_pos (hiff.1 h0)]
        simp [KCfg.cnt, KCfg.vals, KCfg.result, h0]
      · rw [if_neg (fun h => h0 (hiff.2 h))]
        have a1 : aA ≠ t := fun h => ho.1.2.2 h.symm
        have a2 : aA ≠ sA := fun h => ho.2.1.2 h.symm
        have a3 : aA ≠ cA := fun h => ho.2.2 h.symm
        have a4 : sA ≠ t := fun h => ho.1.1 h.symm
        have a5 : cA ≠ t := fun h => ho.1.2.1 h.symm
        have a6 : cA ≠ sA := fun h => ho.2.1.1 h.symm
        have e : (KCfg.avg t sA aA cA).result O S =
            [.imm aA (divU O S.val (S.count.toNat % 4294967296)), .imm sA S.val, .imm cA (.uint S.count)] := if_neg h0
        rw [e]
        constructor
        · simp only [KCfg.cnt, hk, if_true, List.map_cons, List.map_nil, QEnt.attr, QEnt.value]
          simp [a1, a2, a3, a4, a5, a6, toU64]
        · simp only [KCfg.vals, hk, if_true, QEnt.attr, QEnt.value, List.filterMap_cons, List.filterMap_nil]
          simp [a1, a2, a3, a4, a5, a6]
    · have hv : S.val = .inv := hun (fun r => by simp [KCfg.vals, hk])
      have h0 : S.count = 0 := hcount0 (fun r => by simp [KCfg.cnt, hk])
      rw [if_pos hv]
      simp [KCfg.cnt, KCfg.vals, hk, h0]

theorem filter_eq_key {α : Type} [DecidableEq α] (l : List α) (h : l.Nodup) (K : α) :
    l.filter (fun k => decide (K = k)) = if K ∈ l then [K] else [] := by
  induction l with
  | nil => rfl
  | cons x l ih =>
    obtain ⟨hx, hl⟩ := List.nodup_cons.1 h
    rw [List.filter_cons, ih hl]
    by_cases hk : K = x
    · subst hk; simp [hx]
    · simp [hk]

/-- the same groups with the same kernel states -/
def SameStates (O : FOps) (C : QCfg) (a b : List (List QEnt)) : Prop :=
  (∀ K, C.Present O K a ↔ C.Present O K b) ∧ ∀ K, ∀ c ∈ C.kernels, C.stateOf O c K a = C.stateOf O c K b

theorem SameStates.flush {O : FOps} {C : QCfg} {a b : List (List QEnt)} (h : SameStates O C a b) :
    ((QAgg.init.run O C a).flush O C).Perm ((QAgg.init.run O C b).flush O C) := by
  refine flush_perm O C h.1 ?_
  intro K _
  unfold QCfg.report
  congr 1
  rw [List.flatMap_def, List.flatMap_def]
  congr 1
  apply List.map_congr_left
  intro c hc
  rw [h.2 K c hc]

/-- feeding the reported records of a part in instead of the part leads to the same kernel states -/
theorem merge_same (O : FOps) (C : QCfg) (hm : C.Mergeable) (xs ys zs : List (List QEnt)) (hi : C.IntMetrics (xs ++ ys ++ zs))
    (hr : C.RefsOk ys) (hw : C.NoWrap O ys) :
    SameStates O C (xs ++ (QAgg.init.run O C ys).flush O C ++ zs) (xs ++ ys ++ zs) := by
  obtain ⟨keys, hnd, hmem, hfl⟩ := flush_report O C ys
  have hmem' : ∀ K, K ∈ keys ↔ ∃ r ∈ ys, K = C.keyOf r := fun K => (hmem K).trans (present_noincl O C hm.noincl K ys)
  have hkey : ∀ K ∈ keys, C.keyOf (C.report O ys K) = K := by
    intro K hK
    obtain ⟨r, _, rfl⟩ := (hmem' K).1 hK
    refine keyOf_report O C hm r _ ?_
    intro e he
    obtain ⟨c, hc, he⟩ := List.mem_flatMap.1 he
    obtain ⟨h1, a, v, rfl⟩ := result_attr O c _ e he
    exact ⟨a, v, rfl, hm.key c hc a (List.mem_append_right _ h1)⟩
  have hfilter : ∀ K, ((QAgg.init.run O C ys).flush O C).filter (fun r => decide (K = C.keyOf r)) = if K ∈ keys then [C.report O ys K] else [] := by
    intro K
    rw [hfl, List.filter_map]
    have : keys.filter ((fun r => decide (K = C.keyOf r)) ∘ C.report O ys) = keys.filter (fun k => decide (K = k)) := by
      apply List.filter_congr
      intro k hk
      simp [hkey k hk]
    rw [this, filter_eq_key keys hnd]
    split <;> simp
  refine ⟨?_, ?_⟩
  · intro K
    rw [present_noincl O C hm.noincl, present_noincl O C hm.noincl]
    have : (∃ r ∈ (QAgg.init.run O C ys).flush O C, K = C.keyOf r) ↔ ∃ r ∈ ys, K = C.keyOf r := by
      rw [← hmem' K, hfl]
      constructor
      · rintro ⟨r, hr', rfl⟩
        obtain ⟨K', hK', rfl⟩ := List.mem_map.1 hr'
        rw [hkey K' hK']; exact hK'
      · intro hK
        exact ⟨_, List.mem_map_of_mem hK, (hkey K hK).symm⟩
    simp only [List.mem_append, or_and_right, exists_or, this]
  · intro K c hc
    -- the states agree
    have hcon : ∀ l : List (List QEnt), l.filter (C.contributes O c K) = l.filter (fun r => decide (K = C.keyOf r)) :=
      fun l => List.filter_congr fun r _ => contributes_noincl O C (hm.noincl c hc) K r
    rw [stateOf_eq, stateOf_eq, hcon, hcon]
    simp only [List.filter_append, hfilter]
    have hys : ∀ r ∈ ys, K = C.keyOf r → c.cnt O C.known (C.report O ys K) = (C.stateOf O c K ys).count ∧
        c.vals C.known (C.report O ys K) = if (C.stateOf O c K ys).val = .inv then [] else [(C.stateOf O c K ys).val] := by
      rintro r hr' rfl
      exact report_contrib O C hm hr hw hr' hc
    by_cases hK : K ∈ keys
    · obtain ⟨r, hr1, hr2⟩ := (hmem' K).1 hK
      obtain ⟨h1, h2⟩ := hys r hr1 hr2
      simp only [hK, if_true, List.map_append, List.map_cons, List.map_nil, List.sum_append, List.sum_cons, List.sum_nil,
        List.flatMap_append, List.flatMap_cons, List.flatMap_nil, List.append_nil, h1, h2]
      rw [stateOf_eq, hcon]
      generalize hX : xs.filter (fun r => decide (K = C.keyOf r)) = X
      generalize hY : ys.filter (fun r => decide (K = C.keyOf r)) = Y
      generalize hZ : zs.filter (fun r => decide (K = C.keyOf r)) = Z
      congr 1
      · simp
      · by_cases hcnt : ∃ a, c = .count a
        · obtain ⟨a, rfl⟩ := hcnt
          have : ∀ l : List (List QEnt), l.flatMap ((KCfg.count a).vals C.known) = [] := by
            intro l; simp [KCfg.vals]
          simp [this]
        · obtain ⟨hint, huint⟩ := op_is O c (fun a h => hcnt ⟨a, h⟩)
          have hh : Homog (X.flatMap (c.vals C.known) ++ Y.flatMap (c.vals C.known) ++ Z.flatMap (c.vals C.known)) := by
            refine (hi c hc).of_subset ?_
            intro v hv
            have sub : ∀ (l : List (List QEnt)) (v : Val), v ∈ (l.filter fun r => decide (K = C.keyOf r)).flatMap (c.vals C.known) →
                v ∈ l.flatMap (c.vals C.known) := by
              intro l v hv
              obtain ⟨r, hr, h⟩ := List.mem_flatMap.1 hv
              exact List.mem_flatMap.2 ⟨r, (List.mem_filter.1 hr).1, h⟩
            simp only [List.flatMap_append, List.mem_append] at hv ⊢
            subst hX hY hZ
            rcases hv with (h | h) | h
            · exact .inl (.inl (sub _ _ h))
            · exact .inl (.inr (sub _ _ h))
            · exact .inr (sub _ _ h)
          have fin : ∀ (T : U64 → Val) (f : U64 → U64 → U64), OpIs (c.op O) T f →
              (∃ us : List U64, X.flatMap (c.vals C.known) ++ Y.flatMap (c.vals C.known) ++ Z.flatMap (c.vals C.known) = us.map T) →
              (X.flatMap (c.vals C.known) ++ (if (Y.flatMap (c.vals C.known)).foldl (c.op O) .inv = .inv then []
                else [(Y.flatMap (c.vals C.known)).foldl (c.op O) .inv]) ++ Z.flatMap (c.vals C.known)).foldl (c.op O) .inv =
              (X.flatMap (c.vals C.known) ++ Y.flatMap (c.vals C.known) ++ Z.flatMap (c.vals C.known)).foldl (c.op O) .inv := by
            intro T f hop ⟨us, hus⟩
            obtain ⟨ab, zz, rfl, hab, hzz⟩ := List.append_eq_map_iff.1 hus
            obtain ⟨xx, yy, rfl, hxx, hyy⟩ := List.append_eq_map_iff.1 hab.symm
            rw [← hxx, ← hyy, ← hzz]
            have e0 : ∀ us : List U64, (us.map T).foldl (c.op O) .inv = enc T (optM f none (total f us)) := fun us => foldl_enc hop us none
            rw [e0 yy]
            have hmid : (if enc T (optM f none (total f yy)) = .inv then [] else [enc T (optM f none (total f yy))]) =
                (match total f yy with
                 | none => []
                 | some t => [t]).map T := by
              cases total f yy with
              | none => simp [optM, enc]
              | some t => simp [optM, enc, hop.ne t]
            have htot : total f (match total f yy with
                 | none => []
                 | some t => [t]) = total f yy := by
              cases total f yy with
              | none => rfl
              | some t => rfl
            rw [hmid, ← List.map_append, ← List.map_append, ← List.map_append, ← List.map_append, e0, e0,
              total_append hop, total_append hop, total_append hop, total_append hop, htot]
          rcases hh with ⟨us, hus⟩ | ⟨us, hus⟩
          · exact fin .int _ hint ⟨us, hus⟩
          · exact fin .uint _ huint ⟨us, hus⟩
    · have hY : ys.filter (fun r => decide (K = C.keyOf r)) = [] := by
        rw [List.filter_eq_nil_iff]
        intro r hr' hc'
        exact hK ((hmem' K).2 ⟨r, hr', by simpa using hc'⟩)
      simp [hK, hY]

/-- C30 (partitioning): with integer metrics and a mergeable query, aggregating any part of the records separately and feeding the
reported records in instead of the part gives the same result, up to order. -/
theorem C30_merge_partial (O : FOps) (C : QCfg) (hm : C.Mergeable) (xs ys zs : List (List QEnt)) (hi : C.IntMetrics (xs ++ ys ++ zs))
    (hr : C.RefsOk ys) (hw : C.NoWrap O ys) :
    ((QAgg.init.run O C (xs ++ (QAgg.init.run O C ys).flush O C ++ zs)).flush O C).Perm
      ((QAgg.init.run O C (xs ++ ys ++ zs)).flush O C) := (merge_same O C hm xs ys zs hi hr hw).flush

/-- the values in reported records are of the same type as the values aggregated -/
theorem report_intMetrics (O : FOps) (C : QCfg) (hm : C.Mergeable) (xs ys zs : List (List QEnt)) (hi : C.IntMetrics (xs ++ ys ++ zs))
    (hr : C.RefsOk ys) (hw : C.NoWrap O ys) : C.IntMetrics (xs ++ (QAgg.init.run O C ys).flush O C ++ zs) := by
  intro c hc
  obtain ⟨keys, hnd, hmem, hfl⟩ := flush_report O C ys
  have key : ∀ v ∈ ((QAgg.init.run O C ys).flush O C).flatMap (c.vals C.known), ∃ r ∈ ys, v = (C.stateOf O c (C.keyOf r) ys).val ∧ v ≠ .inv := by
    intro v hv
    rw [hfl] at hv
    obtain ⟨r', hr', hv⟩ := List.mem_flatMap.1 hv
    obtain ⟨K, hK, rfl⟩ := List.mem_map.1 hr'
    obtain ⟨r, hr1, rfl⟩ := (present_noincl O C hm.noincl K ys).1 ((hmem K).1 hK)
    rw [(report_contrib O C hm hr hw hr1 hc).2] at hv
    refine ⟨r, hr1, ?_⟩
    split at hv
    · simp at hv
    · rename_i h
      simp only [List.mem_singleton] at hv
      exact ⟨hv, hv ▸ h⟩
  have sub : ∀ K, ∀ v ∈ (ys.filter (C.contributes O c K)).flatMap (c.vals C.known), v ∈ (xs ++ ys ++ zs).flatMap (c.vals C.known) := by
    intro K v hv
    obtain ⟨r, hr, h⟩ := List.mem_flatMap.1 hv
    exact List.mem_flatMap.2 ⟨r, by simp [(List.mem_filter.1 hr).1], h⟩
  by_cases hcnt : ∃ a, c = .count a
  · obtain ⟨a, rfl⟩ := hcnt
    left
    exact ⟨[], by simp [KCfg.vals]⟩
  · obtain ⟨hint, huint⟩ := op_is O c (fun a h => hcnt ⟨a, h⟩)
    have fin : ∀ (T : U64 → Val) (f : U64 → U64 → U64), OpIs (c.op O) T f → (∃ us : List U64, (xs ++ ys ++ zs).flatMap (c.vals C.known) = us.map T) →
        ∃ us : List U64, (xs ++ (QAgg.init.run O C ys).flush O C ++ zs).flatMap (c.vals C.known) = us.map T := by
      intro T f hop ⟨us, hus⟩
      have all : ∀ v ∈ (xs ++ (QAgg.init.run O C ys).flush O C ++ zs).flatMap (c.vals C.known), ∃ x, v = T x := by
        intro v hv
        have old : ∀ v ∈ (xs ++ ys ++ zs).flatMap (c.vals C.known), ∃ x, v = T x := by
          intro v hv
          rw [hus] at hv
          obtain ⟨x, _, rfl⟩ := List.mem_map.1 hv
          exact ⟨x, rfl⟩
        simp only [List.flatMap_append, List.mem_append] at hv old
        rcases hv with (hv | hv) | hv
        · exact old v (.inl (.inl hv))
        · obtain ⟨r, hr1, rfl, hne⟩ := key v hv
          have hl : ∃ ws : List U64, (ys.filter (C.contributes O c (C.keyOf r))).flatMap (c.vals C.known) = ws.map T := by
            have : ∀ l : List Val, (∀ v ∈ l, ∃ x, v = T x) → ∃ ws : List U64, l = ws.map T := by
              intro l
              induction l with
              | nil => intro _; exact ⟨[], rfl⟩
              | cons w l ih =>
                intro h
                obtain ⟨x, rfl⟩ := h w (by simp)
                obtain ⟨ws, rfl⟩ := ih (fun v hv => h v (List.mem_cons_of_mem _ hv))
                exact ⟨x :: ws, rfl⟩
            refine this _ fun v hv => ?_
            have := sub _ v hv
            simp only [List.flatMap_append, List.mem_append] at this
            exact old v this
          obtain ⟨ws, hws⟩ := hl
          rw [stateOf_eq, hws] at hne ⊢
          have e := foldl_enc hop ws none
          simp only [enc] at e
          simp only at hne ⊢
          rw [e] at hne ⊢
          cases h : optM f none (total f ws) with
          | none => simp [h] at hne
          | some x => exact ⟨x, rfl⟩
        · exact old v (.inr hv)
      generalize (xs ++ (QAgg.init.run O C ys).flush O C ++ zs).flatMap (c.vals C.known) = l at all
      clear hus sub key
      induction l with
      | nil => exact ⟨[], rfl⟩
      | cons w l ih =>
        obtain ⟨x, rfl⟩ := all w (by simp)
        obtain ⟨ws, rfl⟩ := ih (fun v hv => all v (List.mem_cons_of_mem _ hv))
        exact ⟨x :: ws, rfl⟩
    rcases hi c hc with h | h
    · exact .inl (fin .int _ hint h)
    · exact .inr (fin .uint _ huint h)

/-- C30 (partitioning, any number of parts): with integer metrics and a mergeable query, aggregating each part of the records
separately (on different processes, say) and aggregating the reported records gives the same result as aggregating all records
at once, up to order. -/
theorem C30_parts_partial (O : FOps) (C : QCfg) (hm : C.Mergeable) (parts : List (List (List QEnt))) (hi : C.IntMetrics parts.flatten)
    (hr : ∀ p ∈ parts, C.RefsOk p) (hw : ∀ p ∈ parts, C.NoWrap O p) :
    ((QAgg.init.run O C (parts.flatMap fun p => (QAgg.init.run O C p).flush O C)).flush O C).Perm
      ((QAgg.init.run O C parts.flatten).flush O C) := by
  have : ∀ (parts : List (List (List QEnt))) (xs : List (List QEnt)), C.IntMetrics (xs ++ parts.flatten) →
      (∀ p ∈ parts, C.RefsOk p) → (∀ p ∈ parts, C.NoWrap O p) →
      ((QAgg.init.run O C (xs ++ parts.flatMap fun p => (QAgg.init.run O C p).flush O C)).flush O C).Perm
        ((QAgg.init.run O C (xs ++ parts.flatten)).flush O C) := by
    intro parts
    induction parts with
    | nil => intro xs _ _ _; simp
    | cons p ps ih =>
      intro xs hi hr hw
      have hi' : C.IntMetrics (xs ++ p ++ ps.flatten) := by simpa using hi
      have h1 := C30_merge_partial O C hm xs p ps.flatten hi' (hr p (by simp)) (hw p (by simp))
      have h2 := ih (xs ++ (QAgg.init.run O C p).flush O C)
        (report_intMetrics O C hm xs p ps.flatten hi' (hr p (by simp)) (hw p (by simp)))
        (fun q hq => hr q (List.mem_cons_of_mem _ hq)) (fun q hq => hw q (List.mem_cons_of_mem _ hq))
      have := h2.trans h1
      simpa using this
  simpa using this parts [] (by simpa using hi) hr hw

/-! ## The hypotheses for records as they come from a measurement -/

/-- records that carry no kernel results yet, and fewer than 2^64 entries -/
structure QCfg.Raw (C : QCfg) (recs : List (List QEnt)) : Prop where
  fresh : ∀ r ∈ recs, ∀ e ∈ r, ∀ c ∈ C.kernels, match c with
    | .count a => e.attr ≠ a
    | .avg _ s _ n => e.attr ≠ s ∧ e.attr ≠ n
    | _ => True
  size : (recs.map fun r => r.length + 1).sum < 2 ^ 64

theorem toNat_sum_lt : ∀ (l : List U64) (b : List Nat), l.length = b.length → (∀ i (h : i < l.length) (h' : i < b.length), l[i].toNat ≤ b[i]) →
    b.sum < 2 ^ 64 → l.sum.toNat = (l.map BitVec.toNat).sum ∧ (l.map BitVec.toNat).sum ≤ b.sum
  | [], [], _, _, _ => by simp
  | [], _ :: _, h, _, _ => by simp at h
  | _ :: _, [], h, _, _ => by simp at h
  | x :: l, y :: b, h, h1, h2 => by
    simp only [List.sum_cons, List.length_cons, Nat.add_right_cancel_iff] at h h2 ⊢
    have hx := h1 0 (by simp) (by simp)
    simp only [List.getElem_cons_zero] at hx
    obtain ⟨i1, i2⟩ := toNat_sum_lt l b h (fun i hi hi' => by
      have := h1 (i + 1) (by simpa using hi) (by simpa using hi')
      simpa using this) (by omega)
    constructor
    · rw [BitVec.toNat_add, i1, List.map_cons, List.sum_cons, Nat.mod_eq_of_lt]; omega
    · rw [List.map_cons, List.sum_cons]; omega

theorem le_sum_of_mem {l : List Nat} {x : Nat} (h : x ∈ l) : x ≤ l.sum := by
  induction l with
  | nil => simp at h
  | cons y l ih =>
    rw [List.sum_cons]
    rcases List.mem_cons.1 h with rfl | h
    · omega
    · have := ih h; omega

theorem sum_map_le {α : Type} (l : List α) (f g : α → Nat) (h : ∀ x ∈ l, f x ≤ g x) : (l.map f).sum ≤ (l.map g).sum := by
  induction l with
  | nil => simp
  | cons x l ih =>
    simp only [List.map_cons, List.sum_cons]
    have := h x (by simp)
    have := ih (fun y hy => h y (List.mem_cons_of_mem _ hy))
    omega

theorem sum_filter_le {α : Type} (l : List α) (p : α → Bool) (f : α → Nat) : ((l.filter p).map f).sum ≤ (l.map f).sum := by
  induction l with
  | nil => simp
  | cons x l ih =>
    rw [List.filter_cons]
    split
    · simp only [List.map_cons, List.sum_cons]; omega
    · simp only [List.map_cons, List.sum_cons]; omega

theorem toNat_sum_map {α : Type} (l : List α) (f : α → U64) (g : α → Nat) (h : ∀ x ∈ l, (f x).toNat ≤ g x) (hb : (l.map g).sum < 2 ^ 64) :
    (l.map f).sum.toNat = (l.map fun x => (f x).toNat).sum := by
  have := (toNat_sum_lt (l.map f) (l.map g) (by simp) (by intro i h1 h2; simpa using h _ (by simp)) hb).1
  rw [this, List.map_map]; rfl

/-- records from a measurement do not make counts wrap around -/
theorem Raw.noWrap {O : FOps} {C : QCfg} {recs : List (List QEnt)} (h : C.Raw recs) (hn : ∀ c ∈ C.kernels, c.incl = false)
    (hi : C.IntMetrics recs) : C.NoWrap O recs := by
  intro K hK c hc
  cases c with
  | sum t d i => trivial
  | min t d i => trivial
  | max t d i => trivial
  | count a =>
    show (C.stateOf O (.count a) K recs).count ≠ 0
    rw [stateOf_eq]
    show ((recs.filter (C.contributes O (.count a) K)).map (countOf O a)).sum ≠ 0
    have one : ∀ r ∈ recs, countOf O a r = 1 := by
      intro r hr
      have := countOf_skip O a r [] (fun e he => h.fresh r hr e he _ hc)
      rw [List.append_nil] at this
      rw [this]; rfl
    obtain ⟨r, hr, hk⟩ := (present_noincl O C hn K recs).1 hK
    have hmem : r ∈ recs.filter (C.contributes O (.count a) K) := by
      rw [List.mem_filter]
      refine ⟨hr, ?_⟩
      rw [contributes_noincl O C (hn _ hc)]
      simp [hk]
    have hsz : ((recs.filter (C.contributes O (.count a) K)).map fun r => r.length + 1).sum < 2 ^ 64 :=
      Nat.lt_of_le_of_lt (sum_filter_le _ _ _) h.size
    have e := toNat_sum_map (recs.filter (C.contributes O (.count a) K)) (countOf O a) (fun r => r.length + 1)
      (fun r hr => by rw [one r (List.mem_filter.1 hr).1]; show 1 ≤ r.length + 1; omega) hsz
    intro h0
    rw [h0] at e
    have : ∀ l : List (List QEnt), (∀ r ∈ l, countOf O a r = 1) → (l.map fun r => (countOf O a r).toNat).sum = l.length := by
      intro l
      induction l with
      | nil => simp
      | cons x l ih =>
        intro hl
        rw [List.map_cons, List.sum_cons, ih (fun r hr => hl r (List.mem_cons_of_mem _ hr)), hl x (by simp), List.length_cons]
        show 1 + l.length = l.length + 1
        omega
    rw [this _ (fun r hr => one r (List.mem_filter.1 hr).1)] at e
    have hpos := List.length_pos_of_mem hmem
    have : (0 : U64).toNat = 0 := rfl
    omega
  | avg t s a n =>
    show (C.stateOf O (.avg t s a n) K recs).count = 0 ↔ (C.stateOf O (.avg t s a n) K recs).val = .inv
    rw [stateOf_eq]
    simp only
    have hsz : ((recs.filter (C.contributes O (.avg t s a n) K)).map fun r => r.length + 1).sum < 2 ^ 64 :=
      Nat.lt_of_le_of_lt (sum_filter_le _ _ _) h.size
    have hsub : ∀ r ∈ recs.filter (C.contributes O (.avg t s a n) K), r ∈ recs := fun r hr => (List.mem_filter.1 hr).1
    generalize recs.filter (C.contributes O (.avg t s a n) K) = l at *
    -- the count of a record is the number of its values
    have cv : ∀ r ∈ recs, ((KCfg.avg t s a n).cnt O C.known r).toNat = ((KCfg.avg t s a n).vals C.known r).length ∨ 2 ^ 64 ≤ r.length + 1 := by
      intro r hr
      by_cases hlen : 2 ^ 64 ≤ r.length + 1
      · exact .inr hlen
      · left
        unfold KCfg.cnt KCfg.vals
        simp only
        by_cases hk : C.known t
        · simp only [hk, if_true]
          have hf := h.fresh r hr
          have hb : (r.map fun _ => 1).sum < 2 ^ 64 := by simp; omega
          rw [toNat_sum_map r _ (fun _ => 1) ?_ hb]
          · have : ∀ r : List QEnt, (∀ e ∈ r, e.attr ≠ s ∧ e.attr ≠ n) →
                (r.map fun x => (if x.attr = t then (1 : U64) else if x.attr = s then 0 else if x.attr = n then toU64 O x.value else 0).toNat).sum =
                (r.filterMap fun e => if e.attr = t ∨ e.attr = s then some e.value else none).length := by
              intro r
              induction r with
              | nil => simp
              | cons e r ih =>
                intro hr
                obtain ⟨h1, h2⟩ := hr e (by simp)
                rw [List.map_cons, List.sum_cons, List.filterMap_cons, ih (fun e he => hr e (List.mem_cons_of_mem _ he))]
                by_cases he : e.attr = t
                · simp only [he, true_or, if_true, List.length_cons]
                  show 1 + _ = _ + 1
                  omega
                · simp only [he, h1, h2, or_self, if_false]
                  show 0 + _ = _
                  omega
            exact this r (fun e he => hf e he _ hc)
          · intro e he
            obtain ⟨h1, h2⟩ := hf e he _ hc
            simp only [h1, h2, if_false]
            split
            · exact Nat.le_refl 1
            · exact Nat.zero_le 1
        · simp [hk]
    have small : ∀ r ∈ l, r.length + 1 < 2 ^ 64 := by
      intro r hr
      have : r.length + 1 ≤ (l.map fun r => r.length + 1).sum := le_sum_of_mem (List.mem_map_of_mem (f := fun r : List QEnt => r.length + 1) hr)
      omega
    have cv' : ∀ r ∈ l, ((KCfg.avg t s a n).cnt O C.known r).toNat = ((KCfg.avg t s a n).vals C.known r).length := by
      intro r hr
      rcases cv r (hsub r hr) with h | h
      · exact h
      · have := small r hr; omega
    have e := toNat_sum_map l ((KCfg.avg t s a n).cnt O C.known) (fun r => r.length + 1) (fun r hr => by
      rw [cv' r hr]
      unfold KCfg.vals
      simp only
      split
      · exact Nat.le_succ_of_le (List.length_filterMap_le _ _)
      · simp) hsz
    have e2 : (l.map fun r => ((KCfg.avg t s a n).cnt O C.known r).toNat).sum = (l.flatMap ((KCfg.avg t s a n).vals C.known)).length := by
      rw [List.length_flatMap]
      congr 1
      exact List.map_congr_left cv'
    have e3 : (l.map ((KCfg.avg t s a n).cnt O C.known)).sum = 0 ↔ l.flatMap ((KCfg.avg t s a n).vals C.known) = [] := by
      rw [← List.length_eq_zero_iff, ← e2, ← e]
      constructor
      · intro h; rw [h]; rfl
      · intro h; exact BitVec.eq_of_toNat_eq h
    rw [e3]
    have hh : Homog (l.flatMap ((KCfg.avg t s a n).vals C.known)) := by
      refine (hi _ hc).of_subset ?_
      intro v hv
      obtain ⟨r, hr, hv⟩ := List.mem_flatMap.1 hv
      exact List.mem_flatMap.2 ⟨r, hsub r hr, hv⟩
    obtain ⟨hint, huint⟩ := op_is O (.avg t s a n) (by simp)
    have fin : ∀ (T : U64 → Val) (f : U64 → U64 → U64), OpIs ((KCfg.avg t s a n).op O) T f → ∀ us : List U64,
        (us.map T = [] ↔ (us.map T).foldl ((KCfg.avg t s a n).op O) .inv = .inv) := by
      intro T f hop us
      have e := foldl_enc hop us none
      simp only [enc] at e
      rw [e]
      cases us with
      | nil => simp [total, optM]
      | cons u us =>
        simp only [List.map_cons, reduceCtorEq, false_iff]
        show ¬(match optM f none (optM f (some u) (total f us)) with | none => Val.inv | some x => T x) = .inv
        cases total f us with
        | none => exact hop.ne _
        | some w => exact hop.ne _
    rcases hh with ⟨us, hus⟩ | ⟨us, hus⟩
    · rw [hus]; exact fin .int _ hint us
    · rw [hus]; exact fin .uint _ huint us

/-- C30 for measured records: the parts are records that carry no kernel results yet. -/
theorem C30_parts_raw_partial (O : FOps) (C : QCfg) (hm : C.Mergeable) (parts : List (List (List QEnt))) (hi : C.IntMetrics parts.flatten)
    (hr : ∀ p ∈ parts, C.RefsOk p) (hw : ∀ p ∈ parts, C.Raw p) :
    ((QAgg.init.run O C (parts.flatMap fun p => (QAgg.init.run O C p).flush O C)).flush O C).Perm
      ((QAgg.init.run O C parts.flatten).flush O C) := by
  refine C30_parts_partial O C hm parts hi hr fun p hp => Raw.noWrap (hw p hp) hm.noincl ?_
  intro c hc
  refine (hi c hc).of_subset ?_
  intro v hv
  obtain ⟨r, hr, hv⟩ := List.mem_flatMap.1 hv
  exact List.mem_flatMap.2 ⟨r, List.mem_flatten.2 ⟨p, hp, hr⟩, hv⟩

/-! ## The hypotheses are met, and what goes wrong without them -/

namespace QDemo

/-- floating-point operations do not matter here -/
def ops : FOps := ⟨fun a _ => a, fun a _ => a, fun a _ => a, fun a _ => a, fun _ => 0, id, id⟩

/-- group by path (attribute 1 is nested) and by attribute 2; attribute 10 is the metric -/
def cfg (ks : List KCfg) : QCfg := ⟨false, true, fun a => a == 2, fun a => a == 1, ks, fun _ => true, fun _ => 7⟩

/-- `count(), sum(x), min(x), max(x), avg(x)` -/
def all : QCfg := cfg [.count 20, .sum 10 21 false, .min 10 22 false, .max 10 23 false, .avg 10 24 25 26]

/-- records on two processes -/
def p1 : List (List QEnt) := [[.ref [(1, .string [2]), (1, .string [1])], .imm 2 (.int 5), .imm 10 (.int 4)], [.ref [(1, .string [1])], .imm 10 (.int 7)]]
/-- records of the second process -/
def p2 : List (List QEnt) := [[.ref [(1, .string [2]), (1, .string [1])], .imm 2 (.int 5), .imm 10 (.int 3)]]

/-- the hypotheses of the theorems hold for the example -/
theorem hyps : all.Mergeable ∧ all.IntMetrics [p1, p2].flatten ∧ (∀ p ∈ [p1, p2], all.RefsOk p) ∧ (∀ p ∈ [p1, p2], all.Raw p) := by
  refine ⟨⟨by decide, by decide, ?_, by decide⟩, ?_, ?_, ?_⟩
  · intro c hc
    simp only [all, cfg, List.mem_cons, List.not_mem_nil, or_false] at hc
    rcases hc with rfl | rfl | rfl | rfl | rfl <;> first | trivial | (show List.Nodup _; decide)
  · intro c hc
    left
    simp only [all, cfg, List.mem_cons, List.not_mem_nil, or_false] at hc
    rcases hc with rfl | rfl | rfl | rfl | rfl
    · exact ⟨[], by decide⟩
    · exact ⟨[4, 7, 3], by decide⟩
    · exact ⟨[4, 7, 3], by decide⟩
    · exact ⟨[4, 7, 3], by decide⟩
    · exact ⟨[4, 7, 3], by decide⟩
  · intro p hp r hr q hq
    simp only [List.mem_cons, List.not_mem_nil, or_false] at hp
    rcases hp with rfl | rfl
    · simp only [p1, List.mem_cons, List.not_mem_nil, or_false] at hr
      rcases hr with rfl | rfl
      · simp at hq; subst hq; decide
      · simp at hq; subst hq; decide
    · simp only [p2, List.mem_cons, List.not_mem_nil, or_false] at hr
      subst hr
      simp at hq; subst hq; decide
  · intro p hp
    simp only [List.mem_cons, List.not_mem_nil, or_false] at hp
    constructor
    · intro r hr e he c hc
      have key : e.attr = 1 ∨ e.attr = 2 ∨ e.attr = 10 := by
        rcases hp with rfl | rfl
        · simp only [p1, List.mem_cons, List.not_mem_nil, or_false] at hr
          rcases hr with rfl | rfl
          · simp only [List.mem_cons, List.not_mem_nil, or_false] at he
            rcases he with rfl | rfl | rfl <;> decide
          · simp only [List.mem_cons, List.not_mem_nil, or_false] at he
            rcases he with rfl | rfl <;> decide
        · simp only [p2, List.mem_cons, List.not_mem_nil, or_false] at hr
          subst hr
          simp only [List.mem_cons, List.not_mem_nil, or_false] at he
          rcases he with rfl | rfl | rfl <;> decide
      simp only [all, cfg, List.mem_cons, List.not_mem_nil, or_false] at hc
      rcases hc with rfl | rfl | rfl | rfl | rfl <;> simp only <;> omega
    · rcases hp with rfl | rfl <;> decide

/-- the merged result of the example -/
example : (QAgg.init.run ops all ([p1, p2].flatMap fun p => (QAgg.init.run ops all p).flush ops all)).flush ops all =
    [[.imm 2 (.int 5), .ref [(1, .string [2]), (1, .string [1])], .imm 20 (.uint 2), .imm 21 (.int 7), .imm 22 (.int 3), .imm 23 (.int 4),
        .imm 25 (.int 3), .imm 24 (.int 7), .imm 26 (.uint 2)],
     [.ref [(1, .string [1])], .imm 20 (.uint 1), .imm 21 (.int 7), .imm 22 (.int 7), .imm 23 (.int 7), .imm 25 (.int 7), .imm 24 (.int 7),
        .imm 26 (.uint 1)]] := by decide +kernel

/-- two records below each other -/
def nested : List (List QEnt) := [[.ref [(1, .string [2]), (1, .string [1])], .imm 10 (.int 4)]]

/-- the inclusive sum reported for the outer region -/
def outer (recs : List (List QEnt)) : List (List QEnt) := recs.filter fun r => decide (QEnt.ref [(1, .string [1])] ∈ r)

end QDemo

open QDemo in
/-- C30 fails for inclusive kernels: aggregating reported inclusive sums again adds the inner region's contribution to the outer
region a second time. -/
theorem C30_violation_inclusive :
    outer ((QAgg.init.run ops (cfg [.sum 10 21 true]) nested).flush ops (cfg [.sum 10 21 true])) =
      [[.ref [(1, .string [1])], .imm 21 (.int 4)]] ∧
    outer ((QAgg.init.run ops (cfg [.sum 10 21 true]) ((QAgg.init.run ops (cfg [.sum 10 21 true]) nested).flush ops (cfg [.sum 10 21 true]))).flush
      ops (cfg [.sum 10 21 true])) = [[.ref [(1, .string [1])], .imm 21 (.int 8)]] := by decide +kernel

open QDemo in
/-- C30 fails for counts together with inclusive kernels: the outer region, which has no record of its own, is counted once when
the reported records are aggregated again. -/
theorem C30_violation_count_inclusive :
    outer ((QAgg.init.run ops (cfg [.count 20, .max 10 21 true]) nested).flush ops (cfg [.count 20, .max 10 21 true])) =
      [[.ref [(1, .string [1])], .imm 21 (.int 4)]] ∧
    outer ((QAgg.init.run ops (cfg [.count 20, .max 10 21 true])
      ((QAgg.init.run ops (cfg [.count 20, .max 10 21 true]) nested).flush ops (cfg [.count 20, .max 10 21 true]))).flush
      ops (cfg [.count 20, .max 10 21 true])) = [[.ref [(1, .string [1])], .imm 20 (.uint 1), .imm 21 (.int 4)]] := by decide +kernel

open QDemo in
/-- C30 fails when a key attribute is also summed: the merged sum counts the key's value again. -/
theorem C30_violation_key_metric :
    (QAgg.init.run ops (cfg [.sum 2 21 false]) [[.imm 2 (.int 5)]]).flush ops (cfg [.sum 2 21 false]) = [[.imm 2 (.int 5), .imm 21 (.int 5)]] ∧
    (QAgg.init.run ops (cfg [.sum 2 21 false]) [[.imm 2 (.int 5), .imm 21 (.int 5)]]).flush ops (cfg [.sum 2 21 false]) =
      [[.imm 2 (.int 5), .imm 21 (.int 10)]] := by decide +kernel

open QDemo in
/-- C30 fails when a query names the same kernel twice: the merged sum counts both reported values. -/
theorem C30_violation_duplicate :
    (QAgg.init.run ops (cfg [.sum 10 21 false, .sum 10 21 false]) [[.imm 10 (.int 5)]]).flush ops (cfg [.sum 10 21 false, .sum 10 21 false]) =
      [[.imm 21 (.int 5), .imm 21 (.int 5)]] ∧
    (QAgg.init.run ops (cfg [.sum 10 21 false, .sum 10 21 false]) [[.imm 21 (.int 5), .imm 21 (.int 5)]]).flush ops
      (cfg [.sum 10 21 false, .sum 10 21 false]) = [[.imm 21 (.int 10), .imm 21 (.int 10)]] := by decide +kernel

open QDemo in
/-- C30 fails when the merging side does not know the metric attribute: reported sums are dropped. -/
theorem C30_violation_unknown_metric :
    (QAgg.init.run ops { cfg [.sum 10 21 false] with known := fun a => a != 10 } [[.imm 2 (.int 5), .imm 21 (.int 5)]]).flush ops
      { cfg [.sum 10 21 false] with known := fun a => a != 10 } = [[.imm 2 (.int 5)]] := by decide +kernel

open QDemo in
/-- the average is divided by the count modulo 2^32: with 2^32 + 1 values the reported average is the sum -/
theorem C30_violation_avg_count :
    (QAgg.init.run ops (cfg [.avg 10 24 25 26]) [[.imm 24 (.uint 8589934594), .imm 26 (.uint 4294967297)]]).flush ops (cfg [.avg 10 24 25 26]) =
      [[.imm 25 (.uint 8589934594), .imm 24 (.uint 8589934594), .imm 26 (.uint 4294967297)]] := by decide +kernel

/-- C30 (what sum, min, max and average compute): over integers the sum modulo 2^64, a smallest and a largest element (signed or unsigned);
over doubles the floating-point operation from left to right; the average of integers is the sum divided by the count, rounded towards zero. -/
theorem C30_arithmetic (O : FOps) (x : U64) (xs : List U64) :
    ((x :: xs).map Val.int).foldl (addVal O) .inv = .int (xs.foldl (· + ·) x) ∧
    ((x :: xs).map Val.uint).foldl (addVal O) .inv = .uint (xs.foldl (· + ·) x) ∧
    ((x :: xs).map Val.double).foldl (addVal O) .inv = .double (xs.foldl O.add x) ∧
    ((x :: xs).map Val.double).foldl (minVal O) .inv = .double (xs.foldl O.min x) ∧
    ((x :: xs).map Val.double).foldl (maxVal O) .inv = .double (xs.foldl O.max x) ∧
    (∃ m ∈ x :: xs, ((x :: xs).map Val.int).foldl (minVal O) .inv = .int m ∧ ∀ y ∈ x :: xs, m.toInt ≤ y.toInt) ∧
    (∃ m ∈ x :: xs, ((x :: xs).map Val.int).foldl (maxVal O) .inv = .int m ∧ ∀ y ∈ x :: xs, y.toInt ≤ m.toInt) ∧
    (∃ m ∈ x :: xs, ((x :: xs).map Val.uint).foldl (minVal O) .inv = .uint m ∧ ∀ y ∈ x :: xs, m.toNat ≤ y.toNat) ∧
    (∃ m ∈ x :: xs, ((x :: xs).map Val.uint).foldl (maxVal O) .inv = .uint m ∧ ∀ y ∈ x :: xs, y.toNat ≤ m.toNat) := by
  have fold : ∀ (f : Val → Val → Val) (C : U64 → Val) (g : U64 → U64 → U64), (∀ v, f .inv v = v) → (∀ a b, f (C a) (C b) = C (g a b)) →
      ∀ (xs : List U64) (x : U64), ((x :: xs).map C).foldl f .inv = C (xs.foldl g x) := by
    intro f C g h0 h1 xs x
    simp only [List.map_cons, List.foldl_cons, h0]
    induction xs generalizing x with
    | nil => rfl
    | cons y ys ih => simp only [List.map_cons, List.foldl_cons, h1]; exact ih _
  have ext : ∀ (g : U64 → U64 → U64) (le : U64 → U64 → Prop), (∀ a, le a a) → (∀ a b c, le a b → le b c → le a c) →
      (∀ a b, (g a b = a ∨ g a b = b) ∧ le (g a b) a ∧ le (g a b) b) →
      ∀ (xs : List U64) (x : U64), xs.foldl g x ∈ x :: xs ∧ ∀ y ∈ x :: xs, le (xs.foldl g x) y := by
    intro g le hr ht hg xs
    induction xs with
    | nil => intro x; simp [hr]
    | cons z zs ih =>
      intro x
      obtain ⟨i1, i2⟩ := ih (g x z)
      obtain ⟨g1, g2, g3⟩ := hg x z
      simp only [List.foldl_cons]
      have i0 := i2 (g x z) (by simp)
      refine ⟨?_, ?_⟩
      · rcases List.mem_cons.1 i1 with e | e
        · rw [e]; rcases g1 with g1 | g1 <;> rw [g1] <;> simp
        · simp [e]
      · intro y hy
        simp only [List.mem_cons] at hy
        rcases hy with rfl | rfl | hy
        · exact ht _ _ _ i0 g2
        · exact ht _ _ _ i0 g3
        · exact i2 y (by simp [hy])
  refine ⟨fold _ _ _ (fun v => by cases v <;> rfl) (fun _ _ => rfl) _ _, fold _ _ _ (fun v => by cases v <;> rfl) (fun _ _ => rfl) _ _,
    fold _ _ _ (fun v => by cases v <;> rfl) (fun _ _ => rfl) _ _, fold _ _ _ (fun v => by cases v <;> rfl) (fun _ _ => rfl) _ _,
    fold _ _ _ (fun v => by cases v <;> rfl) (fun _ _ => rfl) _ _, ?_, ?_, ?_, ?_⟩
  · obtain ⟨h1, h2⟩ := ext smin (fun a b => a.toInt ≤ b.toInt) (fun _ => Int.le_refl _) (fun _ _ _ => Int.le_trans)
      (fun a b => by unfold smin; split <;> simp <;> omega) xs x
    exact ⟨_, h1, fold _ _ _ (fun v => by cases v <;> rfl) (fun _ _ => rfl) _ _, h2⟩
  · obtain ⟨h1, h2⟩ := ext smax (fun a b => b.toInt ≤ a.toInt) (fun _ => Int.le_refl _) (fun _ _ _ h g => Int.le_trans g h)
      (fun a b => by unfold smax; split <;> simp <;> omega) xs x
    exact ⟨_, h1, fold _ _ _ (fun v => by cases v <;> rfl) (fun _ _ => rfl) _ _, h2⟩
  · obtain ⟨h1, h2⟩ := ext umin (fun a b => a.toNat ≤ b.toNat) (fun _ => Nat.le_refl _) (fun _ _ _ => Nat.le_trans)
      (fun a b => by unfold umin; split <;> simp <;> omega) xs x
    exact ⟨_, h1, fold _ _ _ (fun v => by cases v <;> rfl) (fun _ _ => rfl) _ _, h2⟩
  · obtain ⟨h1, h2⟩ := ext umax (fun a b => b.toNat ≤ a.toNat) (fun _ => Nat.le_refl _) (fun _ _ _ h g => Nat.le_trans g h)
      (fun a b => by unfold umax; split <;> simp <;> omega) xs x
    exact ⟨_, h1, fold _ _ _ (fun v => by cases v <;> rfl) (fun _ _ => rfl) _ _, h2⟩

/-- C30 (mixed types): the first value decides the type; a later value of another type is converted, and one the type cannot hold (a
negative number for an unsigned sum, an unsigned number of 2^63 or more for a signed one) counts as 0.  An average is the sum divided by the
count, rounded towards zero. -/
theorem C30_mixed_types (O : FOps) (a b : U64) (n : Nat) :
    addVal O (.int a) (.uint b) = .int (if b.toNat < 2 ^ 63 then a + b else a) ∧
    addVal O (.uint a) (.int b) = .uint (if b.toInt < 0 then a else a + b) ∧
    addVal O (.int a) (.double b) = .int (a + O.toInt b) ∧ addVal O (.uint a) (.double b) = .uint (a + O.toUint b) ∧
    addVal O (.double a) (.int b) = .double (O.add a (O.ofVal (.int b))) ∧
    maxVal O (.double a) (.int b) = .double (O.max a (O.ofVal (.int b))) ∧
    divU O (.int a) n = .int (BitVec.ofInt 64 (a.toInt.tdiv n)) ∧ divU O (.uint a) n = .uint (BitVec.ofNat 64 (a.toNat / n)) ∧
    divU O (.double a) n = .double (O.div a n) := by
  refine ⟨?_, ?_, rfl, rfl, rfl, rfl, rfl, rfl, rfl⟩
  · simp only [addVal, combine, toI64]
    by_cases h : b.toNat < 2 ^ 63
    · rw [if_pos (show b.toNat ≤ 9223372036854775807 by omega), if_pos h]
    · rw [if_neg (show ¬ b.toNat ≤ 9223372036854775807 by omega), if_neg h]; simp
  · simp only [addVal, combine, toU64]
    by_cases h : b.toInt < 0
    · rw [if_neg (show ¬ 0 ≤ b.toInt by omega), if_pos h]; simp
    · rw [if_pos (show 0 ≤ b.toInt by omega), if_neg h]

end Verif.Query
