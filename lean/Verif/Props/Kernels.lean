import Verif.Query.KernelsSpec
import Verif.Props.QueryAgg
/-! # C74 — ratio, scale, percent_total, any, count and variance kernels -/
namespace Verif.Query
open Verif Verif.Cali Verif.Agg

/-- C74 (reports): for every query with these kernels and every sequence of records, the aggregator reports one record per group; each
kernel reports what `XCfg.reports` says about the records of the group (and, for inclusive kernels, the records below it). -/
theorem C74_reports (O : XOps) (C : QCfg) (ks : List XCfg) (recs : List (List QEnt)) :
    ∃ keys : List (List KEnt), keys.Nodup ∧ (∀ K, K ∈ keys ↔ XPresent C ks recs K) ∧
      xreport O C ks recs = keys.map fun K => K.map KEnt.toQ ++ ks.flatMap (XCfg.reports O C recs K) := xreport_eq O C ks recs

/-- C74 (percentages): a group that all records belong to reports 100·T/T, where T is the total -/
theorem C74_percent_whole (O : XOps) (C : QCfg) (recs : List (List QEnt)) (K : List KEnt) (t d res : Nat)
    (hK : ∀ r ∈ recs, K = C.keyOf r ∨ C.below K r = true) (T : Val) (hT : sumOf O (recs.flatMap (matching C.known t d)) = T) (hn : T ≠ .inv)
    (hp : O.pos (O.ofVal T) = true) :
    QEnt.imm res (.double (O.fdiv (O.mul O.hundred (O.ofVal T)) (O.ofVal T))) ∈ (XCfg.pct t d res true).reports O C recs K := by
  have e : C.inGroup true K recs = recs := by
    unfold QCfg.inGroup
    rw [List.filter_eq_self]
    intro r hr
    rcases hK r hr with h | h
    · simp [h]
    · simp [h]
  simp only [XCfg.reports, e, hT]
  rw [if_pos ⟨hn, hp⟩]
  simp

/-! ## Reported values add up -/

/-- the attributes a kernel reads -/
def XCfg.reads : XCfg → List Nat
  | .ratio t1 d1 t2 d2 _ _ _ => [t1, d1, t2, d2]
  | .scale t d _ _ _ => [t, d]
  | .pct t d _ _ => [t, d]
  | .any t d => [t, d]
  | .scount c _ _ => [c]
  | .variance t _ cnt sum sq => [t, sum, sq, cnt]

/-- the attributes a kernel writes -/
def XCfg.writes : XCfg → List Nat
  | .ratio _ d1 _ d2 res _ _ => [d1, d2, res]
  | .scale _ d res _ _ => [d, res]
  | .pct _ d res _ => [d, res]
  | .any _ d => [d]
  | .scount c res _ => [c, res]
  | .variance _ res cnt sum sq => [res, sum, sq, cnt]

theorem shown_mem {d : Nat} {v : Val} {e : QEnt} (h : e ∈ shown d v) : e = .imm d v := by
  unfold shown at h
  split at h <;> simp_all

theorem reports_attr (O : XOps) (C : QCfg) (recs : List (List QEnt)) (K : List KEnt) (k : XCfg) :
    ∀ e ∈ k.reports O C recs K, ∃ a v, e = .imm a v ∧ a ∈ k.writes := by
  intro e he
  cases k with
  | ratio t1 d1 t2 d2 res f i =>
    simp only [XCfg.reports, List.mem_append] at he
    rcases he with (he | he) | he
    · exact ⟨_, _, shown_mem he, by simp [XCfg.writes]⟩
    · exact ⟨_, _, shown_mem he, by simp [XCfg.writes]⟩
    · split at he
      · simp at he; exact ⟨_, _, he, by simp [XCfg.writes]⟩
      · simp at he
  | scale t d res f i =>
    simp only [XCfg.reports, List.mem_append] at he
    rcases he with he | he
    · exact ⟨_, _, shown_mem he, by simp [XCfg.writes]⟩
    · split at he
      · simp at he; exact ⟨_, _, he, by simp [XCfg.writes]⟩
      · simp at he
  | pct t d res i =>
    simp only [XCfg.reports] at he
    split at he
    · simp at he
      rcases he with he | he <;> exact ⟨_, _, he, by simp [XCfg.writes]⟩
    · simp at he
  | any t d =>
    exact ⟨_, _, shown_mem he, by simp [XCfg.writes]⟩
  | scount c res f =>
    simp only [XCfg.reports] at he
    split at he
    · simp at he
    · simp only [List.mem_cons, List.not_mem_nil, or_false] at he
      rcases he with he | he <;> exact ⟨_, _, he, by simp [XCfg.writes]⟩
  | variance t res cnt sum sq =>
    simp only [XCfg.reports] at he
    by_cases hn : ((if C.known t = true then (C.inGroup false K recs).flatten else []).map
        fun e => (varContrib O t sum sq cnt e).2.2).sum % 4294967296 = 0
    · rw [if_pos hn] at he; simp at he
    · rw [if_neg hn] at he
      simp only [List.mem_cons, List.not_mem_nil, or_false] at he
      rcases he with he | he | he | he <;> exact ⟨_, _, he, by simp [XCfg.writes]⟩

theorem matching_irr (known : Nat → Bool) (t d : Nat) (l : List QEnt) (h : ∀ e ∈ l, e.attr ≠ t ∧ e.attr ≠ d) : matching known t d l = [] := by
  unfold matching
  split
  · rw [List.filterMap_eq_nil_iff]
    intro e he
    cases e with
    | ref p => rfl
    | imm a v => have := h _ he; simp only [QEnt.attr] at this; simp [this]
  · rfl

/-- key entries that can match -/
theorem matching_key (known : Nat → Bool) (t d : Nat) (K : List KEnt) (h : ∀ a v, KEnt.imm a v ∈ K → a ≠ t ∧ a ≠ d) :
    matching known t d (K.map KEnt.toQ) = [] := by
  unfold matching
  split
  · rw [List.filterMap_eq_nil_iff]
    intro e he
    obtain ⟨k, hk, rfl⟩ := List.mem_map.1 he
    cases k with
    | node p => rfl
    | imm a v => simp [KEnt.toQ, h a v hk]
  · rfl

theorem key_imm (C : QCfg) (r : List QEnt) {p : List (Nat × Val)} {a : Nat} {v : Val} (h : KEnt.imm a v ∈ C.preKey r ++ [.node p] ∨ KEnt.imm a v ∈ C.keyOf r) :
    C.isKey a = true := by
  have hpre : KEnt.imm a v ∈ C.preKey r → C.isKey a = true := by
    intro h
    unfold QCfg.preKey at h
    rcases List.mem_append.1 h with h | h
    · obtain ⟨x, hx, he⟩ := List.mem_map.1 h
      rw [List.mem_insertionSort] at hx
      cases he
      exact immKey_attr C r x hx
    · split at h <;> simp at h
  rcases h with h | h
  · rcases List.mem_append.1 h with h | h
    · exact hpre h
    · simp at h
  · unfold QCfg.keyOf mkKey at h
    split at h
    · exact hpre h
    · rcases List.mem_append.1 h with h | h
      · exact hpre h
      · simp at h

theorem present_imm {C : QCfg} {ks : List XCfg} {recs : List (List QEnt)} {K : List KEnt} (h : XPresent C ks recs K) {a : Nat} {v : Val}
    (hm : KEnt.imm a v ∈ K) : C.isKey a = true := by
  obtain ⟨r, _, h | ⟨h, _⟩⟩ := h
  · exact key_imm C r (p := []) (.inr (h ▸ hm))
  · obtain ⟨p, _, hp⟩ := of_decide_eq_true h
    exact key_imm C r (.inl (hp ▸ hm))

theorem sumOf_eq (O : XOps) (vs : List Val) : sumOf O vs = vs.foldl ((KCfg.sum 0 0 false).op O.toFOps) .inv := rfl

theorem sumOf_perm (O : XOps) {vs ws : List Val} (h : vs.Perm ws) (hv : Homog vs) : sumOf O vs = sumOf O ws := by
  rw [sumOf_eq, sumOf_eq]
  exact foldl_perm O.toFOps _ (by simp) h hv

theorem sumOf_enc (O : XOps) {T : U64 → Val} {f : U64 → U64 → U64} (h : OpIs (addVal O.toFOps) T f) (xs : List U64) :
    sumOf O (xs.map T) = enc T (total f xs) := by
  have := foldl_enc h xs none
  simp only [enc] at this
  exact this

/-- the operations on integers -/
theorem add_is (O : XOps) : OpIs (addVal O.toFOps) .int (· + ·) ∧ OpIs (addVal O.toFOps) .uint (· + ·) := op_is O.toFOps (.sum 0 0 false) (by simp)

/-- collapsing a list of integers into its sum, if there is one -/
theorem collapse_map (O : XOps) {T : U64 → Val} {f : U64 → U64 → U64} (h : OpIs (addVal O.toFOps) T f) (ly : List U64) :
    ∃ zs : List U64, (if sumOf O (ly.map T) = .inv then [] else [sumOf O (ly.map T)]) = zs.map T ∧ total f zs = total f ly := by
  rw [sumOf_enc O h]
  cases ht : total f ly with
  | none => exact ⟨[], by simp [enc], rfl⟩
  | some t => exact ⟨[t], by simp [enc, h.ne], by simp [total, optM]⟩

/-- collapsing groups of integers into their sums -/
theorem groups_map (O : XOps) {α : Type} (Y : α → List Val) {T : U64 → Val} {f : U64 → U64 → U64} (h : OpIs (addVal O.toFOps) T f)
    (keys : List α) : ∀ (xs : List U64), keys.flatMap Y = xs.map T →
      ∃ zs : List U64, (keys.flatMap fun K => if sumOf O (Y K) = .inv then [] else [sumOf O (Y K)]) = zs.map T ∧ total f zs = total f xs := by
  induction keys with
  | nil => intro xs hx; simp at hx; subst hx; exact ⟨[], rfl, rfl⟩
  | cons K keys ih =>
    intro xs hx
    rw [List.flatMap_cons] at hx
    obtain ⟨ly, lr, rfl, hy, hr⟩ := List.map_eq_append_iff.1 hx.symm
    obtain ⟨z1, e1, t1⟩ := collapse_map O h ly
    obtain ⟨z2, e2, t2⟩ := ih lr hr.symm
    refine ⟨z1 ++ z2, ?_, ?_⟩
    · rw [List.flatMap_cons, e2, ← hy, e1, List.map_append]
    · rw [total_append h, total_append h, t1, t2]

/-- replacing groups of values by their sums does not change the sum -/
theorem sumOf_groups' (O : XOps) {α : Type} (keys : List α) (Y : α → List Val) (A B : List Val) (hh : Homog (A ++ keys.flatMap Y ++ B)) :
    sumOf O (A ++ (keys.flatMap fun K => if sumOf O (Y K) = .inv then [] else [sumOf O (Y K)]) ++ B) = sumOf O (A ++ keys.flatMap Y ++ B) := by
  have key : ∀ (T : U64 → Val) (f : U64 → U64 → U64), OpIs (addVal O.toFOps) T f → ∀ xs : List U64, A ++ keys.flatMap Y ++ B = xs.map T →
      sumOf O (A ++ (keys.flatMap fun K => if sumOf O (Y K) = .inv then [] else [sumOf O (Y K)]) ++ B) = sumOf O (A ++ keys.flatMap Y ++ B) := by
    intro T f h xs hx
    obtain ⟨l1, lb, _, h1, hb⟩ := List.map_eq_append_iff.1 hx.symm
    obtain ⟨la, ly, _, ha, hy⟩ := List.map_eq_append_iff.1 h1
    subst hb
    subst ha
    obtain ⟨z, e, t⟩ := groups_map O Y h keys ly hy.symm
    rw [e, ← hy, ← List.map_append, ← List.map_append, ← List.map_append, ← List.map_append, sumOf_enc O h, sumOf_enc O h,
      total_append h, total_append h, total_append h, total_append h, t]
  rcases hh with ⟨xs, hx⟩ | ⟨xs, hx⟩
  · exact key _ _ (add_is O).1 xs hx
  · exact key _ _ (add_is O).2 xs hx

/-- the sum of the sums of the groups -/
theorem sumOf_groups (O : XOps) {α : Type} (keys : List α) (Y : α → List Val) (hh : Homog (keys.flatMap Y)) :
    sumOf O (keys.flatMap fun K => if sumOf O (Y K) = .inv then [] else [sumOf O (Y K)]) = sumOf O (keys.flatMap Y) := by
  have := sumOf_groups' O keys Y [] [] (by simpa using hh)
  simpa using this

/-- replacing a part of the values by its sum does not change the sum -/
theorem sumOf_collapse (O : XOps) (A Y B : List Val) (hh : Homog (A ++ Y ++ B)) :
    sumOf O (A ++ (if sumOf O Y = .inv then [] else [sumOf O Y]) ++ B) = sumOf O (A ++ Y ++ B) := by
  have := sumOf_groups' O [()] (fun _ => Y) A B (by simpa using hh)
  simpa using this

/-- a list is the concatenation of its groups -/
theorem perm_groups {α β : Type} [DecidableEq β] (g : α → β) (keys : List β) (hn : keys.Nodup) (l : List α) (h : ∀ x ∈ l, g x ∈ keys) :
    (keys.flatMap fun K => l.filter fun x => decide (K = g x)).Perm l := by
  induction keys generalizing l with
  | nil =>
    cases l with
    | nil => exact .nil
    | cons x l => simpa using h x (by simp)
  | cons K keys ih =>
    obtain ⟨hK, hn'⟩ := List.nodup_cons.1 hn
    rw [List.flatMap_cons]
    have hsplit := List.filter_append_perm (fun x => decide (K = g x)) l
    have h2 := ih hn' (l.filter fun x => !decide (K = g x)) (by
      intro x hx
      simp only [List.mem_filter, Bool.not_eq_true', decide_eq_false_iff_not] at hx
      rcases List.mem_cons.1 (h x hx.1) with h' | h'
      · exact absurd h'.symm hx.2
      · exact h')
    have e : (keys.flatMap fun K' => (l.filter fun x => !decide (K = g x)).filter fun x => decide (K' = g x)) =
        keys.flatMap fun K' => l.filter fun x => decide (K' = g x) := by
      rw [List.flatMap_def, List.flatMap_def]
      congr 1
      apply List.map_congr_left
      intro K' hK'
      rw [List.filter_filter]
      apply List.filter_congr
      intro x _
      by_cases hx : K' = g x
      · have : K ≠ g x := by rintro h; exact hK (h ▸ hx ▸ hK')
        simp [hx, this]
      · simp [hx]
    rw [e] at h2
    exact (h2.append_left _).trans hsplit

/-- adding an empty value changes nothing -/
theorem add_inv (O : XOps) (v : Val) (h : v = .inv ∨ (∃ x, v = .int x) ∨ ∃ x, v = .uint x) : addVal O.toFOps v .inv = v := by
  rcases h with rfl | ⟨x, rfl⟩ | ⟨x, rfl⟩
  · rfl
  · simp [addVal, combine, toI64]
  · simp [addVal, combine, toU64]

/-- empty values do not matter -/
theorem sumOf_skip (O : XOps) (l : List Val) (h : ∀ v ∈ l, v = .inv ∨ (∃ x, v = .int x) ∨ ∃ x, v = .uint x) :
    sumOf O l = sumOf O (l.filter (· ≠ .inv)) := by
  have key : ∀ (l : List Val) (a : Val), (∀ v ∈ l, v = .inv ∨ (∃ x, v = .int x) ∨ ∃ x, v = .uint x) →
      (a = .inv ∨ (∃ x, a = .int x) ∨ ∃ x, a = .uint x) →
      l.foldl (addVal O.toFOps) a = (l.filter (· ≠ .inv)).foldl (addVal O.toFOps) a := by
    intro l
    induction l with
    | nil => intros; rfl
    | cons v l ih =>
      intro a hl ha
      have hl' := fun w hw => hl w (List.mem_cons_of_mem _ hw)
      by_cases hv : v = .inv
      · subst hv
        rw [List.foldl_cons, add_inv O a ha, ih a hl' ha]
        simp
      · have e : (v :: l).filter (· ≠ .inv) = v :: l.filter (· ≠ .inv) := by simp [hv]
        rw [e, List.foldl_cons, List.foldl_cons]
        apply ih _ hl'
        rcases ha with rfl | ⟨x, rfl⟩ | ⟨x, rfl⟩
        · rcases hl v (by simp) with rfl | h
          · exact absurd rfl hv
          · right
            rcases h with ⟨y, rfl⟩ | ⟨y, rfl⟩
            · exact .inl ⟨y, rfl⟩
            · exact .inr ⟨y, rfl⟩
        · right; left
          rcases hl v (by simp) with rfl | ⟨y, rfl⟩ | ⟨y, rfl⟩ <;> exact ⟨_, rfl⟩
        · right; right
          rcases hl v (by simp) with rfl | ⟨y, rfl⟩ | ⟨y, rfl⟩ <;> exact ⟨_, rfl⟩
  exact key l .inv h (.inl rfl)

/-- sums of integers are integers -/
theorem sumOf_int (O : XOps) {vs : List Val} (h : Homog vs) : (sumOf O vs = .inv ∧ vs = []) ∨ (vs ≠ [] ∧ ∃ x, sumOf O vs = .int x) ∨
    (vs ≠ [] ∧ ∃ x, sumOf O vs = .uint x) := by
  rcases h with ⟨xs, rfl⟩ | ⟨xs, rfl⟩
  · rw [sumOf_enc O (add_is O).1]
    cases xs with
    | nil => exact .inl ⟨rfl, rfl⟩
    | cons x xs =>
      right; left
      refine ⟨by simp, ?_⟩
      simp only [total, List.foldr_cons]
      cases (List.foldr (fun x o => optM (· + ·) (some x) o) none xs) <;> exact ⟨_, rfl⟩
  · rw [sumOf_enc O (add_is O).2]
    cases xs with
    | nil => exact .inl ⟨rfl, rfl⟩
    | cons x xs =>
      right; right
      refine ⟨by simp, ?_⟩
      simp only [total, List.foldr_cons]
      cases (List.foldr (fun x o => optM (· + ·) (some x) o) none xs) <;> exact ⟨_, rfl⟩

/-- C74 (percentages): for integer metrics with a positive total, the sums that a percentage kernel reports for the groups add up to the
total of the metric over all records, also for the inclusive kernel. -/
theorem C74_percent_adds_up (O : XOps) (C : QCfg) (ks1 ks2 : List XCfg) (recs : List (List QEnt)) (t d res : Nat) (i : Bool)
    (hh : Homog (recs.flatMap (matching C.known t d))) (hp : O.pos (O.ofVal (sumOf O (recs.flatMap (matching C.known t d)))) = true)
    (hkey : C.isKey t = false ∧ C.isKey d = false) (htd : res ≠ t ∧ res ≠ d)
    (hks : ∀ k ∈ ks1 ++ ks2, t ∉ k.writes ∧ d ∉ k.writes) :
    sumOf O ((xreport O C (ks1 ++ .pct t d res i :: ks2) recs).flatMap (matching C.known t d)) =
      sumOf O (recs.flatMap (matching C.known t d)) := by
  obtain ⟨keys, hnd, hmem, hrep⟩ := xreport_eq O C (ks1 ++ .pct t d res i :: ks2) recs
  obtain ⟨k1, _⟩ := hkey
  by_cases hk : C.known t = true
  swap
  · have : ∀ l : List (List QEnt), l.flatMap (matching C.known t d) = [] := by
      intro l; simp [matching, hk]
    rw [this, this]
  have hirr : ∀ ks : List XCfg, (∀ k ∈ ks, t ∉ k.writes ∧ d ∉ k.writes) → ∀ K, matching C.known t d (ks.flatMap (XCfg.reports O C recs K)) = [] := by
    intro ks h K
    apply matching_irr
    intro e he
    obtain ⟨k, hk, he⟩ := List.mem_flatMap.1 he
    obtain ⟨a, v, rfl, ha⟩ := reports_attr O C recs K k e he
    simp only [QEnt.attr]
    exact ⟨fun h' => (h k hk).1 (h' ▸ ha), fun h' => (h k hk).2 (h' ▸ ha)⟩
  -- the own sums
  let Y : List KEnt → List Val := fun K => (C.inGroup false K recs).flatMap (matching C.known t d)
  have hrow : ∀ K ∈ keys, matching C.known t d (K.map KEnt.toQ ++ (ks1 ++ .pct t d res i :: ks2).flatMap (XCfg.reports O C recs K)) =
      if sumOf O ((C.inGroup i K recs).flatMap (matching C.known t d)) = .inv then [] else [sumOf O (Y K)] := by
    intro K hK
    rw [matching_append, matching_key C.known t d K (fun a v ha => by
      have := present_imm ((hmem K).1 hK) ha
      exact ⟨by rintro rfl; simp_all, by rintro rfl; simp_all⟩)]
    rw [List.flatMap_append, List.flatMap_cons, matching_append, matching_append,
      hirr ks1 (fun k hk => hks k (List.mem_append_left _ hk)), hirr ks2 (fun k hk => hks k (List.mem_append_right _ hk))]
    simp only [List.nil_append, List.append_nil, XCfg.reports, hp, and_true, ne_eq]
    split
    · rename_i h
      simp [matching, hk, htd, h, Y]
    · rename_i h
      simp at h
      simp [matching, h]
  have hperm : (keys.flatMap Y).Perm (recs.flatMap (matching C.known t d)) := by
    have := perm_groups C.keyOf keys hnd recs (fun r hr => (hmem _).2 ⟨r, hr, .inl rfl⟩)
    have h2 := this.flatMap_right (matching C.known t d)
    rw [List.flatMap_assoc] at h2
    refine (List.Perm.of_eq ?_).trans h2
    rw [List.flatMap_def, List.flatMap_def]
    congr 1
    apply List.map_congr_left
    intro K _
    simp only [Y, QCfg.inGroup, Bool.false_and, Bool.or_false]
  have hY : ∀ K, Homog (Y K) := by
    intro K
    refine hh.of_subset ?_
    intro v hv
    obtain ⟨r, hr, hv⟩ := List.mem_flatMap.1 hv
    exact List.mem_flatMap.2 ⟨r, List.mem_of_mem_filter hr, hv⟩
  have hI : ∀ K, sumOf O ((C.inGroup i K recs).flatMap (matching C.known t d)) = .inv → sumOf O (Y K) = .inv := by
    intro K hK
    have hg : Homog ((C.inGroup i K recs).flatMap (matching C.known t d)) := by
      refine hh.of_subset ?_
      intro v hv
      obtain ⟨r, hr, hv⟩ := List.mem_flatMap.1 hv
      exact List.mem_flatMap.2 ⟨r, List.mem_of_mem_filter hr, hv⟩
    rcases sumOf_int O hg with ⟨_, h⟩ | ⟨_, x, h⟩ | ⟨_, x, h⟩
    · have : Y K = [] := by
        simp only [Y, List.flatMap_eq_nil_iff] at h ⊢
        intro r hr
        apply h
        simp only [QCfg.inGroup, List.mem_filter, Bool.false_and, Bool.or_false] at hr ⊢
        exact ⟨hr.1, by simp [hr.2]⟩
      rw [this]; rfl
    · rw [hK] at h; cases h
    · rw [hK] at h; cases h
  rw [hrep, List.flatMap_map]
  have e1 : (keys.flatMap fun K => matching C.known t d (K.map KEnt.toQ ++ (ks1 ++ .pct t d res i :: ks2).flatMap (XCfg.reports O C recs K))) =
      keys.flatMap fun K => if sumOf O ((C.inGroup i K recs).flatMap (matching C.known t d)) = .inv then [] else [sumOf O (Y K)] := by
    rw [List.flatMap_def, List.flatMap_def]
    congr 1
    exact List.map_congr_left hrow
  rw [e1, sumOf_skip]
  · have e2 : (keys.flatMap fun K => if sumOf O ((C.inGroup i K recs).flatMap (matching C.known t d)) = .inv then [] else [sumOf O (Y K)]).filter
        (· ≠ .inv) = keys.flatMap fun K => if sumOf O (Y K) = .inv then [] else [sumOf O (Y K)] := by
      rw [List.filter_flatMap, List.flatMap_def, List.flatMap_def]
      congr 1
      apply List.map_congr_left
      intro K _
      by_cases h1 : sumOf O (Y K) = .inv
      · by_cases h2 : sumOf O ((C.inGroup i K recs).flatMap (matching C.known t d)) = .inv <;> simp [h1, h2]
      · have h2 : ¬ sumOf O ((C.inGroup i K recs).flatMap (matching C.known t d)) = .inv := fun h => h1 (hI K h)
        simp [h1, h2]
    rw [e2, sumOf_groups O keys Y (hh.of_subset (fun v hv => hperm.mem_iff.1 hv)), sumOf_perm O hperm (hh.of_subset (fun v hv => hperm.mem_iff.1 hv))]
  · intro v hv
    obtain ⟨K, _, hv⟩ := List.mem_flatMap.1 hv
    split at hv
    · simp at hv
    · simp at hv
      subst hv
      rcases sumOf_int O (hY K) with ⟨h, _⟩ | ⟨_, h⟩ | ⟨_, h⟩
      · exact .inl h
      · exact .inr (.inl h)
      · exact .inr (.inr h)

/-! ## Merging partial results -/

/-- a kernel's own attributes are distinct -/
def XCfg.ownOk : XCfg → Prop
  | .ratio t1 d1 t2 d2 res _ _ => [t1, d1, t2, d2, res].Nodup
  | .scale t d res _ _ => res ≠ t ∧ res ≠ d
  | .pct t d res _ => res ≠ t ∧ res ≠ d
  | .any _ _ => True
  | .scount _ _ _ => True
  | .variance _ _ _ _ _ => False

/-- queries whose partial results can be merged: no inclusive and no variance kernels, no kernel reads what another one writes, and no
kernel attribute is a key -/
structure XMergeable (C : QCfg) (ks : List XCfg) : Prop where
  noincl : ∀ k ∈ ks, k.incl = false
  own : ∀ k ∈ ks, k.ownOk
  pair : ks.Pairwise fun k k' => (∀ a ∈ k.writes, a ∉ k'.reads) ∧ (∀ a ∈ k'.writes, a ∉ k.reads)
  key : ∀ k ∈ ks, ∀ a ∈ k.reads ++ k.writes, C.isKey a = false

/-- the values of a metric are integers of one type -/
def XCfg.intMetric (C : QCfg) (recs : List (List QEnt)) : XCfg → Prop
  | .ratio t1 d1 t2 d2 _ _ _ => Homog (recs.flatMap (matching C.known t1 d1)) ∧ Homog (recs.flatMap (matching C.known t2 d2))
  | .scale t d _ _ _ => Homog (recs.flatMap (matching C.known t d))
  | .pct t d _ _ => Homog (recs.flatMap (matching C.known t d))
  | _ => True

/-- in the part: percentages have a positive total if there are values, counts do not wrap around to zero, and the counter's attribute is
not used for context tree nodes -/
def XCfg.partOk (O : XOps) (C : QCfg) (part : List (List QEnt)) : XCfg → Prop
  | .pct t d _ _ => part.flatMap (matching C.known t d) ≠ [] → O.pos (O.ofVal (sumOf O (part.flatMap (matching C.known t d)))) = true
  | .scount c _ _ => (∀ r ∈ part, ((C.inGroup false (C.keyOf r) part).map (countOf O.toFOps c)).sum ≠ 0) ∧
      ∀ r ∈ part, ∀ p, QEnt.ref p ∈ r → ∀ x ∈ p, x.1 ≠ c
  | _ => True

theorem xpresent_noincl {C : QCfg} {ks : List XCfg} (h : ∀ k ∈ ks, k.incl = false) (recs : List (List QEnt)) (K : List KEnt) :
    XPresent C ks recs K ↔ ∃ r ∈ recs, K = C.keyOf r := by
  unfold XPresent
  constructor
  · rintro ⟨r, hr, h' | ⟨_, k, hk, hp⟩⟩
    · exact ⟨r, hr, h'⟩
    · have := h k hk
      cases k <;> simp_all [XCfg.incl, XCfg.propagates]
  · rintro ⟨r, hr, h'⟩
    exact ⟨r, hr, .inl h'⟩

theorem inGroup_append (C : QCfg) (i : Bool) (K : List KEnt) (l m : List (List QEnt)) : C.inGroup i K (l ++ m) = C.inGroup i K l ++ C.inGroup i K m := by
  unfold QCfg.inGroup; rw [List.filter_append]

/-- key of a reported record -/
theorem xkey_report (C : QCfg) (r rs : List QEnt) (hrs : ∀ e ∈ rs, ∃ a v, e = .imm a v ∧ C.isKey a = false) :
    C.keyOf ((C.keyOf r).map KEnt.toQ ++ rs) = C.keyOf r :=
  keyOf_report ⟨fun a _ => a, fun a _ => a, fun a _ => a, fun a _ => a, fun _ => 0, id, id⟩ { C with kernels := [] }
    ⟨by simp, by simp, by simp, by simp⟩ r rs hrs

/-- what a record reported for group `K` contains for kernel `k` -/
theorem xreport_split (O : XOps) {C : QCfg} {ks : List XCfg} (hm : XMergeable C ks) (recs : List (List QEnt)) (K : List KEnt) {k : XCfg} (hk : k ∈ ks) :
    ∃ l n, ks.flatMap (XCfg.reports O C recs K) = l ++ k.reports O C recs K ++ n ∧ (∀ e ∈ l ++ n, e.attr ∉ k.reads) := by
  obtain ⟨A, B, hAB⟩ := List.append_of_mem hk
  have hp := hm.pair
  rw [hAB, List.pairwise_append, List.pairwise_cons] at hp
  refine ⟨A.flatMap (XCfg.reports O C recs K), B.flatMap (XCfg.reports O C recs K), by rw [hAB]; simp, ?_⟩
  intro e he
  rcases List.mem_append.1 he with he | he
  · obtain ⟨c, hc, he⟩ := List.mem_flatMap.1 he
    obtain ⟨a, v, rfl, ha⟩ := reports_attr O C recs K c e he
    exact (hp.2.2 c hc k (by simp)).1 _ ha
  · obtain ⟨c, hc, he⟩ := List.mem_flatMap.1 he
    obtain ⟨a, v, rfl, ha⟩ := reports_attr O C recs K c e he
    exact (hp.2.1.1 c hc).2 _ ha

theorem xmatch (O : XOps) {C : QCfg} {ks : List XCfg} (hm : XMergeable C ks) (recs : List (List QEnt)) {K : List KEnt} {k : XCfg} (hk : k ∈ ks)
    (hK : XPresent C ks recs K) {t d : Nat} (ht : t ∈ k.reads) (hd : d ∈ k.reads) :
    matching C.known t d (K.map KEnt.toQ ++ ks.flatMap (XCfg.reports O C recs K)) = matching C.known t d (k.reports O C recs K) := by
  obtain ⟨l, n, he, hln⟩ := xreport_split O hm recs K hk
  have hkey : ∀ a ∈ k.reads, C.isKey a = false := fun a ha => hm.key k hk a (List.mem_append_left _ ha)
  have hir : ∀ m, (∀ e ∈ m, e ∈ l ++ n) → matching C.known t d m = [] := by
    intro m h
    apply matching_irr
    intro e he
    have := hln e (h e he)
    exact ⟨fun h => this (h ▸ ht), fun h => this (h ▸ hd)⟩
  rw [matching_append, he, matching_append, matching_append, matching_key C.known t d K (fun a v ha => by
      have := present_imm hK ha
      exact ⟨(by rintro rfl; rw [hkey _ ht] at this; cases this), (by rintro rfl; rw [hkey _ hd] at this; cases this)⟩),
    hir l (fun e he => List.mem_append_left _ he), hir n (fun e he => List.mem_append_right _ he)]
  simp

/-- the reported records of a group -/
theorem xreport_group (O : XOps) {C : QCfg} {ks : List XCfg} (hm : XMergeable C ks) (recs : List (List QEnt)) {keys : List (List KEnt)}
    (hnd : keys.Nodup) (hmem : ∀ K, K ∈ keys ↔ XPresent C ks recs K) (K : List KEnt) :
    C.inGroup false K (keys.map fun K => K.map KEnt.toQ ++ ks.flatMap (XCfg.reports O C recs K)) =
      if K ∈ keys then [K.map KEnt.toQ ++ ks.flatMap (XCfg.reports O C recs K)] else [] := by
  have hkey : ∀ K ∈ keys, C.keyOf (K.map KEnt.toQ ++ ks.flatMap (XCfg.reports O C recs K)) = K := by
    intro K hK
    obtain ⟨r, _, rfl⟩ := (xpresent_noincl hm.noincl recs K).1 ((hmem K).1 hK)
    apply xkey_report
    intro e he
    obtain ⟨k, hk, he⟩ := List.mem_flatMap.1 he
    obtain ⟨a, v, rfl, ha⟩ := reports_attr O C recs _ k e he
    exact ⟨a, v, rfl, hm.key k hk a (List.mem_append_right _ ha)⟩
  unfold QCfg.inGroup
  rw [List.filter_map]
  have e : keys.filter ((fun r => decide (K = C.keyOf r) || (false && C.below K r)) ∘
      fun K => K.map KEnt.toQ ++ ks.flatMap (XCfg.reports O C recs K)) = keys.filter (fun k => decide (K = k)) := by
    apply List.filter_congr
    intro K' hK'
    simp [hkey K' hK']
  rw [e, filter_eq_key keys hnd]
  split <;> simp

theorem own_nil {C : QCfg} {ks : List XCfg} (hm : XMergeable C ks) {recs : List (List QEnt)} {K : List KEnt} (h : ¬ XPresent C ks recs K) :
    C.inGroup false K recs = [] := by
  unfold QCfg.inGroup
  rw [List.filter_eq_nil_iff]
  intro r hr hc
  simp only [Bool.false_and, Bool.or_false, decide_eq_true_eq] at hc
  exact h ((xpresent_noincl hm.noincl recs K).2 ⟨r, hr, hc⟩)

/-- sums survive the merge -/
theorem merge_sum (O : XOps) {C : QCfg} {ks : List XCfg} (hm : XMergeable C ks) (xs ys zs : List (List QEnt)) {keys : List (List KEnt)}
    (hnd : keys.Nodup) (hmem : ∀ K, K ∈ keys ↔ XPresent C ks ys K) {k : XCfg} (hk : k ∈ ks) {t d : Nat} (ht : t ∈ k.reads) (hd : d ∈ k.reads)
    (hh : Homog ((xs ++ ys ++ zs).flatMap (matching C.known t d)))
    (hrow : ∀ K ∈ keys, matching C.known t d (k.reports O C ys K) =
      if sumOf O ((C.inGroup false K ys).flatMap (matching C.known t d)) = .inv then []
      else [sumOf O ((C.inGroup false K ys).flatMap (matching C.known t d))]) :
    (∀ K, sumOf O ((C.inGroup false K (xs ++ (keys.map fun K => K.map KEnt.toQ ++ ks.flatMap (XCfg.reports O C ys K)) ++ zs)).flatMap
        (matching C.known t d)) = sumOf O ((C.inGroup false K (xs ++ ys ++ zs)).flatMap (matching C.known t d))) ∧
    sumOf O ((xs ++ (keys.map fun K => K.map KEnt.toQ ++ ks.flatMap (XCfg.reports O C ys K)) ++ zs).flatMap (matching C.known t d)) =
      sumOf O ((xs ++ ys ++ zs).flatMap (matching C.known t d)) := by
  constructor
  · intro K
    simp only [inGroup_append, List.flatMap_append, xreport_group O hm ys hnd hmem]
    have hg : Homog ((C.inGroup false K xs).flatMap (matching C.known t d) ++ (C.inGroup false K ys).flatMap (matching C.known t d) ++
        (C.inGroup false K zs).flatMap (matching C.known t d)) := by
      rw [← List.flatMap_append, ← List.flatMap_append, ← inGroup_append, ← inGroup_append]
      refine hh.of_subset ?_
      intro v hv
      obtain ⟨r, hr, hv⟩ := List.mem_flatMap.1 hv
      exact List.mem_flatMap.2 ⟨r, List.mem_of_mem_filter hr, hv⟩
    by_cases hK : K ∈ keys
    · rw [if_pos hK]
      simp only [List.flatMap_cons, List.flatMap_nil, List.append_nil]
      rw [xmatch O hm ys hk ((hmem K).1 hK) ht hd, hrow K hK, sumOf_collapse O _ _ _ hg]
    · rw [if_neg hK, own_nil hm (fun h => hK ((hmem K).2 h))]
  · have hperm : (keys.flatMap fun K => (C.inGroup false K ys).flatMap (matching C.known t d)).Perm (ys.flatMap (matching C.known t d)) := by
      have := perm_groups C.keyOf keys hnd ys (fun r hr => (hmem _).2 ⟨r, hr, .inl rfl⟩)
      have h2 := this.flatMap_right (matching C.known t d)
      rw [List.flatMap_assoc] at h2
      refine (List.Perm.of_eq ?_).trans h2
      simp only [QCfg.inGroup, Bool.false_and, Bool.or_false]
    have e1 : (keys.flatMap fun K => matching C.known t d (K.map KEnt.toQ ++ ks.flatMap (XCfg.reports O C ys K))) =
        keys.flatMap fun K => if sumOf O ((C.inGroup false K ys).flatMap (matching C.known t d)) = .inv then []
          else [sumOf O ((C.inGroup false K ys).flatMap (matching C.known t d))] := by
      rw [List.flatMap_def, List.flatMap_def]
      congr 1
      apply List.map_congr_left
      intro K hK
      rw [xmatch O hm ys hk ((hmem K).1 hK) ht hd, hrow K hK]
    simp only [List.flatMap_append, List.flatMap_map] at hh ⊢
    rw [e1]
    have hp2 := ((hperm.append_left (xs.flatMap (matching C.known t d))).append_right (zs.flatMap (matching C.known t d)))
    have hh2 : Homog (xs.flatMap (matching C.known t d) ++ (keys.flatMap fun K => (C.inGroup false K ys).flatMap (matching C.known t d)) ++
        zs.flatMap (matching C.known t d)) := hh.of_subset (fun v hv => hp2.mem_iff.1 hv)
    rw [sumOf_groups' O keys (fun K => (C.inGroup false K ys).flatMap (matching C.known t d)) _ _ hh2]
    exact sumOf_perm O hp2 hh2

theorem matching_shown_hit (known : Nat → Bool) {t d : Nat} (hk : known t = true) (v : Val) :
    matching known t d (shown d v) = if v = .inv then [] else [v] := by
  unfold shown matching
  by_cases hv : v = .inv <;> simp [hk, hv]

theorem matching_unknown (known : Nat → Bool) {t d : Nat} (hk : known t = false) (l : List QEnt) : matching known t d l = [] := by
  simp [matching, hk]

theorem matching_shown_miss (known : Nat → Bool) {t d a : Nat} (h : a ≠ t ∧ a ≠ d) (v : Val) : matching known t d (shown a v) = [] := by
  apply matching_irr
  intro e he
  rw [shown_mem he]
  exact h

theorem sumOf_nil_unknown (O : XOps) (known : Nat → Bool) {t d : Nat} (hk : known t = false) (l : List (List QEnt)) :
    sumOf O (l.flatMap (matching known t d)) = .inv := by
  have : l.flatMap (matching known t d) = [] := by simp [matching, hk]
  rw [this]; rfl

theorem merge_reports (O : XOps) {C : QCfg} {ks : List XCfg} (hm : XMergeable C ks) (xs ys zs : List (List QEnt)) {keys : List (List KEnt)}
    (hnd : keys.Nodup) (hmem : ∀ K, K ∈ keys ↔ XPresent C ks ys K) {k : XCfg} (hk : k ∈ ks) (hi : k.intMetric C (xs ++ ys ++ zs))
    (hp : k.partOk O C ys) (K : List KEnt) :
    k.reports O C (xs ++ (keys.map fun K => K.map KEnt.toQ ++ ks.flatMap (XCfg.reports O C ys K)) ++ zs) K = k.reports O C (xs ++ ys ++ zs) K := by
  have hown := hm.own k hk
  have hinc := hm.noincl k hk
  cases k with
  | ratio t1 d1 t2 d2 res f i =>
    simp only [XCfg.incl] at hinc
    subst hinc
    simp only [XCfg.ownOk, List.nodup_cons, List.mem_cons, List.not_mem_nil, or_false, not_or, not_false_eq_true, List.nodup_nil, and_true] at hown
    obtain ⟨⟨a1, a2, a3, a4⟩, ⟨b1, b2, b3⟩, ⟨c1, c2⟩, e1⟩ := hown
    have r1 := (merge_sum O hm xs ys zs hnd hmem hk (t := t1) (d := d1) (by simp [XCfg.reads]) (by simp [XCfg.reads]) hi.1 (by
      intro K _
      cases hkn : C.known t1 with
      | false => rw [matching_unknown C.known hkn, sumOf_nil_unknown O C.known hkn]; rfl
      | true =>
        simp only [XCfg.reports]
        rw [matching_append, matching_append, matching_shown_hit C.known hkn, matching_shown_miss C.known ⟨Ne.symm a3, Ne.symm b2⟩]
        generalize hX : (if sumOf O ((C.inGroup false K ys).flatMap (matching C.known t1 d1)) = .inv then [] else
          [sumOf O ((C.inGroup false K ys).flatMap (matching C.known t1 d1))] : List Val) = X
        rw [matching_irr]
        · simp
        · intro e he
          split at he
          · simp at he; subst he; exact ⟨Ne.symm a4, Ne.symm b3⟩
          · simp at he)).1 K
    have r2 := (merge_sum O hm xs ys zs hnd hmem hk (t := t2) (d := d2) (by simp [XCfg.reads]) (by simp [XCfg.reads]) hi.2 (by
      intro K _
      cases hkn : C.known t2 with
      | false => rw [matching_unknown C.known hkn, sumOf_nil_unknown O C.known hkn]; rfl
      | true =>
        simp only [XCfg.reports]
        rw [matching_append, matching_append, matching_shown_hit C.known hkn, matching_shown_miss C.known ⟨b1, b2⟩]
        generalize hX : (if sumOf O ((C.inGroup false K ys).flatMap (matching C.known t2 d2)) = .inv then [] else
          [sumOf O ((C.inGroup false K ys).flatMap (matching C.known t2 d2))] : List Val) = X
        rw [matching_irr]
        · simp
        · intro e he
          split at he
          · simp at he; subst he; exact ⟨Ne.symm c2, Ne.symm e1⟩
          · simp at he)).1 K
    simp only [XCfg.reports, r1, r2]
  | scale t d res f i =>
    simp only [XCfg.incl] at hinc
    subst hinc
    have r1 := (merge_sum O hm xs ys zs hnd hmem hk (t := t) (d := d) (by simp [XCfg.reads]) (by simp [XCfg.reads]) hi (by
      intro K _
      cases hkn : C.known t with
      | false => rw [matching_unknown C.known hkn, sumOf_nil_unknown O C.known hkn]; rfl
      | true =>
        simp only [XCfg.reports]
        rw [matching_append, matching_shown_hit C.known hkn]
        generalize hX : (if sumOf O ((C.inGroup false K ys).flatMap (matching C.known t d)) = .inv then [] else
          [sumOf O ((C.inGroup false K ys).flatMap (matching C.known t d))] : List Val) = X
        rw [matching_irr]
        · simp
        · intro e he
          split at he
          · simp at he; subst he; exact hown
          · simp at he)).1 K
    simp only [XCfg.reports, r1]
  | pct t d res i =>
    simp only [XCfg.incl] at hinc
    subst hinc
    have r1 := merge_sum O hm xs ys zs hnd hmem hk (t := t) (d := d) (by simp [XCfg.reads]) (by simp [XCfg.reads]) hi (by
      intro K _
      cases hkn : C.known t with
      | false => rw [matching_unknown C.known hkn, sumOf_nil_unknown O C.known hkn]; rfl
      | true =>
        simp only [XCfg.reports]
        by_cases hs : sumOf O ((C.inGroup false K ys).flatMap (matching C.known t d)) = .inv
        · simp [hs, matching]
        · have hne : ys.flatMap (matching C.known t d) ≠ [] := by
            intro h0
            apply hs
            have : (C.inGroup false K ys).flatMap (matching C.known t d) = [] := by
              simp only [List.flatMap_eq_nil_iff] at h0 ⊢
              intro r hr
              exact h0 r (List.mem_of_mem_filter hr)
            rw [this]; rfl
          rw [if_pos ⟨hs, hp hne⟩, if_neg hs]
          obtain ⟨h1, h2⟩ := hown
          simp [matching, hkn, h1, h2])
    simp only [XCfg.reports, r1.1 K, r1.2]
  | any t d =>
    simp only [XCfg.reports]
    congr 2
    simp only [inGroup_append, xreport_group O hm ys hnd hmem, List.map_append, List.find?_append]
    by_cases hK : K ∈ keys
    · rw [if_pos hK]
      have hx := xmatch O hm ys hk ((hmem K).1 hK) (t := t) (d := d) (by simp [XCfg.reads]) (by simp [XCfg.reads])
      simp only [List.map_cons, List.map_nil, hx]
      congr 1
      congr 1
      cases hkn : C.known t with
      | false => simp [matching, hkn, List.find?_eq_none]
      | true =>
        simp only [XCfg.reports]
        rw [matching_shown_hit C.known hkn]
        cases hf : (((C.inGroup false K ys).map fun r => ((matching C.known t d r).getLast?).getD .inv).find? (· ≠ .inv)) with
        | none => simp
        | some w =>
          have hw := List.find?_some hf
          simp only [decide_eq_true_eq] at hw
          simp [hw]
    · rw [if_neg hK, own_nil hm (fun h => hK ((hmem K).2 h))]
  | scount c res f =>
    have e : ((C.inGroup false K (xs ++ (keys.map fun K => K.map KEnt.toQ ++ ks.flatMap (XCfg.reports O C ys K)) ++ zs)).map
        (countOf O.toFOps c)).sum = ((C.inGroup false K (xs ++ ys ++ zs)).map (countOf O.toFOps c)).sum := by
      simp only [inGroup_append, xreport_group O hm ys hnd hmem, List.map_append, List.sum_append]
      congr 2
      by_cases hK : K ∈ keys
      · rw [if_pos hK]
        obtain ⟨l, n, he, hln⟩ := xreport_split O hm ys K hk
        have hpr := (hmem K).1 hK
        obtain ⟨r, hr, hrK⟩ := (xpresent_noincl hm.noincl ys K).1 hpr
        have hn0 := hp.1 r hr
        rw [← hrK] at hn0
        have hn1 : (((C.inGroup false K ys).map (countOf O.toFOps c)).sum).toNat ≠ 0 := by
          intro h; apply hn0; apply BitVec.eq_of_toNat_eq; simpa using h
        have hrep : (XCfg.scount c res f).reports O C ys K = .imm c (.uint (((C.inGroup false K ys).map (countOf O.toFOps c)).sum)) ::
            [.imm res (.double (O.mul f (O.ofNat (((C.inGroup false K ys).map (countOf O.toFOps c)).sum).toNat)))] := by
          simp only [XCfg.reports, hn1, if_false, BitVec.ofNat_toNat, BitVec.setWidth_eq]
        have hkc : C.isKey c = false := hm.key _ hk c (by simp [XCfg.reads])
        have hKn : ∀ e ∈ K.map KEnt.toQ, e.attr ≠ c := by
          intro e he
          have := keyOf_irr { C with kernels := [.count c] } ⟨by simp [KCfg.incl], by simp, by simp [KCfg.ownOk],
            by simp [KCfg.matchAttrs, KCfg.resultAttrs, hkc]⟩ (c := .count c) (by simp) (recs := ys)
            (fun r hr p hpm x hx c' hc' => by
              simp at hc'
              subst hc'
              simpa [KCfg.matchAttrs] using hp.2 r hr p hpm x hx) hr e (by rw [hrK] at he; exact he)
          simpa [Irr, KCfg.matchAttrs] using this
        have hln' : ∀ e ∈ K.map KEnt.toQ ++ l, e.attr ≠ c := by
          intro e he
          rcases List.mem_append.1 he with he | he
          · exact hKn e he
          · have := hln e (List.mem_append_left _ he)
            simpa [XCfg.reads] using this
        simp only [List.map_cons, List.map_nil, List.sum_cons, List.sum_nil]
        rw [he, hrep]
        rw [show K.map KEnt.toQ ++ (l ++ (QEnt.imm c (.uint (((C.inGroup false K ys).map (countOf O.toFOps c)).sum)) ::
            [.imm res (.double (O.mul f (O.ofNat (((C.inGroup false K ys).map (countOf O.toFOps c)).sum).toNat)))]) ++ n) =
          (K.map KEnt.toQ ++ l) ++ (QEnt.imm c (.uint (((C.inGroup false K ys).map (countOf O.toFOps c)).sum)) ::
            (.imm res (.double (O.mul f (O.ofNat (((C.inGroup false K ys).map (countOf O.toFOps c)).sum).toNat))) :: n)) by simp]
        rw [countOf_skip _ _ _ _ hln']
        simp [countOf, QEnt.attr, QEnt.value, toU64]
      · rw [if_neg hK, own_nil hm (fun h => hK ((hmem K).2 h))]
    simp only [XCfg.reports, e]
  | variance t res cnt sum sq => exact hown.elim

/-- C74 (partitioning): for `ratio`, `scale`, `percent_total` of integer metrics, for `any` and for `scale_count`, aggregating any part of
the records separately and feeding the reported records in instead of the part gives the same result, up to order of the records. -/
theorem C74_merge_partial (O : XOps) (C : QCfg) (ks : List XCfg) (hm : XMergeable C ks) (xs ys zs : List (List QEnt))
    (hi : ∀ k ∈ ks, k.intMetric C (xs ++ ys ++ zs)) (hp : ∀ k ∈ ks, k.partOk O C ys) :
    (xreport O C ks (xs ++ xreport O C ks ys ++ zs)).Perm (xreport O C ks (xs ++ ys ++ zs)) := by
  obtain ⟨keys, hnd, hmem, hrep⟩ := xreport_eq O C ks ys
  rw [hrep]
  obtain ⟨k1, n1, m1, e1⟩ := xreport_eq O C ks (xs ++ (keys.map fun K => K.map KEnt.toQ ++ ks.flatMap (XCfg.reports O C ys K)) ++ zs)
  obtain ⟨k2, n2, m2, e2⟩ := xreport_eq O C ks (xs ++ ys ++ zs)
  rw [e1, e2]
  have hkey : ∀ K ∈ keys, C.keyOf (K.map KEnt.toQ ++ ks.flatMap (XCfg.reports O C ys K)) = K := by
    intro K hK
    obtain ⟨r, _, rfl⟩ := (xpresent_noincl hm.noincl ys K).1 ((hmem K).1 hK)
    apply xkey_report
    intro e he
    obtain ⟨k, hk, he⟩ := List.mem_flatMap.1 he
    obtain ⟨a, v, rfl, ha⟩ := reports_attr O C ys _ k e he
    exact ⟨a, v, rfl, hm.key k hk a (List.mem_append_right _ ha)⟩
  have hk : k1.Perm k2 := by
    rw [List.perm_ext_iff_of_nodup n1 n2]
    intro K
    rw [m1, m2, xpresent_noincl hm.noincl, xpresent_noincl hm.noincl]
    constructor
    · rintro ⟨r, hr, h⟩
      rcases List.mem_append.1 hr with hr | hr
      · rcases List.mem_append.1 hr with hr | hr
        · exact ⟨r, by simp [hr], h⟩
        · obtain ⟨K', hK', rfl⟩ := List.mem_map.1 hr
          rw [hkey K' hK'] at h
          subst h
          obtain ⟨r', hr', h'⟩ := (xpresent_noincl hm.noincl ys K).1 ((hmem K).1 hK')
          exact ⟨r', by simp [hr'], h'⟩
      · exact ⟨r, by simp [hr], h⟩
    · rintro ⟨r, hr, h⟩
      rcases List.mem_append.1 hr with hr | hr
      · rcases List.mem_append.1 hr with hr | hr
        · exact ⟨r, by simp [hr], h⟩
        · have hK : K ∈ keys := (hmem K).2 ((xpresent_noincl hm.noincl ys K).2 ⟨r, hr, h⟩)
          exact ⟨_, List.mem_append_left _ (List.mem_append_right _ (List.mem_map.2 ⟨K, hK, rfl⟩)), (hkey K hK).symm⟩
      · exact ⟨r, by simp [hr], h⟩
  refine List.Perm.trans (List.Perm.of_eq ?_) (hk.map _)
  apply List.map_congr_left
  intro K _
  congr 1
  rw [List.flatMap_def, List.flatMap_def]
  congr 1
  apply List.map_congr_left
  intro k hk
  exact merge_reports O hm xs ys zs hnd hmem hk (hi k hk) (hp k hk) K

/-! ## Examples and counterexamples -/

namespace XDemo
open QDemo

/-- integer arithmetic instead of floating-point arithmetic -/
def xops : XOps where
  add := (· + ·)
  min := fun a _ => a
  max := fun a _ => a
  div := fun a n => BitVec.ofNat 64 (a.toNat / n)
  ofVal := fun v => match v with | .int x => x | .uint x => x | .double x => x | _ => 0
  toInt := id
  toUint := id
  mul := (· * ·)
  fdiv := fun a b => BitVec.ofNat 64 (a.toNat / b.toNat)
  sub := (· - ·)
  ofNat := BitVec.ofNat 64
  pos := fun a => decide (0 < a.toInt)
  hundred := 100

/-- `ratio(x,y,2)`, `scale(x,3)`, `percent_total(x)`, `any(y)`, `scale_count(5)` -/
def ks : List XCfg := [.ratio 10 30 11 31 32 2 false, .scale 10 33 34 3 false, .pct 10 35 36 false, .any 11 37, .scount 38 39 5]

/-- records of the first process -/
def q1 : List (List QEnt) :=
  [[.ref [(1, .string [2]), (1, .string [1])], .imm 2 (.int 5), .imm 10 (.int 4), .imm 11 (.int 2)], [.ref [(1, .string [1])], .imm 10 (.int 6)]]
/-- records of the second process -/
def q2 : List (List QEnt) := [[.ref [(1, .string [2]), (1, .string [1])], .imm 2 (.int 5), .imm 10 (.int 10), .imm 11 (.int 3)]]

/-- what the query reports for the records of both processes -/
example : xreport xops (cfg []) ks (q1 ++ q2) =
    [[.imm 2 (.int 5), .ref [(1, .string [2]), (1, .string [1])], .imm 30 (.int 14), .imm 31 (.int 5), .imm 32 (.double 5), .imm 33 (.int 14),
      .imm 34 (.double 42), .imm 35 (.int 14), .imm 36 (.double 70), .imm 37 (.int 2), .imm 38 (.uint 2), .imm 39 (.double 10)],
     [.ref [(1, .string [1])], .imm 30 (.int 6), .imm 33 (.int 6), .imm 34 (.double 18), .imm 35 (.int 6), .imm 36 (.double 30),
      .imm 38 (.uint 1), .imm 39 (.double 5)]] := by decide +kernel

/-- the hypotheses of `C74_merge_partial` hold -/
theorem xhyps : XMergeable (cfg []) ks ∧ (∀ k ∈ ks, k.intMetric (cfg []) ([] ++ q1 ++ q2)) ∧ ∀ k ∈ ks, k.partOk xops (cfg []) q1 := by
  refine ⟨⟨by decide, ?_, by decide, by decide⟩, ?_, ?_⟩
  · intro k hk
    simp only [ks, List.mem_cons, List.not_mem_nil, or_false] at hk
    rcases hk with rfl | rfl | rfl | rfl | rfl
    · show List.Nodup _; decide
    · exact ⟨by decide, by decide⟩
    · exact ⟨by decide, by decide⟩
    · trivial
    · trivial
  · intro k hk
    simp only [ks, List.mem_cons, List.not_mem_nil, or_false] at hk
    rcases hk with rfl | rfl | rfl | rfl | rfl
    · exact ⟨.inl ⟨[4, 6, 10], by decide⟩, .inl ⟨[2, 3], by decide⟩⟩
    · exact .inl ⟨[4, 6, 10], by decide⟩
    · exact .inl ⟨[4, 6, 10], by decide⟩
    · trivial
    · trivial
  · intro k hk
    simp only [ks, List.mem_cons, List.not_mem_nil, or_false] at hk
    rcases hk with rfl | rfl | rfl | rfl | rfl
    · trivial
    · trivial
    · intro _; decide +kernel
    · trivial
    · refine ⟨by decide +kernel, ?_⟩
      intro r hr p hp
      simp only [q1, List.mem_cons, List.not_mem_nil, or_false] at hr
      rcases hr with rfl | rfl
      · simp at hp; subst hp; decide
      · simp at hp; subst hp; decide

/-- the theorem applies: first process aggregated separately -/
example : (xreport xops (cfg []) ks ([] ++ xreport xops (cfg []) ks q1 ++ q2)).Perm (xreport xops (cfg []) ks ([] ++ q1 ++ q2)) :=
  C74_merge_partial xops (cfg []) ks xhyps.1 [] q1 q2 xhyps.2.1 xhyps.2.2

/-- `inclusive_percent_total`, `variance` and `inclusive_scale`: the outer region `[1]` has 100 percent -/
example : outer (xreport xops (cfg []) [.pct 10 35 36 true, .variance 10 40 41 42 43, .scale 10 44 45 2 true]
      [[.ref [(1, .string [2]), (1, .string [1])], .imm 10 (.int 4)], [.ref [(1, .string [1])], .imm 10 (.int 6)],
       [.ref [(1, .string [1])], .imm 10 (.int 10)]]) =
    [[.ref [(1, .string [1])], .imm 35 (.int 16), .imm 36 (.double 100), .imm 40 (.double 4), .imm 42 (.double 16), .imm 43 (.double 136),
      .imm 41 (.uint 2), .imm 44 (.int 20), .imm 45 (.double 40)]] := by decide +kernel

end XDemo

open QDemo XDemo in
/-- C74 fails for two ratios with the same numerator: both keep it in the same intermediate attribute, so that aggregating the reported
records again counts it twice — for `ratio(a,b), ratio(a,c)` the reported 6/2 and 6/3 become 12/2 and 12/3. -/
theorem C74_violation_shared_numerator :
    let ks : List XCfg := [.ratio 10 30 11 31 32 1 false, .ratio 10 30 12 33 34 1 false]
    let recs : List (List QEnt) := [[.imm 10 (.int 6), .imm 11 (.int 2), .imm 12 (.int 3)]]
    xreport xops (cfg []) ks recs =
      [[.imm 30 (.int 6), .imm 31 (.int 2), .imm 32 (.double 3), .imm 30 (.int 6), .imm 33 (.int 3), .imm 34 (.double 2)]] ∧
    xreport xops (cfg []) ks (xreport xops (cfg []) ks recs) =
      [[.imm 30 (.int 12), .imm 31 (.int 2), .imm 32 (.double 6), .imm 30 (.int 12), .imm 33 (.int 3), .imm 34 (.double 4)]] := by decide +kernel

open QDemo XDemo in
/-- C74 fails for inclusive scaled sums: aggregating reported records again counts the inner region twice in the outer one -/
theorem C74_violation_inclusive :
    outer (xreport xops (cfg []) [.scale 10 33 34 3 true] nested) = [[.ref [(1, .string [1])], .imm 33 (.int 4), .imm 34 (.double 12)]] ∧
    outer (xreport xops (cfg []) [.scale 10 33 34 3 true] (xreport xops (cfg []) [.scale 10 33 34 3 true] nested)) =
      [[.ref [(1, .string [1])], .imm 33 (.int 8), .imm 34 (.double 24)]] := by decide +kernel

open QDemo XDemo in
/-- C74 fails for percentages if the total of a part is zero: the part reports no sums at all, so that its groups have no percentage after
the merge, while they are reported with 0 percent by the query over all records. -/
theorem C74_violation_zero_total :
    let part : List (List QEnt) := [[.imm 2 (.int 1), .imm 10 (.int 0)]]
    let rest : List (List QEnt) := [[.imm 2 (.int 2), .imm 10 (.int 8)]]
    xreport xops (cfg []) [.pct 10 35 36 false] (part ++ rest) =
      [[.imm 2 (.int 1), .imm 35 (.int 0), .imm 36 (.double 0)], [.imm 2 (.int 2), .imm 35 (.int 8), .imm 36 (.double 100)]] ∧
    xreport xops (cfg []) [.pct 10 35 36 false] (xreport xops (cfg []) [.pct 10 35 36 false] part ++ rest) =
      [[.imm 2 (.int 1)], [.imm 2 (.int 2), .imm 35 (.int 8), .imm 36 (.double 100)]] := by decide +kernel

open QDemo XDemo in
/-- C74 fails for variances of 2³² or more values: the count has 32 bits, so that the values added to a partial result of 2³² - 1 values
make the whole variance disappear. -/
theorem C74_violation_variance_count :
    xreport xops (cfg []) [.variance 10 40 41 42 43]
      [[.imm 42 (.double 1), .imm 43 (.double 1), .imm 41 (.uint 4294967295)], [.imm 10 (.int 1)]] = [[]] := by decide +kernel

end Verif.Query
