import Verif.Query.AggRefine
/-!
# What a query aggregation reports

Every record contributes to the group of its own key and, for inclusive kernels with a match in the record, to the groups of
the ancestors of its path.
-/
namespace Verif.Query
open Verif Verif.Cali Verif.Agg

/-- record `rec` contributes to group `K` for kernel `c` -/
def QCfg.contributes (O : FOps) (C : QCfg) (c : KCfg) (K : List KEnt) (rec : List QEnt) : Bool :=
  decide (K = C.keyOf rec) ||
    (C.up O c rec && decide (∃ p ∈ ancestors (C.pathOf rec), K = C.preKey rec ++ [.node p]))

/-- state of kernel `c` in group `K` after the records `recs` -/
def QCfg.stateOf (O : FOps) (C : QCfg) (c : KCfg) (K : List KEnt) (recs : List (List QEnt)) : KSt :=
  (recs.filter (C.contributes O c K)).foldl (fun s r => (c.aggregate O C.known s r).1) KSt.new

/-- there is a group `K` -/
def QCfg.Present (O : FOps) (C : QCfg) (K : List KEnt) (recs : List (List QEnt)) : Prop :=
  ∃ r ∈ recs, K = C.keyOf r ∨ ∃ c ∈ C.kernels, C.contributes O c K r = true

/-- the record reported for group `K` -/
def QCfg.report (O : FOps) (C : QCfg) (recs : List (List QEnt)) (K : List KEnt) : List QEnt :=
  K.map KEnt.toQ ++ C.kernels.flatMap fun c => c.result O (C.stateOf O c K recs)

/-! ## Proofs -/

theorem mem_ancestors {p q : List (Nat × Val)} : q ∈ ancestors p ↔ q ≠ [] ∧ q <+: p ∧ q.length < p.length := by
  unfold ancestors
  simp only [List.mem_filter, List.mem_map, List.mem_reverse, List.mem_range, decide_eq_true_eq]
  constructor
  · rintro ⟨⟨n, hn, rfl⟩, h⟩
    exact ⟨h, List.take_prefix _ _, by rw [List.length_take]; omega⟩
  · rintro ⟨h1, h2, h3⟩
    exact ⟨⟨q.length, h3, (List.prefix_iff_eq_take.1 h2).symm⟩, h1⟩

theorem ancestors_nodup (p : List (Nat × Val)) : (ancestors p).Nodup := by
  unfold ancestors
  apply List.Nodup.filter
  refine List.Nodup.map_on ?_ (List.nodup_reverse.2 List.nodup_range)
  intro x hx y hy h
  simp only [List.mem_reverse, List.mem_range] at hx hy
  have := congrArg List.length h
  simp only [List.length_take] at this
  omega

theorem mkKey_ne {pre : List KEnt} {p q : List (Nat × Val)} (h : q ∈ ancestors p) : pre ++ [.node q] ≠ mkKey pre p := by
  obtain ⟨h1, h2, h3⟩ := mem_ancestors.1 h
  have hp : p ≠ [] := by rintro rfl; simp at h3
  unfold mkKey
  rw [if_neg hp]
  intro hc
  have := List.append_cancel_left hc
  simp at this
  subst this
  omega

theorem upd_st (O : FOps) (C : QCfg) (A : QAbs) (K K' : List KEnt) {k : Nat} {c : KCfg} (hc : C.kernels[k]? = some c) (k' : Nat) (rec : List QEnt) :
    (A.upd O C K k rec).st K' k' = if K' = K ∧ k' = k then (c.aggregate O C.known (A.st K k) rec).1 else A.st K' k' := by
  unfold QAbs.upd
  simp only [hc]

theorem parents_st (O : FOps) (C : QCfg) (pre : List KEnt) {k : Nat} {c : KCfg} (hc : C.kernels[k]? = some c) (rec : List QEnt)
    (ps : List (List (Nat × Val))) (hps : ps.Nodup) : ∀ (A : QAbs),
    (∀ K' k', (A.parents O C pre k rec ps).st K' k' =
      if k' = k ∧ ∃ p ∈ ps, K' = pre ++ [.node p] then (c.aggregate O C.known (A.st K' k') rec).1 else A.st K' k') ∧
    (∀ K', K' ∈ (A.parents O C pre k rec ps).keys ↔ K' ∈ A.keys ∨ ∃ p ∈ ps, K' = pre ++ [.node p]) := by
  induction ps with
  | nil => intro A; simp [QAbs.parents]
  | cons p ps ih =>
    intro A
    obtain ⟨hp, hps'⟩ := List.nodup_cons.1 hps
    have hcons : A.parents O C pre k rec (p :: ps) =
        QAbs.parents O C pre k rec ps ((A.touch (pre ++ [.node p])).upd O C (pre ++ [.node p]) k rec) := rfl
    obtain ⟨h1, h2⟩ := ih hps' ((A.touch (pre ++ [.node p])).upd O C (pre ++ [.node p]) k rec)
    rw [hcons]
    constructor
    · intro K' k'
      rw [h1, upd_st O C _ _ _ hc]
      have hts : (A.touch (pre ++ [KEnt.node p])).st = A.st := rfl
      rw [hts]
      by_cases hk : k' = k
      · subst hk
        by_cases hK : K' = pre ++ [.node p]
        · subst hK
          have hno : ¬ ∃ q ∈ ps, pre ++ [KEnt.node p] = pre ++ [.node q] := by
            rintro ⟨q, hq, he⟩
            have := List.append_cancel_left he
            simp at this
            subst this
            exact hp hq
          rw [if_neg (fun h => hno h.2), if_pos ⟨rfl, rfl⟩, if_pos ⟨rfl, p, by simp, rfl⟩]
        · have e : (∃ q ∈ p :: ps, K' = pre ++ [KEnt.node q]) ↔ ∃ q ∈ ps, K' = pre ++ [KEnt.node q] := by
            simp [hK]
          rw [if_neg (fun h : K' = pre ++ [KEnt.node p] ∧ k' = k' => hK h.1)]
          simp only [e]
      · simp [hk]
    · intro K'
      rw [h2]
      show K' ∈ (A.touch (pre ++ [.node p])).keys ∨ _ ↔ _
      unfold QAbs.touch
      simp only [List.mem_cons, exists_eq_or_imp]
      by_cases hm : pre ++ [KEnt.node p] ∈ A.keys
      · simp only [hm, if_true]
        constructor
        · rintro (h | h)
          · exact .inl h
          · exact .inr (.inr h)
        · rintro (h | h | h)
          · exact .inl h
          · exact .inl (h ▸ hm)
          · exact .inr h
      · simp only [hm, if_false, List.mem_append, List.mem_singleton]
        exact or_assoc

theorem kernels_st (O : FOps) (C : QCfg) (rec : List QEnt) (ks : List Nat) (hks : ks.Nodup) (hlt : ∀ k ∈ ks, k < C.kernels.length) :
    ∀ (A : QAbs), C.keyOf rec ∈ A.keys →
    (∀ K' k', (A.kernels O C rec ks).st K' k' =
      match C.kernels[k']? with
      | some c => if k' ∈ ks ∧ C.contributes O c K' rec then (c.aggregate O C.known (A.st K' k') rec).1 else A.st K' k'
      | none => A.st K' k') ∧
    (∀ K', K' ∈ (A.kernels O C rec ks).keys ↔ K' ∈ A.keys ∨ ∃ k ∈ ks, ∃ c, C.kernels[k]? = some c ∧ C.contributes O c K' rec) := by
  induction ks with
  | nil =>
    intro A _
    constructor
    · intro K' k'
      cases C.kernels[k']? <;> simp [QAbs.kernels]
    · simp [QAbs.kernels]
  | cons k ks ih =>
    intro A hA
    obtain ⟨hk, hks'⟩ := List.nodup_cons.1 hks
    obtain ⟨c, hc⟩ : ∃ c, C.kernels[k]? = some c := ⟨_, List.getElem?_eq_getElem (hlt k (by simp))⟩
    have ih := fun A => ih hks' (fun k hk => hlt k (List.mem_cons_of_mem _ hk)) A
    -- the state after kernel k
    obtain ⟨B, hB⟩ : ∃ B, B = (if C.up O c rec then
          QAbs.parents O C (C.preKey rec) k rec (ancestors (C.pathOf rec)) (A.upd O C (C.keyOf rec) k rec)
         else A.upd O C (C.keyOf rec) k rec) := ⟨_, rfl⟩
    have hcons : A.kernels O C rec (k :: ks) = QAbs.kernels O C rec ks B := by
      rw [hB]
      show QAbs.kernels O C rec ks _ = _
      simp only [hc, Option.map_some, Option.getD_some]
    have hBst : ∀ K' k', B.st K' k' = if k' = k ∧ C.contributes O c K' rec = true then (c.aggregate O C.known (A.st K' k') rec).1 else A.st K' k' := by
      intro K' k'
      rw [hB]
      unfold QCfg.contributes
      by_cases hu : C.up O c rec = true
      · rw [if_pos hu, (parents_st O C _ hc rec _ (ancestors_nodup _) _).1, upd_st O C _ _ _ hc]
        by_cases hkk : k' = k
        · subst hkk
          by_cases hK : K' = C.keyOf rec
          · have hno : ¬ ∃ p ∈ ancestors (C.pathOf rec), K' = C.preKey rec ++ [KEnt.node p] := by
              rintro ⟨p, hp, he⟩
              exact mkKey_ne hp (he.symm.trans hK)
            rw [if_neg (fun h => hno h.2), if_pos ⟨hK, rfl⟩, if_pos ⟨rfl, by simp [hK]⟩, hK]
          · rw [if_neg (fun h : K' = C.keyOf rec ∧ k' = k' => hK h.1)]
            simp only [hK, hu, decide_false, Bool.false_or, Bool.true_and, decide_eq_true_eq]
        · simp [hkk]
      · rw [if_neg hu, upd_st O C _ _ _ hc]
        have hu' : C.up O c rec = false := by simpa using hu
        simp only [hu', Bool.false_and, Bool.or_false, decide_eq_true_eq]
        by_cases hK : K' = C.keyOf rec
        · by_cases hkk : k' = k
          · subst hkk; subst hK; simp
          · simp [hkk]
        · simp [hK]
    have hBk : ∀ K', K' ∈ B.keys ↔ K' ∈ A.keys ∨ C.contributes O c K' rec = true := by
      intro K'
      rw [hB]
      unfold QCfg.contributes
      by_cases hu : C.up O c rec = true
      · rw [if_pos hu, (parents_st O C _ hc rec _ (ancestors_nodup _) _).2]
        simp only [hu, Bool.true_and, Bool.or_eq_true, decide_eq_true_eq]
        show K' ∈ A.keys ∨ _ ↔ _
        constructor
        · rintro (h | h)
          · exact .inl h
          · exact .inr (.inr h)
        · rintro (h | h | h)
          · exact .inl h
          · exact .inl (h ▸ hA)
          · exact .inr h
      · rw [if_neg hu]
        have hu' : C.up O c rec = false := by simpa using hu
        simp only [hu', Bool.false_and, Bool.or_false, decide_eq_true_eq]
        show K' ∈ A.keys ↔ _
        constructor
        · exact .inl
        · rintro (h | h)
          · exact h
          · exact h ▸ hA
    obtain ⟨h1, h2⟩ := ih B ((hBk _).2 (.inl hA))
    rw [hcons]
    constructor
    · intro K' k'
      rw [h1, hBst]
      cases hck : C.kernels[k']? with
      | none =>
        have : k' ≠ k := by rintro rfl; rw [hc] at hck; cases hck
        simp [this]
      | some c' =>
        simp only [List.mem_cons]
        by_cases hkk : k' = k
        · subst hkk
          rw [hc] at hck
          cases hck
          simp [hk]
        · simp [hkk]
    · intro K'
      rw [h2, hBk]
      simp only [List.mem_cons, exists_eq_or_imp, hc, Option.some.injEq, exists_eq_left']
      exact or_assoc

theorem process_st (O : FOps) (C : QCfg) (A : QAbs) (rec : List QEnt) :
    (∀ K' k', (A.process O C rec).st K' k' =
      match C.kernels[k']? with
      | some c => if C.contributes O c K' rec then (c.aggregate O C.known (A.st K' k') rec).1 else A.st K' k'
      | none => A.st K' k') ∧
    (∀ K', K' ∈ (A.process O C rec).keys ↔ K' ∈ A.keys ∨ K' = C.keyOf rec ∨ ∃ c ∈ C.kernels, C.contributes O c K' rec = true) := by
  have hm : C.keyOf rec ∈ (A.touch (C.keyOf rec)).keys := by
    unfold QAbs.touch
    by_cases h : C.keyOf rec ∈ A.keys <;> simp [h]
  obtain ⟨h1, h2⟩ := kernels_st O C rec (List.range C.kernels.length) List.nodup_range (by simp) _ hm
  constructor
  · intro K' k'
    unfold QAbs.process
    rw [h1]
    cases hck : C.kernels[k']? with
    | none => rfl
    | some c =>
      have := (List.getElem?_eq_some_iff.1 hck).1
      simp only [List.mem_range, this, true_and]
      rfl
  · intro K'
    unfold QAbs.process
    rw [h2]
    have e1 : K' ∈ (A.touch (C.keyOf rec)).keys ↔ K' ∈ A.keys ∨ K' = C.keyOf rec := by
      unfold QAbs.touch
      by_cases h : C.keyOf rec ∈ A.keys
      · simp only [h, if_true]
        constructor
        · exact .inl
        · rintro (h' | h')
          · exact h'
          · exact h' ▸ h
      · simp [h]
    rw [e1, or_assoc]
    have e2 : (∃ k ∈ List.range C.kernels.length, ∃ c, C.kernels[k]? = some c ∧ C.contributes O c K' rec = true) ↔
        ∃ c ∈ C.kernels, C.contributes O c K' rec = true := by
      constructor
      · rintro ⟨k, _, c, h, h'⟩
        exact ⟨c, List.mem_of_getElem? h, h'⟩
      · rintro ⟨c, h, h'⟩
        obtain ⟨k, hk⟩ := List.mem_iff_getElem?.1 h
        exact ⟨k, by simpa using (List.getElem?_eq_some_iff.1 hk).1, c, hk, h'⟩
    rw [e2]

theorem run_st (O : FOps) (C : QCfg) (recs : List (List QEnt)) :
    let A := recs.foldl (fun A r => QAbs.process O C A r) ⟨[], fun _ _ => KSt.new⟩
    (∀ K k c, C.kernels[k]? = some c → A.st K k = C.stateOf O c K recs) ∧ (∀ K, K ∈ A.keys ↔ C.Present O K recs) := by
  induction recs using List.reverseRecOn with
  | nil => exact ⟨fun _ _ _ _ => rfl, by simp [QCfg.Present]⟩
  | append_singleton recs r ih =>
    simp only [List.foldl_append, List.foldl_cons, List.foldl_nil] at ih ⊢
    obtain ⟨h1, h2⟩ := ih
    obtain ⟨h3, h4⟩ := process_st O C (recs.foldl (fun A r => QAbs.process O C A r) ⟨[], fun _ _ => KSt.new⟩) r
    constructor
    · intro K k c hc
      rw [h3, hc]
      simp only [h1 K k c hc]
      unfold QCfg.stateOf
      rw [List.filter_append]
      cases hcon : C.contributes O c K r <;> simp [hcon]
    · intro K
      rw [h4, h2]
      unfold QCfg.Present
      constructor
      · rintro (⟨x, hx, h⟩ | h)
        · exact ⟨x, List.mem_append_left _ hx, h⟩
        · exact ⟨r, by simp, h⟩
      · rintro ⟨x, hx, h⟩
        rcases List.mem_append.1 hx with hx | hx
        · exact .inl ⟨x, hx, h⟩
        · simp at hx
          subst hx
          exact .inr h

/-- the output is the list of reports of the present groups -/
theorem flush_report (O : FOps) (C : QCfg) (recs : List (List QEnt)) :
    ∃ keys : List (List KEnt), keys.Nodup ∧ (∀ K, K ∈ keys ↔ C.Present O K recs) ∧
      (QAgg.init.run O C recs).flush O C = keys.map (C.report O recs) := by
  have hr := run_spec (O := O) recs (QRep.init C)
  obtain ⟨h1, h2⟩ := run_st O C recs
  refine ⟨_, hr.nodup, h2, ?_⟩
  rw [flush_spec hr]
  apply List.map_congr_left
  intro K _
  unfold QCfg.report
  congr 1
  have : ∀ (cs : List KCfg) (n : Nat) (f : KCfg → Nat → List QEnt) (g : KCfg → List QEnt), (∀ i c, cs[i]? = some c → f c (n + i) = g c) →
      (cs.zipIdx n).flatMap (fun c => f c.1 c.2) = cs.flatMap g := by
    intro cs
    induction cs with
    | nil => intros; rfl
    | cons c cs ih =>
      intro n f g h
      simp only [List.zipIdx_cons, List.flatMap_cons]
      rw [ih (n + 1) f g (fun i c hi => by rw [← h (i + 1) c (by simpa using hi)]; congr 1; omega)]
      rw [← h 0 c (by simp)]
      rfl
  refine this C.kernels 0 (fun c k => c.result O
    ((recs.foldl (fun A r => QAbs.process O C A r) ⟨[], fun _ _ => KSt.new⟩).st K k)) _ ?_
  intro i c hi
  rw [Nat.zero_add, h1 K i c hi]

end Verif.Query
