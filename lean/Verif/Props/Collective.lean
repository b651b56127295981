import Verif.Mpi.Collective
import Verif.Props.Mpi
import Verif.Props.QueryAgg
/-!
# C106 — the cross-process report covers all processes
-/
namespace Verif.Mpi
open Verif.Query Verif.Cali

/-! ## Specification -/

/-- what the local query makes of a rank's records -/
def localResult (O : FOps) (q : CQuery) (recs : List (List QEnt)) : List (List QEnt) :=
  (QAgg.init.run O q.cfg (recs.filterMap q.pre)).flush O q.cfg

/-- the records of rank `r` that enter the cross-process aggregation -/
def entering (O : FOps) (lq cq : CQuery) (R : Nat → List (List QEnt)) (r : Nat) : List (List QEnt) := (localResult O lq (R r)).filterMap cq.pre

/-- all ranks have returned -/
def Finished (n : Nat) (σ : ASt) : Prop := ∀ r, r < n → σ.pc r = .done

/-! ## Proofs -/

theorem run_append (O : FOps) (C : QCfg) (a b : List (List QEnt)) : (QAgg.init.run O C a).run O C b = QAgg.init.run O C (a ++ b) := by
  unfold QAgg.run; rw [List.foldl_append]

theorem feed_eq (O : FOps) (q : CQuery) (recs : List (List QEnt)) : feed O q recs = QAgg.init.run O q.cfg (recs.filterMap q.pre) := by
  unfold feed QAgg.run
  generalize QAgg.init = a
  induction recs generalizing a with
  | nil => rfl
  | cons r rs ih =>
    simp only [List.foldl_cons, List.filterMap_cons]
    cases h : q.pre r with
    | none => simp only; exact ih a
    | some r' => simp only [List.foldl_cons]; exact ih _

theorem _root_.Verif.Query.SameStates.trans {O : FOps} {C : QCfg} {a b c : List (List QEnt)} (h : SameStates O C a b) (h' : SameStates O C b c) : SameStates O C a c :=
  ⟨fun K => (h.1 K).trans (h'.1 K), fun K k hk => (h.2 K k hk).trans (h'.2 K k hk)⟩

theorem _root_.Verif.Query.SameStates.rfl' (O : FOps) (C : QCfg) (a : List (List QEnt)) : SameStates O C a a := ⟨fun _ => .rfl, fun _ _ _ => rfl⟩

theorem _root_.Verif.Query.SameStates.noWrap {O : FOps} {C : QCfg} {a b : List (List QEnt)} (h : SameStates O C a b) (hw : C.NoWrap O b) : C.NoWrap O a := by
  intro K hK c hc
  have := hw K ((h.1 K).1 hK) c hc
  rw [← h.2 K c hc] at this
  exact this

/-- the records `a` may stand for the records `a'` in an aggregation -/
def Good (O : FOps) (C : QCfg) (a a' : List (List QEnt)) : Prop :=
  (C.RefsOk a' → C.RefsOk a) ∧
  ∀ xs zs, C.IntMetrics (xs ++ a' ++ zs) → C.IntMetrics (xs ++ a ++ zs) ∧ SameStates O C (xs ++ a ++ zs) (xs ++ a' ++ zs)

theorem Good.refl (O : FOps) (C : QCfg) (a : List (List QEnt)) : Good O C a a := ⟨id, fun _ _ h => ⟨h, .rfl' ..⟩⟩

theorem Good.append {O : FOps} {C : QCfg} {a a' b b' : List (List QEnt)} (h : Good O C a a') (h' : Good O C b b') : Good O C (a ++ b) (a' ++ b') := by
  refine ⟨?_, ?_⟩
  · intro hr r hm
    rcases List.mem_append.1 hm with hm | hm
    · exact h.1 (fun x hx => hr x (List.mem_append_left _ hx)) r hm
    · exact h'.1 (fun x hx => hr x (List.mem_append_right _ hx)) r hm
  · intro xs zs hi
    have h1 := h'.2 (xs ++ a') zs (by simpa using hi)
    have h2 := h.2 xs (b ++ zs) (by simpa using h1.1)
    simp only [List.append_assoc] at h1 h2 ⊢
    exact ⟨h2.1, h2.2.trans h1.2⟩

theorem selected_mem {C : QCfg} {b : Bool} {r : List QEnt} {x : Nat × Val} (h : x ∈ C.selected b r) : ∃ p, QEnt.ref p ∈ r ∧ x ∈ p := by
  unfold QCfg.selected at h
  obtain ⟨e, he, hx⟩ := List.mem_flatMap.1 h
  cases e with
  | ref p => exact ⟨p, he, (List.mem_filter.1 hx).1⟩
  | imm a v => simp at hx

/-- the reported records have references only to parts of paths of the aggregated records -/
theorem refsOk_flush (O : FOps) (C : QCfg) (hm : C.Mergeable) {a : List (List QEnt)} (hr : C.RefsOk a) : C.RefsOk ((QAgg.init.run O C a).flush O C) := by
  obtain ⟨keys, _, hmem, hfl⟩ := flush_report O C a
  rw [hfl]
  intro r hrm p hp x hx c hc
  obtain ⟨K, hK, rfl⟩ := List.mem_map.1 hrm
  obtain ⟨r0, hr0, rfl⟩ := (present_noincl O C hm.noincl K a).1 ((hmem K).1 hK)
  unfold QCfg.report at hp
  rcases List.mem_append.1 hp with hp | hp
  · obtain ⟨k, hk, he⟩ := List.mem_map.1 hp
    have key : ∀ b, k = KEnt.node (C.selected b r0).reverse → x.1 ∉ c.matchAttrs := by
      intro b hb
      subst hb
      simp only [KEnt.toQ, List.reverse_reverse, QEnt.ref.injEq] at he
      subst he
      obtain ⟨q, hq, hxq⟩ := selected_mem hx
      exact hr r0 hr0 q hq x hxq c hc
    unfold QCfg.keyOf mkKey at hk
    have hk' : k ∈ C.preKey r0 ∨ k = KEnt.node (C.pathOf r0) := by
      split at hk
      · exact .inl hk
      · rcases List.mem_append.1 hk with hk | hk
        · exact .inl hk
        · exact .inr (by simpa using hk)
    rcases hk' with hk' | hk'
    · unfold QCfg.preKey at hk'
      rcases List.mem_append.1 hk' with hk' | hk'
      · obtain ⟨y, _, rfl⟩ := List.mem_map.1 hk'
        simp [KEnt.toQ] at he
      · split at hk'
        · simp at hk'
        · exact key false (by simpa using hk')
    · exact key true hk'
  · obtain ⟨d, hd, he⟩ := List.mem_flatMap.1 hp
    obtain ⟨_, a', v, hav⟩ := result_attr O d _ _ he
    cases hav

theorem intMetrics_sub {C : QCfg} {a b : List (List QEnt)} (h : C.IntMetrics b) (hs : ∀ r ∈ a, r ∈ b) : C.IntMetrics a := by
  intro c hc
  refine (h c hc).of_subset ?_
  intro v hv
  obtain ⟨r, hr, hv⟩ := List.mem_flatMap.1 hv
  exact List.mem_flatMap.2 ⟨r, hs r hr, hv⟩

theorem Good.flush {O : FOps} {C : QCfg} (hm : C.Mergeable) {a a' : List (List QEnt)} (h : Good O C a a') (hr : C.RefsOk a') (hw : C.IntMetrics a' → C.NoWrap O a') :
    Good O C ((QAgg.init.run O C a).flush O C) a' := by
  refine ⟨fun hr => refsOk_flush O C hm (h.1 hr), ?_⟩
  intro xs zs hi
  have hi' : C.IntMetrics a' := intMetrics_sub hi (fun r hr => by simp [hr])
  have hs0 := h.2 [] [] (by simpa using hi')
  simp only [List.nil_append, List.append_nil] at hs0
  have hwa : C.NoWrap O a := hs0.2.noWrap (hw hi')
  have h1 := h.2 xs zs hi
  exact ⟨report_intMetrics O C hm xs a zs h1.1 (h.1 hr) hwa, (merge_same O C hm xs a zs h1.1 (h.1 hr) hwa).trans h1.2⟩

/-- the reduction of lists of records and the reduction of aggregators in step -/
structure Sim (n : Nat) (O : FOps) (C : QCfg) (σ : St (List QEnt)) (τ : ASt) : Prop where
  pc : τ.pc = σ.pc
  agg : ∀ r, r < n → ∃ fed, τ.agg r = QAgg.init.run O C fed ∧ Good O C fed (σ.data r)
  chan : ∀ a b, List.Forall₂ (Good O C) (τ.chan a b) (σ.chan a b)

/-- part of the records of all ranks -/
def PartOk (O : FOps) (C : QCfg) (n : Nat) (D : Nat → List (List QEnt)) : Prop :=
  ∀ a b, b ≤ n → C.RefsOk (span D a b) ∧ (C.IntMetrics (span D a b) → C.NoWrap O (span D a b))

theorem Sim.step {O : FOps} {C : QCfg} (hm : C.Mergeable) {n : Nat} {D : Nat → List (List QEnt)} (hp : PartOk O C n D) {σ : St (List QEnt)} {τ τ' : ASt}
    (S : Sim n O C σ τ) (I : Inv n D σ) {r : Nat} (hr : r < n) {b : Bool} (ht : atick O C n r b τ = some τ') :
    ∃ σ', tick n r b σ = some σ' ∧ Sim n O C σ' τ' := by
  have L := I.loc r hr
  unfold atick at ht
  unfold tick
  rw [S.pc] at ht
  cases hpc : σ.pc r with
  | done => rw [hpc] at ht; cases ht
  | loop s =>
    rw [hpc] at ht
    simp only at ht ⊢
    split at ht
    · rename_i h1
      rw [if_pos h1]
      split at ht
      · rename_i h2
        rw [if_pos h2]
        cases ht
        exact ⟨_, rfl, by simp, S.agg, S.chan⟩
      · rename_i h2
        rw [if_neg h2]
        cases ht
        exact ⟨_, rfl, by simp, S.agg, S.chan⟩
    · rename_i h1
      rw [if_neg h1]
      cases ht
      exact ⟨_, rfl, by simp, S.agg, S.chan⟩
  | recv s =>
    rw [hpc] at ht
    simp only at ht ⊢
    have hc := S.chan (r + s) r
    cases hch : τ.chan (r + s) r with
    | nil => rw [hch] at ht; cases ht
    | cons m ms =>
      rw [hch] at ht hc
      cases hch' : σ.chan (r + s) r with
      | nil => rw [hch'] at hc; cases hc
      | cons m' ms' =>
        rw [hch'] at hc
        obtain ⟨hg, hgs⟩ := List.forall₂_cons.1 hc
        simp only at ht
        cases ht
        refine ⟨_, rfl, ?_, ?_, ?_⟩
        · simp
        · intro x hx
          by_cases e : x = r
          · subst e
            obtain ⟨fed, h1, h2⟩ := S.agg x hx
            refine ⟨fed ++ m, ?_, ?_⟩
            · simp only [BB.upd, if_true, merged, h1, run_append]
            · simp only [BB.upd, if_true]
              exact h2.append hg
          · obtain ⟨fed, h1, h2⟩ := S.agg x hx
            exact ⟨fed, by simp only [BB.upd, if_neg e, h1], by simp only [BB.upd, if_neg e]; exact h2⟩
        · intro x y
          by_cases e : x = r + s ∧ y = r
          · simp only [setChan, updC, if_pos e]; exact hgs
          · simp only [setChan, updC, if_neg e]; exact S.chan x y
  | send s =>
    rw [hpc] at ht L
    simp only at ht ⊢
    obtain ⟨l1, l2, l3, l4⟩ := L
    split at ht
    · rename_i h1
      rw [if_pos h1]
      cases ht
      refine ⟨_, rfl, by simp, S.agg, ?_⟩
      intro x y
      by_cases e : x = r ∧ y = r - s
      · simp only [setChan, updC, if_pos e]
        refine List.rel_append (S.chan r (r - s)) (.cons ?_ .nil)
        obtain ⟨fed, hf, hg⟩ := S.agg r hr
        have hd := l3 h1.1 h1.2
        have hok := hp r (min (r + s) n) (Nat.min_le_right ..)
        rw [← hd] at hok
        unfold packed
        rw [hf]
        exact hg.flush hm hok.1 hok.2
      · simp only [setChan, updC, if_neg e]; exact S.chan x y
    · rename_i h1
      rw [if_neg h1]
      cases ht
      exact ⟨_, rfl, by simp, S.agg, S.chan⟩
  | blocked s =>
    rw [hpc] at ht
    simp only at ht ⊢
    have he : τ.chan r (r - s) = [] ↔ σ.chan r (r - s) = [] := by
      have := S.chan r (r - s)
      constructor
      · intro h; rw [h] at this; exact List.forall₂_nil_left_iff.1 this
      · intro h; rw [h] at this; exact List.forall₂_nil_right_iff.1 this
    simp only [he] at ht
    split at ht
    · rename_i h1
      rw [if_pos h1]
      cases ht
      exact ⟨_, rfl, by simp, S.agg, S.chan⟩
    · cases ht

/-- every execution is an execution of the reduction of lists -/
theorem sim_exec {O : FOps} {lq cq : CQuery} (hm : cq.cfg.Mergeable) {n : Nat} {R : Nat → List (List QEnt)} {D : Nat → List (List QEnt)} (hp : PartOk O cq.cfg n D)
    (h0 : ∀ r, r < n → Good O cq.cfg (entering O lq cq R r) (D r)) {k : Nat} {τ : ASt} (h : AExec O lq cq n (fun _ => true) R k τ) :
    ∃ σ, Exec n D k σ ∧ Sim n O cq.cfg σ τ := by
  induction h with
  | init =>
    refine ⟨_, .init, by simp [ainit, Mpi.init], ?_, fun _ _ => .nil⟩
    intro r hr
    refine ⟨entering O lq cq R r, ?_, h0 r hr⟩
    simp only [ainit, ownPart, feed_eq, entering, localResult]
  | step h r hr b ht ih =>
    obtain ⟨σ, hE, S⟩ := ih
    obtain ⟨σ', h1, h2⟩ := S.step hm hp hE.inv hr ht
    exact ⟨σ', hE.step r hr b h1, h2⟩

theorem span_sub {D : Nat → List (List QEnt)} {n a b : Nat} (hb : b ≤ n) : (span D a b).Sublist ((List.range n).flatMap D) := by
  unfold span
  rw [List.range_eq_range']
  have : (List.range' a (b - a)).Sublist (List.range' 0 n) := by
    by_cases h : a ≤ b
    · have e : List.range' 0 n = List.range' 0 a ++ (List.range' a (b - a) ++ List.range' b (n - b)) := by
        have e1 : n = a + ((b - a) + (n - b)) := by omega
        conv => lhs; rw [e1]
        rw [← List.range'_append_1, ← List.range'_append_1, Nat.zero_add]
        congr 3; omega
      rw [e]
      exact (List.sublist_append_left _ _).trans (List.sublist_append_right _ _)
    · have : b - a = 0 := by omega
      rw [this]; simp
  exact this.flatMap D

theorem raw_sub {C : QCfg} {a b : List (List QEnt)} (h : C.Raw b) (hs : a.Sublist b) : C.Raw a := by
  refine ⟨fun r hr => h.fresh r (hs.subset hr), ?_⟩
  have := (hs.map fun r => r.length + 1)
  exact Nat.lt_of_le_of_lt (this.sum_le_sum (fun _ _ => Nat.zero_le _)) h.size

theorem partOk {O : FOps} {C : QCfg} (hm : C.Mergeable) {n : Nat} {D : Nat → List (List QEnt)} (hr : C.RefsOk ((List.range n).flatMap D)) (hw : C.Raw ((List.range n).flatMap D)) :
    PartOk O C n D := by
  intro a b hb
  have hs := span_sub (D := D) (a := a) hb
  refine ⟨fun r hrm => hr r (hs.subset hrm), fun hi => Raw.noWrap (raw_sub hw hs) hm.noincl hi⟩

/-- the result of a finished reduction -/
theorem finish {O : FOps} {lq cq : CQuery} (hm : cq.cfg.Mergeable) {n : Nat} (hn : 0 < n) {R : Nat → List (List QEnt)} {D : Nat → List (List QEnt)} (hp : PartOk O cq.cfg n D)
    (hi : cq.cfg.IntMetrics ((List.range n).flatMap D))
    (h0 : ∀ r, r < n → Good O cq.cfg (entering O lq cq R r) (D r)) {k : Nat} {τ : ASt} (h : AExec O lq cq n (fun _ => true) R k τ) (hd : Finished n τ) :
    ((τ.agg 0).flush O cq.cfg).Perm ((QAgg.init.run O cq.cfg ((List.range n).flatMap D)).flush O cq.cfg) := by
  obtain ⟨σ, hE, S⟩ := sim_exec hm hp h0 h
  have hdata := C48_complete hn hE (fun r hr => by rw [← S.pc]; exact hd r hr)
  obtain ⟨fed, h1, h2⟩ := S.agg 0 hn
  rw [hdata] at h2
  rw [h1]
  have := h2.2 [] [] (by simpa using hi)
  simp only [List.nil_append, List.append_nil] at this
  exact this.2.flush

/-- **C106.**  Whatever the number of processes and however they are scheduled: when the collective flush has returned everywhere,
rank 0, and nobody else, prints, and it prints what the cross-process query reports for the results of the local queries of all
processes together.  Missing: floating-point metrics and queries that are not mergeable (see the violations). -/
theorem C106_report_partial {O : FOps} {lq cq : CQuery} (hm : cq.cfg.Mergeable) {n : Nat} (hn : 0 < n) {R : Nat → List (List QEnt)}
    (hi : cq.cfg.IntMetrics ((List.range n).flatMap (entering O lq cq R))) (hr : cq.cfg.RefsOk ((List.range n).flatMap (entering O lq cq R)))
    (hw : cq.cfg.Raw ((List.range n).flatMap (entering O lq cq R))) {k : Nat} {τ : ASt} (h : AExec O lq cq n (fun _ => true) R k τ) (hd : Finished n τ) :
    (∃ out, printed O cq τ 0 = some out ∧
      out.Perm ((QAgg.init.run O cq.cfg ((List.range n).flatMap (entering O lq cq R))).flush O cq.cfg)) ∧
    ∀ r, r ≠ 0 → printed O cq τ r = none :=
  ⟨⟨_, rfl, finish hm hn (partOk hm hr hw) hi (fun _ _ => .refl ..) h hd⟩, fun r hr => by simp [printed, hr]⟩

/-- **C106.**  If the local query is the cross-process query (which is what an empty local query means,
`CollectiveOutputChannel.cpp:188-189`) and has no `LET` or `WHERE`, the report is that of a single process having all the records. -/
theorem C106_single_process_partial {O : FOps} {C : QCfg} (hm : C.Mergeable) {n : Nat} (hn : 0 < n) {R : Nat → List (List QEnt)}
    (hi : C.IntMetrics ((List.range n).flatMap R)) (hr : C.RefsOk ((List.range n).flatMap R)) (hw : C.Raw ((List.range n).flatMap R))
    {k : Nat} {τ : ASt} (h : AExec O ⟨some, C⟩ ⟨some, C⟩ n (fun _ => true) R k τ) (hd : Finished n τ) :
    ∃ out, printed O ⟨some, C⟩ τ 0 = some out ∧ out.Perm ((QAgg.init.run O C ((List.range n).flatMap R)).flush O C) := by
  refine ⟨_, rfl, finish (cq := ⟨some, C⟩) hm hn (partOk hm hr hw) hi ?_ h hd⟩
  intro r hlt
  have e : entering O ⟨some, C⟩ ⟨some, C⟩ R r = (QAgg.init.run O C (R r)).flush O C := by
    simp [entering, localResult, List.filterMap_some]
  rw [e]
  have hsub : (R r).Sublist ((List.range n).flatMap R) := by
    have := span_sub (D := R) (n := n) (a := r) (b := r + 1) hlt
    simpa [span] using this
  exact (Good.refl O C (R r)).flush hm (fun x hx => hr x (hsub.subset hx)) (fun hi => Raw.noWrap (raw_sub hw hsub) hm.noincl hi)

/-! ### it returns -/

/-- the reduction without data: control does not depend on the data -/
structure Ctl (σ : St Unit) (τ : ASt) : Prop where
  pc : τ.pc = σ.pc
  chan : ∀ a b, (τ.chan a b).length = (σ.chan a b).length

theorem Ctl.step {O : FOps} {C : QCfg} {n r : Nat} {b : Bool} {σ : St Unit} {τ : ASt} (S : Ctl σ τ) :
    (∀ τ', atick O C n r b τ = some τ' → ∃ σ', tick n r b σ = some σ' ∧ Ctl σ' τ') ∧
    (∀ σ', tick n r b σ = some σ' → ∃ τ', atick O C n r b τ = some τ' ∧ Ctl σ' τ') := by
  have hnil : ∀ a b, τ.chan a b = [] ↔ σ.chan a b = [] := by
    intro a b
    rw [← List.length_eq_zero_iff, ← List.length_eq_zero_iff, S.chan]
  suffices (atick O C n r b τ = none ∧ tick n r b σ = none) ∨ ∃ τ' σ', atick O C n r b τ = some τ' ∧ tick n r b σ = some σ' ∧ Ctl σ' τ' by
    rcases this with ⟨h1, h2⟩ | ⟨τ', σ', h1, h2, h3⟩
    · exact ⟨fun x hx => (by rw [h1] at hx; cases hx), fun x hx => (by rw [h2] at hx; cases hx)⟩
    · exact ⟨fun x hx => (by rw [h1] at hx; cases hx; exact ⟨_, h2, h3⟩), fun x hx => (by rw [h2] at hx; cases hx; exact ⟨_, h1, h3⟩)⟩
  unfold atick tick
  rw [S.pc]
  cases hpc : σ.pc r with
  | done => exact .inl ⟨rfl, rfl⟩
  | loop s =>
    simp only
    split
    · split
      · exact .inr ⟨_, _, rfl, rfl, by simp, S.chan⟩
      · exact .inr ⟨_, _, rfl, rfl, by simp, S.chan⟩
    · exact .inr ⟨_, _, rfl, rfl, by simp, S.chan⟩
  | recv s =>
    simp only
    have hc := S.chan (r + s) r
    cases h1 : τ.chan (r + s) r with
    | nil =>
      rw [(hnil _ _).1 h1]
      exact .inl ⟨rfl, rfl⟩
    | cons m ms =>
      cases h2 : σ.chan (r + s) r with
      | nil => rw [h1, h2] at hc; cases hc
      | cons m' ms' =>
        refine .inr ⟨_, _, rfl, rfl, by simp, ?_⟩
        intro x y
        rw [h1, h2] at hc
        by_cases e : x = r + s ∧ y = r
        · simp only [setChan, updC, if_pos e]; simpa using hc
        · simp only [setChan, updC, if_neg e]; exact S.chan x y
  | send s =>
    simp only
    split
    · refine .inr ⟨_, _, rfl, rfl, by simp, ?_⟩
      intro x y
      by_cases e : x = r ∧ y = r - s
      · simp only [setChan, updC, if_pos e, List.length_append, S.chan, List.length_singleton]
      · simp only [setChan, updC, if_neg e]; exact S.chan x y
    · exact .inr ⟨_, _, rfl, rfl, by simp, S.chan⟩
  | blocked s =>
    simp only [hnil]
    split
    · exact .inr ⟨_, _, rfl, rfl, by simp, S.chan⟩
    · exact .inl ⟨rfl, rfl⟩

theorem ctl_exec {O : FOps} {lq cq : CQuery} {n : Nat} {R : Nat → List (List QEnt)} {k : Nat} {τ : ASt} (h : AExec O lq cq n (fun _ => true) R k τ) :
    ∃ σ, Exec n (fun _ => ([] : List Unit)) k σ ∧ Ctl σ τ := by
  induction h with
  | init => exact ⟨_, .init, by simp [ainit, Mpi.init], fun _ _ => rfl⟩
  | step h r hr b ht ih =>
    obtain ⟨σ, hE, S⟩ := ih
    obtain ⟨σ', h1, h2⟩ := (S.step).1 _ ht
    exact ⟨σ', hE.step r hr b h1, h2⟩

/-- **C106.**  With any queries and data, if all processes call the collective flush it returns on all of them, even if no message is
buffered: there is a bound on the number of steps, and as long as a process has not returned some process can continue. -/
theorem C106_returns {O : FOps} {lq cq : CQuery} {n : Nat} {R : Nat → List (List QEnt)} {k : Nat} {τ : ASt} (h : AExec O lq cq n (fun _ => true) R k τ) :
    k ≤ n * (8 * n + 4) ∧ (¬ Finished n τ → ∃ r τ', r < n ∧ atick O cq.cfg n r false τ = some τ') := by
  obtain ⟨σ, hE, S⟩ := ctl_exec h
  refine ⟨C48_terminates hE, ?_⟩
  intro hf
  obtain ⟨r, hr⟩ := Classical.not_forall.1 hf
  obtain ⟨hr, hne⟩ := Classical.not_imp.1 hr
  rw [S.pc] at hne
  obtain ⟨r', σ', hr', ht⟩ := C48_no_deadlock hE hr hne
  obtain ⟨τ', h1, _⟩ := S.step.2 _ ht
  exact ⟨r', τ', hr', h1⟩

/-- every execution can be continued until all processes have returned -/
theorem C106_can_finish {O : FOps} {lq cq : CQuery} {n : Nat} {R : Nat → List (List QEnt)} {k : Nat} {τ : ASt} (h : AExec O lq cq n (fun _ => true) R k τ) :
    ∃ k' τ', AExec O lq cq n (fun _ => true) R k' τ' ∧ Finished n τ' := by
  generalize hm : n * (8 * n + 4) - k = m
  induction m using Nat.strongRecOn generalizing k τ with
  | ind m ih =>
    by_cases hd : Finished n τ
    · exact ⟨k, τ, h, hd⟩
    · obtain ⟨r, τ', hr, ht⟩ := (C106_returns h).2 hd
      have h' := AExec.step h r hr false ht
      have hb := (C106_returns h').1
      exact ih _ (by omega) h' rfl

/-! ### not all take part -/

theorem exists_sends {a : Nat} (h : 0 < a) : ∃ s, Sends a s := by
  induction a using Nat.strongRecOn with
  | ind a ih =>
    rcases Nat.mod_two_eq_zero_or_one a with h2 | h2
    · obtain ⟨s, h1, h2', h3⟩ := ih (a / 2) (by omega) (by omega)
      have ha : a = 2 * (a / 2) := by omega
      refine ⟨s * 2, h1.dbl, ?_, ?_⟩
      · rw [ha, Nat.mul_comm s 2, Nat.mul_mod_mul_left, h2']
      · rw [ha, Nat.mul_comm s 2, Nat.mul_mod_mul_left]; omega
    · exact ⟨1, .one, by omega, by omega⟩

/-- the program counter is that of the loop with a power of two -/
def PcOk (n r : Nat) : PC → Prop
  | .loop s => Pow s
  | .recv s => Pow s ∧ r % (2 * s) = 0 ∧ r + s < n
  | .send s => Pow s
  | .blocked s => Sends r s
  | .done => True

theorem pcOk {O : FOps} {lq cq : CQuery} {n : Nat} {P : Nat → Bool} {R : Nat → List (List QEnt)} {k : Nat} {τ : ASt} (h : AExec O lq cq n P R k τ) :
    ∀ r, PcOk n r (τ.pc r) := by
  induction h with
  | init =>
    intro r
    simp only [ainit]
    split
    · exact .one
    · trivial
  | @step k τ τ' h r hr b ht ih =>
    intro x
    have hx := ih x
    by_cases e : x = r
    · subst e
      unfold atick at ht
      split at ht
      · rename_i s hs
        rw [hs] at hx
        split at ht
        · split at ht
          · rename_i hc
            cases ht; simp only [BB.upd, if_true]; exact ⟨hx, hc.1, hc.2⟩
          · cases ht; simp only [BB.upd, if_true]; exact hx
        · cases ht; simp only [BB.upd, if_true]; trivial
      · rename_i s hs
        rw [hs] at hx
        split at ht
        · cases ht
        · cases ht; simp only [BB.upd, if_true]; exact hx.1
      · rename_i s hs
        rw [hs] at hx
        split at ht
        · rename_i hc
          cases ht; simp only [BB.upd, if_true]; exact ⟨hx, hc.1, hc.2⟩
        · cases ht; simp only [BB.upd, if_true]; exact hx.dbl
      · rename_i s hs
        rw [hs] at hx
        split at ht
        · cases ht; simp only [BB.upd, if_true]; exact hx.1.dbl
        · cases ht
      · cases ht
    · have : τ'.pc x = τ.pc x := by
        unfold atick at ht
        split at ht
        · split at ht
          · split at ht <;> (cases ht; simp [BB.upd, e])
          · cases ht; simp [BB.upd, e]
        · split at ht
          · cases ht
          · cases ht; simp [BB.upd, e]
        · split at ht <;> (cases ht; simp [BB.upd, e])
        · split at ht
          · cases ht; simp [BB.upd, e]
          · cases ht
        · cases ht
      rw [this]; exact hx

/-- a rank's step changes only its own program counter -/
theorem pc_other {O : FOps} {C : QCfg} {n r x : Nat} {b : Bool} {τ τ' : ASt} (ht : atick O C n r b τ = some τ') (e : x ≠ r) : τ'.pc x = τ.pc x := by
  unfold atick at ht
  split at ht
  · split at ht
    · split at ht <;> (cases ht; simp [BB.upd, e])
    · cases ht; simp [BB.upd, e]
  · split at ht
    · cases ht
    · cases ht; simp [BB.upd, e]
  · split at ht <;> (cases ht; simp [BB.upd, e])
  · split at ht
    · cases ht; simp [BB.upd, e]
    · cases ht
  · cases ht

/-- messages appear only when their sender posts them -/
theorem chan_step {O : FOps} {C : QCfg} {n r x d : Nat} {b : Bool} {τ τ' : ASt} (ht : atick O C n r b τ = some τ') (h : τ.chan x d = []) :
    τ'.chan x d = [] ∨ (x = r ∧ ∃ u, τ.pc x = .send u ∧ x % u = 0 ∧ x % (2 * u) ≠ 0 ∧ d = x - u) := by
  unfold atick at ht
  split at ht
  · split at ht
    · split at ht <;> (cases ht; exact .inl h)
    · cases ht; exact .inl h
  · split at ht
    · cases ht
    · rename_i m ms hm
      cases ht
      left
      simp only [setChan]
      split
      · rename_i e
        rw [← e.1, ← e.2, h] at hm; cases hm
      · exact h
  · rename_i s hs
    split at ht
    · rename_i hc
      cases ht
      simp only [setChan]
      by_cases e : x = r ∧ d = r - s
      · obtain ⟨rfl, rfl⟩ := e
        exact .inr ⟨rfl, s, hs, hc.1, hc.2, rfl⟩
      · exact .inl (by rw [if_neg e]; exact h)
    · cases ht; exact .inl h
  · split at ht
    · cases ht; exact .inl h
    · cases ht
  · cases ht

/-- rank `y` never sends its message -/
def Silent (O : FOps) (lq cq : CQuery) (n : Nat) (P : Nat → Bool) (R : Nat → List (List QEnt)) (y : Nat) : Prop :=
  ∀ k τ, AExec O lq cq n P R k τ → ∀ s, Sends y s → τ.chan y (y - s) = []

theorem absent_done {O : FOps} {lq cq : CQuery} {n : Nat} {P : Nat → Bool} {R : Nat → List (List QEnt)} {y : Nat} (hy : P y = false) {k : Nat} {τ : ASt}
    (h : AExec O lq cq n P R k τ) : τ.pc y = .done := by
  induction h with
  | init => simp [ainit, hy]
  | @step k τ τ' h r hr b ht ih =>
    by_cases e : y = r
    · subst e
      unfold atick at ht
      rw [ih] at ht
      cases ht
    · rw [pc_other ht e]; exact ih

theorem absent_silent {O : FOps} {lq cq : CQuery} {n : Nat} {P : Nat → Bool} {R : Nat → List (List QEnt)} {y : Nat} (hy : P y = false) : Silent O lq cq n P R y := by
  intro k τ h s hs
  induction h with
  | init => rfl
  | @step k τ τ' h r hr b ht ih =>
    rcases chan_step ht ih with h' | ⟨_, u, hu, _⟩
    · exact h'
    · rw [absent_done hy h] at hu; cases hu

/-- the receiver waits for the message forever -/
theorem waits {O : FOps} {lq cq : CQuery} {n : Nat} {P : Nat → Bool} {R : Nat → List (List QEnt)} {y s : Nat} (hy : y < n) (hs : Sends y s) (hS : Silent O lq cq n P R y)
    (hP : P (y - s) = true) {k : Nat} {τ : ASt} (h : AExec O lq cq n P R k τ) : ¬ received (τ.pc (y - s)) s := by
  have hle := hs.le
  have hpos := hs.1.pos
  obtain ⟨x, hx⟩ : ∃ x, x = y - s := ⟨_, rfl⟩
  have hxy : x + s = y := by omega
  have hdest : x % (2 * s) = 0 := hx ▸ hs.dest
  rw [← hx] at hP ⊢
  induction h with
  | init => simp only [ainit, hP, if_true, received]; omega
  | @step k τ τ' h r hr b ht ih =>
    by_cases e : x = r
    · subst e
      have hok := pcOk h x
      have hch := hS _ _ h s hs
      rw [← hx] at hch
      unfold atick at ht
      split at ht
      · rename_i u hu
        rw [hu] at ih hok
        have ih' : ¬ s < u := ih
        split at ht
        · split at ht
          · cases ht; simp only [BB.upd, if_true, received]; exact ih'
          · rename_i hc
            cases ht
            simp only [BB.upd, if_true, received]
            intro hsu
            have : u = s := by omega
            subst this
            exact hc ⟨hdest, by omega⟩
        · rename_i hn; omega
      · rename_i u hu
        rw [hu] at ih hok
        have ih' : ¬ s < u := ih
        split at ht
        · cases ht
        · rename_i m ms hm
          cases ht
          simp only [BB.upd, if_true, received]
          intro hsu
          have : u = s := by omega
          subst this
          rw [hxy, hch] at hm; cases hm
      · rename_i u hu
        rw [hu] at ih hok
        have ih' : ¬ s ≤ u := ih
        split at ht
        · cases ht; simp only [BB.upd, if_true, received]; exact ih'
        · cases ht; simp only [BB.upd, if_true, received]
          rw [pow_lt_dbl hs.1 hok]; exact ih'
      · rename_i u hu
        rw [hu] at ih hok
        have ih' : ¬ s ≤ u := ih
        split at ht
        · cases ht; simp only [BB.upd, if_true, received]
          rw [pow_lt_dbl hs.1 hok.1]; exact ih'
        · cases ht
      · cases ht
    · rw [pc_other ht e]; exact ih

/-- a rank that waits forever never sends its own message -/
theorem silent_up {O : FOps} {lq cq : CQuery} {n : Nat} {P : Nat → Bool} {R : Nat → List (List QEnt)} {y s : Nat} (hy : y < n) (hs : Sends y s) (hS : Silent O lq cq n P R y) :
    Silent O lq cq n P R (y - s) := by
  cases hP : P (y - s) with
  | false => exact absent_silent hP
  | true =>
    intro k τ h t ht0
    have hts : s < t := by
      by_contra hc
      apply ht0.2.2
      rcases Nat.lt_or_eq_of_le (Nat.le_of_not_lt hc) with hlt | he
      · exact Nat.mod_eq_zero_of_dvd (Nat.dvd_trans (Nat.dvd_trans (ht0.1.dvd hs.1 hlt) ⟨2, by ring⟩) (Nat.dvd_of_mod_eq_zero hs.dest))
      · rw [he]; exact hs.dest
    induction h with
    | init => rfl
    | @step k τ τ' h r hr b ht ih =>
      rcases chan_step ht ih with h' | ⟨_, u, hu, h1, h2, hd⟩
      · exact h'
      · exfalso
        have hw := waits hy hs hS hP h
        rw [hu] at hw
        have hw' : ¬ s ≤ u := hw
        have := ht0.le
        omega

/-- **C106 is violated** when some process does not take part (its channel was never started, so that `collective_flush` returns at
once): with any number of processes, if any rank other than 0 stays out, then rank 0 never returns, in any execution. -/
theorem C106_absent_violated {O : FOps} {lq cq : CQuery} {n : Nat} {P : Nat → Bool} {R : Nat → List (List QEnt)} {a : Nat} (ha : a < n) (ha0 : 0 < a) (hP : P a = false)
    (h0 : P 0 = true) {k : Nat} {τ : ASt} (h : AExec O lq cq n P R k τ) : τ.pc 0 ≠ .done := by
  have key : ∀ a, a < n → 0 < a → Silent O lq cq n P R a → τ.pc 0 ≠ .done := by
    intro a
    induction a using Nat.strongRecOn with
    | ind a ih =>
      intro ha ha0 hS
      obtain ⟨s, hs⟩ := exists_sends ha0
      have hle := hs.le
      have hpos := hs.1.pos
      by_cases hx : a - s = 0
      · have := waits ha hs hS (by rw [hx]; exact h0) h
        rw [hx] at this
        intro hd
        rw [hd] at this
        exact this trivial
      · exact ih (a - s) (by omega) (by omega) (by omega) (silent_up ha hs hS)
  exact key a ha ha0 (absent_silent hP)

/-! ## The hypotheses are met -/

/-- the two processes of the example of C30, with the query `count(), sum(x), min(x), max(x), avg(x)` -/
def demoR (r : Nat) : List (List QEnt) := if r = 0 then QDemo.p1 else if r = 1 then QDemo.p2 else []

/-- an execution with two processes ends, and rank 0 prints what one process would print for all three records -/
theorem C106_demo : ∃ k τ out, AExec QDemo.ops ⟨some, QDemo.all⟩ ⟨some, QDemo.all⟩ 2 (fun _ => true) demoR k τ ∧ Finished 2 τ ∧
    printed QDemo.ops ⟨some, QDemo.all⟩ τ 0 = some out ∧
    out.Perm [[.imm 2 (.int 5), .ref [(1, .string [2]), (1, .string [1])], .imm 20 (.uint 2), .imm 21 (.int 7), .imm 22 (.int 3), .imm 23 (.int 4),
        .imm 25 (.int 3), .imm 24 (.int 7), .imm 26 (.uint 2)],
     [.ref [(1, .string [1])], .imm 20 (.uint 1), .imm 21 (.int 7), .imm 22 (.int 7), .imm 23 (.int 7), .imm 25 (.int 7), .imm 24 (.int 7),
        .imm 26 (.uint 1)]] := by
  obtain ⟨k, τ, h, hd⟩ := C106_can_finish (AExec.init (O := QDemo.ops) (lq := ⟨some, QDemo.all⟩) (cq := ⟨some, QDemo.all⟩) (n := 2) (R := demoR))
  obtain ⟨h1, h2, h3, h4⟩ := QDemo.hyps
  have e : (List.range 2).flatMap demoR = [QDemo.p1, QDemo.p2].flatten := by decide
  obtain ⟨out, ho, hp⟩ := C106_single_process_partial h1 (by omega) (by rw [e]; exact h2)
    (by
      rw [e]
      intro r hr
      obtain ⟨p, hp, hr⟩ := List.mem_flatten.1 hr
      exact h3 p hp r hr)
    (by
      rw [e]
      refine ⟨?_, by decide⟩
      intro r hr
      obtain ⟨p, hp, hr⟩ := List.mem_flatten.1 hr
      exact (h4 p hp).fresh r hr) h hd
  refine ⟨k, τ, out, h, hd, ho, hp.trans ?_⟩
  rw [e]
  exact List.Perm.of_eq (by decide +kernel)

/-- some execution of `l` steps, each given by a rank -/
def runs (O : FOps) (C : QCfg) (n : Nat) : List Nat → ASt → Option ASt
  | [], τ => some τ
  | r :: rs, τ => (atick O C n r true τ).bind (runs O C n rs)

theorem runs_exec {O : FOps} {lq cq : CQuery} {n : Nat} {P : Nat → Bool} {R : Nat → List (List QEnt)} : ∀ (l : List Nat) {k : Nat} {τ τ' : ASt}, AExec O lq cq n P R k τ →
    (∀ r ∈ l, r < n) → runs O cq.cfg n l τ = some τ' → AExec O lq cq n P R (k + l.length) τ' := by
  intro l
  induction l with
  | nil => intro k τ τ' h _ hr; cases hr; exact h
  | cons r rs ih =>
    intro k τ τ' h hl hr
    simp only [runs] at hr
    obtain ⟨τ1, h1, h2⟩ := Option.bind_eq_some_iff.1 hr
    have := ih (h.step r (hl r (by simp)) true h1) (fun x hx => hl x (by simp [hx])) h2
    simp only [List.length_cons]
    rw [show k + (rs.length + 1) = k + 1 + rs.length by omega]
    exact this

/-- the cross query of the example below: `inclusive_sum` over the sums of the local query -/
def inclQ : CQuery := ⟨some, QDemo.cfg [.sum 21 22 true]⟩
/-- the local query: sums per path -/
def sumQ : CQuery := ⟨some, QDemo.cfg [.sum 10 21 false]⟩

/-- **C106 is violated** by inclusive metrics in the cross-process query: one record with value 4 in an inner region on rank 1, and rank
0 prints 8 for the outer region, where a process having that record alone prints 4. -/
theorem C106_inclusive_violated :
    (∃ k τ, AExec QDemo.ops sumQ inclQ 2 (fun _ => true) (fun r => if r = 1 then QDemo.nested else []) k τ ∧ Finished 2 τ ∧
      (printed QDemo.ops inclQ τ 0).map QDemo.outer = some [[.ref [(1, .string [1])], .imm 22 (.int 8)]]) ∧
    (∃ k τ, AExec QDemo.ops sumQ inclQ 1 (fun _ => true) (fun _ => QDemo.nested) k τ ∧ Finished 1 τ ∧
      (printed QDemo.ops inclQ τ 0).map QDemo.outer = some [[.ref [(1, .string [1])], .imm 22 (.int 4)]]) := by
  have key : ∀ (n : Nat) (R : Nat → List (List QEnt)) (l : List Nat) (out : List (List QEnt)), (∀ r ∈ l, r < n) →
      (runs QDemo.ops inclQ.cfg n l (ainit QDemo.ops sumQ inclQ (fun _ => true) R)).map
        (fun τ => ((List.range n).all fun r => decide (τ.pc r = .done), (printed QDemo.ops inclQ τ 0).map QDemo.outer)) = some (true, some out) →
      ∃ k τ, AExec QDemo.ops sumQ inclQ n (fun _ => true) R k τ ∧ Finished n τ ∧ (printed QDemo.ops inclQ τ 0).map QDemo.outer = some out := by
    intro n R l out hl h
    obtain ⟨τ, h1, h2⟩ := Option.map_eq_some_iff.1 h
    obtain ⟨h3, h4⟩ := Prod.mk.injEq .. ▸ h2
    refine ⟨_, τ, runs_exec l .init hl h1, ?_, h4⟩
    intro r hr
    have := List.all_eq_true.1 h3 r (by simpa using hr)
    simpa using this
  exact ⟨key 2 _ [1, 1, 1, 1, 0, 0, 0, 0] _ (by decide) (by decide +kernel), key 1 _ [0] _ (by decide) (by decide +kernel)⟩

end Verif.Mpi
