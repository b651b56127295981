import Verif.Query.Agg
import Mathlib.Data.List.Forall2
import Mathlib.Data.List.Induction
/-!
# The query aggregator implements a map from keys to kernel states
-/
namespace Verif.Query
open Verif Verif.Cali Verif.Agg

/-- abstract state: the keys in order of creation and the kernel states per key and kernel number -/
structure QAbs where
  keys : List (List KEnt)
  st : List KEnt → Nat → KSt

/-- a hash chain -/
inductive QChain (entries : List QEntry) : Nat → List Nat → Prop
  | nil : QChain entries 0 []
  | cons {idx : Nat} {e : QEntry} {l : List Nat} : 0 < idx → entries[idx]? = some e → e.next < idx → QChain entries e.next l →
      QChain entries idx (idx :: l)

theorem QChain.mono {es : List QEntry} {idx : Nat} {l : List Nat} (h : QChain es idx l) {es' : List QEntry}
    (hm : ∀ (i : Nat) (e : QEntry), es[i]? = some e → ∃ e' : QEntry, es'[i]? = some e' ∧ e'.next = e.next) : QChain es' idx l := by
  induction h with
  | nil => exact .nil
  | cons h1 h2 h3 _ ih =>
    obtain ⟨e', a, b⟩ := hm _ _ h2
    exact .cons h1 a (by omega) (by rw [b]; exact ih)

theorem QChain.lt {es : List QEntry} {idx : Nat} {l : List Nat} (h : QChain es idx l) (hp : 0 < es.length) : idx < es.length := by
  induction h with
  | nil => exact hp
  | cons _ h2 => exact (List.getElem?_eq_some_iff.1 h2).1

/-- the aggregator represents the abstract state -/
structure QRep (C : QCfg) (s : QAgg) (A : QAbs) : Prop where
  len : s.entries.length = A.keys.length + 1
  ents : ∀ i K, A.keys[i]? = some K → ∃ e, s.entries[i + 1]? = some e ∧ e.key = K ∧ e.kernels = (List.range C.kernels.length).map (A.st K)
  chains : ∀ h, ∃ l, QChain s.entries (s.hash h) l ∧ ∀ i, i ∈ l ↔ ∃ j K, i = j + 1 ∧ A.keys[j]? = some K ∧ C.hash K % qslots = h
  nodup : A.keys.Nodup
  fresh : ∀ K, K ∉ A.keys → A.st K = fun _ => KSt.new

theorem QRep.init (C : QCfg) : QRep C QAgg.init ⟨[], fun _ _ => KSt.new⟩ := by
  refine ⟨rfl, by simp, ?_, by simp, fun _ _ => rfl⟩
  intro h
  exact ⟨[], .nil, by simp⟩

theorem find_spec {C : QCfg} {s : QAgg} {A : QAbs} (hr : QRep C s A) (key : List KEnt) {idx : Nat} {l : List Nat}
    (hc : QChain s.entries idx l) : ∀ fuel, idx < fuel →
    (∃ j, s.find key fuel idx = some (j + 1) ∧ A.keys[j]? = some key) ∨
    (s.find key fuel idx = none ∧ ∀ j, j + 1 ∈ l → A.keys[j]? ≠ some key) := by
  induction hc with
  | nil =>
    intro fuel hf
    obtain ⟨k, rfl⟩ : ∃ k, fuel = k + 1 := ⟨fuel - 1, by omega⟩
    right
    simp [QAgg.find]
  | @cons idx e l h1 h2 h3 _ ih =>
    intro fuel hf
    obtain ⟨k, rfl⟩ : ∃ k, fuel = k + 1 := ⟨fuel - 1, by omega⟩
    simp only [QAgg.find, h2, if_neg (show idx ≠ 0 by omega)]
    obtain ⟨j, rfl⟩ : ∃ j, idx = j + 1 := ⟨idx - 1, by omega⟩
    have hj : j < A.keys.length := by
      have := (List.getElem?_eq_some_iff.1 h2).1
      rw [hr.len] at this; omega
    have hg := List.getElem?_eq_getElem hj
    obtain ⟨e', he', hk, _⟩ := hr.ents j _ hg
    rw [h2] at he'; cases he'
    by_cases hm : key = e.key
    · rw [if_pos hm]
      exact .inl ⟨j, rfl, by rw [hg, ← hk, hm]⟩
    · rw [if_neg hm]
      rcases ih k (by omega) with ⟨j', a, b⟩ | ⟨a, b⟩
      · exact .inl ⟨j', a, b⟩
      · refine .inr ⟨a, ?_⟩
        intro j' hj'
        rcases List.mem_cons.1 hj' with h | h
        · have : j' = j := by omega
          subst this
          rw [hg, ← hk]
          intro hc
          exact hm (Option.some.inj hc).symm
        · exact b j' h

/-- make sure there is an entry for a key -/
def QAbs.touch (A : QAbs) (K : List KEnt) : QAbs := ⟨if K ∈ A.keys then A.keys else A.keys ++ [K], A.st⟩

/-- run a kernel for a key -/
def QAbs.upd (O : FOps) (C : QCfg) (A : QAbs) (K : List KEnt) (k : Nat) (rec : List QEnt) : QAbs :=
  ⟨A.keys, fun K' k' => if K' = K ∧ k' = k then
    (match C.kernels[k]? with
     | some cfg => (cfg.aggregate O C.known (A.st K k) rec).1
     | none => A.st K k)
    else A.st K' k'⟩

theorem getEntry_spec {C : QCfg} {s : QAgg} {A : QAbs} (hr : QRep C s A) (K : List KEnt) :
    ∃ j, (s.getEntry C K).2 = j + 1 ∧ (A.touch K).keys[j]? = some K ∧ QRep C (s.getEntry C K).1 (A.touch K) := by
  unfold QAgg.getEntry
  simp only
  obtain ⟨l, hc, hl⟩ := hr.chains (C.hash K % qslots)
  have hpos : 0 < s.entries.length := by rw [hr.len]; omega
  have hlt := hc.lt hpos
  rcases find_spec hr K hc (s.entries.length + 1) (by omega) with ⟨j, hf, hj⟩ | ⟨hf, hno⟩
  · have hmem : K ∈ A.keys := List.mem_of_getElem? hj
    have ht : A.touch K = A := by unfold QAbs.touch; rw [if_pos hmem]
    rw [hf, ht]
    exact ⟨j, rfl, hj, hr⟩
  · rw [hf]
    have hmem : K ∉ A.keys := by
      intro hm
      obtain ⟨j, hj⟩ := List.mem_iff_getElem?.1 hm
      exact hno j ((hl _).2 ⟨j, K, rfl, hj, rfl⟩) hj
    have ht : (A.touch K).keys = A.keys ++ [K] := by unfold QAbs.touch; simp [hmem]
    refine ⟨A.keys.length, by simp [hr.len], by rw [ht]; simp, ?_⟩
    have lift : ∀ (i : Nat) (e : QEntry), s.entries[i]? = some e →
        (s.entries ++ [⟨K, List.replicate C.kernels.length KSt.new, s.hash (C.hash K % qslots)⟩])[i]? = some e := by
      intro i e hi
      rw [List.getElem?_append_left (List.getElem?_eq_some_iff.1 hi).1, hi]
    refine ⟨by simp [ht, hr.len], ?_, ?_, ?_, ?_⟩
    · intro i K' hi
      rw [ht] at hi
      rcases Nat.lt_or_ge i A.keys.length with hlt | hge
      · rw [List.getElem?_append_left hlt] at hi
        obtain ⟨e, a, b, c⟩ := hr.ents i K' hi
        exact ⟨e, lift _ _ a, b, c⟩
      · rw [List.getElem?_append_right hge] at hi
        have hi0 : i = A.keys.length := by
          have := (List.getElem?_eq_some_iff.1 hi).1
          simp at this; omega
        subst hi0
        simp at hi
        subst hi
        refine ⟨⟨K, List.replicate C.kernels.length KSt.new, s.hash (C.hash K % qslots)⟩, ?_, rfl, ?_⟩
        · rw [← hr.len]; simp
        · show List.replicate _ _ = List.map (A.st K) _
          rw [hr.fresh K hmem, List.map_const', List.length_range]
    · intro h'
      obtain ⟨l', hc2, hl2⟩ := hr.chains h'
      have hc' := hc2.mono (es' := s.entries ++ [⟨K, List.replicate C.kernels.length KSt.new, s.hash (C.hash K % qslots)⟩])
        fun i e hi => ⟨e, lift i e hi, rfl⟩
      have grow : ∀ i, (∃ j K', i = j + 1 ∧ (A.touch K).keys[j]? = some K' ∧ C.hash K' % qslots = h') ↔
          (i ∈ l' ∨ (i = A.keys.length + 1 ∧ C.hash K % qslots = h')) := by
        intro i
        rw [ht]
        constructor
        · rintro ⟨j, g, rfl, b, c⟩
          rcases Nat.lt_or_ge j A.keys.length with hlt | hge
          · rw [List.getElem?_append_left hlt] at b
            exact .inl ((hl2 _).2 ⟨j, g, rfl, b, c⟩)
          · rw [List.getElem?_append_right hge] at b
            have hj : j = A.keys.length := by
              have := (List.getElem?_eq_some_iff.1 b).1
              simp at this; omega
            subst hj
            simp at b
            subst b
            exact .inr ⟨rfl, c⟩
        · rintro (hi | ⟨rfl, hh⟩)
          · obtain ⟨j, g, a, b, c⟩ := (hl2 i).1 hi
            exact ⟨j, g, a, by rw [List.getElem?_append_left (List.getElem?_eq_some_iff.1 b).1, b], c⟩
          · exact ⟨A.keys.length, K, rfl, by simp, hh⟩
      by_cases hh : h' = C.hash K % qslots
      · subst hh
        refine ⟨s.entries.length :: l', ?_, ?_⟩
        · simp only [if_true]
          exact .cons hpos (e := ⟨K, List.replicate C.kernels.length KSt.new, s.hash (C.hash K % qslots)⟩) (by simp) hlt hc'
        · intro i
          rw [grow, List.mem_cons, hr.len]
          constructor
          · rintro (h | h)
            · exact .inr ⟨h, rfl⟩
            · exact .inl h
          · rintro (h | ⟨h, _⟩)
            · exact .inr h
            · exact .inl h
      · refine ⟨l', by simpa [hh] using hc', ?_⟩
        intro i
        rw [grow]
        constructor
        · exact .inl
        · rintro (h | ⟨_, h⟩)
          · exact h
          · exact absurd h.symm hh
    · rw [ht]
      refine List.nodup_append.2 ⟨hr.nodup, by simp, ?_⟩
      intro a ha b hb
      simp at hb
      subst hb
      intro hc
      exact hmem (hc ▸ ha)
    · intro K' hK'
      rw [ht] at hK'
      exact hr.fresh K' (fun h => hK' (List.mem_append_left _ h))

/-- the number of matches of a kernel in a record -/
def KCfg.matches (O : FOps) (known : Nat → Bool) (k : KCfg) (rec : List QEnt) : Nat := (k.aggregate O known KSt.new rec).2

theorem avg_matches (O : FOps) (t sA cA : Nat) (rec : List QEnt) : ∀ (s s' : KSt) (n : Nat),
    (rec.foldl (avgStep O t sA cA) (s, n)).2 = (rec.foldl (avgStep O t sA cA) (s', n)).2 := by
  induction rec with
  | nil => intro s s' n; rfl
  | cons e rec ih =>
    intro s s' n
    simp only [List.foldl_cons, avgStep]
    split
    · exact ih _ _ _
    · split
      · exact ih _ _ _
      · split
        · exact ih _ _ _
        · exact ih _ _ _

theorem aggregate_matches (O : FOps) (known : Nat → Bool) (k : KCfg) (s : KSt) (rec : List QEnt) :
    (k.aggregate O known s rec).2 = k.matches O known rec := by
  cases k with
  | count c => rfl
  | sum t d i => rfl
  | min t d i => rfl
  | max t d i => rfl
  | avg t sA aA cA =>
    unfold KCfg.matches KCfg.aggregate
    simp only
    split
    · exact avg_matches O t sA cA rec _ _ _
    · rfl

theorem runKernel_spec {O : FOps} {C : QCfg} {s : QAgg} {A : QAbs} (hr : QRep C s A) {K : List KEnt} {j k : Nat}
    (hj : A.keys[j]? = some K) (hk : k < C.kernels.length) (rec : List QEnt) :
    QRep C (s.runKernel O C (j + 1) k rec).1 (A.upd O C K k rec) ∧
    (s.runKernel O C (j + 1) k rec).2 = (C.kernels[k]).matches O C.known rec := by
  obtain ⟨e, he, hek, hes⟩ := hr.ents j K hj
  have hck := List.getElem?_eq_getElem hk
  have hst : e.kernels.getD k KSt.new = A.st K k := by
    rw [hes]; simp [List.getD_eq_getElem?_getD, hk]
  have hmemK : K ∈ A.keys := List.mem_of_getElem? hj
  unfold QAgg.runKernel
  simp only [he, hck, hst]
  refine ⟨⟨by simp [QAbs.upd, hr.len], ?_, ?_, hr.nodup, ?_⟩, aggregate_matches _ _ _ _ _⟩
  · intro i K' hi
    simp only [QAbs.upd] at hi
    obtain ⟨e', he', hek', hes'⟩ := hr.ents i K' hi
    by_cases hij : j = i
    · subst hij
      rw [hj] at hi
      cases hi
      rw [he] at he'
      cases he'
      have hjl : j + 1 < s.entries.length := (List.getElem?_eq_some_iff.1 he).1
      refine ⟨{ e with kernels := e.kernels.set k ((C.kernels[k]).aggregate O C.known (A.st K k) rec).1 }, by rw [List.getElem?_set_self hjl], hek, ?_⟩
      show e.kernels.set k _ = _
      rw [hes]
      apply List.ext_getElem?
      intro m
      simp only [List.getElem?_set, List.length_map, List.length_range, List.getElem?_map, QAbs.upd]
      by_cases hm : k = m
      · subst hm
        simp [hk, hck]
      · rw [if_neg hm]
        cases hmr : (List.range C.kernels.length)[m]? with
        | none => rfl
        | some x =>
          have hx : x = m := by
            obtain ⟨h1, h2⟩ := List.getElem?_eq_some_iff.1 hmr
            simpa using h2.symm
          subst hx
          simp [Ne.symm hm]
    · refine ⟨e', ?_, hek', ?_⟩
      · rw [List.getElem?_set_ne (by omega), he']
      · rw [hes']
        apply List.map_congr_left
        intro m _
        have hne : K' ≠ K := by
          rintro rfl
          exact hij ((List.getElem?_inj (List.getElem?_eq_some_iff.1 hj).1 hr.nodup).1 (hj.trans hi.symm))
        simp [QAbs.upd, hne]
  · intro h
    obtain ⟨l, hc, hl⟩ := hr.chains h
    refine ⟨l, hc.mono ?_, hl⟩
    intro i e' hi
    by_cases hij : j + 1 = i
    · subst hij
      rw [he] at hi
      cases hi
      exact ⟨{ e with kernels := e.kernels.set k ((C.kernels[k]).aggregate O C.known (A.st K k) rec).1 },
        by rw [List.getElem?_set_self (List.getElem?_eq_some_iff.1 he).1], rfl⟩
    · exact ⟨e', by rw [List.getElem?_set_ne hij, hi], rfl⟩
  · intro K' hK'
    have hne : K' ≠ K := by
      rintro rfl
      exact hK' hmemK
    funext m
    simp only [QAbs.upd]
    rw [if_neg (fun h => hne h.1)]
    exact congrFun (hr.fresh K' hK') m

/-! ## The effect of a record -/

/-- keys stay, in order, at the front -/
def QAbs.Grows (A B : QAbs) : Prop := ∃ l, B.keys = A.keys ++ l

theorem QAbs.Grows.get {A B : QAbs} (h : A.Grows B) {j : Nat} {K : List KEnt} (hj : A.keys[j]? = some K) : B.keys[j]? = some K := by
  obtain ⟨l, hl⟩ := h
  rw [hl, List.getElem?_append_left (List.getElem?_eq_some_iff.1 hj).1, hj]

theorem QAbs.Grows.trans {A B D : QAbs} (h : A.Grows B) (h' : B.Grows D) : A.Grows D := by
  obtain ⟨l, hl⟩ := h
  obtain ⟨m, hm⟩ := h'
  exact ⟨l ++ m, by rw [hm, hl, List.append_assoc]⟩

theorem QAbs.touch_grows (A : QAbs) (K : List KEnt) : A.Grows (A.touch K) := by
  unfold QAbs.touch
  by_cases h : K ∈ A.keys
  · exact ⟨[], by simp [h]⟩
  · exact ⟨[K], by simp [h]⟩

/-- loop over the parents, abstractly -/
def QAbs.parents (O : FOps) (C : QCfg) (pre : List KEnt) (k : Nat) (rec : List QEnt) (ps : List (List (Nat × Val))) (A : QAbs) : QAbs :=
  ps.foldl (fun A p => (A.touch (pre ++ [.node p])).upd O C (pre ++ [.node p]) k rec) A

/-- whether a kernel also updates the parents -/
def QCfg.up (O : FOps) (C : QCfg) (k : KCfg) (rec : List QEnt) : Bool := k.incl && decide (0 < k.matches O C.known rec)

/-- the loop over the kernels, abstractly -/
def QAbs.kernels (O : FOps) (C : QCfg) (rec : List QEnt) (ks : List Nat) (A : QAbs) : QAbs :=
  ks.foldl (fun A k =>
    let A := A.upd O C (C.keyOf rec) k rec
    if (C.kernels[k]?.map fun c => C.up O c rec).getD false then A.parents O C (C.preKey rec) k rec (ancestors (C.pathOf rec)) else A) A

theorem parents_spec {O : FOps} {C : QCfg} (pre : List KEnt) {k : Nat} (hk : k < C.kernels.length) (rec : List QEnt)
    (ps : List (List (Nat × Val))) : ∀ {s : QAgg} {A : QAbs}, QRep C s A →
    QRep C (QAgg.parents O C pre k rec ps s) (A.parents O C pre k rec ps) ∧ A.Grows (A.parents O C pre k rec ps) := by
  induction ps with
  | nil => intro s A h; exact ⟨h, [], by simp [QAbs.parents]⟩
  | cons p ps ih =>
    intro s A h
    obtain ⟨j, h1, h2, h3⟩ := getEntry_spec h (pre ++ [.node p])
    have h4 := (runKernel_spec (O := O) h3 h2 hk rec).1
    obtain ⟨h5, h6⟩ := ih h4
    refine ⟨?_, (A.touch_grows (pre ++ [.node p])).trans (QAbs.Grows.trans ⟨[], by simp [QAbs.upd]⟩ h6)⟩
    simp only [QAgg.parents]
    rw [show (s.getEntry C (pre ++ [.node p])) = ((s.getEntry C (pre ++ [.node p])).1, (s.getEntry C (pre ++ [.node p])).2) from rfl]
    simp only [h1]
    exact h5

theorem ancestors_nil : ancestors [] = [] := rfl

theorem kernelLoop_spec {O : FOps} {C : QCfg} (rec : List QEnt) (ks : List Nat) (hks : ∀ k ∈ ks, k < C.kernels.length) :
    ∀ {s : QAgg} {A : QAbs} {j : Nat}, QRep C s A → A.keys[j]? = some (C.keyOf rec) →
    QRep C (QAgg.kernelLoop O C (j + 1) rec ks s) (A.kernels O C rec ks) := by
  induction ks with
  | nil => intro s A j h _; exact h
  | cons k ks ih =>
    intro s A j h hj
    have hk := hks k (by simp)
    have ih := fun {s A j} => @ih (fun k hk => hks k (List.mem_cons_of_mem _ hk)) s A j
    obtain ⟨h1, h2⟩ := runKernel_spec (O := O) h hj hk rec
    have hck := List.getElem?_eq_getElem hk
    have hcons : A.kernels O C rec (k :: ks) = QAbs.kernels O C rec ks
        (if (C.kernels[k]?.map fun c => C.up O c rec).getD false then
          QAbs.parents O C (C.preKey rec) k rec (ancestors (C.pathOf rec)) (A.upd O C (C.keyOf rec) k rec)
         else A.upd O C (C.keyOf rec) k rec) := rfl
    rw [hcons]
    simp only [QAgg.kernelLoop]
    rw [show (s.runKernel O C (j + 1) k rec) = ((s.runKernel O C (j + 1) k rec).1, (s.runKernel O C (j + 1) k rec).2) from rfl]
    simp only [h2, hck, Option.map_some, Option.getD_some]
    by_cases hp : C.pathOf rec = []
    · rw [hp]
      simp only [ne_eq, not_true_eq_false, decide_false, Bool.and_false, Bool.false_eq_true, if_false, ancestors_nil]
      have : (if C.up O C.kernels[k] rec = true then QAbs.parents O C (C.preKey rec) k rec [] (A.upd O C (C.keyOf rec) k rec)
          else A.upd O C (C.keyOf rec) k rec) = A.upd O C (C.keyOf rec) k rec := by
        split <;> rfl
      rw [this]
      exact ih h1 hj
    · simp only [ne_eq, hp, not_false_eq_true, decide_true, Bool.and_true]
      by_cases hu : C.up O C.kernels[k] rec = true
      · rw [if_pos hu]
        rw [if_pos (by simpa [QCfg.up] using hu)]
        obtain ⟨h3, h4⟩ := parents_spec (O := O) (C.preKey rec) hk rec (ancestors (C.pathOf rec)) h1
        exact ih h3 (h4.get hj)
      · rw [if_neg hu, if_neg (by simpa [QCfg.up] using hu)]
        exact ih h1 hj

/-- processing a record, abstractly -/
def QAbs.process (O : FOps) (C : QCfg) (A : QAbs) (rec : List QEnt) : QAbs :=
  (A.touch (C.keyOf rec)).kernels O C rec (List.range C.kernels.length)

theorem process_spec {O : FOps} {C : QCfg} {s : QAgg} {A : QAbs} (h : QRep C s A) (rec : List QEnt) :
    QRep C (s.process O C rec) (A.process O C rec) := by
  obtain ⟨j, h1, h2, h3⟩ := getEntry_spec h (C.keyOf rec)
  unfold QAgg.process QAbs.process
  rw [show (s.getEntry C (C.keyOf rec)) = ((s.getEntry C (C.keyOf rec)).1, (s.getEntry C (C.keyOf rec)).2) from rfl]
  simp only [h1]
  exact kernelLoop_spec rec _ (by simp) h3 h2

theorem run_spec {O : FOps} {C : QCfg} (recs : List (List QEnt)) : ∀ {s : QAgg} {A : QAbs}, QRep C s A →
    QRep C (s.run O C recs) (recs.foldl (fun A r => A.process O C r) A) := by
  induction recs with
  | nil => intro s A h; exact h
  | cons r recs ih => intro s A h; exact ih (process_spec h r)

theorem results_map (O : FOps) (cs : List KCfg) (st : Nat → KSt) : ∀ n,
    results O cs ((List.range' n cs.length).map st) = (cs.zipIdx n).flatMap fun c => c.1.result O (st c.2) := by
  induction cs with
  | nil => intro n; rfl
  | cons c cs ih =>
    intro n
    simp only [List.length_cons, List.range'_succ, List.map_cons, results, List.zipIdx_cons, List.flatMap_cons, ih]

theorem flush_spec {O : FOps} {C : QCfg} {s : QAgg} {A : QAbs} (h : QRep C s A) :
    s.flush O C = A.keys.map fun K => K.map KEnt.toQ ++ C.kernels.zipIdx.flatMap fun c => c.1.result O (A.st K c.2) := by
  unfold QAgg.flush
  apply List.ext_getElem?
  intro i
  simp only [List.getElem?_map, List.getElem?_drop]
  rcases Nat.lt_or_ge i A.keys.length with hi | hi
  · obtain ⟨e, a, b, c⟩ := h.ents i _ (List.getElem?_eq_getElem hi)
    rw [Nat.add_comm 1 i, a, List.getElem?_eq_getElem hi]
    simp only [Option.map_some, b, c, List.range_eq_range', results_map]
  · rw [List.getElem?_eq_none (by rw [h.len]; omega), List.getElem?_eq_none hi]
    rfl

end Verif.Query
