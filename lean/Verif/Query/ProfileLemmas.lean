import Verif.Query.ProfileSpec
import Mathlib.Data.List.Induction
/-! # Lemmas about region profiles -/
namespace Verif.Query.Prof
open Verif Verif.Cali Verif.Query

variable {M : Type}

/-- one update of the map -/
def addU (C : Cfg M) (p : List (List Byte × M)) (u : List Byte × M) : List (List Byte × M) := addTo C p u.1 u.2

/-- the value of an update of key `k` -/
def sel (k : List Byte) (u : List Byte × M) : Option M := if u.1 = k then some u.2 else none

theorem find_addTo (C : Cfg M) (p : List (List Byte × M)) (k : List Byte) (v : M) (k' : List Byte) :
    find (addTo C p k v) k' = if k = k' then some (C.add ((find p k').getD C.zero) v) else find p k' := by
  induction p with
  | nil =>
    by_cases h : k = k' <;> simp [addTo, find, List.find?_cons, h]
  | cons x r ih =>
    obtain ⟨k0, y⟩ := x
    simp only [addTo]
    by_cases h0 : k0 = k
    · subst h0
      rw [if_pos rfl]
      by_cases h : k0 = k'
      · subst h; simp [find]
      · simp [find, List.find?_cons, h]
    · rw [if_neg h0]
      by_cases h : k0 = k'
      · subst h
        have : ¬ k = k0 := fun hh => h0 hh.symm
        simp [find, this]
      · have e1 : find ((k0, y) :: addTo C r k v) k' = find (addTo C r k v) k' := by simp [find, List.find?_cons, h]
        have e2 : find ((k0, y) :: r) k' = find r k' := by simp [find, List.find?_cons, h]
        rw [e1, e2, ih]

theorem find_foldl (C : Cfg M) (ups : List (List Byte × M)) (p : List (List Byte × M)) (k : List Byte) :
    find (ups.foldl (addU C) p) k =
      (ups.filterMap (sel k)).foldl (fun o v => some (C.add (o.getD C.zero) v)) (find p k) := by
  induction ups generalizing p with
  | nil => rfl
  | cons u us ih =>
    rw [List.foldl_cons, ih]
    unfold addU
    rw [find_addTo]
    by_cases h : u.1 = k
    · rw [if_pos h, List.filterMap_cons_some (by unfold sel; rw [if_pos h]), List.foldl_cons]
    · rw [if_neg h, List.filterMap_cons_none (by unfold sel; rw [if_neg h])]

theorem foldl_acc (C : Cfg M) (l : List M) (x : M) :
    l.foldl (fun (o : Option M) v => some (C.add (o.getD C.zero) v)) (some x) = some (l.foldl C.add x) := by
  induction l generalizing x with
  | nil => rfl
  | cons v l ih => simp only [List.foldl_cons, Option.getD_some]; exact ih _

theorem foldl_acc_none (C : Cfg M) (l : List M) :
    l.foldl (fun (o : Option M) v => some (C.add (o.getD C.zero) v)) none = sumOf C l := by
  cases l with
  | nil => rfl
  | cons v l =>
    simp only [List.foldl_cons, Option.getD_none]
    rw [foldl_acc]
    simp [sumOf, sumUp]

theorem find_ups (C : Cfg M) (ups : List (List Byte × M)) (k : List Byte) :
    find (ups.foldl (addU C) []) k = sumOf C (ups.filterMap (sel k)) := by
  rw [find_foldl, ← foldl_acc_none]; rfl

theorem metricOf_eq (C : Cfg M) (rec : List QEnt) : C.metricOf rec = measure C rec := by
  unfold Cfg.metricOf measure
  induction rec with
  | nil => rfl
  | cons e r ih =>
    by_cases h : e.attr = C.metric
    · simp [List.find?_cons, List.findSome?_cons, h]
    · simp only [List.find?_cons, List.findSome?_cons, h, decide_false, if_false]
      exact ih

theorem target_iff (C : Cfg M) (a : Nat) : C.target a = decide (Selected C a) := by
  unfold Cfg.target Selected Cfg.isNested
  by_cases h : C.region = invN
  · simp only [h, if_true]; by_cases ha : a = invN <;> simp [ha]
  · simp only [h, if_false]; by_cases ha : a = C.region
    · simp [ha]
    · simp [ha, Ne.symm ha]

theorem regionsOf_nodes (C : Cfg M) (e : QEnt) :
    regionsOf C e = ((nodesOf e).reverse.filter fun x => C.target x.1).map fun x => C.str x.2 := by
  cases e with
  | imm a v => rfl
  | ref p => simp only [regionsOf, nodesOf, target_iff]

/-- names along a list of nodes, outermost first -/
def names (C : Cfg M) (l : List (Nat × Val)) : List (List Byte) := (l.reverse.filter fun x => C.target x.1).map fun x => C.str x.2

theorem names_cons (C : Cfg M) (x : Nat × Val) (l : List (Nat × Val)) :
    names C (x :: l) = names C l ++ (if C.target x.1 then [C.str x.2] else []) := by
  unfold names
  rw [List.reverse_cons, List.filter_append, List.map_append]
  congr 1
  by_cases h : C.target x.1 = true <;> simp [h]

/-- the state after a stream -/
theorem run_append (C : Cfg M) (f : Cfg M → St M → List QEnt → St M) (recs : List (List QEnt)) (r : List QEnt) :
    run C f (recs ++ [r]) = f C (run C f recs) r := by
  unfold run; rw [List.foldl_append]; rfl

theorem run_prof (C : Cfg M) (f : Cfg M → St M → List QEnt → St M) (ups : List QEnt → List (List Byte × M))
    (P : List QEnt → Prop)
    (h : ∀ s r, P r → (f C s r).prof = (ups r).foldl (addU C) s.prof) (recs : List (List QEnt)) (hp : ∀ r ∈ recs, P r) :
    (run C f recs).prof = (recs.flatMap ups).foldl (addU C) [] := by
  induction recs using List.reverseRecOn with
  | nil => rfl
  | append_singleton rs r ih =>
    rw [run_append, h _ _ (hp r (by simp)), ih (fun x hx => hp x (by simp [hx])), List.flatMap_append, List.foldl_append]
    simp

theorem run_total (C : Cfg M) (f : Cfg M → St M → List QEnt → St M)
    (h : ∀ s r, (f C s r).total = match measure C r with | some v => C.add s.total v | none => s.total) (recs : List (List QEnt)) :
    (run C f recs).total = sumUp C (recs.filterMap (measure C)) := by
  induction recs using List.reverseRecOn with
  | nil => rfl
  | append_singleton rs r ih =>
    rw [run_append, h, ih, List.filterMap_append]
    cases hm : measure C r with
    | none => simp [hm]
    | some v => simp [hm, sumUp, List.foldl_append]

open Classical in
theorem run_totalReg (C : Cfg M) (f : Cfg M → St M → List QEnt → St M) (Q P : List QEnt → Prop)
    (h : ∀ s r, P r → (f C s r).totalReg =
      if Q r then (match measure C r with | some v => C.add s.totalReg v | none => s.totalReg) else s.totalReg)
    (recs : List (List QEnt)) (hp : ∀ r ∈ recs, P r) :
    (run C f recs).totalReg = sumUp C (valuesWhere C recs Q) := by
  induction recs using List.reverseRecOn with
  | nil => rfl
  | append_singleton rs r ih =>
    rw [run_append, h _ _ (hp r (by simp)), ih (fun x hx => hp x (by simp [hx]))]
    unfold valuesWhere
    rw [List.filter_append, List.filterMap_append]
    by_cases hq : Q r
    · cases hm : measure C r with
      | none => simp [hm, hq]
      | some v => simp [hm, hq, sumUp, List.foldl_append]
    · simp [hq]

open Classical in
/-- updates of a key, if every record makes at most one -/
theorem filterMap_flatMap (C : Cfg M) (ups : List QEnt → List (List Byte × M)) (k : List Byte) (Q P : List QEnt → Prop)
    (h : ∀ r, P r → (ups r).filterMap (sel k) = if Q r then (measure C r).toList else []) (recs : List (List QEnt)) (hp : ∀ r ∈ recs, P r) :
    (recs.flatMap ups).filterMap (sel k) = valuesWhere C recs Q := by
  unfold valuesWhere
  induction recs with
  | nil => rfl
  | cons r rs ih =>
    rw [List.flatMap_cons, List.filterMap_append, h r (hp r (by simp)), ih (fun x hx => hp x (by simp [hx]))]
    by_cases hq : Q r
    · cases hm : measure C r with
      | none => simp [hm, hq]
      | some v => simp [hm, hq]
    · simp [hq]

end Verif.Query.Prof
