import Verif.Query.ProfileLemmas
import Mathlib.Algebra.Order.BigOperators.Group.List
import Mathlib.Algebra.Ring.Nat
/-!
# C50: region profiles

The four kinds of region profiles, for every stream of records, every region type and every arithmetic.
-/
namespace Verif.Query.Prof
open Verif Verif.Cali Verif.Query

variable {M : Type}

/-! ## Flat exclusive -/

theorem flatExcl_eq (C : Cfg M) (s : St M) (r : List QEnt) :
    flatExcl C s r = match measure C r with
      | none => s
      | some v => match r.find? (fun e => decide (Selected C e.attr)) with
        | none => { s with total := C.add s.total v }
        | some e => { prof := addTo C s.prof (C.str e.value) v, totalReg := C.add s.totalReg v, total := C.add s.total v } := by
  unfold flatExcl
  rw [metricOf_eq]
  have : (fun e : QEnt => if C.region = invN then C.isNested e.attr else decide (e.attr = C.region)) =
      fun e => decide (Selected C e.attr) := by
    funext e
    rw [← target_iff]
    unfold Cfg.target
    by_cases h : C.region = invN
    · rw [if_pos h, if_pos h]
    · rw [if_neg h, if_neg h]; simp [eq_comm]
  rw [this]
  cases measure C r <;> rfl

theorem current_iff (C : Cfg M) (r : List QEnt) (n : List Byte) :
    Current C r n ↔ ∃ e, r.find? (fun e => decide (Selected C e.attr)) = some e ∧ C.str e.value = n := by
  constructor
  · rintro ⟨pre, e, post, rfl, hs, hp, hn⟩
    refine ⟨e, ?_, hn⟩
    rw [List.find?_append, List.find?_eq_none.mpr (fun x hx => by simpa using hp x hx)]
    simp [hs]
  · rintro ⟨e, he, hn⟩
    rw [List.find?_eq_some_iff_append] at he
    obtain ⟨hs, pre, post, hr, hp⟩ := he
    exact ⟨pre, e, post, hr, of_decide_eq_true hs, fun x hx => by simpa using hp x hx, hn⟩

/-- the flat exclusive profile: each region's value is the sum of the measurements of the records whose current region it is (and a
region is listed iff there are such records); the region total is the sum over the records with a current region; the total is the sum
of all measurements -/
theorem C50_flat_exclusive (C : Cfg M) (recs : List (List QEnt)) :
    (∀ n, find (run C flatExcl recs).prof n = sumOf C (valuesWhere C recs fun r => Current C r n)) ∧
    (run C flatExcl recs).totalReg = sumUp C (valuesWhere C recs fun r => ∃ n, Current C r n) ∧
    (run C flatExcl recs).total = sumUp C (recs.filterMap (measure C)) := by
  classical
  refine ⟨fun n => ?_, ?_, ?_⟩
  · rw [run_prof C flatExcl (fun r => match measure C r, r.find? (fun e => decide (Selected C e.attr)) with
        | some v, some e => [(C.str e.value, v)] | _, _ => []) (fun _ => True) ?_ recs (fun _ _ => trivial), find_ups]
    · rw [filterMap_flatMap C _ n (fun r => Current C r n) (fun _ => True) ?_ recs (fun _ _ => trivial)]
      intro r _
      simp only [current_iff]
      cases hm : measure C r with
      | none => simp
      | some v =>
        cases he : r.find? (fun e => decide (Selected C e.attr)) with
        | none => simp
        | some e => by_cases hn : C.str e.value = n <;> simp [hn, sel]
    · intro s r _
      rw [flatExcl_eq]
      cases hm : measure C r with
      | none => rfl
      | some v => cases he : r.find? (fun e => decide (Selected C e.attr)) <;> rfl
  · refine run_totalReg C flatExcl _ (fun _ => True) (fun s r _ => ?_) recs (fun _ _ => trivial)
    simp only [current_iff]
    rw [flatExcl_eq]
    cases hm : measure C r with
    | none => simp
    | some v => cases he : r.find? (fun e => decide (Selected C e.attr)) <;> simp
  · refine run_total C flatExcl (fun s r => ?_) recs
    rw [flatExcl_eq]
    cases hm : measure C r with
    | none => rfl
    | some v => cases he : r.find? (fun e => decide (Selected C e.attr)) <;> rfl

/-! ## Flat inclusive -/

theorem flatInclNodes_eq (C : Cfg M) (val : M) (l : List (Nat × Val)) (p : List (List Byte × M)) (b : Bool) :
    flatInclNodes C val l (p, b) =
      (((l.filter fun x => C.target x.1).map fun x => (C.str x.2, val)).foldl (addU C) p, b || l.any fun x => C.target x.1) := by
  induction l generalizing p b with
  | nil => simp [flatInclNodes]
  | cons x l ih =>
    obtain ⟨a, v⟩ := x
    simp only [flatInclNodes]
    by_cases h : C.target a = true
    · rw [if_pos h, ih]; simp [h, addU]
    · rw [if_neg h, ih]; simp [h]

theorem nodes_nil_of_not_ref (e : QEnt) (h : ¬ isRef e = true) : nodesOf e = [] := by
  cases e with
  | imm a v => rfl
  | ref p => cases p with
    | nil => rfl
    | cons x p => exact absurd rfl h

theorem flatIncl_loop (C : Cfg M) (val : M) (r : List QEnt) (p : List (List Byte × M)) (b : Bool) :
    r.foldl (fun acc e => if isRef e then flatInclNodes C val (nodesOf e) acc else acc) (p, b) =
      ((r.flatMap fun e => ((nodesOf e).filter fun x => C.target x.1).map fun x => (C.str x.2, val)).foldl (addU C) p,
       b || r.any fun e => (nodesOf e).any fun x => C.target x.1) := by
  induction r generalizing p b with
  | nil => simp
  | cons e r ih =>
    rw [List.foldl_cons]
    by_cases h : isRef e = true
    · rw [if_pos h, flatInclNodes_eq, ih, List.flatMap_cons, List.foldl_append]; simp [Bool.or_assoc]
    · rw [if_neg h, ih, List.flatMap_cons, nodes_nil_of_not_ref e h]; simp [nodes_nil_of_not_ref e h]

/-- the updates a record makes -/
def inclUps (C : Cfg M) (r : List QEnt) : List (List Byte × M) :=
  match measure C r with
  | some v => r.flatMap fun e => ((nodesOf e).filter fun x => C.target x.1).map fun x => (C.str x.2, v)
  | none => []

theorem any_iff (C : Cfg M) (r : List QEnt) :
    (r.any fun e => (nodesOf e).any fun x => C.target x.1) = true ↔ allRegions C r ≠ [] := by
  rw [List.any_eq_true]
  unfold allRegions
  rw [Ne, List.flatMap_eq_nil_iff]
  constructor
  · rintro ⟨e, he, hx⟩ hall
    have := hall e he
    rw [regionsOf_nodes, List.map_eq_nil_iff, List.filter_eq_nil_iff] at this
    rw [List.any_eq_true] at hx
    obtain ⟨x, hx, ht⟩ := hx
    exact this x (by simpa using hx) ht
  · intro h
    by_contra hc
    apply h
    intro e he
    rw [regionsOf_nodes, List.map_eq_nil_iff, List.filter_eq_nil_iff]
    intro x hx ht
    exact hc ⟨e, he, List.any_eq_true.mpr ⟨x, by simpa using hx, ht⟩⟩

theorem flatIncl_eq (C : Cfg M) (s : St M) (r : List QEnt) :
    flatIncl C s r = match measure C r with
      | none => s
      | some v => { prof := (inclUps C r).foldl (addU C) s.prof, total := C.add s.total v,
                    totalReg := if allRegions C r ≠ [] then C.add s.totalReg v else s.totalReg } := by
  unfold flatIncl
  rw [metricOf_eq]
  cases hm : measure C r with
  | none => rfl
  | some v =>
    simp only [flatIncl_loop, inclUps, hm, Bool.false_or]
    congr 1
    by_cases h : allRegions C r = []
    · rw [if_neg (by rw [any_iff]; exact fun hh => hh h), if_neg (by simpa using h)]
    · rw [if_pos ((any_iff C r).mpr h), if_pos h]

theorem ups_sel (C : Cfg M) (r : List QEnt) (n : List Byte) (v : M) :
    (r.flatMap fun e => ((nodesOf e).filter fun x => C.target x.1).map fun x => (C.str x.2, v)).filterMap (sel n) =
      List.replicate ((allRegions C r).count n) v := by
  unfold allRegions
  induction r with
  | nil => rfl
  | cons e r ih =>
    rw [List.flatMap_cons, List.flatMap_cons, List.filterMap_append, List.count_append, List.replicate_add, ih]
    congr 1
    rw [regionsOf_nodes]
    generalize nodesOf e = l
    rw [List.filter_reverse, List.map_reverse, List.count_reverse]
    induction l with
    | nil => rfl
    | cons x l ih2 =>
      by_cases ht : C.target x.1 = true
      · simp only [List.filter_cons, ht, if_true, List.map_cons]
        by_cases hx : C.str x.2 = n
        · rw [List.filterMap_cons_some (b := v) (by simp [sel, hx]), ih2, hx, List.count_cons_self, List.replicate_succ]
        · rw [List.filterMap_cons_none (by simp [sel, hx]), ih2, List.count_cons_of_ne hx]
      · simp only [List.filter_cons, ht]; exact ih2

theorem inclUps_sel (C : Cfg M) (r : List QEnt) (n : List Byte) :
    (inclUps C r).filterMap (sel n) =
      (match measure C r with | some v => List.replicate ((allRegions C r).count n) v | none => []) := by
  unfold inclUps
  cases measure C r with
  | none => rfl
  | some v => exact ups_sel C r n v

/-- totals of the flat inclusive profile -/
theorem C50_flat_inclusive_totals (C : Cfg M) (recs : List (List QEnt)) :
    (run C flatIncl recs).totalReg = sumUp C (valuesWhere C recs fun r => allRegions C r ≠ []) ∧
    (run C flatIncl recs).total = sumUp C (recs.filterMap (measure C)) := by
  classical
  constructor
  · refine run_totalReg C flatIncl _ (fun _ => True) (fun s r _ => ?_) recs (fun _ _ => trivial)
    rw [flatIncl_eq]
    cases hm : measure C r with
    | none => simp
    | some v => simp only []
  · refine run_total C flatIncl (fun s r => ?_) recs
    rw [flatIncl_eq]
    cases hm : measure C r <;> rfl

/-- the flat inclusive profile, for every stream: a measurement is added to a region as often as the region's name occurs in the
record -/
theorem C50_flat_inclusive_all (C : Cfg M) (recs : List (List QEnt)) (n : List Byte) :
    find (run C flatIncl recs).prof n = sumOf C (recs.flatMap fun r =>
      match measure C r with | some v => List.replicate ((allRegions C r).count n) v | none => []) := by
  rw [run_prof C flatIncl (inclUps C) (fun _ => True) ?_ recs (fun _ _ => trivial), find_ups]
  · congr 1
    rw [List.filterMap_flatMap]
    congr 1
    funext r
    exact inclUps_sel C r n
  · intro s r _
    rw [flatIncl_eq]
    cases hm : measure C r with
    | none => simp [inclUps, hm]
    | some v => rfl

/-- the flat inclusive profile, if no region is open twice under the same name: each region's value is the sum of the measurements of
the records in which it is open.  (Missing: recursive regions, see `C50_violation_recursion`.) -/
theorem C50_flat_inclusive_partial (C : Cfg M) (recs : List (List QEnt)) (hn : ∀ r ∈ recs, (allRegions C r).Nodup) (n : List Byte) :
    find (run C flatIncl recs).prof n = sumOf C (valuesWhere C recs fun r => n ∈ allRegions C r) := by
  classical
  rw [run_prof C flatIncl (inclUps C) (fun _ => True) ?_ recs (fun _ _ => trivial), find_ups]
  · rw [filterMap_flatMap C _ n (fun r => n ∈ allRegions C r) (fun r => (allRegions C r).Nodup) ?_ recs hn]
    intro r hr
    rw [inclUps_sel]
    cases hm : measure C r with
    | none => simp
    | some v =>
      by_cases h : n ∈ allRegions C r
      · rw [if_pos h]; simp [List.count_eq_one_of_mem hr h]
      · rw [if_neg h]; simp [List.count_eq_zero_of_not_mem h]
  · intro s r _
    rw [flatIncl_eq]
    cases hm : measure C r with
    | none => simp [inclUps, hm]
    | some v => rfl

/-! ## Nested profiles -/

theorem getPath_eq (C : Cfg M) (l : List (Nat × Val)) : getPath C l = (names C l).foldl appendPath [] := by
  induction l with
  | nil => rfl
  | cons x l ih =>
    obtain ⟨a, v⟩ := x
    rw [names_cons]
    simp only [getPath]
    by_cases h : C.target a = true
    · rw [if_pos h, if_pos h, List.foldl_append, ← ih]; rfl
    · rw [if_neg h, if_neg h, List.append_nil, ih]

/-- clean lists of names -/
def Clean (ns : List (List Byte)) : Prop := ∀ n ∈ ns, n ≠ [] ∧ ch '/' ∉ n

theorem appendPath_ne (p n : List Byte) (h : n ≠ []) : appendPath p n ≠ [] := by
  unfold appendPath; simp [h]

theorem joined_ne (ns : List (List Byte)) (h : Clean ns) : ns.foldl appendPath [] = [] ↔ ns = [] := by
  induction ns using List.reverseRecOn with
  | nil => simp
  | append_singleton ns n _ =>
    rw [List.foldl_append]
    simp only [List.foldl_cons, List.foldl_nil, List.append_eq_nil_iff, List.cons_ne_self, and_false, iff_false]
    exact appendPath_ne _ _ (h n (by simp)).1

theorem foldl_appendPath (ns : List (List Byte)) (n : List Byte) (h : Clean (n :: ns)) :
    ns.foldl appendPath n = slashed (n :: ns) := by
  unfold slashed
  induction ns using List.reverseRecOn with
  | nil => simp
  | append_singleton ns m ih =>
    have hc : Clean (n :: ns) := fun x hx => h x (by simp at hx ⊢; tauto)
    rw [List.foldl_append, ih hc]
    simp only [List.foldl_cons, List.foldl_nil]
    have hne : [ch '/'].intercalate (n :: ns) ≠ [] := by
      have h1 := (h n (by simp)).1
      intro h0
      have : n <+: [ch '/'].intercalate (n :: ns) := by
        cases ns with
        | nil => simp
        | cons a b => rw [List.intercalate_cons_cons]; simp
      rw [h0] at this
      exact h1 (List.prefix_nil.mp this)
    unfold appendPath
    rw [if_neg hne]
    clear ih hne h hc
    induction ns generalizing n with
    | nil => simp [List.intercalate_cons_cons]
    | cons a b ih => rw [List.cons_append, List.intercalate_cons_cons, List.intercalate_cons_cons, ← ih a]; simp

/-- the path strings of the profile are the names joined by slashes -/
theorem joined_eq (ns : List (List Byte)) (h : Clean ns) : ns.foldl appendPath [] = slashed ns := by
  cases ns with
  | nil => rfl
  | cons n ns =>
    rw [List.foldl_cons]
    have : appendPath [] n = n := rfl
    rw [this, foldl_appendPath ns n h]

/-- the keys `recursive_update` adds to -/
def prefixKeys (C : Cfg M) : List (Nat × Val) → List (List Byte)
  | [] => []
  | x :: up => prefixKeys C up ++ (if C.target x.1 then [getPath C (x :: up)] else [])

theorem recUpdate_eq (C : Cfg M) (val : M) (prof : List (List Byte × M)) (l : List (Nat × Val)) :
    recUpdate C val prof l = (((prefixKeys C l).map fun k => (k, val)).foldl (addU C) prof, getPath C l) := by
  induction l with
  | nil => rfl
  | cons x l ih =>
    obtain ⟨a, v⟩ := x
    simp only [recUpdate, prefixKeys, getPath, ih]
    by_cases h : C.target a = true
    · simp only [h, if_true, List.map_append, List.foldl_append]; rfl
    · simp [h]

theorem under_append (k P n : List Byte) (hn : ch '/' ∉ n) :
    Under k (P ++ ch '/' :: n) ↔ k = P ++ ch '/' :: n ∨ Under k P := by
  constructor
  · rintro (h | ⟨t, h⟩)
    · exact .inl h.symm
    · right
      rcases List.append_eq_append_iff.mp h with ⟨u, h1, h2⟩ | ⟨u, h1, h2⟩
      · cases u with
        | nil => left; simp at h1; exact h1.symm
        | cons c u =>
          exfalso
          simp only [List.cons_append, List.cons.injEq] at h2
          exact hn (by rw [h2.2]; simp)
      · cases u with
        | nil => left; simpa using h1
        | cons c u =>
          simp only [List.cons_append, List.cons.injEq] at h2
          right; exact ⟨u, by rw [h1, h2.1]⟩
  · rintro (rfl | h | ⟨t, h⟩)
    · exact .inl rfl
    · right; exact ⟨n, by rw [h]⟩
    · right; exact ⟨t ++ ch '/' :: n, by rw [h]; simp⟩

theorem under_plain (k n : List Byte) (hn : ch '/' ∉ n) : Under k n ↔ k = n := by
  constructor
  · rintro (h | ⟨t, h⟩)
    · exact h.symm
    · exact absurd (by rw [h]; simp) hn
  · rintro rfl; exact .inl rfl

/-- the keys of a path, by their names -/
def keysOf : List (List Byte) → List (List Byte) → List (List Byte)
  | _, [] => []
  | done, n :: ns => (done ++ [n]).foldl appendPath [] :: keysOf (done ++ [n]) ns

theorem keysOf_append (d ns : List (List Byte)) (n : List Byte) :
    keysOf d (ns ++ [n]) = keysOf d ns ++ [(d ++ ns ++ [n]).foldl appendPath []] := by
  induction ns generalizing d with
  | nil => simp [keysOf]
  | cons a ns ih => simp only [List.cons_append, keysOf]; rw [ih]; simp

theorem prefixKeys_eq (C : Cfg M) (l : List (Nat × Val)) : prefixKeys C l = keysOf [] (names C l) := by
  induction l with
  | nil => rfl
  | cons x l ih =>
    rw [names_cons]
    simp only [prefixKeys, getPath_eq, names_cons, ih]
    by_cases h : C.target x.1 = true
    · rw [if_pos h, if_pos h, keysOf_append]; simp
    · rw [if_neg h, if_neg h]; simp

theorem keysOf_short (ns : List (List Byte)) (h : Clean ns) : ∀ k ∈ keysOf [] ns, k.length ≤ (ns.foldl appendPath []).length := by
  induction ns using List.reverseRecOn with
  | nil => simp [keysOf]
  | append_singleton ns n ih =>
    rw [keysOf_append]
    intro k hk
    rw [List.mem_append, List.mem_singleton] at hk
    rcases hk with hk | rfl
    · have := ih (fun x hx => h x (by simp [hx])) k hk
      rw [List.foldl_append]
      simp only [List.foldl_cons, List.foldl_nil, appendPath, List.length_append]
      omega
    · simp

theorem keysOf_sel' (ns : List (List Byte)) (h : Clean ns) (v : M) (k : List Byte) :
    (ns ≠ [] ∧ Under k (ns.foldl appendPath []) → ((keysOf [] ns).map fun x => (x, v)).filterMap (sel k) = [v]) ∧
    (¬ (ns ≠ [] ∧ Under k (ns.foldl appendPath [])) → ((keysOf [] ns).map fun x => (x, v)).filterMap (sel k) = []) := by
  induction ns using List.reverseRecOn with
  | nil => simp [keysOf]
  | append_singleton ns n ih =>
    have hc : Clean ns := fun x hx => h x (by simp [hx])
    have hn := h n (by simp)
    obtain ⟨i1, i2⟩ := ih hc
    rw [keysOf_append, List.map_append, List.filterMap_append, List.nil_append, List.foldl_append]
    simp only [List.foldl_cons, List.foldl_nil, List.map_cons, List.map_nil]
    by_cases h0 : ns = []
    · subst h0
      have e : appendPath ([].foldl appendPath []) n = n := rfl
      rw [i2 (by simp), e, under_plain k n hn.2]
      by_cases hk : n = k
      · simp [sel, hk]
      · simp [sel, hk, Ne.symm hk]
    · have hp : ns.foldl appendPath [] ≠ [] := fun hh => h0 ((joined_ne ns hc).mp hh)
      generalize ns.foldl appendPath [] = P at hp i1 i2 ⊢
      have e : appendPath P n = P ++ ch '/' :: n := by unfold appendPath; rw [if_neg hp]; simp
      rw [e, under_append k P n hn.2]
      by_cases hk : k = P ++ ch '/' :: n
      · have hnu : ¬ Under k P := by
          rintro (hh | ⟨t, hh⟩)
          · have := congrArg List.length hh; rw [hk] at this; simp at this
          · have := congrArg List.length hh; rw [hk] at this; simp at this
        rw [i2 (fun hh => hnu hh.2)]
        simp [sel, hk]
      · have hk' : ¬ P ++ ch '/' :: n = k := fun hh => hk hh.symm
        have e2 : [(P ++ ch '/' :: n, v)].filterMap (sel k) = [] := by simp [sel, hk']
        rw [e2, List.append_nil]
        constructor
        · rintro ⟨_, hh | hh⟩
          · exact absurd hh hk
          · exact i1 ⟨h0, hh⟩
        · intro hh
          exact i2 fun hu => hh ⟨by simp, .inr hu.2⟩

open Classical in
theorem keysOf_sel (ns : List (List Byte)) (h : Clean ns) (v : M) (k : List Byte) :
    ((keysOf [] ns).map fun x => (x, v)).filterMap (sel k) = if ns ≠ [] ∧ Under k (slashed ns) then [v] else [] := by
  have := keysOf_sel' ns h v k
  rw [joined_eq ns h] at this
  by_cases hq : ns ≠ [] ∧ Under k (slashed ns)
  · rw [if_pos hq]; exact this.1 hq
  · rw [if_neg hq]; exact this.2 hq

theorem names_nodes (C : Cfg M) (e : QEnt) : names C (nodesOf e) = regionsOf C e := (regionsOf_nodes C e).symm

/-- the loop over the entries: the first one with regions is used -/
theorem nestInclLoop_eq (C : Cfg M) (val : M) (r : List QEnt) (hc : CleanNames C r) (prof : List (List Byte × M)) :
    nestInclLoop C val r prof [] =
      (((keysOf [] (regionPath C r)).map fun k => (k, val)).foldl (addU C) prof, (regionPath C r).foldl appendPath []) := by
  induction r with
  | nil => rfl
  | cons e r ih =>
    have hr : CleanNames C r := fun n hn => hc n (by unfold allRegions at hn ⊢; rw [List.flatMap_cons]; exact List.mem_append_right _ hn)
    have he : Clean (regionsOf C e) := fun n hn => hc n (by unfold allRegions; rw [List.flatMap_cons]; exact List.mem_append_left _ hn)
    simp only [nestInclLoop]
    by_cases h : isRef e = true
    · rw [if_pos h, recUpdate_eq, prefixKeys_eq, getPath_eq, names_nodes]
      simp only []
      by_cases h0 : regionsOf C e = []
      · have e1 : regionPath C (e :: r) = regionPath C r := by unfold regionPath; rw [List.map_cons, List.find?_cons_of_neg (by simp [h0])]
        rw [h0, e1]
        exact ih hr
      · have e1 : regionPath C (e :: r) = regionsOf C e := by
          unfold regionPath; rw [List.map_cons, List.find?_cons_of_pos (by simp [h0])]; rfl
        rw [if_neg (fun hh => h0 ((joined_ne _ he).mp hh)), e1]
    · have h0 : regionsOf C e = [] := by rw [← names_nodes, nodes_nil_of_not_ref e h]; rfl
      have e1 : regionPath C (e :: r) = regionPath C r := by unfold regionPath; rw [List.map_cons, List.find?_cons_of_neg (by simp [h0])]
      rw [if_neg h, e1]
      exact ih hr

theorem regionPath_clean (C : Cfg M) (r : List QEnt) (hc : CleanNames C r) : Clean (regionPath C r) := by
  unfold regionPath
  cases h : (r.map (regionsOf C)).find? (fun r => decide (r ≠ [])) with
  | none => intro n hn; simp at hn
  | some p =>
    have hm := List.mem_of_find?_eq_some h
    rw [List.mem_map] at hm
    obtain ⟨e, he, rfl⟩ := hm
    intro n hn
    exact hc n (by unfold allRegions; rw [List.mem_flatMap]; exact ⟨e, he, hn⟩)

/-- the updates of the nested inclusive profile -/
def nestUps (C : Cfg M) (r : List QEnt) : List (List Byte × M) :=
  match measure C r with
  | some v => (keysOf [] (regionPath C r)).map fun k => (k, v)
  | none => []

theorem nestIncl_eq (C : Cfg M) (s : St M) (r : List QEnt) (hc : CleanNames C r) :
    nestIncl C s r = match measure C r with
      | none => s
      | some v => { prof := (nestUps C r).foldl (addU C) s.prof, total := C.add s.total v,
                    totalReg := if regionPath C r = [] then s.totalReg else C.add s.totalReg v } := by
  unfold nestIncl
  rw [metricOf_eq]
  cases hm : measure C r with
  | none => rfl
  | some v =>
    simp only [nestInclLoop_eq C v r hc, nestUps, hm]
    congr 1
    by_cases h : regionPath C r = []
    · rw [h]; rfl
    · rw [if_neg h, if_neg (fun hh => h ((joined_ne _ (regionPath_clean C r hc)).mp hh))]

/-- the nested inclusive profile: the value of path `k` is the sum of the measurements of the records whose region path is `k` or lies
below `k`; a path is listed iff there are such records.  (Partial: region names that are empty or contain a slash are
excluded, see `C50_violation_slash`.) -/
theorem C50_nested_inclusive_partial (C : Cfg M) (recs : List (List QEnt)) (hc : ∀ r ∈ recs, CleanNames C r) :
    (∀ k, find (run C nestIncl recs).prof k =
      sumOf C (valuesWhere C recs fun r => regionPath C r ≠ [] ∧ Under k (slashed (regionPath C r)))) ∧
    (run C nestIncl recs).totalReg = sumUp C (valuesWhere C recs fun r => regionPath C r ≠ []) := by
  classical
  constructor
  · intro k
    rw [run_prof C nestIncl (nestUps C) (CleanNames C) ?_ recs hc, find_ups]
    · rw [filterMap_flatMap C _ k (fun r => regionPath C r ≠ [] ∧ Under k (slashed (regionPath C r))) (CleanNames C) ?_ recs hc]
      intro r hr
      unfold nestUps
      cases hm : measure C r with
      | none => simp
      | some v =>
        rw [keysOf_sel _ (regionPath_clean C r hr)]
        by_cases hq : regionPath C r ≠ [] ∧ Under k (slashed (regionPath C r))
        · rw [if_pos hq, if_pos hq]; rfl
        · rw [if_neg hq, if_neg hq]
    · intro s r hr
      rw [nestIncl_eq C s r hr]
      cases hm : measure C r with
      | none => simp [nestUps, hm]
      | some v => rfl
  · refine run_totalReg C nestIncl _ (CleanNames C) (fun s r hr => ?_) recs hc
    rw [nestIncl_eq C s r hr]
    cases hm : measure C r with
    | none => simp
    | some v => by_cases h : regionPath C r = [] <;> simp [h]

/-- the exclusive path of a record -/
def exclPath (C : Cfg M) (r : List QEnt) : Option (List (List Byte)) := (C.firstTarget r).map (regionsOf C)

theorem firstTarget_regions (C : Cfg M) (r : List QEnt) (e : QEnt) (h : C.firstTarget r = some e) : regionsOf C e ≠ [] := by
  have := List.find?_some h
  rw [Bool.and_eq_true] at this
  obtain ⟨h1, h2⟩ := this
  cases e with
  | imm a v => simp [isRef] at h1
  | ref p =>
    cases p with
    | nil => simp [isRef] at h1
    | cons x p =>
      rw [← names_nodes]
      show names C (x :: p) ≠ []
      rw [names_cons]
      have : C.target x.1 = true := h2
      simp [this]

theorem exclPath_eq (C : Cfg M) (r : List QEnt) (he : EndsInRegion C r) :
    exclPath C r = if regionPath C r = [] then none else some (regionPath C r) := by
  induction r with
  | nil => rfl
  | cons e r ih =>
    have hr : EndsInRegion C r := fun p hp => he p (List.mem_cons_of_mem _ hp)
    by_cases h0 : regionsOf C e = []
    · have e1 : regionPath C (e :: r) = regionPath C r := by unfold regionPath; rw [List.map_cons, List.find?_cons_of_neg (by simp [h0])]
      rw [e1, ← ih hr]
      unfold exclPath
      have : C.firstTarget (e :: r) = C.firstTarget r := by
        unfold Cfg.firstTarget
        rw [List.find?_cons_of_neg]
        intro h
        exact firstTarget_regions C [e] e (List.find?_cons_of_pos (p := fun e => isRef e && C.target e.attr) h) h0
      rw [this]
    · have e1 : regionPath C (e :: r) = regionsOf C e := by
        unfold regionPath; rw [List.map_cons, List.find?_cons_of_pos (by simp [h0])]; rfl
      rw [e1, if_neg h0]
      have hs := he e (by simp) h0
      have hi : isRef e = true := by
        by_contra hn
        apply h0
        rw [← names_nodes, nodes_nil_of_not_ref e hn]; rfl
      unfold exclPath Cfg.firstTarget
      rw [List.find?_cons_of_pos (by rw [hi, target_iff, decide_eq_true hs]; rfl)]
      rfl

/-- the updates of the nested exclusive profile -/
def nexUps (C : Cfg M) (r : List QEnt) : List (List Byte × M) :=
  match measure C r, exclPath C r with
  | some v, some p => [(p.foldl appendPath [], v)]
  | _, _ => []

theorem nestExcl_eq (C : Cfg M) (s : St M) (r : List QEnt) :
    nestExcl C s r = match measure C r with
      | none => s
      | some v => { prof := (nexUps C r).foldl (addU C) s.prof, total := C.add s.total v,
                    totalReg := if exclPath C r = none then s.totalReg else C.add s.totalReg v } := by
  unfold nestExcl
  rw [metricOf_eq]
  cases hm : measure C r with
  | none => rfl
  | some v =>
    cases hf : C.firstTarget r with
    | none => simp [nexUps, exclPath, hm, hf]
    | some e =>
      simp only [nexUps, exclPath, hm, hf, Option.map_some, List.foldl_cons, List.foldl_nil, addU, getPath_eq, names_nodes]
      simp

/-- the nested exclusive profile: the value of path `k` is the sum of the measurements of the records whose region path is `k`.
(Partial: names as for `C50_nested_inclusive_partial`; and the innermost node of the entries that contain regions is itself a region, see
`C50_violation_leaf`.) -/
theorem C50_nested_exclusive_partial (C : Cfg M) (recs : List (List QEnt)) (hc : ∀ r ∈ recs, CleanNames C r)
    (he : ∀ r ∈ recs, EndsInRegion C r) :
    (∀ k, find (run C nestExcl recs).prof k =
      sumOf C (valuesWhere C recs fun r => regionPath C r ≠ [] ∧ k = slashed (regionPath C r))) ∧
    (run C nestExcl recs).totalReg = sumUp C (valuesWhere C recs fun r => regionPath C r ≠ []) := by
  classical
  have hce : ∀ r ∈ recs, CleanNames C r ∧ EndsInRegion C r := fun r hr => ⟨hc r hr, he r hr⟩
  constructor
  · intro k
    rw [run_prof C nestExcl (nexUps C) (fun _ => True) ?_ recs (fun _ _ => trivial), find_ups]
    · rw [filterMap_flatMap C _ k (fun r => regionPath C r ≠ [] ∧ k = slashed (regionPath C r))
        (fun r => CleanNames C r ∧ EndsInRegion C r) ?_ recs hce]
      intro r hr
      unfold nexUps
      rw [exclPath_eq C r hr.2]
      cases hm : measure C r with
      | none => simp
      | some v =>
        by_cases h : regionPath C r = []
        · simp [h]
        · rw [if_neg h]
          simp only [joined_eq _ (regionPath_clean C r hr.1)]
          by_cases hk : k = slashed (regionPath C r)
          · rw [if_pos ⟨h, hk⟩]; simp [sel, hk]
          · rw [if_neg (fun hh => hk hh.2)]; simp [sel, Ne.symm hk]
    · intro s r _
      rw [nestExcl_eq]
      cases hm : measure C r with
      | none => simp [nexUps, hm]
      | some v => rfl
  · refine run_totalReg C nestExcl _ (EndsInRegion C) (fun s r hr => ?_) recs he
    rw [nestExcl_eq, exclPath_eq C r hr]
    cases hm : measure C r with
    | none => simp
    | some v => by_cases h : regionPath C r = [] <;> simp [h]

/-- totals of the nested profiles, for every stream -/
theorem C50_nested_totals (C : Cfg M) (recs : List (List QEnt)) :
    (run C nestExcl recs).total = sumUp C (recs.filterMap (measure C)) ∧
    (run C nestIncl recs).total = sumUp C (recs.filterMap (measure C)) := by
  constructor
  · refine run_total C nestExcl (fun s r => ?_) recs
    rw [nestExcl_eq]
    cases hm : measure C r <;> rfl
  · refine run_total C nestIncl (fun s r => ?_) recs
    unfold nestIncl
    rw [metricOf_eq]
    cases hm : measure C r <;> rfl

/-! ## Relations between the profiles, with exact arithmetic -/

open Classical in
theorem sum_addTo [AddCommMonoid M] (C : Cfg M) (ha : C.add = (· + ·)) (hz : C.zero = 0) (P : List Byte → Prop)
    (p : List (List Byte × M)) (k : List Byte) (v : M) :
    (((addTo C p k v).filter fun x => decide (P x.1)).map (·.2)).sum =
      ((p.filter fun x => decide (P x.1)).map (·.2)).sum + (if P k then v else 0) := by
  induction p with
  | nil => by_cases h : P k <;> simp [addTo, h, ha, hz]
  | cons x r ih =>
    obtain ⟨k0, y⟩ := x
    simp only [addTo]
    by_cases h0 : k0 = k
    · subst h0
      rw [if_pos rfl]
      by_cases h : P k0
      · simp [h, ha, add_right_comm]
      · simp [h]
    · rw [if_neg h0]
      by_cases h : P k0
      · simp only [List.filter_cons, h, decide_true, if_true, List.map_cons, List.sum_cons, ih, add_assoc]
      · simp only [List.filter_cons, h, decide_false, Bool.false_eq_true, if_false, ih]

open Classical in
theorem sum_foldl [AddCommMonoid M] (C : Cfg M) (ha : C.add = (· + ·)) (hz : C.zero = 0) (P : List Byte → Prop)
    (ups p : List (List Byte × M)) :
    (((ups.foldl (addU C) p).filter fun x => decide (P x.1)).map (·.2)).sum =
      ((p.filter fun x => decide (P x.1)).map (·.2)).sum + ((ups.filter fun x => decide (P x.1)).map (·.2)).sum := by
  induction ups generalizing p with
  | nil => simp
  | cons u us ih =>
    rw [List.foldl_cons, ih]
    unfold addU
    rw [sum_addTo C ha hz]
    by_cases h : P u.1
    · simp [h, add_assoc]
    · simp [h]

theorem sumUp_eq [AddCommMonoid M] (C : Cfg M) (ha : C.add = (· + ·)) (hz : C.zero = 0) (l : List M) : sumUp C l = l.sum := by
  unfold sumUp
  rw [ha, hz, List.sum_eq_foldl]

theorem sumOf_getD [AddCommMonoid M] (C : Cfg M) (ha : C.add = (· + ·)) (hz : C.zero = 0) (l : List M) :
    (sumOf C l).getD 0 = l.sum := by
  unfold sumOf
  by_cases h : l = []
  · simp [h]
  · rw [if_neg h, Option.getD_some, sumUp_eq C ha hz]

/-- In an exclusive profile the values of all regions add up to the region total (flat and nested, every stream). -/
theorem C50_exclusive_adds_up [AddCommMonoid M] (C : Cfg M) (ha : C.add = (· + ·)) (hz : C.zero = 0) (recs : List (List QEnt)) :
    ((run C flatExcl recs).prof.map (·.2)).sum = (run C flatExcl recs).totalReg ∧
    ((run C nestExcl recs).prof.map (·.2)).sum = (run C nestExcl recs).totalReg := by
  classical
  have key : ∀ (f : Cfg M → St M → List QEnt → St M),
      (∀ s r, ((f C s r).prof = s.prof ∧ (f C s r).totalReg = s.totalReg) ∨
        ∃ k v, (f C s r).prof = addTo C s.prof k v ∧ (f C s r).totalReg = s.totalReg + v) →
      ((run C f recs).prof.map (·.2)).sum = (run C f recs).totalReg := by
    intro f hf
    induction recs using List.reverseRecOn with
    | nil => simp [run, St.init, hz]
    | append_singleton rs r ih =>
      rw [run_append]
      rcases hf (run C f rs) r with ⟨h1, h2⟩ | ⟨k, v, h1, h2⟩
      · rw [h1, h2, ih]
      · rw [h1, h2, ← ih]
        have := sum_addTo C ha hz (fun _ => True) (run C f rs).prof k v
        simpa using this
  constructor
  · apply key
    intro s r
    rw [flatExcl_eq]
    cases hm : measure C r with
    | none => left; exact ⟨rfl, rfl⟩
    | some v =>
      cases he : r.find? (fun e => decide (Selected C e.attr)) with
      | none => left; exact ⟨rfl, rfl⟩
      | some e => right; exact ⟨C.str e.value, v, rfl, by simp [ha]⟩
  · apply key
    intro s r
    rw [nestExcl_eq]
    cases hm : measure C r with
    | none => left; exact ⟨rfl, rfl⟩
    | some v =>
      cases he : exclPath C r with
      | none => left; simp [nexUps, hm, he]
      | some p => right; exact ⟨p.foldl appendPath [], v, by simp [nexUps, hm, he, addU], by simp [ha]⟩

open Classical in
/-- The inclusive value of a path is the sum of the exclusive values of the path and all paths below it.  (Partial: as for
`C50_nested_exclusive_partial`.) -/
theorem C50_inclusive_is_sum_of_exclusive_partial [AddCommMonoid M] (C : Cfg M) (ha : C.add = (· + ·)) (hz : C.zero = 0)
    (recs : List (List QEnt)) (hc : ∀ r ∈ recs, CleanNames C r) (he : ∀ r ∈ recs, EndsInRegion C r) (k : List Byte) :
    (find (run C nestIncl recs).prof k).getD 0 =
      (((run C nestExcl recs).prof.filter fun x => decide (Under k x.1)).map (·.2)).sum := by
  rw [(C50_nested_inclusive_partial C recs hc).1 k, sumOf_getD C ha hz,
    run_prof C nestExcl (nexUps C) (fun _ => True) (fun s r _ => by
      rw [nestExcl_eq]
      cases hm : measure C r with
      | none => simp [nexUps, hm]
      | some v => rfl) recs (fun _ _ => trivial), sum_foldl C ha hz]
  simp only [List.filter_nil, List.map_nil, List.sum_nil, zero_add]
  unfold valuesWhere
  induction recs with
  | nil => rfl
  | cons r rs ih =>
    rw [List.flatMap_cons, List.filter_append, List.map_append, List.sum_append,
      ← ih (fun x hx => hc x (by simp [hx])) (fun x hx => he x (by simp [hx]))]
    have h1 := regionPath_clean C r (hc r (by simp))
    unfold nexUps
    rw [exclPath_eq C r (he r (by simp))]
    cases hm : measure C r with
    | none =>
      by_cases hq : regionPath C r ≠ [] ∧ Under k (slashed (regionPath C r))
      · simp [hq, hm]
      · rw [List.filter_cons_of_neg (by simpa using hq)]; simp
    | some v =>
      by_cases h : regionPath C r = []
      · rw [List.filter_cons_of_neg (by simp [h]), if_pos h]; simp
      · rw [if_neg h]
        simp only [joined_eq _ h1]
        by_cases hu : Under k (slashed (regionPath C r))
        · rw [List.filter_cons_of_pos (by simp [h, hu]), List.filterMap_cons_some hm]
          simp [hu]
        · rw [List.filter_cons_of_neg (by simp [hu])]
          simp [hu]

/-! ## Where the full property fails -/

/-- exact arithmetic on natural numbers; attribute 20 is nested, attribute 30 is not, attribute 40 is the metric; string values are
names -/
def demo : Cfg Nat :=
  { add := (· + ·), zero := 0, toD := fun v => match v with | .uint u => u.toNat | _ => 0,
    str := fun v => match v with | .string s => s | _ => [], nested := fun a => decide (a = 20), metric := 40, region := invN }

/-- region `s` -/
def reg (s : String) : Nat × Val := (20, .string (str s))
/-- a measurement -/
def met (n : Nat) : QEnt := .imm 40 (.uint (BitVec.ofNat 64 n))

/-- a stream that satisfies the hypotheses: `main` calls `work` -/
def demoRecs : List (List QEnt) :=
  [[.ref [reg "main"], met 10], [.ref [reg "work", reg "main"], met 5], [met 3], [.ref [reg "work", reg "main"], met 7]]

example : (∀ r ∈ demoRecs, CleanNames demo r) ∧ (∀ r ∈ demoRecs, EndsInRegion demo r) ∧ (∀ r ∈ demoRecs, (allRegions demo r).Nodup) := by
  unfold CleanNames EndsInRegion; decide +kernel

example : (run demo nestIncl demoRecs).prof = [(str "main", 22), (str "main/work", 12)] ∧
    (run demo nestExcl demoRecs).prof = [(str "main", 10), (str "main/work", 12)] ∧
    (run demo nestIncl demoRecs).totalReg = 22 ∧ (run demo nestIncl demoRecs).total = 25 := by decide +kernel

/-- A recursive region is counted twice: `inclusive_region_times` reports more time in `fac` than was spent in the whole program. -/
theorem C50_violation_recursion :
    find (run demo flatIncl [[.ref [reg "fac", reg "fac"], met 10]]).prof (str "fac") = some 20 ∧
    (run demo flatIncl [[.ref [reg "fac", reg "fac"], met 10]]).total = 10 := by decide +kernel

/-- Region `b` inside `a` and a region named `a/b` share one line of the nested profiles. -/
theorem C50_violation_slash :
    (run demo nestExcl [[.ref [reg "b", reg "a"], met 1], [.ref [reg "a/b"], met 2]]).prof = [(str "a/b", 3)] ∧
    (run demo nestIncl [[.ref [reg "b", reg "a"], met 1], [.ref [reg "a/b"], met 2]]).prof = [(str "a", 1), (str "a/b", 3)] := by
  decide +kernel

/-- If the innermost node of the entry is not of the selected type, the exclusive profiles lose the measurement although it was made
inside the region, and the region totals of the inclusive and exclusive profiles differ. -/
theorem C50_violation_leaf :
    let recs := [[QEnt.ref [(30, .string (str "x")), reg "main"], met 10]]
    (run demo flatExcl recs).prof = [] ∧ (run demo nestExcl recs).prof = [] ∧ (run demo flatExcl recs).totalReg = 0 ∧
    find (run demo flatIncl recs).prof (str "main") = some 10 ∧ (run demo flatIncl recs).totalReg = 10 := by decide +kernel

/-- Asking for a region type that does not exist gives the profile of all nested regions, not an empty one. -/
theorem C50_unknown_type (C : Cfg M) (lookup : List Byte → Option Nat) (metricName name : List Byte) (h : lookup name = none)
    (f : Cfg M → St M → List QEnt → St M) (recs : List (List QEnt)) :
    run (C.make lookup metricName name) f recs = run (C.make lookup metricName []) f recs := by
  have : C.make lookup metricName name = C.make lookup metricName [] := by
    unfold Cfg.make
    by_cases hn : name = []
    · rw [hn]
    · simp [hn, h]
  rw [this]

example : (run (demo.make (fun n => if n = str "time" then some 40 else none) (str "time") (str "nosuch")) flatIncl demoRecs).prof ≠ [] := by
  decide +kernel

end Verif.Query.Prof
