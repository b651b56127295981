import Verif.Query.AggSpec
import Mathlib.Data.List.Perm.Basic
/-!
# Kernel states depend only on the multiset of contributions
-/
namespace Verif.Query
open Verif Verif.Cali Verif.Agg

/-- the operation with which a kernel combines values -/
def KCfg.op (O : FOps) : KCfg → Val → Val → Val
  | .count _ => fun a _ => a
  | .sum _ _ _ => addVal O
  | .min _ _ _ => minVal O
  | .max _ _ _ => maxVal O
  | .avg _ _ _ _ => addVal O

/-- the values a kernel takes from a record -/
def KCfg.vals (known : Nat → Bool) (k : KCfg) (rec : List QEnt) : List Val :=
  match k with
  | .count _ => []
  | .sum t d _ | .min t d _ | .max t d _ => matching known t d rec
  | .avg t sA _ _ => if known t then rec.filterMap fun e => if e.attr = t ∨ e.attr = sA then some e.value else none else []

/-- the amount a kernel adds to its count for a record -/
def KCfg.cnt (O : FOps) (known : Nat → Bool) (k : KCfg) (rec : List QEnt) : U64 :=
  match k with
  | .count c => countOf O c rec
  | .avg t sA _ cA =>
    if known t then (rec.map fun e => if e.attr = t then 1 else if e.attr = sA then 0 else if e.attr = cA then toU64 O e.value else 0).sum else 0
  | _ => 0

theorem avg_fold (O : FOps) (t sA cA : Nat) (rec : List QEnt) : ∀ (s : KSt) (n : Nat),
    (rec.foldl (avgStep O t sA cA) (s, n)).1 =
      ⟨s.count + (rec.map fun e => if e.attr = t then 1 else if e.attr = sA then 0 else if e.attr = cA then toU64 O e.value else 0).sum,
       (rec.filterMap fun e => if e.attr = t ∨ e.attr = sA then some e.value else none).foldl (addVal O) s.val⟩ := by
  induction rec with
  | nil => intro s n; simp
  | cons e rec ih =>
    intro s n
    simp only [List.foldl_cons, avgStep, List.map_cons, List.sum_cons, List.filterMap_cons]
    by_cases h1 : e.attr = t
    · simp only [h1, if_true, true_or, List.foldl_cons]
      rw [ih]
      simp only [h1, BitVec.add_assoc]
    · by_cases h2 : e.attr = sA
      · simp only [h1, h2, if_true, if_false, or_true, List.foldl_cons]
        rw [if_neg (h2 ▸ h1), ih]
        simp only [h2, BitVec.zero_add]
        rw [if_neg (h2 ▸ h1)]
        simp
      · by_cases h3 : e.attr = cA
        · rw [if_neg h1, if_neg h2, if_pos h3, ih]
          simp only [h1, h2, h3, if_false, if_true, or_self, BitVec.add_assoc]
          rw [if_neg (h3 ▸ h1), if_neg (h3 ▸ h2)]
          simp only [h3 ▸ h1, h3 ▸ h2, or_self, if_false]
        · rw [if_neg h1, if_neg h2, if_neg h3, ih]
          simp [h1, h2, h3]

theorem aggregate_eq (O : FOps) (known : Nat → Bool) (k : KCfg) (s : KSt) (rec : List QEnt) :
    (k.aggregate O known s rec).1 = ⟨s.count + k.cnt O known rec, (k.vals known rec).foldl (k.op O) s.val⟩ := by
  cases k with
  | count c => rfl
  | sum t d i => simp [KCfg.aggregate, KCfg.cnt, KCfg.vals, KCfg.op]
  | min t d i => simp [KCfg.aggregate, KCfg.cnt, KCfg.vals, KCfg.op]
  | max t d i => simp [KCfg.aggregate, KCfg.cnt, KCfg.vals, KCfg.op]
  | avg t sA aA cA =>
    unfold KCfg.aggregate KCfg.cnt KCfg.vals KCfg.op
    by_cases h : known t
    · simp only [h, if_true]
      exact avg_fold O t sA cA rec s 0
    · simp [h]

theorem foldl_aggregate (O : FOps) (known : Nat → Bool) (k : KCfg) (rs : List (List QEnt)) : ∀ s : KSt,
    rs.foldl (fun s r => (k.aggregate O known s r).1) s =
      ⟨s.count + (rs.map (k.cnt O known)).sum, (rs.flatMap (k.vals known)).foldl (k.op O) s.val⟩ := by
  induction rs with
  | nil => intro s; simp
  | cons r rs ih =>
    intro s
    rw [List.foldl_cons, ih, aggregate_eq]
    simp only [List.map_cons, List.sum_cons, List.flatMap_cons, List.foldl_append, BitVec.add_assoc]

theorem stateOf_eq (O : FOps) (C : QCfg) (c : KCfg) (K : List KEnt) (recs : List (List QEnt)) :
    C.stateOf O c K recs = ⟨((recs.filter (C.contributes O c K)).map (c.cnt O C.known)).sum,
      ((recs.filter (C.contributes O c K)).flatMap (c.vals C.known)).foldl (c.op O) .inv⟩ := by
  unfold QCfg.stateOf
  rw [foldl_aggregate]
  simp [KSt.new]

/-! ## Values of one type -/

/-- the values are all signed integers or all unsigned integers -/
def Homog (vs : List Val) : Prop := (∃ xs : List U64, vs = xs.map .int) ∨ (∃ xs : List U64, vs = xs.map .uint)

/-- combining optional values -/
def optM (f : U64 → U64 → U64) : Option U64 → Option U64 → Option U64
  | none, b => b
  | a, none => a
  | some a, some b => some (f a b)

/-- combination of a list of values -/
def total (f : U64 → U64 → U64) (xs : List U64) : Option U64 := xs.foldr (fun x o => optM f (some x) o) none

/-- encoding as a variant -/
def enc (T : U64 → Val) : Option U64 → Val
  | none => .inv
  | some x => T x

/-- an operation on variants that is `f` on values of type `T` -/
structure OpIs (op : Val → Val → Val) (T : U64 → Val) (f : U64 → U64 → U64) : Prop where
  on : ∀ a b, op (T a) (T b) = T (f a b)
  inv : ∀ a, op .inv (T a) = T a
  ne : ∀ a, T a ≠ .inv
  comm : ∀ a b, f a b = f b a
  assoc : ∀ a b c, f (f a b) c = f a (f b c)

theorem OpIs.optM_assoc {op T f} (h : OpIs op T f) (a b c : Option U64) : optM f (optM f a b) c = optM f a (optM f b c) := by
  cases a <;> cases b <;> cases c <;> simp [optM, h.assoc]

theorem OpIs.optM_comm {op T f} (h : OpIs op T f) (a b : Option U64) : optM f a b = optM f b a := by
  cases a <;> cases b <;> simp [optM, h.comm]

theorem total_append {op T f} (h : OpIs op T f) (xs ys : List U64) : total f (xs ++ ys) = optM f (total f xs) (total f ys) := by
  induction xs with
  | nil => rfl
  | cons x xs ih =>
    show optM f (some x) (total f (xs ++ ys)) = optM f (optM f (some x) (total f xs)) (total f ys)
    rw [ih, h.optM_assoc]

theorem total_perm {op T f} (h : OpIs op T f) {xs ys : List U64} (hp : xs.Perm ys) : total f xs = total f ys := by
  induction hp with
  | nil => rfl
  | cons x _ ih => exact congrArg (optM f (some x)) ih
  | swap x y l =>
    show optM f (some y) (optM f (some x) (total f l)) = optM f (some x) (optM f (some y) (total f l))
    rw [← h.optM_assoc, ← h.optM_assoc, h.optM_comm (some y)]
  | trans _ _ h1 h2 => exact h1.trans h2

theorem foldl_enc {op T f} (h : OpIs op T f) (xs : List U64) : ∀ o, (xs.map T).foldl op (enc T o) = enc T (optM f o (total f xs)) := by
  induction xs with
  | nil => intro o; cases o <;> rfl
  | cons x xs ih =>
    intro o
    have e : op (enc T o) (T x) = enc T (optM f o (some x)) := by
      cases o with
      | none => exact h.inv x
      | some a => exact h.on a x
    rw [List.map_cons, List.foldl_cons, e, ih]
    show enc T (optM f (optM f o (some x)) (total f xs)) = enc T (optM f o (optM f (some x) (total f xs)))
    rw [h.optM_assoc]

theorem smin_comm (a b : U64) : smin a b = smin b a := by
  unfold smin
  split <;> split
  · omega
  · rfl
  · rfl
  · apply BitVec.eq_of_toInt_eq; omega

theorem smax_comm (a b : U64) : smax a b = smax b a := by
  unfold smax
  split <;> split
  · omega
  · rfl
  · rfl
  · apply BitVec.eq_of_toInt_eq; omega

theorem umin_comm (a b : U64) : umin a b = umin b a := by
  unfold umin
  split <;> split
  · omega
  · rfl
  · rfl
  · apply BitVec.eq_of_toNat_eq; omega

theorem umax_comm (a b : U64) : umax a b = umax b a := by
  unfold umax
  split <;> split
  · omega
  · rfl
  · rfl
  · apply BitVec.eq_of_toNat_eq; omega

theorem smin_toInt (a b : U64) : (smin a b).toInt = min a.toInt b.toInt := by unfold smin; split <;> omega
theorem smax_toInt (a b : U64) : (smax a b).toInt = max a.toInt b.toInt := by unfold smax; split <;> omega
theorem umin_toNat (a b : U64) : (umin a b).toNat = min a.toNat b.toNat := by unfold umin; split <;> omega
theorem umax_toNat (a b : U64) : (umax a b).toNat = max a.toNat b.toNat := by unfold umax; split <;> omega

theorem smin_assoc (a b c : U64) : smin (smin a b) c = smin a (smin b c) := by
  apply BitVec.eq_of_toInt_eq; simp only [smin_toInt]; omega
theorem smax_assoc (a b c : U64) : smax (smax a b) c = smax a (smax b c) := by
  apply BitVec.eq_of_toInt_eq; simp only [smax_toInt]; omega
theorem umin_assoc (a b c : U64) : umin (umin a b) c = umin a (umin b c) := by
  apply BitVec.eq_of_toNat_eq; simp only [umin_toNat]; omega
theorem umax_assoc (a b c : U64) : umax (umax a b) c = umax a (umax b c) := by
  apply BitVec.eq_of_toNat_eq; simp only [umax_toNat]; omega

/-- the integer operation of a kernel -/
def KCfg.fn (sgn : Bool) : KCfg → U64 → U64 → U64
  | .min _ _ _ => if sgn then smin else umin
  | .max _ _ _ => if sgn then smax else umax
  | _ => (· + ·)

theorem op_is (O : FOps) (c : KCfg) (hc : ∀ a, c ≠ .count a) :
    OpIs (c.op O) .int (c.fn true) ∧ OpIs (c.op O) .uint (c.fn false) := by
  cases c with
  | count a => exact absurd rfl (hc a)
  | sum t d i =>
    exact ⟨⟨fun _ _ => rfl, fun _ => rfl, by simp, BitVec.add_comm, BitVec.add_assoc⟩, ⟨fun _ _ => rfl, fun _ => rfl, by simp, BitVec.add_comm, BitVec.add_assoc⟩⟩
  | min t d i =>
    exact ⟨⟨fun _ _ => rfl, fun _ => rfl, by simp, smin_comm, smin_assoc⟩, ⟨fun _ _ => rfl, fun _ => rfl, by simp, umin_comm, umin_assoc⟩⟩
  | max t d i =>
    exact ⟨⟨fun _ _ => rfl, fun _ => rfl, by simp, smax_comm, smax_assoc⟩, ⟨fun _ _ => rfl, fun _ => rfl, by simp, umax_comm, umax_assoc⟩⟩
  | avg t sA aA cA =>
    exact ⟨⟨fun _ _ => rfl, fun _ => rfl, by simp, BitVec.add_comm, BitVec.add_assoc⟩, ⟨fun _ _ => rfl, fun _ => rfl, by simp, BitVec.add_comm, BitVec.add_assoc⟩⟩

theorem vals_count (known : Nat → Bool) {c : KCfg} {a : Nat} (h : c = .count a) (rec : List QEnt) : c.vals known rec = [] := by
  subst h; rfl

/-- a permutation of a list of mapped values -/
theorem perm_map_of {T : U64 → Val} (hT : ∀ a b, T a = T b → a = b) {xs : List U64} {vs : List Val} (h : (xs.map T).Perm vs) :
    ∃ ys : List U64, vs = ys.map T ∧ xs.Perm ys := by
  have hv : ∃ ys : List U64, vs = ys.map T := by
    have : ∀ v ∈ vs, ∃ x, v = T x := by
      intro v hv
      obtain ⟨x, _, rfl⟩ := List.mem_map.1 (h.mem_iff.2 hv)
      exact ⟨x, rfl⟩
    clear h
    induction vs with
    | nil => exact ⟨[], rfl⟩
    | cons v vs ih =>
      obtain ⟨x, rfl⟩ := this v (by simp)
      obtain ⟨ys, rfl⟩ := ih (fun v hv => this v (List.mem_cons_of_mem _ hv))
      exact ⟨x :: ys, rfl⟩
  obtain ⟨ys, rfl⟩ := hv
  exact ⟨ys, rfl, (List.map_perm_map_iff (fun a b h => hT a b h)).1 h⟩

theorem foldl_perm (O : FOps) (c : KCfg) (hc : ∀ a, c ≠ .count a) {vs ws : List Val} (h : vs.Perm ws) (hv : Homog vs) :
    vs.foldl (c.op O) .inv = ws.foldl (c.op O) .inv := by
  obtain ⟨hi, hu⟩ := op_is O c hc
  rcases hv with ⟨xs, rfl⟩ | ⟨xs, rfl⟩
  · obtain ⟨ys, rfl, hp⟩ := perm_map_of (by simp) h
    have h1 := foldl_enc hi xs none
    have h2 := foldl_enc hi ys none
    simp only [enc] at h1 h2
    rw [h1, h2, total_perm hi hp]
  · obtain ⟨ys, rfl, hp⟩ := perm_map_of (by simp) h
    have h1 := foldl_enc hu xs none
    have h2 := foldl_enc hu ys none
    simp only [enc] at h1 h2
    rw [h1, h2, total_perm hu hp]

theorem Homog.of_subset {vs ws : List Val} (h : Homog vs) (hs : ∀ v ∈ ws, v ∈ vs) : Homog ws := by
  have aux : ∀ (T : U64 → Val) (ws : List Val), (∀ v ∈ ws, ∃ x, v = T x) → ∃ xs : List U64, ws = xs.map T := by
    intro T ws
    induction ws with
    | nil => intro _; exact ⟨[], rfl⟩
    | cons v vs ih =>
      intro hh
      obtain ⟨x, rfl⟩ := hh v (by simp)
      obtain ⟨ys, rfl⟩ := ih (fun v hv => hh v (List.mem_cons_of_mem _ hv))
      exact ⟨x :: ys, rfl⟩
  rcases h with ⟨xs, rfl⟩ | ⟨xs, rfl⟩
  · left
    refine aux _ _ ?_
    intro v hv
    obtain ⟨x, _, rfl⟩ := List.mem_map.1 (hs v hv)
    exact ⟨x, rfl⟩
  · right
    refine aux _ _ ?_
    intro v hv
    obtain ⟨x, _, rfl⟩ := List.mem_map.1 (hs v hv)
    exact ⟨x, rfl⟩

/-- in the records, the values of every metric are integers of one type -/
def QCfg.IntMetrics (C : QCfg) (recs : List (List QEnt)) : Prop := ∀ c ∈ C.kernels, Homog (recs.flatMap (c.vals C.known))

theorem perm_sum {xs ys : List U64} (h : xs.Perm ys) : xs.sum = ys.sum := by
  induction h with
  | nil => rfl
  | cons x _ ih => simp [ih]
  | swap x y l =>
    simp only [List.sum_cons]
    rw [← BitVec.add_assoc, ← BitVec.add_assoc, BitVec.add_comm y x]
  | trans _ _ h1 h2 => exact h1.trans h2

theorem stateOf_perm (O : FOps) (C : QCfg) (c : KCfg) (K : List KEnt) {recs recs' : List (List QEnt)} (h : recs.Perm recs')
    (hv : Homog (recs.flatMap (c.vals C.known))) : C.stateOf O c K recs = C.stateOf O c K recs' := by
  rw [stateOf_eq, stateOf_eq]
  have hf := h.filter (C.contributes O c K)
  congr 1
  · exact perm_sum (hf.map (c.cnt O C.known))
  · by_cases hc : ∃ a, c = .count a
    · obtain ⟨a, rfl⟩ := hc
      have : ∀ l : List (List QEnt), l.flatMap ((KCfg.count a).vals C.known) = [] := by
        intro l; simp [KCfg.vals]
      rw [this, this]
    · refine foldl_perm O c (fun a h => hc ⟨a, h⟩) (hf.flatMap_right _) (hv.of_subset ?_)
      intro v hv
      obtain ⟨r, hr, hvr⟩ := List.mem_flatMap.1 hv
      exact List.mem_flatMap.2 ⟨r, (List.mem_filter.1 hr).1, hvr⟩

theorem flush_perm (O : FOps) (C : QCfg) {recs recs' : List (List QEnt)}
    (hk : ∀ K, C.Present O K recs ↔ C.Present O K recs')
    (hs : ∀ K, C.Present O K recs → C.report O recs K = C.report O recs' K) :
    ((QAgg.init.run O C recs).flush O C).Perm ((QAgg.init.run O C recs').flush O C) := by
  obtain ⟨ks, h1, h2, h3⟩ := flush_report O C recs
  obtain ⟨ks', h1', h2', h3'⟩ := flush_report O C recs'
  rw [h3, h3']
  have hp : ks.Perm ks' := (List.perm_ext_iff_of_nodup h1 h1').2 (fun K => by rw [h2, h2', hk])
  have e : ks.map (C.report O recs) = ks.map (C.report O recs') := by
    apply List.map_congr_left
    intro K hK
    exact hs K ((h2 K).1 hK)
  rw [e]
  exact hp.map _

end Verif.Query
