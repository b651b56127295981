import Verif.Query.SelectSpec
/-!
# C31: WHERE filters select exactly the matching records
-/
namespace Verif.Query
open Verif Verif.Cali

theorem toCInt_toInt_sub (a b : U64) (h1 : -(2 ^ 31) ≤ a.toInt - b.toInt) (h2 : a.toInt - b.toInt < 2 ^ 31) :
    toCInt (a - b) = a.toInt - b.toInt := by
  refine toCInt_sub a b _ ?_ h1 h2
  have e1 := BitVec.toInt_eq_toNat_cond a
  have e2 := BitVec.toInt_eq_toNat_cond b
  split at e1 <;> split at e2 <;> omega

theorem uintCmp (a b : U64) : signOrd (if a - b = 0 then 0 else if a - b > a then -1 else 1) = intCmp a.toNat b.toNat := by
  have ha := a.isLt
  have hb := b.isLt
  by_cases h : a = b
  · subst h
    rw [if_pos (by simp)]
    rw [show signOrd 0 = .eq from rfl, eq_comm, intCmp_eq]
  · have hne : a.toNat ≠ b.toNat := fun h' => h (BitVec.eq_of_toNat_eq h')
    have h0 : a - b ≠ 0 := by
      intro h'
      have := congrArg BitVec.toNat h'
      simp only [BitVec.toNat_sub] at this
      have z : (0 : U64).toNat = 0 := rfl
      rw [z] at this
      omega
    rw [if_neg h0]
    by_cases hlt : a.toNat < b.toNat
    · rw [if_pos]
      · rw [show signOrd (-1) = .lt from rfl, eq_comm, intCmp_lt]; omega
      · show a < a - b
        rw [BitVec.lt_def, BitVec.toNat_sub]; omega
    · rw [if_neg]
      · rw [show signOrd 1 = .gt from rfl, eq_comm, intCmp_gt]; omega
      · show ¬ a < a - b
        rw [BitVec.lt_def, BitVec.toNat_sub]; omega

theorem sizes_min (a b : List Byte) (ha : a.length < 2 ^ 31) (hb : b.length < 2 ^ 31) :
    (min (toCInt (BitVec.ofNat 64 a.length)) (toCInt (BitVec.ofNat 64 b.length))).toNat = min a.length b.length := by
  rw [toCInt_ofNat _ ha, toCInt_ofNat _ hb]; omega

theorem lex_of (a b : List Byte) (c : Int) (hc : c = memcmpSign (a.take (min a.length b.length)) (b.take (min a.length b.length))) :
    signOrd (if c ≠ 0 then c else (a.length : Int) - b.length) = lexCmp a b := by
  rw [lexCmp_mem, hc]
  split
  · rfl
  · rw [signOrd_sub]

/-- on comparable values the comparison function computes the order -/
theorem cmpVal_ord (dcmp : U64 → U64 → Int) (v w : Val) (h : Comparable v w) : signOrd (cmpVal dcmp v w) = ordVal dcmp v w := by
  cases v <;> cases w <;> first | (simp only [cmpVal, ordVal]; with_reducible exact signOrd_sub _ _) | skip
  case inv.inv => rfl
  case usr.usr a b =>
    obtain ⟨h1, h2⟩ := h
    simp only [cmpVal, ordVal, sizes_min a b h1 h2]
    rw [toCInt_ofNat _ h1, toCInt_ofNat _ h2]
    exact lex_of a b _ rfl
  case string.string a b =>
    obtain ⟨h1, h2, h3⟩ := h
    simp only [cmpVal, ordVal, sizes_min a b h1 h2]
    rw [toCInt_ofNat _ h1, toCInt_ofNat _ h2]
    exact lex_of a b _ (strncmp_eq_memcmp _ _ fun x hx => h3 x (List.mem_of_mem_take hx))
  case int.int a b =>
    simp only [cmpVal, ordVal]
    rw [toCInt_toInt_sub a b h.1 h.2, signOrd_sub]
  case ptr.ptr a b =>
    simp only [cmpVal, ordVal]
    rw [toCInt_sub a b ((a.toNat : Int) - b.toNat) (by omega) h.1 h.2, signOrd_sub]
  case addr.addr a b => exact uintCmp a b
  case uint.uint a b => exact uintCmp a b
  case double.double a b => rfl

theorem signOrd_lt {i : Int} : i < 0 ↔ signOrd i = .lt := intCmp_lt.symm
theorem signOrd_gt {i : Int} : 0 < i ↔ signOrd i = .gt := intCmp_gt.symm

theorem anyMatch_any (m : Nat → Val → Bool) (rec : List QEnt) : anyMatch m rec = rec.any (haveMatch m) := by
  have : ∀ (l : List QEnt) (b : Bool), l.foldl (fun b e => if haveMatch m e then true else b) b = (b || l.any (haveMatch m)) := by
    intro l
    induction l with
    | nil => intro b; simp
    | cons e l ih =>
      intro b
      rw [List.foldl_cons, ih, List.any_cons]
      cases haveMatch m e <;> cases b <;> simp
  rw [anyMatch, this]; simp

/-- with no empty entries, the loop finds exactly the matching pairs -/
theorem anyMatch_pairs (m : Nat → Val → Bool) (rec : List QEnt) (h : .ref [] ∉ rec) :
    anyMatch m rec = true ↔ ∃ a v, (a, v) ∈ pairs rec ∧ m a v = true := by
  rw [anyMatch_any, List.any_eq_true]
  unfold pairs
  simp only [List.mem_flatMap]
  constructor
  · rintro ⟨e, he, hm⟩
    cases e with
    | imm a v => exact ⟨a, v, ⟨_, he, by simp⟩, hm⟩
    | ref p =>
      cases p with
      | nil => exact absurd he h
      | cons x p =>
        simp only [haveMatch, List.any_eq_true] at hm
        obtain ⟨y, hy, hm⟩ := hm
        exact ⟨y.1, y.2, ⟨_, he, hy⟩, hm⟩
  · rintro ⟨a, v, ⟨e, he, hav⟩, hm⟩
    refine ⟨e, he, ?_⟩
    cases e with
    | imm a' v' =>
      simp at hav
      obtain ⟨rfl, rfl⟩ := hav
      exact hm
    | ref p =>
      cases p with
      | nil => simp at hav
      | cons x p =>
        simp only [haveMatch, List.any_eq_true]
        exact ⟨(a, v), hav, hm⟩

theorem passOne_iff (E : SelEnv) (f : Cond) (rec : List QEnt) (he : .ref [] ∉ rec) (hid : ∀ v, (invN, v) ∉ pairs rec)
    (hc : f.op = .less ∨ f.op = .greater ∨ f.op = .lessEq ∨ f.op = .greaterEq →
      ∀ id t, E.attr f.name = some (id, t) → ∀ v, (id, v) ∈ pairs rec → Comparable v (fromString E.F t f.value)) :
    E.passOne (E.clause f) rec = true ↔ E.Holds f rec := by
  obtain ⟨op, name, value⟩ := f
  unfold SelEnv.clause SelEnv.Holds SelEnv.passOne
  simp only at hc ⊢
  have key := fun m => anyMatch_pairs m rec he
  cases ha : E.attr name with
  | none =>
    have none_ : ∀ m : Nat → Val → Bool, (∀ a v, m a v = true → a = invN) → anyMatch m rec = false := by
      intro m hm
      rw [← Bool.not_eq_true, key]
      rintro ⟨a, v, h1, h2⟩
      have := hm a v h2
      subst this
      exact hid v h1
    simp only
    cases op <;> simp only
    · rw [none_ _ (by simp)]; simp
    · rw [none_ _ (by simp)]; simp
    · rw [none_ _ (by simp +contextual)]; simp
    · rw [none_ _ (by simp +contextual)]; simp
    · rw [none_ _ (by simp +contextual)]; simp
    · rw [none_ _ (by simp +contextual)]; simp
    · rw [none_ _ (by simp +contextual)]; simp
    · rw [none_ _ (by simp +contextual)]; simp
  | some it =>
    obtain ⟨id, t⟩ := it
    have cmp : op = .less ∨ op = .greater ∨ op = .lessEq ∨ op = .greaterEq → ∀ v, (id, v) ∈ pairs rec →
        signOrd (cmpVal E.dcmp v (fromString E.F t value)) = ordVal E.dcmp v (fromString E.F t value) :=
      fun h v hv => cmpVal_ord _ _ _ (hc h id t ha v hv)
    simp only
    cases op <;> simp only [COp.holds]
    · rw [key]; simp
    · rw [Bool.not_eq_true', ← Bool.not_eq_true, key]; simp
    · rw [key]; simp
    · rw [Bool.not_eq_true', ← Bool.not_eq_true, key]; simp
    · rw [key]
      constructor
      · rintro ⟨a, v, h1, h2⟩
        simp only [Bool.and_eq_true, beq_iff_eq, decide_eq_true_eq] at h2
        obtain ⟨rfl, h2⟩ := h2
        exact ⟨v, h1, by rw [← cmp (by simp) v h1]; exact signOrd_lt.1 h2⟩
      · rintro ⟨v, h1, h2⟩
        refine ⟨id, v, h1, ?_⟩
        rw [← cmp (by simp) v h1] at h2
        simp [signOrd_lt.2 h2]
    · rw [key]
      constructor
      · rintro ⟨a, v, h1, h2⟩
        simp only [Bool.and_eq_true, beq_iff_eq, decide_eq_true_eq] at h2
        obtain ⟨rfl, h2⟩ := h2
        exact ⟨v, h1, by rw [← cmp (by simp) v h1]; exact signOrd_gt.1 h2⟩
      · rintro ⟨v, h1, h2⟩
        refine ⟨id, v, h1, ?_⟩
        rw [← cmp (by simp) v h1] at h2
        simp [signOrd_gt.2 h2]
    · rw [key]
      constructor
      · rintro ⟨a, v, h1, h2⟩
        simp only [Bool.and_eq_true, beq_iff_eq, decide_eq_true_eq, Bool.or_eq_true] at h2
        obtain ⟨rfl, h2⟩ := h2
        refine ⟨v, h1, ?_⟩
        rw [← cmp (by simp) v h1]
        exact h2.imp signOrd_lt.1 _root_.id
      · rintro ⟨v, h1, h2⟩
        refine ⟨id, v, h1, ?_⟩
        rw [← cmp (by simp) v h1] at h2
        rcases h2 with h2 | h2
        · simp [signOrd_lt.2 h2]
        · simp [h2]
    · rw [key]
      constructor
      · rintro ⟨a, v, h1, h2⟩
        simp only [Bool.and_eq_true, beq_iff_eq, decide_eq_true_eq, Bool.or_eq_true] at h2
        obtain ⟨rfl, h2⟩ := h2
        refine ⟨v, h1, ?_⟩
        rw [← cmp (by simp) v h1]
        exact h2.imp signOrd_gt.1 _root_.id
      · rintro ⟨v, h1, h2⟩
        refine ⟨id, v, h1, ?_⟩
        rw [← cmp (by simp) v h1] at h2
        rcases h2 with h2 | h2
        · simp [signOrd_gt.2 h2]
        · simp [h2]

/-- C31: a record (without empty entries) passes a list of filters exactly if all conditions hold for its attribute:value pairs
- provided the values that `<`, `>`, `<=`, `>=` compare are within the range the comparison supports (see C04; integers less than
2^31 apart).  For existence and equality filters there is no such restriction. -/
theorem C31_pass_iff_partial (E : SelEnv) (fs : List Cond) (rec : List QEnt) (he : .ref [] ∉ rec) (hid : ∀ v, (invN, v) ∉ pairs rec)
    (hc : E.Comparable fs rec) : E.pass fs rec = true ↔ ∀ f ∈ fs, E.Holds f rec := by
  induction fs with
  | nil => simp [SelEnv.pass]
  | cons f fs ih =>
    have h1 := passOne_iff E f rec he hid (hc f (by simp))
    have h2 := ih (fun c hc' => hc c (List.mem_cons_of_mem _ hc'))
    unfold SelEnv.pass
    rw [List.forall_mem_cons, ← h1, ← h2]
    cases E.passOne (E.clause f) rec <;> simp

/-- C31: filtering a stream keeps exactly the records for which all conditions hold, each once and in order. -/
theorem C31_stream_partial (E : SelEnv) (fs : List Cond) (recs : List (List QEnt)) [DecidablePred fun r => ∀ f ∈ fs, E.Holds f r]
    (h : ∀ r ∈ recs, .ref [] ∉ r ∧ (∀ v, (invN, v) ∉ pairs r) ∧ E.Comparable fs r) :
    E.select fs recs = recs.filter fun r => decide (∀ f ∈ fs, E.Holds f r) := by
  unfold SelEnv.select
  apply List.filter_congr
  intro r hr
  obtain ⟨h1, h2, h3⟩ := h r hr
  have := C31_pass_iff_partial E fs r h1 h2 h3
  rw [Bool.eq_iff_iff, this, decide_eq_true_eq]

/-! ## The hypotheses are met, and what goes wrong without them -/

namespace SDemo

/-- attribute `x` (id 10) is an integer, `r` (id 1) a string -/
def env : SelEnv := ⟨fun n => if n = str "x" then some (10, .int) else if n = str "r" then some (1, .string) else none, fun _ _ => 0,
  ⟨fun _ => [], fun _ => [], fun _ => none⟩⟩

/-- a record with a path `a/b` and `x = 7` -/
def rec1 : List QEnt := [.ref [(1, .string (str "b")), (1, .string (str "a"))], .imm 10 (.int 7)]

/-- `r = a, x >= 5, not(y)` -/
def fs : List Cond := [⟨.equal, str "r", str "a"⟩, ⟨.greaterEq, str "x", str "5"⟩, ⟨.notExist, str "y", []⟩]

example : .ref [] ∉ rec1 ∧ (∀ v, (invN, v) ∉ pairs rec1) ∧ env.Comparable fs rec1 ∧ env.pass fs rec1 = true := by
  refine ⟨by decide, ?_, ?_, by decide +kernel⟩
  · intro v hv
    simp only [rec1, pairs, List.flatMap_cons, List.flatMap_nil, List.mem_append, List.mem_cons, Prod.mk.injEq, List.not_mem_nil,
      or_false, or_assoc] at hv
    rcases hv with h | h | h <;> exact absurd h.1 (by decide)
  · intro c hc hop id t ht v hv
    simp only [fs, List.mem_cons, List.not_mem_nil, or_false] at hc
    rcases hc with rfl | rfl | rfl
    · simp at hop
    · have ht' : (10, AttrType.int) = (id, t) := Option.some.inj ht
      simp only [Prod.mk.injEq] at ht'
      obtain ⟨rfl, rfl⟩ := ht'
      simp only [rec1, pairs, List.flatMap_cons, List.flatMap_nil, List.mem_append, List.mem_cons, Prod.mk.injEq, List.not_mem_nil,
        or_false, or_assoc] at hv
      rcases hv with h | h | h
      · exact absurd h.1 (by decide)
      · exact absurd h.1 (by decide)
      · obtain ⟨_, rfl⟩ := h
        have : fromString env.F .int (str "5") = .int 5 := by decide +kernel
        show Comparable (.int 7) (fromString env.F .int (str "5"))
        rw [this]
        exact ⟨by decide, by decide⟩
    · simp at hop

end SDemo

open SDemo in
/-- C31 fails for integers 2^31 or more apart: `x > 0` rejects a record with `x = 3000000000`. -/
theorem C31_violation_large : env.pass [⟨.greater, str "x", str "0"⟩] [.imm 10 (.int 3000000000)] = false ∧
    env.Holds ⟨.greater, str "x", str "0"⟩ [.imm 10 (.int 3000000000)] := by
  refine ⟨by decide +kernel, ?_⟩
  show ∃ v, (10, v) ∈ pairs [.imm 10 (.int 3000000000)] ∧ ordVal _ v (fromString env.F .int (str "0")) = .gt
  refine ⟨.int 3000000000, by decide, ?_⟩
  rw [show fromString env.F .int (str "0") = .int 0 by decide +kernel]
  decide

open SDemo in
/-- C31 fails for records with empty entries: a filter for an attribute that does not exist lets them pass. -/
theorem C31_violation_empty_entry : env.pass [⟨.exist, str "y", []⟩] [.ref []] = true ∧ ¬ env.Holds ⟨.exist, str "y", []⟩ [.ref []] :=
  ⟨by decide +kernel, id⟩

open SDemo in
/-- A value that cannot be read is taken as the empty value, which is less than all others: `x > five` holds for all values. -/
theorem C31_unreadable_value (i : U64) : env.pass [⟨.greater, str "x", str "five"⟩] [.imm 10 (.int i)] = true := by
  have : env.clause ⟨.greater, str "x", str "five"⟩ = ⟨.greater, 10, .inv⟩ := by
    show (⟨.greater, 10, fromString env.F .int (str "five")⟩ : Clause) = _
    rw [show fromString env.F .int (str "five") = .inv by decide +kernel]
  unfold SelEnv.pass
  rw [this]
  simp [SelEnv.passOne, anyMatch, haveMatch, cmpVal, Val.ty, AttrType.code, SelEnv.pass]

/-- Selector strings: `<` and `>` are accepted and silently mean "exists". -/
theorem C31_selector_less_is_exist : parseSelector (str "x<5,-y=3,z") =
    [⟨.exist, str "x", str "5"⟩, ⟨.notEqual, str "y", str "3"⟩, ⟨.exist, str "z", []⟩] := by decide +kernel

end Verif.Query
