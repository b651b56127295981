import Verif.Serv.AdiakSpec
import Verif.Cali.TextLemmas
import Mathlib.Data.List.Nodup
import Mathlib.Tactic.IntervalCases
import Mathlib.Tactic.Tauto
/-!
# C91: values registered with Adiak become the globals of the run
-/
namespace Verif.Serv.Adiak
open Verif Verif.Cali

/-! ## which values are imported -/

theorem showNat_eq (n : Nat) : showNat n = str (toString n) := by
  show digitsLoop 10 n [] = n.repr.toList.map ch
  rw [Nat.toList_repr]
  have hd : ∀ d, d < 10 → digitChar d = ch (Nat.digitChar d) := by intro d hd; interval_cases d <;> decide
  induction n using Nat.strongRecOn with
  | _ n ih =>
    by_cases h : n < 10
    · rw [digits_lt 10 n h, Nat.toDigits_of_lt_base h, List.map_singleton, hd n h]
    · rw [digits_ge 10 n (by omega) (by omega), Nat.toDigits_of_base_le (by omega) (by omega), List.map_append, List.map_singleton,
        ih _ (by omega), hd _ (Nat.mod_lt _ (by omega))]

theorem showInt_eq (i : Int) : showInt i = str (toString i) := by
  unfold showInt
  show _ = str i.repr
  rw [Int.repr_eq_if, showNat_eq]
  by_cases h : i < 0
  · rw [if_pos h, if_neg (by omega)]
    have : i.natAbs = (-i).toNat := by omega
    rw [this]
    simp only [str, String.toList_append, List.map_append]
    rfl
  · rw [if_neg h, if_pos (by omega)]
    have : i.natAbs = i.toNat := by omega
    rw [this]; rfl

mutual
theorem unpack_text (pd : BitVec 64 → Str) (v : V) : unpack pd v = v.text pd := by
  cases v with
  | range a b => simp only [unpack, V.text, unpack_text pd a, unpack_text pd b, List.append_assoc]; rfl
  | set l => simp only [unpack, V.text, unpackList_text pd l, List.append_assoc]; rfl
  | list l => simp only [unpack, V.text, unpackList_text pd l, List.append_assoc]; rfl
  | tuple l => simp only [unpack, V.text, unpackList_text pd l, List.append_assoc]; rfl
  | _ => simp only [unpack, V.text, showNat_eq, showInt_eq]
theorem unpackList_text (pd : BitVec 64 → Str) (l : Vs) : unpackList pd l = (str ",").intercalate (l.texts pd) := by
  cases l with
  | nil => simp [unpackList, Vs.texts]
  | cons v l =>
    cases l with
    | nil => simp [unpackList, Vs.texts, unpack_text pd v]
    | cons w l =>
      have := unpackList_text pd (.cons w l)
      rw [unpackList, this, unpack_text pd v]
      simp only [Vs.texts, List.intercalate_cons_cons]
      simp [str]
end

/-- the type of the attribute made for a value that fits -/
theorem variant_fits (pd : BitVec 64 → Str) (v : V) (hv : v.Fits) : ∃ x, variant pd v = some x ∧ some x.meaning = v.meaning pd := by
  cases v with
  | long x =>
    refine ⟨_, rfl, ?_⟩
    simp only [CVal.meaning, V.meaning, V.Fits] at hv ⊢
    congr 2
    rw [BitVec.toInt_signExtend_of_le (by omega), BitVec.truncate_eq_setWidth, BitVec.toInt_setWidth]
    rw [BitVec.toInt_eq_toNat_bmod] at hv ⊢
    rw [Int.bmod_def] at hv
    simp only [Int.bmod_def]
    have := x.isLt
    split at hv <;> split <;> first | omega | (split <;> omega)
  | int x =>
    refine ⟨_, rfl, ?_⟩
    simp only [CVal.meaning, V.meaning]
    rw [BitVec.toInt_signExtend_of_le (by omega)]
  | uint x =>
    refine ⟨_, rfl, ?_⟩
    simp only [CVal.meaning, V.meaning, V.Fits] at hv ⊢
    have : x.msb = false := by rw [BitVec.msb_eq_false_iff_two_mul_lt]; omega
    rw [BitVec.signExtend_eq_setWidth_of_msb_false this, BitVec.toNat_setWidth]
    have := x.isLt
    rw [Nat.mod_eq_of_lt (by omega)]
  | date x =>
    refine ⟨_, rfl, ?_⟩
    simp only [CVal.meaning, V.meaning, V.Fits] at hv ⊢
    congr 2
    rw [BitVec.toInt_eq_toNat_cond] at hv ⊢
    have := x.isLt
    split at hv <;> split <;> omega
  | str s =>
    refine ⟨_, rfl, ?_⟩
    simp only [CVal.meaning, V.meaning, V.Fits] at hv ⊢
    rw [if_neg (fun h => hv (List.mem_of_getLast? h))]
  | unset => exact absurd hv (by simp [V.Fits])
  | unknown => exact absurd hv (by simp [V.Fits])
  | _ => refine ⟨_, rfl, ?_⟩; simp [CVal.meaning, V.meaning, unpack_text]

theorem nameval_fits (pd : BitVec 64 → Str) (s : St) (n : Str) (c : Nat) (v : V) (hc : c ≠ control) {x : CVal} (hx : variant pd v = some x) :
    nameval pd s n c v = { s with types := (if (s.types n).isSome then s.types else updS s.types n x.ty), globals := updS s.globals n x } := by
  unfold nameval
  rw [if_neg hc]
  cases v <;> first | (simp only [hx]; done) | (simp [variant] at hx; done)

theorem preFlush_eq (pd : BitVec 64 → Str) (cats : List Nat) (rs : List Reg) (s : St) :
    preFlush pd cats rs s =
      (cats.flatMap fun c => rs.filter fun r => decide (c = all ∨ r.category = c)).foldl (fun s r => nameval pd s r.name r.category r.value) s := by
  unfold preFlush
  induction cats generalizing s with
  | nil => rfl
  | cons c cats ih => rw [List.foldl_cons, ih, List.flatMap_cons, List.foldl_append]

theorem fold_spec (pd : BitVec 64 → Str) (L : List Reg) (hu : ∀ r ∈ L, ∀ r' ∈ L, r.name = r'.name → r = r')
    (hf : ∀ r ∈ L, r.category ≠ control → ∃ x, variant pd r.value = some x) : ∀ s : St,
    let s' := L.foldl (fun s r => nameval pd s r.name r.category r.value) s
    s'.error = s.error ∧
    (∀ r ∈ L, r.category ≠ control → ∃ x, variant pd r.value = some x ∧ s'.globals r.name = some x ∧
      s'.types r.name = some ((s.types r.name).getD x.ty)) ∧
    (∀ n, (∀ r ∈ L, r.category ≠ control → r.name ≠ n) → s'.globals n = s.globals n ∧ s'.types n = s.types n) := by
  induction L with
  | nil => intro s; exact ⟨rfl, (fun r hr => nomatch hr), fun _ _ => ⟨rfl, rfl⟩⟩
  | cons r L ih =>
    intro s
    have ih := ih (fun a ha b hb => hu a (.tail _ ha) b (.tail _ hb)) (fun a ha => hf a (.tail _ ha))
    simp only [List.foldl_cons]
    by_cases hc : r.category = control
    · have e : nameval pd s r.name r.category r.value = s := by unfold nameval; rw [if_pos hc]
      rw [e]
      obtain ⟨h1, h2, h3⟩ := ih s
      refine ⟨h1, ?_, fun n hn => h3 n fun a ha => hn a (.tail _ ha)⟩
      intro a ha hca
      rcases List.mem_cons.1 ha with rfl | ha
      · exact absurd hc hca
      · exact h2 a ha hca
    · obtain ⟨x, hx⟩ := hf r (.head _) hc
      rw [nameval_fits pd s r.name r.category r.value hc hx]
      obtain ⟨h1, h2, h3⟩ := ih { s with types := (if (s.types r.name).isSome then s.types else updS s.types r.name x.ty), globals := updS s.globals r.name x }
      refine ⟨h1, ?_, ?_⟩
      · intro a ha hca
        by_cases hm : a ∈ L
        · obtain ⟨y, hy, hg, ht⟩ := h2 a hm hca
          refine ⟨y, hy, hg, ?_⟩
          rw [ht]
          simp only
          split
          · rfl
          · rename_i hs
            unfold updS
            split
            · rename_i hn
              have : a = r := hu a ha r (.head _) hn
              subst this
              rw [hx] at hy
              cases hy
              simp only [Option.not_isSome_iff_eq_none] at hs
              rw [hs]; rfl
            · rfl
        · have har : a = r := by
            rcases List.mem_cons.1 ha with h | h
            · exact h
            · exact absurd h hm
          subst har
          obtain ⟨hg, ht⟩ := h3 a.name fun b hb _ hn => hm (by rw [← hu b (.tail _ hb) a (.head _) hn]; exact hb)
          refine ⟨x, hx, by rw [hg]; simp [updS], ?_⟩
          rw [ht]
          simp only
          split
          · rename_i hs
            obtain ⟨t, e⟩ := Option.isSome_iff_exists.1 hs
            rw [e]; rfl
          · rename_i hs
            simp only [Option.not_isSome_iff_eq_none] at hs
            rw [hs]; simp [updS]
      · intro n hn
        obtain ⟨hg, ht⟩ := h3 n fun b hb => hn b (.tail _ hb)
        have hne : n ≠ r.name := fun e => hn r (.head _) hc e.symm
        rw [hg, ht]
        simp only [updS, if_neg hne]
        refine ⟨trivial, ?_⟩
        split <;> simp [updS, hne]

theorem mem_chosen (cats : List Nat) (rs : List Reg) (r : Reg) :
    (r ∈ cats.flatMap fun c => rs.filter fun r => decide (c = all ∨ r.category = c)) ↔ r ∈ rs ∧ (all ∈ cats ∨ r.category ∈ cats) := by
  simp only [List.mem_flatMap, List.mem_filter, decide_eq_true_eq]
  constructor
  · rintro ⟨c, hc, hr, rfl | rfl⟩
    · exact ⟨hr, .inl hc⟩
    · exact ⟨hr, .inr hc⟩
  · rintro ⟨hr, h | h⟩
    · exact ⟨all, h, hr, .inl rfl⟩
    · exact ⟨_, h, hr, .inr rfl⟩

/-- C91: when a channel with the service is flushed, then each value registered in a chosen category is a global of the channel afterwards that says the same as the registered value, under an attribute of the value's type unless an attribute of the name existed;
values of other categories and all other globals are left as they are, and the thread's annotations are not disturbed -/
theorem C91_import (pd : BitVec 64 → Str) (categories : List Nat) (rs : List Reg) (s : St) (hn : (rs.map (·.name)).Nodup)
    (hf : ∀ r ∈ rs, Chosen categories r → r.value.Fits) :
    (∀ r ∈ rs, Chosen categories r → ∃ x, (preFlush pd categories rs s).globals r.name = some x ∧ some x.meaning = r.value.meaning pd ∧
      (preFlush pd categories rs s).types r.name = some ((s.types r.name).getD x.ty)) ∧
    (∀ n, (∀ r ∈ rs, Chosen categories r → r.name ≠ n) →
      (preFlush pd categories rs s).globals n = s.globals n ∧ (preFlush pd categories rs s).types n = s.types n) ∧
    (preFlush pd categories rs s).error = s.error := by
  rw [preFlush_eq]
  obtain ⟨h1, h2, h3⟩ := fold_spec pd (categories.flatMap fun c => rs.filter fun r => decide (c = all ∨ r.category = c))
    (fun a ha b hb e => List.inj_on_of_nodup_map hn ((mem_chosen _ _ _).1 ha).1 ((mem_chosen _ _ _).1 hb).1 e)
    (fun a ha hc => by
      obtain ⟨hr, ho⟩ := (mem_chosen _ _ _).1 ha
      obtain ⟨x, hx, _⟩ := variant_fits pd a.value (hf a hr ⟨hc, ho⟩)
      exact ⟨x, hx⟩) s
  refine ⟨?_, ?_, h1⟩
  · intro r hr hc
    obtain ⟨x, hx, hg, ht⟩ := h2 r ((mem_chosen _ _ _).2 ⟨hr, hc.2⟩) hc.1
    obtain ⟨y, hy, hm⟩ := variant_fits pd r.value (hf r hr hc)
    rw [hx] at hy; cases hy
    exact ⟨x, hg, hm, ht⟩
  · intro n hn'
    exact h3 n fun r hr hc => hn' r ((mem_chosen _ _ _).1 hr).1 ⟨hc, ((mem_chosen _ _ _).1 hr).2⟩

/-! ## the text of containers can be read back -/

theorem split_unique (p : Byte → Bool) {a b r r' : Str} (ha : ∀ c ∈ a, p c = true) (hb : ∀ c ∈ b, p c = true)
    (hr : ∀ c, r.head? = some c → p c = false) (hr' : ∀ c, r'.head? = some c → p c = false) (h : a ++ r = b ++ r') : a = b ∧ r = r' := by
  have key : ∀ (a r : Str), (∀ c ∈ a, p c = true) → (∀ c, r.head? = some c → p c = false) → (a ++ r).takeWhile p = a := by
    intro a r ha hr
    rw [List.takeWhile_append_of_pos ha]
    cases r with
    | nil => simp
    | cons c r => rw [List.takeWhile_cons_of_neg (by rw [hr c rfl]; simp), List.append_nil]
  have e : a = b := by rw [← key a r ha hr, h, key b r' hb hr']
  subst e
  exact ⟨rfl, List.append_cancel_left h⟩

def isDig (c : Byte) : Bool := decide (48 ≤ c.toNat ∧ c.toNat ≤ 57)

theorem isDig_digitChar (d : Nat) (hd : d < 10) : isDig (digitChar d) = true := by interval_cases d <;> decide

theorem showNat_dig (n : Nat) : ∀ c ∈ showNat n, isDig c = true := by
  intro c hc
  obtain ⟨d, hd, rfl⟩ := digits_all 10 (by omega) n c hc
  exact isDig_digitChar d hd

theorem showNat_inj {m n : Nat} (h : showNat m = showNat n) : m = n := by
  have h1 := digitsVal_digits 10 (by omega) (by omega) m
  have h2 := digitsVal_digits 10 (by omega) (by omega) n
  unfold showNat at h
  rw [h, h2] at h1
  exact (Prod.mk.inj h1).1.symm

def NoDig (r : Str) : Prop := ∀ c, r.head? = some c → isDig c = false

theorem showNat_decode {m n : Nat} {r r' : Str} (hr : NoDig r) (hr' : NoDig r') (h : showNat m ++ r = showNat n ++ r') : m = n ∧ r = r' := by
  obtain ⟨e, e'⟩ := split_unique isDig (showNat_dig m) (showNat_dig n) hr hr' h
  exact ⟨showNat_inj e, e'⟩

theorem showNat_head (n : Nat) : ∃ c t, showNat n = c :: t ∧ isDig c = true := by
  obtain ⟨d, ds, hd, e⟩ := digits_cons 10 (by omega) n
  exact ⟨_, ds, e, isDig_digitChar d hd⟩

theorem showInt_decode {i j : Int} {r r' : Str} (hr : NoDig r) (hr' : NoDig r') (h : showInt i ++ r = showInt j ++ r') : i = j ∧ r = r' := by
  unfold showInt at h
  have hm : isDig (ch '-') = false := by decide
  split at h <;> split at h
  · simp only [List.cons_append, List.cons.injEq, true_and] at h
    obtain ⟨e, e'⟩ := showNat_decode hr hr' h
    exact ⟨by omega, e'⟩
  · obtain ⟨c, t, e, hd⟩ := showNat_head j.natAbs
    rw [e] at h
    simp only [List.cons_append, List.cons.injEq] at h
    rw [← h.1, hm] at hd; exact absurd hd (by simp)
  · obtain ⟨c, t, e, hd⟩ := showNat_head i.natAbs
    rw [e] at h
    simp only [List.cons_append, List.cons.injEq] at h
    rw [h.1, hm] at hd; exact absurd hd (by simp)
  · obtain ⟨e, e'⟩ := showNat_decode hr hr' h
    exact ⟨by omega, e'⟩

theorem kind_decode (pd : BitVec 64 → Str) {v w : V} {k : Kind} {r r' : Str} (hv : v.HasKind k) (hw : w.HasKind k) (hr : NoDig r) (hr' : NoDig r')
    (h : unpack pd v ++ r = unpack pd w ++ r') : v = w ∧ r = r' := by
  cases k <;> cases v <;> simp only [V.HasKind] at hv <;> cases w <;> simp only [V.HasKind] at hw <;> simp only [unpack] at h <;>
    first
    | (obtain ⟨e, e'⟩ := showInt_decode hr hr' h; exact ⟨by rw [BitVec.toInt_inj.1 e], e'⟩)
    | (obtain ⟨e, e'⟩ := showNat_decode hr hr' h; exact ⟨by rw [BitVec.toNat_inj.1 e], e'⟩)

/-- the text of a number begins with a digit or a minus sign -/
theorem kind_head (pd : BitVec 64 → Str) {v : V} {k : Kind} (hv : v.HasKind k) : ∃ c t, unpack pd v = c :: t ∧ (isDig c = true ∨ c = ch '-') := by
  have hi : ∀ i : Int, ∃ c t, showInt i = c :: t ∧ (isDig c = true ∨ c = ch '-') := by
    intro i
    unfold showInt
    split
    · exact ⟨_, _, rfl, .inr rfl⟩
    · obtain ⟨c, t, e, hd⟩ := showNat_head i.natAbs
      exact ⟨c, t, e, .inl hd⟩
  have hn : ∀ n : Nat, ∃ c t, showNat n = c :: t ∧ (isDig c = true ∨ c = ch '-') := by
    intro n
    obtain ⟨c, t, e, hd⟩ := showNat_head n
    exact ⟨c, t, e, .inl hd⟩
  cases k <;> cases v <;> simp only [V.HasKind] at hv <;> simp only [unpack] <;> first | exact hi _ | exact hn _

/-- characters after a value in a container -/
def closing : List Byte := [ch ',', ch ']', ch '}', ch ')']
def Stop (r : Str) : Prop := ∀ c, r.head? = some c → c ∈ closing

theorem Stop.noDig {r : Str} (h : Stop r) : NoDig r := by
  intro c hc
  have := h c hc
  simp only [closing, List.mem_cons, List.not_mem_nil, or_false] at this
  rcases this with rfl | rfl | rfl | rfl <;> decide

theorem dig_not_closing {c : Byte} (h : isDig c = true ∨ c = ch '-') : c ∉ closing := by
  intro hm
  simp only [closing, List.mem_cons, List.not_mem_nil, or_false] at hm
  rcases h with h | h <;> rcases hm with rfl | rfl | rfl | rfl <;> revert h <;> decide

/-- the text of a value of a type is not empty and does not begin with a closing character -/
theorem head_ok (pd : BitVec 64 → Str) (v : V) (T : Ty) (h : v.HasTy T) : ∃ c t, unpack pd v = c :: t ∧ c ∉ closing := by
  cases T with
  | scalar k =>
    have hk : v.HasKind k := by cases v <;> simpa only [V.HasTy] using h
    obtain ⟨c, t, e, hc⟩ := kind_head pd hk
    exact ⟨c, t, e, dig_not_closing hc⟩
  | str =>
    cases v <;> simp only [V.HasTy] at h
    rename_i s
    obtain ⟨h1, h2⟩ := h
    cases s with
    | nil => exact absurd rfl h1
    | cons c t =>
      refine ⟨c, t, by simp only [unpack], fun hm => h2 c (.head _) ?_⟩
      simp only [closing, special, List.mem_cons, List.not_mem_nil, or_false] at hm ⊢
      tauto
  | range k =>
    cases v <;> simp only [V.HasTy] at h
    obtain ⟨c, t, e, hc⟩ := kind_head pd h.1
    rename_i a b
    exact ⟨c, t ++ ch '-' :: unpack pd b, by simp only [unpack, e, List.cons_append], dig_not_closing hc⟩
  | set t => cases v <;> simp only [V.HasTy] at h; simp only [unpack]; exact ⟨_, _, rfl, by decide⟩
  | list t => cases v <;> simp only [V.HasTy] at h; simp only [unpack]; exact ⟨_, _, rfl, by decide⟩
  | tuple t => cases v <;> simp only [V.HasTy] at h; simp only [unpack]; exact ⟨_, _, rfl, by decide⟩

/-- the text after an element -/
def more (pd : BitVec 64 → Str) : Vs → Str
  | .nil => []
  | .cons w l => ch ',' :: unpackList pd (.cons w l)

theorem unpackList_cons (pd : BitVec 64 → Str) (v : V) (l : Vs) : unpackList pd (.cons v l) = unpack pd v ++ more pd l := by
  cases l <;> simp [unpackList, more]

/-- the text begins with a closing bracket -/
def End (r : Str) : Prop := ∃ c t, r = c :: t ∧ c ∈ closing ∧ c ≠ ch ','

theorem End.stop {r : Str} (h : End r) : Stop r := by
  obtain ⟨c, t, rfl, hc, _⟩ := h
  intro d hd; cases hd; exact hc

theorem more_stop (pd : BitVec 64 → Str) (l : Vs) {r : Str} (h : End r) : Stop (more pd l ++ r) := by
  cases l with
  | nil => exact h.stop
  | cons w l => intro d hd; cases hd; decide

theorem more_decode (pd : BitVec 64 → Str) {l m : Vs} {r r' : Str} (hr : End r) (hr' : End r') (h : more pd l ++ r = more pd m ++ r') :
    (l = .nil ∧ m = .nil ∧ r = r') ∨ (∃ v l' w m', l = .cons v l' ∧ m = .cons w m' ∧ unpackList pd l ++ r = unpackList pd m ++ r') := by
  cases l with
  | nil =>
    cases m with
    | nil => exact .inl ⟨rfl, rfl, h⟩
    | cons w m =>
      obtain ⟨c, t, rfl, _, hc⟩ := hr
      simp only [more, List.nil_append, List.cons_append, List.cons.injEq] at h
      exact absurd h.1 hc
  | cons v l =>
    cases m with
    | nil =>
      obtain ⟨c, t, rfl, _, hc⟩ := hr'
      simp only [more, List.nil_append, List.cons_append, List.cons.injEq] at h
      exact absurd h.1.symm hc
    | cons w m =>
      simp only [more, List.cons_append, List.cons.injEq, true_and] at h
      exact .inr ⟨v, l, w, m, rfl, rfl, h⟩

theorem cons_ne_end (pd : BitVec 64 → Str) {v : V} {T : Ty} (h : v.HasTy T) (l : Vs) {r r' : Str} (hr : End r) : r ≠ unpackList pd (.cons v l) ++ r' := by
  obtain ⟨c, t, e, hc⟩ := head_ok pd v T h
  obtain ⟨d, u, rfl, hd, _⟩ := hr
  rw [unpackList_cons, e]
  intro h
  simp only [List.cons_append, List.cons.injEq] at h
  exact hc (h.1 ▸ hd)

mutual
theorem decode (pd : BitVec 64 → Str) (v : V) : ∀ (w : V) (T : Ty) (r r' : Str), v.HasTy T → w.HasTy T → Stop r → Stop r' →
    unpack pd v ++ r = unpack pd w ++ r' → v = w ∧ r = r' := by
  intro w T r r' hv hw hr hr' h
  cases T with
  | scalar k =>
    have hk : v.HasKind k := by cases v <;> simpa only [V.HasTy] using hv
    have hk' : w.HasKind k := by cases w <;> simpa only [V.HasTy] using hw
    exact kind_decode pd hk hk' hr.noDig hr'.noDig h
  | str =>
    cases v <;> simp only [V.HasTy] at hv
    cases w <;> simp only [V.HasTy] at hw
    simp only [unpack] at h
    have key : ∀ r : Str, Stop r → ∀ c, r.head? = some c → decide (c ∉ special) = false := by
      intro r hr c hc
      have := hr c hc
      simp only [closing, special, List.mem_cons, List.not_mem_nil, or_false, decide_eq_false_iff_not, not_not] at this ⊢
      tauto
    obtain ⟨e, e'⟩ := split_unique (fun c => decide (c ∉ special)) (fun c hc => decide_eq_true (hv.2 c hc)) (fun c hc => decide_eq_true (hw.2 c hc))
      (key r hr) (key r' hr') h
    exact ⟨by rw [e], e'⟩
  | range k =>
    cases v <;> simp only [V.HasTy] at hv
    cases w <;> simp only [V.HasTy] at hw
    simp only [unpack, List.append_assoc, List.cons_append] at h
    have hm : ∀ t : Str, NoDig (ch '-' :: t) := by intro t c hc; cases hc; decide
    obtain ⟨e, e'⟩ := kind_decode pd hv.1 hw.1 (hm _) (hm _) h
    obtain ⟨e1, e2⟩ := kind_decode pd hv.2 hw.2 hr.noDig hr'.noDig (List.cons.inj e').2
    exact ⟨by rw [e, e1], e2⟩
  | set t =>
    cases v <;> simp only [V.HasTy] at hv
    rename_i l
    cases w <;> simp only [V.HasTy] at hw
    simp only [unpack, List.append_assoc, List.cons_append, List.nil_append, List.cons.injEq, true_and] at h
    obtain ⟨e, e'⟩ := decodeAll pd l _ t _ _ hv hw ⟨_, _, rfl, by decide, by decide⟩ ⟨_, _, rfl, by decide, by decide⟩ h
    exact ⟨by rw [e], (List.cons.inj e').2⟩
  | list t =>
    cases v <;> simp only [V.HasTy] at hv
    rename_i l
    cases w <;> simp only [V.HasTy] at hw
    simp only [unpack, List.append_assoc, List.cons_append, List.nil_append, List.cons.injEq, true_and] at h
    obtain ⟨e, e'⟩ := decodeAll pd l _ t _ _ hv hw ⟨_, _, rfl, by decide, by decide⟩ ⟨_, _, rfl, by decide, by decide⟩ h
    exact ⟨by rw [e], (List.cons.inj e').2⟩
  | tuple ts =>
    cases v <;> simp only [V.HasTy] at hv
    rename_i l
    cases w <;> simp only [V.HasTy] at hw
    simp only [unpack, List.append_assoc, List.cons_append, List.nil_append, List.cons.injEq, true_and] at h
    obtain ⟨e, e'⟩ := decodeTys pd l _ ts _ _ hv hw ⟨_, _, rfl, by decide, by decide⟩ ⟨_, _, rfl, by decide, by decide⟩ h
    exact ⟨by rw [e], (List.cons.inj e').2⟩
theorem decodeAll (pd : BitVec 64 → Str) (l : Vs) : ∀ (m : Vs) (t : Ty) (r r' : Str), l.AllTy t → m.AllTy t → End r → End r' →
    unpackList pd l ++ r = unpackList pd m ++ r' → l = m ∧ r = r' := by
  intro m t r r' hl hm hr hr' h
  cases l with
  | nil =>
    cases m with
    | nil => exact ⟨rfl, by simpa [unpackList] using h⟩
    | cons w m =>
      simp only [Vs.AllTy] at hm
      exact absurd (by simpa [unpackList] using h) (cons_ne_end pd hm.1 m hr (r' := r'))
  | cons v l =>
    cases m with
    | nil =>
      simp only [Vs.AllTy] at hl
      exact absurd (by simpa [unpackList] using h.symm) (cons_ne_end pd hl.1 l hr' (r' := r))
    | cons w m =>
      simp only [Vs.AllTy] at hl hm
      rw [unpackList_cons, unpackList_cons, List.append_assoc, List.append_assoc] at h
      obtain ⟨e, e'⟩ := decode pd v w t _ _ hl.1 hm.1 (more_stop pd l hr) (more_stop pd m hr') h
      rcases more_decode pd hr hr' e' with ⟨rfl, rfl, e2⟩ | ⟨_, _, _, _, _, _, e2⟩
      · exact ⟨by rw [e], e2⟩
      · obtain ⟨e3, e4⟩ := decodeAll pd l m t r r' hl.2 hm.2 hr hr' e2
        exact ⟨by rw [e, e3], e4⟩
theorem decodeTys (pd : BitVec 64 → Str) (l : Vs) : ∀ (m : Vs) (ts : Tys) (r r' : Str), l.HasTys ts → m.HasTys ts → End r → End r' →
    unpackList pd l ++ r = unpackList pd m ++ r' → l = m ∧ r = r' := by
  intro m ts r r' hl hm hr hr' h
  cases l with
  | nil =>
    cases ts <;> simp only [Vs.HasTys] at hl
    cases m <;> simp only [Vs.HasTys] at hm
    exact ⟨rfl, by simpa [unpackList] using h⟩
  | cons v l =>
    cases ts with
    | nil => simp only [Vs.HasTys] at hl
    | cons t ts =>
      cases m with
      | nil => simp only [Vs.HasTys] at hm
      | cons w m =>
        simp only [Vs.HasTys] at hl hm
        rw [unpackList_cons, unpackList_cons, List.append_assoc, List.append_assoc] at h
        obtain ⟨e, e'⟩ := decode pd v w t _ _ hl.1 hm.1 (more_stop pd l hr) (more_stop pd m hr') h
        rcases more_decode pd hr hr' e' with ⟨rfl, rfl, e2⟩ | ⟨_, _, _, _, _, _, e2⟩
        · exact ⟨by rw [e], e2⟩
        · obtain ⟨e3, e4⟩ := decodeTys pd l m ts r r' hl.2 hm.2 hr hr' e2
          exact ⟨by rw [e, e3], e4⟩
end

/-- C91, text of containers: two values of one type (integers, strings without the characters of containers, ranges of integers, sets, lists, tuples, nested to any depth) have the same text only if they are the same value, so the text in the profile
determines the value -/
theorem C91_text_injective (pd : BitVec 64 → Str) (v w : V) (T : Ty) (hv : v.HasTy T) (hw : w.HasTy T) (h : unpack pd v = unpack pd w) : v = w :=
  (decode pd v w T [] [] hv hw (fun _ h => nomatch h) (fun _ h => nomatch h) (by rw [h])).1

/-! ## violations -/

/-- an empty state -/
def St.init : St := { types := fun _ => none, globals := fun _ => none, error := false }

/-- the full statement, which the code does not meet: every value that has a meaning is imported with its meaning -/
def C91_full : Prop := ∀ (pd : BitVec 64 → Str) (categories : List Nat) (rs : List Reg) (s : St), (rs.map (·.name)).Nodup →
  ∀ r ∈ rs, Chosen categories r → (∃ m, r.value.meaning pd = some m) →
    ∃ x, (preFlush pd categories rs s).globals r.name = some x ∧ some x.meaning = r.value.meaning pd

/-- **Violated**: a `long` of 2^32 is imported as 0, for every printing of doubles -/
theorem C91_long_truncated : ¬ C91_full := by
  intro h
  obtain ⟨x, h1, h2⟩ := h (fun _ => []) [2] [⟨str "n", 2, .long 0x100000000⟩] .init (by decide) ⟨str "n", 2, .long 0x100000000⟩ (.head _)
    ⟨by decide, .inr (by decide)⟩ ⟨_, rfl⟩
  have e : (preFlush (fun _ => []) [2] [⟨str "n", 2, .long 0x100000000⟩] .init).globals (str "n") = some (.int 0) := by decide +kernel
  rw [show (Reg.mk (str "n") 2 (.long 0x100000000)).name = str "n" from rfl, e] at h1
  cases h1
  revert h2
  decide +kernel

/-- **Violated**: every `unsigned` of at least 2^31 is imported as a number that is larger by 2^64 - 2^32 -/
theorem C91_uint_sign_extended (pd : BitVec 64 → Str) (x : BitVec 32) (hx : 2 ^ 31 ≤ x.toNat) :
    ∃ y, variant pd (.uint x) = some y ∧ y.meaning = .number (x.toNat + (2 ^ 64 - 2 ^ 32)) := by
  refine ⟨_, rfl, ?_⟩
  simp only [CVal.meaning]
  have hm : x.msb = true := by rw [BitVec.msb_eq_decide]; simpa using hx
  rw [BitVec.toNat_signExtend, if_pos hm, BitVec.toNat_setWidth]
  have := x.isLt
  rw [Nat.mod_eq_of_lt (by omega)]
  norm_num

/-- **Violated**: the second flush after a registered value has been unset disables the annotations of the flushing thread: `Caliper::end` is called for an attribute that is not on the thread's blackboard.  The old value stays a global -/
theorem C91_unset_disables_thread (pd : BitVec 64 → Str) (s : St) (name : Str) (x : BitVec 64) :
    let s1 := preFlush pd [2] [⟨name, 2, .ulong x⟩] s
    let s2 := preFlush pd [2] [⟨name, 2, .unset⟩] s1
    s2.error = true ∧ s2.globals name = some (.uint x) := by
  have e1 : preFlush pd [2] [⟨name, 2, .ulong x⟩] s = nameval pd s name 2 (.ulong x) := by simp [preFlush]
  intro s1 s2
  have e2 : s2 = nameval pd s1 name 2 .unset := by simp [s2, preFlush]
  have h1 : s1 = { s with types := (if (s.types name).isSome then s.types else updS s.types name .uint), globals := updS s.globals name (.uint x) } := by
    show preFlush pd [2] _ s = _
    rw [e1, nameval_fits pd s name 2 _ (by decide) (x := .uint x) rfl]; rfl
  have ht : (s1.types name).isSome = true := by
    rw [h1]
    simp only
    split
    · assumption
    · simp [updS]
  have hg : s1.globals name = some (.uint x) := by rw [h1]; simp [updS]
  rw [e2]
  unfold nameval
  rw [if_neg (by decide)]
  simp only [if_pos ht]
  exact ⟨trivial, hg⟩

/-- **Violated**: the empty list and the list of one empty string have the same text; so have lists of one and of two strings -/
theorem C91_text_ambiguous (pd : BitVec 64 → Str) :
    unpack pd (.list .nil) = unpack pd (.list (.cons (.str []) .nil)) ∧
    unpack pd (.list (.cons (.str (str "a,b")) .nil)) = unpack pd (.list (.cons (.str (str "a")) (.cons (.str (str "b")) .nil))) := by
  simp only [unpack, unpackList]
  exact ⟨trivial, by decide⟩

/-- **Violated**: a value registered again with another type is stored under the attribute of the old type -/
theorem C91_retyped (pd : BitVec 64 → Str) (s : St) (name : Str) (x : BitVec 64) (t : Str) :
    let s1 := preFlush pd [2] [⟨name, 2, .ulong x⟩] { s with types := fun _ => none }
    let s2 := preFlush pd [2] [⟨name, 2, .str t⟩] s1
    s2.types name = some .uint ∧ s2.globals name = some (.string t) := by
  have e1 : ∀ (s : St) v, preFlush pd [2] [⟨name, 2, v⟩] s = nameval pd s name 2 v := by intro s v; simp [preFlush]
  simp only [e1]
  rw [nameval_fits pd _ name 2 (.ulong x) (by decide) (x := .uint x) rfl, nameval_fits pd _ name 2 (.str t) (by decide) (x := .string t) rfl]
  simp [updS, CVal.ty]

/-! ## a concrete case -/

/-- a registry with values of several types and categories -/
def exReg : List Reg :=
  [⟨str "user", 2, .str (str "me")⟩, ⟨str "size", 2, .int 0xfffffffb⟩, ⟨str "clock", 4, .date 5⟩, ⟨str "perf", 3, .ulong 7⟩,
   ⟨str "grid", 2, .list (.cons (.tuple (.cons (.int 1) (.cons (.str (str "x")) .nil))) (.cons (.tuple (.cons (.int 0xfffffffe) (.cons (.str (str "y")) .nil))) .nil))⟩]

/-- the hypotheses of C91 hold for it, and its import gives these globals -/
theorem C91_witness :
    (exReg.map (·.name)).Nodup ∧ (∀ r ∈ exReg, Chosen [2] r → r.value.Fits) ∧
    ((exReg.getLast?.map fun r => r.value.HasTy (.list (.tuple (.cons (.scalar .int) (.cons .str .nil)))))).getD False ∧
    (preFlush (fun _ => []) [2] exReg .init).globals (str "user") = some (.string (str "me")) ∧
    (preFlush (fun _ => []) [2] exReg .init).globals (str "size") = some (.int (-5)) ∧
    (preFlush (fun _ => []) [2] exReg .init).globals (str "perf") = none := by
  refine ⟨by decide, ?_, ?_, by decide +kernel, by decide +kernel, by decide +kernel⟩
  · intro r hr _
    simp only [exReg, List.mem_cons, List.not_mem_nil, or_false] at hr
    rcases hr with rfl | rfl | rfl | rfl | rfl <;> simp only [V.Fits] <;> decide
  · simp only [exReg, List.getLast?, List.getLast, Option.map_some, Option.getD_some, V.HasTy, Vs.AllTy, Vs.HasTys, V.HasKind]
    decide

/-- the text of its last value -/
theorem C91_witness_text : (variant (fun _ => []) (exReg.getLast (by simp [exReg])).value) = some (.string (str "{(1,x),(-2,y)}" ++ [0])) := by
  have e1 : showInt ((1 : BitVec 32).toInt) = str "1" := by
    rw [show ((1 : BitVec 32).toInt) = 1 by decide]; unfold showInt showNat; rw [if_neg (by decide), digits_lt _ _ (by decide)]; decide
  have e2 : showInt ((0xfffffffe : BitVec 32).toInt) = str "-2" := by
    rw [show ((0xfffffffe : BitVec 32).toInt) = -2 by decide]; unfold showInt showNat; rw [if_pos (by decide), digits_lt _ _ (by decide)]; decide
  simp only [exReg, List.getLast, variant, unpack, unpackList, e1, e2]
  decide

end Verif.Serv.Adiak
