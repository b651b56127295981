import Verif.StringDB.Model
import Mathlib.Data.List.Basic
import Mathlib.Data.List.GetD

/-! C41: string interning in the reader. -/

namespace Verif.StringDB

open Verif.Cali

/-- Lexicographic order. -/
def lt : List Byte → List Byte → Prop
  | [], [] => False
  | [], _ :: _ => True
  | _ :: _, [] => False
  | x :: a, y :: b => x.toNat < y.toNat ∨ (x = y ∧ lt a b)

/-- No NUL characters. -/
def NulFree (s : List Byte) : Prop := (0 : Byte) ∉ s

theorem toNat_ne {x y : Byte} (h : x ≠ y) : x.toNat ≠ y.toNat := fun e => h (BitVec.eq_of_toNat_eq e)

theorem nz {x : Byte} (h : x ≠ 0) : 0 < x.toNat := by
  have := toNat_ne h
  have h0 : (0 : Byte).toNat = 0 := rfl
  omega

/-- `a` compares less than `s` in the first `s.length` characters. -/
def less (a s : List Byte) : Prop := strncmp s.length a s < 0

theorem less_nil (a : List Byte) : ¬ less a [] := by simp [less, strncmp]

theorem less_nil_cons {y : Byte} {s : List Byte} (hy : y ≠ 0) : less [] (y :: s) := by
  have := nz hy
  simp only [less, List.length_cons, strncmp, charAt, List.getD_nil, List.getD_cons_zero]
  rw [if_pos (show (0 : Byte).toNat < y.toNat from this)]; decide

theorem less_cons_cons {x y : Byte} {a s : List Byte} (hx : x ≠ 0) :
    less (x :: a) (y :: s) ↔ x.toNat < y.toNat ∨ (x = y ∧ less a s) := by
  simp only [less, List.length_cons, strncmp, charAt, List.getD_cons_zero, List.tail_cons]
  by_cases h1 : x.toNat < y.toNat
  · simp [h1]
  · by_cases h2 : y.toNat < x.toNat
    · rw [if_neg h1, if_pos h2]
      have : x ≠ y := by rintro rfl; omega
      simp [h1, this]
    · have : x = y := BitVec.eq_of_toNat_eq (by omega)
      subst this
      rw [if_neg h1, if_neg h2, if_neg hx]
      simp

theorem nf_cons {x : Byte} {a : List Byte} (h : NulFree (x :: a)) : x ≠ 0 ∧ NulFree a :=
  ⟨fun e => h (e ▸ List.mem_cons_self), fun hm => h (List.mem_cons_of_mem _ hm)⟩

theorem less_mono {s : List Byte} (hs : NulFree s) : ∀ {a b : List Byte}, NulFree a → NulFree b → lt a b → less b s → less a s := by
  induction s with
  | nil => intro a b _ _ _ h; exact absurd h (less_nil b)
  | cons y s ih =>
    have hs0 := nf_cons hs
    clear hs
    obtain ⟨hy, hs⟩ := hs0
    intro a b ha hb hab h
    cases a with
    | nil => exact less_nil_cons hy
    | cons x a =>
      obtain ⟨hx, ha'⟩ := nf_cons ha
      cases b with
      | nil => exact absurd hab (by simp [lt])
      | cons z b =>
        obtain ⟨hz, hb'⟩ := nf_cons hb
        rw [less_cons_cons hz] at h
        rw [less_cons_cons hx]
        rcases hab with hab | ⟨rfl, hab⟩
        · rcases h with h | ⟨rfl, h⟩
          · left; omega
          · left; exact hab
        · rcases h with h | ⟨rfl, h⟩
          · left; exact h
          · right; exact ⟨rfl, ih hs ha' hb' hab h⟩

theorem lt_of_less {s : List Byte} (hs : NulFree s) : ∀ {a : List Byte}, NulFree a → less a s → lt a s := by
  induction s with
  | nil => intro a _ h; exact absurd h (less_nil a)
  | cons y s ih =>
    have hs0 := nf_cons hs
    clear hs
    obtain ⟨hy, hs⟩ := hs0
    intro a ha h
    cases a with
    | nil => trivial
    | cons x a =>
      obtain ⟨hx, ha⟩ := nf_cons ha
      rw [less_cons_cons hx] at h
      rcases h with h | ⟨e, h⟩
      · exact Or.inl h
      · exact Or.inr ⟨e, ih hs ha h⟩

theorem eq_or_gt {s : List Byte} (hs : NulFree s) : ∀ {a : List Byte}, NulFree a → ¬ less a s → a = s ∨ lt s a := by
  induction s with
  | nil =>
    intro a _ _
    cases a with
    | nil => exact Or.inl rfl
    | cons x a => exact Or.inr trivial
  | cons y s ih =>
    have hs0 := nf_cons hs
    clear hs
    obtain ⟨hy, hs⟩ := hs0
    intro a ha h
    cases a with
    | nil => exact absurd (less_nil_cons hy) h
    | cons x a =>
      obtain ⟨hx, ha⟩ := nf_cons ha
      rw [less_cons_cons hx] at h
      by_cases hxy : x = y
      · subst hxy
        rcases ih hs ha (fun hl => h (Or.inr ⟨rfl, hl⟩)) with rfl | hl
        · exact Or.inl rfl
        · exact Or.inr (Or.inr ⟨rfl, hl⟩)
      · right; left
        have := toNat_ne hxy
        have : ¬ x.toNat < y.toNat := fun hl => h (Or.inl hl)
        omega

theorem lt_irrefl : ∀ a : List Byte, ¬ lt a a
  | [] => id
  | x :: a => by
    rintro (h | ⟨_, h⟩)
    · omega
    · exact lt_irrefl a h

theorem lt_asymm : ∀ a b : List Byte, lt a b → ¬ lt b a
  | [], [], h => absurd h id
  | [], _ :: _, _ => id
  | _ :: _, [], h => absurd h id
  | x :: a, y :: b, h => by
    rintro (h2 | ⟨e2, h2⟩)
    · rcases h with h | ⟨e, h⟩
      · omega
      · subst e; omega
    · subst e2
      rcases h with h | ⟨_, h⟩
      · omega
      · exact lt_asymm a b h h2

theorem strncmp_zero_iff : ∀ (s : List Byte), NulFree s → ∀ a : List Byte, a.length = s.length → (strncmp s.length s a = 0 ↔ a = s)
  | [], _, a, h => by simp [strncmp]; simpa using h
  | x :: s, hs, [], h => by simp at h
  | x :: s, hs, y :: a, h => by
    obtain ⟨hx, hs⟩ := nf_cons hs
    simp only [List.length_cons, strncmp, charAt, List.getD_cons_zero, List.tail_cons]
    by_cases hxy : x = y
    · subst hxy
      rw [if_neg (Nat.lt_irrefl _), if_neg (Nat.lt_irrefl _), if_neg hx,
        strncmp_zero_iff s hs a (by simpa using h)]
      simp
    · have := toNat_ne hxy
      have hne : y :: a ≠ x :: s := fun e => hxy (by injection e with e _; exact e.symm)
      by_cases hl : x.toNat < y.toNat
      · rw [if_pos hl]; simp [hne]
      · rw [if_neg hl, if_pos (by omega)]; simp [hne]

theorem lowerBound_spec (p : Nat → Bool) : ∀ (count first : Nat),
    (∀ i j, first ≤ i → i < j → j < first + count → p j = true → p i = true) →
    first ≤ lowerBound p first count ∧ lowerBound p first count ≤ first + count ∧
    (∀ i, first ≤ i → i < lowerBound p first count → p i = true) ∧
    (∀ i, lowerBound p first count ≤ i → i < first + count → p i = false) := by
  intro count
  induction count using Nat.strongRecOn with
  | _ count ih =>
  intro first hm
  rw [lowerBound]
  by_cases h0 : count = 0
  · rw [dif_pos h0]
    refine ⟨Nat.le_refl _, by omega, fun i h1 h2 => by omega, fun i h1 h2 => by omega⟩
  · rw [dif_neg h0]
    simp only []
    by_cases hp : p (first + count / 2) = true
    · rw [if_pos hp]
      obtain ⟨a, b, c, d⟩ := ih (count - (count / 2 + 1)) (by omega) (first + count / 2 + 1)
        (fun i j h1 h2 h3 => hm i j (by omega) h2 (by omega))
      refine ⟨by omega, by omega, ?_, ?_⟩
      · intro i h1 h2
        by_cases hi : i < first + count / 2
        · exact hm i (first + count / 2) h1 hi (by omega) hp
        · by_cases hi2 : i = first + count / 2
          · rw [hi2]; exact hp
          · exact c i (by omega) h2
      · intro i h1 h2; exact d i h1 (by omega)
    · rw [if_neg hp]
      obtain ⟨a, b, c, d⟩ := ih (count / 2) (by omega) first
        (fun i j h1 h2 h3 => hm i j h1 h2 (by omega))
      refine ⟨a, by omega, c, ?_⟩
      intro i h1 h2
      by_cases hi : i < first + count / 2
      · exact d i h1 hi
      · by_contra hc
        have hc' : p i = true := by simpa using hc
        by_cases hi2 : i = first + count / 2
        · exact hp (hi2 ▸ hc')
        · exact hp (hm _ i (by omega) (by omega) h2 hc')

/-- Invariant of the database. -/
structure Inv (d : DB) : Prop where
  ptrs : ∀ p ∈ d.db, p < d.heap.length
  all : ∀ p, p < d.heap.length → p ∈ d.db
  nf : ∀ s ∈ d.heap, NulFree s
  sorted : (d.db.map d.at).Pairwise lt

theorem at_nf {d : DB} (h : Inv d) (p : Nat) : NulFree (d.at p) := by
  unfold DB.at
  by_cases hp : p < d.heap.length
  · rw [List.getD_eq_getElem _ _ hp]; exact h.nf _ (List.getElem_mem hp)
  · rw [List.getD_eq_default _ _ (by omega)]; simp [NulFree]

/-- What one request does. -/
theorem makeString_spec {d : DB} (hd : Inv d) (s : List Byte) (hs : NulFree s) :
    ∃ d' p, makeString d s = (d', p, s.length) ∧ Inv d' ∧ d'.at p = s ∧ p < d'.heap.length ∧
      (∃ ext, d'.heap = d.heap ++ ext) ∧ (∀ q, q < d.heap.length → d.at q = s → p = q) := by
  have hlast : ¬ (s.getLast? = some 0) := fun h => hs (List.mem_of_getLast? h)
  unfold makeString
  simp only [if_neg hlast]
  generalize hf : (fun i => decide (strncmp s.length (d.at (d.db.getD i 0)) s < 0)) = f
  have hfi : ∀ i, f i = true ↔ less (d.at (d.db.getD i 0)) s := by
    intro i; rw [← hf]; simp [less]
  have hget : ∀ i (hi : i < d.db.length), (d.db.map d.at)[i]'(by simpa using hi) = d.at (d.db.getD i 0) := by
    intro i hi; rw [List.getElem_map, List.getD_eq_getElem _ _ hi]
  have hsort : ∀ i j, i < j → j < d.db.length → lt (d.at (d.db.getD i 0)) (d.at (d.db.getD j 0)) := by
    intro i j hij hj
    have := List.pairwise_iff_getElem.1 hd.sorted i j (by simp; omega) (by simpa using hj) hij
    rwa [hget i (by omega), hget j hj] at this
  obtain ⟨_, hle, hbefore, hafter⟩ := lowerBound_spec f d.db.length 0 (by
    intro i j _ hij hj hp
    rw [hfi] at hp ⊢
    exact less_mono hs (at_nf hd _) (at_nf hd _) (hsort i j hij (by omega)) hp)
  generalize lowerBound f 0 d.db.length = it at hle hbefore hafter
  rw [Nat.zero_add] at hle hafter
  -- if the string is stored, the search ends at it
  have hfound : ∀ q, q < d.heap.length → d.at q = s → it < d.db.length ∧ d.db.getD it 0 = q := by
    intro q hq hqs
    obtain ⟨k, hk, hkq⟩ := List.getElem_of_mem (hd.all q hq)
    have hkq' : d.db.getD k 0 = q := by rw [List.getD_eq_getElem _ _ hk]; exact hkq
    have hnl : ∀ a, NulFree a → a = s → ¬ less a s := by
      rintro a ha rfl hl; exact lt_irrefl _ (lt_of_less hs ha hl)
    have hik : it ≤ k := by
      by_contra hc
      have := (hfi k).1 (hbefore k (Nat.zero_le _) (by omega))
      rw [hkq'] at this
      exact hnl _ (at_nf hd q) hqs this
    have : it = k := by
      by_contra hne
      have h1 := hsort it k (by omega) hk
      rw [hkq', hqs] at h1
      have h2 : ¬ less (d.at (d.db.getD it 0)) s := by
        rw [← hfi]; rw [hafter it (Nat.le_refl _) (by omega)]; simp
      rcases eq_or_gt hs (at_nf hd _) h2 with h3 | h3
      · rw [h3] at h1; exact lt_irrefl _ h1
      · exact lt_asymm _ _ h1 h3
    subst this
    exact ⟨hk, hkq'⟩
  by_cases hc : it ≠ d.db.length ∧ strncmp s.length s (d.at (d.db.getD it 0)) = 0 ∧ (d.at (d.db.getD it 0)).length = s.length
  · rw [if_pos hc]
    have heq := (strncmp_zero_iff s hs _ hc.2.2).1 hc.2.1
    have hit : it < d.db.length := by omega
    refine ⟨d, _, rfl, hd, heq, ?_, ⟨[], by simp⟩, fun q hq hqs => (hfound q hq hqs).2⟩
    rw [List.getD_eq_getElem _ _ hit]; exact hd.ptrs _ (List.getElem_mem hit)
  · rw [if_neg hc]
    have hnot : ∀ q, q < d.heap.length → d.at q ≠ s := by
      intro q hq hqs
      obtain ⟨h1, h2⟩ := hfound q hq hqs
      refine hc ⟨by omega, ?_, ?_⟩
      · rw [h2, hqs]; exact (strncmp_zero_iff s hs s rfl).2 rfl
      · rw [h2, hqs]
    have hat : ∀ q, q < d.heap.length →
        DB.at { heap := d.heap ++ [s], db := d.db.take it ++ d.heap.length :: d.db.drop it } q = d.at q := by
      intro q hq
      simp only [DB.at, List.getD]
      rw [List.getElem?_append_left hq]
    have hnew : DB.at { heap := d.heap ++ [s], db := d.db.take it ++ d.heap.length :: d.db.drop it } d.heap.length = s := by
      simp [DB.at, List.getD]
    refine ⟨_, _, rfl, ⟨?_, ?_, ?_, ?_⟩, hnew, by simp, ⟨[s], rfl⟩, fun q hq hqs => absurd hqs (hnot q hq)⟩
    · intro p hp
      simp only [List.mem_append, List.mem_cons, List.length_append, List.length_cons, List.length_nil] at hp ⊢
      rcases hp with hp | rfl | hp
      · have := hd.ptrs p (List.mem_of_mem_take hp); omega
      · omega
      · have := hd.ptrs p (List.mem_of_mem_drop hp); omega
    · intro p hp
      simp only [List.length_append, List.length_cons, List.length_nil] at hp
      by_cases hpl : p = d.heap.length
      · subst hpl; simp
      · have := hd.all p (by omega)
        rw [← List.take_append_drop it d.db] at this
        simp only [List.mem_append, List.mem_cons] at this ⊢
        tauto
    · intro t ht
      rcases List.mem_append.1 ht with ht | ht
      · exact hd.nf t ht
      · rw [List.mem_singleton.1 ht]; exact hs
    · have hmap : List.map (DB.at { heap := d.heap ++ [s], db := d.db.take it ++ d.heap.length :: d.db.drop it })
          (d.db.take it ++ d.heap.length :: d.db.drop it) =
          (d.db.map d.at).take it ++ s :: (d.db.map d.at).drop it := by
        rw [List.map_append, List.map_cons, hnew, ← List.map_take, ← List.map_drop]
        congr 1
        · exact List.map_congr_left (fun q hq => hat q (hd.ptrs q (List.mem_of_mem_take hq)))
        · congr 1
          exact List.map_congr_left (fun q hq => hat q (hd.ptrs q (List.mem_of_mem_drop hq)))
      show List.Pairwise lt (List.map _ (d.db.take it ++ d.heap.length :: d.db.drop it))
      rw [hmap]
      have hso := hd.sorted
      rw [← List.take_append_drop it (d.db.map d.at), List.pairwise_append] at hso
      obtain ⟨h1, h2, h3⟩ := hso
      rw [List.pairwise_append, List.pairwise_cons]
      refine ⟨h1, ⟨?_, h2⟩, ?_⟩
      · intro t ht
        rw [List.mem_drop_iff_getElem] at ht
        obtain ⟨i, hi, rfl⟩ := ht
        have hi' : it + i < d.db.length := by simp only [List.length_map] at hi; omega
        rw [hget _ hi']
        have h4 : ¬ less (d.at (d.db.getD (it + i) 0)) s := by
          rw [← hfi, hafter (it + i) (by omega) hi']; simp
        rcases eq_or_gt hs (at_nf hd _) h4 with h5 | h5
        · exfalso
          refine hnot (d.db.getD (it + i) 0) ?_ h5
          rw [List.getD_eq_getElem _ _ hi']; exact hd.ptrs _ (List.getElem_mem hi')
        · exact h5
      · intro t ht u hu
        rcases List.mem_cons.1 hu with rfl | hu
        · rw [List.mem_take_iff_getElem] at ht
          obtain ⟨i, hi, rfl⟩ := ht
          have hi' : i < it ∧ i < d.db.length := by
            simp only [List.length_map] at hi; omega
          rw [hget _ hi'.2]
          exact lt_of_less hs (at_nf hd _) ((hfi i).1 (hbefore i (Nat.zero_le _) hi'.1))
        · exact h3 t ht u hu

/-- Requests in order: the database afterwards and the returned pointers. -/
def requests (d : DB) : List (List Byte) → DB × List Nat
  | [] => (d, [])
  | s :: ss =>
    let (d, p, _) := makeString d s
    let (d, ps) := requests d ss
    (d, p :: ps)

theorem inv_empty : Inv {} := ⟨by simp, by simp, by simp, by simp⟩

theorem requests_spec (ss : List (List Byte)) : ∀ (d : DB), Inv d → (∀ s ∈ ss, NulFree s) →
    Inv (requests d ss).1 ∧ (∃ ext, (requests d ss).1.heap = d.heap ++ ext) ∧
    (requests d ss).2.length = ss.length ∧
    ∀ i (hi : i < ss.length), (requests d ss).1.at ((requests d ss).2.getD i 0) = ss[i] ∧
      (requests d ss).2.getD i 0 < (requests d ss).1.heap.length := by
  induction ss with
  | nil => intro d hd _; exact ⟨hd, ⟨[], by simp [requests]⟩, rfl, fun i hi => absurd hi (by simp)⟩
  | cons s ss ih =>
    intro d hd hs
    obtain ⟨d', p, e, hd', hp, hpl, ⟨ext, he⟩, _⟩ := makeString_spec hd s (hs s List.mem_cons_self)
    obtain ⟨h1, ⟨ext2, he2⟩, h3, h4⟩ := ih d' hd' (fun t ht => hs t (List.mem_cons_of_mem _ ht))
    have er : requests d (s :: ss) = ((requests d' ss).1, p :: (requests d' ss).2) := by
      simp only [requests, e]
    rw [er]
    refine ⟨h1, ⟨ext ++ ext2, by rw [he2, he, List.append_assoc]⟩, by simp [h3], ?_⟩
    intro i hi
    cases i with
    | zero =>
      simp only [List.getD_cons_zero, List.getElem_cons_zero]
      refine ⟨?_, by rw [he2, List.length_append]; omega⟩
      rw [← hp]
      simp only [DB.at, List.getD]
      rw [he2, List.getElem?_append_left hpl]
    | succ i =>
      simp only [List.getD_cons_succ, List.getElem_cons_succ]
      exact h4 i (by simpa using hi)

/-- Distinct stored copies hold distinct strings. -/
theorem copies_distinct {d : DB} (hd : Inv d) {p q : Nat} (hp : p < d.heap.length) (hq : q < d.heap.length)
    (h : d.at p = d.at q) : p = q := by
  obtain ⟨_, r, _, _, _, _, _, hr⟩ := makeString_spec hd (d.at p) (at_nf hd p)
  exact (hr p hp rfl).symm.trans (hr q hq h.symm)

/-- **C41**: for every sequence of NUL-free strings requested from the string
database (through a fresh database), at the end of the sequence the pointer
returned for each request points to a copy with exactly the requested
characters (so copies never change later), and two requests got the same
pointer exactly when they asked for equal strings. -/
theorem C41_interning (ss : List (List Byte)) (hs : ∀ s ∈ ss, NulFree s) (i j : Nat) (hi : i < ss.length) (hj : j < ss.length) :
    (requests {} ss).1.at ((requests {} ss).2.getD i 0) = ss[i] ∧
    ((requests {} ss).2.getD i 0 = (requests {} ss).2.getD j 0 ↔ ss[i] = ss[j]) := by
  obtain ⟨h1, _, _, h4⟩ := requests_spec ss {} inv_empty hs
  refine ⟨(h4 i hi).1, ?_, ?_⟩
  · intro h; rw [← (h4 i hi).1, ← (h4 j hj).1, h]
  · intro h
    refine copies_distinct h1 (h4 i hi).2 (h4 j hj).2 ?_
    rw [(h4 i hi).1, (h4 j hj).1, h]

/-- **C41** (any moment): a request at any later moment does not change any copy
handed out before, and returns the length of the string. -/
theorem C41_stable (ss : List (List Byte)) (hs : ∀ s ∈ ss, NulFree s) (s : List Byte) (hn : NulFree s) (p : Nat)
    (hp : p < (requests {} ss).1.heap.length) :
    (makeString (requests {} ss).1 s).1.at p = (requests {} ss).1.at p ∧
    (makeString (requests {} ss).1 s).2.2 = s.length := by
  obtain ⟨h1, _, _, _⟩ := requests_spec ss {} inv_empty hs
  obtain ⟨d', q, e, _, _, _, ⟨ext, he⟩, _⟩ := makeString_spec h1 s hn
  rw [e]
  refine ⟨?_, rfl⟩
  simp only [DB.at, List.getD]
  rw [he, List.getElem?_append_left hp]

/-- **C41** (C strings): a request with the terminating NUL included is the same as one without it. -/
theorem C41_terminated (d : DB) (s : List Byte) (hn : NulFree s) : makeString d (s ++ [0]) = makeString d s := by
  unfold makeString
  have h1 : (s ++ [(0 : Byte)]).getLast? = some 0 := by simp
  have h2 : ¬ s.getLast? = some 0 := by
    intro h
    exact hn (List.mem_of_getLast? h)
  rw [if_pos h1, if_neg h2]
  simp

/-- Strings that are prefixes of each other, in an order that exercises the
prefix comparison, and a repeated request. -/
example : (requests {} [str "ab", str "abc", str "", str "a", str "abc", str "ab"]).2 = [0, 1, 2, 3, 1, 0] ∧
    ∀ s ∈ [str "ab", str "abc", str "", str "a", str "abc", str "ab"], NulFree s := by
  constructor
  · decide +kernel
  · unfold NulFree; decide +kernel

end Verif.StringDB
