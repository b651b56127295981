import Verif.Pool.Model
/-!
# C33: memory pool allocations are disjoint, in bounds and aligned
-/
namespace Verif.Pool
open Verif

theorem and_neg_twoPow (x : BitVec 64) (k : Nat) (hk : k < 64) : x &&& -(BitVec.twoPow 64 k) = (x >>> k) <<< k := by
  apply BitVec.eq_of_getLsbD_eq
  intro i hi
  rw [BitVec.getLsbD_and, BitVec.getLsbD_neg, BitVec.getLsbD_shiftLeft, BitVec.getLsbD_ushiftRight, BitVec.getLsbD_twoPow]
  have e : (∃ j < i, (BitVec.twoPow 64 k).getLsbD j = true) ↔ k < i := by
    constructor
    · rintro ⟨j, h1, h2⟩
      rw [BitVec.getLsbD_twoPow] at h2
      simp at h2
      omega
    · intro h
      exact ⟨k, h, by rw [BitVec.getLsbD_twoPow]; simp [hk]⟩
  by_cases h : k ≤ i
  · have : k + (i - k) = i := by omega
    rw [this]
    by_cases h2 : k = i
    · subst h2
      have h3 : ¬∃ j < k, (BitVec.twoPow 64 k).getLsbD j = true := by rw [e]; omega
      simp [hi, h3]
    · have h3 : ∃ j < i, (BitVec.twoPow 64 k).getLsbD j = true := by rw [e]; omega
      have h4 : k < i := by omega
      simp [hi, h3, h2, h4, hk, show ¬ i < k by omega]
  · have h3 : ¬∃ j < i, (BitVec.twoPow 64 k).getLsbD j = true := by rw [e]; omega
    simp [hi, h3, show k ≠ i by omega, show i < k by omega, show ¬ k < i by omega]

/-- the bit trick rounds up to the next multiple of the alignment -/
theorem alignUp_eq (pn k : Nat) (hk : k ≤ 62) (h : pn + 2 ^ k < 2 ^ 64) :
    alignUp pn (2 ^ k) = (pn + 2 ^ k - 1) / 2 ^ k * 2 ^ k := by
  have hpos : 0 < 2 ^ k := Nat.two_pow_pos k
  have hlt : 2 ^ k < 2 ^ 64 := Nat.pow_lt_pow_right (by omega) (by omega)
  have e : BitVec.ofNat 64 (2 ^ k) = BitVec.twoPow 64 k := by
    apply BitVec.eq_of_toNat_eq
    rw [BitVec.toNat_ofNat, BitVec.toNat_twoPow]
  unfold alignUp
  rw [e, and_neg_twoPow _ k (by omega), BitVec.toNat_shiftLeft, BitVec.toNat_ushiftRight, Nat.shiftRight_eq_div_pow, Nat.shiftLeft_eq]
  have e2 : (BitVec.ofNat 64 pn + BitVec.twoPow 64 k - 1#64).toNat = pn + 2 ^ k - 1 := by
    rw [BitVec.toNat_sub, BitVec.toNat_add, BitVec.toNat_ofNat, BitVec.toNat_twoPow, BitVec.toNat_ofNat, Nat.mod_eq_of_lt (show 1 < 2 ^ 64 by omega)]
    rw [Nat.mod_eq_of_lt (a := pn) (by omega), Nat.mod_eq_of_lt (a := 2 ^ k) hlt, Nat.mod_eq_of_lt (a := pn + 2 ^ k) h]
    omega
  show (BitVec.ofNat 64 pn + BitVec.twoPow 64 k - 1#64).toNat / 2 ^ k * 2 ^ k % 2 ^ 64 = _
  rw [e2, Nat.mod_eq_of_lt]
  have := Nat.div_mul_le_self (pn + 2 ^ k - 1) (2 ^ k)
  omega

theorem alignUp_spec (pn k : Nat) (hk : k ≤ 62) (h : pn + 2 ^ k < 2 ^ 64) :
    alignUp pn (2 ^ k) % 2 ^ k = 0 ∧ pn ≤ alignUp pn (2 ^ k) ∧ alignUp pn (2 ^ k) < pn + 2 ^ k := by
  rw [alignUp_eq pn k hk h]
  have hpos : 0 < 2 ^ k := Nat.two_pow_pos k
  generalize 2 ^ k = a at *
  refine ⟨Nat.mul_mod_left _ _, ?_, ?_⟩
  · have h1 := Nat.div_add_mod (pn + a - 1) a
    have h2 := Nat.mod_lt (pn + a - 1) hpos
    rw [Nat.mul_comm] at h1
    omega
  · have := Nat.div_mul_le_self (pn + a - 1) a
    omega

theorem alignUp_of_aligned (pn k : Nat) (hk : k ≤ 62) (h : pn + 2 ^ k < 2 ^ 64) (ha : pn % 2 ^ k = 0) : alignUp pn (2 ^ k) = pn := by
  obtain ⟨h1, h2, h3⟩ := alignUp_spec pn k hk h
  have hpos : 0 < 2 ^ k := Nat.two_pow_pos k
  generalize 2 ^ k = a at *
  obtain ⟨q, hq⟩ := Nat.dvd_of_mod_eq_zero ha
  obtain ⟨r, hr⟩ := Nat.dvd_of_mod_eq_zero h1
  rw [hr] at h2 h3 ⊢
  rw [hq] at h2 h3 ⊢
  have : q = r := by
    have : q ≤ r := Nat.le_of_mul_le_mul_left h2 hpos
    have : r < q + 1 := by
      have : a * r < a * (q + 1) := by rw [Nat.mul_add]; omega
      exact Nat.lt_of_mul_lt_mul_left this
    omega
  rw [this]

/-- two byte ranges have no byte in common -/
def Disjoint (a n b m : Nat) : Prop := ∀ x, ¬(a ≤ x ∧ x < a + n ∧ b ≤ x ∧ x < b + m)

theorem Disjoint.of {a n b m : Nat} (h : a + n ≤ b ∨ b + m ≤ a) : Disjoint a n b m := by
  intro x hx; omega

/-- apart: one chunk ends before the other begins -/
def Apart (c d : Chunk) : Prop := c.base + c.size ≤ d.base ∨ d.base + d.size ≤ c.base

theorem Apart.symm {c d : Chunk} (h : Apart c d) : Apart d c := Or.symm h

/-- the invariant -/
structure Inv (s : State) : Prop where
  wm : ∀ i, ∀ c ∈ (s.pools i).chunks, c.wmark ≤ c.size ∧ c.base + c.size ≤ addrMax ∧ c.base % 16 = 0
  apart : ∀ i, (s.pools i).chunks.Pairwise Apart
  apart2 : ∀ i j, i ≠ j → ∀ c ∈ (s.pools i).chunks, ∀ d ∈ (s.pools j).chunks, Apart c d
  inside : ∀ r ∈ s.out, ∃ i, ∃ c ∈ (s.pools i).chunks, c.base ≤ r.1 ∧ r.1 + r.2.1 ≤ c.base + c.wmark
  aligned : ∀ r ∈ s.out, r.1 % r.2.2 = 0
  disj : s.out.Pairwise fun r q => Disjoint r.1 r.2.1 q.1 q.2.1

theorem Inv.expand {s : State} (h : Inv s) (i : Nat) (ce : Bool) (bytes base : Nat) (hn : NewOk s base (expandLen bytes)) :
    Inv { s with pools := setPool s.pools i (Pool.expand { (s.pools i) with canExpand := ce } bytes base) } := by
  obtain ⟨n1, n2, n3⟩ := hn
  have mem : ∀ k c, c ∈ (setPool s.pools i (Pool.expand { (s.pools i) with canExpand := ce } bytes base) k).chunks →
      c ∈ (s.pools k).chunks ∨ (k = i ∧ c = ⟨base, 0, expandLen bytes⟩) := by
    intro k c hc
    unfold setPool at hc
    split at hc
    · rename_i hk
      subst hk
      simp only [Pool.expand, List.mem_append, List.mem_singleton] at hc
      exact hc.imp id fun h => ⟨rfl, h⟩
    · exact .inl hc
  have mem' : ∀ k c, c ∈ (s.pools k).chunks → c ∈ (setPool s.pools i (Pool.expand { (s.pools i) with canExpand := ce } bytes base) k).chunks := by
    intro k c hc
    unfold setPool
    split
    · rename_i hk
      subst hk
      simp only [Pool.expand, List.mem_append]
      exact .inl hc
    · exact hc
  have new : ∀ k, ∀ c ∈ (s.pools k).chunks, Apart c ⟨base, 0, expandLen bytes⟩ := fun k c hc => (n3 k c hc).symm
  refine ⟨?_, ?_, ?_, ?_, h.aligned, h.disj⟩
  · intro k c hc
    rcases mem k c hc with h1 | ⟨_, rfl⟩
    · exact h.wm k c h1
    · exact ⟨Nat.zero_le _, n2, n1⟩
  · intro k
    show (setPool s.pools i _ k).chunks.Pairwise Apart
    unfold setPool
    split
    · simp only [Pool.expand]
      rw [List.pairwise_append]
      refine ⟨h.apart i, by simp, ?_⟩
      intro c hc d hd
      simp only [List.mem_singleton] at hd
      subst hd
      exact new i c hc
    · exact h.apart k
  · intro j k hjk c hc d hd
    rcases mem j c hc with h1 | ⟨rfl, rfl⟩
    · rcases mem k d hd with h2 | ⟨rfl, rfl⟩
      · exact h.apart2 j k hjk c h1 d h2
      · exact new j c h1
    · rcases mem k d hd with h2 | ⟨rfl, rfl⟩
      · exact (new k d h2).symm
      · exact absurd rfl hjk
  · intro r hr
    obtain ⟨k, c, hc, h1⟩ := h.inside r hr
    exact ⟨k, c, mem' k c hc, h1⟩

theorem getLast?_split {α : Type} {l : List α} {c : α} (h : l.getLast? = some c) : l = l.dropLast ++ [c] := by
  have hne : l ≠ [] := by rintro rfl; simp at h
  rw [List.getLast?_eq_some_getLast hne] at h
  have := List.dropLast_concat_getLast hne
  rw [Option.some.inj h] at this
  exact this.symm

/-- taking memory from a pool whose last chunk has room -/
theorem Inv.take {s : State} (h : Inv s) (i : Nat) (bytes k : Nat) (hk : k ≤ 62)
    (c : Chunk) (hc : (s.pools i).chunks.getLast? = some c)
    (hroom : bytes + (alignUp (c.base + c.wmark) (2 ^ k) - (c.base + c.wmark)) + c.wmark ≤ c.size) :
    Inv { pools := setPool s.pools i ((s.pools i).take bytes (2 ^ k)).2,
          out := match ((s.pools i).take bytes (2 ^ k)).1 with | some a => s.out ++ [(a, bytes, 2 ^ k)] | none => s.out } := by
  have hsplit := getLast?_split hc
  have hcm : c ∈ (s.pools i).chunks := by rw [hsplit]; simp
  obtain ⟨w1, w2, w3⟩ := h.wm i c hcm
  have hk64 : 2 ^ k ≤ 2 ^ 62 := Nat.pow_le_pow_right (by omega) hk
  have hsum : c.base + c.wmark + 2 ^ k < 2 ^ 64 := by unfold addrMax at w2; omega
  obtain ⟨a1, a2, a3⟩ := alignUp_spec (c.base + c.wmark) k hk hsum
  have ht : (s.pools i).take bytes (2 ^ k) = (some (alignUp (c.base + c.wmark) (2 ^ k)),
      { (s.pools i) with
        chunks := (s.pools i).chunks.dropLast ++ [{ c with wmark := c.wmark + (bytes + (alignUp (c.base + c.wmark) (2 ^ k) - (c.base + c.wmark))) }],
        used := (s.pools i).used + (bytes + (alignUp (c.base + c.wmark) (2 ^ k) - (c.base + c.wmark))) }) := by
    unfold Pool.take; rw [hc]
  rw [ht]
  simp only
  generalize hal : alignUp (c.base + c.wmark) (2 ^ k) = A at *
  generalize hc' : ({ c with wmark := c.wmark + (bytes + (A - (c.base + c.wmark))) } : Chunk) = c'
  have hb : c'.base = c.base := by rw [← hc']
  have hs : c'.size = c.size := by rw [← hc']
  have hw : c'.wmark = c.wmark + (bytes + (A - (c.base + c.wmark))) := by rw [← hc']
  have ap : ∀ d, Apart c d → Apart c' d := fun d h => by unfold Apart at *; rw [hb, hs]; exact h
  have mem : ∀ j d, d ∈ (setPool s.pools i { (s.pools i) with chunks := (s.pools i).chunks.dropLast ++ [c'], used := (s.pools i).used + (bytes + (A - (c.base + c.wmark))) } j).chunks →
      d ∈ (s.pools j).chunks ∨ (j = i ∧ d = c') := by
    intro j d hd
    unfold setPool at hd
    split at hd
    · rename_i hj
      subst hj
      simp only [List.mem_append, List.mem_singleton] at hd
      rcases hd with hd | hd
      · exact .inl (List.dropLast_subset _ hd)
      · exact .inr ⟨rfl, hd⟩
    · exact .inl hd
  have hap := h.apart i
  rw [hsplit, List.pairwise_append] at hap
  refine ⟨?_, ?_, ?_, ?_, ?_, ?_⟩
  · intro j d hd
    rcases mem j d hd with h1 | ⟨rfl, rfl⟩
    · exact h.wm j d h1
    · rw [hb, hs, hw]; exact ⟨by omega, w2, w3⟩
  · intro j
    show (setPool s.pools i _ j).chunks.Pairwise Apart
    unfold setPool
    split
    · simp only
      rw [List.pairwise_append]
      refine ⟨hap.1, by simp, ?_⟩
      intro d hd e he
      simp only [List.mem_singleton] at he
      subst he
      exact (ap d (hap.2.2 d hd c (by simp)).symm).symm
    · exact h.apart j
  · intro j l hjl d hd e he
    rcases mem j d hd with h1 | ⟨rfl, rfl⟩
    · rcases mem l e he with h2 | ⟨rfl, rfl⟩
      · exact h.apart2 j l hjl d h1 e h2
      · exact (ap d (h.apart2 l j (Ne.symm hjl) c hcm d h1)).symm
    · rcases mem l e he with h2 | ⟨rfl, rfl⟩
      · exact ap e (h.apart2 j l hjl c hcm e h2)
      · exact absurd rfl hjl
  · intro r hr
    rcases List.mem_append.1 hr with hr | hr
    · obtain ⟨j, d, hd, h1, h2⟩ := h.inside r hr
      by_cases hj : j = i
      · subst hj
        rw [hsplit, List.mem_append, List.mem_singleton] at hd
        rcases hd with hd | rfl
        · exact ⟨j, d, by simp [setPool, hd], h1, h2⟩
        · exact ⟨j, c', by simp [setPool], by rw [hb]; exact h1, by rw [hb, hw]; omega⟩
      · exact ⟨j, d, by simp [setPool, hj, hd], h1, h2⟩
    · simp only [List.mem_singleton] at hr
      subst hr
      refine ⟨i, c', by simp [setPool], ?_, ?_⟩
      · rw [hb]; show c.base ≤ A; omega
      · rw [hb, hw]; show A + bytes ≤ _; omega
  · intro r hr
    rcases List.mem_append.1 hr with hr | hr
    · exact h.aligned r hr
    · simp only [List.mem_singleton] at hr
      subst hr
      exact a1
  · rw [List.pairwise_append]
    refine ⟨h.disj, by simp, ?_⟩
    intro r hr q hq
    simp only [List.mem_singleton] at hq
    subst hq
    obtain ⟨j, d, hd, h1, h2⟩ := h.inside r hr
    obtain ⟨v1, _, _⟩ := h.wm j d hd
    have other : Apart d c → Disjoint r.1 r.2.1 A bytes := by
      intro hap
      apply Disjoint.of
      unfold Apart at hap
      omega
    by_cases hj : j = i
    · subst hj
      rw [hsplit, List.mem_append, List.mem_singleton] at hd
      rcases hd with hd | rfl
      · exact other (hap.2.2 d hd c (by simp))
      · exact Disjoint.of (.inl (by omega))
    · exact other (h.apart2 j i hj d hd c hcm)

theorem Inv.allocate {s : State} (h : Inv s) (i bytes k base : Nat) (hk : k ≤ 4) (hb : bytes < addrMax)
    (hn : (s.pools i).full bytes (2 ^ k) = true → (s.pools i).canExpand = true → NewOk s base (expandLen bytes)) :
    Inv (s.step (.alloc i bytes (2 ^ k) base)) := by
  have hk16 : 2 ^ k ≤ 16 := by
    have : (2 : Nat) ^ k ≤ 2 ^ 4 := Nat.pow_le_pow_right (by omega) hk
    omega
  simp only [State.step, Pool.allocate]
  by_cases hf : (s.pools i).full bytes (2 ^ k) = true
  · rw [if_pos hf]
    by_cases hce : (s.pools i).canExpand = true
    · rw [if_pos hce]
      have hn := hn hf hce
      have h1 := h.expand i (s.pools i).canExpand bytes base hn
      have e : (setPool s.pools i (Pool.expand { (s.pools i) with canExpand := (s.pools i).canExpand } bytes base)) i =
          (s.pools i).expand bytes base := by simp [setPool]
      have hl : ((setPool s.pools i (Pool.expand { (s.pools i) with canExpand := (s.pools i).canExpand } bytes base)) i).chunks.getLast? =
          some ⟨base, 0, expandLen bytes⟩ := by
        rw [e]; simp [Pool.expand]
      have ha : alignUp (base + 0) (2 ^ k) = base + 0 := by
        refine alignUp_of_aligned _ k (by omega) ?_ ?_
        · have := hn.2.1; unfold addrMax at this; omega
        · have h16 := hn.1
          have : 2 ^ k ∣ 16 := by
            have : (2 : Nat) ^ k ∣ 2 ^ 4 := Nat.pow_dvd_pow 2 hk
            exact this
          exact Nat.mod_eq_zero_of_dvd (Nat.dvd_trans this (Nat.dvd_of_mod_eq_zero h16))
      have h2 := h1.take i bytes k (by omega) _ hl (by
        show bytes + (alignUp (base + 0) (2 ^ k) - (base + 0)) + 0 ≤ expandLen bytes
        rw [ha]; unfold expandLen; omega)
      have e2 : ∀ P, setPool (setPool s.pools i (Pool.expand { (s.pools i) with canExpand := (s.pools i).canExpand } bytes base)) i P =
          setPool s.pools i P := by
        intro P; funext k; simp only [setPool]; split <;> rfl
      simp only [e, e2] at h2
      exact h2
    · rw [if_neg hce]
      have : setPool s.pools i (s.pools i) = s.pools := by funext k; simp only [setPool]; split <;> simp_all
      simp only [this]
      exact h
  · rw [if_neg hf]
    unfold Pool.full at hf
    cases hl : (s.pools i).chunks.getLast? with
    | none => simp [hl] at hf
    | some c =>
      rw [hl] at hf
      simp only [decide_eq_true_eq, Nat.not_lt] at hf
      have hcm : c ∈ (s.pools i).chunks := List.mem_of_getLast? hl
      obtain ⟨w1, w2, w3⟩ := h.wm i c hcm
      unfold addrMax at w2 hb
      rw [Nat.mod_eq_of_lt (by omega)] at hf
      obtain ⟨a1, a2, a3⟩ := alignUp_spec (c.base + c.wmark) k (by omega) (by omega)
      refine h.take i bytes k (by omega) c hl ?_
      omega

theorem Inv.merge {s : State} (h : Inv s) (i j : Nat) : Inv (s.step (.merge i j)) := by
  simp only [State.step]
  by_cases hij : i = j
  · rw [if_pos hij]; exact h
  · rw [if_neg hij]
    have hp : ∀ k, (setPool (setPool s.pools i ((s.pools i).merge (s.pools j)).1) j ((s.pools i).merge (s.pools j)).2 k).chunks =
        if k = j then [] else if k = i then (s.pools j).chunks ++ (s.pools i).chunks else (s.pools k).chunks := by
      intro k
      simp only [setPool, Pool.merge]
      by_cases h1 : k = j
      · simp [h1]
      · by_cases h2 : k = i
        · subst h2; simp [h1]
        · simp [h1, h2]
    refine ⟨?_, ?_, ?_, ?_, h.aligned, h.disj⟩
    · intro k c hc
      simp only [hp] at hc
      split at hc
      · simp at hc
      · split at hc
        · rcases List.mem_append.1 hc with hc | hc
          · exact h.wm _ c hc
          · exact h.wm _ c hc
        · exact h.wm _ c hc
    · intro k
      simp only [hp]
      split
      · simp
      · split
        · rw [List.pairwise_append]
          exact ⟨h.apart j, h.apart i, fun c hc d hd => h.apart2 j i (Ne.symm hij) c hc d hd⟩
        · exact h.apart k
    · intro k l hkl c hc d hd
      simp only [hp] at hc hd
      split at hc
      · simp at hc
      · split at hd
        · simp at hd
        · rename_i h1 h2
          split at hc
          · split at hd
            · omega
            · rename_i h3 h4
              rcases List.mem_append.1 hc with hc | hc
              · exact h.apart2 j l (Ne.symm h2) c hc d hd
              · exact h.apart2 i l (Ne.symm h4) c hc d hd
          · split at hd
            · rename_i h3 h4
              rcases List.mem_append.1 hd with hd | hd
              · exact h.apart2 k j h1 c hc d hd
              · exact h.apart2 k i h3 c hc d hd
            · exact h.apart2 k l hkl c hc d hd
    · intro r hr
      obtain ⟨k, c, hc, h1⟩ := h.inside r hr
      by_cases hk : k = i ∨ k = j
      · refine ⟨i, c, ?_, h1⟩
        rw [hp, if_neg hij, if_pos rfl]
        rcases hk with rfl | rfl
        · exact List.mem_append_right _ hc
        · exact List.mem_append_left _ hc
      · refine ⟨k, c, ?_, h1⟩
        simp only [not_or] at hk
        rw [hp, if_neg hk.2, if_neg hk.1]
        exact hc

theorem Reachable.inv {s : State} (h : Reachable s) : Inv s := by
  induction h with
  | init => exact ⟨by simp [State.init, Pool.empty], by simp [State.init, Pool.empty], by simp [State.init, Pool.empty], by simp [State.init],
      by simp [State.init], by simp [State.init]⟩
  | step o _ hok ih =>
    cases o with
    | create i ce size base => exact ih.expand i ce size base hok
    | alloc i bytes al base =>
      obtain ⟨⟨k, hk, rfl⟩, hb, hn⟩ := hok
      exact ih.allocate i bytes k base hk hb hn
    | merge i j => exact ih.merge i j

/-- C33: after any sequence of creations, allocations (any size, power-of-two alignment up to 16) and merges of any number of
pools, all ranges handed out lie within the chunks currently owned by the pools, have the requested alignment and are disjoint
from one another. -/
theorem C33_disjoint_inbounds_aligned_partial {s : State} (h : Reachable s) :
    (∀ r ∈ s.out, ∃ i, ∃ c ∈ (s.pools i).chunks, c.base ≤ r.1 ∧ r.1 + r.2.1 ≤ c.base + c.size) ∧
    (∀ r ∈ s.out, r.1 % r.2.2 = 0) ∧
    s.out.Pairwise (fun r q => Disjoint r.1 r.2.1 q.1 q.2.1) := by
  have hi := h.inv
  refine ⟨?_, hi.aligned, hi.disj⟩
  intro r hr
  obtain ⟨i, c, hc, h1, h2⟩ := hi.inside r hr
  have := (hi.wm i c hc).1
  exact ⟨i, c, hc, h1, by omega⟩

/-- C33: an allocation fails only if the pool may not expand. -/
theorem C33_never_null (P : Pool) (bytes al base : Nat) (h : P.canExpand = true) : (P.allocate bytes al base).1.isSome = true := by
  have take : ∀ Q : Pool, Q.chunks ≠ [] → (Q.take bytes al).1.isSome = true := by
    intro Q hq
    unfold Pool.take
    cases hl : Q.chunks.getLast? with
    | none => exact absurd (List.getLast?_eq_none_iff.1 hl) hq
    | some c => rfl
  unfold Pool.allocate
  rw [if_pos h]
  split
  · exact take _ (by simp [Pool.expand])
  · rename_i hf
    refine take P ?_
    intro h0
    simp [Pool.full, h0] at hf

/-- C33: the ranges handed out before an operation are still there, unchanged, after it. -/
theorem C33_ranges_stay (s : State) (o : Op) : s.out <+: (s.step o).out := by
  cases o with
  | create i ce size base => exact List.prefix_refl _
  | alloc i bytes al base =>
    simp only [State.step]
    split
    · exact List.prefix_append _ _
    · exact List.prefix_refl _
  | merge i j => simp only [State.step]; split <;> exact List.prefix_refl _

theorem sum_concat (l : List Nat) (x : Nat) : (l ++ [x]).sum = l.sum + x := by simp

theorem sum_last (l : List Chunk) (c : Chunk) (h : l.getLast? = some c) (f : Chunk → Nat) :
    (l.map f).sum = ((l.dropLast).map f).sum + f c := by
  have : l = l.dropLast ++ [c] := by
    have hne : l ≠ [] := by intro hh; rw [hh] at h; simp at h
    rw [List.getLast?_eq_some_getLast hne] at h
    cases h
    exact (List.dropLast_concat_getLast hne).symm
  conv => lhs; rw [this]
  simp

/-- what the statistics of a pool should say -/
def Pool.StatsOk (P : Pool) : Prop := P.reserved = (P.chunks.map (·.size)).sum ∧ P.used = (P.chunks.map (·.wmark)).sum

theorem StatsOk.expand {P : Pool} (h : P.StatsOk) (ce : Bool) (bytes base : Nat) :
    (Pool.expand { P with canExpand := ce } bytes base).StatsOk := by
  unfold Pool.StatsOk Pool.expand at *
  simp [h.1, h.2]

theorem StatsOk.take {P : Pool} (h : P.StatsOk) (bytes al : Nat) : (P.take bytes al).2.StatsOk := by
  unfold Pool.take
  cases hl : P.chunks.getLast? with
  | none => exact h
  | some c =>
    unfold Pool.StatsOk at *
    have h1 := sum_last _ _ hl (·.size)
    have h2 := sum_last _ _ hl (·.wmark)
    simp only [List.map_append, List.map_cons, List.map_nil, sum_concat]
    omega

/-- C33 (statistics): in every pool the reserved bytes are the sizes of its chunks and the used bytes are what was taken from them
(including alignment gaps). -/
theorem C33_statistics {s : State} (h : Reachable s) (i : Nat) :
    (s.pools i).reserved = ((s.pools i).chunks.map (·.size)).sum ∧ (s.pools i).used = ((s.pools i).chunks.map (·.wmark)).sum := by
  have key : ∀ i, (s.pools i).StatsOk := by
    induction h with
    | init => intro i; exact ⟨rfl, rfl⟩
    | @step s o _ hok ih =>
      intro k
      cases o with
      | create i ce size base =>
        simp only [State.step, setPool]
        split
        · exact StatsOk.expand (ih i) ce size base
        · exact ih k
      | alloc i bytes al base =>
        simp only [State.step, setPool]
        split
        · unfold Pool.allocate
          split
          · split
            · exact StatsOk.take (StatsOk.expand (ih i) (s.pools i).canExpand bytes base) bytes al
            · exact ih i
          · exact StatsOk.take (ih i) bytes al
        · exact ih k
      | merge i j =>
        simp only [State.step]
        split
        · exact ih k
        · simp only [setPool]
          split
          · exact ⟨rfl, rfl⟩
          · split
            · have h1 := ih i
              have h2 := ih j
              unfold Pool.StatsOk Pool.merge at *
              simp only [List.map_append, List.sum_append]
              omega
            · exact ih k
  exact key i

/-! ## Examples and violations -/

/-- a program with two pools, an expansion and a merge -/
def demo : List Op := [.create 0 true 100 0x10000, .create 1 true 100 0x40000, .alloc 0 7 1 0, .alloc 0 8 8 0, .alloc 1 70000 16 0x80000, .merge 0 1,
  .alloc 0 3 2 0, .alloc 1 5 4 0xA0000]

/-- running a program -/
def run (os : List Op) : State := os.foldl State.step State.init

example : (run demo).out = [(0x10000, 7, 1), (0x10008, 8, 8), (0x80000, 70000, 16), (0x10010, 3, 2), (0xA0000, 5, 4)] := by decide +kernel

/-- states with two pools are reachable (the hypotheses can be met, allocations happen) -/
example : ∃ s, Reachable s ∧ s.out = [(0x10000, 7, 1), (0x10008, 8, 8)] := by
  refine ⟨_, .step (.alloc 0 8 8 0) (.step (.alloc 0 7 1 0) (.step (.create 0 true 100 0x10000) .init ?_) ?_) ?_, by decide +kernel⟩
  · refine ⟨by decide, by decide, ?_⟩
    intro k c hc
    simp [State.init, Pool.empty] at hc
  · refine ⟨⟨0, by omega, rfl⟩, by decide, ?_⟩
    intro h
    exact absurd h (by decide)
  · refine ⟨⟨3, by omega, rfl⟩, by decide, ?_⟩
    intro h
    exact absurd h (by decide)

/-- C33 fails for larger alignments: a new chunk is made just as large as the request, without room for the alignment.  Here
65536 bytes aligned to 64 in a chunk at an address that is a multiple of 16 only: the range ends 48 bytes after the chunk. -/
theorem C33_violation_alignment :
    let r := Pool.empty.allocate 65536 64 0x10010
    r.1 = some 0x10040 ∧ r.2.chunks = [⟨0x10010, 65584, 65536⟩] := by decide +kernel

end Verif.Pool
