import Verif.Query.SnapTreeSpec
import Verif.Variant.Lemmas2
/-!
# Values on which the comparison of variants is a strict weak order
-/
namespace Verif.Query.Tree
open Verif Verif.Cali Verif.Query Verif.Util

theorem goodOrder_of_rank {dcmp : U64 → U64 → Int} {vs : List Val} {β : Type} [LinearOrder β] (f : Val → β)
    (h : ∀ a ∈ vs, ∀ b ∈ vs, (cmpVal dcmp a b < 0 ↔ f a < f b) ∧ (0 < cmpVal dcmp a b ↔ f b < f a)) : GoodOrder dcmp vs := by
  have h1 : ∀ a ∈ vs, ∀ b ∈ vs, vlt dcmp a b = decide (f a < f b) := fun a ha b hb => decide_eq_decide.2 (h a ha b hb).1
  refine ⟨⟨?_, ?_, ?_⟩, ?_⟩
  · intro a ha; rw [h1 a ha a ha]; simp
  · intro a ha b hb c hc
    rw [h1 a ha b hb, h1 b hb c hc, h1 a ha c hc]
    simp only [decide_eq_true_eq]
    exact lt_trans
  · intro a ha b hb c hc
    rw [h1 a ha b hb, h1 b hb c hc, h1 a ha c hc, h1 b hb a ha, h1 c hc b hb, h1 c hc a ha]
    simp only [decide_eq_false_iff_not, not_lt]
    intro h2 h3 h4 h5
    exact ⟨h4.trans h2, h3.trans h5⟩
  · intro a ha b hb
    rw [h1 b hb a ha]
    exact decide_eq_decide.2 (h a ha b hb).2

/-- unsigned numbers are compared correctly -/
theorem goodOrder_uint (dcmp : U64 → U64 → Int) {vs : List Val} (h : ∀ v ∈ vs, ∃ u, v = .uint u) : GoodOrder dcmp vs := by
  refine goodOrder_of_rank (fun v => match v with | .uint u => u.toNat | _ => 0) ?_
  intro a ha b hb
  obtain ⟨x, rfl⟩ := h a ha
  obtain ⟨y, rfl⟩ := h b hb
  simp only [cmpVal]
  have hx := x.isLt
  have hy := y.isLt
  have hd : (x - y).toNat = (2 ^ 64 - y.toNat + x.toNat) % 2 ^ 64 := by rw [BitVec.toNat_sub]
  by_cases e : x - y = 0
  · rw [if_pos e]
    have : x = y := by
      have := congrArg BitVec.toNat e
      rw [hd] at this
      simp at this
      apply BitVec.eq_of_toNat_eq; omega
    subst this; simp
  · rw [if_neg e]
    have e0 : (x - y).toNat ≠ 0 := fun e' => e (by apply BitVec.eq_of_toNat_eq; simpa using e')
    rw [hd] at e0
    by_cases g : x - y > x
    · rw [if_pos g]
      have g : x.toNat < (x - y).toNat := g
      rw [hd] at g
      constructor <;> constructor <;> intro _ <;> omega
    · rw [if_neg g]
      have g : ¬ x.toNat < (x - y).toNat := g
      rw [hd] at g
      constructor <;> constructor <;> intro _ <;> omega

/-- signed numbers of less than 30 bits are compared correctly -/
theorem goodOrder_int (dcmp : U64 → U64 → Int) {vs : List Val} (h : ∀ v ∈ vs, ∃ i : U64, v = .int i ∧ -1073741824 < i.toInt ∧ i.toInt < 1073741824) :
    GoodOrder dcmp vs := by
  refine goodOrder_of_rank (fun v => match v with | .int u => u.toInt | _ => 0) ?_
  intro a ha b hb
  obtain ⟨x, rfl, hx1, hx2⟩ := h a ha
  obtain ⟨y, rfl, hy1, hy2⟩ := h b hb
  simp only [cmpVal]
  have hd : toCInt (x - y) = x.toInt - y.toInt := by
    unfold toCInt
    rw [BitVec.toInt_setWidth, BitVec.toNat_sub]
    have e1 : x.toInt = Int.bmod x.toNat (2 ^ 64) := BitVec.toInt_eq_toNat_bmod x
    have e2 : y.toInt = Int.bmod y.toNat (2 ^ 64) := BitVec.toInt_eq_toNat_bmod y
    have hx := x.isLt
    have hy := y.isLt
    simp only [Int.bmod] at *
    omega
  rw [hd]
  constructor <;> constructor <;> intro _ <;> omega

/-- strings without NUL bytes, shorter than 2^31, are compared as texts -/
theorem cmpVal_string (dcmp : U64 → U64 → Int) (a b : List Byte) (ha : ∀ x ∈ a, x ≠ 0) (hla : a.length < 2 ^ 31) (hlb : b.length < 2 ^ 31) :
    signOrd (cmpVal dcmp (.string a) (.string b)) = lexCmp a b := by
  simp only [cmpVal]
  rw [toCInt_ofNat _ hla, toCInt_ofNat _ hlb]
  have e : (min (a.length : Int) (b.length : Int)).toNat = min a.length b.length := by omega
  rw [e, strncmp_eq_memcmp _ _ (fun x hx => ha x (List.mem_of_mem_take hx)), lexCmp_mem]
  by_cases h : memcmpSign (a.take (min a.length b.length)) (b.take (min a.length b.length)) = 0
  · simp only [h, ne_eq, not_true, if_false]
    exact signOrd_sub _ _
  · simp only [ne_eq, h, not_false_iff, if_true]

theorem goodOrder_string (dcmp : U64 → U64 → Int) {vs : List Val} (h : ∀ v ∈ vs, ∃ s, v = .string s ∧ (∀ x ∈ s, x ≠ 0) ∧ s.length < 2 ^ 31) :
    GoodOrder dcmp vs := by
  have h1 : ∀ a ∈ vs, ∀ b ∈ vs, ∃ s t, a = .string s ∧ b = .string t ∧ vlt dcmp a b = decide (lexCmp s t = .lt) ∧ vgt dcmp a b = decide (lexCmp s t = .gt) := by
    intro a ha b hb
    obtain ⟨s, rfl, s1, s2⟩ := h a ha
    obtain ⟨t, rfl, t1, t2⟩ := h b hb
    refine ⟨s, t, rfl, rfl, ?_, ?_⟩
    · rw [← cmpVal_string dcmp s t s1 s2 t2]
      exact decide_eq_decide.2 intCmp_lt.symm
    · rw [← cmpVal_string dcmp s t s1 s2 t2]
      exact decide_eq_decide.2 intCmp_gt.symm
  refine ⟨⟨?_, ?_, ?_⟩, ?_⟩
  · intro a ha
    obtain ⟨s, t, e1, e2, e3, -⟩ := h1 a ha a ha
    rw [e3]
    have : s = t := by rw [e1] at e2; injection e2
    subst this
    rw [lexCmp_eq.2 rfl]; rfl
  · intro a ha b hb c hc hab hbc
    obtain ⟨s, t, rfl, rfl, e3, -⟩ := h1 a ha b hb
    obtain ⟨t', u, e1, rfl, e4, -⟩ := h1 _ hb c hc
    obtain ⟨s', u', e5, e6, e7, -⟩ := h1 _ ha _ hc
    injection e1 with e1; injection e5 with e5; injection e6 with e6
    subst e1; subst e5; subst e6
    rw [e3, decide_eq_true_eq] at hab
    rw [e4, decide_eq_true_eq] at hbc
    rw [e7, lexCmp_trans hab hbc]; rfl
  · intro a ha b hb c hc hab hba hbc hcb
    obtain ⟨s, t, rfl, rfl, e3, -⟩ := h1 a ha b hb
    obtain ⟨t', u, e1, rfl, e4, -⟩ := h1 _ hb c hc
    obtain ⟨t2, s2, e5, e6, e7, -⟩ := h1 _ hb _ ha
    obtain ⟨u2, t3, e8, e9, e10, -⟩ := h1 _ hc _ hb
    injection e1 with e1; injection e5 with e5; injection e6 with e6; injection e8 with e8; injection e9 with e9
    subst e1; subst e5; subst e6; subst e8; subst e9
    have eq : ∀ x y : List Byte, lexCmp x y ≠ .lt → lexCmp y x ≠ .lt → x = y := by
      intro x y hx hy
      rw [lexCmp_swap x y] at hy
      apply lexCmp_eq.1
      cases hl : lexCmp x y with
      | eq => rfl
      | lt => exact absurd hl hx
      | gt => rw [hl] at hy; exact absurd rfl hy
    rw [e3, decide_eq_false_iff_not] at hab
    rw [e7, decide_eq_false_iff_not] at hba
    rw [e4, decide_eq_false_iff_not] at hbc
    rw [e10, decide_eq_false_iff_not] at hcb
    have st := eq _ _ hab hba
    have tu := eq _ _ hbc hcb
    subst st; subst tu
    obtain ⟨x, y, e11, e12, e13, -⟩ := h1 _ ha _ ha
    injection e11 with e11; injection e12 with e12
    subst e11; subst e12
    rw [e13, lexCmp_eq.2 rfl]
    exact ⟨rfl, rfl⟩
  · intro a ha b hb
    obtain ⟨s, t, rfl, rfl, -, e3⟩ := h1 a ha b hb
    obtain ⟨t', s', e4, e5, e6, -⟩ := h1 _ hb _ ha
    injection e4 with e4; injection e5 with e5
    subst e4; subst e5
    rw [e3, e6, lexCmp_swap s t]
    cases lexCmp s t <;> rfl

/-- missing values come first and do not disturb the order -/
theorem goodOrder_missing (dcmp : U64 → U64 → Int) {vs : List Val} (h : GoodOrder dcmp (vs.filter fun v => v ≠ .inv)) : GoodOrder dcmp vs := by
  have hm : ∀ {v}, v ∈ vs → v ≠ .inv → v ∈ vs.filter fun v => v ≠ .inv := fun hv h => List.mem_filter.2 ⟨hv, by simpa using h⟩
  have hz : ∀ v : Val, v ≠ .inv → 0 < v.ty.code := by intro v hv; cases v <;> simp [Val.ty, AttrType.code] at *
  have c00 : cmpVal dcmp .inv .inv = 0 := rfl
  have c0 : ∀ v : Val, v ≠ .inv → cmpVal dcmp .inv v < 0 := by
    intro v hv
    have := hz v hv
    cases v <;> first | exact absurd rfl hv | (simp only [cmpVal]; simp only [Val.ty, AttrType.code] at *; omega)
  have c1 : ∀ v : Val, v ≠ .inv → 0 < cmpVal dcmp v .inv := by
    intro v hv
    have := hz v hv
    cases v <;> first | exact absurd rfl hv | (simp only [cmpVal]; simp only [Val.ty, AttrType.code] at *; omega)
  have l00 : vlt dcmp .inv .inv = false := by simp [vlt, c00]
  have l0 : ∀ v : Val, v ≠ .inv → vlt dcmp .inv v = true := fun v hv => by simpa [vlt] using c0 v hv
  have l1 : ∀ v : Val, v ≠ .inv → vlt dcmp v .inv = false := fun v hv => by have := c1 v hv; simp [vlt]; omega
  refine ⟨⟨?_, ?_, ?_⟩, ?_⟩
  · intro a ha
    by_cases h0 : a = .inv
    · rw [h0, l00]
    · exact h.swo.irrefl a (hm ha h0)
  · intro a ha b hb c hc hab hbc
    by_cases ha0 : a = .inv
    · by_cases hc0 : c = .inv
      · by_cases hb0 : b = .inv
        · rw [ha0, hb0, l00] at hab; cases hab
        · rw [hc0, l1 b hb0] at hbc; cases hbc
      · rw [ha0]; exact l0 c hc0
    · by_cases hb0 : b = .inv
      · rw [hb0, l1 a ha0] at hab; cases hab
      · by_cases hc0 : c = .inv
        · rw [hc0, l1 b hb0] at hbc; cases hbc
        · exact h.swo.trans a (hm ha ha0) b (hm hb hb0) c (hm hc hc0) hab hbc
  · intro a ha b hb c hc hab hba hbc hcb
    by_cases ha0 : a = .inv
    · by_cases hb0 : b = .inv
      · by_cases hc0 : c = .inv
        · rw [ha0, hc0, l00]; exact ⟨rfl, rfl⟩
        · rw [hb0, l0 c hc0] at hbc; cases hbc
      · rw [ha0, l0 b hb0] at hab; cases hab
    · by_cases hb0 : b = .inv
      · rw [hb0, l0 a ha0] at hba; cases hba
      · by_cases hc0 : c = .inv
        · rw [hc0, l0 b hb0] at hcb; cases hcb
        · exact h.swo.incomp a (hm ha ha0) b (hm hb hb0) c (hm hc hc0) hab hba hbc hcb
  · intro a ha b hb
    by_cases ha0 : a = .inv
    · by_cases hb0 : b = .inv
      · rw [ha0, hb0]; simp [vgt, vlt, c00]
      · rw [ha0, l1 b hb0]; have := c0 b hb0; simp [vgt]; omega
    · by_cases hb0 : b = .inv
      · rw [hb0, l0 a ha0]; simpa [vgt] using c1 a ha0
      · exact h.conv a (hm ha ha0) b (hm hb hb0)

end Verif.Query.Tree
