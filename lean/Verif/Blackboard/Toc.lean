import Verif.Blackboard.Refine
namespace Verif.BB

variable {V : Type} [Inhabited V]

/-- the occupancy bit of slot `i` -/
def bit (s : State V) (i : Nat) : Bool := (s.toc (i / 32)).getLsbD (i % 32)

theorem getLsbD_one_shl (a b : Nat) (ha : a < 32) : (1#32 <<< a).getLsbD b = decide (b = a) := by
  rw [Bool.eq_iff_iff]
  simp
  omega

theorem lowBit_spec (x : BitVec 32) (hx : x ≠ 0) :
    lowBit x < 32 ∧ x.getLsbD (lowBit x) = true ∧ ∀ j, j < lowBit x → x.getLsbD j = false := by
  unfold lowBit
  cases hf : (List.range 32).find? (fun i => x.getLsbD i) with
  | none =>
    exfalso
    apply hx
    rw [List.find?_eq_none] at hf
    apply BitVec.eq_of_getLsbD_eq
    intro i hi
    have := hf i (List.mem_range.mpr hi)
    simpa using this
  | some l =>
    rw [List.find?_range_eq_some] at hf
    refine ⟨by simpa using hf.2.1, by simpa using hf.1, ?_⟩
    intro j hj
    have := hf.2.2 j (by simpa using hj)
    simpa using this

theorem bitLoop_eq : ∀ (fuel : Nat) (x : BitVec 32) (lo : Nat), lo ≤ 32 → 32 - lo ≤ fuel →
    (∀ j, j < lo → x.getLsbD j = false) →
    bitLoop fuel x = (List.range' lo (32 - lo)).filter (fun j => x.getLsbD j) := by
  intro fuel
  induction fuel with
  | zero =>
    intro x lo h1 h2 _
    have : 32 - lo = 0 := by omega
    rw [this]; rfl
  | succ fuel ih =>
    intro x lo h1 h2 hz
    simp only [bitLoop]
    split
    · rename_i hx
      subst hx
      symm
      rw [List.filter_eq_nil_iff]
      simp
    · rename_i hx
      obtain ⟨l1, l2, l3⟩ := lowBit_spec x hx
      generalize lowBit x = l at *
      have hlo : lo ≤ l := by
        rcases Nat.lt_or_ge l lo with h | h
        · have := hz l h; simp [l2] at this
        · exact h
      have hsplit : List.range' lo (32 - lo) = List.range' lo (l - lo) ++ (l :: List.range' (l + 1) (32 - (l + 1))) := by
        rw [show 32 - lo = (l - lo) + (1 + (32 - (l + 1))) by omega]
        rw [← List.range'_append, ← List.range'_append]
        rw [show lo + 1 * (l - lo) = l by omega]
        simp
      have hand : ∀ j, (x &&& ~~~(1#32 <<< l)).getLsbD j = (x.getLsbD j && decide (j ≠ l)) := by
        intro j
        rw [BitVec.getLsbD_and, BitVec.getLsbD_not, getLsbD_one_shl _ _ l1]
        by_cases hj : j < 32
        · simp [hj]
        · have : x.getLsbD j = false := BitVec.getLsbD_of_ge _ _ (by omega)
          simp [this]
      rw [hsplit, List.filter_append, List.filter_cons, if_pos l2]
      have h0 : (List.range' lo (l - lo)).filter (fun j => x.getLsbD j) = [] := by
        rw [List.filter_eq_nil_iff]
        intro a ha
        rw [List.mem_range'_1] at ha
        simp [l3 a (by omega)]
      rw [h0, List.nil_append]
      congr 1
      rw [ih _ (l + 1) (by omega) (by omega)]
      · apply List.filter_congr
        intro a ha
        rw [List.mem_range'_1] at ha
        rw [hand]; simp; omega
      · intro j hj
        rw [hand]
        by_cases hjl : j = l
        · simp [hjl]
        · simp [l3 j (by omega)]

theorem bitLoop_32 (x : BitVec 32) : bitLoop 32 x = (List.range 32).filter (fun j => x.getLsbD j) := by
  rw [bitLoop_eq 32 x 0 (by omega) (by omega) (by simp), List.range_eq_range']

/-- the second-level bitmap agrees with the first level -/
def TocOk (s : State V) : Prop := ∀ w, w < 32 → (s.toctoc.getLsbD w = true ↔ s.toc w ≠ 0)

theorem snapshotSlots_eq (s : State V) (h : TocOk s) :
    snapshotSlots s = (List.range 1024).filter (bit s) := by
  have h32 : List.range 1024 = (List.range 32).flatMap (fun i => (List.range 32).map (fun j => i * 32 + j)) := by decide +kernel
  have step : ∀ w, (bitLoop 32 (s.toc w)).map (fun j => w * 32 + j)
      = ((List.range 32).map (fun j => w * 32 + j)).filter (bit s) := by
    intro w
    rw [bitLoop_32, List.filter_map]
    refine congrArg (List.map fun j => w * 32 + j) ?_
    apply List.filter_congr
    intro a ha
    rw [List.mem_range] at ha
    simp only [Function.comp, bit]
    rw [show (w * 32 + a) / 32 = w by omega, show (w * 32 + a) % 32 = a by omega]
  refine Eq.trans ?_ (congrArg (List.filter (bit s)) h32.symm)
  clear h32
  unfold snapshotSlots
  rw [List.filter_flatMap, bitLoop_32]
  suffices H : ∀ l : List Nat, (∀ w ∈ l, w < 32) →
      (l.filter (fun w => s.toctoc.getLsbD w)).flatMap (fun i => (bitLoop 32 (s.toc i)).map fun j => i * 32 + j)
      = l.flatMap (fun i => ((List.range 32).map (fun j => i * 32 + j)).filter (bit s)) by
    apply H; intro w hw; exact List.mem_range.mp hw
  intro l
  induction l with
  | nil => intro _; rfl
  | cons w l ih =>
    intro hl
    have ih' := ih (fun a ha => hl a (by simp [ha]))
    have hw := h w (hl w (by simp))
    rw [List.flatMap_cons, List.filter_cons]
    split
    · rw [List.flatMap_cons, ih', step]
    · rename_i hc
      rw [ih', ← step]
      have : s.toc w = 0 := by
        by_cases hz : s.toc w = 0
        · exact hz
        · exact absurd (hw.mpr hz) hc
      rw [this]
      have : bitLoop 32 0 = [] := by simp [bitLoop]
      rw [this]; simp

/-! ### how the operations change the bitmap -/

theorem add_bits {s s' : State V} {k : Nat} {v : V} {incl : Bool} (h : add s k v incl = some s') (hc : s.num < 910)
    {t : Nat} (ht : findFree s k = some t) (htN : t < Nmax) (hok : TocOk s) :
    TocOk s' ∧ ∀ j, bit s' j = (bit s j || (incl && decide (j = t))) := by
  unfold add at h
  rw [ht, Option.map_some, if_neg (by simp only [Nmax]; omega)] at h
  simp only [Option.some.injEq] at h
  subst h
  cases incl with
  | false => exact ⟨hok, fun j => by simp [bit]⟩
  | true =>
    constructor
    · intro w hw
      simp only [if_true]
      rw [BitVec.getLsbD_or, getLsbD_one_shl _ _ (by simp only [Nmax] at htN; omega)]
      by_cases hwt : w = t / 32
      · subst hwt
        simp only [upd_same]
        have : s.toc (t / 32) ||| 1#32 <<< (t % 32) ≠ 0 := by
          intro hc
          have := congrArg (fun x => x.getLsbD (t % 32)) hc
          simp only [BitVec.getLsbD_or, getLsbD_one_shl _ _ (show t % 32 < 32 by omega)] at this
          simp at this
        exact ⟨fun _ => this, fun _ => by simp⟩
      · simp only [upd_ne _ _ _ _ hwt, hwt, decide_false, Bool.or_false]
        exact hok w hw
    · intro j
      simp only [bit, if_true, Bool.true_and]
      by_cases hwt : j / 32 = t / 32
      · rw [hwt, upd_same, BitVec.getLsbD_or, getLsbD_one_shl _ _ (by omega)]
        congr 1
        rw [decide_eq_decide]; omega
      · rw [upd_ne _ _ _ _ hwt]
        have : ¬ j = t := by intro h; subst h; exact hwt rfl
        simp [this]

theorem del_bits {s s' : State V} {I : Nat} (hI : I < Nmax) (hok : TocOk s)
    (h1 : s'.toc = upd s.toc (I / 32) (s.toc (I / 32) &&& ~~~(1#32 <<< (I % 32))))
    (h2 : s'.toctoc = (if s'.toc (I / 32) = 0 then s.toctoc &&& ~~~(1#32 <<< (I / 32)) else s.toctoc)) :
    TocOk s' ∧ ∀ j, bit s' j = (bit s j && decide (j ≠ I)) := by
  have hI32 : I / 32 < 32 := by simp only [Nmax] at hI; omega
  have hz : s'.toc (I / 32) = s.toc (I / 32) &&& ~~~(1#32 <<< (I % 32)) := by rw [h1, upd_same]
  constructor
  · intro w hw
    by_cases hwI : w = I / 32
    · subst hwI
      rw [h2]
      by_cases h0 : s'.toc (I / 32) = 0
      · simp only [h0, if_true, BitVec.getLsbD_and, BitVec.getLsbD_not, getLsbD_one_shl _ _ hI32]
        simp
      · rw [if_neg h0]
        have hne : s.toc (I / 32) ≠ 0 := by
          intro hc; apply h0; rw [hz, hc]; simp
        have := (hok _ hI32).mpr hne
        exact ⟨fun _ => h0, fun _ => this⟩
    · have e1 : s'.toc w = s.toc w := by rw [h1, upd_ne _ _ _ _ hwI]
      rw [e1, ← hok w hw, h2]
      split
      · rw [BitVec.getLsbD_and, BitVec.getLsbD_not, getLsbD_one_shl _ _ hI32]
        simp [hwI, hw]
      · rfl
  · intro j
    simp only [bit, h1]
    by_cases hw : j / 32 = I / 32
    · rw [hw, upd_same, BitVec.getLsbD_and, BitVec.getLsbD_not, getLsbD_one_shl _ _ (by omega)]
      have : (decide (j % 32 = I % 32)) = decide (j = I) := by rw [decide_eq_decide]; omega
      rw [this]
      have : j % 32 < 32 := by omega
      simp [this]
    · rw [upd_ne _ _ _ _ hw]
      have : ¬ j = I := by intro h; subst h; exact hw rfl
      simp [this]

end Verif.BB
