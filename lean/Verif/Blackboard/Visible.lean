import Verif.Blackboard.Toc
namespace Verif.BB

variable {V : Type} [Inhabited V]

/-- the bitmap says exactly which slots hold a visible entry -/
structure VInv (s : State V) (vis : Nat → Bool) : Prop where
  ok : TocOk s
  bits : ∀ i, i < 1024 → bit s i = (decide (i < Nmax) && decide (s.key i ≠ invId) && vis (s.key i))

theorem VInv.init (vis : Nat → Bool) : VInv (BB.init : State V) vis := by
  constructor
  · intro w hw; simp [BB.init]
  · intro i hi; simp [BB.init, bit]

theorem VInv.exact {s : State V} {p : Spec V} {vis : Nat → Bool} (hr : Rel s p) (h : VInv s vis) :
    SnapshotExact (snapshot s) p.m vis := by
  refine ⟨(snapshotSlots s).map (fun i => (s.key i, s.val i)), ?_, ?_, ?_, ?_⟩
  · rw [snapshotSlots_eq s h.ok, List.map_map]
    have hsub : ∀ i ∈ (List.range 1024).filter (bit s), i < Nmax ∧ s.key i ≠ invId := by
      intro i hi
      rw [List.mem_filter, List.mem_range] at hi
      have := hi.2
      rw [h.bits i hi.1] at this
      simp at this
      exact ⟨this.1.1, this.1.2⟩
    have hnd : ((List.range 1024).filter (bit s)).Nodup := List.Nodup.sublist List.filter_sublist List.nodup_range
    generalize (List.range 1024).filter (bit s) = l at hsub hnd
    induction l with
    | nil => simp
    | cons a l ih =>
      rw [List.nodup_cons] at hnd
      rw [List.map_cons, List.nodup_cons]
      refine ⟨?_, ih (fun i hi => hsub i (by simp [hi])) hnd.2⟩
      intro hm
      rw [List.mem_map] at hm
      obtain ⟨b, hb, hbe⟩ := hm
      have ha := hsub a (by simp)
      have hb' := hsub b (by simp [hb])
      have := hr.inv.t.distinct b a hb'.1 ha.1 hb'.2 hbe
      subst this
      exact hnd.1 hb
  · intro kv hkv
    rw [List.mem_map] at hkv
    obtain ⟨i, hi, rfl⟩ := hkv
    rw [snapshotSlots_eq s h.ok, List.mem_filter, List.mem_range] at hi
    have := hi.2
    rw [h.bits i hi.1] at this
    simp at this
    exact this.1.2
  · intro k v hk
    rw [hr.map k v hk, List.mem_map]
    constructor
    · rintro ⟨i, hi, he⟩
      rw [snapshotSlots_eq s h.ok, List.mem_filter, List.mem_range] at hi
      have := hi.2
      rw [h.bits i hi.1] at this
      simp at this he
      exact ⟨⟨i, this.1.1, he.1, he.2⟩, by rw [← he.1]; exact this.2⟩
    · rintro ⟨⟨i, hi, h1, h2⟩, hv⟩
      refine ⟨i, ?_, by rw [h1, h2]⟩
      have hi2 : i < 1024 := by simp only [Nmax] at hi; omega
      rw [snapshotSlots_eq s h.ok, List.mem_filter, List.mem_range]
      refine ⟨hi2, ?_⟩
      rw [h.bits i hi2, h1]
      simp [hi, hk, hv]
  · simp [snapshot, List.map_map, Function.comp]

theorem VInv.add_new {s s' : State V} {vis : Nat → Bool} (h : VInv s vis) (hi : Inv s) {k : Nat} {v : V} {incl : Bool}
    (hk : k ≠ invId) (hno : ∀ i, i < Nmax → s.key i ≠ k) (ha : add s k v incl = some s') :
    VInv s' (if s.num < 910 then fun j => if j = k then incl else vis j else vis) := by
  obtain ⟨t, s'', h1, h2, h3, hff, h4⟩ := add_spec hi v incl hk hno
  rw [ha] at h1; simp at h1; subst h1
  rcases h4 with ⟨hc, e1, e2, e3, e4, _, _⟩ | ⟨hc, rfl⟩
  · rw [if_pos hc]
    obtain ⟨b1, b2⟩ := add_bits ha hc hff h2 h.ok
    refine ⟨b1, ?_⟩
    intro i hi1
    rw [b2 i, h.bits i hi1, e1]
    by_cases hit : i = t
    · subst hit
      rw [upd_same, h3]
      simp [h2, hk]
    · rw [upd_ne _ _ _ _ hit]
      by_cases hin : i < Nmax
      · simp [hit, hno i hin]
      · simp [hin, hit]
  · rw [if_neg hc]
    exact ⟨h.ok, h.bits⟩

/-- one operation keeps the bitmap exact, provided a deletion moves no entry into a slot of an entry with
different visibility -/
theorem VInv.step {s s' : State V} {p : Spec V} {vis : Nat → Bool} {op : Op V} {o : V} (hr : Rel s p) (h : VInv s vis)
    (hk : op.key ≠ invId) (hs : BB.step s op = some (s', o))
    (hdel : ∀ i key' val' I', op = .del (s.key i) → i < Nmax → delLoop Nmax s.key s.val i i = some (key', val', I') →
      ∀ j, j < Nmax → j ≠ I' → s.key j ≠ invId → vis (key' j) = vis (s.key j)) :
    VInv s' (p.visStep vis op) := by
  cases op with
  | get k =>
    simp only [BB.step, Option.map_eq_some_iff] at hs
    obtain ⟨_, _, e⟩ := hs
    simp at e; rw [← e.1]; exact h
  | set k v incl =>
    replace hk : k ≠ invId := hk
    simp only [BB.step, BB.set] at hs
    rcases hr.find hk with ⟨v₀, i, hm, hf, hi, hki, hv⟩ | ⟨hm, hno, t, ht, _, _, htk⟩
    · rw [hf] at hs
      simp only [Option.bind_some, hki, if_true, Option.map_some, Option.some.injEq, Prod.mk.injEq] at hs
      obtain ⟨rfl, _⟩ := hs
      simp only [Spec.visStep, hm]
      exact ⟨h.ok, h.bits⟩
    · rw [ht] at hs
      simp only [Option.bind_some, if_neg htk] at hs
      cases ha : add s k v incl with
      | none => simp [ha] at hs
      | some s1 =>
        simp only [ha, Option.map_some, Option.some.injEq, Prod.mk.injEq] at hs
        obtain ⟨rfl, _⟩ := hs
        have := h.add_new hr.inv hk hno ha
        simp only [Spec.visStep, hm, Option.isNone_none, true_and, hr.n]
        exact ⟨this.ok, this.bits⟩
  | exchange k v incl =>
    replace hk : k ≠ invId := hk
    simp only [BB.step, BB.exchange] at hs
    rcases hr.find hk with ⟨v₀, i, hm, hf, hi, hki, hv⟩ | ⟨hm, hno, t, ht, _, _, htk⟩
    · rw [hf] at hs
      simp only [Option.bind_some, hki, if_true, Option.some.injEq, Prod.mk.injEq] at hs
      obtain ⟨rfl, _⟩ := hs
      simp only [Spec.visStep, hm]
      exact ⟨h.ok, h.bits⟩
    · rw [ht] at hs
      simp only [Option.bind_some, if_neg htk] at hs
      cases ha : add s k v incl with
      | none => simp [ha] at hs
      | some s1 =>
        simp only [ha, Option.map_some, Option.some.injEq, Prod.mk.injEq] at hs
        obtain ⟨rfl, _⟩ := hs
        have := h.add_new hr.inv hk hno ha
        simp only [Spec.visStep, hm, Option.isNone_none, true_and, hr.n]
        exact ⟨this.ok, this.bits⟩
  | del k =>
    replace hk : k ≠ invId := hk
    simp only [BB.step] at hs
    rcases hr.find hk with ⟨v₀, i, hm, hf, hi, hki, hv⟩ | ⟨hm, hno, t, ht, _, _, htk⟩
    · obtain ⟨key', val', I', s1, d0, d1, hI', d2, d3, _, d4, d5, _, d6, d7, e4, e5, e6⟩ := del_spec hr.inv hk hi hki
      rw [d1] at hs
      simp at hs
      obtain ⟨rfl, _⟩ := hs
      obtain ⟨b1, b2⟩ := del_bits hI' h.ok d6 d7
      refine ⟨b1, ?_⟩
      intro j hj
      show _ = (_ && vis (s1.key j))
      rw [b2 j, h.bits j hj, d2]
      by_cases hjI : j = I'
      · subst hjI; rw [upd_same]; simp
      · rw [upd_ne _ _ _ _ hjI]
        by_cases hjN : j < Nmax
        · have hocc := e4 j hjN
          by_cases hkj : s.key j = invId
          · have : key' j = invId := by
              by_cases hc : key' j = invId
              · exact hc
              · exact absurd hkj (hocc.mp hc)
            simp [hkj, this]
          · have h1 := hocc.mpr hkj
            have h2 := hdel i key' val' I' (by rw [hki]) hi d0 j hjN hjI hkj
            simp [hjN, hkj, h1, h2, hjI]
        · simp [hjN]
    · unfold del at hs
      rw [ht, Option.bind_some, if_pos htk] at hs
      simp at hs
      obtain ⟨rfl, _⟩ := hs
      exact h

/-- every stored key sits in its home slot -/
def Home (key : Nat → Nat) : Prop := ∀ i, i < Nmax → key i ≠ invId → key i % Nmax = i

theorem delLoop_home : ∀ (fuel : Nat) (key : Nat → Nat) (val : Nat → V) (I j : Nat), Home key → I < Nmax → j < Nmax →
    key I ≠ invId →
    ∀ r, (∃ F, F < Nmax ∧ key F = invId ∧ dist I j < dist I F ) → delLoop fuel key val I j = some r → r = (key, val, I) := by
  intro fuel
  induction fuel with
  | zero => intro key val I j _ _ _ _ r _ h; simp [delLoop] at h
  | succ fuel ih =>
    intro key val I j hh hI hj hkI r hF h
    obtain ⟨F, hF1, hF2, hF3⟩ := hF
    simp only [delLoop] at h
    split at h
    · simp at h; exact h.symm
    · rename_i hne
      have hj' := succ_lt j
      have hd := dist_next hI hF1 hj (succ_cases hj) hF3
      have hjI : (j + 1) % Nmax ≠ I := by
        intro hc; rw [hc, dist_self] at hd; omega
      have hhome := hh _ hj' hne
      have hsc : ¬ shiftCond I ((j + 1) % Nmax) (key ((j + 1) % Nmax) % Nmax) = true := by
        rw [shiftCond_iff hI hj' (mod_lt' _) hjI, hhome, dist_self]; omega
      rw [if_neg hsc] at h
      apply ih key val I _ hh hI hj' hkI r ⟨F, hF1, hF2, ?_⟩ h
      have : dist I F ≠ dist I ((j + 1) % Nmax) := by
        intro hc
        have hFj : F = (j + 1) % Nmax := by
          generalize (j + 1) % Nmax = J at *
          simp only [dist, Nmax] at hc hF1 hj' hI ⊢
          split at hc <;> split at hc <;> omega
        rw [hFj] at hF2; exact hne hF2
      omega

end Verif.BB
