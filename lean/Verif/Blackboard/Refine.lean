import Verif.Blackboard.Lemmas
import Verif.Blackboard.Spec
namespace Verif.BB

variable {V : Type} [Inhabited V]

/-- simulation relation between table and map -/
structure Rel (s : State V) (p : Spec V) : Prop where
  inv : Inv s
  map : ∀ k v, k ≠ invId → (p.m k = some v ↔ ∃ i, i < Nmax ∧ s.key i = k ∧ s.val i = v)
  n : p.n = s.num
  skipped : p.skipped = s.skipped

theorem occ_zero : occ (fun _ => invId) = 0 := by
  unfold occ
  rw [List.countP_eq_zero]; simp

theorem Inv.init : Inv (BB.init : State V) := by
  refine ⟨⟨?_, ?_⟩, ?_, ?_⟩
  · intro i j _ _ h; exact absurd rfl h
  · intro i x _ _ h; exact absurd rfl h
  · exact occ_zero.symm
  · exact Nat.zero_le _

theorem Rel.init : Rel (BB.init : State V) Spec.init := by
  refine ⟨Inv.init, ?_, rfl, rfl⟩
  intro k v hk
  simp only [Spec.init, BB.init]
  constructor
  · intro h; simp at h
  · rintro ⟨i, _, h, _⟩; exact absurd h.symm hk

/-- key present or absent, as seen by `findExisting` -/
theorem Rel.find {s : State V} {p : Spec V} (h : Rel s p) {k : Nat} (hk : k ≠ invId) :
    (∃ v i, p.m k = some v ∧ findExisting s k = some i ∧ i < Nmax ∧ s.key i = k ∧ s.val i = v) ∨
    (p.m k = none ∧ (∀ i, i < Nmax → s.key i ≠ k) ∧
      ∃ t, findExisting s k = some t ∧ t < Nmax ∧ s.key t = invId ∧ s.key t ≠ k) := by
  cases hm : p.m k with
  | some v =>
    obtain ⟨i, hi, h1, h2⟩ := (h.map k v hk).mp hm
    exact .inl ⟨v, i, rfl, findExisting_present h.inv hk hi h1, hi, h1, h2⟩
  | none =>
    have hno : ∀ i, i < Nmax → s.key i ≠ k := by
      intro i hi hc
      have := (h.map k (s.val i) hk).mpr ⟨i, hi, hc, rfl⟩
      simp [hm] at this
    obtain ⟨t, h1, h2, h3⟩ := findExisting_absent h.inv hno
    exact .inr ⟨rfl, hno, t, h1, h2, h3, hno t h2⟩

/-- the key and value arrays of `add` -/
theorem add_spec {s : State V} (h : Inv s) {k : Nat} (v : V) (incl : Bool) (hk : k ≠ invId)
    (hno : ∀ i, i < Nmax → s.key i ≠ k) :
    ∃ t s', add s k v incl = some s' ∧ t < Nmax ∧ s.key t = invId ∧ findFree s k = some t ∧
      ((s.num < 910 ∧ s'.key = upd s.key t k ∧ s'.val = upd s.val t v ∧ s'.num = s.num + 1 ∧
          s'.skipped = s.skipped ∧ s'.ucount = s.ucount ∧ Inv s') ∨
       (¬ s.num < 910 ∧ s' = { s with skipped := s.skipped + 1 })) := by
  obtain ⟨t, h1, h2, h3, h4⟩ := findFree_spec h k
  unfold add
  rw [h1, Option.map_some]
  refine ⟨t, _, rfl, h2, h3, rfl, ?_⟩
  by_cases hc : s.num < 910
  · left
    rw [if_neg (by simp only [Nmax]; omega)]
    have e : ∀ (s' : State V), s'.key = upd s.key t k → s'.num = s.num + 1 → Inv s' := by
      intro s' e1 e2
      refine ⟨?_, ?_, ?_⟩
      · rw [e1]; exact h.t.insert hk h2 h3 hno h4
      · rw [e1, e2, occ_insert hk h2 h3, h.num]
      · omega
    cases incl
    · exact ⟨hc, rfl, rfl, rfl, rfl, rfl, e _ rfl rfl⟩
    · exact ⟨hc, rfl, rfl, rfl, rfl, rfl, e _ rfl rfl⟩
  · right
    rw [if_pos (by simp only [Nmax]; omega)]
    exact ⟨hc, rfl⟩

theorem map_upd {s : State V} {p : Spec V} (h : Rel s p) {k : Nat} {v : V} {i : Nat}
    (hi : i < Nmax) (key' : Nat → Nat) (val' : Nat → V) (hk' : key' i = k)
    (hother : ∀ j, j < Nmax → j ≠ i → key' j = s.key j) (hv : val' = upd s.val i v)
    (hnk : s.key i = k ∨ s.key i = invId) (hno : ∀ j, j < Nmax → j ≠ i → s.key j ≠ k) (k2 : Nat) (v2 : V) (hk2 : k2 ≠ invId) :
    ((if k2 = k then some v else p.m k2) = some v2 ↔ ∃ j, j < Nmax ∧ key' j = k2 ∧ val' j = v2) := by
  by_cases hkk : k2 = k
  · subst hkk
    rw [if_pos rfl]
    constructor
    · intro e
      simp at e; subst e
      exact ⟨i, hi, hk', by rw [hv, upd_same]⟩
    · rintro ⟨j, hj, h1, h2⟩
      by_cases hji : j = i
      · subst hji; rw [hv, upd_same] at h2; rw [h2]
      · rw [hother j hj hji] at h1
        exact absurd h1 (hno j hj hji)
  · rw [if_neg hkk, h.map k2 v2 hk2]
    constructor
    · rintro ⟨j, hj, h1, h2⟩
      have hji : j ≠ i := by
        intro hc; subst hc
        rcases hnk with h3 | h3
        · exact hkk (by rw [← h1, h3])
        · exact hk2 (by rw [← h1, h3])
      exact ⟨j, hj, by rw [hother j hj hji]; exact h1, by rw [hv, upd_ne _ _ _ _ hji]; exact h2⟩
    · rintro ⟨j, hj, h1, h2⟩
      have hji : j ≠ i := by
        intro hc; subst hc
        exact hkk (by rw [← h1, hk'])
      rw [hother j hj hji] at h1
      rw [hv, upd_ne _ _ _ _ hji] at h2
      exact ⟨j, hj, h1, h2⟩

/-- storing a value at an existing key -/
theorem Rel.overwrite {s : State V} {p : Spec V} (h : Rel s p) {k i : Nat} {v₀ : V} (v : V) (hk : k ≠ invId)
    (hm : p.m k = some v₀) (hi : i < Nmax) (hki : s.key i = k) (u : Nat) :
    Rel { s with val := upd s.val i v, ucount := u } (p.put k v) := by
  have e : p.put k v = { p with m := fun j => if j = k then some v else p.m j } := by simp [Spec.put, hm]
  rw [e]
  refine ⟨⟨h.inv.t, h.inv.num, h.inv.cap⟩, ?_, h.n, h.skipped⟩
  intro k2 v2 hk2
  apply map_upd h hi s.key _ hki (fun _ _ _ => rfl) rfl (.inl hki) _ k2 v2 hk2
  intro j hj hji hc
  exact hji (h.inv.t.distinct j i hj hi (by rw [hc]; exact hk) (by rw [hc, hki]))

/-- adding a new key -/
theorem Rel.addNew {s : State V} {p : Spec V} (h : Rel s p) {k : Nat} (v : V) (incl : Bool) (hk : k ≠ invId)
    (hm : p.m k = none) (hno : ∀ i, i < Nmax → s.key i ≠ k) (u : Nat) :
    ∃ s', add s k v incl = some s' ∧ Rel { s' with ucount := u } (p.put k v) := by
  obtain ⟨t, s', h1, h2, h3, _, h4⟩ := add_spec h.inv v incl hk hno
  refine ⟨s', h1, ?_⟩
  rcases h4 with ⟨hc, e1, e2, e3, e4, _, hi⟩ | ⟨hc, rfl⟩
  · have e : p.put k v = { p with m := fun j => if j = k then some v else p.m j, n := p.n + 1 } := by
      have : p.n < 910 := by rw [h.n]; exact hc
      simp [Spec.put, hm, this]
    rw [e]
    refine ⟨⟨hi.t, hi.num, hi.cap⟩, ?_, by simp [e3, h.n], by simp [e4, h.skipped]⟩
    intro k2 v2 hk2
    apply map_upd h h2 s'.key _ (by rw [e1, upd_same]) (fun j _ hj => by rw [e1, upd_ne _ _ _ _ hj]) e2
      (.inr h3) (fun j hj _ => hno j hj) k2 v2 hk2
  · have e : p.put k v = { p with skipped := p.skipped + 1 } := by
      have : ¬ p.n < 910 := by rw [h.n]; exact hc
      simp [Spec.put, hm, this]
    rw [e]
    exact ⟨⟨h.inv.t, h.inv.num, h.inv.cap⟩, h.map, h.n, by simp [h.skipped]⟩

theorem del_spec {s : State V} (h : Inv s) {k i : Nat} (hk : k ≠ invId) (hi : i < Nmax) (hki : s.key i = k) :
    ∃ key' val' I' s', delLoop Nmax s.key s.val i i = some (key', val', I') ∧ del s k = some s' ∧ I' < Nmax ∧
      s'.key = upd key' I' invId ∧ s'.val = upd val' I' default ∧ Inv s' ∧ s'.num = s.num - 1 ∧
      s'.skipped = s.skipped ∧ 0 < s.num ∧
      s'.toc = upd s.toc (I' / 32) (s.toc (I' / 32) &&& ~~~(1#32 <<< (I' % 32))) ∧
      s'.toctoc = (if s'.toc (I' / 32) = 0 then s.toctoc &&& ~~~(1#32 <<< (I' / 32)) else s.toctoc) ∧
      (∀ j, j < Nmax → (key' j ≠ invId ↔ s.key j ≠ invId)) ∧ key' I' ≠ invId ∧
      (∀ k v, k ≠ invId → (holdsEx key' val' I' k v ↔ holdsEx s.key s.val i k v)) := by
  obtain ⟨F, hF, hFk⟩ := h.free
  have hFi : F ≠ i := by intro hc; subst hc; exact hk (by rw [← hki, hFk])
  have hD : DInv s.key i i := by
    refine ⟨by rw [hki]; exact hk, ?_, ?_, ?_⟩
    · intro a b ha hb _ _ hne heq; exact h.t.distinct a b ha hb hne heq
    · intro a x ha hx _ hne hd; exact h.t.path a x ha hx hne hd
    · intro a ha hai hd
      rw [dist_self] at hd
      exact absurd ((dist_eq_zero hi ha).mp (by omega)).symm hai
  have hpos : dist i i < dist i F := by
    rw [dist_self]
    rcases Nat.eq_zero_or_pos (dist i F) with h0 | h0
    · exact absurd ((dist_eq_zero hi hF).mp h0).symm hFi
    · exact h0
  obtain ⟨key', val', I', e1, e2, e3, e4, e5, e6⟩ :=
    delLoop_spec Nmax s.key s.val i i F hi hi hF hFk hpos (Nat.le_of_lt (dist_lt hi hF)) hD
  have hocc : occ key' = occ s.key := by
    unfold occ
    apply List.countP_congr
    intro x hx
    simpa using e4 x (List.mem_range.mp hx)
  have hrem := occ_remove e2 e5
  have hdel : ∃ s', del s k = some s' ∧ s'.key = upd key' I' invId ∧ s'.val = upd val' I' default ∧ s'.num = s.num - 1 ∧
      s'.skipped = s.skipped ∧
      s'.toc = upd s.toc (I' / 32) (s.toc (I' / 32) &&& ~~~(1#32 <<< (I' % 32))) ∧
      s'.toctoc = (if s'.toc (I' / 32) = 0 then s.toctoc &&& ~~~(1#32 <<< (I' / 32)) else s.toctoc) := by
    unfold del
    rw [findExisting_present h hk hi hki, Option.bind_some, if_neg (by simp [hki]), e1, Option.map_some]
    exact ⟨_, rfl, rfl, rfl, rfl, rfl, rfl, rfl⟩
  obtain ⟨s', d1, d2, d3, d4, d5, d6, d7⟩ := hdel
  have hnum := h.num
  have hcap := h.cap
  refine ⟨key', val', I', s', e1, d1, e2, d2, d3, ⟨?_, ?_, ?_⟩, d4, d5, ?_, d6, d7, e4, e5, e6⟩
  · rw [d2]; exact e3
  · rw [d2, d4]; omega
  · rw [d4]; omega
  · omega

theorem Rel.delete {s : State V} {p : Spec V} (h : Rel s p) {k : Nat} (hk : k ≠ invId) :
    ∃ s', del s k = some s' ∧ Rel s' (p.erase k) := by
  rcases h.find hk with ⟨v₀, i, hm, _, hi, hki, _⟩ | ⟨hm, hno, t, ht, _, _, htk⟩
  · obtain ⟨key', val', I', s', _, d1, hI', d2, d3, hInv, d4, d5, _, _, _, e4, e5, e6⟩ := del_spec h.inv hk hi hki
    refine ⟨s', d1, ?_⟩
    have e : p.erase k = { p with m := fun j => if j = k then none else p.m j, n := p.n - 1 } := by
      simp [Spec.erase, hm]
    rw [e]
    refine ⟨hInv, ?_, by simp [d4, h.n], by simp [d5, h.skipped]⟩
    intro k2 v2 hk2
    have hA : (∃ j, j < Nmax ∧ s'.key j = k2 ∧ s'.val j = v2) ↔ holdsEx key' val' I' k2 v2 := by
      rw [d2, d3]
      constructor
      · rintro ⟨j, hj, h1, h2⟩
        have hjI : j ≠ I' := by intro hc; subst hc; rw [upd_same] at h1; exact hk2 h1.symm
        rw [upd_ne _ _ _ _ hjI] at h1 h2
        exact ⟨j, hj, hjI, h1, h2⟩
      · rintro ⟨j, hj, hjI, h1, h2⟩
        exact ⟨j, hj, by rw [upd_ne _ _ _ _ hjI]; exact h1, by rw [upd_ne _ _ _ _ hjI]; exact h2⟩
    rw [hA, e6 k2 v2 hk2]
    show (if k2 = k then none else p.m k2) = some v2 ↔ _
    by_cases hkk : k2 = k
    · subst hkk
      rw [if_pos rfl]
      constructor
      · intro hc; simp at hc
      · rintro ⟨j, hj, hji, h1, _⟩
        exact absurd (h.inv.t.distinct j i hj hi (by rw [h1]; exact hk) (by rw [h1, hki])) hji
    · rw [if_neg hkk, h.map k2 v2 hk2]
      constructor
      · rintro ⟨j, hj, h1, h2⟩
        exact ⟨j, hj, by intro hc; subst hc; exact hkk (by rw [← h1, hki]), h1, h2⟩
      · rintro ⟨j, hj, _, h1, h2⟩; exact ⟨j, hj, h1, h2⟩
  · refine ⟨s, ?_, ?_⟩
    · unfold del; rw [ht, Option.bind_some, if_pos htk]
    · have e : p.erase k = p := by simp [Spec.erase, hm]
      rw [e]; exact h

/-- one operation preserves the simulation and has the specified result -/
theorem Rel.step {s : State V} {p : Spec V} (h : Rel s p) (op : Op V) (hk : op.key ≠ invId) :
    ∃ s', BB.step s op = some (s', (p.step op).2) ∧ Rel s' (p.step op).1 := by
  cases op with
  | get k =>
    replace hk : k ≠ invId := hk
    refine ⟨s, ?_, h⟩
    simp only [BB.step, BB.get, Spec.step]
    rcases h.find hk with ⟨v₀, i, hm, hf, hi, hki, hv⟩ | ⟨hm, hno, t, ht, _, _, htk⟩
    · simp [hf, hki, hv, hm]
    · simp [ht, htk, hm]
  | set k v incl =>
    replace hk : k ≠ invId := hk
    simp only [BB.step, BB.set, Spec.step]
    rcases h.find hk with ⟨v₀, i, hm, hf, hi, hki, hv⟩ | ⟨hm, hno, t, ht, _, _, htk⟩
    · rw [hf]
      simp only [Option.bind_some, hki, if_true, Option.map_some]
      exact ⟨_, rfl, h.overwrite v hk hm hi hki _⟩
    · rw [ht]
      simp only [Option.bind_some, if_neg htk]
      obtain ⟨s', h1, _⟩ := h.addNew v incl hk hm hno 0
      obtain ⟨s'', h2, h3⟩ := h.addNew v incl hk hm hno (s'.ucount + 1)
      rw [h1] at h2; simp at h2; subst h2
      rw [h1]
      exact ⟨_, rfl, h3⟩
  | del k =>
    replace hk : k ≠ invId := hk
    obtain ⟨s', h1, h2⟩ := h.delete hk
    refine ⟨s', ?_, h2⟩
    simp only [BB.step, Spec.step]
    rw [h1]; rfl
  | exchange k v incl =>
    replace hk : k ≠ invId := hk
    simp only [BB.step, BB.exchange, Spec.step]
    rcases h.find hk with ⟨v₀, i, hm, hf, hi, hki, hv⟩ | ⟨hm, hno, t, ht, _, _, htk⟩
    · rw [hf]
      simp only [Option.bind_some, hki, if_true]
      refine ⟨_, ?_, h.overwrite v hk hm hi hki (s.ucount + 1)⟩
      simp [hm, hv]
    · rw [ht]
      simp only [Option.bind_some, if_neg htk]
      obtain ⟨s', h1, _⟩ := h.addNew v incl hk hm hno 0
      obtain ⟨s'', h2, h3⟩ := h.addNew v incl hk hm hno (s'.ucount + 1)
      rw [h1] at h2; simp at h2; subst h2
      rw [h1]
      refine ⟨_, ?_, h3⟩
      simp [hm]

theorem Rel.run {s : State V} {p : Spec V} (h : Rel s p) (ops : List (Op V)) (hk : ∀ op ∈ ops, op.key ≠ invId) :
    ∃ s', BB.run s ops = some (s', (p.run ops).2) ∧ Rel s' (p.run ops).1 := by
  induction ops generalizing s p with
  | nil => exact ⟨s, rfl, h⟩
  | cons op ops ih =>
    obtain ⟨s1, h1, h2⟩ := h.step op (hk op (by simp))
    obtain ⟨s2, h3, h4⟩ := ih h2 (fun o ho => hk o (by simp [ho]))
    refine ⟨s2, ?_, h4⟩
    simp only [BB.run, h1, Option.bind_some, h3, Option.map_some, Spec.run]

end Verif.BB
