import Verif.Blackboard.Visible
/-!
# C06 - C08: the blackboard

The specification (`Spec`, `SnapshotExact`) is in `Verif/Blackboard/Spec.lean`: a finite map of at most 910
entries.  Keys are attribute ids or the two reserved region keys; none is the invalid id.
-/
namespace Verif.BB

variable {V : Type} [Inhabited V]

/-- C06: for every history, every call returns, and all results (of get and exchange) as well as the number of live
and of skipped entries are those of the map specification. -/
theorem C06_blackboard_refines_map (ops : List (Op V)) (hk : ∀ op ∈ ops, op.key ≠ invId) :
    ∃ s, run init ops = some (s, (Spec.init.run ops).2) ∧
      s.num = (Spec.init.run ops).1.n ∧ s.skipped = (Spec.init.run ops).1.skipped := by
  obtain ⟨s, h1, h2⟩ := Rel.init.run ops hk
  exact ⟨s, h1, h2.n.symm, h2.skipped.symm⟩

/-- C06: after any history, a `get` of any key returns the value the map specification holds for it. -/
theorem C06_get_after_history (ops : List (Op V)) (hk : ∀ op ∈ ops, op.key ≠ invId) (k : Nat) (hk' : k ≠ invId) :
    ∃ s, run init ops = some (s, (Spec.init.run ops).2) ∧
      get s k = some (((Spec.init.run ops).1.m k).getD default) := by
  obtain ⟨s, h1, h2⟩ := Rel.init.run ops hk
  obtain ⟨s', h3, _⟩ := h2.step (.get k) hk'
  refine ⟨s, h1, ?_⟩
  simp only [step, Option.map_eq_some_iff] at h3
  obtain ⟨v, e1, e2⟩ := h3
  simp at e2
  rw [e1, e2.2]; rfl

/-- C06: in any reachable state, an operation on one key does not change what `get` returns for another key. -/
theorem C06_other_keys_unaffected (ops : List (Op V)) (op : Op V) (hk : ∀ o ∈ ops, o.key ≠ invId)
    (hop : op.key ≠ invId) (k : Nat) (hk' : k ≠ invId) (hne : k ≠ op.key) :
    ∃ s os s' o, run init ops = some (s, os) ∧ step s op = some (s', o) ∧ get s' k = get s k := by
  obtain ⟨s, h1, h2⟩ := Rel.init.run ops hk
  obtain ⟨s', h3, h4⟩ := h2.step op hop
  refine ⟨s, _, s', _, h1, h3, ?_⟩
  obtain ⟨_, g1, _⟩ := h2.step (.get k) hk'
  obtain ⟨_, g2, _⟩ := h4.step (.get k) hk'
  simp only [step, Option.map_eq_some_iff] at g1 g2
  obtain ⟨v1, a1, b1⟩ := g1
  obtain ⟨v2, a2, b2⟩ := g2
  simp at b1 b2
  rw [a1, a2, b1.2, b2.2]
  simp only [Spec.step]
  congr 2
  cases op with
  | get j => rfl
  | set j v b =>
    simp only [Op.key] at hne
    simp only [Spec.put]
    split
    · simp [hne]
    · split <;> simp [hne]
  | exchange j v b =>
    simp only [Op.key] at hne
    simp only [Spec.put]
    split
    · simp [hne]
    · split <;> simp [hne]
  | del j =>
    simp only [Op.key] at hne
    simp only [Spec.erase]
    split <;> simp [hne]

/-- colliding keys 1, 1022, 2043 with a deletion from the middle of the cluster -/
def exOps : List (Op Nat) := [.set 1 10 true, .set 1022 20 true, .set 2043 30 true, .set 2 40 true, .del 1, .get 2043, .get 2, .exchange 2 41 true, .get 1]

example : (∀ op ∈ exOps, op.key ≠ invId) ∧ ((Spec.init.run exOps).2 : List Nat) = [0, 0, 0, 0, 0, 30, 40, 40, 0] := by
  decide

/-- C08: every call of every history returns, at most 910 entries are live (so at least 111 slots stay free), and
the number of live entries is the number of occupied slots. -/
theorem C08_capacity_and_termination (ops : List (Op V)) (hk : ∀ op ∈ ops, op.key ≠ invId) :
    ∃ s os, run init ops = some (s, os) ∧ s.num ≤ 910 ∧
      ((List.range 1021).countP fun i => decide (s.key i ≠ invId)) = s.num := by
  obtain ⟨s, h1, h2⟩ := Rel.init.run ops hk
  exact ⟨s, _, h1, h2.inv.cap, h2.inv.num.symm⟩

/-- C08: in any reachable state, storing under a new key either inserts it (if fewer than 910 entries are live) or
changes nothing but the skipped counter, which goes up by exactly one. -/
theorem C08_refused_insert_counted (ops : List (Op V)) (hk : ∀ o ∈ ops, o.key ≠ invId) (k : Nat) (v : V) (incl : Bool)
    (hk' : k ≠ invId) (hnew : (Spec.init.run ops).1.m k = none) (hfull : 910 ≤ (Spec.init.run ops).1.n) :
    ∃ s os s', run init ops = some (s, os) ∧ set s k v incl = some s' ∧
      s'.skipped = s.skipped + 1 ∧ s'.num = s.num ∧ s'.key = s.key ∧ s'.val = s.val ∧ s'.toc = s.toc ∧ s'.toctoc = s.toctoc := by
  obtain ⟨s, h1, h2⟩ := Rel.init.run ops hk
  rcases h2.find hk' with ⟨v₀, i, hm, _⟩ | ⟨hm, hno, t, ht, _, _, htk⟩
  · rw [hnew] at hm; simp at hm
  · obtain ⟨t', s', a1, a2, a3, _, a4⟩ := add_spec h2.inv v incl hk' hno
    rcases a4 with ⟨hc, _⟩ | ⟨_, rfl⟩
    · have := h2.n; omega
    · refine ⟨s, _, { s with skipped := s.skipped + 1, ucount := s.ucount + 1 }, h1, ?_, ?_⟩
      · unfold set
        rw [ht, Option.bind_some, if_neg htk, a1]; rfl
      · exact ⟨rfl, rfl, rfl, rfl, rfl, rfl⟩

/-- histories that fill the table exist: 910 different keys -/
theorem fill_spec (n : Nat) (hn : n ≤ 910) : ∀ (p : Spec Nat) (b : Nat), (∀ k, b ≤ k → p.m k = none) → p.n + n ≤ 910 →
    ((p.run ((List.range' b n).map fun k => (Op.set k 7 true : Op Nat))).1.n = p.n + n ∧
     ∀ k, b + n ≤ k → (p.run ((List.range' b n).map fun k => (Op.set k 7 true : Op Nat))).1.m k = none) := by
  induction n with
  | zero => intro p b h _; exact ⟨rfl, fun k hk => h k (by omega)⟩
  | succ n ih =>
    intro p b h hle
    simp only [List.range'_succ, List.map_cons, Spec.run, Spec.step]
    have e : p.put b 7 = { p with m := fun j => if j = b then some 7 else p.m j, n := p.n + 1 } := by
      simp [Spec.put, h b (by omega), show p.n < 910 by omega]
    rw [e]
    obtain ⟨h1, h2⟩ := ih (by omega) { p with m := fun j => if j = b then some 7 else p.m j, n := p.n + 1 } (b + 1)
      (by intro k hk; simp [show k ≠ b by omega, h k (by omega)]) (by simp; omega)
    constructor
    · rw [h1]; simp; omega
    · intro k hk; exact h2 k (by omega)

example : ∃ (ops : List (Op Nat)) (k : Nat), (∀ o ∈ ops, o.key ≠ invId) ∧ k ≠ invId ∧
    (Spec.init.run ops).1.m k = none ∧ 910 ≤ (Spec.init.run ops).1.n := by
  obtain ⟨h1, h2⟩ := fill_spec 910 (by omega) Spec.init 0 (fun _ _ => rfl) (by simp [Spec.init])
  refine ⟨_, 2000, ?_, by decide, h2 2000 (by omega), ?_⟩
  · intro o ho
    rw [List.mem_map] at ho
    obtain ⟨k, hk, rfl⟩ := ho
    rw [List.mem_range'_1] at hk
    simp only [Op.key, invId]; omega
  · rw [h1]; simp [Spec.init]

/-! ## C07

The full property: for every history, `SnapshotExact (snapshot s) m vis`.  It is false of the code
(`C07_hidden_becomes_visible`, `C07_visible_disappears`): the backward-shift deletion moves entries without moving their bits
in the table of contents.  It holds when all insertions have the same visibility, or when no two keys used collide. -/

/-- C07, partial: histories in which all insertions use the same visibility flag. -/
theorem C07_uniform_visibility_partial (ops : List (Op V)) (hk : ∀ op ∈ ops, op.key ≠ invId) (b : Bool)
    (hb : ∀ op ∈ ops, ∀ b', op.incl? = some b' → b' = b) :
    ∃ s os, run init ops = some (s, os) ∧
      SnapshotExact (snapshot s) (Spec.init.run ops).1.m (fun _ => b) := by
  suffices H : ∀ (ops : List (Op V)) (s : State V) (p : Spec V), (∀ op ∈ ops, op.key ≠ invId) →
      (∀ op ∈ ops, ∀ b', op.incl? = some b' → b' = b) → Rel s p → VInv s (fun _ => b) →
      ∃ s' os, run s ops = some (s', os) ∧ Rel s' (p.run ops).1 ∧ VInv s' (fun _ => b) by
    obtain ⟨s', os, h1, h2, h3⟩ := H ops init Spec.init hk hb Rel.init (VInv.init _)
    exact ⟨s', os, h1, h3.exact h2⟩
  intro ops
  induction ops with
  | nil => intro s p _ _ hr hv; exact ⟨s, [], rfl, hr, hv⟩
  | cons op ops ih =>
    intro s p hk hb hr hv
    obtain ⟨s1, h1, h2⟩ := hr.step op (hk op (by simp))
    have hv1 := hv.step hr (hk op (by simp)) h1 (fun _ _ _ _ _ _ _ _ _ _ _ => rfl)
    have e : p.visStep (fun _ => b) op = fun _ => b := by
      have := hb op (by simp)
      cases op with
      | get k => rfl
      | del k => rfl
      | set k v b' =>
        have := this b' rfl
        subst this
        simp only [Spec.visStep]; split
        · funext j; simp
        · rfl
      | exchange k v b' =>
        have := this b' rfl
        subst this
        simp only [Spec.visStep]; split
        · funext j; simp
        · rfl
    rw [e] at hv1
    obtain ⟨s2, os, h3, h4, h5⟩ := ih s1 _ (fun o ho => hk o (by simp [ho])) (fun o ho => hb o (by simp [ho])) h2 hv1
    exact ⟨s2, (p.step op).2 :: os, by simp only [run, h1, Option.bind_some, h3, Option.map_some], h4, h5⟩

/-- C07, partial: histories with arbitrary visibility flags in which no two different keys have the same remainder mod 1021
(for example, all attribute ids below 1021). -/
theorem C07_collision_free_partial (ops : List (Op V)) (hk : ∀ op ∈ ops, op.key ≠ invId)
    (hcf : ∀ o₁ ∈ ops, ∀ o₂ ∈ ops, o₁.key % 1021 = o₂.key % 1021 → o₁.key = o₂.key) :
    ∃ s os, run init ops = some (s, os) ∧
      SnapshotExact (snapshot s) (Spec.init.run ops).1.m (Spec.init.visRun (fun _ => false) ops) := by
  have Q : ∃ Q : Nat → Prop, (∀ op ∈ ops, Q op.key) ∧ (∀ a b, Q a → Q b → a % Nmax = b % Nmax → a = b) := by
    refine ⟨fun k => ∃ o ∈ ops, o.key = k, fun op h => ⟨op, h, rfl⟩, ?_⟩
    rintro a b ⟨o1, h1, rfl⟩ ⟨o2, h2, rfl⟩ he
    exact hcf o1 h1 o2 h2 he
  obtain ⟨Q, hQ, hQinj⟩ := Q
  suffices H : ∀ (ops : List (Op V)) (s : State V) (p : Spec V) (vis : Nat → Bool), (∀ op ∈ ops, op.key ≠ invId) →
      (∀ op ∈ ops, Q op.key) → Rel s p → VInv s vis → Home s.key → (∀ i, i < Nmax → s.key i ≠ invId → Q (s.key i)) →
      ∃ s' os, run s ops = some (s', os) ∧ Rel s' (p.run ops).1 ∧ VInv s' (p.visRun vis ops) by
    obtain ⟨s', os, h1, h2, h3⟩ := H ops init Spec.init (fun _ => false) hk hQ Rel.init (VInv.init _)
      (fun i _ h => absurd rfl h) (fun i _ h => absurd rfl h)
    exact ⟨s', os, h1, h3.exact h2⟩
  intro ops
  induction ops with
  | nil => intro s p vis _ _ hr hv _ _; exact ⟨s, [], rfl, hr, hv⟩
  | cons op ops ih =>
    intro s p vis hk hq hr hv hh hsq
    obtain ⟨s1, h1, h2⟩ := hr.step op (hk op (by simp))
    have hkop := hk op (by simp)
    have hqop := hq op (by simp)
    -- a deletion moves nothing
    have hnm : ∀ i key' val' I', i < Nmax → s.key i ≠ invId → delLoop Nmax s.key s.val i i = some (key', val', I') →
        key' = s.key ∧ I' = i := by
      intro i key' val' I' hi hki hl
      obtain ⟨F, hF, hFk⟩ := hr.inv.free
      have hFi : F ≠ i := by intro hc; subst hc; exact hki hFk
      have := delLoop_home Nmax s.key s.val i i hh hi hi hki _ ⟨F, hF, hFk, by
        rw [dist_self]
        rcases Nat.eq_zero_or_pos (dist i F) with h0 | h0
        · exact absurd ((dist_eq_zero hi hF).mp h0).symm hFi
        · exact h0⟩ hl
      simp at this
      exact ⟨this.1, this.2.2⟩
    have hv1 := hv.step hr hkop h1 (by
      intro i key' val' I' he hi hl j hj _ _
      have hki : s.key i ≠ invId := by
        have := hkop; rw [he] at this; exact this
      rw [(hnm i key' val' I' hi hki hl).1])
    -- keys stay at home
    have hhome : Home s1.key ∧ ∀ i, i < Nmax → s1.key i ≠ invId → Q (s1.key i) := by
      have addcase : ∀ k v incl s', k ≠ invId → Q k → (∀ i, i < Nmax → s.key i ≠ k) → add s k v incl = some s' →
          Home s'.key ∧ ∀ i, i < Nmax → s'.key i ≠ invId → Q (s'.key i) := by
        intro k v incl s' hk' hq' hno ha
        obtain ⟨t, s'', a1, a2, a3, hff, a4⟩ := add_spec hr.inv v incl hk' hno
        rw [ha] at a1; simp at a1; subst a1
        rcases a4 with ⟨_, e1, _⟩ | ⟨_, rfl⟩
        · have ht : t = k % Nmax := by
            have hfree : s.key (k % Nmax) = invId := by
              by_cases hc : s.key (k % Nmax) = invId
              · exact hc
              · exfalso
                have e := hh _ (mod_lt' k) hc
                exact hno _ (mod_lt' k) (hQinj _ _ (hsq _ (mod_lt' k) hc) hq' e)
            have := findLoop_first s.key invId Nmax (k % Nmax) (k % Nmax) (mod_lt' k) (mod_lt' k) (.inl hfree)
              (by intro x _ hd; rw [dist_self] at hd; omega) (by rw [dist_self]; decide)
            rw [findFree, this] at hff
            simpa using hff.symm
          rw [e1]
          constructor
          · intro i hi hne
            by_cases hit : i = t
            · subst hit; rw [upd_same]; exact ht.symm
            · rw [upd_ne _ _ _ _ hit] at hne ⊢; exact hh i hi hne
          · intro i hi hne
            by_cases hit : i = t
            · subst hit; rw [upd_same]; exact hq'
            · rw [upd_ne _ _ _ _ hit] at hne ⊢; exact hsq i hi hne
        · exact ⟨hh, hsq⟩
      cases op with
      | get k =>
        simp only [step, Option.map_eq_some_iff] at h1
        obtain ⟨_, _, e⟩ := h1
        simp at e; rw [← e.1]; exact ⟨hh, hsq⟩
      | set k v incl =>
        replace hkop : k ≠ invId := hkop
        simp only [step, set] at h1
        rcases hr.find hkop with ⟨v₀, i, hm, hf, hi, hki, hv⟩ | ⟨hm, hno, t, ht, _, _, htk⟩
        · rw [hf] at h1
          simp only [Option.bind_some, hki, if_true, Option.map_some, Option.some.injEq, Prod.mk.injEq] at h1
          obtain ⟨rfl, _⟩ := h1
          exact ⟨hh, hsq⟩
        · rw [ht] at h1
          simp only [Option.bind_some, if_neg htk] at h1
          cases ha : add s k v incl with
          | none => simp [ha] at h1
          | some s3 =>
            simp only [ha, Option.map_some, Option.some.injEq, Prod.mk.injEq] at h1
            obtain ⟨rfl, _⟩ := h1
            exact addcase k v incl s3 hkop hqop hno ha
      | exchange k v incl =>
        replace hkop : k ≠ invId := hkop
        simp only [step, exchange] at h1
        rcases hr.find hkop with ⟨v₀, i, hm, hf, hi, hki, hv⟩ | ⟨hm, hno, t, ht, _, _, htk⟩
        · rw [hf] at h1
          simp only [Option.bind_some, hki, if_true, Option.some.injEq, Prod.mk.injEq] at h1
          obtain ⟨rfl, _⟩ := h1
          exact ⟨hh, hsq⟩
        · rw [ht] at h1
          simp only [Option.bind_some, if_neg htk] at h1
          cases ha : add s k v incl with
          | none => simp [ha] at h1
          | some s3 =>
            simp only [ha, Option.map_some, Option.some.injEq, Prod.mk.injEq] at h1
            obtain ⟨rfl, _⟩ := h1
            exact addcase k v incl s3 hkop hqop hno ha
      | del k =>
        replace hkop : k ≠ invId := hkop
        simp only [step] at h1
        rcases hr.find hkop with ⟨v₀, i, hm, hf, hi, hki, hv⟩ | ⟨hm, hno, t, ht, _, _, htk⟩
        · obtain ⟨key', val', I', s3, d0, d1, hI', d2, d3, _, _⟩ := del_spec hr.inv hkop hi hki
          rw [d1] at h1
          simp at h1
          obtain ⟨rfl, _⟩ := h1
          obtain ⟨e1, e2⟩ := hnm i key' val' I' hi (by rw [hki]; exact hkop) d0
          rw [d2, e1]
          constructor
          · intro j hj hne
            by_cases hjI : j = I'
            · subst hjI; rw [upd_same] at hne; exact absurd rfl hne
            · rw [upd_ne _ _ _ _ hjI] at hne ⊢; exact hh j hj hne
          · intro j hj hne
            by_cases hjI : j = I'
            · subst hjI; rw [upd_same] at hne; exact absurd rfl hne
            · rw [upd_ne _ _ _ _ hjI] at hne ⊢; exact hsq j hj hne
        · unfold del at h1
          rw [ht, Option.bind_some, if_pos htk] at h1
          simp at h1
          obtain ⟨rfl, _⟩ := h1
          exact ⟨hh, hsq⟩
    obtain ⟨s2, os, h3, h4, h5⟩ := ih s1 _ _ (fun o ho => hk o (by simp [ho])) (fun o ho => hq o (by simp [ho]))
      h2 hv1 hhome.1 hhome.2
    exact ⟨s2, (p.step op).2 :: os, by simp only [run, h1, Option.bind_some, h3, Option.map_some], h4, h5⟩

example : (∀ op ∈ exOps, ∀ b', op.incl? = some b' → b' = true) := by decide
/-- mixed visibility without collisions -/
def exOpsCF : List (Op Nat) := [.set 1 10 true, .set 2 20 false, .set 50 30 true, .del 1]
example : (∀ op ∈ exOpsCF, op.key ≠ invId) ∧
    (∀ o₁ ∈ exOpsCF, ∀ o₂ ∈ exOpsCF, o₁.key % 1021 = o₂.key % 1021 → o₁.key = o₂.key) := by
  constructor <;> simp +decide [exOpsCF, Op.key]

/-- C07 is violated by the code: keys 1 (visible) and 1022 (hidden) collide; after deleting key 1 the hidden
entry (value 20) is listed in snapshots. -/
theorem C07_hidden_becomes_visible :
    ∃ s os, run (init : State Nat) [.set 1 10 true, .set 1022 20 false, .del 1] = some (s, os) ∧ snapshot s = [20] :=
  ⟨_, _, rfl, by decide +kernel⟩

/-- C07 is violated by the code: keys 1 (hidden) and 1022 (visible) collide; after deleting key 1 the visible
entry is still stored but no longer listed. -/
theorem C07_visible_disappears :
    ∃ s os, run (init : State Nat) [.set 1 10 false, .set 1022 20 true, .del 1] = some (s, os) ∧
      snapshot s = [] ∧ get s 1022 = some 20 :=
  ⟨_, _, rfl, by decide +kernel, by decide +kernel⟩

end Verif.BB
