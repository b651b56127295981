import Verif.Blackboard.Model
namespace Verif.BB

variable {V : Type} [Inhabited V]

/-- cyclic distance from slot `a` to slot `b` -/
def dist (a b : Nat) : Nat := if a ≤ b then b - a else b + Nmax - a

theorem dist_self (a : Nat) : dist a a = 0 := by simp [dist]

theorem dist_lt {a b : Nat} (ha : a < Nmax) (hb : b < Nmax) : dist a b < Nmax := by
  simp only [dist, Nmax] at *; split <;> omega

theorem dist_eq_zero {a b : Nat} (ha : a < Nmax) (hb : b < Nmax) : dist a b = 0 ↔ a = b := by
  simp only [dist, Nmax] at *; split <;> omega

theorem succ_lt (a : Nat) : (a + 1) % Nmax < Nmax := by simp only [Nmax]; omega

theorem succ_cases {a : Nat} (ha : a < Nmax) :
    ((a + 1) % Nmax = a + 1 ∧ a + 1 < Nmax) ∨ (a + 1 = Nmax ∧ (a + 1) % Nmax = 0) := by
  simp only [Nmax] at *; omega

theorem dist_succ {a x : Nat} (ha : a < Nmax) (hx : x < Nmax) (h : x ≠ a) :
    dist a x = dist ((a + 1) % Nmax) x + 1 := by
  have hc := succ_cases ha
  generalize (a + 1) % Nmax = b at *
  simp only [dist, Nmax] at *
  split <;> split <;> omega

theorem dist_succ_self {a : Nat} (ha : a < Nmax) : dist ((a + 1) % Nmax) a = Nmax - 1 := by
  have hc := succ_cases ha
  generalize (a + 1) % Nmax = b at *
  simp only [dist, Nmax] at *
  split <;> omega

/-- path arithmetic: if the hole `I` lies in the path `[h,i)` and `i` is beyond `j` (seen from `I`), then the
slot after `j` lies in the path too -/
theorem path_after {h I i j J : Nat} (hh : h < Nmax) (hI : I < Nmax) (hi : i < Nmax) (hj : j < Nmax)
    (hJ : (J = j + 1 ∧ j + 1 < Nmax) ∨ (j + 1 = Nmax ∧ J = 0)) (hJi : J ≠ i)
    (hp : dist h I < dist h i) (hs : ¬ dist I i ≤ dist I j) : dist h J < dist h i := by
  simp only [dist, Nmax] at *
  split <;> split <;> (repeat' split at hp) <;> (repeat' split at hs) <;> omega

theorem dist_next {I j J F : Nat} (hI : I < Nmax) (hF : F < Nmax) (hj : j < Nmax)
    (hJ : (J = j + 1 ∧ j + 1 < Nmax) ∨ (j + 1 = Nmax ∧ J = 0)) (hd : dist I j < dist I F) :
    dist I J = dist I j + 1 := by
  simp only [dist, Nmax] at *
  split <;> split <;> (repeat' split at hd) <;> omega

/-- the loop finds the first stopping slot -/
theorem findLoop_first (keys : Nat → Nat) (k : Nat) : ∀ (fuel i t : Nat), i < Nmax → t < Nmax →
    (keys t = k ∨ keys t = invId) →
    (∀ x, x < Nmax → dist i x < dist i t → ¬ (keys x = k ∨ keys x = invId)) →
    dist i t < fuel → findLoop keys k fuel i = some t := by
  intro fuel
  induction fuel with
  | zero => intro i t _ _ _ _ h; omega
  | succ fuel ih =>
    intro i t hi ht hstop hfirst hd
    by_cases hit : t = i
    · subst hit
      simp only [findLoop]
      rw [if_neg (by rcases hstop with h | h <;> simp [h])]
    · have hds := dist_succ hi ht hit
      have hni := hfirst i hi (by rw [dist_self]; omega)
      simp only [findLoop]
      rw [if_pos (by exact ⟨fun h => hni (.inl h), fun h => hni (.inr h)⟩)]
      apply ih _ _ (succ_lt i) ht hstop _ (by omega)
      intro x hx hdx
      by_cases hxi : x = i
      · subst hxi
        rw [dist_succ_self hi] at hdx
        have := dist_lt (succ_lt x) ht
        omega
      · have := dist_succ hi hx hxi
        exact hfirst x hx (by omega)

/-- a minimal stopping slot exists whenever one exists -/
theorem exists_first (P : Nat → Prop) (i : Nat) : ∀ (n F : Nat), F < Nmax → P F → dist i F = n →
    ∃ t, t < Nmax ∧ P t ∧ dist i t ≤ n ∧ ∀ x, x < Nmax → dist i x < dist i t → ¬ P x := by
  intro n
  induction n using Nat.strongRecOn with
  | ind n ih =>
    intro F hF hP hd
    by_cases h : ∃ x, x < Nmax ∧ dist i x < dist i F ∧ P x
    · obtain ⟨x, hx, hdx, hPx⟩ := h
      obtain ⟨t, h1, h2, h3, h4⟩ := ih (dist i x) (by omega) x hx hPx rfl
      exact ⟨t, h1, h2, by omega, h4⟩
    · exact ⟨F, hF, hP, by omega, fun x hx hdx hPx => h ⟨x, hx, hdx, hPx⟩⟩

theorem shiftCond_iff {I j k : Nat} (hI : I < Nmax) (hj : j < Nmax) (hk : k < Nmax) (hne : j ≠ I) :
    shiftCond I j k = true ↔ dist k I < dist k j := by
  simp only [shiftCond, dist, Nmax, Bool.or_eq_true, Bool.and_eq_true, decide_eq_true_eq] at *
  split <;> split <;> omega

theorem countP_range_upd (f g : Nat → Bool) (i : Nat) : ∀ n, i < n → (∀ j, j ≠ i → f j = g j) →
    f i = false → g i = true → (List.range n).countP g = (List.range n).countP f + 1 := by
  intro n
  induction n with
  | zero => intro h; omega
  | succ n ih =>
    intro hi hfg hf hg
    rw [List.range_succ, List.countP_append, List.countP_append]
    by_cases h : i = n
    · subst h
      have : (List.range i).countP g = (List.range i).countP f := by
        apply List.countP_congr
        intro x hx
        rw [List.mem_range] at hx
        rw [hfg x (by omega)]
      simp [this, hf, hg]
    · have := ih (by omega) hfg hf hg
      have e := hfg n (by omega)
      simp [this, e]; omega

theorem exists_false_of_countP_lt (f : Nat → Bool) : ∀ n, (List.range n).countP f < n → ∃ i, i < n ∧ f i = false := by
  intro n
  induction n with
  | zero => intro h; omega
  | succ n ih =>
    intro h
    rw [List.range_succ, List.countP_append] at h
    cases hf : f n with
    | false => exact ⟨n, by omega, hf⟩
    | true =>
      simp [hf] at h
      obtain ⟨i, hi, hfi⟩ := ih (by omega)
      exact ⟨i, by omega, hfi⟩

/-- number of occupied slots -/
def occ (key : Nat → Nat) : Nat := (List.range Nmax).countP fun i => decide (key i ≠ invId)

/-- the hash table invariant: no key twice, every entry reachable from its home slot -/
structure TInv (key : Nat → Nat) : Prop where
  distinct : ∀ i j, i < Nmax → j < Nmax → key i ≠ invId → key i = key j → i = j
  path : ∀ i x, i < Nmax → x < Nmax → key i ≠ invId →
    dist (key i % Nmax) x < dist (key i % Nmax) i → key x ≠ invId

/-- invariant of the blackboard -/
structure Inv (s : State V) : Prop where
  t : TInv s.key
  num : s.num = occ s.key
  cap : s.num ≤ 910

theorem Inv.free {s : State V} (h : Inv s) : ∃ F, F < Nmax ∧ s.key F = invId := by
  have h1 := h.num
  have h2 := h.cap
  obtain ⟨i, hi, hf⟩ := exists_false_of_countP_lt (fun i => decide (s.key i ≠ invId)) Nmax (by
    show occ s.key < Nmax
    simp only [Nmax]; omega)
  exact ⟨i, hi, by simpa using hf⟩

theorem mod_lt' (k : Nat) : k % Nmax < Nmax := Nat.mod_lt _ (by decide)

/-- `find_existing_entry` finds the key if it is stored ... -/
theorem findExisting_present {s : State V} (h : Inv s) {k i : Nat} (hk : k ≠ invId) (hi : i < Nmax)
    (hki : s.key i = k) : findExisting s k = some i := by
  apply findLoop_first _ _ _ _ _ (mod_lt' k) hi (.inl hki)
  · intro x hx hd hc
    rcases hc with hc | hc
    · have := h.t.distinct x i hx hi (by rw [hc]; exact hk) (by rw [hc, hki])
      subst this; omega
    · have : dist (s.key i % Nmax) x < dist (s.key i % Nmax) i := by rw [hki]; exact hd
      exact h.t.path i x hi hx (by rw [hki]; exact hk) this hc
  · exact dist_lt (mod_lt' k) hi

/-- ... and otherwise a free slot. -/
theorem findExisting_absent {s : State V} (h : Inv s) {k : Nat}
    (hno : ∀ i, i < Nmax → s.key i ≠ k) :
    ∃ t, findExisting s k = some t ∧ t < Nmax ∧ s.key t = invId := by
  obtain ⟨F, hF, hFk⟩ := h.free
  obtain ⟨t, ht, hPt, _, hmin⟩ := exists_first (fun x => s.key x = k ∨ s.key x = invId) (k % Nmax) _ F hF (.inr hFk) rfl
  refine ⟨t, findLoop_first _ _ _ _ _ (mod_lt' k) ht hPt hmin (dist_lt (mod_lt' k) ht), ht, ?_⟩
  exact hPt.resolve_left (hno t ht)

theorem findFree_spec {s : State V} (h : Inv s) (k : Nat) :
    ∃ t, findFree s k = some t ∧ t < Nmax ∧ s.key t = invId ∧
      ∀ x, x < Nmax → dist (k % Nmax) x < dist (k % Nmax) t → s.key x ≠ invId := by
  obtain ⟨F, hF, hFk⟩ := h.free
  obtain ⟨t, ht, hPt, _, hmin⟩ := exists_first (fun x => s.key x = invId ∨ s.key x = invId) (k % Nmax) _ F hF (.inr hFk) rfl
  refine ⟨t, findLoop_first _ _ _ _ _ (mod_lt' k) ht hPt hmin (dist_lt (mod_lt' k) ht), ht, ?_, ?_⟩
  · simpa using hPt
  · intro x hx hd hc; exact hmin x hx hd (.inl hc)

theorem upd_same {β : Type} (f : Nat → β) (i : Nat) (x : β) : upd f i x i = x := by simp [upd]
theorem upd_ne {β : Type} (f : Nat → β) (i j : Nat) (x : β) (h : j ≠ i) : upd f i x j = f j := by simp [upd, h]

/-- inserting at the first free slot of the probe sequence keeps the table invariant -/
theorem TInv.insert {key : Nat → Nat} (h : TInv key) {k t : Nat} (_hk : k ≠ invId) (ht : t < Nmax)
    (hfree : key t = invId) (hno : ∀ i, i < Nmax → key i ≠ k)
    (hmin : ∀ x, x < Nmax → dist (k % Nmax) x < dist (k % Nmax) t → key x ≠ invId) :
    TInv (upd key t k) := by
  constructor
  · intro i j hi hj hne heq
    by_cases hit : i = t
    · by_cases hjt : j = t
      · omega
      · subst hit
        rw [upd_same, upd_ne _ _ _ _ hjt] at heq
        exact absurd heq.symm (hno j hj)
    · rw [upd_ne _ _ _ _ hit] at heq hne
      by_cases hjt : j = t
      · subst hjt
        rw [upd_same] at heq
        exact absurd heq (hno i hi)
      · rw [upd_ne _ _ _ _ hjt] at heq
        exact h.distinct i j hi hj hne heq
  · intro i x hi hx hne hd
    by_cases hxt : x = t
    · subst hxt; rw [upd_same]; exact _hk
    · rw [upd_ne _ _ _ _ hxt]
      by_cases hit : i = t
      · subst hit
        rw [upd_same] at hd
        exact hmin x hx hd
      · rw [upd_ne _ _ _ _ hit] at hd hne
        exact h.path i x hi hx hne hd

theorem occ_insert {key : Nat → Nat} {k t : Nat} (hk : k ≠ invId) (ht : t < Nmax) (hfree : key t = invId) :
    occ (upd key t k) = occ key + 1 := by
  apply countP_range_upd _ _ t Nmax ht
  · intro j hj; rw [upd_ne _ _ _ _ hj]
  · simp [hfree]
  · simp [upd_same, hk]

theorem occ_remove {key : Nat → Nat} {t : Nat} (ht : t < Nmax) (h : key t ≠ invId) :
    occ key = occ (upd key t invId) + 1 := by
  apply countP_range_upd _ _ t Nmax ht
  · intro j hj; rw [upd_ne _ _ _ _ hj]
  · simp [upd_same]
  · simp [h]

/-- loop invariant of `del` with hole `I` and cursor `j`; `key` still has a stale entry at `I` -/
structure DInv (key : Nat → Nat) (I j : Nat) : Prop where
  occI : key I ≠ invId
  distinct : ∀ a b, a < Nmax → b < Nmax → a ≠ I → b ≠ I → key a ≠ invId → key a = key b → a = b
  path : ∀ i x, i < Nmax → x < Nmax → i ≠ I → key i ≠ invId →
    dist (key i % Nmax) x < dist (key i % Nmax) i → key x ≠ invId
  scanned : ∀ i, i < Nmax → i ≠ I → dist I i ≤ dist I j → key i ≠ invId ∧
    ¬ dist (key i % Nmax) I < dist (key i % Nmax) i

/-- what the loop of `del` preserves about the contents: entries outside the hole -/
def holdsEx (key : Nat → Nat) (val : Nat → V) (I k : Nat) (v : V) : Prop :=
  ∃ i, i < Nmax ∧ i ≠ I ∧ key i = k ∧ val i = v

theorem delLoop_spec : ∀ (fuel : Nat) (key : Nat → Nat) (val : Nat → V) (I j F : Nat),
    I < Nmax → j < Nmax → F < Nmax → key F = invId → dist I j < dist I F → dist j F ≤ fuel → DInv key I j →
    ∃ key' val' I', delLoop fuel key val I j = some (key', val', I') ∧ I' < Nmax ∧
      TInv (upd key' I' invId) ∧
      (∀ i, i < Nmax → (key' i ≠ invId ↔ key i ≠ invId)) ∧ key' I' ≠ invId ∧
      (∀ k v, k ≠ invId → (holdsEx key' val' I' k v ↔ holdsEx key val I k v)) := by
  intro fuel
  induction fuel with
  | zero =>
    intro key val I j F hI hj hF hFk hd hfuel _
    have : j = F := (dist_eq_zero hj hF).mp (by omega)
    subst this; omega
  | succ fuel ih =>
    intro key val I j F hI hj hF hFk hd hfuel hD
    have hjF : F ≠ j := by intro h; subst h; omega
    have hFI : F ≠ I := by intro h; subst h; exact hD.occI hFk
    have hdj := dist_succ hj hF hjF
    have hj' := succ_lt j
    simp only [delLoop]
    by_cases hfree : key ((j + 1) % Nmax) = invId
    · rw [if_pos hfree]
      refine ⟨key, val, I, rfl, hI, ?_, fun _ _ => Iff.rfl, hD.occI, fun _ _ _ => Iff.rfl⟩
      have hjne : (j + 1) % Nmax ≠ I := by intro h; rw [h] at hfree; exact hD.occI hfree
      constructor
      · intro a b ha hb hne heq
        by_cases haI : a = I
        · subst haI; rw [upd_same] at hne; exact absurd rfl hne
        · rw [upd_ne _ _ _ _ haI] at hne heq
          by_cases hbI : b = I
          · subst hbI; rw [upd_same] at heq; exact absurd heq hne
          · rw [upd_ne _ _ _ _ hbI] at heq
            exact hD.distinct a b ha hb haI hbI hne heq
      · intro i x hi hx hne hdx
        by_cases hiI : i = I
        · subst hiI; rw [upd_same] at hne; exact absurd rfl hne
        · rw [upd_ne _ _ _ _ hiI] at hne hdx
          by_cases hxI : x = I
          · subst hxI
            exfalso
            -- the entry at `i` has the hole in its path; then `i` lies in the scanned range
            by_cases hsc : dist x i ≤ dist x j
            · exact (hD.scanned i hi hiI hsc).2 hdx
            · have hpf := hD.path i ((j + 1) % Nmax) hi hj' hiI hne
              apply hpf _ hfree
              -- dist h (j+1) < dist h i
              have hh := mod_lt' (key i)
              have hij : (j + 1) % Nmax ≠ i := by intro h; rw [h] at hfree; exact hne hfree
              exact path_after hh hI hi hj (succ_cases hj) hij hdx hsc
          · rw [upd_ne _ _ _ _ hxI]
            exact hD.path i x hi hx hiI hne hdx
    · rw [if_neg hfree]
      have hj'F : F ≠ (j + 1) % Nmax := by intro h; rw [h] at hFk; exact hfree hFk
      have hd' : dist I ((j + 1) % Nmax) = dist I j + 1 := dist_next hI hF hj (succ_cases hj) hd
      have hj'I : (j + 1) % Nmax ≠ I := by
        intro h; rw [h, dist_self] at hd'; omega
      have hk := mod_lt' (key ((j + 1) % Nmax))
      by_cases hsh : shiftCond I ((j + 1) % Nmax) (key ((j + 1) % Nmax) % Nmax) = true
      · rw [if_pos hsh]
        rw [shiftCond_iff hI hj' hk hj'I] at hsh
        generalize hJ : (j + 1) % Nmax = J at *
        have hD' : DInv (upd key I (key J)) J J := by
          constructor
          · rw [upd_ne _ _ _ _ hj'I]; exact hfree
          · intro a b ha hb haJ hbJ hne heq
            by_cases haI : a = I
            · subst haI
              by_cases hba : b = a
              · exact hba.symm
              · rw [upd_same, upd_ne _ _ _ _ hba] at heq
                rw [upd_same] at hne
                exact absurd (hD.distinct J b hj' hb hj'I hba hne heq).symm hbJ
            · rw [upd_ne _ _ _ _ haI] at hne heq
              by_cases hbI : b = I
              · subst hbI
                rw [upd_same] at heq
                exact absurd (hD.distinct a J ha hj' haI hj'I hne heq) haJ
              · rw [upd_ne _ _ _ _ hbI] at heq
                exact hD.distinct a b ha hb haI hbI hne heq
          · intro i x hi hx hiJ hne hdx
            by_cases hxI : x = I
            · subst hxI; rw [upd_same]; exact hfree
            · rw [upd_ne _ _ _ _ hxI]
              by_cases hiI : i = I
              · subst hiI
                rw [upd_same] at hdx
                exact hD.path J x hj' hx hj'I hfree (by omega)
              · rw [upd_ne _ _ _ _ hiI] at hdx hne
                exact hD.path i x hi hx hiI hne hdx
          · intro i hi hiJ hdi
            rw [dist_self] at hdi
            exact absurd ((dist_eq_zero hj' hi).mp (by omega)).symm hiJ
        have hJF : dist J J < dist J F := by
          rw [dist_self]
          rcases Nat.eq_zero_or_pos (dist J F) with h | h
          · exact absurd ((dist_eq_zero hj' hF).mp h).symm hj'F
          · exact h
        obtain ⟨key', val', I', e1, e2, e3, e4, e5, e6⟩ :=
          ih (upd key I (key J)) (upd val I (val J)) J J F hj' hj' hF
            (by rw [upd_ne _ _ _ _ hFI]; exact hFk) hJF (by omega) hD'
        refine ⟨key', val', I', e1, e2, e3, ?_, e5, ?_⟩
        · intro i hi
          rw [e4 i hi]
          by_cases hiI : i = I
          · subst hiI; rw [upd_same]; simp [hfree, hD.occI]
          · rw [upd_ne _ _ _ _ hiI]
        · intro k v hkv
          rw [e6 k v hkv]
          constructor
          · rintro ⟨i, hi, hiJ, h1, h2⟩
            by_cases hiI : i = I
            · subst hiI
              rw [upd_same] at h1 h2
              exact ⟨J, hj', hj'I, h1, h2⟩
            · rw [upd_ne _ _ _ _ hiI] at h1 h2
              exact ⟨i, hi, hiI, h1, h2⟩
          · rintro ⟨i, hi, hiI, h1, h2⟩
            by_cases hiJ : i = J
            · subst hiJ
              exact ⟨I, hI, fun h => hiI h.symm, by rw [upd_same]; exact h1, by rw [upd_same]; exact h2⟩
            · exact ⟨i, hi, hiJ, by rw [upd_ne _ _ _ _ hiI]; exact h1, by rw [upd_ne _ _ _ _ hiI]; exact h2⟩
      · rw [if_neg hsh]
        rw [shiftCond_iff hI hj' hk hj'I] at hsh
        generalize hJ : (j + 1) % Nmax = J at *
        apply ih key val I J F hI hj' hF hFk _ (by omega)
        · constructor
          · exact hD.occI
          · exact hD.distinct
          · exact hD.path
          · intro i hi hiI hdi
            by_cases hiJ : i = J
            · subst hiJ; exact ⟨hfree, hsh⟩
            · apply hD.scanned i hi hiI
              have : dist I i ≠ dist I J := by
                intro h
                apply hiJ
                simp only [dist, Nmax] at h hi hj' hI ⊢
                split at h <;> split at h <;> omega
              omega
        · have : dist I F ≠ dist I J := by
            intro h
            apply hj'F
            simp only [dist, Nmax] at h hF hj' hI ⊢
            split at h <;> split at h <;> omega
          omega

end Verif.BB
