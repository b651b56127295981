import Verif.Mpi.Model
import Mathlib.Algebra.BigOperators.Group.Finset.Basic
import Mathlib.Algebra.Order.BigOperators.Group.Finset
import Mathlib.Tactic.Ring
/-!
# C48 — aggregation over ranks
-/
namespace Verif.Mpi
variable {α : Type}

/-! ### powers of two -/

def Pow (s : Nat) : Prop := ∃ k, s = 2 ^ k

theorem Pow.one : Pow 1 := ⟨0, rfl⟩
theorem Pow.dbl {s : Nat} (h : Pow s) : Pow (s * 2) := by obtain ⟨k, rfl⟩ := h; exact ⟨k + 1, by rw [Nat.pow_succ]⟩
theorem Pow.pos {s : Nat} (h : Pow s) : 0 < s := by obtain ⟨k, rfl⟩ := h; exact Nat.pos_of_ne_zero (by simp)

theorem Pow.dvd {s s' : Nat} (h : Pow s) (h' : Pow s') (hlt : s < s') : 2 * s ∣ s' := by
  obtain ⟨k, rfl⟩ := h
  obtain ⟨k', rfl⟩ := h'
  have : k < k' := (Nat.pow_lt_pow_iff_right (by omega)).1 hlt
  have h2 : 2 * 2 ^ k = 2 ^ (k + 1) := by rw [Nat.pow_succ]; omega
  rw [h2]
  exact Nat.pow_dvd_pow 2 this

/-- rank `a` sends in step `s` -/
def Sends (a s : Nat) : Prop := Pow s ∧ a % s = 0 ∧ a % (2 * s) ≠ 0

theorem Sends.unique {a s s' : Nat} (h : Sends a s) (h' : Sends a s') : s = s' := by
  obtain ⟨h1, h2, h3⟩ := h
  obtain ⟨h1', h2', h3'⟩ := h'
  rcases Nat.lt_trichotomy s s' with hlt | he | hlt
  · exact absurd (Nat.mod_eq_zero_of_dvd (Nat.dvd_trans (h1.dvd h1' hlt) (Nat.dvd_of_mod_eq_zero h2'))) h3
  · exact he
  · exact absurd (Nat.mod_eq_zero_of_dvd (Nat.dvd_trans (h1'.dvd h1 hlt) (Nat.dvd_of_mod_eq_zero h2))) h3'

theorem Sends.le {a s : Nat} (h : Sends a s) : s ≤ a := by
  obtain ⟨h1, h2, h3⟩ := h
  have ha : a ≠ 0 := by rintro rfl; simp at h3
  exact Nat.le_of_dvd (Nat.pos_of_ne_zero ha) (Nat.dvd_of_mod_eq_zero h2)

/-- the receiver of `a`'s message is a multiple of `2 s` -/
theorem Sends.dest {a s : Nat} (h : Sends a s) : (a - s) % (2 * s) = 0 := by
  have hle := h.le
  obtain ⟨h1, h2, h3⟩ := h
  have hs := h1.pos
  obtain ⟨q, rfl⟩ := Nat.dvd_of_mod_eq_zero h2
  have hq : q % 2 = 1 := by
    rcases Nat.mod_two_eq_zero_or_one q with hq | hq
    · exfalso
      apply h3
      obtain ⟨m, rfl⟩ := Nat.dvd_of_mod_eq_zero hq
      exact Nat.mod_eq_zero_of_dvd ⟨m, by ring⟩
    · exact hq
  refine Nat.mod_eq_zero_of_dvd ⟨q / 2, ?_⟩
  have : q = 2 * (q / 2) + 1 := by omega
  generalize q / 2 = m at this
  subst this
  have : s * (2 * m + 1) = 2 * s * m + s := by ring
  omega

theorem sends_of {r s : Nat} (h : Pow s) (hr : r % (2 * s) = 0) : Sends (r + s) s := by
  have hs := h.pos
  obtain ⟨q, rfl⟩ := Nat.dvd_of_mod_eq_zero hr
  refine ⟨h, Nat.mod_eq_zero_of_dvd ⟨2 * q + 1, by ring⟩, ?_⟩
  intro h0
  obtain ⟨m, hm⟩ := Nat.dvd_of_mod_eq_zero h0
  have h1 : s * (2 * q + 1) = s * (2 * m) := by
    have e1 : s * (2 * q + 1) = 2 * s * q + s := by ring
    have e2 : s * (2 * m) = 2 * s * m := by ring
    omega
  have := Nat.eq_of_mul_eq_mul_left hs h1
  omega

/-! ### invariant -/

/-- the ranks `a, …, b-1` -/
def span (D : Nat → List α) (a b : Nat) : List α := (List.range' a (b - a)).flatMap D

theorem span_append (D : Nat → List α) {a b c : Nat} (h1 : a ≤ b) (h2 : b ≤ c) : span D a b ++ span D b c = span D a c := by
  unfold span
  rw [← List.flatMap_append]
  congr 1
  have : c - a = (b - a) + (c - b) := by omega
  rw [this, ← List.range'_append_1]
  congr 2; omega

/-- the receive of step `s` is behind the rank -/
def received (p : PC) (s : Nat) : Prop :=
  match p with
  | .loop x | .recv x => s < x
  | .send x | .blocked x => s ≤ x
  | .done => True

/-- the send of step `s` is behind the rank (the message is posted) -/
def posted (p : PC) (s : Nat) : Prop :=
  match p with
  | .loop x | .recv x | .send x => s < x
  | .blocked x => s ≤ x
  | .done => True

instance (p s) : Decidable (received p s) := by unfold received; cases p <;> infer_instance
instance (p s) : Decidable (posted p s) := by unfold posted; cases p <;> infer_instance

/-- what holds for a single rank -/
def Loc (n : Nat) (D : Nat → List α) (r : Nat) : PC → List α → Prop
  | .loop s, d => Pow s ∧ s < 2 * n ∧ (r % s = 0 → d = span D r (min (r + s) n))
  | .recv s, d => Pow s ∧ s < n ∧ r % (2 * s) = 0 ∧ r + s < n ∧ d = span D r (min (r + s) n)
  | .send s, d => Pow s ∧ s < n ∧ (r % s = 0 → r % (2 * s) ≠ 0 → d = span D r (min (r + s) n)) ∧
      (r % (2 * s) = 0 → d = span D r (min (r + 2 * s) n))
  | .blocked s, _ => Sends r s ∧ s < n
  | .done, d => r = 0 → d = span D 0 n

structure Inv (n : Nat) (D : Nat → List α) (σ : St α) : Prop where
  loc : ∀ r, r < n → Loc n D r (σ.pc r) (σ.data r)
  order : ∀ a s, a < n → Sends a s → received (σ.pc (a - s)) s → posted (σ.pc a) s
  msg : ∀ a s, a < n → Sends a s → σ.chan a (a - s) = if posted (σ.pc a) s ∧ ¬ received (σ.pc (a - s)) s then [span D a (min (a + s) n)] else []
  only : ∀ a b, σ.chan a b ≠ [] → a < n ∧ ∃ s, Sends a s ∧ b = a - s

theorem Inv.init {n : Nat} (D : Nat → List α) : Inv n D (init D) := by
  refine ⟨?_, ?_, ?_, ?_⟩
  · intro r hr
    refine ⟨.one, by omega, fun _ => ?_⟩
    have : min (r + 1) n = r + 1 := by omega
    rw [this]
    simp [Mpi.init, span]
  · intro a s _ hs h
    simp only [Mpi.init, received] at h
    have := hs.1.pos; omega
  · intro a s _ hs
    have := hs.1.pos
    rw [if_neg]
    · rfl
    · simp only [Mpi.init, posted]; omega
  · intro a b h; exact absurd rfl h

/-- a step that passes neither a send nor a receive -/
theorem Inv.quiet {n : Nat} {D : Nat → List α} {σ : St α} (I : Inv n D σ) {r : Nat} {p : PC} (hl : Loc n D r p (σ.data r))
    (hp : ∀ s, Sends r s → r < n → (posted p s ↔ posted (σ.pc r) s))
    (hq : ∀ s, Sends (r + s) s → r + s < n → (received p s ↔ received (σ.pc r) s)) :
    Inv n D { σ with pc := BB.upd σ.pc r p } := by
  have ep : ∀ a s, a < n → Sends a s → (posted (BB.upd σ.pc r p a) s ↔ posted (σ.pc a) s) := by
    intro a s ha hs
    by_cases e : a = r
    · subst e; simp only [BB.upd, if_true]; exact hp s hs ha
    · simp only [BB.upd, if_neg e]
  have eq : ∀ a s, a < n → Sends a s → (received (BB.upd σ.pc r p (a - s)) s ↔ received (σ.pc (a - s)) s) := by
    intro a s ha hs
    by_cases e : a - s = r
    · have := hs.le
      have e' : a = r + s := by omega
      subst e'
      rw [e]; simp only [BB.upd, if_true]; exact hq s hs ha
    · simp only [BB.upd, if_neg e]
  refine ⟨?_, ?_, ?_, I.only⟩
  · intro x hx
    by_cases e : x = r
    · subst e; simp only [BB.upd, if_true]; exact hl
    · simp only [BB.upd, if_neg e]; exact I.loc x hx
  · intro a s ha hs h
    exact (ep a s ha hs).2 (I.order a s ha hs ((eq a s ha hs).1 h))
  · intro a s ha hs
    have := I.msg a s ha hs
    simp only [ep a s ha hs, eq a s ha hs]
    exact this

theorem pow_lt_dbl {s s' : Nat} (h : Pow s) (h' : Pow s') : s < s' * 2 ↔ s ≤ s' := by
  have := h'.pos
  refine ⟨fun hlt => ?_, fun h => by omega⟩
  by_contra hc
  have hd := Nat.le_of_dvd h.pos (h'.dvd h (by omega))
  omega

theorem Inv.tick {n : Nat} {D : Nat → List α} {σ σ' : St α} (I : Inv n D σ) {r : Nat} (hr : r < n) {b : Bool}
    (h : tick n r b σ = some σ') : Inv n D σ' := by
  have L := I.loc r hr
  unfold Mpi.tick at h
  cases hpc : σ.pc r with
  | done => rw [hpc] at h; cases h
  | loop s =>
    rw [hpc] at h L
    simp only at h
    obtain ⟨l1, l2, l3⟩ := L
    by_cases hs : s < n
    · rw [if_pos hs] at h
      by_cases hc : r % (2 * s) = 0 ∧ r + s < n
      · rw [if_pos hc] at h
        cases h
        refine I.quiet ⟨l1, hs, hc.1, hc.2, l3 (Nat.mod_eq_zero_of_dvd (Nat.dvd_trans ⟨2, by ring⟩ (Nat.dvd_of_mod_eq_zero hc.1)))⟩ ?_ ?_
        · intro s0 _ _; rw [hpc]; rfl
        · intro s0 _ _; rw [hpc]; rfl
      · rw [if_neg hc] at h
        cases h
        refine I.quiet ⟨l1, hs, fun h _ => l3 h, fun h => ?_⟩ ?_ ?_
        · rw [l3 (Nat.mod_eq_zero_of_dvd (Nat.dvd_trans ⟨2, by ring⟩ (Nat.dvd_of_mod_eq_zero h)))]
          have : n ≤ r + s := by
            by_contra hn; exact hc ⟨h, by omega⟩
          congr 1
          omega
        · intro s0 _ _; rw [hpc]; rfl
        · intro s0 h0 h1; rw [hpc]
          simp only [received]
          refine ⟨fun h => ?_, fun h => by omega⟩
          rcases Nat.lt_or_eq_of_le h with h | h
          · exact h
          · subst h
            have := h0.dest
            rw [Nat.add_sub_cancel] at this
            exact absurd ⟨this, h1⟩ hc
    · rw [if_neg hs] at h
      cases h
      refine I.quiet (fun h => ?_) ?_ ?_
      · subst h
        have := l3 (by simp)
        rw [this]; congr 1; omega
      · intro s0 h0 h1; rw [hpc]; simp only [posted, true_iff]; have := h0.le; omega
      · intro s0 h0 h1; rw [hpc]; simp only [received, true_iff]; omega
  | recv s =>
    rw [hpc] at h L
    simp only at h
    obtain ⟨l1, l2, l3, l4, l5⟩ := L
    have hS := sends_of l1 l3
    have hm := I.msg (r + s) s l4 hS
    rw [Nat.add_sub_cancel] at hm
    have hnr : ¬ received (σ.pc r) s := by rw [hpc]; simp [received]
    have hspos := l1.pos
    by_cases hpo : posted (σ.pc (r + s)) s
    · rw [if_pos ⟨hpo, hnr⟩] at hm
      rw [hm] at h
      cases h
      have hne : r + s ≠ r := by omega
      refine ⟨?_, ?_, ?_, ?_⟩
      · intro x hx
        by_cases e : x = r
        · subst e
          simp only [BB.upd, if_true]
          refine ⟨l1, l2, fun _ h => absurd l3 h, fun _ => ?_⟩
          rw [l5]
          have e1 : min (x + s) n = x + s := by omega
          rw [e1, span_append _ (by omega) (by omega)]
          congr 1; omega
        · simp only [BB.upd, if_neg e]; exact I.loc x hx
      · intro a s0 ha hs0 hrec
        have hp0 : posted (BB.upd σ.pc r (.send s) a) s0 ↔ posted (σ.pc a) s0 := by
          by_cases e : a = r
          · subst e; simp only [BB.upd, if_true, hpc]; rfl
          · simp only [BB.upd, if_neg e]
        rw [hp0]
        by_cases e : a - s0 = r
        · rw [e] at hrec
          simp only [BB.upd, if_true, received] at hrec
          have := hs0.le
          have e' : a = r + s0 := by omega
          rcases Nat.lt_or_eq_of_le hrec with hlt | heq
          · refine I.order a s0 ha hs0 ?_
            rw [e, hpc]; exact hlt
          · subst heq; rw [e']; exact hpo
        · simp only [BB.upd, if_neg e] at hrec
          exact I.order a s0 ha hs0 hrec
      · intro a s0 ha hs0
        have hle := hs0.le
        have hp0 : posted (BB.upd σ.pc r (.send s) a) s0 ↔ posted (σ.pc a) s0 := by
          by_cases e : a = r
          · subst e; simp only [BB.upd, if_true, hpc]; rfl
          · simp only [BB.upd, if_neg e]
        simp only [hp0]
        by_cases e : a - s0 = r
        · have e' : a = r + s0 := by omega
          subst e'
          rw [e]
          by_cases es : s0 = s
          · subst es
            simp [updC, BB.upd, received]
          · have hch : updC σ.chan (r + s) r [] (r + s0) r = σ.chan (r + s0) r := by
              simp [updC, es]
            have hm0 := I.msg (r + s0) s0 ha hs0
            rw [e] at hm0
            rw [hch, hm0]
            have hr0 : received (BB.upd σ.pc r (.send s) r) s0 ↔ received (σ.pc r) s0 := by
              simp only [BB.upd, if_true, hpc, received]; omega
            simp only [hr0]
        · have hch : updC σ.chan (r + s) r [] a (a - s0) = σ.chan a (a - s0) := by
            simp [updC, e]
          rw [hch, I.msg a s0 ha hs0]
          simp only [BB.upd, if_neg e]
      · intro a b hne'
        simp only [updC] at hne'
        split at hne'
        · exact absurd rfl hne'
        · exact I.only a b hne'
    · rw [if_neg (fun h => hpo h.1)] at hm
      rw [hm] at h; cases h
  | send s =>
    rw [hpc] at h L
    simp only at h
    obtain ⟨l1, l2, l3, l4⟩ := L
    by_cases hc : r % s = 0 ∧ r % (2 * s) ≠ 0
    · rw [if_pos hc] at h
      cases h
      have hS : Sends r s := ⟨l1, hc.1, hc.2⟩
      have hle := hS.le
      have hspos := l1.pos
      have hnp : ¬ posted (σ.pc r) s := by rw [hpc]; simp [posted]
      have hnr : ¬ received (σ.pc (r - s)) s := fun h => hnp (I.order r s hr hS h)
      have hm := I.msg r s hr hS
      rw [if_neg (fun h => hnp h.1)] at hm
      rw [hm, List.nil_append, l3 hc.1 hc.2]
      have hne : r - s ≠ r := by omega
      have hrec : ∀ x s0, received (BB.upd σ.pc r (.blocked s) x) s0 ↔ received (σ.pc x) s0 := by
        intro x s0
        by_cases e : x = r
        · subst e; simp only [BB.upd, if_true, hpc]; rfl
        · simp only [BB.upd, if_neg e]
      refine ⟨?_, ?_, ?_, ?_⟩
      · intro x hx
        by_cases e : x = r
        · subst e
          simp only [BB.upd, if_true]
          exact ⟨hS, l2⟩
        · simp only [BB.upd, if_neg e]; exact I.loc x hx
      · intro a s0 ha hs0 h0
        rw [hrec] at h0
        have := I.order a s0 ha hs0 h0
        by_cases e : a = r
        · subst e
          rw [hS.unique hs0]
          simp [BB.upd, posted]
        · simp only [BB.upd, if_neg e]; exact this
      · intro a s0 ha hs0
        by_cases e : a = r
        · subst e
          have es := hS.unique hs0
          subst es
          rw [if_pos ⟨by simp [BB.upd, posted], by rw [hrec]; exact hnr⟩]
          simp [updC]
        · have hch : updC σ.chan r (r - s) [span D r (min (r + s) n)] a (a - s0) = σ.chan a (a - s0) := by simp [updC, e]
          show updC σ.chan r (r - s) [span D r (min (r + s) n)] a (a - s0) = _
          rw [hch, I.msg a s0 ha hs0]
          have : BB.upd σ.pc r (.blocked s) a = σ.pc a := by simp [BB.upd, e]
          simp only [this, hrec]
      · intro a b hne'
        simp only [updC] at hne'
        split at hne'
        · rename_i e; exact ⟨by omega, s, by rw [e.1]; exact hS, by omega⟩
        · exact I.only a b hne'
    · rw [if_neg hc] at h
      cases h
      have hd : ∀ h : r % (s * 2) = 0, r % (2 * s) = 0 := fun h => by rw [Nat.mul_comm]; exact h
      refine I.quiet ⟨l1.dbl, by omega, fun h => ?_⟩ ?_ ?_
      · rw [l4 (hd h)]; congr 1; omega
      · intro s0 h0 _; rw [hpc]
        simp only [posted]
        rw [pow_lt_dbl h0.1 l1]
        refine ⟨fun h => ?_, fun h => by omega⟩
        rcases Nat.lt_or_eq_of_le h with h | h
        · exact h
        · subst h; exact absurd ⟨h0.2.1, h0.2.2⟩ hc
      · intro s0 h0 _; rw [hpc]
        simp only [received]
        exact pow_lt_dbl h0.1 l1
  | blocked s =>
    rw [hpc] at h L
    simp only at h
    obtain ⟨l1, l2⟩ := L
    split at h
    · cases h
      have hle := l1.le
      refine I.quiet ⟨l1.1.dbl, by omega, fun h => ?_⟩ ?_ ?_
      · exact absurd (by rw [Nat.mul_comm]; exact h) l1.2.2
      · intro s0 h0 _; rw [hpc]
        exact pow_lt_dbl h0.1 l1.1
      · intro s0 h0 _; rw [hpc]
        exact pow_lt_dbl h0.1 l1.1
    · cases h

theorem Exec.inv {n : Nat} {D : Nat → List α} {k : Nat} {σ : St α} (h : Exec n D k σ) : Inv n D σ := by
  induction h with
  | init => exact .init D
  | step _ r hr b ht ih => exact ih.tick hr ht

/-- **C48.**  Whatever the number of ranks and the order in which they run, when all ranks have returned, rank 0 has the data of
all ranks, each exactly once, in rank order. -/
theorem C48_complete {n : Nat} (hn : 0 < n) {D : Nat → List α} {k : Nat} {σ : St α} (h : Exec n D k σ)
    (hd : ∀ r, r < n → σ.pc r = .done) : σ.data 0 = (List.range n).flatMap D := by
  have := h.inv.loc 0 hn
  rw [hd 0 hn] at this
  rw [this rfl]
  simp [span, List.range_eq_range']

/-- **C48.**  … and no message is left over. -/
theorem C48_no_message_left {n : Nat} {D : Nat → List α} {k : Nat} {σ : St α} (h : Exec n D k σ)
    (hd : ∀ r, r < n → σ.pc r = .done) (a b : Nat) : σ.chan a b = [] := by
  by_contra hne
  obtain ⟨ha, s, hs, rfl⟩ := h.inv.only a b hne
  have hb : a - s < n := by omega
  apply hne
  rw [h.inv.msg a s ha hs, if_neg]
  rw [hd _ hb]; simp [received]

/-- **C48.**  No deadlock: as long as some rank has not returned, some rank can continue - even if the MPI library never buffers a
message. -/
theorem C48_no_deadlock {n : Nat} {D : Nat → List α} {k : Nat} {σ : St α} (h : Exec n D k σ) {r : Nat} (hr : r < n)
    (hnd : σ.pc r ≠ .done) : ∃ r' σ', r' < n ∧ tick n r' false σ = some σ' := by
  have I := h.inv
  by_contra hstuck
  have stuck : ∀ x, x < n → tick n x false σ = none := by
    intro x hx
    cases ht : tick n x false σ with
    | none => rfl
    | some σ' => exact absurd ⟨x, σ', hx, ht⟩ hstuck
  -- every rank is in a receive, in a send, or has returned
  have three : ∀ x, x < n → (∃ s, σ.pc x = .recv s) ∨ (∃ s, σ.pc x = .blocked s) ∨ σ.pc x = .done := by
    intro x hx
    have := stuck x hx
    unfold tick at this
    cases hpc : σ.pc x with
    | loop s =>
      rw [hpc] at this
      simp only at this
      split at this
      · split at this <;> cases this
      · cases this
    | recv s => exact .inl ⟨s, rfl⟩
    | send s =>
      rw [hpc] at this
      simp only at this
      split at this <;> cases this
    | blocked s => exact .inr (.inl ⟨s, rfl⟩)
    | done => exact .inr (.inr rfl)
  -- nobody waits in a receive
  have noRecv : ∀ s x, x < n → σ.pc x ≠ .recv s := by
    intro s
    induction s using Nat.strongRecOn with
    | ind s ih =>
      intro x hx hpc
      have L := I.loc x hx
      rw [hpc] at L
      obtain ⟨l1, l2, l3, l4, _⟩ := L
      have hS := sends_of l1 l3
      have hm := I.msg (x + s) s l4 hS
      rw [Nat.add_sub_cancel] at hm
      have hnr : ¬ received (σ.pc x) s := by rw [hpc]; simp [received]
      by_cases hpo : posted (σ.pc (x + s)) s
      · rw [if_pos ⟨hpo, hnr⟩] at hm
        have := stuck x hx
        unfold tick at this
        rw [hpc] at this
        simp only [hm] at this
        cases this
      · rcases three (x + s) l4 with ⟨s', hs'⟩ | ⟨s', hs'⟩ | hdn
        · refine ih s' ?_ (x + s) l4 hs'
          have L' := I.loc (x + s) l4
          rw [hs'] at L'
          obtain ⟨m1, _, m3, _⟩ := L'
          by_contra hge
          apply hS.2.2
          rcases Nat.lt_or_eq_of_le (Nat.le_of_not_lt hge) with hlt | heq
          · exact Nat.mod_eq_zero_of_dvd (Nat.dvd_trans (Nat.dvd_trans (l1.dvd m1 hlt) ⟨2, by ring⟩) (Nat.dvd_of_mod_eq_zero m3))
          · rw [← heq] at m3; exact m3
        · have L' := I.loc (x + s) l4
          rw [hs'] at L'
          have := L'.1.unique hS
          subst this
          exact hpo (by rw [hs']; simp [posted])
        · exact hpo (by rw [hdn]; trivial)
  -- nobody waits in a send
  have noSend : ∀ s x, x < n → σ.pc x ≠ .blocked s := by
    intro s x hx hpc
    have L := I.loc x hx
    rw [hpc] at L
    obtain ⟨hS, _⟩ := L
    have hle := hS.le
    have hb : x - s < n := by omega
    have hnr : ¬ received (σ.pc (x - s)) s := by
      intro hrec
      have hm := I.msg x s hx hS
      rw [if_neg (fun h => h.2 hrec)] at hm
      have := stuck x hx
      unfold tick at this
      rw [hpc] at this
      simp only [hm] at this
      simp at this
    rcases three (x - s) hb with ⟨s', hs'⟩ | ⟨s', hs'⟩ | hdn
    · exact noRecv s' _ hb hs'
    · have L' := I.loc (x - s) hb
      rw [hs'] at L'
      apply hnr
      rw [hs']
      show s ≤ s'
      by_contra hc
      have hdv := L'.1.1.dvd hS.1 (by omega)
      exact L'.1.2.2 (Nat.mod_eq_zero_of_dvd (Nat.dvd_trans hdv (Nat.dvd_trans ⟨2, by ring⟩ (Nat.dvd_of_mod_eq_zero hS.dest))))
    · exact hnr (by rw [hdn]; trivial)
  rcases three r hr with ⟨s, hs⟩ | ⟨s, hs⟩ | hdn
  · exact noRecv s r hr hs
  · exact noSend s r hr hs
  · exact hnd hdn

/-- the number of steps a rank can still take at most -/
def left (n : Nat) : PC → Nat
  | .loop s => 4 * (2 * n - s) + 4
  | .recv s => 4 * (2 * n - s) + 3
  | .send s => 4 * (2 * n - s) + 2
  | .blocked s => 4 * (2 * n - s) + 1
  | .done => 0

theorem tick_left {n : Nat} {D : Nat → List α} {σ σ' : St α} (I : Inv n D σ) {r : Nat} (hr : r < n) {b : Bool}
    (h : tick n r b σ = some σ') : left n (σ'.pc r) < left n (σ.pc r) ∧ ∀ x, x ≠ r → σ'.pc x = σ.pc x := by
  have L := I.loc r hr
  unfold Mpi.tick at h
  cases hpc : σ.pc r with
  | done => rw [hpc] at h; cases h
  | loop s =>
    rw [hpc] at h L
    simp only at h
    split at h
    · split at h <;> cases h <;> refine ⟨?_, fun x hx => by simp [BB.upd, hx]⟩ <;> simp [BB.upd, left]
    · cases h; refine ⟨?_, fun x hx => by simp [BB.upd, hx]⟩; simp [BB.upd, left]
  | recv s =>
    rw [hpc] at h L
    simp only at h
    split at h
    · cases h
    · cases h; refine ⟨?_, fun x hx => by simp [BB.upd, hx]⟩; simp [BB.upd, left]
  | send s =>
    rw [hpc] at h L
    simp only at h
    obtain ⟨l1, l2, _⟩ := L
    have := l1.pos
    split at h <;> cases h <;> refine ⟨?_, fun x hx => by simp [BB.upd, hx]⟩ <;> simp [BB.upd, left] <;> omega
  | blocked s =>
    rw [hpc] at h L
    simp only at h
    obtain ⟨l1, l2⟩ := L
    have := l1.1.pos
    split at h
    · cases h; refine ⟨?_, fun x hx => by simp [BB.upd, hx]⟩; simp [BB.upd, left]; omega
    · cases h

/-- **C48.**  Every execution ends: `n` ranks take at most `n (8 n + 4)` steps. -/
theorem C48_terminates {n : Nat} {D : Nat → List α} {k : Nat} {σ : St α} (h : Exec n D k σ) : k ≤ n * (8 * n + 4) := by
  suffices k + ∑ r ∈ Finset.range n, left n (σ.pc r) ≤ n * (8 * n + 4) by omega
  induction h with
  | init =>
    rw [Nat.zero_add]
    refine (Finset.sum_le_card_nsmul _ _ (8 * n + 4) ?_).trans (by simp)
    intro r _
    simp only [init, left]; omega
  | @step k σ σ' h r hr b ht ih =>
    obtain ⟨h1, h2⟩ := tick_left h.inv hr ht
    have : ∑ x ∈ Finset.range n, left n (σ'.pc x) < ∑ x ∈ Finset.range n, left n (σ.pc x) := by
      refine Finset.sum_lt_sum ?_ ⟨r, by simpa using hr, h1⟩
      intro x _
      by_cases e : x = r
      · subst e; exact Nat.le_of_lt h1
      · rw [h2 x e]
    omega

/-- **C48.**  The loop variable does not overflow: with at most `2^30` ranks every value of `steppow2` and of `2 * steppow2` the
code computes is less than `2^31`. -/
theorem C48_no_overflow {n : Nat} {D : Nat → List α} {k : Nat} {σ : St α} (h : Exec n D k σ) (hn : n ≤ 2 ^ 30) {r s : Nat} (hr : r < n)
    (hs : σ.pc r = .loop s ∨ (σ.pc r = .recv s ∨ σ.pc r = .send s ∨ σ.pc r = .blocked s)) :
    s < 2 ^ 31 ∧ (s < n → 2 * s < 2 ^ 31) := by
  have L := h.inv.loc r hr
  have : s < 2 * n := by
    rcases hs with hs | hs | hs | hs <;> rw [hs] at L
    · exact L.2.1
    · have := L.2.1; omega
    · have := L.2.1; omega
    · have := L.2; omega
  omega

/-- **C48.**  Every execution can be continued until all ranks have returned (so the hypotheses of `C48_complete` are met for every
number of ranks and all data). -/
theorem C48_can_finish {n : Nat} {D : Nat → List α} {k : Nat} {σ : St α} (h : Exec n D k σ) :
    ∃ k' σ', Exec n D k' σ' ∧ k ≤ k' ∧ ∀ r, r < n → σ'.pc r = .done := by
  generalize hm : n * (8 * n + 4) - k = m
  induction m using Nat.strongRecOn generalizing k σ with
  | ind m ih =>
    by_cases hd : ∀ r, r < n → σ.pc r = .done
    · exact ⟨k, σ, h, Nat.le_refl _, hd⟩
    · have : ∃ r, r < n ∧ σ.pc r ≠ .done := by
        by_contra hc
        exact hd fun r hr => by
          by_contra hne
          exact hc ⟨r, hr, hne⟩
      obtain ⟨r, hr, hne⟩ := this
      obtain ⟨r', σ', hr', ht⟩ := C48_no_deadlock h hr hne
      have h' := Exec.step h r' hr' false ht
      have hb := C48_terminates h'
      obtain ⟨k2, σ2, a, b, c⟩ := ih _ (by omega) h' rfl
      exact ⟨k2, σ2, a, by omega, c⟩

/-- three ranks: all data arrives at rank 0 -/
example : ∃ k σ, Exec 3 (fun r => [r * 10, r * 10 + 1]) k σ ∧ (∀ r, r < 3 → σ.pc r = .done) ∧ σ.data 0 = [0, 1, 10, 11, 20, 21] := by
  obtain ⟨k, σ, h, _, hd⟩ := C48_can_finish (Exec.init (n := 3) (D := fun r => [r * 10, r * 10 + 1]))
  exact ⟨k, σ, h, hd, by rw [C48_complete (by omega) h hd]; decide⟩

end Verif.Mpi
