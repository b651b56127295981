import Verif.Serv.SamplerSpec
import Mathlib.Data.List.Basic
import Mathlib.Data.List.Nodup
/-!
# C112: the sampler service
-/
namespace Verif.Serv.Smp
open Verif

theorem C112_period (f : Int) : interval f = period f := by
  unfold interval period
  by_cases h1 : f ≤ 1
  · rw [if_pos h1]
    have : min (max f 1) 10000 = 1 := by omega
    rw [this]; decide
  · rw [if_neg h1]
    by_cases h2 : 10000 ≤ f
    · rw [if_pos h2]
      have : min (max f 1) 10000 = 10000 := by omega
      rw [this]; decide
    · rw [if_neg h2]
      have : min (max f 1) 10000 = (f.toNat : Int) := by omega
      rw [this]
      show (Int.tdiv ((1000000000 : Nat) : Int) (f.toNat : Int)).toNat = _
      rw [← Int.ofNat_tdiv]
      exact Int.toNat_natCast _

/-- the state while the channel `k`, made by thread `c` in state `s0`, exists -/
structure Inv (s0 : State) (c k P : Nat) (h : List Ev) (s : State) : Prop where
  chan : s.chan = some k
  attr : s.attr = k
  handler : s.handler = true
  interval : s.interval = P
  tms : ∀ x ∈ s.timers, x.period = P ∧ x.id < s.ntimer ∧ x.tid ∈ s.known ∧ s.board x.tid k = some x.id
  ids : (s.timers.map Timer.id).Nodup
  sampled : ∀ t, (∃ x ∈ s.timers, x.tid = t) ↔ Sampled c (s0.known ++ s0.gone) h t
  known : ∀ t, t ∈ s.known ↔ (t ∈ s0.known ∨ (t ∉ s0.known ++ s0.gone ∧ ∃ ok, Ev.start t ok ∈ h)) ∧ Ev.exit t ∉ h
  gone : ∀ t, t ∈ s.gone ↔ t ∈ s0.gone ∨ Ev.exit t ∈ h
  frozen : ∀ t, s.frozen t = true → t ∈ s.known ∨ t ∈ s.gone
  pend : ∀ t, s.pend t = taking c (s0.known ++ s0.gone) t h
  samples : s.samples = taken k c (s0.known ++ s0.gone) h ++ s0.samples
  crashed : s.crashed = s0.crashed
  board : ∀ t j i, s.board t j = some i → j < s.nchan
  lt : k < s.nchan
  bid : ∀ t i, s.board t k = some i → i < s.ntimer
  inj : ∀ x ∈ s.timers, ∀ t, s.board t k = some x.id → x.tid = t

theorem sampled_cons {c : Nat} {old : List Nat} {h : List Ev} {e : Ev} (h1 : ∀ t ok, e ≠ .start t ok) (h2 : ∀ t, e ≠ .exit t) (t : Nat) :
    Sampled c old (e :: h) t ↔ Sampled c old h t := by
  unfold Sampled
  simp only [List.mem_cons]
  have a : ∀ ok, ¬ Ev.start t ok = e := fun ok he => h1 t ok he.symm
  have b : ¬ Ev.exit t = e := fun he => h2 t he.symm
  simp only [a, b, false_or]

theorem Inv.skip {s0 : State} {c k P : Nat} {h : List Ev} {s : State} (i : Inv s0 c k P h s) {e : Ev}
    (h1 : ∀ t ok, e ≠ .start t ok) (h2 : ∀ t, e ≠ .exit t) (h3 : ∀ t, taking c (s0.known ++ s0.gone) t (e :: h) = taking c (s0.known ++ s0.gone) t h)
    (h4 : taken k c (s0.known ++ s0.gone) (e :: h) = taken k c (s0.known ++ s0.gone) h) : Inv s0 c k P (e :: h) s := by
  have a : ∀ t ok, ¬ Ev.start t ok = e := fun t ok he => h1 t ok he.symm
  have b : ∀ t, ¬ Ev.exit t = e := fun t he => h2 t he.symm
  refine { i with sampled := ?_, known := ?_, gone := ?_, pend := ?_, samples := ?_ }
  · intro t; rw [i.sampled, sampled_cons h1 h2]
  · intro t; rw [i.known]; simp only [List.mem_cons, a, b, false_or]
  · intro t; rw [i.gone]; simp only [List.mem_cons, b, false_or]
  · intro t; rw [i.pend, h3]
  · rw [i.samples, h4]

/-- a new timer for a thread that has none -/
theorem setup_timers {s : State} {t : Nat} (hP : s.interval < 1000000000) (hf : s.frozen t = false) :
    setup true t s = { s with
      ntimer := s.ntimer + 1
      timers := s.timers ++ [⟨s.ntimer, t, s.interval⟩]
      board := upd s.board t (upd (s.board t) s.attr (some s.ntimer)) } := by
  unfold setup
  rw [if_neg (by simp), if_neg (by omega), hf]
  rfl

theorem inv_create {s : State} (hi : Idle s) {c : Nat} {f : Int} (hc : c ∈ s.known) (hz : s.frozen c = false) (hf : 1 < f) :
    Inv s c s.nchan (period f) [] (step (.create c f true) s) := by
  have hP : interval f < 1000000000 := by
    rw [C112_period]; unfold period
    rw [if_neg (by omega)]
    split
    · omega
    · apply Nat.div_lt_self <;> omega
  have e : step (.create c f true) s = setup true c { s with
        chan := some s.nchan
        attr := s.nchan
        nchan := s.nchan + 1
        interval := interval f
        handler := true
        active := true } := by
    show (match s.chan with | some _ => _ | none => _) = _
    rw [hi.chan]
  rw [e, setup_timers (by exact hP) (by exact hz)]
  have ht : s.timers ++ [(⟨s.ntimer, c, interval f⟩ : Timer)] = [⟨s.ntimer, c, interval f⟩] := by rw [hi.timers]; rfl
  have hn : ∀ u, s.board u s.nchan = none := by
    intro u
    cases hb : s.board u s.nchan with
    | none => rfl
    | some i => exact absurd (hi.board _ _ _ hb) (Nat.lt_irrefl _)
  have hbd : ∀ u i, (upd s.board c (upd (s.board c) s.nchan (some s.ntimer))) u s.nchan = some i → u = c ∧ i = s.ntimer := by
    intro u i hb
    by_cases hu : u = c
    · subst hu; simp [upd] at hb; exact ⟨rfl, hb.symm⟩
    · simp [upd, hu, hn] at hb
  refine ⟨rfl, rfl, rfl, C112_period f, ?_, ?_, ?_, ?_, ?_, ?_, ?_, ?_, rfl, ?_, Nat.lt_succ_self _, ?_, ?_⟩
  · intro x hx
    simp only [ht, List.mem_singleton] at hx
    subst hx
    refine ⟨C112_period f, Nat.lt_succ_self _, hc, ?_⟩
    simp [upd]
  · simp only [ht]; simp
  · intro t
    simp only [ht]
    simp only [List.mem_singleton, exists_eq_left, Sampled]
    simp [eq_comm]
  · intro t; simp
  · intro t; simp
  · exact hi.frozen
  · intro t; simpa [taking] using hi.pend t
  · rfl
  · intro t j i hb
    simp only [upd] at hb
    split at hb
    · simp only [upd] at hb
      split at hb
      · rename_i h; subst h; exact Nat.lt_succ_self _
      · exact Nat.lt_succ_of_lt (hi.board _ _ _ hb)
    · exact Nat.lt_succ_of_lt (hi.board _ _ _ hb)
  · intro u i hb
    rw [(hbd u i hb).2]; exact Nat.lt_succ_self _
  · intro x hx u hb
    simp only [ht, List.mem_singleton] at hx
    subst hx
    exact (hbd u _ hb).1.symm

/-- the events while the channel exists: it is not deleted and timers can be made -/
def Keeps (h : List Ev) : Prop := (∀ t, Ev.delete t ∉ h) ∧ ∀ t, Ev.start t false ∉ h

theorem inv_step {s0 : State} {c k P : Nat} (hP : P < 1000000000) (hc : c ∈ s0.known) (hg : ∀ t ∈ s0.known, t ∉ s0.gone) {h : List Ev} {s : State}
    (i : Inv s0 c k P h s) {e : Ev} (hd : ∀ t, e ≠ .delete t) (hs : ∀ t, e ≠ .start t false) : Inv s0 c k P (e :: h) (step e s) := by
  cases e with
  | create t f ok =>
    have : step (.create t f ok) s = { s with nchan := s.nchan + 1 } := by
      show (match s.chan with | some _ => _ | none => _) = _
      rw [i.chan]
    rw [this]
    have := i.skip (e := .create t f ok) (by intros; simp) (by intros; simp) (by intro; rfl) rfl
    exact { this with board := fun t j i hb => Nat.lt_succ_of_lt (this.board t j i hb), lt := Nat.lt_succ_of_lt this.lt }
  | delete t => exact absurd rfl (hd t)
  | activate a =>
    have := i.skip (e := .activate a) (by intros; simp) (by intros; simp) (by intro; rfl) rfl
    exact { this with }
  | freeze t =>
    have := i.skip (e := .freeze t) (by intros; simp) (by intros; simp) (by intro; rfl) rfl
    show Inv _ _ _ _ _ (if t ∈ s.known then _ else _)
    split
    · rename_i hk
      refine { this with frozen := ?_ }
      intro u hu
      simp only [upd] at hu
      split at hu
      · rename_i e; subst e; exact Or.inl hk
      · exact this.frozen u hu
    · exact this
  | start t ok =>
    have hok : ok = true := by cases ok; exact absurd rfl (hs t); rfl
    subst hok
    by_cases hk : t ∈ s.known ∨ t ∈ s.gone
    · have e : step (.start t true) s = s := by show (if _ then _ else _) = _; rw [if_pos hk]
      rw [e]
      have hold : ∀ u, (u ∉ s0.known ++ s0.gone ∧ ∃ ok, Ev.start u ok ∈ Ev.start t true :: h) ∧ Ev.exit u ∉ h ↔
          (u ∉ s0.known ++ s0.gone ∧ ∃ ok, Ev.start u ok ∈ h) ∧ Ev.exit u ∉ h := by
        intro u
        simp only [List.mem_cons, Ev.start.injEq]
        constructor
        · rintro ⟨⟨h1, ok, (⟨rfl, rfl⟩ | h2)⟩, h3⟩
          · refine ⟨⟨h1, ?_⟩, h3⟩
            rcases hk with hk | hk
            · rcases ((i.known _).mp hk).1 with h4 | h4
              · exact absurd (List.mem_append_left _ h4) h1
              · exact h4.2
            · rcases (i.gone _).mp hk with h4 | h4
              · exact absurd (List.mem_append_right _ h4) h1
              · exact absurd h4 h3
          · exact ⟨⟨h1, ok, h2⟩, h3⟩
        · rintro ⟨⟨h1, ok, h2⟩, h3⟩; exact ⟨⟨h1, ok, Or.inr h2⟩, h3⟩
      refine { i with sampled := ?_, known := ?_, gone := ?_, pend := ?_, samples := ?_ }
      · intro u
        rw [i.sampled]
        unfold Sampled
        have := hold u
        have hx : Ev.exit u ∉ Ev.start t true :: h ↔ Ev.exit u ∉ h := by simp
        rw [hx]
        generalize (∃ ok, Ev.start u ok ∈ Ev.start t true :: h) = A at this ⊢
        generalize (∃ ok, Ev.start u ok ∈ h) = B at this ⊢
        generalize (Ev.exit u ∉ h) = C at this ⊢
        generalize (u ∉ s0.known ++ s0.gone) = D at this ⊢
        rw [or_and_right, or_and_right, this]
      · intro u
        rw [i.known]
        have := hold u
        have hx : Ev.exit u ∉ Ev.start t true :: h ↔ Ev.exit u ∉ h := by simp
        rw [hx]
        generalize (∃ ok, Ev.start u ok ∈ Ev.start t true :: h) = A at this ⊢
        generalize (∃ ok, Ev.start u ok ∈ h) = B at this ⊢
        generalize (Ev.exit u ∉ h) = C at this ⊢
        generalize (u ∉ s0.known ++ s0.gone) = D at this ⊢
        rw [or_and_right, or_and_right, this]
      · intro u; rw [i.gone]; simp
      · intro u; rw [i.pend]; rfl
      · rw [i.samples]; rfl
    · have hfz : s.frozen t = false := by
        cases hfz : s.frozen t with
        | false => rfl
        | true => exact absurd (i.frozen t hfz) hk
      have e : step (.start t true) s = { s with
          known := t :: s.known
          ntimer := s.ntimer + 1
          timers := s.timers ++ [⟨s.ntimer, t, s.interval⟩]
          board := upd s.board t (upd (s.board t) s.attr (some s.ntimer)) } := by
        show (if _ then _ else _) = _
        rw [if_neg hk]
        simp only [i.chan]
        rw [setup_timers (s := { s with known := t :: s.known, chan := some k }) (by simpa [i.interval] using hP) hfz]
      rw [e]
      have hk1 : t ∉ s.known := fun a => hk (Or.inl a)
      have hk2 : t ∉ s.gone := fun a => hk (Or.inr a)
      have hx : Ev.exit t ∉ h := fun a => hk2 ((i.gone t).mpr (Or.inr a))
      have hold : t ∉ s0.known ++ s0.gone := by
        intro a
        rcases List.mem_append.mp a with a | a
        · exact hk1 ((i.known t).mpr ⟨Or.inl a, hx⟩)
        · exact hk2 ((i.gone t).mpr (Or.inl a))
      have hbd : ∀ u j, (upd s.board t (upd (s.board t) s.attr (some s.ntimer))) u k = some j → (u = t ∧ j = s.ntimer) ∨ (u ≠ t ∧ s.board u k = some j) := by
        intro u j hb
        by_cases hu : u = t
        · subst hu; simp [upd, i.attr] at hb; exact Or.inl ⟨rfl, hb.symm⟩
        · simp [upd, hu] at hb; exact Or.inr ⟨hu, hb⟩
      refine ⟨i.chan, i.attr, i.handler, i.interval, ?_, ?_, ?_, ?_, ?_, ?_, ?_, ?_, i.crashed, ?_, i.lt, ?_, ?_⟩
      · intro x hx
        simp only [List.mem_append, List.mem_singleton] at hx
        rcases hx with hx | rfl
        · obtain ⟨h1, h2, h3, h4⟩ := i.tms x hx
          refine ⟨h1, Nat.lt_succ_of_lt h2, List.mem_cons_of_mem _ h3, ?_⟩
          have : x.tid ≠ t := fun e => hk1 (e ▸ h3)
          simp [upd, this, h4]
        · refine ⟨i.interval, Nat.lt_succ_self _, List.mem_cons_self, ?_⟩
          simp [upd, i.attr]
      · simp only [List.map_append, List.map_cons, List.map_nil]
        rw [List.nodup_append]
        refine ⟨i.ids, by simp, ?_⟩
        intro a ha b hb
        obtain ⟨x, hx, rfl⟩ := List.mem_map.mp ha
        simp only [List.mem_singleton] at hb
        subst hb
        exact Nat.ne_of_lt (i.tms x hx).2.1
      · intro u
        have h0 := i.sampled u
        simp only [List.mem_append, List.mem_singleton]
        by_cases hu : u = t
        · subst hu
          constructor
          · intro _
            refine ⟨Or.inr ⟨hold, true, List.mem_cons_self⟩, ?_⟩
            simpa using hx
          · intro _; exact ⟨_, Or.inr rfl, rfl⟩
        · have h1 : (∃ x, (x ∈ s.timers ∨ x = (⟨s.ntimer, t, s.interval⟩ : Timer)) ∧ x.tid = u) ↔ ∃ x ∈ s.timers, x.tid = u := by
            constructor
            · rintro ⟨x, (h | rfl), h2⟩
              · exact ⟨x, h, h2⟩
              · exact absurd h2.symm hu
            · rintro ⟨x, h, h2⟩; exact ⟨x, Or.inl h, h2⟩
          rw [h1, h0]
          unfold Sampled
          simp [hu]
      · intro u
        have h0 := i.known u
        simp only [List.mem_cons]
        by_cases hu : u = t
        · subst hu
          simp only [true_or, true_iff]
          refine ⟨Or.inr ⟨hold, true, Or.inl rfl⟩, ?_⟩
          simpa using hx
        · simp [hu, h0]
      · intro u; simp [i.gone u]
      · intro u hu
        rcases i.frozen u hu with h | h
        · exact Or.inl (List.mem_cons_of_mem _ h)
        · exact Or.inr h
      · intro u; show s.pend u = _; rw [i.pend]; rfl
      · show s.samples = _; rw [i.samples]; rfl
      · intro u j q hb
        simp only [upd] at hb
        split at hb
        · simp only [upd] at hb
          split at hb
          · rename_i h1 h2
            rw [h2, i.attr]; exact i.lt
          · exact i.board _ _ _ hb
        · exact i.board _ _ _ hb
      · intro u j hb
        rcases hbd u j hb with ⟨_, rfl⟩ | ⟨_, h2⟩
        · exact Nat.lt_succ_self _
        · exact Nat.lt_succ_of_lt (i.bid u j h2)
      · intro x hx u hb
        simp only [List.mem_append, List.mem_singleton] at hx
        rcases hbd u _ hb with ⟨h1, h2⟩ | ⟨h1, h2⟩
        · rcases hx with hx | rfl
          · exact absurd h2 (Nat.ne_of_lt (i.tms x hx).2.1)
          · exact h1.symm
        · rcases hx with hx | rfl
          · exact i.inj x hx u h2
          · exact absurd (i.bid u _ h2) (Nat.lt_irrefl _)
  | exit t =>
    have e : step (.exit t) s = { s with
        timers := s.timers.filter fun x => x.tid ≠ t
        known := s.known.filter (· ≠ t)
        gone := t :: s.gone
        pend := upd s.pend t none } := by
      show ({ (if t ∈ s.known ∧ s.chan ≠ none then clear t s else s) with
        known := (if t ∈ s.known ∧ s.chan ≠ none then clear t s else s).known.filter (· ≠ t)
        gone := t :: (if t ∈ s.known ∧ s.chan ≠ none then clear t s else s).gone
        pend := upd (if t ∈ s.known ∧ s.chan ≠ none then clear t s else s).pend t none } : State) = _
      have hno : (∀ x ∈ s.timers, x.tid ≠ t) → s.timers.filter (fun x => decide (x.tid ≠ t)) = s.timers := by
        intro h; rw [List.filter_eq_self]; intro x hx; simpa using h x hx
      by_cases hk : t ∈ s.known
      · rw [if_pos ⟨hk, by rw [i.chan]; simp⟩]
        unfold clear
        have hat := i.attr
        cases hb : s.board t s.attr with
        | none =>
          have : ∀ x ∈ s.timers, x.tid ≠ t := by
            intro x hx e
            have := (i.tms x hx).2.2.2
            rw [e, ← hat, hb] at this; cases this
          simp only [hno this]
        | some j =>
          have : s.timers.filter (fun x => decide (x.id ≠ j)) = s.timers.filter fun x => decide (x.tid ≠ t) := by
            apply List.filter_congr
            intro x hx
            have hx4 := (i.tms x hx).2.2.2
            by_cases e1 : x.tid = t
            · rw [e1, ← hat, hb] at hx4
              simp only [Option.some.injEq] at hx4
              simp [e1, hx4]
            · by_cases e2 : x.id = j
              · exact absurd (i.inj x hx t (by rw [e2, ← hat]; exact hb)) e1
              · simp [e1, e2]
          simp only [this]
      · rw [if_neg (by rintro ⟨a, _⟩; exact hk a)]
        have : ∀ x ∈ s.timers, x.tid ≠ t := by
          intro x hx e; exact hk (e ▸ (i.tms x hx).2.2.1)
        simp only [hno this]
    rw [e]
    refine ⟨i.chan, i.attr, i.handler, i.interval, ?_, ?_, ?_, ?_, ?_, ?_, ?_, ?_, i.crashed, i.board, i.lt, i.bid, ?_⟩
    · intro x hx
      simp only [List.mem_filter, decide_eq_true_eq] at hx
      obtain ⟨h1, h2, h3, h4⟩ := i.tms x hx.1
      exact ⟨h1, h2, by simp [h3, hx.2], h4⟩
    · exact i.ids.sublist (List.filter_sublist.map _)
    · intro u
      have h0 := i.sampled u
      simp only [List.mem_filter, decide_eq_true_eq]
      unfold Sampled at h0 ⊢
      simp only [List.mem_cons, reduceCtorEq, false_or, Ev.exit.injEq]
      by_cases hu : u = t
      · subst hu
        constructor
        · rintro ⟨x, ⟨_, h⟩, h2⟩; exact absurd h2 h
        · rintro ⟨_, h⟩; exact absurd (Or.inl rfl) h
      · simp only [hu, false_or]
        rw [← h0]
        constructor
        · rintro ⟨x, ⟨h1, _⟩, h2⟩; exact ⟨x, h1, h2⟩
        · rintro ⟨x, h1, h2⟩; exact ⟨x, ⟨h1, by rw [h2]; exact hu⟩, h2⟩
    · intro u
      have h0 := i.known u
      simp only [List.mem_filter, decide_eq_true_eq, h0, List.mem_cons, reduceCtorEq, false_or, Ev.exit.injEq]
      tauto
    · intro u
      simp only [List.mem_cons, i.gone u, Ev.exit.injEq]
      tauto
    · intro u hu
      by_cases hut : u = t
      · right; simp [hut]
      · rcases i.frozen u hu with h | h
        · left; simp [h, hut]
        · right; exact List.mem_cons_of_mem _ h
    · intro u
      simp only [upd, taking]
      by_cases hu : u = t
      · simp [hu]
      · rw [if_neg hu, if_neg (fun e => hu e.symm), i.pend]
    · show s.samples = _; rw [i.samples]; rfl
    · intro x hx u hb
      exact i.inj x (List.mem_of_mem_filter hx) u hb
  | fire t locked pc =>
    have hs0 := i.sampled t
    have hc1 : (s.handler = true ∧ t ∈ s.known ∧ (∃ x ∈ s.timers, x.tid = t) ∧ s.pend t = none ∧ locked = false) ↔
        (locked = false ∧ Sampled c (s0.known ++ s0.gone) h t ∧ taking c (s0.known ++ s0.gone) t h = none) := by
      rw [← hs0, i.pend]
      constructor
      · rintro ⟨_, _, a, b, c⟩; exact ⟨c, a, b⟩
      · rintro ⟨c, ⟨x, a, e⟩, b⟩
        exact ⟨i.handler, e ▸ (i.tms x a).2.2.1, ⟨x, a, e⟩, b, c⟩
    show Inv _ _ _ _ _ (if _ then _ else _)
    by_cases hcond : (locked = false ∧ Sampled c (s0.known ++ s0.gone) h t ∧ taking c (s0.known ++ s0.gone) t h = none)
    · rw [if_pos (hc1.mpr hcond)]
      refine ⟨i.chan, i.attr, i.handler, i.interval, i.tms, i.ids, ?_, ?_, ?_, i.frozen, ?_, ?_, i.crashed, i.board, i.lt, i.bid, i.inj⟩
      · intro u; rw [sampled_cons (by intros; simp) (by intros; simp)]; exact i.sampled u
      · intro u; simpa using i.known u
      · intro u; simpa using i.gone u
      · intro u
        simp only [upd, taking]
        by_cases hu : u = t
        · subst hu
          rw [if_pos rfl, if_pos ⟨rfl, hcond⟩]
        · rw [if_neg hu, if_neg (by rintro ⟨e, _⟩; exact hu e.symm), i.pend]
      · exact i.samples
    · rw [if_neg (fun a => hcond (hc1.mp a))]
      apply i.skip (by intros; simp) (by intros; simp)
      · intro u
        simp only [taking]
        rw [if_neg]
        rintro ⟨rfl, a⟩
        exact hcond a
      · rfl
  | push t =>
    show Inv _ _ _ _ _ (match s.pend t with | none => _ | some pc => _)
    have hp := i.pend t
    cases hpt : s.pend t with
    | none =>
      simp only
      rw [hpt] at hp
      apply i.skip (by intros; simp) (by intros; simp)
      · intro u
        simp only [taking]
        split
        · rename_i e; subst e; exact hp
        · rfl
      · simp only [taken, ← hp]
    | some pc =>
      rw [hpt] at hp
      simp only [i.chan]
      refine ⟨rfl, i.attr, i.handler, i.interval, i.tms, i.ids, ?_, ?_, ?_, i.frozen, ?_, ?_, i.crashed, i.board, i.lt, i.bid, i.inj⟩
      · intro u; rw [sampled_cons (by intros; simp) (by intros; simp)]; exact i.sampled u
      · intro u; simpa using i.known u
      · intro u; simpa using i.gone u
      · intro u
        simp only [upd, taking]
        by_cases hu : u = t
        · simp [hu]
        · rw [if_neg hu, if_neg (fun e => hu e.symm), i.pend]
      · simp only [taken, ← hp, i.samples, List.cons_append]

theorem period_lt {f : Int} (hf : 1 < f) : period f < 1000000000 := by
  unfold period
  rw [if_neg (by omega)]
  split
  · omega
  · apply Nat.div_lt_self <;> omega

theorem inv_run {s : State} (hi : Idle s) {c : Nat} {f : Int} (hc : c ∈ s.known) (hz : s.frozen c = false) (hf : 1 < f) :
    ∀ h : List Ev, Keeps h → Inv s c s.nchan (period f) h (run (step (.create c f true) s) h)
  | [], _ => inv_create hi hc hz hf
  | e :: h, hk => inv_step (period_lt hf) hc hi.known
      (inv_run hi hc hz hf h ⟨fun t a => hk.1 t (List.mem_cons_of_mem _ a), fun t a => hk.2 t (List.mem_cons_of_mem _ a)⟩)
      (fun t e => hk.1 t (e ▸ List.mem_cons_self)) (fun t e => hk.2 t (e ▸ List.mem_cons_self))

/-- **C112 (timers)**: after a thread without nesting errors has made a channel with the sampler and a frequency of at least 2, when no sampler was
there, and until it is deleted: there is exactly one timer with the period of sampling for each thread that is sampled, and no other.
Missing: threads that used Caliper before (`C112_violation_existing`), frequency 1 (`C112_violation_frequency`) and left-over timers
(`C112_violation_nesting`, `C112_violation_leftover`). -/
theorem C112_timers_partial {s : State} (hi : Idle s) {c : Nat} {f : Int} (hc : c ∈ s.known) (hz : s.frozen c = false) (hf : 1 < f) (h : List Ev)
    (hk : Keeps h) :
    ((run (step (.create c f true) s) h).timers.map Timer.tid).Nodup ∧
    (∀ t, t ∈ (run (step (.create c f true) s) h).timers.map Timer.tid ↔ Sampled c (s.known ++ s.gone) h t) ∧
    ∀ x ∈ (run (step (.create c f true) s) h).timers, x.period = period f := by
  have i := inv_run hi hc hz hf h hk
  refine ⟨?_, ?_, fun x hx => (i.tms x hx).1⟩
  · refine List.Nodup.map_on ?_ (List.Nodup.of_map _ i.ids)
    intro x hx y hy e
    have h1 := (i.tms x hx).2.2.2
    have h2 := (i.tms y hy).2.2.2
    rw [e, h2] at h1
    exact (List.inj_on_of_nodup_map i.ids hx hy (Option.some.inj h1).symm)
  · intro t
    rw [← i.sampled, List.mem_map]

/-- **C112 (samples)**: and every interrupt of a sampled thread outside Caliper gives one sample in the channel, with the thread and the interrupted
address; nothing else does, and nothing crashes. Missing: as above, and a deactivated channel is sampled, too (`C112_violation_inactive`). -/
theorem C112_samples_partial {s : State} (hi : Idle s) {c : Nat} {f : Int} (hc : c ∈ s.known) (hz : s.frozen c = false) (hf : 1 < f) (h : List Ev)
    (hk : Keeps h) :
    (run (step (.create c f true) s) h).samples = taken s.nchan c (s.known ++ s.gone) h ++ s.samples ∧
    (run (step (.create c f true) s) h).crashed = s.crashed :=
  ⟨(inv_run hi hc hz hf h hk).samples, (inv_run hi hc hz hf h hk).crashed⟩

/-- **C112 (deletion)**: when a sampled thread deletes the channel, the other sampled threads have ended and no thread is in the signal handler, then
nothing is left over: a new sampler can be set up. Missing: `C112_violation_leftover`, `C112_violation_race`. -/
theorem C112_delete_partial {s : State} (hi : Idle s) {c : Nat} {f : Int} (hc : c ∈ s.known) (hz : s.frozen c = false) (hf : 1 < f) (h : List Ev)
    (hk : Keeps h) (t : Nat) (ht : ∀ u, Sampled c (s.known ++ s.gone) h u ↔ u = t) (hp : ∀ u, taking c (s.known ++ s.gone) u h = none) :
    Idle (run (step (.create c f true) s) (.delete t :: h)) := by
  have i := inv_run hi hc hz hf h hk
  generalize hr : run (step (.create c f true) s) h = r at i
  have e : run (step (.create c f true) s) (.delete t :: h) = { clear t r with handler := false, chan := none } := by
    show step (.delete t) (run _ h) = _
    rw [hr]
    show (match r.chan with | none => _ | some _ => _) = _
    rw [i.chan]
  rw [e]
  have hx : ∃ x ∈ r.timers, x.tid = t := (i.sampled t).mpr ((ht t).mpr rfl)
  obtain ⟨x, hx, hxt⟩ := hx
  have hb := (i.tms x hx).2.2.2
  rw [hxt] at hb
  have ec : clear t r = { r with timers := r.timers.filter fun y => y.id ≠ x.id } := by
    unfold clear; rw [i.attr, hb]
  rw [ec]
  have hkg : ∀ u ∈ r.known, u ∉ r.gone := by
    intro u hu hg
    obtain ⟨h1, h2⟩ := (i.known u).mp hu
    rcases (i.gone u).mp hg with h3 | h3
    · rcases h1 with h1 | h1
      · exact hi.known u h1 h3
      · exact h1.1 (List.mem_append_right _ h3)
    · exact h2 h3
  refine ⟨rfl, rfl, ?_, ?_, i.board, hkg, i.frozen⟩
  · show r.timers.filter _ = []
    rw [List.filter_eq_nil_iff]
    intro y hy hne
    have h1 := (ht y.tid).mp ((i.sampled _).mp ⟨y, hy, rfl⟩)
    have h2 := (i.tms y hy).2.2.2
    rw [h1, hb] at h2
    simp only [ne_eq, decide_eq_true_eq] at hne
    exact hne (Option.some.inj h2).symm
  · intro u; show r.pend u = none; rw [i.pend, hp]

/-- **C112 (no sampler)**: without a sampler nothing is sampled, whatever happens. -/
theorem C112_idle {s : State} (hi : Idle s) : ∀ h : List Ev, (∀ t f ok, Ev.create t f ok ∉ h) →
    Idle (run s h) ∧ (run s h).samples = s.samples ∧ (run s h).crashed = s.crashed
  | [], _ => ⟨hi, rfl, rfl⟩
  | e :: h, hk => by
    obtain ⟨i, h1, h2⟩ := C112_idle hi h fun t f ok a => hk t f ok (List.mem_cons_of_mem _ a)
    show Idle (step e (run s h)) ∧ (step e (run s h)).samples = s.samples ∧ (step e (run s h)).crashed = s.crashed
    generalize run s h = r at i h1 h2
    have key : Idle (step e r) ∧ (step e r).samples = r.samples ∧ (step e r).crashed = r.crashed → Idle (step e r) ∧ (step e r).samples = s.samples ∧ (step e r).crashed = s.crashed := by
      rintro ⟨a, b, c⟩; exact ⟨a, b.trans h1, c.trans h2⟩
    apply key
    clear key
    cases e with
    | create t f ok => exact absurd List.mem_cons_self (hk t f ok)
    | delete t =>
      have : step (.delete t) r = r := by
        show (match r.chan with | none => _ | some _ => _) = _
        rw [i.chan]
      rw [this]; exact ⟨i, rfl, rfl⟩
    | activate a => exact ⟨{ i with }, rfl, rfl⟩
    | start t ok =>
      show Idle (if _ then _ else _) ∧ (if _ then _ else _ : State).samples = _ ∧ (if _ then _ else _ : State).crashed = _
      by_cases hk : t ∈ r.known ∨ t ∈ r.gone
      · simp only [if_pos hk]; exact ⟨i, trivial, trivial⟩
      · simp only [if_neg hk, i.chan]
        refine ⟨{ i with chan := rfl, known := ?_, frozen := ?_ }, trivial, trivial⟩
        · intro u hu
          rcases List.mem_cons.mp hu with rfl | hu
          · exact fun a => hk (Or.inr a)
          · exact i.known u hu
        · intro u hu
          rcases i.frozen u hu with a | a
          · exact Or.inl (List.mem_cons_of_mem _ a)
          · exact Or.inr a
    | exit t =>
      have : step (.exit t) r = { r with known := r.known.filter (· ≠ t), gone := t :: r.gone, pend := upd r.pend t none } := by
        show ({ (if t ∈ r.known ∧ r.chan ≠ none then clear t r else r) with
          known := (if t ∈ r.known ∧ r.chan ≠ none then clear t r else r).known.filter (· ≠ t)
          gone := t :: (if t ∈ r.known ∧ r.chan ≠ none then clear t r else r).gone
          pend := upd (if t ∈ r.known ∧ r.chan ≠ none then clear t r else r).pend t none } : State) = _
        rw [if_neg (by rintro ⟨_, a⟩; exact a i.chan)]
      rw [this]
      refine ⟨{ i with pend := ?_, known := ?_, frozen := ?_ }, rfl, rfl⟩
      · intro u; simp only [upd]; split
        · rfl
        · exact i.pend u
      · intro u hu
        simp only [List.mem_filter, decide_eq_true_eq] at hu
        intro a
        rcases List.mem_cons.mp a with a | a
        · exact hu.2 a
        · exact i.known u hu.1 a
      · intro u hu
        by_cases hut : u = t
        · right; simp [hut]
        · rcases i.frozen u hu with h | h
          · left; simp [h, hut]
          · right; exact List.mem_cons_of_mem _ h
    | freeze t =>
      show Idle (if _ then _ else _) ∧ (if _ then _ else _ : State).samples = _ ∧ (if _ then _ else _ : State).crashed = _
      by_cases hk : t ∈ r.known
      · simp only [if_pos hk]
        refine ⟨{ i with frozen := ?_ }, trivial, trivial⟩
        intro u hu
        simp only [upd] at hu
        split at hu
        · rename_i e; subst e; exact Or.inl hk
        · exact i.frozen u hu
      · simp only [if_neg hk]; exact ⟨i, trivial, trivial⟩
    | fire t locked pc =>
      have : step (.fire t locked pc) r = r := by
        show (if _ then _ else _) = _
        rw [if_neg (by rintro ⟨a, _⟩; rw [i.handler] at a; cases a)]
      rw [this]; exact ⟨i, rfl, rfl⟩
    | push t =>
      have : step (.push t) r = r := by
        show (match r.pend t with | none => _ | some _ => _) = _
        rw [i.pend]
      rw [this]; exact ⟨i, rfl, rfl⟩

/-! ### A concrete case and violations -/

theorem init_idle : Idle init := by
  refine ⟨rfl, rfl, rfl, fun _ => rfl, ?_, ?_, ?_⟩
  · intro t k i h; cases h
  · simp [init]
  · intro t h; cases h

/-- two threads are sampled, one sample each; an interrupt inside Caliper is dropped -/
def exH : List Ev := [.push 1, .fire 0 true 8, .push 0, .fire 1 false 7, .fire 0 false 5, .start 1 true]

theorem C112_example : Idle init ∧ 0 ∈ init.known ∧ init.frozen 0 = false ∧ Keeps exH ∧
    (run (step (.create 0 50 true) init) exH).samples = [⟨0, 1, 7⟩, ⟨0, 0, 5⟩] ∧
    (run (step (.create 0 50 true) init) exH).timers = [⟨0, 0, 20000000⟩, ⟨1, 1, 20000000⟩] ∧
    (run (step (.create 0 50 true) init) (.delete 0 :: .exit 1 :: exH)).timers = [] := by
  refine ⟨init_idle, by decide, rfl, ⟨?_, ?_⟩, ?_, ?_, ?_⟩
  · intro t; simp [exH]
  · intro t; simp [exH]
  all_goals decide +kernel

/-- **Violation**: a thread that used Caliper before the channel was made is not sampled. -/
theorem C112_violation_existing : (run init [.create 0 50 true, .start 1 true]).timers.map Timer.tid = [0] ∧
    1 ∈ (run init [.create 0 50 true, .start 1 true]).known := by
  refine ⟨?_, ?_⟩ <;> decide +kernel

/-- **Violation**: with a frequency of 1 (or less, which is taken as 1) there are no samples at all. -/
theorem C112_violation_frequency (f : Int) (hf : f ≤ 1) : (step (.create 0 f true) init).timers = [] := by
  have h : interval f = 1000000000 := by rw [C112_period]; unfold period; rw [if_pos hf]
  show (setup true 0 _).timers = []
  unfold setup
  rw [if_neg (by simp), if_pos (by show _ ≤ interval f; rw [h]; exact Nat.le_refl _)]
  rfl

/-- **Violation**: a deactivated channel is sampled. -/
theorem C112_violation_inactive : (run init [.push 0, .fire 0 false 5, .activate false, .create 0 50 true]).samples = [⟨0, 0, 5⟩] ∧
    (run init [.push 0, .fire 0 false 5, .activate false, .create 0 50 true]).active = false := by
  refine ⟨?_, ?_⟩ <;> decide +kernel

/-- **Violation**: the timers of other threads are left over when the channel is deleted, and give samples with the old frequency in the next
channel. -/
theorem C112_violation_leftover : (run init [.delete 0, .start 1 true, .create 0 10 true]).timers = [⟨1, 1, 100000000⟩] ∧
    (run init [.push 1, .fire 1 false 9, .create 0 50 true, .delete 0, .start 1 true, .create 0 10 true]).samples = [⟨1, 1, 9⟩] ∧
    (run init [.create 0 50 true, .delete 0, .start 1 true, .create 0 10 true]).timers = [⟨1, 1, 100000000⟩, ⟨2, 0, 20000000⟩] := by
  refine ⟨?_, ?_, ?_⟩ <;> decide +kernel

/-- **Violation**: a thread with a nesting error that makes the channel cannot find its timer again: after the next channel has been made, it is sampled
by two timers. -/
theorem C112_violation_nesting : (run init [.create 0 50 true, .delete 0, .create 0 50 true, .freeze 0]).timers =
    [⟨0, 0, 20000000⟩, ⟨1, 0, 20000000⟩] := by
  decide +kernel

/-- **Violation**: a thread that is in the signal handler when another deletes the channel uses a null pointer. -/
theorem C112_violation_race : (run init [.push 1, .delete 0, .fire 1 false 9, .start 1 true, .create 0 50 true]).crashed = true := by
  decide +kernel

end Verif.Serv.Smp
