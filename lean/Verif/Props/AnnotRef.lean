import Verif.Annot.RefEnd
/-!
# C76: shared annotation objects

`Loop`, `Annotation` and `Guard` handles that are copied, assigned and destroyed by any number of threads in any order
(`Verif/Annot/Ref.lean`).
-/
namespace Verif.Annot.Ref

/-- C76: however the threads construct, copy and destroy `Loop` handles and call `end()` on them, no deleted loop object is ever
accessed, none is deleted twice or while a handle of it exists, and once nobody is at work all those without handles are deleted.  (No
`Loop` assignment; see `C76_violation_assign`.) -/
theorem C76_loop_lifetime_partial {R : Rules} (hR : R.assignLoop = false) {s : State} (h : Reach .loop R s) :
    s.uaf = false ∧ (∀ i, (s.heap i).freed ≤ 1) ∧ (∀ g i, (g, i) ∈ s.hs → (s.heap i).freed = 0) ∧
    ((∀ t, s.pc t = .idle) → ∀ i, i < s.next → (∀ g, (g, i) ∉ s.hs) → (s.heap i).freed = 1) := by
  have I := h.inv hR (by simp)
  refine ⟨I.uaf, fun i => ?_, fun g i hg => I.notFreed' (count_pos hg), fun hi i hlt hg => ?_⟩
  · by_contra hn
    have := (I.freed i (by omega)).1
    omega
  · have h0 : s.count i = 0 := by
      rw [count_eq, List.countP_eq_zero]
      intro e he hh
      obtain ⟨g, j⟩ := e
      have hh : j = i := by simpa using hh
      subst hh
      exact hg g he
    by_contra hn
    by_cases hf : (s.heap i).freed = 0
    · obtain ⟨t, ht⟩ := I.last i hlt h0 hf
      rw [hi t] at ht; exact ht
    · exact hn (I.freed i (by omega)).1

/-- C76: `Annotation` and `Guard` handles: the same, provided no two threads give up references to the same annotation object at the same
time (see `C76_violation_detach`); assignment of annotations is allowed. -/
theorem C76_annotation_lifetime_partial {R : Rules} (hR : R.assignLoop = false) (hR2 : R.overlapDetach = false) {s : State}
    (h : Reach .ann R s) :
    s.uaf = false ∧ (∀ i, (s.heap i).freed ≤ 1) ∧ (∀ g i, (g, i) ∈ s.hs → (s.heap i).freed = 0) ∧
    ((∀ t, s.pc t = .idle) → ∀ i, i < s.next → (∀ g, (g, i) ∉ s.hs) → (s.heap i).freed = 1) := by
  have I := h.inv hR (fun _ => hR2)
  refine ⟨I.uaf, fun i => ?_, fun g i hg => I.notFreed' (count_pos hg), fun hi i hlt hg => ?_⟩
  · by_contra hn
    have := (I.freed i (by omega)).1
    omega
  · have h0 : s.count i = 0 := by
      rw [count_eq, List.countP_eq_zero]
      intro e he hh
      obtain ⟨g, j⟩ := e
      have hh : j = i := by simpa using hh
      subst hh
      exact hg g he
    by_contra hn
    by_cases hf : (s.heap i).freed = 0
    · obtain ⟨t, ht⟩ := I.last i hlt h0 hf
      rw [hi t] at ht; exact ht
    · exact hn (I.freed i (by omega)).1

/-- C76: the loop region is ended at most once however many copies there are and however often `end()` is called, and exactly once when the
last handle is gone; provided no two `end()` calls on copies of a loop overlap (see `C76_violation_end`). -/
theorem C76_loop_ended_once_partial {R : Rules} (hR1 : R.assignLoop = false) (hR2 : R.overlapEnd = false) {s : State} (h : Reach .loop R s)
    {i : Nat} (hi : i < s.next) :
    (s.heap i).ended ≤ 1 ∧ ((s.heap i).freed = 1 → (s.heap i).ended = 1) ∧
    ((∀ t, s.pc t = .idle) → (∀ g, (g, i) ∉ s.hs) → (s.heap i).ended = 1) := by
  have I := h.einv hR1 hR2
  refine ⟨?_, fun hf => I.freed i (by omega), fun hidle hg => ?_⟩
  · by_cases hd : ∃ t o, s.pc t = .dec o i
    · obtain ⟨t, o, ht⟩ := hd
      have := (I.atDec t o i ht).1
      omega
    · have := I.bal i hi (fun t o ht => hd ⟨t, o, ht⟩)
      omega
  · have := (C76_loop_lifetime_partial hR1 h).2.2.2 hidle i hi hg
    exact I.freed i (by omega)

/-- no restrictions -/
def anything : Rules := ⟨true, true, true⟩
/-- the restrictions under which everything holds -/
def careful : Rules := ⟨false, false, false⟩

/-- a history that meets the hypotheses: a loop with two handles; `end()` on the first, both destroyed -/
example : ∃ s, Reach .loop careful s ∧ s.next = 1 ∧ (∀ t, s.pc t = .idle) ∧ s.hs = [] ∧ (s.heap 0).ended = 1 ∧ (s.heap 0).freed = 1 := by
  have r1 := Reach.step (Reach.init (c := .loop) (R := careful)) (.new 1 10 rfl (by simp [init]) (by simp [init, Pc.assigns]))
  have r2 := Reach.step r1 (.copy 1 10 11 0 rfl (by simp [init]) (by simp [init]) (by simp [init, Pc.assigns]))
  have r3 := Reach.step r2 (.callEnd 2 10 0 rfl rfl (by simp [init, State.attach, State.mod]) (by simp [init, State.attach, State.mod, Pc.inEnd]))
  have r4 := Reach.step r3 (.chk 2 0 (some 10) rfl)
  have r5 := Reach.step r4 (.call 2 0 (some 10) rfl)
  have r6 := Reach.step r5 (.dec 2 0 (some 10) rfl)
  have r7 := Reach.step r6 (.dropLoop 1 10 0 rfl rfl (by simp [init, State.attach, State.mod, State.goto]) (by
    intro u; by_cases e : u = 2 <;> simp [init, State.attach, State.mod, State.goto, upd, e, Pc.uses]))
  have r8 := Reach.step r7 (.dropLoop 2 11 0 rfl rfl (by simp [init, State.attach, State.mod, State.goto, State.release]) (by
    intro u; by_cases e : u = 2 <;> by_cases e1 : u = 1 <;> simp [init, State.attach, State.mod, State.goto, State.release, upd, e, e1, Pc.uses]))
  have r9 := Reach.step r8 (.chk 2 0 none rfl)
  have r10 := Reach.step r9 (.del 2 0 rfl)
  refine ⟨_, r10, rfl, ?_, rfl, rfl, rfl⟩
  intro u
  by_cases e : u = 2 <;> by_cases e1 : u = 1 <;>
    simp [init, State.attach, State.mod, State.goto, State.release, upd, e, e1]

/-- C76 (violated): two threads that destroy the last two handles of an annotation (say, copies of a global `Annotation`, or its
`Guard`s) can both see the counter at zero, because `detach` decrements and tests it in two separate operations: the object is
deleted twice. -/
theorem C76_violation_detach : ∃ s, Reach .ann ⟨false, false, true⟩ s ∧ (s.heap 0).freed = 2 ∧ s.uaf = true := by
  have r1 := Reach.step (Reach.init (c := .ann) (R := ⟨false, false, true⟩)) (.new 1 10 rfl (by simp [init]) (by simp [init, Pc.assigns]))
  have r2 := Reach.step r1 (.copy 1 10 11 0 rfl (by simp [init]) (by simp [init]) (by simp [init, Pc.assigns]))
  have r3 := Reach.step r2 (.dropAnn 1 10 0 rfl rfl (by simp [init, State.attach, State.mod]) (by simp [init, State.attach, State.mod, Pc.uses]) (by simp))
  have r4 := Reach.step r3 (.dropAnn 2 11 0 rfl rfl (by simp [init, State.attach, State.mod, State.goto, State.release]) (by
    intro u; by_cases e : u = 1 <;> simp [init, State.attach, State.mod, State.goto, State.release, upd, e, Pc.uses]) (by simp))
  have r5 := Reach.step r4 (.test 1 0 none rfl)
  have r6 := Reach.step r5 (.test 2 0 none rfl)
  exact ⟨_, r6, rfl, rfl⟩

/-- C76 (violated): two threads that call `end()` on copies of a loop at the same time can both pass the level check: the loop region is ended
twice, that is, an enclosing region is closed or a mismatch error raised. -/
theorem C76_violation_end : ∃ s, Reach .loop ⟨false, true, false⟩ s ∧ (s.heap 0).ended = 2 := by
  have r1 := Reach.step (Reach.init (c := .loop) (R := ⟨false, true, false⟩)) (.new 1 10 rfl (by simp [init]) (by simp [init, Pc.assigns]))
  have r2 := Reach.step r1 (.copy 1 10 11 0 rfl (by simp [init]) (by simp [init]) (by simp [init, Pc.assigns]))
  have r3 := Reach.step r2 (.callEnd 1 10 0 rfl rfl (by simp [init, State.attach, State.mod]) (by simp))
  have r4 := Reach.step r3 (.callEnd 2 11 0 rfl rfl (by simp [init, State.attach, State.mod, State.goto]) (by simp))
  have r5 := Reach.step r4 (.chk 1 0 (some 10) rfl)
  have r6 := Reach.step r5 (.chk 2 0 (some 11) rfl)
  have r7 := Reach.step r6 (.call 1 0 (some 10) rfl)
  have r8 := Reach.step r7 (.call 2 0 (some 11) rfl)
  exact ⟨_, r8, rfl⟩

/-- C76 (violated): `Loop` has a copy constructor and a destructor that count references but no assignment operator: after `a = b;` and
the destruction of both, the object of `b` has been accessed after its deletion, and the loop of `a` was never ended. -/
theorem C76_violation_assign : ∃ s, Reach .loop ⟨true, false, false⟩ s ∧ s.uaf = true ∧ s.next = 2 ∧ s.hs = [] ∧ (s.heap 0).ended = 0 ∧
    (s.heap 0).freed = 0 := by
  have r1 := Reach.step (Reach.init (c := .loop) (R := ⟨true, false, false⟩)) (.new 1 10 rfl (by simp [init]) (by simp [init, Pc.assigns]))
  have r2 := Reach.step r1 (.new 1 11 rfl (by simp [init]) (by simp [init, Pc.assigns]))
  have r3 := Reach.step r2 (.assignLoop 1 10 0 11 1 rfl rfl rfl (by simp [init]) (by simp [init]) (by simp [init, Pc.uses]))
  have r4 := Reach.step r3 (.dropLoop 1 11 1 rfl rfl (by decide) (by simp [init, Pc.uses]))
  have r5 := Reach.step r4 (.chk 1 1 none rfl)
  have r6 := Reach.step r5 (.call 1 1 none rfl)
  have r7 := Reach.step r6 (.dec 1 1 none rfl)
  have r8 := Reach.step r7 (.del 1 1 rfl)
  have r9 := Reach.step r8 (.dropLoop 1 10 1 rfl rfl (by decide) (by
    intro u; by_cases e : u = 1 <;> simp [init, State.mod, State.goto, State.release, upd, e, Pc.uses]))
  exact ⟨_, r9, rfl, rfl, rfl, rfl, rfl⟩

end Verif.Annot.Ref
