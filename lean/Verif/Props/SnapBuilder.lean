import Verif.Snapshot.Builder
/-!
# C19: snapshot builder
-/
namespace Verif.Snap

variable {α : Type}

/-- C19: after any history of appends and removals, the builder holds exactly what the bounded-list specification says, its size
never exceeds its capacity, and no memory beyond the capacity was written. -/
theorem C19_builder_refines (eq : α → α → Bool) (cap : Nat) (mem : Nat → α) (ops : List (BOp α)) :
    ((Builder.init cap mem).run eq ops).view = (BSpec.run eq cap ⟨[], 0⟩ ops).l ∧
    ((Builder.init cap mem).run eq ops).skipped = (BSpec.run eq cap ⟨[], 0⟩ ops).skipped ∧
    ((Builder.init cap mem).run eq ops).view.length = ((Builder.init cap mem).run eq ops).len ∧
    ((Builder.init cap mem).run eq ops).len ≤ cap ∧
    ∀ i, cap ≤ i → ((Builder.init cap mem).run eq ops).mem i = mem i := by
  suffices ∀ (b : Builder α), b.len ≤ b.cap →
      (⟨(b.run eq ops).view, (b.run eq ops).skipped⟩ : BSpec α) = BSpec.run eq b.cap ⟨b.view, b.skipped⟩ ops ∧ (b.run eq ops).len ≤ b.cap ∧
      ∀ i, b.cap ≤ i → (b.run eq ops).mem i = b.mem i by
    obtain ⟨h1, h2, h3⟩ := this (Builder.init cap mem) (Nat.zero_le _)
    have e : (⟨(Builder.init cap mem).view, (Builder.init cap mem).skipped⟩ : BSpec α) = ⟨[], 0⟩ := by simp [Builder.init, Builder.view]
    rw [e] at h1
    refine ⟨?_, ?_, by simp [Builder.view], h2, h3⟩
    · exact congrArg BSpec.l h1
    · exact congrArg BSpec.skipped h1
  induction ops with
  | nil => exact fun b hb => ⟨rfl, hb, fun _ _ => rfl⟩
  | cons op ops ih =>
    intro b hb
    obtain ⟨h1, h2, h3, h4⟩ := step_spec eq b hb op
    obtain ⟨k1, k2, k3⟩ := ih (b.step eq op) (by omega)
    simp only [Builder.run, BSpec.run]
    rw [h1] at k1 k2 k3
    exact ⟨by rw [k1, h3], k2, fun i hi => by rw [k3 i hi, h4 i hi]⟩

/-- the entries an operation appends -/
def BOp.adds : BOp α → List α
  | .append e => [e]
  | .appendN es => es
  | .remove _ => []

/-- C19: without removals the builder holds the longest prefix of the appended entries that fits, and `skipped` counts the rest. -/
theorem C19_prefix (eq : α → α → Bool) (cap : Nat) (mem : Nat → α) (ops : List (BOp α)) (h : ∀ op ∈ ops, ∀ e, op ≠ .remove e) :
    ((Builder.init cap mem).run eq ops).view = (ops.flatMap BOp.adds).take cap ∧
    ((Builder.init cap mem).run eq ops).skipped = (ops.flatMap BOp.adds).length - cap := by
  obtain ⟨h1, h2, hx⟩ := C19_builder_refines eq cap mem ops
  rw [h1, h2]
  suffices ∀ (s : BSpec α) (pre : List α), s.l = pre.take cap → s.skipped = pre.length - cap →
      (BSpec.run eq cap s ops).l = (pre ++ ops.flatMap BOp.adds).take cap ∧
      (BSpec.run eq cap s ops).skipped = (pre ++ ops.flatMap BOp.adds).length - cap by
    simpa using this ⟨[], 0⟩ [] (by simp) (by simp)
  clear h1 h2 hx
  induction ops with
  | nil => intro s pre a b; simpa [BSpec.run] using ⟨a, b⟩
  | cons op ops ih =>
    intro s pre a b
    simp only [BSpec.run]
    have key : (s.step eq cap op).l = (pre ++ op.adds).take cap ∧ (s.step eq cap op).skipped = (pre ++ op.adds).length - cap := by
      have ext : ∀ es : List α, (s.l ++ es).take cap = (pre ++ es).take cap ∧ s.skipped + (s.l.length + es.length - cap) = (pre ++ es).length - cap := by
        intro es
        constructor
        · rw [a, List.take_append, List.take_append, List.take_take, Nat.min_self, List.length_take]
          congr 2
          omega
        · rw [a, b, List.length_take, List.length_append]; omega
      cases op with
      | append e => exact ext [e]
      | appendN es => exact ext es
      | remove e => exact absurd rfl (h (.remove e) (by simp) e)
    have := ih (fun o ho => h o (by simp [ho])) _ _ key.1 key.2
    simpa [List.append_assoc] using this

/-- number of entries appended by a history -/
def appended (ops : List (BOp α)) : Nat := (ops.map fun o => o.adds.length).sum

/-- C19: every appended entry is accounted for: it is in the record, was counted as skipped, or was removed by a `remove` call
(each of which removes at most one entry). -/
theorem C19_accounting (eq : α → α → Bool) (cap : Nat) (mem : Nat → α) (ops : List (BOp α)) :
    ∃ removed, ((Builder.init cap mem).run eq ops).len + ((Builder.init cap mem).run eq ops).skipped + removed = appended ops ∧
      removed ≤ (ops.filter fun o => match o with | .remove _ => true | _ => false).length := by
  obtain ⟨h1, h2, h3, hx⟩ := C19_builder_refines eq cap mem ops
  rw [← h3, h1, h2]
  suffices ∀ (s : BSpec α), ∃ removed, (BSpec.run eq cap s ops).l.length + (BSpec.run eq cap s ops).skipped + removed =
      s.l.length + s.skipped + appended ops ∧ removed ≤ (ops.filter fun o => match o with | .remove _ => true | _ => false).length by
    simpa using this ⟨[], 0⟩
  clear h1 h2 h3 hx
  induction ops with
  | nil => intro s; exact ⟨0, rfl, Nat.le_refl _⟩
  | cons op ops ih =>
    intro s
    obtain ⟨r, k1, k2⟩ := ih (s.step eq cap op)
    simp only [BSpec.run, appended, List.map_cons, List.sum_cons] at k1 ⊢
    have ext : ∀ es : List α, ((s.l ++ es).take cap).length + (s.skipped + (s.l.length + es.length - cap)) = s.l.length + s.skipped + es.length := by
      intro es; rw [List.length_take, List.length_append]; omega
    cases op with
    | append e => exact ⟨r, by have := ext [e]; simp only [BSpec.step, BOp.adds] at *; simp only [List.length_singleton] at *; omega, by simpa using k2⟩
    | appendN es => exact ⟨r, by have := ext es; simp only [BSpec.step, BOp.adds] at *; omega, by simpa using k2⟩
    | remove e =>
      have hl : (s.l.eraseP (eq e)).length ≤ s.l.length ∧ s.l.length ≤ (s.l.eraseP (eq e)).length + 1 := by
        have := List.length_eraseP (l := s.l) (p := eq e)
        rw [this]; split <;> omega
      refine ⟨r + (s.l.length - (s.l.eraseP (eq e)).length), ?_, ?_⟩
      · simp only [BSpec.step, BOp.adds, List.length_nil] at *; omega
      · simp only [List.filter_cons, if_true, List.length_cons]; omega

/-- C19: `remove` deletes exactly the first entry equal to its argument and nothing else. -/
theorem C19_remove_first (eq : α → α → Bool) (b : Builder α) (e x : α) (l₁ l₂ : List α) (hv : b.view = l₁ ++ x :: l₂)
    (h1 : ∀ y ∈ l₁, eq e y = false) (h2 : eq e x = true) : (b.remove eq e).view = l₁ ++ l₂ := by
  rw [remove_view, hv, eraseP_split h1 h2]

/-- C19: and nothing at all if there is no equal entry. -/
theorem C19_remove_absent (eq : α → α → Bool) (b : Builder α) (e : α) (h1 : ∀ y ∈ b.view, eq e y = false) :
    (b.remove eq e).view = b.view := by
  rw [remove_view, List.eraseP_of_forall_not]
  intro y hy; simp [h1 y hy]

/-- a history with bulk append, overflow and removal -/
example : ((Builder.init 3 (fun _ => 0)).run (· == ·) [.append 1, .appendN [2, 1, 4], .remove 1, .append 7, .append 8]).view = [2, 1, 7] ∧
    ((Builder.init 3 (fun _ => 0)).run (· == ·) [.append 1, .appendN [2, 1, 4], .remove 1, .append 7, .append 8]).skipped = 2 := by decide

end Verif.Snap
