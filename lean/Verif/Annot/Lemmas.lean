import Verif.Annot.Spec
import Verif.Runtime.AbsLemmas
namespace Verif.Annot
open MTree RT

/-- balanced calls, with the attributes that must have no value at the start -/
inductive Scoped (th : Nat) : List Op → List Attr → Prop where
  | nil : Scoped th [] []
  | append {xs ys A B} : Scoped th xs A → Scoped th ys B → Scoped th (xs ++ ys) (A ++ B)
  | wrap {xs A} (a : Attr) (v : Val) : a.kind ≠ .value → (∀ b ∈ A, b.id ≠ a.id) → Scoped th xs A →
      Scoped th (.begin th a v :: (xs ++ [.endR th a])) A
  | wrapV {xs A} (a : Attr) (v : Val) : (∀ b ∈ A, b.id ≠ a.id) → Scoped th xs A →
      Scoped th (.begin th a v :: (xs ++ [.endR th a])) (a :: A)
  | wrapSet {xs A} (a : Attr) (v : Val) : (∀ b ∈ A, b.id ≠ a.id) → Scoped th xs A →
      Scoped th (.set th a v :: (xs ++ [.endR th a])) (a :: A)

/-- no value -/
def Free (c : Abs) (th : Nat) (A : List Attr) : Prop := ∀ a ∈ A, ∀ l, scopeLoc a th = some l → (c.ctx l).get a = none

theorem get_begin_ne (c : Ctx) {a b : Attr} (v : Val) (h : b.id ≠ a.id) : (c.begin a v).get b = c.get b := by
  have h1 : ∀ l : PathL, innermost b.id (l ++ [(a.id, v)]) = innermost b.id l := by
    intro l; unfold innermost
    rw [List.reverse_append]
    simp only [List.reverse_cons, List.reverse_nil, List.nil_append, List.singleton_append]
    rw [List.find?_cons_of_neg (by simpa using Ne.symm h)]
  unfold Ctx.begin Ctx.get
  cases a.kind <;> cases b.kind <;> simp [updV, h, h1]

theorem innermost_none_iff {a : Nat} {l : PathL} (h : innermost a l = none) : ∀ e ∈ l, e.1 ≠ a := by
  intro e he
  unfold innermost at h
  simp only [Option.map_eq_none_iff, List.find?_eq_none, List.mem_reverse, decide_eq_true_eq] at h
  exact h e he

theorem eraseInner_none {a : Nat} {l : PathL} (h : innermost a l = none) : eraseInner a l = l := by
  unfold eraseInner
  rw [List.eraseP_of_forall_not]
  · simp
  · intro e he; simpa using innermost_none_iff h e (by simpa using he)

theorem set_eq_begin {c : Ctx} {a : Attr} (v : Val) (h : c.get a = none) : c.set a v = c.begin a v := by
  unfold Ctx.get at h
  unfold Ctx.set Ctx.begin
  cases hk : a.kind <;> rw [hk] at h <;> simp only at h ⊢
  · rw [eraseInner_none h]
  · rw [eraseInner_none h]

theorem endR_begin' {c : Ctx} {a : Attr} (v : Val) (h : a.kind ≠ .value ∨ c.get a = none) : (c.begin a v).endR a = c := by
  by_cases hk : a.kind = .value
  · have h : c.get a = none := by rcases h with h | h; exact absurd hk h; exact h
    unfold Ctx.get at h
    rw [hk] at h
    unfold Ctx.begin Ctx.endR
    simp only [hk]
    have : updV (updV c.vals a.id (some v)) a.id none = c.vals := by
      funext k; unfold updV
      by_cases e : k = a.id
      · simp only [e, if_true]; exact h.symm
      · simp [e]
    rw [this]
  · exact endR_begin c a v hk

/-- what an opening call does -/
theorem abs_open (ac ia) {c : Abs} {th : Nat} {a : Attr} {v : Val} {op : Op} (he : c.err th = false)
    (h : op = .begin th a v ∨ (op = .set th a v ∧ Free c th [a])) :
    (c.step ac ia op).ctx = (match scopeLoc a th with
      | none => c.ctx
      | some l => fun l' => if l' = l then (c.ctx l).begin a v else c.ctx l') ∧ (c.step ac ia op).err = c.err := by
  rcases h with rfl | ⟨rfl, h⟩
  · refine ⟨?_, by funext t; exact abs_step_err _ _ _ _ _ (fun _ => rfl)⟩
    simp only [Abs.step, he, Bool.false_eq_true, if_false, abs_emitAll_ctx]
    cases hl : scopeLoc a th with
    | none => simp
    | some l => simp only [Abs.put, abs_emitAll_ctx]
  · refine ⟨?_, by funext t; exact abs_step_err _ _ _ _ _ (fun _ => rfl)⟩
    simp only [Abs.step, he, Bool.false_eq_true, if_false, abs_emitAll_ctx]
    cases hl : scopeLoc a th with
    | none => simp
    | some l =>
      simp only [Abs.put, abs_emitAll_ctx]
      rw [set_eq_begin v (h a (by simp) l hl)]

theorem free_open (ac ia) {c : Abs} {th : Nat} {a : Attr} {v : Val} {op : Op} {A : List Attr} (he : c.err th = false)
    (h : op = .begin th a v ∨ (op = .set th a v ∧ Free c th [a])) (hA : Free c th A) (hn : ∀ b ∈ A, b.id ≠ a.id) :
    Free (c.step ac ia op) th A := by
  intro b hb l hl
  rw [(abs_open ac ia he h).1]
  cases hla : scopeLoc a th with
  | none => exact hA b hb l hl
  | some l' =>
    simp only
    split
    · rename_i e; subst e
      rw [get_begin_ne _ _ (hn b hb)]; exact hA b hb l hl
    · exact hA b hb l hl

theorem abs_wrap (ac ia) {th : Nat} {xs : List Op} {A : List Attr} {a : Attr} {v : Val} {op : Op}
    (ih : ∀ {c : Abs}, c.err th = false → Free c th A → (c.run ac ia xs).ctx = c.ctx ∧ (c.run ac ia xs).err = c.err)
    (hn : ∀ b ∈ A, b.id ≠ a.id) {c : Abs} (he : c.err th = false) (hA : Free c th A)
    (hk : a.kind ≠ .value ∨ Free c th [a])
    (h : op = .begin th a v ∨ (op = .set th a v ∧ Free c th [a])) :
    (c.run ac ia (op :: (xs ++ [.endR th a]))).ctx = c.ctx ∧ (c.run ac ia (op :: (xs ++ [.endR th a]))).err = c.err := by
  simp only [Abs.run]
  rw [abs_run_append]
  obtain ⟨o1, o2⟩ := abs_open ac ia he h
  obtain ⟨i1, i2⟩ := ih (c := c.step ac ia op) (by rw [o2]; exact he) (free_open ac ia he h hA hn)
  generalize (c.step ac ia op).run ac ia xs = c2 at *
  rw [o2] at i2
  rw [o1] at i1
  simp only [Abs.run, Abs.step]
  cases hl : scopeLoc a th with
  | none =>
    unfold Abs.endCore
    rw [i2, he]
    simp only [hl, Bool.false_eq_true, if_false]
    rw [hl] at i1
    exact ⟨i1, i2⟩
  | some l =>
    rw [hl] at i1
    have hcl : (c2.ctx l) = (c.ctx l).begin a v := by rw [i1]; simp
    rw [abs_endCore_ok ac (by rw [i2]; exact he) hl (v := v) (by rw [hcl, endable_begin]) (.inl rfl)]
    refine ⟨?_, by simpa using i2⟩
    funext l'
    by_cases e : l' = l
    · subst e
      rw [put_ctx_eq, hcl, endR_begin']
      rcases hk with hk | hk
      · exact .inl hk
      · exact .inr (hk a (by simp) _ hl)
    · rw [put_ctx_ne _ _ e, abs_emitAll_ctx, i1]
      simp [e]

theorem abs_scoped {th : Nat} {ops : List Op} {A : List Attr} (h : Scoped th ops A) (ac ia) {c : Abs} (he : c.err th = false)
    (hf : Free c th A) : (c.run ac ia ops).ctx = c.ctx ∧ (c.run ac ia ops).err = c.err := by
  induction h generalizing c with
  | nil => exact ⟨rfl, rfl⟩
  | append _ _ ih1 ih2 =>
    rw [abs_run_append]
    obtain ⟨a1, a2⟩ := ih1 he (fun a ha => hf a (by simp [ha]))
    obtain ⟨b1, b2⟩ := ih2 (c := c.run ac ia _) (by rw [a2]; exact he)
      (fun a ha l hl => by rw [a1]; exact hf a (by simp [ha]) l hl)
    exact ⟨b1.trans a1, b2.trans a2⟩
  | wrap a v hk hn _ ih => exact abs_wrap ac ia ih hn he hf (.inl hk) (.inl rfl)
  | wrapV a v hn _ ih =>
    exact abs_wrap ac ia ih hn he (fun a ha => hf a (by simp [ha])) (.inr fun a ha => hf a (by simp_all)) (.inl rfl)
  | wrapSet a v hn _ ih =>
    have : Free c th [a] := fun b hb => hf b (by simp_all)
    exact abs_wrap ac ia ih hn he (fun a ha => hf a (by simp [ha])) (.inr this) (.inr ⟨rfl, this⟩)

/-- calls up to a point inside, with the values of the enclosing blocks -/
inductive Inside (th : Nat) : List Op → List (Attr × Val) → List Attr → Prop where
  | here {xs A} : Scoped th xs A → Inside th xs [] A
  | after {xs A ys stk B} : Scoped th xs A → Inside th ys stk B → Inside th (xs ++ ys) stk (A ++ B)
  | begin {ys stk A} (a : Attr) (v : Val) : (∀ b ∈ A, b.id ≠ a.id) → Inside th ys stk A → Inside th (.begin th a v :: ys) ((a, v) :: stk) A
  | set {ys stk A} (a : Attr) (v : Val) : (∀ b ∈ A, b.id ≠ a.id) → Inside th ys stk A → Inside th (.set th a v :: ys) ((a, v) :: stk) (a :: A)

/-- the contexts with more values begun -/
def push (th : Nat) (ctx : Loc → Ctx) : List (Attr × Val) → Loc → Ctx
  | [] => ctx
  | (a, v) :: stk => push th (match scopeLoc a th with
      | none => ctx
      | some l => fun l' => if l' = l then (ctx l).begin a v else ctx l') stk

theorem abs_inside {th : Nat} {ops : List Op} {stk : List (Attr × Val)} {A : List Attr} (h : Inside th ops stk A) (ac ia) {c : Abs}
    (he : c.err th = false) (hf : Free c th A) :
    (c.run ac ia ops).ctx = push th c.ctx stk ∧ (c.run ac ia ops).err = c.err := by
  induction h generalizing c with
  | here h => exact abs_scoped h ac ia he hf
  | after h _ ih =>
    rw [abs_run_append]
    obtain ⟨a1, a2⟩ := abs_scoped h ac ia he (fun a ha => hf a (by simp [ha]))
    obtain ⟨b1, b2⟩ := ih (c := c.run ac ia _) (by rw [a2]; exact he)
      (fun a ha l hl => by rw [a1]; exact hf a (by simp [ha]) l hl)
    rw [a1] at b1
    exact ⟨b1, b2.trans a2⟩
  | begin a v hn _ ih =>
    simp only [Abs.run, push]
    have hop : (Op.begin th a v) = .begin th a v ∨ (Op.begin th a v = .set th a v ∧ Free c th [a]) := .inl rfl
    obtain ⟨o1, o2⟩ := abs_open ac ia he hop
    obtain ⟨b1, b2⟩ := ih (c := c.step ac ia (.begin th a v)) (by rw [o2]; exact he) (free_open ac ia he hop hf hn)
    rw [o1] at b1
    exact ⟨b1, b2.trans o2⟩
  | set a v hn _ ih =>
    simp only [Abs.run, push]
    have hop : (Op.set th a v) = .begin th a v ∨ (Op.set th a v = .set th a v ∧ Free c th [a]) :=
      .inr ⟨rfl, fun b hb => hf b (by simp_all)⟩
    obtain ⟨o1, o2⟩ := abs_open ac ia he hop
    obtain ⟨b1, b2⟩ := ih (c := c.step ac ia (.set th a v)) (by rw [o2]; exact he)
      (free_open ac ia he hop (fun b hb => hf b (by simp [hb])) hn)
    rw [o1] at b1
    exact ⟨b1, b2.trans o2⟩

theorem push_region (th : Nat) (ctx : Loc → Ctx) (stk : List (Attr × Val)) (l : Loc) :
    (push th ctx stk l).region = (ctx l).region ++ stackOf th l .region stk := by
  induction stk generalizing ctx with
  | nil => simp [push, stackOf]
  | cons e stk ih =>
    obtain ⟨a, v⟩ := e
    simp only [push]
    rw [ih]
    cases hl : scopeLoc a th with
    | none => simp [stackOf, hl]
    | some l' =>
      simp only
      by_cases e : l = l'
      · subst e
        cases hk : a.kind <;> simp [Ctx.begin, hk, stackOf, hl]
      · have e' : l' ≠ l := Ne.symm e
        simp [e, e', stackOf, hl]

theorem push_unal (th : Nat) (ctx : Loc → Ctx) (stk : List (Attr × Val)) (l : Loc) :
    (push th ctx stk l).unal = (ctx l).unal ++ stackOf th l .unaligned stk := by
  induction stk generalizing ctx with
  | nil => simp [push, stackOf]
  | cons e stk ih =>
    obtain ⟨a, v⟩ := e
    simp only [push]
    rw [ih]
    cases hl : scopeLoc a th with
    | none => simp [stackOf, hl]
    | some l' =>
      simp only
      by_cases e : l = l'
      · subst e
        cases hk : a.kind <;> simp [Ctx.begin, hk, stackOf, hl]
      · have e' : l' ≠ l := Ne.symm e
        simp [e, e', stackOf, hl]

theorem push_get_ne (th : Nat) (ctx : Loc → Ctx) (stk : List (Attr × Val)) (l : Loc) (b : Attr) (h : ∀ e ∈ stk, e.1.id ≠ b.id) :
    (push th ctx stk l).get b = (ctx l).get b := by
  induction stk generalizing ctx with
  | nil => rfl
  | cons e stk ih =>
    obtain ⟨a, v⟩ := e
    simp only [push]
    rw [ih _ (fun e he => h e (by simp [he]))]
    cases hl : scopeLoc a th with
    | none => rfl
    | some l' =>
      simp only
      split
      · rename_i e; subst e; exact get_begin_ne _ _ (Ne.symm (h (a, v) (by simp)))
      · rfl

/-- the innermost enclosing block of an attribute is what a query sees -/
theorem push_get (th : Nat) (ctx : Loc → Ctx) (x y : List (Attr × Val)) {l : Loc} {a : Attr} {v : Val} (hl : scopeLoc a th = some l)
    (h : ∀ e ∈ y, e.1.id ≠ a.id) : (push th ctx (x ++ (a, v) :: y) l).get a = some v := by
  induction x generalizing ctx with
  | cons e x ih => obtain ⟨b, w⟩ := e; exact ih _
  | nil =>
    simp only [List.nil_append, push, hl]
    rw [push_get_ne _ _ _ _ _ h]
    simp only [if_true]
    unfold Ctx.begin Ctx.get
    cases a.kind <;> simp [updV, innermost]

end Verif.Annot
