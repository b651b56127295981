import Verif.Runtime.Sim
namespace Verif.RT
open MTree

/-! ### losses only grow -/

theorem handleBegin_mono (t : Tree) (th : Nat) (a : Attr) (v : Val) (bb : Board) :
    t.fails ≤ (handleBegin t th a v bb).1.fails ∧ ∀ bb', (handleBegin t th a v bb).2 = some bb' → bb.skipped ≤ bb'.skipped := by
  unfold handleBegin
  split
  · exact ⟨Nat.le_refl _, fun _ h => set_mono h⟩
  · split
    · exact ⟨Nat.le_refl _, by simp⟩
    · rename_i cur _
      have h := getChild_fails t th a.id v cur.node
      cases hg : getChild t th a.id v cur.node with
      | mk t' r =>
        rw [hg] at h
        cases r with
        | none => exact ⟨h, by simp⟩
        | some n => exact ⟨h, fun _ h => set_mono h⟩

theorem handleSet_mono (t : Tree) (th : Nat) (a : Attr) (v : Val) (bb : Board) :
    t.fails ≤ (handleSet t th a v bb).1.fails ∧ ∀ bb', (handleSet t th a v bb).2 = some bb' → bb.skipped ≤ bb'.skipped := by
  unfold handleSet
  split
  · exact ⟨Nat.le_refl _, fun _ h => set_mono h⟩
  · split
    · exact ⟨Nat.le_refl _, by simp⟩
    · rename_i cur _
      have h := replaceFirst_fails t th cur.node a.id v
      cases hg : replaceFirst t th cur.node a.id v with
      | mk t' r =>
        rw [hg] at h
        cases r with
        | none => exact ⟨h, by simp⟩
        | some n => exact ⟨h, fun _ h => set_mono h⟩

theorem handleEnd_mono (t : Tree) (th : Nat) (a : Attr) (m e : Entry) (key : Nat) (bb : Board) :
    t.fails ≤ (handleEnd t th a m e key bb).1.fails ∧
    ∀ bb', (handleEnd t th a m e key bb).2 = some bb' → bb.skipped ≤ bb'.skipped := by
  unfold handleEnd
  split
  · exact ⟨Nat.le_refl _, fun _ h => del_mono h⟩
  · split
    · exact ⟨Nat.le_refl _, by simp⟩
    · rename_i n hn
      simp only
      split
      · exact ⟨Nat.le_refl _, fun _ h => del_mono h⟩
      · have h : t.fails ≤ (if m.node ≠ e.node then removeFirst t th (some n) a.id else (t, t.parentOf n)).1.fails := by
          split
          · exact removeFirst_fails ..
          · exact Nat.le_refl _
        cases hg : (if m.node ≠ e.node then removeFirst t th (some n) a.id else (t, t.parentOf n)) with
        | mk t' r =>
          rw [hg] at h
          cases r with
          | none => exact ⟨h, by simp⟩
          | some n => exact ⟨h, fun _ h => set_mono h⟩

structure LeLoss (s s' : State) : Prop where
  fails : s.tree.fails ≤ s'.tree.fails
  skip : ∀ l, (s.board l).skipped ≤ (s'.board l).skipped

theorem LeLoss.refl (s : State) : LeLoss s s := ⟨Nat.le_refl _, fun _ => Nat.le_refl _⟩
theorem LeLoss.trans {a b c : State} (h : LeLoss a b) (g : LeLoss b c) : LeLoss a c :=
  ⟨Nat.le_trans h.1 g.1, fun l => Nat.le_trans (h.2 l) (g.2 l)⟩

theorem put_le (s : State) (l : Loc) (r : Tree × Option Board)
    (h : s.tree.fails ≤ r.1.fails ∧ ∀ bb', r.2 = some bb' → (s.board l).skipped ≤ bb'.skipped) : LeLoss s (s.put l r) := by
  obtain ⟨t, o⟩ := r
  cases o with
  | none => exact ⟨h.1, fun l' => by cases l' <;> exact Nat.le_refl _⟩
  | some bb =>
    have h2 := h.2 bb rfl
    refine ⟨by cases l <;> exact h.1, fun l' => ?_⟩
    cases l <;> cases l' <;> simp only [State.put, State.board, BB.upd] at h2 ⊢ <;> first
      | exact Nat.le_refl _
      | exact h2
      | (split
         · rename_i e; subst e; exact h2
         · exact Nat.le_refl _)

@[simp] theorem emitAll_tree (s : State) (k th a v) : (s.emitAll k th a v).tree = s.tree := by unfold State.emitAll; split <;> rfl
@[simp] theorem emitAll_board (s : State) (k th a v l) : (s.emitAll k th a v).board l = s.board l := by
  unfold State.emitAll; split <;> cases l <;> rfl
@[simp] theorem emitAll_err (s : State) (k th a v) : (s.emitAll k th a v).err = s.err := by unfold State.emitAll; split <;> rfl
@[simp] theorem emitAll_dead (s : State) (k th a v) : (s.emitAll k th a v).dead = s.dead := by unfold State.emitAll; split <;> rfl
@[simp] theorem emitAll_active (s : State) (k th a v) : (s.emitAll k th a v).active = s.active := by unfold State.emitAll; split <;> rfl
@[simp] theorem emitAll_isActive (s : State) (k th a v) : (s.emitAll k th a v).isActive = s.isActive := by
  unfold State.emitAll; split <;> rfl
@[simp] theorem emitOne_tree (s : State) (c k th a v) : (s.emitOne c k th a v).tree = s.tree := by unfold State.emitOne; split <;> rfl
@[simp] theorem emitOne_board (s : State) (c k th a v l) : (s.emitOne c k th a v).board l = s.board l := by
  unfold State.emitOne; split <;> cases l <;> rfl
@[simp] theorem emitOne_err (s : State) (c k th a v) : (s.emitOne c k th a v).err = s.err := by unfold State.emitOne; split <;> rfl
@[simp] theorem emitOne_dead (s : State) (c k th a v) : (s.emitOne c k th a v).dead = s.dead := by unfold State.emitOne; split <;> rfl
@[simp] theorem emitOne_active (s : State) (c k th a v) : (s.emitOne c k th a v).active = s.active := by
  unfold State.emitOne; split <;> rfl
@[simp] theorem emitOne_isActive (s : State) (c k th a v) : (s.emitOne c k th a v).isActive = s.isActive := by
  unfold State.emitOne; split <;> rfl
@[simp] theorem put_active (s : State) (l r) : (s.put l r).active = s.active := by
  obtain ⟨t, o⟩ := r; cases o <;> cases l <;> rfl
@[simp] theorem put_isActive (s : State) (l r) : (s.put l r).isActive = s.isActive := by
  obtain ⟨t, o⟩ := r; cases o <;> cases l <;> rfl

theorem LeLoss.of_eq {s s' : State} (h1 : s'.tree = s.tree) (h2 : ∀ l, s'.board l = s.board l) : LeLoss s s' :=
  ⟨by rw [h1]; exact Nat.le_refl _, fun l => by rw [h2]; exact Nat.le_refl _⟩

theorem endCore_le (s : State) (th : Nat) (a : Attr) (ck : Option Val) : LeLoss s (endCore s th a ck) := by
  unfold endCore
  split
  · exact .refl s
  split
  · exact .refl s
  rename_i l _
  split
  · exact .of_eq rfl (by intro l; cases l <;> rfl)
  split
  · exact .of_eq rfl (by intro l; cases l <;> rfl)
  refine .trans (.of_eq (by simp) (by simp)) (put_le _ _ _ ?_)
  exact handleEnd_mono ..

theorem step_le (s : State) (op : Op) : LeLoss s (step s op) := by
  unfold step
  split
  · exact .refl s
  cases op with
  | begin th a v =>
    simp only [begin]
    split
    · exact .refl s
    have e0 : LeLoss s (s.emitAll .preBegin th a v) := .of_eq (by simp) (by simp)
    cases scopeLoc a th with
    | none =>
      simp only
      split
      · exact e0
      · exact e0.trans (.of_eq (by simp) (by simp))
    | some l =>
      have := e0.trans (put_le _ l _ (handleBegin_mono (s.emitAll .preBegin th a v).tree th a v _))
      simp only
      split
      · exact this
      · exact this.trans (.of_eq (by simp) (by simp))
  | set th a v =>
    simp only [set]
    split
    · exact .refl s
    have e0 : LeLoss s (s.emitAll .preSet th a v) := .of_eq (by simp) (by simp)
    split
    · exact e0
    · exact e0.trans (put_le _ _ _ (handleSet_mono ..))
  | endR th a => exact endCore_le ..
  | endCheck th a v => exact endCore_le ..
  | beginCh th ch a v =>
    simp only [beginCh]
    have e0 : LeLoss s (s.emitOne ch .preBegin th a v) := .of_eq (by simp) (by simp)
    have := e0.trans (put_le _ (.channel ch) _ (handleBegin_mono (s.emitOne ch .preBegin th a v).tree th a v _))
    split
    · exact this
    · exact this.trans (.of_eq (by simp) (by simp))
  | endCh th ch a =>
    simp only [endCh]
    split
    · exact .of_eq rfl (by intro l; cases l <;> rfl)
    split
    · exact .of_eq rfl (by intro l; cases l <;> rfl)
    refine .trans (.of_eq (by simp) (by simp)) (put_le _ _ _ ?_)
    exact handleEnd_mono ..
  | setCh th ch a v =>
    simp only [setCh]
    have e0 : LeLoss s (s.emitOne ch .preSet th a v) := .of_eq (by simp) (by simp)
    exact e0.trans (put_le _ _ _ (handleSet_mono ..))

theorem run_le (s : State) (ops : List Op) : LeLoss s (run s ops) := by
  induction ops generalizing s with
  | nil => exact .refl s
  | cons op ops ih => exact (step_le s op).trans (ih _)

theorem NoLoss.split {s m s' : State} (h : NoLoss s s') (h1 : LeLoss s m) (h2 : LeLoss m s') : NoLoss s m ∧ NoLoss m s' := by
  obtain ⟨a, b⟩ := h
  refine ⟨⟨?_, fun l => ?_⟩, ?_, fun l => ?_⟩
  · have := h1.1; have := h2.1; omega
  · have := h1.2 l; have := h2.2 l; have := b l; omega
  · have := h1.1; have := h2.1; omega
  · have := h1.2 l; have := h2.2 l; have := b l; omega

theorem NoLoss.refl (s : State) : NoLoss s s := ⟨rfl, fun _ => rfl⟩

/-! ### refinement -/

structure RelS (s : State) (c : Abs) : Prop where
  inv : Inv s.tree
  tdead : s.tree.dead = false
  dead : s.dead = false
  ctx : ∀ l, CtxRel s.tree (s.board l) (c.ctx l)
  err : s.err = c.err
  log : s.log = c.log

theorem put_sim {s : State} {c : Abs} (R : RelS s c) {l : Loc} {x : Ctx} {r : Tree × Option Board}
    (h : CtxRes s.tree (s.board l) x r) (nl : NoLoss s (s.put l r)) :
    RelS (s.put l r) (c.put l x) ∧ Ext s.tree (s.put l r).tree := by
  obtain ⟨t, o⟩ := r
  have hf : t.fails = s.tree.fails := by
    have := nl.1
    cases o <;> cases l <;> simpa [State.put] using this
  obtain ⟨bb', h1, h2⟩ := h.ok hf
  simp only at h1
  subst h1
  have hx := h.ext
  have hsk : bb'.skipped = (s.board l).skipped := by
    have := nl.2 l
    cases l <;> simpa [State.put, State.board, BB.upd] using this
  have h3 := h2 hsk
  have ht : (s.put l (t, some bb')).tree = t := by cases l <;> rfl
  refine ⟨⟨by rw [ht]; exact h.inv, by rw [ht]; exact hx.dead.trans R.tdead, ?_, ?_, ?_, ?_⟩, by rw [ht]; exact hx⟩
  · cases l <;> exact R.dead
  · intro l'
    rw [ht]
    by_cases e : l' = l
    · subst e
      have eb : (s.put l' (t, some bb')).board l' = bb' := by cases l' <;> simp [State.put, State.board, BB.upd]
      rw [eb]
      simpa [Abs.put] using h3
    · have eb : (s.put l (t, some bb')).board l' = s.board l' := by
        cases l <;> cases l' <;> simp_all [State.put, State.board, BB.upd]
      rw [eb]
      simp only [Abs.put, if_neg e]
      exact (R.ctx l').ext hx
  · cases l <;> exact R.err
  · cases l <;> exact R.log

theorem board_congr {s s' : State} (h1 : s'.tbb = s.tbb) (h2 : s'.pbb = s.pbb) (h3 : s'.cbb = s.cbb) (l : Loc) :
    s'.board l = s.board l := by
  cases l <;> simp [State.board, h1, h2, h3]

theorem emitAll_sim {s : State} {c : Abs} (R : RelS s c) (k : EvKind) (th : Nat) (a : Attr) (v : Val) :
    RelS (s.emitAll k th a v) (c.emitAll s.active k th a v) := by
  unfold State.emitAll Abs.emitAll
  split
  · exact R
  · exact ⟨R.inv, R.tdead, R.dead, fun l => by have := R.ctx l; cases l <;> exact this, R.err, by simp [R.log]⟩

theorem emitOne_sim {s : State} {c : Abs} (R : RelS s c) (ch : Nat) (k : EvKind) (th : Nat) (a : Attr) (v : Val) :
    RelS (s.emitOne ch k th a v) (c.emitOne s.isActive ch k th a v) := by
  unfold State.emitOne Abs.emitOne
  split
  · exact ⟨R.inv, R.tdead, R.dead, fun l => by have := R.ctx l; cases l <;> exact this, R.err, by simp [R.log]⟩
  · exact R

theorem errSet_sim {s : State} {c : Abs} (R : RelS s c) (th : Nat) :
    RelS { s with err := BB.upd s.err th true } { c with err := BB.upd c.err th true } :=
  ⟨R.inv, R.tdead, R.dead, fun l => by have := R.ctx l; cases l <;> exact this, by simp [R.err], R.log⟩

@[simp] theorem abs_emitAll_ctx (c : Abs) (ac k th a v) : (c.emitAll ac k th a v).ctx = c.ctx := by unfold Abs.emitAll; split <;> rfl
@[simp] theorem abs_emitOne_ctx (c : Abs) (ac ch k th a v) : (c.emitOne ac ch k th a v).ctx = c.ctx := by
  unfold Abs.emitOne; split <;> rfl

/-- result of one call -/
def StepRes (s s' : State) (c' : Abs) : Prop := RelS s' c' ∧ Ext s.tree s'.tree ∧ s'.active = s.active ∧ s'.isActive = s.isActive

theorem endCore_sim {s : State} {c : Abs} (R : RelS s c) (th : Nat) {a : Attr} (ha : a.Valid s.tree) (ck : Option Val)
    (nl : NoLoss s (endCore s th a ck)) : StepRes s (endCore s th a ck) (c.endCore s.active th a ck) := by
  unfold endCore at nl ⊢
  unfold Abs.endCore
  rw [R.err] at nl ⊢
  by_cases he : c.err th = true
  · simp only [he, if_true]; exact ⟨R, Ext.refl _, rfl, rfl⟩
  · simp only [he] at nl ⊢
    simp only [Bool.false_eq_true, if_false] at nl ⊢
    cases hl : scopeLoc a th with
    | none => exact ⟨R, Ext.refl _, rfl, rfl⟩
    | some l =>
      simp only [hl] at nl ⊢
      obtain ⟨m, e, h1, h2⟩ := load_sim R.inv (R.ctx l) ha
      rw [h1] at nl ⊢
      simp only at nl ⊢
      have hE : StepRes s { s with err := BB.upd c.err th true } { c with err := BB.upd c.err th true } := by
        have := errSet_sim R th
        rw [R.err] at this
        exact ⟨this, Ext.refl _, rfl, rfl⟩
      rcases h2 with ⟨h2, h3⟩ | ⟨v, h2, h3, h4, h5⟩
      · rw [if_pos (.inl h3), h2]; exact hE
      · rw [h2]
        simp only
        by_cases hc : ck = none ∨ ck = some v
        · rw [if_pos hc]
          have hneg : ¬ (e.node = none ∨ ck.any (fun d => decide (d ≠ e.val)) = true) := by
            rintro (h | h)
            · exact h3 h
            · rcases hc with rfl | rfl
              · simp at h
              · simp [h4] at h
          rw [if_neg hneg] at nl ⊢
          subst h4
          have R1 := emitAll_sim R .preEnd th a e.val
          have h6 := h5 th
          have nl1 : NoLoss (s.emitAll .preEnd th a e.val) ((s.emitAll .preEnd th a e.val).put l
              (handleEnd (s.emitAll .preEnd th a e.val).tree th a m e (bbKey a) ((s.emitAll .preEnd th a e.val).board l))) :=
            ⟨by simpa using nl.1, fun l => by simpa using nl.2 l⟩
          have := put_sim R1 (x := (c.ctx l).endR a) (by simpa using h6) nl1
          refine ⟨?_, by simpa using this.2, by simp, by simp⟩
          simpa [Abs.endAt] using this.1
        · rw [if_neg hc]
          have hpos : e.node = none ∨ ck.any (fun d => decide (d ≠ e.val)) = true := by
            right
            cases ck with
            | none => exact absurd (.inl rfl) hc
            | some d =>
              simp only [Option.any_some, decide_eq_true_eq]
              rintro rfl
              exact hc (.inr (by rw [h4]))
          rw [if_pos hpos]
          exact hE

theorem step_sim {s : State} {c : Abs} (R : RelS s c) {op : Op} (ha : op.attr.Valid s.tree) (nl : NoLoss s (step s op)) :
    StepRes s (step s op) (c.step s.active s.isActive op) := by
  unfold step at nl ⊢
  rw [R.dead] at nl ⊢
  simp only [Bool.false_eq_true, if_false] at nl ⊢
  cases op with
  | endR th a => exact endCore_sim R th ha none nl
  | endCheck th a v => exact endCore_sim R th ha (some v) nl
  | begin th a v =>
    replace ha : a.Valid s.tree := ha
    simp only [begin, Abs.step] at nl ⊢
    rw [R.err] at nl ⊢
    by_cases he : c.err th = true
    · simp only [he, if_true]; exact ⟨R, Ext.refl _, rfl, rfl⟩
    · simp only [he] at nl ⊢
      simp only [Bool.false_eq_true, if_false] at nl ⊢
      have R1 := emitAll_sim R .preBegin th a v
      cases hl : scopeLoc a th with
      | none =>
        simp only [hl] at nl ⊢
        rw [if_neg (by rw [emitAll_dead, R.dead]; simp)]
        have := emitAll_sim R1 .postBegin th a v
        refine ⟨by simpa using this, by simpa using Ext.refl _, by simp, by simp⟩
      | some l =>
        simp only [hl] at nl ⊢
        have h6 := begin_sim R.inv (R.ctx l) th ha v
        have nl1 : NoLoss (s.emitAll .preBegin th a v) ((s.emitAll .preBegin th a v).put l
            (handleBegin (s.emitAll .preBegin th a v).tree th a v ((s.emitAll .preBegin th a v).board l))) := by
          split at nl
          · exact ⟨by simpa using nl.1, fun l => by simpa using nl.2 l⟩
          · exact ⟨by simpa using nl.1, fun l => by simpa using nl.2 l⟩
        have := put_sim R1 (x := (c.ctx l).begin a v) (by simpa using h6) nl1
        rw [if_neg (by rw [this.1.dead]; simp)]
        have R2 := emitAll_sim this.1 .postBegin th a v
        refine ⟨?_, by simpa using this.2, by simp, by simp⟩
        simpa using R2
  | set th a v =>
    replace ha : a.Valid s.tree := ha
    simp only [set, Abs.step] at nl ⊢
    rw [R.err] at nl ⊢
    by_cases he : c.err th = true
    · simp only [he, if_true]; exact ⟨R, Ext.refl _, rfl, rfl⟩
    · simp only [he] at nl ⊢
      simp only [Bool.false_eq_true, if_false] at nl ⊢
      have R1 := emitAll_sim R .preSet th a v
      cases hl : scopeLoc a th with
      | none =>
        simp only [hl] at nl ⊢
        exact ⟨R1, by simpa using Ext.refl _, by simp, by simp⟩
      | some l =>
        simp only [hl] at nl ⊢
        have h6 := set_sim R.inv (R.ctx l) th ha v
        have nl1 : NoLoss (s.emitAll .preSet th a v) ((s.emitAll .preSet th a v).put l
            (handleSet (s.emitAll .preSet th a v).tree th a v ((s.emitAll .preSet th a v).board l))) :=
          ⟨by simpa using nl.1, fun l => by simpa using nl.2 l⟩
        have := put_sim R1 (x := (c.ctx l).set a v) (by simpa using h6) nl1
        refine ⟨?_, by simpa using this.2, by simp, by simp⟩
        simpa using this.1
  | beginCh th ch a v =>
    replace ha : a.Valid s.tree := ha
    simp only [beginCh, Abs.step] at nl ⊢
    have R1 := emitOne_sim R ch .preBegin th a v
    have h6 := begin_sim R.inv (R.ctx (.channel ch)) th ha v
    have nl1 : NoLoss (s.emitOne ch .preBegin th a v) ((s.emitOne ch .preBegin th a v).put (.channel ch)
        (handleBegin (s.emitOne ch .preBegin th a v).tree th a v ((s.emitOne ch .preBegin th a v).board (.channel ch)))) := by
      split at nl
      · exact ⟨by simpa using nl.1, fun l => by simpa using nl.2 l⟩
      · exact ⟨by simpa using nl.1, fun l => by simpa using nl.2 l⟩
    have := put_sim R1 (x := (c.ctx (.channel ch)).begin a v) (by simpa using h6) nl1
    rw [if_neg (by rw [this.1.dead]; simp)]
    have R2 := emitOne_sim this.1 ch .postBegin th a v
    refine ⟨?_, by simpa using this.2, by simp, by simp⟩
    simpa using R2
  | setCh th ch a v =>
    replace ha : a.Valid s.tree := ha
    simp only [setCh, Abs.step] at nl ⊢
    have R1 := emitOne_sim R ch .preSet th a v
    have h6 := set_sim R.inv (R.ctx (.channel ch)) th ha v
    have nl1 : NoLoss (s.emitOne ch .preSet th a v) ((s.emitOne ch .preSet th a v).put (.channel ch)
        (handleSet (s.emitOne ch .preSet th a v).tree th a v ((s.emitOne ch .preSet th a v).board (.channel ch)))) :=
      ⟨by simpa using nl.1, fun l => by simpa using nl.2 l⟩
    have := put_sim R1 (x := (c.ctx (.channel ch)).set a v) (by simpa using h6) nl1
    refine ⟨?_, by simpa using this.2, by simp, by simp⟩
    simpa using this.1
  | endCh th ch a =>
    replace ha : a.Valid s.tree := ha
    simp only [endCh, Abs.step] at nl ⊢
    obtain ⟨m, e, h1, h2⟩ := load_sim R.inv (R.ctx (.channel ch)) ha
    rw [h1] at nl ⊢
    simp only at nl ⊢
    rcases h2 with ⟨h2, h3⟩ | ⟨v, h2, h3, h4, h5⟩
    · rw [if_pos h3, h2]; exact ⟨errSet_sim R th, Ext.refl _, rfl, rfl⟩
    · rw [if_neg h3] at nl ⊢
      rw [h2]
      subst h4
      have R1 := emitOne_sim R ch .preEnd th a e.val
      have h6 := h5 th
      have nl1 : NoLoss (s.emitOne ch .preEnd th a e.val) ((s.emitOne ch .preEnd th a e.val).put (.channel ch)
          (handleEnd (s.emitOne ch .preEnd th a e.val).tree th a m e (bbKey a) ((s.emitOne ch .preEnd th a e.val).board (.channel ch)))) :=
        ⟨by simpa using nl.1, fun l => by simpa using nl.2 l⟩
      have := put_sim R1 (x := (c.ctx (.channel ch)).endR a) (by simpa using h6) nl1
      refine ⟨?_, by simpa using this.2, by simp, by simp⟩
      simpa [Abs.endAt] using this.1

theorem run_sim {s : State} {c : Abs} (R : RelS s c) {ops : List Op} (ha : ∀ op ∈ ops, op.attr.Valid s.tree)
    (nl : NoLoss s (run s ops)) : StepRes s (run s ops) (c.run s.active s.isActive ops) := by
  induction ops generalizing s c with
  | nil => exact ⟨R, Ext.refl _, rfl, rfl⟩
  | cons op ops ih =>
    obtain ⟨n1, n2⟩ := nl.split (step_le s op) (run_le _ ops)
    obtain ⟨R1, x1, a1, a2⟩ := step_sim R (ha op (by simp)) n1
    have := ih R1 (fun o ho => (ha o (by simp [ho])).ext x1) n2
    obtain ⟨R2, x2, b1, b2⟩ := this
    rw [a1, a2] at R2
    exact ⟨R2, x1.trans x2, b1.trans a1, b2.trans a2⟩

theorem RelS.init {t : Tree} (I : Inv t) (hd : t.dead = false) (active : List Nat) (isActive : Nat → Bool) :
    RelS (init t active isActive) Abs.init :=
  ⟨I, hd, rfl, fun l => by cases l <;> exact CtxRel.empty t, rfl, rfl⟩

/-- `Caliper::get` in terms of the abstract context -/
theorem entry_get_sim {t : Tree} (I : Inv t) {bb : Board} {c : Ctx} (h : CtxRel t bb c) {a : Attr} (ha : a.Valid t) :
    ∃ e, (BB.get bb (bbKey a)).map (fun e => e.get t a.id) = some e ∧ (e.node = none ↔ c.get a = none) ∧
      ∀ v, c.get a = some v → e.val = v := by
  obtain ⟨p, h1, h2, h3, h4⟩ := h
  have ha' := ha
  obtain ⟨g1, g2, g3, g4, g5, g6⟩ := ha
  cases hav : a.asValue with
  | true =>
    have hkey : bbKey a = a.id := by simp [bbKey, hav]
    have hg : c.get a = c.vals a.id := by simp [Ctx.get, Attr.kind, hav]
    have hv := h4 a.id (by omega) (by omega) g6
    rw [hkey, bb_get h1 g6, Option.map_some, hg]
    refine ⟨_, rfl, ?_⟩
    cases hm : p.m a.id with
    | none =>
      rw [hm] at hv
      cases hc : c.vals a.id with
      | some v => rw [hc] at hv; exact absurd hv id
      | none => exact ⟨⟨fun _ => rfl, fun _ => rfl⟩, by simp⟩
    | some e =>
      rw [hm] at hv
      cases hc : c.vals a.id with
      | none => rw [hc] at hv; exact absurd hv id
      | some v =>
        rw [hc] at hv
        obtain ⟨q, rfl, hq1, hq2, hq3, hq4⟩ := hv
        simp [Entry.get, hq3]
  | false =>
    have hk := refKey_cases a
    have hs := slotAt h2 h3 hk
    have hkey : bbKey a = refKey a := by simp [bbKey, hav]
    have hg : c.get a = innermost a.id (c.path (refKey a)) := by
      unfold Ctx.get Attr.kind refKey
      cases hu : a.unaligned <;> simp [hav, Ctx.path, regionKey, unalignedKey]
    rw [hkey, bb_get h1 (keyInv hk), Option.map_some, hg]
    refine ⟨_, rfl, ?_⟩
    obtain ⟨hs12, hs'⟩ := hs
    cases hm : p.m (refKey a) with
    | none =>
      rw [hm] at hs'
      simp only at hs'
      rw [hs']
      exact ⟨⟨fun _ => rfl, fun _ => rfl⟩, by simp [innermost]⟩
    | some e =>
      rw [hm] at hs'
      obtain ⟨hne, n, rfl, hn⟩ := hs'
      rw [Option.getD_some]
      rcases get_path I hn hne hs12 ha' with ⟨k1, k2⟩ | ⟨l₁, w, l₂, q, k1, k2, k3, k4, k5⟩
      · rw [k1, innermost_none k2]
        exact ⟨⟨fun _ => rfl, fun _ => rfl⟩, by simp⟩
      · rw [k3, k1, innermost_split k2]
        simp [Entry.ofNode, k5]

end Verif.RT
