import Verif.Runtime.Refine
namespace Verif.RT
open MTree

theorem abs_run_append (ac ia) (c : Abs) (xs ys : List Op) : c.run ac ia (xs ++ ys) = (c.run ac ia xs).run ac ia ys := by
  induction xs generalizing c with
  | nil => rfl
  | cons x xs ih => exact ih _

theorem run_append (s : State) (xs ys : List Op) : run s (xs ++ ys) = run (run s xs) ys := by
  induction xs generalizing s with
  | nil => rfl
  | cons x xs ih => exact ih _

@[simp] theorem abs_emitAll_err (c : Abs) (ac k th a v) : (c.emitAll ac k th a v).err = c.err := by unfold Abs.emitAll; split <;> rfl
@[simp] theorem abs_emitOne_err (c : Abs) (ac ch k th a v) : (c.emitOne ac ch k th a v).err = c.err := by
  unfold Abs.emitOne; split <;> rfl
@[simp] theorem abs_put_err (c : Abs) (l x) : (c.put l x).err = c.err := rfl

theorem begin_region (c : Ctx) (a : Attr) (v : Val) (h : a.kind ≠ .region) : (c.begin a v).region = c.region := by
  unfold Ctx.begin; cases hk : a.kind <;> simp_all
theorem set_region (c : Ctx) (a : Attr) (v : Val) (h : a.kind ≠ .region) : (c.set a v).region = c.region := by
  unfold Ctx.set; cases hk : a.kind <;> simp_all
theorem endR_region (c : Ctx) (a : Attr) (h : a.kind ≠ .region) : (c.endR a).region = c.region := by
  unfold Ctx.endR; cases hk : a.kind <;> simp_all

theorem put_ctx_ne (c : Abs) {l l' : Loc} (x : Ctx) (h : l' ≠ l) : (c.put l x).ctx l' = c.ctx l' := by simp [Abs.put, h]
@[simp] theorem put_ctx_eq (c : Abs) (l : Loc) (x : Ctx) : (c.put l x).ctx l = x := by simp [Abs.put]

/-- effect of one call on the contexts: only `op.loc` can change, and there only by the context operation -/
theorem abs_step_other (ac ia) (c : Abs) (op : Op) {l : Loc} (h : op.loc ≠ some l) : (c.step ac ia op).ctx l = c.ctx l := by
  have hend : ∀ th a ck, scopeLoc a th ≠ some l → (c.endCore ac th a ck).ctx l = c.ctx l := by
    intro th a ck h
    unfold Abs.endCore
    split
    · rfl
    split
    · rfl
    rename_i l' hl
    rw [hl] at h
    split
    · rfl
    split
    · simp only [Abs.endAt]; rw [put_ctx_ne _ _ (by rintro rfl; exact h rfl)]; simp
    · rfl
  cases op with
  | begin th a v =>
    simp only [Abs.step]
    split
    · rfl
    simp only [abs_emitAll_ctx]
    split
    · simp
    · rename_i l' hl
      have : l ≠ l' := by rintro rfl; exact h hl
      rw [put_ctx_ne _ _ this]; simp
  | set th a v =>
    simp only [Abs.step]
    split
    · rfl
    split
    · simp
    · rename_i l' hl
      have : l ≠ l' := by rintro rfl; exact h hl
      rw [put_ctx_ne _ _ this]; simp
  | endR th a => exact hend th a none h
  | endCheck th a v => exact hend th a (some v) h
  | beginCh th ch a v =>
    simp only [Abs.step]
    have : l ≠ .channel ch := by rintro rfl; exact h rfl
    simp only [abs_emitOne_ctx]
    rw [put_ctx_ne _ _ this]; simp
  | setCh th ch a v =>
    simp only [Abs.step]
    have : l ≠ .channel ch := by rintro rfl; exact h rfl
    rw [put_ctx_ne _ _ this]; simp
  | endCh th ch a =>
    simp only [Abs.step]
    have : l ≠ .channel ch := by rintro rfl; exact h rfl
    split
    · rfl
    · simp only [Abs.endAt]; rw [put_ctx_ne _ _ this]; simp

theorem abs_step_region (ac ia) (c : Abs) (op : Op) (l : Loc) (h : op.attr.kind ≠ .region) :
    ((c.step ac ia op).ctx l).region = (c.ctx l).region := by
  by_cases hl : op.loc = some l
  swap
  · rw [abs_step_other ac ia c op hl]
  have hend : ∀ th a ck, a.kind ≠ .region → scopeLoc a th = some l → ((c.endCore ac th a ck).ctx l).region = (c.ctx l).region := by
    intro th a ck h hl
    unfold Abs.endCore
    split
    · rfl
    rw [hl]
    simp only
    split
    · rfl
    split
    · simp only [Abs.endAt, put_ctx_eq, endR_region _ _ h]; simp
    · rfl
  cases op with
  | begin th a v =>
    replace h : a.kind ≠ .region := h
    replace hl : scopeLoc a th = some l := hl
    simp only [Abs.step]
    split
    · rfl
    rw [hl]
    simp [begin_region _ _ _ h]
  | set th a v =>
    replace h : a.kind ≠ .region := h
    replace hl : scopeLoc a th = some l := hl
    simp only [Abs.step]
    split
    · rfl
    rw [hl]
    simp [set_region _ _ _ h]
  | endR th a => exact hend th a none h hl
  | endCheck th a v => exact hend th a (some v) h hl
  | beginCh th ch a v =>
    replace h : a.kind ≠ .region := h
    cases hl
    simp [Abs.step, begin_region _ _ _ h]
  | setCh th ch a v =>
    replace h : a.kind ≠ .region := h
    cases hl
    simp [Abs.step, set_region _ _ _ h]
  | endCh th ch a =>
    replace h : a.kind ≠ .region := h
    cases hl
    simp only [Abs.step]
    split
    · rfl
    · simp [Abs.endAt, endR_region _ _ h]

/-- errors are only raised by mismatched end calls of the thread -/
theorem abs_step_err (ac ia) (c : Abs) (op : Op) (th : Nat) (h : op.thread = th → op.isEnd = false) :
    (c.step ac ia op).err th = c.err th := by
  have hend : ∀ th' a ck, th' ≠ th → (c.endCore ac th' a ck).err th = c.err th := by
    intro th' a ck h
    unfold Abs.endCore
    split
    · rfl
    split
    · rfl
    split
    · simp [BB.upd, Ne.symm h]
    split
    · simp [Abs.endAt]
    · simp [BB.upd, Ne.symm h]
  cases op with
  | begin th' a v =>
    simp only [Abs.step]
    split
    · rfl
    split <;> simp
  | set th' a v =>
    simp only [Abs.step]
    split
    · rfl
    split <;> simp
  | endR th' a => exact hend _ _ _ (fun e => by have := h e; simp [Op.isEnd] at this)
  | endCheck th' a v => exact hend _ _ _ (fun e => by have := h e; simp [Op.isEnd] at this)
  | beginCh th' ch a v => simp [Abs.step]
  | setCh th' ch a v => simp [Abs.step]
  | endCh th' ch a =>
    have ht : th' ≠ th := fun e => by have := h e; simp [Op.isEnd] at this
    simp only [Abs.step]
    split
    · simp [BB.upd, Ne.symm ht]
    · simp [Abs.endAt]

theorem endable_region {c : Ctx} {a : Attr} (h : a.kind = .region) {st : PathL} {v : Val} (hr : c.region = st ++ [(a.id, v)]) :
    c.endable a = some v := by simp [Ctx.endable, h, hr]

theorem abs_endCore_ok (ac) {c : Abs} {th : Nat} {a : Attr} {l : Loc} {v : Val} {ck : Option Val} (he : c.err th = false)
    (hl : scopeLoc a th = some l) (hv : (c.ctx l).endable a = some v) (hc : ck = none ∨ ck = some v) :
    c.endCore ac th a ck = (c.emitAll ac .preEnd th a v).put l ((c.ctx l).endR a) := by
  unfold Abs.endCore
  rw [he]
  simp [hl, hv, hc, Abs.endAt]

theorem abs_nested {T : Nat → Prop} {l : Loc} {ops : List Op} {st : PathL} (ac ia) {c : Abs} (hT : ∀ th, T th → c.err th = false)
    (h : Nested T l ops st) :
    ((c.run ac ia ops).ctx l).region = (c.ctx l).region ++ st ∧ ∀ th, T th → (c.run ac ia ops).err th = false := by
  induction h with
  | nil => simpa [Abs.run] using hT
  | @begin ops st th a v _ ht hk hl ih =>
    rw [abs_run_append]
    generalize c.run ac ia ops = c1 at ih
    simp only [Abs.run]
    refine ⟨?_, fun th' ht' => ?_⟩
    · simp only [Abs.step, ih.2 th ht, hl]
      simp [Ctx.begin, hk, ih.1]
    · rw [abs_step_err _ _ _ _ _ (fun _ => rfl)]; exact ih.2 _ ht'
  | @endR ops st th a v _ ht hk hl ih =>
    rw [abs_run_append]
    generalize c.run ac ia ops = c1 at ih
    simp only [Abs.run, Abs.step]
    rw [abs_endCore_ok ac (ih.2 th ht) hl (endable_region hk (by rw [ih.1, ← List.append_assoc])) (.inl rfl)]
    refine ⟨?_, fun th' ht' => by simpa using ih.2 _ ht'⟩
    simp [Ctx.endR, hk, ih.1]
  | @endCheck ops st th a v _ ht hk hl ih =>
    rw [abs_run_append]
    generalize c.run ac ia ops = c1 at ih
    simp only [Abs.run, Abs.step]
    rw [abs_endCore_ok ac (ih.2 th ht) hl (endable_region hk (by rw [ih.1, ← List.append_assoc])) (.inr rfl)]
    refine ⟨?_, fun th' ht' => by simpa using ih.2 _ ht'⟩
    simp [Ctx.endR, hk, ih.1]
  | @other ops st op _ ho he ih =>
    rw [abs_run_append]
    generalize c.run ac ia ops = c1 at ih
    simp only [Abs.run]
    refine ⟨?_, fun th' ht' => ?_⟩
    · rcases ho with ho | ho
      · rw [abs_step_other _ _ _ _ ho]; exact ih.1
      · rw [abs_step_region _ _ _ _ _ ho]; exact ih.1
    · rw [abs_step_err _ _ _ _ _ (fun e => he (e ▸ ht'))]; exact ih.2 _ ht'

theorem eraseInner_snoc (a : Nat) (v : Val) (l : PathL) : eraseInner a (l ++ [(a, v)]) = l := by
  have := eraseInner_split (a := a) (v := v) (l₁ := l) (l₂ := []) (by simp)
  simpa using this

theorem abs_ext {c c' : Abs} (h1 : c.ctx = c'.ctx) (h2 : c.err = c'.err) (h3 : c.log = c'.log) : c = c' := by
  cases c; cases c'; simp_all

theorem endable_begin (c : Ctx) (a : Attr) (v : Val) : (c.begin a v).endable a = some v := by
  unfold Ctx.begin Ctx.endable
  cases a.kind <;> simp [updV, innermost]

theorem endR_begin (c : Ctx) (a : Attr) (v : Val) (h : a.kind ≠ .value) : (c.begin a v).endR a = c := by
  unfold Ctx.begin Ctx.endR
  cases hk : a.kind <;> simp_all [eraseInner_snoc]

theorem abs_balanced {th : Nat} {ops : List Op} (h : Balanced th ops) (ac ia) {c : Abs} (he : c.err th = false) :
    (c.run ac ia ops).ctx = c.ctx ∧ (c.run ac ia ops).err = c.err := by
  have wr : ∀ (a : Attr) (v : Val) (ck : Option Val) (op : Op) (xs : List Op), a.kind ≠ .value → (ck = none ∨ ck = some v) →
      (∀ c : Abs, c.step ac ia op = c.endCore ac th a ck) →
      (∀ c : Abs, c.err th = false → (c.run ac ia xs).ctx = c.ctx ∧ (c.run ac ia xs).err = c.err) → ∀ c : Abs, c.err th = false →
      (c.run ac ia (.begin th a v :: (xs ++ [op]))).ctx = c.ctx ∧ (c.run ac ia (.begin th a v :: (xs ++ [op]))).err = c.err := by
    intro a v ck op xs hk hck hop hxs c he
    simp only [Abs.run]
    rw [abs_run_append]
    have e0 : (c.step ac ia (.begin th a v)).err = c.err := by
      funext t; exact abs_step_err _ _ _ _ _ (fun _ => rfl)
    obtain ⟨i1, i2⟩ := hxs (c.step ac ia (.begin th a v)) (by rw [e0]; exact he)
    generalize (c.step ac ia (.begin th a v)).run ac ia xs = c2 at *
    rw [e0] at i2
    simp only [Abs.run]
    rw [hop]
    cases hl : scopeLoc a th with
    | none =>
      unfold Abs.endCore
      rw [i2, he]
      simp only [hl, Bool.false_eq_true, if_false]
      refine ⟨?_, i2⟩
      rw [i1]
      simp [Abs.step, he, hl]
    | some l =>
      have hcl : (c2.ctx l) = (c.ctx l).begin a v := by rw [i1]; simp [Abs.step, he, hl]
      rw [abs_endCore_ok ac (by rw [i2]; exact he) hl (v := v) (by rw [hcl, endable_begin]) hck]
      refine ⟨?_, by simpa using i2⟩
      funext l'
      by_cases e : l' = l
      · subst e; rw [put_ctx_eq, hcl, endR_begin _ _ _ hk]
      · rw [put_ctx_ne _ _ e, abs_emitAll_ctx, i1]
        exact abs_step_other _ _ _ _ (by simp only [Op.loc, hl]; rintro h; cases h; exact e rfl)
  induction h generalizing c with
  | nil => exact ⟨rfl, rfl⟩
  | append _ _ ih1 ih2 =>
    rw [abs_run_append]
    obtain ⟨a1, a2⟩ := ih1 he
    obtain ⟨b1, b2⟩ := ih2 (c := c.run ac ia _) (by rw [a2]; exact he)
    exact ⟨b1.trans a1, b2.trans a2⟩
  | wrap a v hk _ ih => exact wr a v none _ _ hk (.inl rfl) (fun _ => rfl) (fun c he => ih he) c he
  | wrapCheck a v hk _ ih => exact wr a v (some v) _ _ hk (.inr rfl) (fun _ => rfl) (fun c he => ih he) c he

theorem tree_step_ext {t : Tree} (I : Inv t) {q : Req} (hok : q.ok t) (hb : q.batch.length ≤ t.npb) :
    Inv (MTree.step t q).1 ∧ Ext t (MTree.step t q).1 := by
  suffices ∃ res w, (MTree.step t q).1 = res.1 ∧ Good t res w by
    obtain ⟨res, w, h1, h2⟩ := this
    rw [h1]; exact ⟨h2.inv, h2.ext⟩
  cases q with
  | getChild th a v p => obtain ⟨l, hl⟩ := Live.path I hok; exact ⟨_, _, rfl, getChild_spec I th a v hl⟩
  | getPath th a vs p => obtain ⟨l, hl⟩ := Live.path I hok; exact ⟨_, _, rfl, getPath_spec I th a vs hl hb⟩
  | getPathNodes th ns p =>
    obtain ⟨l, hl⟩ := Live.path I hok.1
    obtain ⟨res, h1, h2⟩ := getPathNodes_spec I th ns hl (fun n hn => (hok.2 n hn).1)
    exact ⟨_, _, by rw [h1]; rfl, h2⟩
  | removeFirst th p a => obtain ⟨l, hl⟩ := Live.path I hok.1; exact ⟨_, _, rfl, removeFirst_spec I th a hok.2 hl⟩
  | replaceFirst th p a v => obtain ⟨l, hl⟩ := Live.path I hok.1; exact ⟨_, _, rfl, replaceFirst_spec I th a hok.2 v hl⟩
  | replaceAll th p a vs => obtain ⟨l, hl⟩ := Live.path I hok.1; exact ⟨_, _, rfl, replaceAll_spec I th a hok.2 vs hl hb⟩

theorem RtReach.rel {s : State} (h : RtReach s) : ∃ c, RelS s c := by
  induction h with
  | init h ac ia =>
    have hi : ∀ {t : Tree}, MTree.Reach t → Inv t ∧ t.dead = false := by
      intro t h
      induction h with
      | init h1 h2 => exact ⟨Inv.init h1 h2, rfl⟩
      | step _ hok hb ih =>
        obtain ⟨I', x⟩ := tree_step_ext ih.1 hok hb
        exact ⟨I', x.dead.trans ih.2⟩
    obtain ⟨I, d⟩ := hi h
    exact ⟨_, RelS.init I d ac ia⟩
  | call _ ha nl ih =>
    obtain ⟨c, R⟩ := ih
    exact ⟨_, (step_sim R ha nl).1⟩
  | @tree s q _ hq hb ih =>
    obtain ⟨c, R⟩ := ih
    obtain ⟨I', x⟩ := tree_step_ext R.inv hq hb
    refine ⟨c, I', x.dead.trans R.tdead, R.dead, fun l => ?_, R.err, R.log⟩
    have := (R.ctx l).ext x
    cases l <;> exact this
  | @channels s _ ac ia ih =>
    obtain ⟨c, R⟩ := ih
    refine ⟨c, R.inv, R.tdead, R.dead, fun l => ?_, R.err, R.log⟩
    have := R.ctx l
    cases l <;> exact this

/-- no call touches the blackboard of another location, not even if it fails -/
theorem step_board_other (s : State) (op : Op) {l : Loc} (h : op.loc ≠ some l) : (step s op).board l = s.board l := by
  have hput : ∀ (s : State) l' r, l' ≠ l → (s.put l' r).board l = s.board l := by
    intro s l' r hne
    obtain ⟨t, o⟩ := r
    cases o with
    | none => cases l <;> rfl
    | some bb => cases l' <;> cases l <;> simp_all [State.put, State.board, BB.upd] <;> (intro e; exact absurd e.symm hne)
  have herr : ∀ th, ({ s with err := BB.upd s.err th true } : State).board l = s.board l := by intro th; cases l <;> rfl
  have hdead : ({ s with dead := true } : State).board l = s.board l := by cases l <;> rfl
  have hend : ∀ th a ck, scopeLoc a th ≠ some l → (endCore s th a ck).board l = s.board l := by
    intro th a ck hne
    unfold endCore
    split
    · rfl
    split
    · rfl
    rename_i l' hl
    have hll : l' ≠ l := by rintro rfl; exact hne hl
    split
    · exact hdead
    split
    · exact herr _
    · simp [hput _ _ _ hll]
  unfold step
  split
  · rfl
  cases op with
  | endR th a => exact hend th a none h
  | endCheck th a v => exact hend th a (some v) h
  | begin th a v =>
    replace h : scopeLoc a th ≠ some l := h
    simp only [begin]
    split
    · rfl
    cases hl : scopeLoc a th with
    | none => simp only; split <;> simp
    | some l' =>
      have hll : l' ≠ l := by rintro rfl; exact h hl
      simp only
      split <;> simp [hput _ _ _ hll]
  | set th a v =>
    replace h : scopeLoc a th ≠ some l := h
    simp only [set]
    split
    · rfl
    cases hl : scopeLoc a th with
    | none => simp
    | some l' =>
      have hll : l' ≠ l := by rintro rfl; exact h hl
      simp [hput _ _ _ hll]
  | beginCh th ch a v =>
    have hll : Loc.channel ch ≠ l := by rintro rfl; exact h rfl
    simp only [beginCh]
    split <;> simp [hput _ _ _ hll]
  | setCh th ch a v =>
    have hll : Loc.channel ch ≠ l := by rintro rfl; exact h rfl
    simp [setCh, hput _ _ _ hll]
  | endCh th ch a =>
    have hll : Loc.channel ch ≠ l := by rintro rfl; exact h rfl
    simp only [endCh]
    split
    · exact hdead
    split
    · exact herr _
    · simp [hput _ _ _ hll]

theorem run_board_other (s : State) (ops : List Op) {l : Loc} (h : ∀ op ∈ ops, op.loc ≠ some l) :
    (run s ops).board l = s.board l := by
  induction ops generalizing s with
  | nil => rfl
  | cons op ops ih =>
    simp only [run]
    rw [ih _ (fun o ho => h o (by simp [ho])), step_board_other s op (h op (by simp))]

/-! ### observations in related states -/

theorem RelS.regions {s : State} {c : Abs} (R : RelS s c) (l : Loc) (p : PathL) : OpenRegions s l p ↔ p = (c.ctx l).region := by
  obtain ⟨q, h1, h2, h3, h4⟩ := R.ctx l
  have hn := slot_node h2
  unfold OpenRegions
  rw [bb_get h1 (show regionKey ≠ invId by decide)]
  constructor
  · rintro ⟨e, he, hp⟩; cases he
    exact Path.fun hp hn
  · rintro rfl; exact ⟨_, rfl, hn⟩

theorem RelS.unaligned {s : State} {c : Abs} (R : RelS s c) (l : Loc) (p : PathL) : OpenUnaligned s l p ↔ p = (c.ctx l).unal := by
  obtain ⟨q, h1, h2, h3, h4⟩ := R.ctx l
  have hn := slot_node h3
  unfold OpenUnaligned
  rw [bb_get h1 (show unalignedKey ≠ invId by decide)]
  constructor
  · rintro ⟨e, he, hp⟩; cases he
    exact Path.fun hp hn
  · rintro rfl; exact ⟨_, rfl, hn⟩

theorem entry_obs {o : Option Entry} {x : Option Val}
    (h : ∃ e, o = some e ∧ (e.node = none ↔ x = none) ∧ ∀ v, x = some v → e.val = v) :
    (o.map fun e => e.node.map fun _ => e.val) = some x := by
  obtain ⟨e, rfl, h1, h2⟩ := h
  cases hn : e.node with
  | none => simp [hn, h1.1 hn]
  | some n =>
    cases x with
    | none => rw [h1.2 rfl] at hn; simp at hn
    | some v => simp [hn, h2 v rfl]

theorem RelS.query {s : State} {c : Abs} (R : RelS s c) {th : Nat} {a : Attr} (ha : a.Valid s.tree) :
    Query s th a = some ((scopeLoc a th).bind fun l => (c.ctx l).get a) := by
  unfold Query getEntry
  cases hl : scopeLoc a th with
  | none => rfl
  | some l => exact entry_obs (entry_get_sim R.inv (R.ctx l) ha)

theorem RelS.queryCh {s : State} {c : Abs} (R : RelS s c) {ch : Nat} {a : Attr} (ha : a.Valid s.tree) :
    QueryCh s ch a = some ((c.ctx (.channel ch)).get a) := entry_obs (entry_get_sim R.inv (R.ctx _) ha)

end Verif.RT
