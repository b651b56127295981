import Verif.Serv.OmptLemmas
/-!
# Histories
-/
namespace Verif.Serv.Ompt
open Verif RT MTree

/-- every callback is a sequence of annotation calls of its thread with attributes of the service -/
theorem cb_ops (A : Attrs) (s : State) (th : Nat) (c : Cb) : ∃ ops, cb A s th c = RT.run s ops ∧ ∀ op ∈ ops, op.thread = th ∧
    op.loc = scopeLoc op.attr th ∧ op.attr ∈ [A.region, A.sync, A.work, A.threadType, A.procId, A.threadId, A.numThreads] := by
  cases c with
  | threadBegin t p =>
    by_cases hp : 0 ≤ p.toInt
    · exact ⟨[.begin th A.procId (.ofInt p), .begin th A.threadType (.ofString (typeName t))], by simp [cb, hp, RT.run],
        by simp [Op.thread, Op.loc, Op.attr]⟩
    · exact ⟨[.begin th A.threadType (.ofString (typeName t))], by simp [cb, hp, RT.run], by simp [Op.thread, Op.loc, Op.attr]⟩
  | threadEnd =>
    by_cases h1 : hasValue s th A.threadType = true
    · by_cases h2 : hasValue (RT.step s (.endR th A.threadType)) th A.procId = true
      · exact ⟨[.endR th A.threadType, .endR th A.procId], by simp [cb, h1, h2, RT.run], by simp [Op.thread, Op.loc, Op.attr]⟩
      · exact ⟨[.endR th A.threadType], by simp [cb, h1, h2, RT.run], by simp [Op.thread, Op.loc, Op.attr]⟩
    · by_cases h2 : hasValue s th A.procId = true
      · exact ⟨[.endR th A.procId], by simp [cb, h1, h2, RT.run], by simp [Op.thread, Op.loc, Op.attr]⟩
      · exact ⟨[], by simp [cb, h1, h2, RT.run], by simp⟩
  | parallelBegin n => exact ⟨[.begin th A.region (vUint n)], by simp [cb, RT.run], by simp [Op.thread, Op.loc, Op.attr]⟩
  | parallelEnd => exact ⟨[.endR th A.region], by simp [cb, RT.run], by simp [Op.thread, Op.loc, Op.attr]⟩
  | implicitTask ep p i f =>
    by_cases h1 : f &&& 1#32 ≠ 0
    · exact ⟨[], by simp only [cb]; rw [if_pos h1]; rfl, by simp⟩
    by_cases h2 : ep = scopeBegin
    · exact ⟨[.begin th A.numThreads (.ofInt p), .begin th A.threadId (.ofInt i)],
        by simp only [cb]; rw [if_neg h1, if_pos h2]; rfl, by simp [Op.thread, Op.loc, Op.attr]⟩
    · exact ⟨[.endR th A.threadId, .endR th A.numThreads],
        by simp only [cb]; rw [if_neg h1, if_neg h2]; rfl, by simp [Op.thread, Op.loc, Op.attr]⟩
  | work t ep =>
    by_cases h1 : ep = scopeBegin
    · exact ⟨[.begin th A.work (.ofString (workName t))], by simp only [cb]; rw [if_pos h1]; rfl, by simp [Op.thread, Op.loc, Op.attr]⟩
    by_cases h2 : ep = scopeEnd
    · exact ⟨[.endR th A.work], by simp only [cb]; rw [if_neg h1, if_pos h2]; rfl, by simp [Op.thread, Op.loc, Op.attr]⟩
    · exact ⟨[], by simp only [cb]; rw [if_neg h1, if_neg h2]; rfl, by simp⟩
  | sync t ep =>
    by_cases h1 : ep = scopeBegin
    · exact ⟨[.begin th A.sync (.ofString (syncName t))], by simp only [cb]; rw [if_pos h1]; rfl, by simp [Op.thread, Op.loc, Op.attr]⟩
    by_cases h2 : ep = scopeEnd
    · exact ⟨[.endR th A.sync], by simp only [cb]; rw [if_neg h1, if_pos h2]; rfl, by simp [Op.thread, Op.loc, Op.attr]⟩
    · exact ⟨[], by simp only [cb]; rw [if_neg h1, if_neg h2]; rfl, by simp⟩

theorem act_le (s : OState) (th : Nat) (a : Act) : LeLoss s.rt (act s th a).rt := by
  unfold act
  split
  · obtain ⟨ops, h, _⟩ := cb_ops (s.attrs.getD nullAttrs) s.rt th ‹_›
    simp only [h]; exact run_le _ _
  · split <;> exact LeLoss.refl _
  · exact LeLoss.refl _
  · exact step_le _ _
  · exact LeLoss.refl _

theorem runO_le (s : OState) (h : List (Nat × Act)) : LeLoss s.rt (runO s h).rt := by
  induction h generalizing s with
  | nil => exact LeLoss.refl _
  | cons x h ih => exact (act_le s x.1 x.2).trans (ih _)

theorem runO_snoc (s : OState) (h : List (Nat × Act)) (x : Nat × Act) : runO s (h ++ [x]) = act (runO s h) x.1 x.2 := by
  simp [runO]

/-- the context of the thread is not touched -/
theorem Agree.same {A : Attrs} {r0 : PathL} {c c' : Abs} {th : Nat} {d : Doing} (g : Agree A r0 c th d)
    (h1 : c'.ctx (.thread th) = c.ctx (.thread th)) (h2 : c'.err th = c.err th) : Agree A r0 c' th d :=
  ⟨by rw [h2]; exact g.err, by rw [h1]; exact g.region, by rw [h1]; exact g.type, by rw [h1]; exact g.proc, by rw [h1]; exact g.thread,
    by rw [h1]; exact g.team, g.user⟩

theorem away {A : Attrs} {r0 : PathL} {s0 s : State} {c : Abs} {th : Nat} {d : Doing} (S : Sync s0 s c) (g : Agree A r0 c th d)
    {ops : List Op} (hv : ∀ op ∈ ops, op.attr.Valid s0.tree) (hn : ∀ op ∈ ops, op.thread ≠ th ∧ op.loc ≠ some (.thread th))
    (nl : NoLoss s (RT.run s ops)) : ∃ c', Sync s0 (RT.run s ops) c' ∧ Agree A r0 c' th d := by
  induction ops generalizing s c with
  | nil => exact ⟨c, S, g⟩
  | cons op ops ih =>
    obtain ⟨n1, n2⟩ := nl.split (step_le s op) (run_le _ ops)
    have S1 := S.step (hv op (by simp)) n1
    have hn1 := hn op (by simp)
    exact ih S1 (g.same (abs_step_other _ _ _ _ hn1.2) (abs_step_err _ _ _ _ _ (fun e => absurd e hn1.1)))
      (fun o ho => hv o (by simp [ho])) (fun o ho => hn o (by simp [ho])) n2

/-- entering a region -/
theorem Agree.begin {A : Attrs} {r0 : PathL} {c : Abs} {th : Nat} {d : Doing} (g : Agree A r0 c th d) {ac ia} {a : Attr} {v : Val} {k : Con}
    (ha : a.kind = .region ∧ scopeLoc a th = some (.thread th)) (hk : k.entry A = (a.id, v))
    (hu : ∀ b w, k = .user b w → b.kind = .region ∧ scopeLoc b th = some (.thread th) ∧ ¬ A.has b.id) :
    Agree A r0 (c.step ac ia (.begin th a v)) th { d with cons := d.cons ++ [k] } := by
  obtain ⟨h1, h2⟩ := abs_begin (ac := ac) (ia := ia) (v := v) g.err ha.2
  have hu' : ((c.ctx (.thread th)).begin a v).unal = (c.ctx (.thread th)).unal := by simp [Ctx.begin, ha.1]
  refine ⟨by rw [h2]; exact g.err, ?_, by rw [h1, hu']; exact g.type, by rw [h1, hu']; exact g.proc, by rw [h1, hu']; exact g.thread,
    by rw [h1, hu']; exact g.team, ?_⟩
  · rw [h1]
    simp [Ctx.begin, ha.1, g.region, hk]
  · intro b w hb
    rcases List.mem_append.1 hb with hb | hb
    · exact g.user b w hb
    · exact hu b w (by simp at hb; exact hb.symm)

theorem Agree.finish {A : Attrs} {r0 : PathL} {c : Abs} {th : Nat} {cs : List Con} {k : Con} {i ts} (g : Agree A r0 c th ⟨cs ++ [k], i, ts⟩)
    {a : Attr} {v : Val} (ha : a.kind = .region ∧ scopeLoc a th = some (.thread th)) (hk : k.entry A = (a.id, v)) {c' : Abs}
    (h1 : c'.ctx (.thread th) = (c.ctx (.thread th)).endR a) (h2 : c'.err = c.err) : Agree A r0 c' th ⟨cs, i, ts⟩ := by
  have hu' : ((c.ctx (.thread th)).endR a).unal = (c.ctx (.thread th)).unal := by simp [Ctx.endR, ha.1]
  have _ := v
  refine ⟨by rw [h2]; exact g.err, ?_, by rw [h1, hu']; exact g.type, by rw [h1, hu']; exact g.proc, by rw [h1, hu']; exact g.thread,
    by rw [h1, hu']; exact g.team, fun b w hb => g.user b w (by simp [hb])⟩
  rw [h1]
  have := g.region
  simp only [List.map_append, List.map_cons, List.map_nil] at this
  simp [Ctx.endR, ha.1, this, ← List.append_assoc]

theorem Agree.endable {A : Attrs} {r0 : PathL} {c : Abs} {th : Nat} {cs : List Con} {k : Con} {i ts} (g : Agree A r0 c th ⟨cs ++ [k], i, ts⟩)
    {a : Attr} {v : Val} (ha : a.kind = .region ∧ scopeLoc a th = some (.thread th)) (hk : k.entry A = (a.id, v)) :
    (c.ctx (.thread th)).endable a = some v := by
  apply endable_region ha.1 (st := r0 ++ cs.map (Con.entry A))
  have := g.region
  simp only [List.map_append, List.map_cons, List.map_nil, hk] at this
  rw [this, ← List.append_assoc]

theorem Agree.endR {A : Attrs} {r0 : PathL} {c : Abs} {th : Nat} {cs : List Con} {k : Con} {i ts} (g : Agree A r0 c th ⟨cs ++ [k], i, ts⟩)
    {ac ia} {a : Attr} {v : Val} (ha : a.kind = .region ∧ scopeLoc a th = some (.thread th)) (hk : k.entry A = (a.id, v)) :
    Agree A r0 (c.step ac ia (.endR th a)) th ⟨cs, i, ts⟩ :=
  let e := abs_end (ac := ac) (ia := ia) g.err ha.2 (g.endable ha hk)
  g.finish ha hk e.1 e.2

theorem Agree.endCheck {A : Attrs} {r0 : PathL} {c : Abs} {th : Nat} {cs : List Con} {k : Con} {i ts} (g : Agree A r0 c th ⟨cs ++ [k], i, ts⟩)
    {ac ia} {a : Attr} {v : Val} (ha : a.kind = .region ∧ scopeLoc a th = some (.thread th)) (hk : k.entry A = (a.id, v)) :
    Agree A r0 (c.step ac ia (.endCheck th a v)) th ⟨cs, i, ts⟩ :=
  let e := abs_endC (ac := ac) (ia := ia) g.err ha.2 (g.endable ha hk)
  g.finish ha hk e.1 e.2

/-- ids differ -/
structure Diff (A : Attrs) : Prop where
  tp : A.threadType.id ≠ A.procId.id
  tt : A.threadType.id ≠ A.threadId.id
  tn : A.threadType.id ≠ A.numThreads.id
  pt : A.procId.id ≠ A.threadId.id
  pn : A.procId.id ≠ A.numThreads.id
  dn : A.threadId.id ≠ A.numThreads.id
  rs : A.region.id ≠ A.sync.id
  rw : A.region.id ≠ A.work.id
  sw : A.sync.id ≠ A.work.id

theorem Made.diff {A : Attrs} {t} (M : Made A t) : Diff A := by
  have h := M.distinct
  simp only [List.map_cons, List.map_nil, List.nodup_cons, List.mem_cons, List.not_mem_nil, or_false, not_or] at h
  obtain ⟨⟨h1, h2, _, _, _, _⟩, ⟨h7, _, _, _, _⟩, _, ⟨h16, h17, h18⟩, ⟨h19, h20⟩, h21, _⟩ := h
  exact ⟨h16, h17, h18, h19, h20, h21, h1, h2, h7⟩

theorem unal_begin {x : Ctx} {a : Attr} {v : Val} (h : a.kind = .unaligned) (b : Nat) :
    vals b (x.begin a v).unal = if b = a.id then vals b x.unal ++ [v] else vals b x.unal := by
  have : (x.begin a v).unal = x.unal ++ [(a.id, v)] := by simp [Ctx.begin, h]
  rw [this, vals_append]
  split
  · subst_vars; simp [vals]
  · rename_i hb; simp [vals, List.filter_cons, Ne.symm hb]

theorem unal_end {x : Ctx} {a : Attr} (h : a.kind = .unaligned) (b : Nat) :
    vals b (x.endR a).unal = if b = a.id then (vals b x.unal).dropLast else vals b x.unal := by
  have : (x.endR a).unal = eraseInner a.id x.unal := by simp [Ctx.endR, h]
  rw [this]
  split
  · subst_vars; exact vals_erase _ _
  · rename_i hb; exact vals_erase_ne hb _

theorem region_unal (x : Ctx) (a : Attr) (v : Val) (h : a.kind = .unaligned) :
    (x.begin a v).region = x.region ∧ (x.endR a).region = x.region := by simp [Ctx.begin, Ctx.endR, h]

theorem endable_unal {x : Ctx} {a : Attr} (h : a.kind = .unaligned) : x.endable a = (vals a.id x.unal).getLast? := by
  simp [Ctx.endable, h, innermost_vals]

theorem get_unal {x : Ctx} {a : Attr} (h : a.kind = .unaligned) : x.get a = (vals a.id x.unal).getLast? := by
  simp [Ctx.get, h, innermost_vals]

/-- other calls of the program -/
theorem Agree.other {A : Attrs} {r0 : PathL} {c : Abs} {th : Nat} {d : Doing} (g : Agree A r0 c th d) {ac ia} {op : Op}
    (he : op.isEnd = false) (hA : ¬ A.has op.attr.id)
    (ho : op.loc ≠ some (.thread th) ∨ op.attr.kind ≠ .region) : Agree A r0 (c.step ac ia op) th d := by
  have e1 := abs_step_err ac ia c op th (fun _ => he)
  by_cases hl : op.loc = some (.thread th)
  swap
  · exact g.same (abs_step_other _ _ _ _ hl) e1
  have hk : op.attr.kind ≠ .region := ho.resolve_left (fun h => h hl)
  have hr := abs_step_region ac ia c op (.thread th) hk
  have hu : ∀ b, A.has b → vals b ((c.step ac ia op).ctx (.thread th)).unal = vals b (c.ctx (.thread th)).unal := by
    intro b hb
    have hb' : b ≠ op.attr.id := fun e => hA (e ▸ hb)
    cases op with
    | endR => simp [Op.isEnd] at he
    | endCheck => simp [Op.isEnd] at he
    | endCh => simp [Op.isEnd] at he
    | beginCh => simp [Op.loc] at hl
    | setCh => simp [Op.loc] at hl
    | begin th' a v =>
      replace hl : scopeLoc a th' = some (.thread th) := hl
      replace hb' : b ≠ a.id := hb'
      replace hk : a.kind ≠ .region := hk
      simp only [Abs.step]
      split
      · rfl
      · simp only [hl, abs_emitAll_ctx, put_ctx_eq]
        cases hka : a.kind with
        | region => exact absurd hka hk
        | value => simp [Ctx.begin, hka]
        | unaligned => rw [unal_begin hka, if_neg hb']
    | set th' a v =>
      replace hl : scopeLoc a th' = some (.thread th) := hl
      replace hb' : b ≠ a.id := hb'
      replace hk : a.kind ≠ .region := hk
      simp only [Abs.step]
      split
      · rfl
      · simp only [hl, abs_emitAll_ctx, put_ctx_eq]
        cases hka : a.kind with
        | region => exact absurd hka hk
        | value => simp [Ctx.set, hka]
        | unaligned =>
          have : ((c.ctx (.thread th)).set a v).unal = eraseInner a.id (c.ctx (.thread th)).unal ++ [(a.id, v)] := by simp [Ctx.set, hka]
          rw [this, vals_append, vals_erase_ne hb']
          simp [vals, List.filter_cons, Ne.symm hb']
  exact ⟨by rw [e1]; exact g.err, by rw [hr]; exact g.region, by rw [hu _ (by simp [Attrs.has])]; exact g.type,
    by rw [hu _ (by simp [Attrs.has])]; exact g.proc, by rw [hu _ (by simp [Attrs.has])]; exact g.thread,
    by rw [hu _ (by simp [Attrs.has])]; exact g.team, g.user⟩

end Verif.Serv.Ompt
