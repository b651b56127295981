import Verif.Query.PipelineRun
/-!
# Which attributes a query creates
-/
namespace Verif.Query.Pipe
open Verif Verif.Cali Verif.Query Verif.Query.Pre

/-- the new attributes of `D'` are results -/
def Made (q : QSpec) (Df D D' : PDB) : Prop := Ext D' Df → ∀ a ∈ D'.attrs, a ∈ D.attrs ∨ q.Result Df a

theorem Made.refl (q : QSpec) (Df D : PDB) : Made q Df D D := fun _ _ h => .inl h

theorem Made.trans {q : QSpec} {Df D D1 D2 : PDB} (h : Made q Df D D1) (h' : Made q Df D1 D2) (hx : Ext D1 D2) : Made q Df D D2 := by
  intro he a ha
  rcases h' he a ha with h1 | h1
  · exact h (hx.trans he) a h1
  · exact .inr h1

theorem Made.create {q : QSpec} {Df D : PDB} {n : Str} {t : AttrType} (h : Ext D Df → ∀ i, q.Result Df ⟨i, n, t, false⟩) :
    Made q Df D (D.create n t false).1 := by
  intro he a ha
  have hx : Ext D Df := (Ext.create D n t false).trans he
  unfold PDB.create at ha
  split at ha
  · exact .inl ha
  · simp only [List.mem_append, List.mem_singleton] at ha
    rcases ha with ha | rfl
    · exact .inl ha
    · exact .inr (h hx _)

theorem Made.cget {q : QSpec} {Df D : PDB} {c : Option PAttr} {n : Str} {t : AttrType} (h : Ext D Df → ∀ i, q.Result Df ⟨i, n, t, false⟩) :
    Made q Df D (cget D c n t).1 := by
  unfold Pipe.cget
  split
  · exact Made.refl _ _ _
  · exact Made.create h

theorem emit_made {q : QSpec} {L : LetDef} (hL : L ∈ q.lets) (Df D : PDB) (k : KState) (t : AttrType) (v : Val) (r : List QEnt) :
    Made q Df D (emit D k L.target t v r).1 := by
  unfold emit
  split
  · exact Made.refl _ _ _
  · exact Made.create fun _ i => ⟨rfl, .inl ⟨L, hL, rfl⟩⟩

theorem process_made {q : QSpec} {L : LetDef} (hL : L ∈ q.lets) (Df : PDB) (O : POps) (meta_ : Nat → List (Nat × Val)) (D : PDB) (k : KState) (r : List QEnt) :
    Made q Df D (process O meta_ L D k r).1 := by
  have hc : ∀ t, Made q Df D (D.create L.target t false).1 := fun t => Made.create fun _ i => ⟨rfl, .inl ⟨L, hL, rfl⟩⟩
  unfold process
  split
  · dsimp only
    split
    · exact Made.refl _ _ _
    · split
      · exact Made.refl _ _ _
      · exact emit_made hL _ _ _ _ _ _
  · dsimp only
    split
    · exact Made.refl _ _ _
    · exact emit_made hL _ _ _ _ _ _
  · split
    · dsimp only
      split
      · exact Made.refl _ _ _
      · exact emit_made hL _ _ _ _ _ _
    · exact Made.refl _ _ _
  · split
    · exact emit_made hL _ _ _ _ _ _
    · exact Made.refl _ _ _
  · unfold sumEnd
    split
    · exact Made.refl _ _ _
    · exact emit_made hL _ _ _ _ _ _
  · split
    · rw [(leafRun_fst ..).1]; exact Made.refl _ _ _
    · dsimp only; rw [(leafRun_fst ..).1]; exact hc _
  · split
    · split
      · rw [(leafRun_fst ..).1]; exact Made.refl _ _ _
      · exact Made.refl _ _ _
    · split
      · exact Made.refl _ _ _
      · dsimp only; rw [(leafRun_fst ..).1]; exact hc _
  · exact Made.refl _ _ _

theorem preprocess_made {q : QSpec} (Df : PDB) (O : POps) (meta_ : Nat → List (Nat × Val)) (dcmp : U64 → U64 → Int) (F : DblFmt)
    (ks : List (LetDef × KState)) : (∀ x ∈ ks, x.1 ∈ q.lets) → ∀ (D : PDB) (r : List QEnt), Made q Df D (preprocess O meta_ dcmp F ks D r).1 := by
  induction ks with
  | nil => intro _ D r; exact Made.refl _ _ _
  | cons p ks ih =>
    intro h D r
    obtain ⟨L, k⟩ := p
    have ih' := ih fun x hx => h x (List.mem_cons_of_mem _ hx)
    unfold preprocess
    split
    · exact (process_made (h (L, k) (by simp)) Df O meta_ D k r).trans (ih' _ _) (preprocess_ext ..)
    · exact ih' _ _

theorem result_drv {q : QSpec} {Df : PDB} {op : AggOp} (ho : op ∈ q.aggs) (hc : op ≠ .count) {a : PAttr} (ha : Df.attr op.tgt = some a) (i : Nat) :
    q.Result Df ⟨i, op.drvName, a.ty, false⟩ := by
  refine ⟨rfl, .inr ⟨op, ho, a.ty, ?_, fun _ => ⟨a, ha, rfl⟩⟩⟩
  cases op with
  | count => exact absurd rfl hc
  | red k n i => cases k <;> cases i <;> simp [AggOp.created, AggOp.drvName, AggOp.drvPfx, AggOp.tgt]
  | avg n => simp [AggOp.created, AggOp.drvName, AggOp.drvPfx, AggOp.tgt]

theorem result_avg {q : QSpec} {Df : PDB} {n : Str} (ho : AggOp.avg n ∈ q.aggs) {a : PAttr} (ha : Df.attr n = some a) (i : Nat) :
    q.Result Df ⟨i, (AggOp.avg n).avgName, a.ty, false⟩ ∧ q.Result Df ⟨i, (AggOp.avg n).cntName, .uint, false⟩ :=
  ⟨⟨rfl, .inr ⟨_, ho, a.ty, by simp [AggOp.created, AggOp.avgName, AggOp.tgt], fun _ => ⟨a, ha, rfl⟩⟩⟩,
   ⟨rfl, .inr ⟨_, ho, a.ty, by simp [AggOp.created, AggOp.cntName], fun _ => ⟨a, ha, rfl⟩⟩⟩⟩

theorem touch_made {q : QSpec} {Df D : PDB} {m : KMgr} (ho : m.op ∈ q.aggs) (hw : D.WF) (h : KOk D m) : Made q Df D (m.touch D).1 := by
  unfold KMgr.touch
  split
  · rename_i hop
    refine Made.cget fun _ i => ⟨rfl, .inr ⟨m.op, ho, .uint, ?_, fun hc => absurd hop hc⟩⟩
    rw [hop]; simp [AggOp.created, AggOp.cntName]
  · rename_i k n i hop
    rw [target_eq h.tgt]
    split
    · exact Made.refl _ _ _
    · rename_i a ha
      exact Made.cget fun hx i => result_drv ho (by rw [hop]; simp) (hx.keep _ _ ha) i
  · rename_i n hop
    rw [target_eq h.tgt]
    split
    · exact Made.refl _ _ _
    · rename_i a ha
      have e1 := (cget_spec hw h.drv a.ty).1
      have e2 := (cget_spec (cget_spec hw h.drv a.ty).2.1 (c := m.cnt) (n := m.op.cntName) (fun a' ha' => e1.keep _ _ (h.cnt a' ha')) .uint).1
      refine Made.trans (Made.cget fun hx i => result_drv ho (by rw [hop]; simp) (hx.keep _ _ ha) i) (Made.cget fun hx i => ?_) e2
      have ha' : Df.attr n = some a := by
        have := (e1.trans hx).keep _ _ ha
        rwa [hop] at this
      rw [hop] at ho ⊢
      exact (result_avg ho ha' i).2

theorem touchAll_made {q : QSpec} {Df : PDB} (ks : List KMgr) : ∀ {D : PDB}, (∀ m ∈ ks, m.op ∈ q.aggs) → D.WF → (∀ m ∈ ks, KOk D m) →
    Made q Df D (touchAll D ks).1 := by
  induction ks with
  | nil => intro D _ _ _; exact Made.refl _ _ _
  | cons m ks ih =>
    intro D ho hw hk
    have t := touch_spec hw (hk m (by simp))
    have hk' : ∀ m' ∈ ks, KOk (m.touch D).1 m' := fun m' hm' => (hk m' (by simp [hm'])).mono t.ext
    have := (touchAll_spec ks t.wf hk').1
    unfold touchAll
    exact (touch_made (ho m (by simp)) hw (hk m (by simp))).trans (ih (fun m' hm' => ho m' (by simp [hm'])) t.wf hk') this

/-- the attributes of a database: those there before, those defined by the input, and results -/
def Known (q : QSpec) (Df D0 : PDB) (ps : List PStep) (D : PDB) : Prop :=
  Ext D Df → ∀ a ∈ D.attrs, a ∈ D0.attrs ∨ .create a.name a.ty a.nested ∈ ps ∨ q.Result Df a

theorem step_known {E : Env} {q : QSpec} {Df D0 D00 : PDB} {s : QP} (hi : Inv q D00 s) {pre : List PStep} (h : Known q Df D0 pre s.db) (p : PStep) :
    Known q Df D0 (pre ++ [p]) (s.step E q p).db := by
  have made : ∀ {D'}, Ext s.db D' → Made q Df s.db D' → Known q Df D0 (pre ++ [p]) D' := by
    intro D' he hm hx a ha
    rcases hm hx a ha with h1 | h1
    · rcases h (he.trans hx) a h1 with h2 | h2 | h2
      · exact .inl h2
      · exact .inr (.inl (by simp [h2]))
      · exact .inr (.inr h2)
    · exact .inr (.inr h1)
  cases p with
  | create n t b =>
    intro hx a ha
    have ha : a ∈ (s.db.create n t b).1.attrs := ha
    have hx : Ext (s.db.create n t b).1 Df := hx
    have h0 := h ((Ext.create ..).trans hx)
    unfold PDB.create at ha
    split at ha
    · exact (h0 a ha).imp id (Or.imp (by intro h; simp [h]) id)
    · simp only [List.mem_append, List.mem_singleton] at ha
      rcases ha with ha | rfl
      · exact (h0 a ha).imp id (Or.imp (by intro h; simp [h]) id)
      · exact .inr (.inl (by simp))
  | record r =>
    obtain ⟨i1, i2⟩ := inv_let (E := E) hi r
    have hl : ∀ x ∈ s.lets, x.1 ∈ q.lets := by
      intro x hx
      have := hi.good.lets
      have h2 : x.1 ∈ s.lets.map Prod.fst := List.mem_map.2 ⟨x, hx, rfl⟩
      first | (rw [this] at h2; exact h2) | simpa [this] using h2
    have m1 := preprocess_made (q := q) Df E.O E.meta_ E.dcmp E.F s.lets hl s.db r
    have key : ∀ {D'}, Ext (preprocess E.O E.meta_ E.dcmp E.F s.lets s.db r).1 D' → Made q Df (preprocess E.O E.meta_ E.dcmp E.F s.lets s.db r).1 D' →
        Known q Df D0 (pre ++ [.record r]) D' := fun he hm => made (i2.trans he) (m1.trans hm he)
    show Known q Df D0 (pre ++ [.record r]) (s.record E q r).db
    unfold QP.record
    dsimp only
    split
    · split
      · have hk := i1.ks
        have ho : ∀ m ∈ s.ks, m.op ∈ q.aggs := by
          intro m hm
          rw [← i1.ops]
          exact List.mem_map.2 ⟨m, hm, rfl⟩
        exact key (touchAll_spec s.ks i1.good.wf hk).1 (touchAll_made s.ks ho i1.good.wf hk)
      · exact key (Ext.refl _) (Made.refl _ _ _)
    · exact key (Ext.refl _) (Made.refl _ _ _)

theorem run_known {E : Env} {q : QSpec} {Df D0 D00 : PDB} (ps : List PStep) : ∀ {s : QP} {pre : List PStep}, Inv q D00 s → Known q Df D0 pre s.db →
    Known q Df D0 (pre ++ ps) (s.run E q ps).db := by
  induction ps with
  | nil => intro s pre _ h; simpa [QP.run] using h
  | cons p ps ih =>
    intro s pre hi h
    have := ih (step_inv (E := E) hi p).1 (step_known (E := E) hi h p)
    simpa [QP.run] using this

theorem touchRes_made {q : QSpec} {Df D : PDB} {m : KMgr} (ho : m.op ∈ q.aggs) (hw : D.WF) (h : KOk D m) (s : KSt) :
    Made q Df D (m.touchRes D s).1 := by
  unfold KMgr.touchRes
  split
  · split
    · exact Made.refl _ _ _
    · exact touch_made ho hw h
  · split
    · exact Made.refl _ _ _
    · exact touch_made ho hw h
  · rename_i n hop
    split
    · exact Made.refl _ _ _
    · rw [target_eq h.tgt]
      split
      · exact Made.refl _ _ _
      · rename_i a ha
        obtain ⟨e1, w1, d1⟩ := cget_spec hw h.avg a.ty
        have hk : KOk (cget D m.avg m.op.avgName a.ty).1 { m with tgt := some a, avg := some (cget D m.avg m.op.avgName a.ty).2 } := by
          refine ⟨?_, fun a' ha' => e1.keep _ _ (h.drv a' ha'), ?_, fun a' ha' => e1.keep _ _ (h.cnt a' ha')⟩
          · intro a' ha'
            simp only [Option.some.injEq] at ha'
            rw [← ha']; exact e1.keep _ _ ha
          · intro a' ha'
            simp only [Option.some.injEq] at ha'
            rw [← ha']; exact d1
        refine Made.trans (Made.cget fun hx i => ?_) (touch_made ho w1 hk) (touch_spec w1 hk).ext
        have ha' : Df.attr n = some a := by
          have := hx.keep _ _ ha
          rwa [hop] at this
        rw [hop] at ho ⊢
        exact (result_avg ho ha' i).1

theorem touchRes_step {q : QSpec} {Df D : PDB} {m : KMgr} (ho : m.op ∈ q.aggs) (hw : D.WF) (h : KOk D m) (s : KSt) :
    Made q Df D (m.touchRes D s).1 ∧ Ext D (m.touchRes D s).1 ∧ (m.touchRes D s).1.WF ∧ KOk (m.touchRes D s).1 (m.touchRes D s).2 ∧ (m.touchRes D s).2.op = m.op := by
  refine ⟨touchRes_made ho hw h s, ?_⟩
  have t := touch_spec hw h
  unfold KMgr.touchRes
  split
  · split
    · exact ⟨Ext.refl _, hw, h, rfl⟩
    · exact ⟨t.ext, t.wf, t.ok, t.op⟩
  · split
    · exact ⟨Ext.refl _, hw, h, rfl⟩
    · exact ⟨t.ext, t.wf, t.ok, t.op⟩
  · rename_i n hop
    split
    · exact ⟨Ext.refl _, hw, h, rfl⟩
    · rw [target_eq h.tgt]
      split
      · exact ⟨Ext.refl _, hw, h, rfl⟩
      · rename_i a ha
        obtain ⟨e1, w1, d1⟩ := cget_spec hw h.avg a.ty
        have hk : KOk (cget D m.avg m.op.avgName a.ty).1 { m with tgt := some a, avg := some (cget D m.avg m.op.avgName a.ty).2 } := by
          refine ⟨?_, fun a' ha' => e1.keep _ _ (h.drv a' ha'), ?_, fun a' ha' => e1.keep _ _ (h.cnt a' ha')⟩
          · intro a' ha'
            simp only [Option.some.injEq] at ha'
            rw [← ha']; exact e1.keep _ _ ha
          · intro a' ha'
            simp only [Option.some.injEq] at ha'
            rw [← ha']; exact d1
        have t' := touch_spec w1 hk
        exact ⟨e1.trans t'.ext, t'.wf, t'.ok, t'.op⟩

theorem flushKernels_made {q : QSpec} {Df : PDB} (O : FOps) (ms : List KMgr) : ∀ {D : PDB} (ss : List KSt), (∀ m ∈ ms, m.op ∈ q.aggs) → D.WF →
    (∀ m ∈ ms, KOk D m) →
    Made q Df D (flushKernels O D ms ss).1 ∧ Ext D (flushKernels O D ms ss).1 ∧ (flushKernels O D ms ss).1.WF ∧
      (∀ m ∈ (flushKernels O D ms ss).2.1, KOk (flushKernels O D ms ss).1 m ∧ m.op ∈ q.aggs) := by
  induction ms with
  | nil =>
    intro D ss _ hw _
    have e : flushKernels O D [] ss = (D, [], []) := by unfold flushKernels; rfl
    rw [e]
    exact ⟨Made.refl _ _ _, Ext.refl _, hw, by simp⟩
  | cons m ms ih =>
    intro D ss ho hw hk
    cases ss with
    | nil =>
      have e : flushKernels O D (m :: ms) [] = (D, m :: ms, []) := by unfold flushKernels; rfl
      rw [e]
      exact ⟨Made.refl _ _ _, Ext.refl _, hw, fun m' h' => ⟨hk m' h', ho m' h'⟩⟩
    | cons s ss =>
      obtain ⟨a1, a2, a3, a4, a5⟩ := touchRes_step (Df := Df) (ho m (by simp)) hw (hk m (by simp)) s
      obtain ⟨b1, b2, b3, b4⟩ := ih ss (fun m' h' => ho m' (by simp [h'])) a3 (fun m' h' => (hk m' (by simp [h'])).mono a2)
      unfold flushKernels
      refine ⟨a1.trans b1 b2, a2.trans b2, b3, ?_⟩
      intro m' h'
      rcases List.mem_cons.1 h' with rfl | h'
      · exact ⟨a4.mono b2, by rw [a5]; exact ho m (by simp)⟩
      · exact b4 m' h'

theorem flushEntries_made {q : QSpec} {Df : PDB} (O : FOps) (es : List QEntry) : ∀ {D : PDB} {ms : List KMgr}, (∀ m ∈ ms, m.op ∈ q.aggs) → D.WF →
    (∀ m ∈ ms, KOk D m) → Made q Df D (flushEntries O D ms es).1 ∧ Ext D (flushEntries O D ms es).1 := by
  induction es with
  | nil =>
    intro D ms _ _ _
    exact ⟨Made.refl _ _ _, Ext.refl _⟩
  | cons e es ih =>
    intro D ms ho hw hk
    obtain ⟨b1, b2, b3, b4⟩ := flushKernels_made (Df := Df) O ms e.kernels ho hw hk
    obtain ⟨c1, c2⟩ := ih (fun m h => (b4 m h).2) b3 (fun m h => (b4 m h).1)
    unfold flushEntries
    exact ⟨b1.trans c1 c2, b2.trans c2⟩

theorem query_made {E : Env} {q : QSpec} {D0 : PDB} (hw : D0.WF) (ps : List PStep) :
    ∀ a ∈ (query E q D0 ps).1.attrs, a ∈ D0.attrs ∨ .create a.name a.ty a.nested ∈ ps ∨ q.Result (query E q D0 ps).1 a := by
  obtain ⟨hi, -⟩ := run_inv (E := E) ps (inv_init q hw)
  have hk : Known q (query E q D0 ps).1 D0 ([] ++ ps) ((QP.init q D0).run E q ps).db :=
    run_known (E := E) ps (inv_init q hw) (fun _ a ha => .inl ha)
  have ho : ∀ m ∈ ((QP.init q D0).run E q ps).ks, m.op ∈ q.aggs := by
    intro m hm
    rw [← hi.ops]
    exact List.mem_map.2 ⟨m, hm, rfl⟩
  obtain ⟨m1, m2⟩ := flushEntries_made (Df := (query E q D0 ps).1) E.O.toFOps (((QP.init q D0).run E q ps).agg.entries.drop 1) ho hi.good.wf hi.ks
  intro a ha
  rcases m1 (Ext.refl _) a ha with h | h
  · simpa using hk m2 a h
  · exact .inr (.inr h)

end Verif.Query.Pipe
