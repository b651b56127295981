import Verif.Query.PipelineAgg
/-!
# A whole query, seen from the final database
-/
namespace Verif.Query.Pipe
open Verif Verif.Cali Verif.Query Verif.Query.Pre

/-- the state of a query is consistent with its database -/
structure Inv (q : QSpec) (D0 : PDB) (s : QP) : Prop where
  good : Good q.lets (s.db, s.lets)
  keys : KeysOk s.db q.keys s.strs s.attrs
  ops : s.ks.map KMgr.op = q.aggs
  ks : ∀ m ∈ s.ks, KOk s.db m
  base : D0.next ≤ s.db.next

/-- kernel `op` does nothing on the records -/
def IdleOn (O : FOps) (Df : PDB) (op : AggOp) (rs : List (List QEnt)) : Prop :=
  ∀ r ∈ rs, ∀ st : KSt, (op.cfg Df).aggregate O (fun i => (Df.byId i).isSome) st r = (st, 0)

/-- the aggregator holds what it would hold had it known the final database -/
structure Holds (E : Env) (q : QSpec) (Df : PDB) (s : QP) (acc : List (List QEnt)) : Prop where
  agg : s.agg = QAgg.init.run E.O.toFOps (q.cfg E Df) acc
  idle : ∀ (i : Nat) (m : KMgr), s.ks[i]? = some m → Resolved m ∨ IdleOn E.O.toFOps Df m.op acc

theorem inv_init (q : QSpec) {D : PDB} (hw : D.WF) : Inv q D (QP.init q D) := by
  refine ⟨good_start hw q.lets, ⟨by simp [QP.init], fun n h => h, fun n h => .inl h⟩, ?_, ?_, le_refl _⟩
  · simp [QP.init, Function.comp_def]
  · intro m hm
    simp only [QP.init, List.mem_map] at hm
    obtain ⟨op, _, rfl⟩ := hm
    exact ⟨by simp, by simp, by simp, by simp⟩

theorem good_ext {Ls : List LetDef} {D D' : PDB} {ks : List (LetDef × KState)} (h : Good Ls (D, ks)) (hx : Ext D D') (hw : D'.WF) : Good Ls (D', ks) :=
  ⟨hw, h.lets, fun x hx' => (h.coh x hx').mono hx.keep⟩

theorem Inv.ext {q : QSpec} {D0 : PDB} {s : QP} (h : Inv q D0 s) {D' : PDB} (hx : Ext s.db D') (hw : D'.WF) : Inv q D0 { s with db := D' } :=
  ⟨good_ext h.good hx hw, h.keys.mono hx, h.ops, fun m hm => (h.ks m hm).mono hx, le_trans h.base hx.next⟩

theorem inv_let {E : Env} {q : QSpec} {D0 : PDB} {s : QP} (h : Inv q D0 s) (r : List QEnt) :
    let x := preprocess E.O E.meta_ E.dcmp E.F s.lets s.db r
    Inv q D0 { s with db := x.1, lets := x.2.1 } ∧ Ext s.db x.1 := by
  intro x
  have hx : Ext s.db x.1 := preprocess_ext ..
  obtain ⟨g, -, -, -⟩ := preprocess_good E.O E.meta_ E.dcmp E.F (D := s.db) (ks := s.lets) h.good r
  exact ⟨⟨g, h.keys.mono hx, h.ops, fun m hm => (h.ks m hm).mono hx, le_trans h.base hx.next⟩, hx⟩

theorem inv_add {E : Env} {q : QSpec} {D0 : PDB} {s : QP} (h : Inv q D0 s) (r : List QEnt) :
    Inv q D0 (aggAdd E q s r) ∧ Ext s.db (aggAdd E q s r).db := by
  obtain ⟨a1, a2, a3, a4, a5⟩ := touchAll_spec s.ks h.good.wf h.ks
  refine ⟨⟨good_ext h.good a1 a2, (updKeys_spec h.keys).1.mono a1, a4.trans h.ops, a3, le_trans h.base a1.next⟩, a1⟩

/-- one record in the aggregator -/
theorem add_agree {E : Env} {q : QSpec} {D0 : PDB} {s : QP} (h : Inv q D0 s) (hm : MetaOk E D0) {r : List QEnt} (hr : IdsOk s.db r)
    (hd : DerivedOk q s.db r) {Df : PDB} (hwf : Df.WF) (hinv : Df.next ≤ invN) (hx : Ext (aggAdd E q s r).db Df) :
    Agree E.O.toFOps (aggCfg E q s.db (touchAll s.db s.ks).1 (updKeys s.db s.strs s.attrs).2 (touchAll s.db s.ks).2) (q.cfg E Df) r ∧
    ∀ (i : Nat) (m : KMgr), (aggAdd E q s r).ks[i]? = some m → ∃ m0, s.ks[i]? = some m0 ∧ m0.op = m.op ∧ (Resolved m0 → Resolved m) ∧
      (Resolved m ∨ IdleOn E.O.toFOps Df m.op [r]) := by
  obtain ⟨a1, a2, a3, a4, a5⟩ := touchAll_spec s.ks h.good.wf h.ks
  have hx' : Ext (touchAll s.db s.ks).1 Df := hx
  have hxs : Ext s.db Df := a1.trans hx'
  obtain ⟨u1, u2⟩ := updKeys_spec h.keys
  have hkey : ∀ x ∈ pairs r, isKeyOf E.meta_ (updKeys s.db s.strs s.attrs).2 x.1 = (q.cfg E Df).isKey x.1 :=
    fun x hxp => isKey_agree hxs h.base hm u1.found u2 (hr.2 x hxp)
  have hnest : ∀ x ∈ pairs r, s.db.isNested x.1 = Df.isNested x.1 := fun x hxp => (hxs.nested (hr.2 x hxp)).symm
  have hops : (touchAll s.db s.ks).2.map KMgr.op = q.aggs := a4.trans h.ops
  have hopi : ∀ (i : Nat) (m : KMgr), (touchAll s.db s.ks).2[i]? = some m → q.aggs[i]? = some m.op := by
    intro i m hmi
    rw [← hops, List.getElem?_map, hmi]; rfl
  have hsel : ∀ b, QCfg.selected (aggCfg E q s.db (touchAll s.db s.ks).1 (updKeys s.db s.strs s.attrs).2 (touchAll s.db s.ks).2) b r =
      QCfg.selected (q.cfg E Df) b r := by
    intro b
    apply selected_congr
    · rfl
    · rfl
    · exact hkey
    · exact hnest
  refine ⟨⟨?_, rfl, ?_, ?_, ?_⟩, ?_⟩
  · show ((touchAll s.db s.ks).2.map KMgr.cfg).length = (q.aggs.map (AggOp.cfg Df)).length
    rw [List.length_map, List.length_map, ← hops, List.length_map]
  · unfold QCfg.preKey
    rw [hsel false, immKey_congr hkey]
  · unfold QCfg.pathOf
    rw [hsel true]
  · intro k c c' hc hc'
    have hc : ((touchAll s.db s.ks).2.map KMgr.cfg)[k]? = some c := hc
    have hc' : (q.aggs.map (AggOp.cfg Df))[k]? = some c' := hc'
    rw [List.getElem?_map] at hc hc'
    cases hmk : (touchAll s.db s.ks).2[k]? with
    | none => rw [hmk] at hc; cases hc
    | some m =>
      rw [hmk] at hc
      rw [hopi k m hmk] at hc'
      simp only [Option.map_some, Option.some.injEq] at hc hc'
      subst hc hc'
      obtain ⟨m0, b1, b2, b3⟩ := a5 k m hmk
      refine ⟨?_, ?_⟩
      · unfold KMgr.cfg AggOp.cfg
        cases m.op with
        | count => rfl
        | red k n i => cases k <;> rfl
        | avg n => rfl
      · intro st
        exact kernel_agree h.good.wf a2 hwf a1 hx' hinv hr (a3 m (List.mem_of_getElem? hmk))
          (hd m.op (List.mem_of_getElem? (hopi k m hmk))) b3 _ st
  · intro i m hmi
    have hmi : (touchAll s.db s.ks).2[i]? = some m := hmi
    obtain ⟨m0, b1, b2, b3⟩ := a5 i m hmi
    refine ⟨m0, b1, ?_, b2, b3.imp _root_.id ?_⟩
    · have e1 := hopi i m hmi
      have e2 : q.aggs[i]? = some m0.op := by rw [← h.ops, List.getElem?_map, b1]; rfl
      rw [e1] at e2
      exact (Option.some.inj e2).symm
    · rintro ⟨c1, c2, c3⟩ r' hr' st
      simp at hr'
      subst hr'
      exact idle_later h.good.wf hwf hxs hinv hr c3 (hd m.op (List.mem_of_getElem? (hopi i m hmi))) c1 _ st

theorem step_inv {E : Env} {q : QSpec} {D0 : PDB} {s : QP} (h : Inv q D0 s) (p : PStep) : Inv q D0 (s.step E q p) ∧ Ext s.db (s.step E q p).db := by
  cases p with
  | create n t b => exact ⟨h.ext (Ext.create ..) (WF.create h.good.wf _ _ _), Ext.create ..⟩
  | record r =>
    obtain ⟨i1, i2⟩ := inv_let (E := E) h r
    show Inv q D0 (s.record E q r) ∧ Ext s.db (s.record E q r).db
    unfold QP.record
    dsimp only
    split
    · split
      · obtain ⟨j1, j2⟩ := inv_add (E := E) i1 (preprocess E.O E.meta_ E.dcmp E.F s.lets s.db r).2.2
        exact ⟨j1, i2.trans j2⟩
      · exact ⟨⟨i1.good, i1.keys, i1.ops, i1.ks, i1.base⟩, i2⟩
    · exact ⟨i1, i2⟩

theorem run_inv {E : Env} {q : QSpec} {D0 : PDB} (ps : List PStep) : ∀ {s : QP}, Inv q D0 s → Inv q D0 (s.run E q ps) ∧ Ext s.db (s.run E q ps).db := by
  induction ps with
  | nil => intro s h; exact ⟨h, Ext.refl _⟩
  | cons p ps ih =>
    intro s h
    obtain ⟨a1, a2⟩ := step_inv (E := E) h p
    obtain ⟨b1, b2⟩ := ih a1
    exact ⟨b1, a2.trans b2⟩

/-- the records that pass WHERE -/
def kept (E : Env) (q : QSpec) (Df : PDB) (rs : List (List QEnt)) : List (List QEnt) := rs.filter ((Df.sel E.dcmp E.F).pass q.conds)

/-- all records -/
theorem run_holds {E : Env} {q : QSpec} {D0 : PDB} (hm : MetaOk E D0) {Df : PDB} (hwf : Df.WF) (hinv : Df.next ≤ invN) (ps : List PStep) :
    ∀ {s : QP} {acc : List (List QEnt)}, Inv q D0 s → InputOk E q s ps → Holds E q Df s acc → Ext (s.run E q ps).db Df →
    ∃ rs, List.Forall₂ (fun r r' => LetChain E.O E.dcmp E.F q.lets Df r Df r') (recordsOf ps) rs ∧ (∀ r ∈ rs, IdsOk Df r) ∧
      Holds E q Df (s.run E q ps) (acc ++ if q.doAgg then kept E q Df rs else []) ∧
      (s.run E q ps).out = s.out ++ if q.doAgg then [] else kept E q Df rs := by
  induction ps with
  | nil =>
    intro s acc _ _ hh _
    refine ⟨[], .nil, by simp, ?_, ?_⟩
    · simpa [QP.run, kept] using hh
    · simp [QP.run, kept]
  | cons p ps ih =>
    intro s acc hi hin hh hx
    obtain ⟨st1, st2⟩ := step_inv (E := E) hi p
    have hx1 : Ext (s.step E q p).db Df := (run_inv ps st1).2.trans hx
    cases p with
    | create n t b =>
      have hh' : Holds E q Df (s.step E q (.create n t b)) acc := ⟨hh.agg, hh.idle⟩
      exact ih st1 hin hh' hx
    | record r =>
      obtain ⟨h1, h2, h3, h4⟩ := hin
      obtain ⟨i1, i2⟩ := inv_let (E := E) hi r
      have hxl : Ext (preprocess E.O E.meta_ E.dcmp E.F s.lets s.db r).1 Df := by
        refine Ext.trans ?_ hx1
        show Ext _ (s.record E q r).db
        unfold QP.record
        dsimp only
        split
        · split
          · exact (inv_add (E := E) i1 _).2
          · exact Ext.refl _
        · exact Ext.refl _
      obtain ⟨-, -, g3, g4⟩ := preprocess_good E.O E.meta_ E.dcmp E.F (D := s.db) (ks := s.lets) hi.good r
      obtain ⟨c1, c2⟩ := chain_stable E.O E.meta_ E.dcmp E.F hinv (Ls := q.lets) hi.good.wf r h1 (by rw [g3]; exact h2) (by rw [g3]; exact hxl)
      rw [g3] at c2
      rw [g4] at c1 c2
      have hpass := pass_stable hxl hinv E.dcmp E.F c2 q.conds
      obtain ⟨acc', hacc, hh', hout⟩ : ∃ acc', acc' = acc ++ (if q.doAgg then kept E q Df [(preprocess E.O E.meta_ E.dcmp E.F s.lets s.db r).2.2] else []) ∧
          Holds E q Df (s.step E q (.record r)) acc' ∧
          (s.step E q (.record r)).out = s.out ++ if q.doAgg then [] else kept E q Df [(preprocess E.O E.meta_ E.dcmp E.F s.lets s.db r).2.2] := by
        refine ⟨_, rfl, ?_⟩
        have hx1' : Ext (s.record E q r).db Df := hx1
        show Holds E q Df (s.record E q r) _ ∧ (s.record E q r).out = _
        unfold QP.record at hx1' ⊢
        dsimp only at hx1' ⊢
        unfold kept
        by_cases hp : (((preprocess E.O E.meta_ E.dcmp E.F s.lets s.db r).1).sel E.dcmp E.F).pass q.conds (preprocess E.O E.meta_ E.dcmp E.F s.lets s.db r).2.2 = true
        · have hp' := hpass.trans hp
          rw [if_pos hp] at hx1' ⊢
          by_cases hag : q.doAgg = true
          · rw [if_pos hag] at hx1' ⊢
            obtain ⟨e1, e2⟩ := add_agree (E := E) i1 hm c2 h3 hwf hinv hx1'
            simp only [hag, if_true, List.filter_cons, hp', List.filter_nil, List.append_nil]
            refine ⟨⟨?_, ?_⟩, rfl⟩
            · show s.agg.process _ _ _ = _
              rw [process_congr e1, hh.agg]
              unfold QAgg.run
              rw [List.foldl_append]
              rfl
            · intro i m hmi
              obtain ⟨m0, b1, b2, b3, b4⟩ := e2 i m hmi
              rcases b4 with b4 | b4
              · exact .inl b4
              · rcases hh.idle i m0 b1 with b5 | b5
                · exact .inl (b3 b5)
                · right
                  rw [b2] at b5
                  intro r' hr'
                  rcases List.mem_append.1 hr' with hr' | hr'
                  · exact b5 r' hr'
                  · exact b4 r' hr'
          · rw [if_neg hag]
            have hag' : q.doAgg = false := by simpa using hag
            simp only [hag', Bool.false_eq_true, if_false, List.append_nil, List.filter_cons, hp', if_true, List.filter_nil]
            first | exact ⟨⟨hh.agg, hh.idle⟩, rfl⟩ | exact ⟨⟨hh.agg, hh.idle⟩, trivial⟩
        · have hp' : ¬ ((Df.sel E.dcmp E.F).pass q.conds (preprocess E.O E.meta_ E.dcmp E.F s.lets s.db r).2.2) = true := by rw [hpass]; exact hp
          rw [if_neg hp]
          simp only [List.filter_cons, hp', Bool.false_eq_true, if_false, List.filter_nil, ite_self, List.append_nil]
          first | exact ⟨⟨hh.agg, hh.idle⟩, rfl⟩ | exact ⟨⟨hh.agg, hh.idle⟩, trivial⟩
      obtain ⟨rs, f1, f0, f2, f3⟩ := ih st1 h4 hh' hx
      refine ⟨(preprocess E.O E.meta_ E.dcmp E.F s.lets s.db r).2.2 :: rs, .cons c1 f1, ?_, ?_, ?_⟩
      · intro r' hr'
        simp only [List.mem_cons] at hr'
        rcases hr' with rfl | hr'
        · exact c2.mono hxl.next
        · exact f0 r' hr'
      · have : (s.run E q (.record r :: ps)) = (s.step E q (.record r)).run E q ps := rfl
        rw [this]
        convert f2 using 1
        rw [hacc, List.append_assoc]
        congr 1
        by_cases hag : q.doAgg = true
        · simp only [hag, if_true, kept]
          rw [← List.filter_append]; rfl
        · simp [hag]
      · have : (s.run E q (.record r :: ps)) = (s.step E q (.record r)).run E q ps := rfl
        rw [this, f3, hout, List.append_assoc]
        congr 1
        by_cases hag : q.doAgg = true
        · simp [hag]
        · simp only [hag, Bool.false_eq_true, if_false, kept]
          rw [← List.filter_append]; rfl

/-! ### flush -/

theorem touchRes_spec {D : PDB} (hw : D.WF) {m : KMgr} (h : KOk D m) (s : KSt) (hs : Resolved m ∨ s = KSt.new) :
    Ext D (m.touchRes D s).1 ∧ (m.touchRes D s).1.WF ∧ KOk (m.touchRes D s).1 (m.touchRes D s).2 ∧ (m.touchRes D s).2.op = m.op ∧
    (Resolved m → Resolved (m.touchRes D s).2) ∧
    ∀ (O : FOps) (Df : PDB), Ext (m.touchRes D s).1 Df → (m.touchRes D s).2.cfg.result O s = (m.op.cfg Df).result O s := by
  have t := touch_spec hw h
  have ex : ∀ {o : Option PAttr}, o.isSome = true → ∃ a, o = some a := fun h => Option.isSome_iff_exists.1 h
  unfold KMgr.touchRes
  split
  · rename_i ho
    split
    · rename_i h0
      refine ⟨Ext.refl D, hw, h, rfl, fun h => h, ?_⟩
      intro O Df _
      simp [KMgr.cfg, AggOp.cfg, mkCfg, ho, KCfg.result, h0]
    · rename_i h0
      refine ⟨t.ext, t.wf, t.ok, t.op, t.keep, ?_⟩
      intro O Df hx
      rcases t.res with hr | ⟨-, -, hc⟩
      · have hop := t.op
        rw [ho] at hop
        unfold Resolved at hr
        rw [hop] at hr
        obtain ⟨c, hc⟩ := ex hr
        have := hx.keep _ _ (t.ok.cnt c hc)
        rw [hop] at this
        simp only [KMgr.cfg, AggOp.cfg, mkCfg, hop, ho, KCfg.result, this, hc]
      · rw [t.op, ho] at hc
        exact absurd rfl hc
  · rename_i k n i ho
    split
    · rename_i h0
      refine ⟨Ext.refl D, hw, h, rfl, fun h => h, ?_⟩
      intro O Df _
      cases k <;> simp [KMgr.cfg, AggOp.cfg, mkCfg, ho, KCfg.result, h0]
    · rename_i h0
      refine ⟨t.ext, t.wf, t.ok, t.op, t.keep, ?_⟩
      intro O Df hx
      have hrm : Resolved m := by
        rcases hs with hs | hs
        · exact hs
        · exact absurd (by rw [hs]; rfl) h0
      have hr := t.keep hrm
      have hop := t.op
      rw [ho] at hop
      unfold Resolved at hr
      rw [hop] at hr
      obtain ⟨d, hd⟩ := ex hr.2
      have := hx.keep _ _ (t.ok.drv d hd)
      rw [hop] at this
      cases k <;> simp only [KMgr.cfg, AggOp.cfg, mkCfg, hop, ho, KCfg.result, this, hd]
  · rename_i n ho
    split
    · rename_i h0
      refine ⟨Ext.refl D, hw, h, rfl, fun h => h, ?_⟩
      intro O Df _
      simp [KMgr.cfg, AggOp.cfg, mkCfg, ho, KCfg.result, h0]
    · rename_i h0
      have hrm : Resolved m := by
        rcases hs with hs | hs
        · exact hs
        · exact absurd (by rw [hs]; rfl) h0
      have hrm' := hrm
      unfold Resolved at hrm'
      rw [ho] at hrm'
      obtain ⟨a, ha⟩ := ex hrm'.1
      have htg : target D m.tgt m.op.tgt = some a := by rw [ha]; rfl
      rw [htg]
      dsimp only
      obtain ⟨e, w, d⟩ := cget_spec hw h.avg a.ty
      have hk1 : KOk (cget D m.avg m.op.avgName a.ty).1 { m with tgt := some a, avg := some (cget D m.avg m.op.avgName a.ty).2 } := by
        refine ⟨?_, fun a' ha' => e.keep _ _ (h.drv a' ha'), ?_, fun a' ha' => e.keep _ _ (h.cnt a' ha')⟩
        · intro a' ha'
          simp at ha'
          rw [← ha']; exact e.keep _ _ (h.tgt a ha)
        · intro a' ha'
          simp at ha'
          rw [← ha']; exact d
      have t' := touch_spec w hk1
      have hr1 : Resolved { m with tgt := some a, avg := some (cget D m.avg m.op.avgName a.ty).2 } := by
        unfold Resolved
        simp only [ho]
        exact ⟨rfl, hrm'.2⟩
      refine ⟨e.trans t'.ext, t'.wf, t'.ok, t'.op, fun _ => t'.keep hr1, ?_⟩
      intro O Df hx
      have hr := t'.keep hr1
      have hop := t'.op
      have hop' : m.op = .avg n := ho
      have hop2 := hop.trans hop'
      unfold Resolved at hr
      rw [hop2] at hr
      obtain ⟨d', hd⟩ := ex hr.2.1
      obtain ⟨c', hc⟩ := ex hr.2.2
      have hav := t'.avg
      have k1 := hx.keep _ _ (t'.ok.drv d' hd)
      have k2 := hx.keep _ _ (t'.ok.cnt c' hc)
      have k3 := hx.keep _ _ (t'.ok.avg _ hav)
      rw [hop2] at k1 k2 k3
      have e1 : ∀ m' : KMgr, m'.op = .avg n → m'.drv = some d' → m'.cnt = some c' →
          m'.avg = some (cget D m.avg m.op.avgName a.ty).2 → m'.cfg.result O s = (AggOp.cfg Df (.avg n)).result O s := by
        intro m' h1 h2 h3 h4
        simp only [KMgr.cfg, AggOp.cfg, mkCfg, h1, h2, h3, h4, KCfg.result, k1, k2, k3]
      rw [ho] at hop2 hd hc hav ⊢
      rw [ho] at e1
      exact e1 _ hop2 hd hc hav

theorem flushKernels_spec (O : FOps) (ms : List KMgr) : ∀ {D : PDB} (ss : List KSt), D.WF → (∀ m ∈ ms, KOk D m) →
    (∀ (i : Nat) (m : KMgr) (s : KSt), ms[i]? = some m → ss[i]? = some s → Resolved m ∨ s = KSt.new) →
    Ext D (flushKernels O D ms ss).1 ∧ (flushKernels O D ms ss).1.WF ∧ (∀ m ∈ (flushKernels O D ms ss).2.1, KOk (flushKernels O D ms ss).1 m) ∧
    (flushKernels O D ms ss).2.1.map KMgr.op = ms.map KMgr.op ∧
    (∀ (i : Nat) (m' : KMgr), (flushKernels O D ms ss).2.1[i]? = some m' → ∃ m : KMgr, ms[i]? = some m ∧ (Resolved m → Resolved m')) ∧
    ∀ Df, Ext (flushKernels O D ms ss).1 Df → (flushKernels O D ms ss).2.2 = results O (ms.map fun m => m.op.cfg Df) ss := by
  induction ms with
  | nil =>
    intro D ss hw _ _
    have e : flushKernels O D [] ss = (D, [], []) := by unfold flushKernels; rfl
    rw [e]
    exact ⟨Ext.refl D, hw, by simp, rfl, by simp, fun _ _ => by simp [results]⟩
  | cons m ms ih =>
    intro D ss hw hk hs
    cases ss with
    | nil =>
      have e : flushKernels O D (m :: ms) [] = (D, m :: ms, []) := by unfold flushKernels; rfl
      rw [e]
      exact ⟨Ext.refl D, hw, hk, rfl, fun i m' h => ⟨m', h, fun h => h⟩, fun _ _ => by simp [results]⟩
    | cons s ss =>
      obtain ⟨a1, a2, a3, a4, a5, a6⟩ := touchRes_spec hw (hk m (by simp)) s (hs 0 m s (by simp) (by simp))
      obtain ⟨b1, b2, b3, b4, b5, b6⟩ := ih ss a2 (fun m' hm' => (hk m' (by simp [hm'])).mono a1)
        (fun i m' s' h1 h2 => hs (i + 1) m' s' (by simpa using h1) (by simpa using h2))
      unfold flushKernels
      refine ⟨a1.trans b1, b2, ?_, ?_, ?_, ?_⟩
      · intro m' hm'
        simp only [List.mem_cons] at hm'
        rcases hm' with rfl | hm'
        · exact a3.mono b1
        · exact b3 m' hm'
      · simp only [List.map_cons, a4, b4]
      · intro i m' hm'
        cases i with
        | zero =>
          simp at hm'
          subst hm'
          exact ⟨m, by simp, a5⟩
        | succ i =>
          simp only [List.getElem?_cons_succ] at hm' ⊢
          exact b5 i m' hm'
      · intro Df hx
        simp only [List.map_cons, results]
        rw [a6 O Df (b1.trans hx), b6 Df hx]

theorem flushEntries_spec (O : FOps) (es : List QEntry) : ∀ {D : PDB} {ms : List KMgr}, D.WF → (∀ m ∈ ms, KOk D m) →
    (∀ (i : Nat) (m : KMgr), ms[i]? = some m → Resolved m ∨ ∀ e ∈ es, ∀ s : KSt, e.kernels[i]? = some s → s = KSt.new) →
    Ext D (flushEntries O D ms es).1 ∧ (flushEntries O D ms es).1.WF ∧
    ∀ Df, Ext (flushEntries O D ms es).1 Df →
      (flushEntries O D ms es).2 = es.map fun e => e.key.map KEnt.toQ ++ results O (ms.map fun m => m.op.cfg Df) e.kernels := by
  induction es with
  | nil =>
    intro D ms hw _ _
    exact ⟨Ext.refl D, hw, fun _ _ => rfl⟩
  | cons e es ih =>
    intro D ms hw hk hs
    obtain ⟨a1, a2, a3, a4, a5, a6⟩ := flushKernels_spec O ms e.kernels hw hk (by
      intro i m s h1 h2
      exact (hs i m h1).imp _root_.id fun h => h e (by simp) s h2)
    obtain ⟨b1, b2, b3⟩ := ih a2 a3 (by
      intro i m' hm'
      obtain ⟨m, c1, c2⟩ := a5 i m' hm'
      exact (hs i m c1).imp c2 fun h e' he' => h e' (by simp [he']))
    unfold flushEntries
    refine ⟨a1.trans b1, b2, ?_⟩
    intro Df hx
    simp only [List.map_cons]
    rw [a6 Df (b1.trans hx), b3 Df hx]
    congr 1
    apply List.map_congr_left
    intro e' _
    congr 2
    have : ((flushKernels O D ms e.kernels).2.1.map KMgr.op).map (AggOp.cfg Df) = (ms.map KMgr.op).map (AggOp.cfg Df) := by rw [a4]
    simpa [Function.comp_def] using this

/-- kernels that did nothing are new -/
theorem idle_new {O : FOps} {C : QCfg} {rs : List (List QEnt)} {k : Nat} {c : KCfg} (hc : C.kernels[k]? = some c)
    (hidle : ∀ r ∈ rs, ∀ s : KSt, c.aggregate O C.known s r = (s, 0)) {e : QEntry} (he : e ∈ (QAgg.init.run O C rs).entries.drop 1) {s : KSt}
    (hs : e.kernels[k]? = some s) : s = KSt.new := by
  have hr := run_spec (O := O) rs (QRep.init C)
  obtain ⟨h1, -⟩ := run_st O C rs
  obtain ⟨j, hj⟩ := List.mem_iff_getElem?.1 he
  rw [List.getElem?_drop] at hj
  have hlt := (List.getElem?_eq_some_iff.1 hj).1
  rw [hr.len] at hlt
  obtain ⟨e', g1, g2, g3⟩ := hr.ents j _ (List.getElem?_eq_getElem (show j < _ by omega))
  rw [Nat.add_comm] at g1
  rw [hj] at g1
  cases g1
  rw [g3, List.getElem?_map] at hs
  have hk : k < C.kernels.length := (List.getElem?_eq_some_iff.1 hc).1
  rw [List.getElem?_range hk] at hs
  simp only [Option.map_some, Option.some.injEq] at hs
  rw [← hs, h1 _ k c hc]
  unfold QCfg.stateOf
  have : ∀ (l : List (List QEnt)) (st : KSt), (∀ r ∈ l, r ∈ rs) → l.foldl (fun s r => (c.aggregate O C.known s r).1) st = st := by
    intro l
    induction l with
    | nil => intros; rfl
    | cons r l ih =>
      intro st hl
      rw [List.foldl_cons, hidle r (hl r (by simp))]
      exact ih st (fun r' hr' => hl r' (by simp [hr']))
  exact this _ _ (fun r hr' => (List.mem_filter.1 hr').1)

/-- the whole query -/
theorem query_spec {E : Env} {q : QSpec} {D0 : PDB} (hw : D0.WF) (hm : MetaOk E D0) (ps : List PStep) (hin : InputOk E q (QP.init q D0) ps)
    (hinv : (query E q D0 ps).1.next ≤ invN) :
    ∃ rs, List.Forall₂ (fun r r' => LetChain E.O E.dcmp E.F q.lets (query E q D0 ps).1 r (query E q D0 ps).1 r') (recordsOf ps) rs ∧
      (∀ r ∈ rs, IdsOk (query E q D0 ps).1 r) ∧
      (query E q D0 ps).2 = if q.doAgg then
          (QAgg.init.run E.O.toFOps (q.cfg E (query E q D0 ps).1) (kept E q (query E q D0 ps).1 rs)).flush E.O.toFOps (q.cfg E (query E q D0 ps).1)
        else kept E q (query E q D0 ps).1 rs := by
  have hi0 := inv_init q hw
  obtain ⟨hi, -⟩ := run_inv (E := E) ps hi0
  -- the flush, for any later database
  have hks0 : ∀ Df, Df.WF → Df.next ≤ invN → Ext ((QP.init q D0).run E q ps).db Df →
      ∀ (i : Nat) (m : KMgr), ((QP.init q D0).run E q ps).ks[i]? = some m → Resolved m ∨
        ∀ e ∈ ((QP.init q D0).run E q ps).agg.entries.drop 1, ∀ s : KSt, e.kernels[i]? = some s → s = KSt.new := by
    intro Df hwf hin' hx i m hmi
    obtain ⟨rs, -, -, f2, -⟩ := run_holds hm hwf hin' ps hi0 hin (acc := []) ⟨rfl, fun _ _ _ => .inr (by simp [IdleOn])⟩ hx
    rcases f2.idle i m hmi with h | h
    · exact .inl h
    · right
      intro e he s hs
      rw [f2.agg] at he
      refine idle_new (O := E.O.toFOps) (C := q.cfg E Df) (c := m.op.cfg Df) ?_ (fun r hr st => h r hr st) he hs
      show (q.aggs.map (AggOp.cfg Df))[i]? = _
      rw [List.getElem?_map, ← hi.ops, List.getElem?_map, hmi]
      rfl
  have hnext : ((QP.init q D0).run E q ps).db.next ≤ (query E q D0 ps).1.next ∧ (∀ m ∈ ((QP.init q D0).run E q ps).ks, KOk ((QP.init q D0).run E q ps).db m) := by
    refine ⟨?_, hi.ks⟩
    have mono : ∀ (es : List QEntry) (D : PDB) (ms : List KMgr), D.next ≤ (flushEntries E.O.toFOps D ms es).1.next := by
      have c0 : ∀ (D : PDB) (n : Str) (t : AttrType) (c : Option PAttr), D.next ≤ (cget D c n t).1.next := by
        intro D n t c
        unfold cget
        split
        · exact le_refl _
        · exact (Ext.create ..).next
      have c1 : ∀ (D : PDB) (m : KMgr), D.next ≤ (m.touch D).1.next := by
        intro D m
        unfold KMgr.touch
        split
        · exact c0 ..
        · split
          · exact le_refl _
          · exact c0 ..
        · split
          · exact le_refl _
          · exact le_trans (c0 ..) (c0 ..)
      have c2 : ∀ (D : PDB) (m : KMgr) (s : KSt), D.next ≤ (m.touchRes D s).1.next := by
        intro D m s
        unfold KMgr.touchRes
        repeat' split
        all_goals first | exact le_refl _ | exact c1 .. | exact le_trans (c0 ..) (c1 ..)
      have c3 : ∀ (ms : List KMgr) (D : PDB) (ss : List KSt), D.next ≤ (flushKernels E.O.toFOps D ms ss).1.next := by
        intro ms
        induction ms with
        | nil => intro D ss; unfold flushKernels; exact le_refl _
        | cons m ms ih =>
          intro D ss
          cases ss with
          | nil => unfold flushKernels; exact le_refl _
          | cons s ss => unfold flushKernels; exact le_trans (c2 ..) (ih ..)
      intro es
      induction es with
      | nil => intro D ms; exact le_refl _
      | cons e es ih => intro D ms; unfold flushEntries; exact le_trans (c3 ..) (ih ..)
    exact mono _ _ _
  obtain ⟨x1, x2, x3⟩ := flushEntries_spec E.O.toFOps (((QP.init q D0).run E q ps).agg.entries.drop 1) hi.good.wf hi.ks
    (hks0 _ hi.good.wf (le_trans hnext.1 hinv) (Ext.refl _))
  have hx : Ext ((QP.init q D0).run E q ps).db (query E q D0 ps).1 := x1
  have hwf : (query E q D0 ps).1.WF := x2
  obtain ⟨rs, f1, f0, f2, f3⟩ := run_holds hm hwf hinv ps hi0 hin (acc := []) ⟨rfl, fun _ _ _ => .inr (by simp [IdleOn])⟩ hx
  refine ⟨rs, f1, f0, ?_⟩
  have hout : (query E q D0 ps).2 = ((QP.init q D0).run E q ps).out ++ _ := congrArg (((QP.init q D0).run E q ps).out ++ ·) (x3 _ (Ext.refl _))
  rw [hout, f3]
  have hk : (((QP.init q D0).run E q ps).ks.map fun m => m.op.cfg (query E q D0 ps).1) = q.aggs.map (AggOp.cfg (query E q D0 ps).1) := by
    rw [← hi.ops, List.map_map]; rfl
  have hcf : (flushEntries E.O.toFOps ((QP.init q D0).run E q ps).db ((QP.init q D0).run E q ps).ks (((QP.init q D0).run E q ps).agg.entries.drop 1)).1 = (query E q D0 ps).1 := rfl
  rw [hcf, hk, f2.agg]
  by_cases hag : q.doAgg = true
  · simp only [hag, if_true, List.nil_append]
    show [] ++ _ = _
    rw [List.nil_append]
    rfl
  · simp only [hag, Bool.false_eq_true, if_false, List.append_nil]
    show [] ++ _ ++ _ = _
    simp [QAgg.run, QAgg.init]

end Verif.Query.Pipe
