import Verif.Query.PipelineLemmas
/-!
# The aggregator with names, and with ids of the final database
-/
namespace Verif.Query.Pipe
open Verif Verif.Cali Verif.Query Verif.Query.Pre

/-! ### two configurations that agree on a record -/

structure Agree (O : FOps) (C C' : QCfg) (rec : List QEnt) : Prop where
  len : C.kernels.length = C'.kernels.length
  hash : C.hash = C'.hash
  pre : C.preKey rec = C'.preKey rec
  path : C.pathOf rec = C'.pathOf rec
  ker : ∀ (k : Nat) (c c' : KCfg), C.kernels[k]? = some c → C'.kernels[k]? = some c' →
    c.incl = c'.incl ∧ ∀ s : KSt, c.aggregate O C.known s rec = c'.aggregate O C'.known s rec

theorem getEntry_congr {O : FOps} {C C' : QCfg} {rec : List QEnt} (h : Agree O C C' rec) (s : QAgg) (key : List KEnt) :
    s.getEntry C key = s.getEntry C' key := by
  unfold QAgg.getEntry; rw [h.hash, h.len]

theorem runKernel_congr {O : FOps} {C C' : QCfg} {rec : List QEnt} (h : Agree O C C' rec) (s : QAgg) (i k : Nat) :
    s.runKernel O C i k rec = s.runKernel O C' i k rec := by
  unfold QAgg.runKernel
  cases h1 : C.kernels[k]? with
  | none =>
    have : C'.kernels[k]? = none := by
      rw [List.getElem?_eq_none_iff] at h1 ⊢
      rw [← h.len]; exact h1
    rw [this]
    cases s.entries[i]? <;> rfl
  | some c =>
    obtain ⟨c', h2⟩ : ∃ c', C'.kernels[k]? = some c' := by
      have := (List.getElem?_eq_some_iff.1 h1).1
      rw [h.len] at this
      exact ⟨_, List.getElem?_eq_getElem this⟩
    rw [h2]
    cases s.entries[i]? with
    | none => rfl
    | some e => simp only [(h.ker k c c' h1 h2).2]

theorem parents_congr {O : FOps} {C C' : QCfg} {rec : List QEnt} (h : Agree O C C' rec) (pre : List KEnt) (k : Nat) (ps : List (List (Nat × Val))) :
    ∀ s : QAgg, QAgg.parents O C pre k rec ps s = QAgg.parents O C' pre k rec ps s := by
  induction ps with
  | nil => intro s; rfl
  | cons p ps ih =>
    intro s
    unfold QAgg.parents
    rw [getEntry_congr h]
    simp only [runKernel_congr h, ih]

theorem incl_congr {O : FOps} {C C' : QCfg} {rec : List QEnt} (h : Agree O C C' rec) (k : Nat) :
    (C.kernels[k]?.map KCfg.incl).getD false = (C'.kernels[k]?.map KCfg.incl).getD false := by
  cases h1 : C.kernels[k]? with
  | none =>
    have : C'.kernels[k]? = none := by
      rw [List.getElem?_eq_none_iff] at h1 ⊢
      rw [← h.len]; exact h1
    rw [this]
  | some c =>
    obtain ⟨c', h2⟩ : ∃ c', C'.kernels[k]? = some c' := by
      have := (List.getElem?_eq_some_iff.1 h1).1
      rw [h.len] at this
      exact ⟨_, List.getElem?_eq_getElem this⟩
    rw [h2]
    simp [(h.ker k c c' h1 h2).1]

theorem kernelLoop_congr {O : FOps} {C C' : QCfg} {rec : List QEnt} (h : Agree O C C' rec) (i : Nat) (ks : List Nat) :
    ∀ s : QAgg, QAgg.kernelLoop O C i rec ks s = QAgg.kernelLoop O C' i rec ks s := by
  induction ks with
  | nil => intro s; rfl
  | cons k ks ih =>
    intro s
    unfold QAgg.kernelLoop
    simp only [runKernel_congr h, incl_congr h, h.path, h.pre, parents_congr h, ih]

theorem process_congr {O : FOps} {C C' : QCfg} {rec : List QEnt} (h : Agree O C C' rec) (s : QAgg) :
    s.process O C rec = s.process O C' rec := by
  unfold QAgg.process QCfg.keyOf
  simp only [h.path, h.pre, getEntry_congr h, h.len, kernelLoop_congr h]

/-! ### kernels -/

/-- what a kernel has looked up is what the database has -/
structure KOk (D : PDB) (m : KMgr) : Prop where
  tgt : ∀ a, m.tgt = some a → D.attr m.op.tgt = some a
  drv : ∀ a, m.drv = some a → D.attr m.op.drvName = some a
  avg : ∀ a, m.avg = some a → D.attr m.op.avgName = some a
  cnt : ∀ a, m.cnt = some a → D.attr m.op.cntName = some a

theorem KOk.mono {D D' : PDB} {m : KMgr} (h : KOk D m) (hx : Ext D D') : KOk D' m :=
  ⟨fun a ha => hx.keep _ _ (h.tgt a ha), fun a ha => hx.keep _ _ (h.drv a ha), fun a ha => hx.keep _ _ (h.avg a ha),
   fun a ha => hx.keep _ _ (h.cnt a ha)⟩

/-- all attributes needed to aggregate have been found -/
def Resolved (m : KMgr) : Prop :=
  match m.op with
  | .count => m.cnt.isSome = true
  | .red .. => m.tgt.isSome = true ∧ m.drv.isSome = true
  | .avg _ => m.tgt.isSome = true ∧ m.drv.isSome = true ∧ m.cnt.isSome = true

theorem cget_spec {D : PDB} (hw : D.WF) {c : Option PAttr} {n : Str} (h : ∀ a, c = some a → D.attr n = some a) (t : AttrType) :
    Ext D (cget D c n t).1 ∧ (cget D c n t).1.WF ∧ (cget D c n t).1.attr n = some (cget D c n t).2 := by
  unfold cget
  cases c with
  | some a => exact ⟨Ext.refl D, hw, h a rfl⟩
  | none => exact ⟨Ext.create .., WF.create hw _ _ _, attr_create_self ..⟩

theorem target_eq {D : PDB} {c : Option PAttr} {n : Str} (h : ∀ a, c = some a → D.attr n = some a) : target D c n = D.attr n := by
  unfold target
  cases c with
  | some a => exact (h a rfl).symm
  | none => rfl

/-- what `touch` leaves -/
structure Touched (D : PDB) (m : KMgr) (D' : PDB) (m' : KMgr) : Prop where
  ext : Ext D D'
  wf : D'.WF
  ok : KOk D' m'
  op : m'.op = m.op
  avg : m'.avg = m.avg
  res : Resolved m' ∨ (D.attr m'.op.tgt = none ∧ m'.tgt = none ∧ m'.op ≠ .count)
  keep : Resolved m → Resolved m'

theorem touch_spec {D : PDB} (hw : D.WF) {m : KMgr} (h : KOk D m) : Touched D m (m.touch D).1 (m.touch D).2 := by
  unfold KMgr.touch
  split
  · rename_i ho
    obtain ⟨e, w, a⟩ := cget_spec hw h.cnt .uint
    refine ⟨e, w, ⟨fun a' ha' => e.keep _ _ (h.tgt a' ha'), fun a' ha' => e.keep _ _ (h.drv a' ha'), fun a' ha' => e.keep _ _ (h.avg a' ha'), ?_⟩,
      rfl, rfl, .inl ?_, fun _ => ?_⟩
    · intro a' ha'
      simp at ha'
      rw [← ha']; exact a
    · simp [Resolved, ho]
    · simp [Resolved, ho]
  · rename_i k n i ho
    rw [target_eq h.tgt]
    split
    · rename_i hn
      refine ⟨Ext.refl D, hw, h, rfl, rfl, .inr ⟨hn, ?_, by rw [ho]; simp⟩, fun hr => hr⟩
      cases ht : m.tgt with
      | none => rfl
      | some a => rw [h.tgt a ht] at hn; cases hn
    · rename_i a ha
      obtain ⟨e, w, d⟩ := cget_spec hw h.drv a.ty
      refine ⟨e, w, ⟨?_, ?_, fun a' ha' => e.keep _ _ (h.avg a' ha'), fun a' ha' => e.keep _ _ (h.cnt a' ha')⟩, rfl, rfl, .inl ?_, fun _ => ?_⟩
      · intro a' ha'
        simp at ha'
        rw [← ha']; exact e.keep _ _ ha
      · intro a' ha'
        simp at ha'
        rw [← ha']; exact d
      · simp [Resolved, ho]
      · simp [Resolved, ho]
  · rename_i n ho
    rw [target_eq h.tgt]
    split
    · rename_i hn
      refine ⟨Ext.refl D, hw, h, rfl, rfl, .inr ⟨hn, ?_, by rw [ho]; simp⟩, fun hr => hr⟩
      cases ht : m.tgt with
      | none => rfl
      | some a => rw [h.tgt a ht] at hn; cases hn
    · rename_i a ha
      obtain ⟨e, w, d⟩ := cget_spec hw h.drv a.ty
      obtain ⟨e', w', d'⟩ := cget_spec w (c := m.cnt) (n := m.op.cntName) (fun a' ha' => e.keep _ _ (h.cnt a' ha')) .uint
      refine ⟨e.trans e', w', ⟨?_, ?_, fun a' ha' => e'.keep _ _ (e.keep _ _ (h.avg a' ha')), ?_⟩, rfl, rfl, .inl ?_, fun _ => ?_⟩
      · intro a' ha'
        simp at ha'
        rw [← ha']; exact e'.keep _ _ (e.keep _ _ ha)
      · intro a' ha'
        simp at ha'
        rw [← ha']; exact e'.keep _ _ d
      · intro a' ha'
        simp at ha'
        rw [← ha']; exact d'
      · simp [Resolved, ho]
      · simp [Resolved, ho]

theorem touchAll_spec (ks : List KMgr) : ∀ {D : PDB}, D.WF → (∀ m ∈ ks, KOk D m) →
    Ext D (touchAll D ks).1 ∧ (touchAll D ks).1.WF ∧ (∀ m ∈ (touchAll D ks).2, KOk (touchAll D ks).1 m) ∧
    (touchAll D ks).2.map KMgr.op = ks.map KMgr.op ∧
    (∀ (i : Nat) (m' : KMgr), (touchAll D ks).2[i]? = some m' → ∃ m : KMgr, ks[i]? = some m ∧ (Resolved m → Resolved m') ∧
      (Resolved m' ∨ (D.attr m'.op.tgt = none ∧ m'.tgt = none ∧ m'.op ≠ .count))) := by
  induction ks with
  | nil =>
    intro D hw _
    exact ⟨Ext.refl D, hw, by simp [touchAll], rfl, by simp [touchAll]⟩
  | cons m ks ih =>
    intro D hw hk
    have t := touch_spec hw (hk m (by simp))
    obtain ⟨a1, a2, a3, a4, a5⟩ := ih t.wf (fun m' hm' => (hk m' (by simp [hm'])).mono t.ext)
    unfold touchAll
    refine ⟨t.ext.trans a1, a2, ?_, ?_, ?_⟩
    · intro m' hm'
      simp only [List.mem_cons] at hm'
      rcases hm' with rfl | hm'
      · exact t.ok.mono a1
      · exact a3 m' hm'
    · simp only [List.map_cons, a4, t.op]
    · intro i m' hm'
      cases i with
      | zero =>
        simp at hm'
        subst hm'
        exact ⟨m, by simp, t.keep, t.res⟩
      | succ i =>
        simp only [List.getElem?_cons_succ] at hm' ⊢
        obtain ⟨m0, b1, b2, b3⟩ := a5 i m' hm'
        refine ⟨m0, b1, b2, b3.imp _root_.id ?_⟩
        rintro ⟨c1, c2⟩
        refine ⟨?_, c2⟩
        cases hd : D.attr m'.op.tgt with
        | none => rfl
        | some a => rw [t.ext.keep _ _ hd] at c1; cases c1

theorem entry_attr {D : PDB} {r : List QEnt} (hr : IdsOk D r) {e : QEnt} (he : e ∈ r) : ∃ v, (e.attr, v) ∈ pairs r := by
  unfold pairs
  simp only [List.mem_flatMap]
  cases e with
  | imm a v => exact ⟨v, _, he, by simp [QEnt.attr]⟩
  | ref p =>
    cases p with
    | nil => exact absurd he hr.1
    | cons x p => exact ⟨x.2, _, he, by simp [QEnt.attr]⟩

/-- an attribute that can not be in the record -/
def NotIn (r : List QEnt) (i : Nat) : Prop := ∀ x ∈ pairs r, x.1 ≠ i

theorem matching_none {known : Nat → Bool} {t d : Nat} {r : List QEnt} (ht : NotIn r t) (hd : NotIn r d) : matching known t d r = [] := by
  unfold matching
  split
  · rw [List.filterMap_eq_nil_iff]
    intro e he
    cases e with
    | ref p => rfl
    | imm a v =>
      have hm : (a, v) ∈ pairs r := by
        unfold pairs
        rw [List.mem_flatMap]
        exact ⟨_, he, by simp⟩
      have h1 := ht _ hm
      have h2 := hd _ hm
      simp at h1 h2
      simp [h1, h2]
  · rfl

theorem avgFold_none (O : FOps) {t s c : Nat} {r : List QEnt} (hr : ∀ e ∈ r, e.attr ≠ t ∧ e.attr ≠ s ∧ e.attr ≠ c) (p : KSt × Nat) :
    r.foldl (avgStep O t s c) p = p := by
  induction r generalizing p with
  | nil => rfl
  | cons e r ih =>
    have h := hr e (by simp)
    rw [List.foldl_cons]
    have : avgStep O t s c p e = p := by
      unfold avgStep
      rw [if_neg h.1, if_neg h.2.1, if_neg h.2.2]
    rw [this]
    exact ih (fun e' he' => hr e' (by simp [he'])) p

/-- a kernel that finds none of its attributes does nothing -/
theorem aggregate_idle (O : FOps) (known : Nat → Bool) {op : AggOp} (ho : op ≠ .count) {t d a c : Nat} {r : List QEnt}
    (h : known t = false ∨ (NotIn r t ∧ NotIn r d ∧ (∀ n, op = .avg n → (∀ e ∈ r, ∃ v, (e.attr, v) ∈ pairs r) ∧ NotIn r c))) (s : KSt) :
    (mkCfg op t d a c).aggregate O known s r = (s, 0) := by
  have hm : known t = false ∨ (NotIn r t ∧ NotIn r d) → matching known t d r = [] := by
    rintro (h | h)
    · unfold matching; simp [h]
    · exact matching_none h.1 h.2
  have hm' := hm (h.imp _root_.id fun h => ⟨h.1, h.2.1⟩)
  cases op with
  | count => exact absurd rfl ho
  | red k n i => cases k <;> simp [mkCfg, KCfg.aggregate, hm']
  | avg n =>
    simp only [mkCfg, KCfg.aggregate]
    split
    · rename_i hk
      rcases h with h | ⟨h1, h2, h3⟩
      · rw [h] at hk; cases hk
      · obtain ⟨h4, h5⟩ := h3 n rfl
        apply avgFold_none
        intro e he
        obtain ⟨v, hv⟩ := h4 e he
        exact ⟨h1 _ hv, h2 _ hv, h5 _ hv⟩
    · rfl

theorem known_inv {D : PDB} (hw : D.WF) (hi : D.next ≤ invN) : (D.byId invN).isSome = false := by
  rw [byId_none_of_ge hw hi]; rfl

theorem idOr_some {a : Option PAttr} {b : PAttr} (h : a = some b) : idOr a = b.id := by subst h; rfl

theorem count_agg (O : FOps) (k k' : Nat → Bool) (t d a t' d' a' c : Nat) (s : KSt) (r : List QEnt) :
    (mkCfg .count t d a c).aggregate O k s r = (mkCfg .count t' d' a' c).aggregate O k' s r := rfl

/-- a kernel that is not resolved does nothing on a record, seen from any later database -/
theorem idle_later {D Df : PDB} (hw : D.WF) (hwf : Df.WF) (hx : Ext D Df) (hinv : Df.next ≤ invN) {r : List QEnt} (hr : IdsOk D r) {op : AggOp}
    (ho : op ≠ .count) (hd : ∀ n ∈ op.derived, HasAttr D n r → ∃ a, D.attr op.tgt = some a) (hn : D.attr op.tgt = none) (O : FOps) (s : KSt) :
    (op.cfg Df).aggregate O (fun i => (Df.byId i).isSome) s r = (s, 0) := by
  have hninv : NotIn r invN := by
    intro x hx'
    have := hr.2 x hx'
    have := hx.next
    omega
  have hder : ∀ n ∈ op.derived, NotIn r (idOr (Df.attr n)) := by
    intro n hnm
    cases hf : Df.attr n with
    | none => exact hninv
    | some b =>
      intro x hx' he
      have h1 := hr.2 x hx'
      rcases hx.new _ _ hf with h | h
      · obtain ⟨a, ha⟩ := hd n hnm ⟨b, x.2, h, by have : x.1 = b.id := he; rw [← this]; exact hx'⟩
        rw [ha] at hn; cases hn
      · have : x.1 = b.id := he
        omega
  unfold AggOp.cfg
  apply aggregate_idle O _ ho
  cases hf : Df.attr op.tgt with
  | none => left; exact known_inv hwf hinv
  | some a =>
    right
    have ha : D.next ≤ a.id := by
      rcases hx.new _ _ hf with h | h
      · rw [h] at hn; cases hn
      · exact h
    refine ⟨?_, ?_, ?_⟩
    · intro x hx'
      have := hr.2 x hx'
      simp [idOr]; omega
    · apply hder
      cases op <;> simp_all [AggOp.derived_eq]
    · intro n hop
      refine ⟨fun e he => entry_attr hr he, hder _ ?_⟩
      subst hop
      simp [AggOp.derived_eq]

/-- a kernel as it runs on a record, and the kernel in the final database -/
theorem kernel_agree {D D1 Df : PDB} (hw : D.WF) (hw1 : D1.WF) (hwf : Df.WF) (hx1 : Ext D D1) (hx : Ext D1 Df) (hinv : Df.next ≤ invN) {r : List QEnt}
    (hr : IdsOk D r) {m : KMgr} (hk : KOk D1 m) (hd : ∀ n ∈ m.op.derived, HasAttr D n r → ∃ a, D.attr m.op.tgt = some a)
    (hres : Resolved m ∨ (D.attr m.op.tgt = none ∧ m.tgt = none ∧ m.op ≠ .count)) (O : FOps) (s : KSt) :
    m.cfg.aggregate O (fun i => (D1.byId i).isSome) s r = (m.op.cfg Df).aggregate O (fun i => (Df.byId i).isSome) s r := by
  rcases hres with hres | ⟨h1, h2, h3⟩
  · have ex : ∀ {o : Option PAttr}, o.isSome = true → ∃ a, o = some a := fun h => Option.isSome_iff_exists.1 h
    have kn : ∀ {n a}, D1.attr n = some a → (D1.byId a.id).isSome = true ∧ (Df.byId a.id).isSome = true :=
      fun h => ⟨byId_some_of_mem (attr_mem h).1, byId_some_of_mem (attr_mem (hx.keep _ _ h)).1⟩
    obtain ⟨op, tg, dr, av, cn⟩ := m
    unfold KMgr.cfg AggOp.cfg
    unfold Resolved at hres
    simp only at hres ⊢
    cases op with
    | count =>
      obtain ⟨c, rfl⟩ := ex hres
      rw [idOr_some (hx.keep _ _ (hk.cnt c rfl))]
      rfl
    | red k n i =>
      obtain ⟨t, rfl⟩ := ex hres.1
      obtain ⟨d, rfl⟩ := ex hres.2
      have ht := hk.tgt t rfl
      have kt := kn ht
      rw [idOr_some (hx.keep _ _ ht), idOr_some (hx.keep _ _ (hk.drv d rfl))]
      have hmt : matching (fun i => (D1.byId i).isSome) t.id d.id r = matching (fun i => (Df.byId i).isSome) t.id d.id r := by
        unfold matching; simp only [kt.1, kt.2, if_true]
      cases k <;> simp only [mkCfg, KCfg.aggregate, idOr, Option.map_some, Option.getD_some, hmt]
    | avg n =>
      obtain ⟨t, rfl⟩ := ex hres.1
      obtain ⟨d, rfl⟩ := ex hres.2.1
      obtain ⟨c, rfl⟩ := ex hres.2.2
      have ht := hk.tgt t rfl
      have kt := kn ht
      rw [idOr_some (hx.keep _ _ ht), idOr_some (hx.keep _ _ (hk.drv d rfl)), idOr_some (hx.keep _ _ (hk.cnt c rfl))]
      simp only [mkCfg, KCfg.aggregate, idOr, Option.map_some, Option.getD_some, kt.1, kt.2, if_true]
  · rw [idle_later hw hwf (hx1.trans hx) hinv hr h3 hd h1 O s]
    unfold KMgr.cfg
    apply aggregate_idle O _ h3
    left
    rw [h2]
    exact known_inv hw1 (le_trans hx.next hinv)

/-! ### keys -/

/-- the state of the key attributes -/
structure KeysOk (D : PDB) (keys : List Str) (strs : List Str) (attrs : List PAttr) : Prop where
  found : ∀ a ∈ attrs, ∃ n ∈ keys, D.attr n = some a
  rest : ∀ n ∈ strs, n ∈ keys
  all : ∀ n ∈ keys, n ∈ strs ∨ ∃ a ∈ attrs, D.attr n = some a

theorem KeysOk.mono {D D' : PDB} {keys strs : List Str} {attrs : List PAttr} (h : KeysOk D keys strs attrs) (hx : Ext D D') :
    KeysOk D' keys strs attrs :=
  ⟨fun a ha => let ⟨n, h1, h2⟩ := h.found a ha; ⟨n, h1, hx.keep _ _ h2⟩, h.rest,
   fun n hn => (h.all n hn).imp _root_.id fun ⟨a, h1, h2⟩ => ⟨a, h1, hx.keep _ _ h2⟩⟩

theorem updKeys_spec {D : PDB} {keys strs : List Str} {attrs : List PAttr} (h : KeysOk D keys strs attrs) :
    KeysOk D keys (updKeys D strs attrs).1 (updKeys D strs attrs).2 ∧
    ∀ n ∈ keys, ∀ a, D.attr n = some a → a ∈ (updKeys D strs attrs).2 := by
  have h2 : ∀ n ∈ keys, ∀ a, D.attr n = some a → a ∈ (updKeys D strs attrs).2 := by
    intro n hn a ha
    simp only [updKeys, List.mem_append, List.mem_filterMap]
    rcases h.all n hn with h' | ⟨b, h1, h2⟩
    · exact .inr ⟨n, h', ha⟩
    · rw [ha] at h2; cases h2
      exact .inl h1
  refine ⟨⟨?_, ?_, ?_⟩, h2⟩
  · intro a ha
    simp only [updKeys, List.mem_append, List.mem_filterMap] at ha
    rcases ha with ha | ⟨n, h1, h3⟩
    · exact h.found a ha
    · exact ⟨n, h.rest n h1, h3⟩
  · intro n hn
    simp only [updKeys, List.mem_filter] at hn
    exact h.rest n hn.1
  · intro n hn
    cases hd : D.attr n with
    | some a => exact .inr ⟨a, h2 n hn a hd, rfl⟩
    | none =>
      left
      rcases h.all n hn with h' | ⟨b, _, h3⟩
      · simp [updKeys, h', hd]
      · rw [hd] at h3; cases h3

theorem isKey_agree {E : Env} {q : QSpec} {D0 D Df : PDB} (hx : Ext D Df) (h0 : D0.next ≤ D.next) (hm : MetaOk E D0) {attrs : List PAttr}
    (h1 : ∀ a ∈ attrs, ∃ n ∈ q.keys, D.attr n = some a) (h2 : ∀ n ∈ q.keys, ∀ a, D.attr n = some a → a ∈ attrs) {i : Nat} (hi : i < D.next) :
    isKeyOf E.meta_ attrs i = (q.cfg E Df).isKey i := by
  rw [Bool.eq_iff_iff]
  unfold isKeyOf QSpec.cfg
  simp only [List.any_eq_true, Bool.or_eq_true, decide_eq_true_eq, Option.mem_def]
  constructor
  · rintro ⟨a, ha, h⟩
    obtain ⟨n, hn, hd⟩ := h1 a ha
    exact ⟨n, hn, a, hx.keep _ _ hd, h⟩
  · rintro ⟨n, hn, a, hd, h⟩
    have hlt : a.id < D.next := by
      rcases h with h | h
      · omega
      · by_contra hc
        apply h
        apply findVal_free
        intro x hx' he
        rcases hm i x hx' with h' | h' <;> omega
    rcases hx.new _ _ hd with h' | h'
    · exact ⟨a, h2 n hn a h', h⟩
    · omega

theorem selected_congr {C C' : QCfg} {r : List QEnt} (hall : C.selectAll = C'.selectAll) (hn : C.selectNested = C'.selectNested)
    (hk : ∀ x ∈ pairs r, C.isKey x.1 = C'.isKey x.1) (hne : ∀ x ∈ pairs r, C.nested x.1 = C'.nested x.1) (b : Bool) :
    C.selected b r = C'.selected b r := by
  unfold QCfg.selected
  rw [List.flatMap_def, List.flatMap_def]
  congr 1
  apply List.map_congr_left
  intro e he
  cases e with
  | imm a v => rfl
  | ref p =>
    apply List.filter_congr
    intro x hx
    have hp : x ∈ pairs r := by
      unfold pairs
      rw [List.mem_flatMap]
      exact ⟨_, he, hx⟩
    rw [hk x hp, hne x hp, hall, hn]

theorem immKey_congr {C C' : QCfg} {r : List QEnt} (hk : ∀ x ∈ pairs r, C.isKey x.1 = C'.isKey x.1) : C.immKey r = C'.immKey r := by
  unfold QCfg.immKey
  apply List.filterMap_congr
  intro e he
  cases e with
  | ref p => rfl
  | imm a v =>
    have hp : (a, v) ∈ pairs r := by
      unfold pairs
      rw [List.mem_flatMap]
      exact ⟨_, he, by simp⟩
    have := hk _ hp
    simp only at this
    simp only [this]

end Verif.Query.Pipe
