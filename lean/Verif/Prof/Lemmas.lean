import Verif.Prof.Spec
import Verif.Serv.Compose
import Verif.Capi.SnapshotLemmas
import Verif.Props.Globals
/-!
# Lemmas for region profiles: the record of one call
-/
namespace Verif.Prof
open Verif RT MTree Capi

/-! ### blackboards -/

theorem currentValue_iff {s : State} {c : Abs} (R : RelS s c) (l : Loc) (k : Nat) (v : Verif.Val) :
    CurrentValue s l k v ↔ k ≠ regionKey ∧ k ≠ unalignedKey ∧ k ≠ invId ∧ (c.ctx l).vals k = some v := by
  obtain ⟨p, hr, s1, s2, s3⟩ := (R.ctx l).ex
  unfold CurrentValue
  refine and_congr_right fun k1 => and_congr_right fun k2 => and_congr_right fun k3 => ?_
  have h3 := s3 k k1 k2 k3
  rw [bb_get hr k3]
  cases hm : p.m k with
  | none =>
    rw [hm] at h3
    cases hv : (c.ctx l).vals k with
    | none =>
      constructor
      · rintro ⟨e, he, hn, -⟩
        simp only [Option.getD_none, Option.some.injEq] at he
        rw [← he] at hn
        exact absurd hn (by simp [default])
      · intro h; simp at h
    | some w => rw [hv] at h3; exact absurd h3 (by simp [ValSlot])
  | some e =>
    rw [hm] at h3
    cases hv : (c.ctx l).vals k with
    | none => rw [hv] at h3; exact absurd h3 (by simp [ValSlot])
    | some w =>
      rw [hv] at h3
      obtain ⟨q, rfl, -⟩ := h3
      constructor
      · rintro ⟨e, he, hn, hw⟩
        simp only [Option.getD_some, Option.some.injEq] at he
        rw [← he] at hw
        exact congrArg some hw
      · intro h
        have : w = v := by simpa using h
        exact ⟨_, rfl, rfl, this⟩

theorem mem_of_key {I : List (Nat × Verif.Val)} {k : Nat} (h : k ∈ I.map Prod.fst) : ∃ v, (k, v) ∈ I := by
  obtain ⟨⟨k', v⟩, h1, h2⟩ := List.mem_map.1 h
  simp only at h2
  exact ⟨v, h2 ▸ h1⟩

/-- lists of the same values have the same length -/
theorem valuesOf_same {s s' : State} {c c' : Abs} (R : RelS s c) (R' : RelS s' c') {l : Loc} (hv : (c'.ctx l).vals = (c.ctx l).vals)
    {I I' : List (Nat × Verif.Val)} (h : ValuesOf s l I) (h' : ValuesOf s' l I') :
    I'.length = I.length ∧ ∀ k, k ∈ I'.map Prod.fst → k ∈ I.map Prod.fst := by
  have hm : ∀ k v, (k, v) ∈ I' ↔ (k, v) ∈ I := fun k v => by
    rw [h.2, h'.2, currentValue_iff R, currentValue_iff R', hv]
  have hp : I'.Perm I := by
    rw [List.perm_ext_iff_of_nodup (List.Nodup.of_map _ h'.1) (List.Nodup.of_map _ h.1)]
    rintro ⟨k, v⟩; exact hm k v
  refine ⟨hp.length_eq, fun k hk => ?_⟩
  obtain ⟨v, hv'⟩ := mem_of_key hk
  exact List.mem_map.2 ⟨(k, v), (hm k v).1 hv', rfl⟩

/-- the reference entries on a blackboard without unaligned values: at most one, for the open regions -/
theorem board_refs {s : State} {c : Abs} (h : RtReachV s) (R : RelS s c) (l : Loc) (hu : (c.ctx l).unal = []) :
    ((c.ctx l).region = [] ∧ ((BB.snapshot (s.board l)).filter fun e => !isImmediate s.tree e) = []) ∨
    (∃ n, (c.ctx l).region ≠ [] ∧ Path s.tree n (c.ctx l).region ∧
      ((BB.snapshot (s.board l)).filter fun e => !isImmediate s.tree e) = [Entry.ofNode s.tree n] ∧ s.tree.attrOf n ≠ nameAttr) := by
  obtain ⟨p, hr, s1, s2, s3⟩ := (R.ctx l).ex
  obtain ⟨L, hn, hk, hL, hsnap⟩ := (h.vis l).exact hr
  have hL' : ∀ k v, (k, v) ∈ L → p.m k = some v := fun k v hm => ((hL k v (hk _ hm)).1 hm).1
  have hm2 : p.m 2 = none := by
    cases hm : p.m 2 with
    | none => rfl
    | some e => rw [hm] at s2; exact absurd hu (slot_ref s2).2.1
  have kcase : ∀ k e, (k, e) ∈ L → isImmediate s.tree e = false → k = 1 := by
    intro k e hm hre
    by_contra h1
    have h2 : k ≠ 2 := fun hc => by rw [hc] at hm; rw [hL' 2 e hm] at hm2; simp at hm2
    have := s3 k h1 h2 (hk _ hm)
    rw [hL' k e hm] at this
    cases hv : (c.ctx l).vals k with
    | none => rw [hv] at this; simp [ValSlot] at this
    | some v =>
      rw [hv] at this
      obtain ⟨q, rfl, h1, h2, h3, h4⟩ := this
      simp [isImmediate, h4] at hre
  rw [hsnap, List.filter_map]
  cases hm1 : p.m 1 with
  | none =>
    rw [hm1] at s1
    refine .inl ⟨s1.2, ?_⟩
    have : L.filter ((fun e => !isImmediate s.tree e) ∘ Prod.snd) = [] := by
      rw [List.filter_eq_nil_iff]
      rintro ⟨k, e⟩ hx hre
      have := kcase k e hx (by simpa using hre)
      rw [this] at hx
      rw [hL' 1 e hx] at hm1; simp at hm1
    rw [this]; rfl
  | some e =>
    rw [hm1] at s1
    obtain ⟨h12, hne, n, rfl, hp⟩ := slot_ref s1
    have hni := ref_not_imm hp hne s1.1
    refine .inr ⟨n, hne, hp, ?_, by simpa [isImmediate, Entry.ofNode] using hni⟩
    have hmem : (1, Entry.ofNode s.tree n) ∈ L := (hL 1 _ (by decide)).2 ⟨hm1, rfl⟩
    have hall : ∀ x ∈ L.filter ((fun e => !isImmediate s.tree e) ∘ Prod.snd), x = (1, Entry.ofNode s.tree n) := by
      rintro ⟨k, e⟩ hx
      obtain ⟨x1, x2⟩ := List.mem_filter.1 hx
      have hk1 := kcase k e x1 (by simpa using x2)
      subst hk1
      have := hL' 1 e x1
      rw [hm1] at this
      simp at this
      rw [this]
    have hnd : (L.filter ((fun e => !isImmediate s.tree e) ∘ Prod.snd)).Nodup := (List.Nodup.of_map _ hn).filter _
    have hin : (1, Entry.ofNode s.tree n) ∈ L.filter ((fun e => !isImmediate s.tree e) ∘ Prod.snd) :=
      List.mem_filter.2 ⟨hmem, by simp [hni]⟩
    generalize L.filter ((fun e => !isImmediate s.tree e) ∘ Prod.snd) = F at *
    match F with
    | [] => simp at hin
    | [x] => rw [hall x (by simp)]; rfl
    | x :: y :: F =>
      exfalso
      rw [hall x (by simp), hall y (by simp)] at hnd
      simp at hnd

/-! ### the record of a snapshot -/

/-- what a record says: the regions, the duration, and whether a region was ended -/
structure RecIs (E : Agg.Env) (t : Tree) (I : Ids) (rec : List Cali.DEnt) (P : PathL) (d : BitVec 64) (e : Bool) : Prop where
  path : HasPath E t rec P
  dur : Agg.valueIn I.dur rec = some (.uint d)
  count : Agg.valueIn I.count rec = if e then some (.uint 1) else none

theorem refNodes_append (E : Agg.Env) (x y : List Cali.DEnt) : E.refNodes (x ++ y) = E.refNodes x ++ E.refNodes y := by
  induction x with
  | nil => rfl
  | cons e x ih =>
    simp only [List.cons_append, Agg.Env.refNodes]
    cases e.node with
    | none => simpa using ih
    | some i => cases h : E.isAttr i <;> simp [ih, h]

theorem valueIn_append (a : Nat) (x y : List Cali.DEnt) : Agg.valueIn a (x ++ y) = (Agg.valueIn a x).or (Agg.valueIn a y) := by
  induction x with
  | nil => rfl
  | cons e x ih =>
    simp only [List.cons_append, Agg.valueIn]
    split
    · rfl
    · exact ih

theorem valueIn_none (a : Nat) (x : List Cali.DEnt) (h : ∀ e ∈ x, e.node ≠ some a) : Agg.valueIn a x = none := by
  induction x with
  | nil => rfl
  | cons e x ih =>
    simp only [Agg.valueIn]
    rw [if_neg (h e (by simp)), ih fun e he => h e (by simp [he])]

theorem EnvOf.pre {E : Agg.Env} {t t' : Tree} (x : Ext t t') (h : EnvOf E t') : EnvOf E t := by
  intro p hp hr
  rw [← x.idOf hp, h p (x.live hp) hr, x.attrOf hp]

/-- the entries of a list of which each is immediate or a reference -/
theorem refNodes_board {E : Agg.Env} {t : Tree} (hE : EnvOf E t) (conv : Verif.Val → Cali.Val) (es : List Entry)
    (h : ∀ e ∈ es, ∃ p, e.node = some p ∧ Live t p ∧ p ≠ .root) :
    E.refNodes (es.map (toDEnt conv t)) = (es.filter fun e => !isImmediate t e).filterMap fun e => e.node.map t.idOf := by
  induction es with
  | nil => rfl
  | cons e es ih =>
    obtain ⟨p, h1, h2, h3⟩ := h e (by simp)
    have ih := ih fun e he => h e (by simp [he])
    have hi : isImmediate t e = decide (t.attrOf p = nameAttr) := by simp [isImmediate, h1]
    simp only [List.map_cons, Agg.Env.refNodes, List.filter_cons, hi, toDEnt, h1, Option.map_some, hE p h2 h3]
    by_cases ha : t.attrOf p = nameAttr
    · simp [ha, ih]
    · simp [ha, h1, ih]

theorem board_live {s : State} {c : Abs} (h : RtReachV s) (R : RelS s c) (l : Loc) :
    ∀ e ∈ BB.snapshot (s.board l), ∃ p, e.node = some p ∧ Live s.tree p ∧ p ≠ .root := by
  obtain ⟨p, hr, s1, s2, s3⟩ := (R.ctx l).ex
  obtain ⟨L, hn, hk, hL, hsnap⟩ := (h.vis l).exact hr
  have hL' : ∀ k v, (k, v) ∈ L → p.m k = some v := fun k v hm => ((hL k v (hk _ hm)).1 hm).1
  have href : ∀ e lp, Slot s.tree (some e) lp → ∃ p, e.node = some p ∧ Live s.tree p ∧ p ≠ .root := by
    intro e lp hs
    obtain ⟨-, hne, n, rfl, hp⟩ := slot_ref hs
    refine ⟨n, rfl, hp.live, ?_⟩
    rintro rfl
    exact hne (hp.fun Path.root)
  intro e he
  rw [hsnap] at he
  obtain ⟨⟨k, e'⟩, hx, rfl⟩ := List.mem_map.1 he
  have hm := hL' k e' hx
  by_cases h1 : k = 1
  · subst h1; rw [hm] at s1; exact href _ _ s1
  · by_cases h2 : k = 2
    · subst h2; rw [hm] at s2; exact href _ _ s2
    · have := s3 k h1 h2 (hk _ hx)
      rw [hm] at this
      cases hv : (c.ctx l).vals k with
      | none => rw [hv] at this; simp [ValSlot] at this
      | some v =>
        rw [hv] at this
        obtain ⟨q, rfl, g1, g2, g3, g4⟩ := this
        exact ⟨q, rfl, g1, g2⟩

/-- an attribute that is not among the values on a blackboard has no value in its entries -/
theorem board_valueIn {E : Agg.Env} {s : State} {c : Abs} (h : RtReachV s) (R : RelS s c) (hE : EnvOf E s.tree) (conv : Verif.Val → Cali.Val) (l : Loc)
    {J : List (Nat × Verif.Val)} (hJ : ValuesOf s l J) (a : Nat) (ha : a ∉ J.map Prod.fst) (hA : E.isAttr a = true) :
    ∀ d ∈ (BB.snapshot (s.board l)).map (toDEnt conv s.tree), d.node ≠ some a := by
  intro d hd hn
  obtain ⟨e, he, rfl⟩ := List.mem_map.1 hd
  obtain ⟨p, h1, h2, h3⟩ := board_live h R l e he
  have hid : s.tree.idOf p = a := by simpa [toDEnt, h1] using hn
  have hat : s.tree.attrOf p = nameAttr := by
    have := hE p h2 h3
    rw [hid, hA] at this
    exact of_decide_eq_true this.symm
  have hi : isImmediate s.tree e = true := by simp [isImmediate, h1, hat]
  have hv := (board_entries h l).2.2.2
  have := (valuesOf_same R R rfl hJ hv).2 a (List.mem_map.2 ⟨immOf s.tree e, List.mem_map.2 ⟨e, List.mem_filter.2 ⟨he, hi⟩, rfl⟩, by
    show e.attribute s.tree = a
    rw [(imm_is (k := a) ⟨p, h1, h2, h3, hid, hat⟩).2]⟩)
  exact ha this

theorem board_length {s : State} {c : Abs} (h : RtReachV s) (R : RelS s c) (l : Loc) (hu : (c.ctx l).unal = [])
    {J : List (Nat × Verif.Val)} (hJ : ValuesOf s l J) :
    (BB.snapshot (s.board l)).length = (if (c.ctx l).region = [] then 0 else 1) + J.length := by
  have h1 : ((BB.snapshot (s.board l)).filter fun e => !isImmediate s.tree e).length = if (c.ctx l).region = [] then 0 else 1 := by
    rcases board_refs h R l hu with ⟨a, b⟩ | ⟨n, a, -, b, -⟩
    · rw [b, if_pos a]; rfl
    · rw [b, if_neg a]; rfl
  have h2 := (valuesOf_same R R rfl hJ (board_entries h l).2.2.2).1
  rw [List.length_map] at h2
  rw [← h1, ← h2, ← List.countP_eq_length_filter, ← List.countP_eq_length_filter]
  have := List.length_eq_countP_add_countP (fun e => isImmediate s.tree e) (l := BB.snapshot (s.board l))
  rw [this, Nat.add_comm]
  congr 2
  funext e
  cases isImmediate s.tree e <;> rfl

theorem record_is {E : Agg.Env} {s : State} {c : Abs} {t' : Tree} (h : RtReachV s) (R : RelS s c) (x : Ext s.tree t') (hE : EnvOf E t')
    {I : Ids} (hI : I.Ok E) (conv : Verif.Val → Cali.Val) {th : Nat} (hu : (c.ctx (.thread th)).unal = [])
    (hpr : (c.ctx .process).region = []) (hpu : (c.ctx .process).unal = []) {Jt Jp : List (Nat × Verif.Val)}
    (hJt : ValuesOf s (.thread th) Jt) (hJp : ValuesOf s .process Jp) (hlen : Jt.length + Jp.length ≤ 116)
    (hd : I.dur ∉ Jt.map Prod.fst ∧ I.dur ∉ Jp.map Prod.fst) (hc : I.count ∉ Jt.map Prod.fst ∧ I.count ∉ Jp.map Prod.fst)
    (now d : BitVec 64) (e : Bool) (sig : Bool) (inf : Option Serv.Trig) :
    RecIs E t' I (record I conv s ⟨th, sig, inf, e, ⟨now, some d, none⟩⟩) (c.ctx (.thread th)).region d e := by
  have hE' := hE.pre x
  have l1 := board_length h R (.thread th) hu hJt
  have l2 := board_length h R .process hpu hJp
  have lp : (BB.snapshot (s.board .process)).take 120 = BB.snapshot (s.board .process) := by
    apply List.take_of_length_le
    rw [l2, hpr]; simp; omega
  have hrec : record I conv s ⟨th, sig, inf, e, ⟨now, some d, none⟩⟩ =
      (BB.snapshot (s.board (.thread th))).map (toDEnt conv s.tree) ++ ((BB.snapshot (s.board .process)).map (toDEnt conv s.tree) ++
        ((if e then [(⟨some I.count, .uint 1⟩ : Cali.DEnt)] else []) ++ [⟨some I.offset, .uint now⟩, ⟨some I.dur, .uint d⟩])) := by
    unfold record
    simp only [lp]
    rw [List.take_of_length_le]
    · simp [timeEntries]
    · simp only [List.length_append, List.length_map, timeEntries, List.length_cons, List.length_nil, Option.map_some, Option.map_none,
        Option.toList_some, Option.toList_none, l1, l2, hpr, if_true]
      split <;> split <;> simp <;> omega
  rw [hrec]
  have hproc : E.refNodes ((BB.snapshot (s.board .process)).map (toDEnt conv s.tree)) = [] := by
    rw [refNodes_board hE' conv _ (board_live h R .process)]
    rcases board_refs h R .process hpu with ⟨a, b⟩ | ⟨n, a, -⟩
    · rw [b]; rfl
    · exact absurd hpr a
  have htail : E.refNodes ((if e then [(⟨some I.count, .uint 1⟩ : Cali.DEnt)] else []) ++ [⟨some I.offset, .uint now⟩, ⟨some I.dur, .uint d⟩]) = [] := by
    cases e <;> simp [Agg.Env.refNodes, hI.offset, hI.dur, hI.count]
  refine ⟨?_, ?_, ?_⟩
  · unfold HasPath
    rw [refNodes_append, refNodes_append, hproc, htail, List.append_nil, List.append_nil, refNodes_board hE' conv _ (board_live h R (.thread th))]
    rcases board_refs h R (.thread th) hu with ⟨a, b⟩ | ⟨n, a, hp, b, -⟩
    · rw [b]; exact .inl ⟨a, rfl⟩
    · rw [b]; exact .inr ⟨n, a, by simp [Entry.ofNode, x.idOf hp.live], x.path hp⟩
  · rw [valueIn_append, valueIn_append, valueIn_none _ _ (board_valueIn h R hE' conv _ hJt _ hd.1 hI.dur),
      valueIn_none _ _ (board_valueIn h R hE' conv _ hJp _ hd.2 hI.dur)]
    cases e <;> simp [Agg.valueIn, hI.od, hI.cd]
  · rw [valueIn_append, valueIn_append, valueIn_none _ _ (board_valueIn h R hE' conv _ hJt _ hc.1 hI.count),
      valueIn_none _ _ (board_valueIn h R hE' conv _ hJp _ hc.2 hI.count)]
    cases e <;> simp [Agg.valueIn, hI.oc, Ne.symm hI.cd]

end Verif.Prof
