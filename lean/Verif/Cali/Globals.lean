import Verif.Cali.RoundTrip
/-!
# Globals of a written stream, and the reader's name table
-/
namespace Verif.Cali
open Verif

/-- globals records among the lines -/
def globsOf (ls : List WLine) : List (List Nat × List (Nat × Val)) := ls.filterMap fun l => match l with
  | .record .globals r i => some (r, i)
  | _ => none

theorem globsOf_append (a b : List WLine) : globsOf (a ++ b) = globsOf a ++ globsOf b := by simp [globsOf]

/-- globals as a running program writes them: references to different paths; values of different attributes that have both
the `GLOBAL` and the `ASVALUE` property; no reference for one of the latter attributes -/
structure Src.GlobOK (S : Src) (es : List DEnt) : Prop where
  refs : (S.refsOf es).Pairwise fun i j => ∀ D, Denotes S.node i D → ¬ Denotes S.node j D
  imms : (S.immsOf es).Pairwise fun p q => ∀ D, Denotes S.node p.1 D → ¬ Denotes S.node q.1 D
  prop : ∀ p ∈ S.immsOf es, ∀ A, Denotes S.node p.1 A → A.attrProp &&& 512#32 ≠ 0#32 ∧ A.attrProp &&& 1#32 ≠ 0#32
  sep : ∀ i ∈ S.refsOf es, ∀ n, S.node i = some n → ∀ p ∈ S.immsOf es, ∀ A, Denotes S.node n.attr A → ¬ Denotes S.node p.1 A

/-- merging global references -/
theorem foldl_globalRef (m : IdMap) (ids : List Nat) : ∀ (db : DB), db.OK →
    (∀ i ∈ ids, ∃ n, db.node? (mapId m i) = some n ∧ db.attribute? (mapId m i) = none) →
    (ids.map (mapId m)).Nodup → (∀ g ∈ db.globals, ∀ i ∈ ids, g.node ≠ some (mapId m i)) →
    ∃ new, ids.foldl (fun db id => db.mergeGlobalRef m id) db = { db with globals := db.globals ++ new } ∧
      List.Forall₂ (fun i (e : DEnt) => e.node = some (mapId m i) ∧ ∃ n, db.node? (mapId m i) = some n ∧ e.val = n.data) ids new := by
  induction ids with
  | nil => intro db _ _ _ _; exact ⟨[], by simp, .nil⟩
  | cons i ids ih =>
    intro db hok hn hnd hg
    obtain ⟨n, hi, hia⟩ := hn i (by simp)
    have hany : db.globals.any (fun g => db.entEq g ⟨some (mapId m i), n.data⟩) = false := by
      rw [List.any_eq_false]
      intro g hgm
      have := hg g hgm i (by simp)
      simp [DB.entEq, this]
    have hstep : db.mergeGlobalRef m i = { db with globals := db.globals ++ [⟨some (mapId m i), n.data⟩] } := by
      simp [DB.mergeGlobalRef, hi, hany]
    rw [List.foldl_cons, hstep]
    rw [List.map_cons, List.nodup_cons] at hnd
    obtain ⟨new, e, hf⟩ := ih { db with globals := db.globals ++ [⟨some (mapId m i), n.data⟩] }
      (by have := hok.mergeGlobalRef m i; rw [hstep] at this; exact this.1)
      (fun j hj => hn j (List.mem_cons_of_mem _ hj)) hnd.2
      (by intro g hgm j hj
          simp only [List.mem_append, List.mem_singleton] at hgm
          rcases hgm with hgm | rfl
          · exact hg g hgm j (List.mem_cons_of_mem _ hj)
          · intro e
            simp only [Option.some.injEq] at e
            exact hnd.1 (List.mem_map.2 ⟨j, hj, e.symm⟩))
    refine ⟨⟨some (mapId m i), n.data⟩ :: new, ?_, .cons ⟨rfl, n, hi, rfl⟩ hf⟩
    rw [e]
    simp

/-- merging global values -/
theorem foldl_globalImm (F : DblFmt) (m : IdMap) (ps : List (Nat × List Byte)) : ∀ (db : DB), db.OK →
    (∀ p ∈ ps, db.attribute? (mapId m p.1) = some (mapId m p.1) ∧ db.attrProp (some (mapId m p.1)) &&& 512#32 ≠ 0#32 ∧
      db.attrProp (some (mapId m p.1)) &&& 1#32 ≠ 0#32) →
    (ps.map fun p => mapId m p.1).Nodup → (∀ g ∈ db.globals, ∀ p ∈ ps, db.entAttr g ≠ mapId m p.1) →
    ps.foldl (fun db p => db.mergeGlobalImm F m p.1 p.2) db =
      { db with globals := db.globals ++ (ps.map fun p => ⟨some (mapId m p.1), makeVar F (db.attrType (some (mapId m p.1))) p.2⟩) } := by
  induction ps with
  | nil => intro db _ _ _ _; simp
  | cons p ps ih =>
    intro db hok hp hnd hg
    obtain ⟨ha, h1, h2⟩ := hp p (by simp)
    have hany : db.globals.any (fun e => decide (db.entAttr e = mapId m p.1)) = false := by
      rw [List.any_eq_false]
      intro g hgm
      simpa using hg g hgm p (by simp)
    have hstep : db.mergeGlobalImm F m p.1 p.2 =
        { db with globals := db.globals ++ [⟨some (mapId m p.1), makeVar F (db.attrType (some (mapId m p.1))) p.2⟩] } := by
      unfold DB.mergeGlobalImm DB.setGlobal
      simp only [ha]
      rw [if_neg (show ¬ db.attrProp (some (mapId m p.1)) &&& 512#32 = 0 from h1),
        if_pos (show db.attrProp (some (mapId m p.1)) &&& 1#32 ≠ 0 from h2), hany]
      rfl
    have hself : db.entAttr ⟨some (mapId m p.1), makeVar F (db.attrType (some (mapId m p.1))) p.2⟩ = mapId m p.1 := by
      unfold DB.entAttr
      unfold DB.attribute? at ha
      cases hn : db.nodes[mapId m p.1]? with
      | none => simp [hn] at ha
      | some n =>
        by_cases h8 : n.attr = 8
        · simp [hn, h8]
        · simp [hn, h8] at ha
    rw [List.foldl_cons, hstep]
    rw [List.map_cons, List.nodup_cons] at hnd
    have hok' := (hok.mergeGlobalImm F m p.1 p.2).1
    rw [hstep] at hok'
    rw [ih _ hok' (fun q hq => hp q (List.mem_cons_of_mem _ hq)) hnd.2]
    · simp only [List.append_assoc, List.map_cons, List.singleton_append]
      rfl
    · intro g hgm q hq
      simp only [List.mem_append, List.mem_singleton] at hgm
      rcases hgm with hgm | rfl
      · exact hg g hgm q (List.mem_cons_of_mem _ hq)
      · intro e
        have : mapId m p.1 = mapId m q.1 := hself.symm.trans e
        exact hnd.1 (List.mem_map.2 ⟨q, hq, this.symm⟩)

/-- globals while reading a written stream: none before the globals record, those of the record afterwards -/
def GInv (S : Src) (pre : List WLine) (s : RState) : Prop :=
  (globsOf pre = [] → s.db.globals = []) ∧ ∀ r, globsOf pre = [r] → SameRec S s.db r s.db.globals

theorem RState.line_globals {F : DblFmt} {s s' : RState} {f : NodeFields} (h : s.db.OK) (hl : s.line F (.node f) = some s') :
    s'.db.globals = s.db.globals := by
  simp only [RState.line] at hl
  cases hm : s.db.mergeNodeText F s.idmap f.id.toNat f.attr.toNat f.parent.toNat f.data with
  | none => rw [hm] at hl; cases hl
  | some r =>
    rw [hm] at hl
    simp only [Option.some.injEq] at hl
    subst hl
    exact (h.mergeNodeMap hm).2.2

theorem forall₂_mem_right {α β : Type} {R : α → β → Prop} {l : List α} {l' : List β} (h : List.Forall₂ R l l') {b : β}
    (hb : b ∈ l') : ∃ a ∈ l, R a b := by
  induction h with
  | nil => cases hb
  | cons h1 _ ih =>
    rcases List.mem_cons.1 hb with rfl | hb
    · exact ⟨_, by simp, h1⟩
    · obtain ⟨a, ha, hr⟩ := ih hb
      exact ⟨a, List.mem_cons_of_mem _ ha, hr⟩

theorem forall₂_imp_mem {α β : Type} {R R' : α → β → Prop} {l : List α} {l' : List β} (hf : List.Forall₂ R l l')
    (h : ∀ a ∈ l, ∀ b, R a b → R' a b) : List.Forall₂ R' l l' := by
  induction hf with
  | nil => exact .nil
  | cons h1 _ ih => exact .cons (h _ (by simp) _ h1) (ih fun a ha => h a (List.mem_cons_of_mem _ ha))

/-- the attribute of a node in source and database -/
theorem Denotes.attr {N N' : Nat → Option Nd} (hb : ∀ i, i < 12 → N i = bootNodes[i]?) (hb' : ∀ i, i < 12 → N' i = bootNodes[i]?)
    {i j : Nat} {D : Deep} (h : Denotes N i D) (h' : Denotes N' j D) {n n' : Nd}
    (hn : N i = some n) (hn' : N' j = some n') : ∃ A, Denotes N n.attr A ∧ Denotes N' n'.attr A := by
  cases h with
  | boot k1 k2 =>
    cases h' with
    | boot m1 m2 =>
      rw [k2, ← m2, hn'] at hn
      cases hn
      have hl : n.attr < 12 := (bootNodes_small n (List.mem_iff_getElem?.2 ⟨i, by rw [← m2, hn']⟩)).1
      exact ⟨.boot n.attr, .boot hl (hb _ hl), .boot hl (hb' _ hl)⟩
  | root k1 k2 k3 =>
    cases h' with
    | root m1 m2 m3 =>
      rw [hn] at k2; cases k2
      rw [hn'] at m2; cases m2
      exact ⟨_, k3, m3⟩
  | child k1 k2 k3 k4 =>
    cases h' with
    | child m1 m2 m3 m4 =>
      rw [hn] at k2; cases k2
      rw [hn'] at m2; cases m2
      exact ⟨_, k3, m3⟩

theorem node_line_parsed {F : DblFmt} {S : Src} (hS : S.Sound F) {id : Nat} {n : Nd} (hn : S.node id = some n) (h11 : 11 ≤ id) :
    ∃ f, parseLine ((WLine.node id n).text F) = .node f := by
  have hidlt := hS.small id n hn
  obtain ⟨A, hA, hsup⟩ : ∃ A, Denotes S.node n.attr A ∧ Supported F n.data := by
    by_cases h12 : 12 ≤ id
    · obtain ⟨A, h, _, _, h', _⟩ := hS.attr id n hn h12
      exact ⟨A, h, h'⟩
    · have : id = 11 := by omega
      subst this
      rw [hS.boot 11 (by omega)] at hn
      simp [bootNodes] at hn
      subst hn
      exact ⟨.boot 9, .boot (i := 9) (by omega) (hS.boot 9 (by omega)), by simp [Supported]⟩
  obtain ⟨na, hna⟩ := hA.node_some
  obtain ⟨hw, _⟩ := value_textOf F n.data hsup
  exact ⟨_, parse_nodeLine _ _ _ _ _ hw (ofNat_ne_inv hidlt) (ofNat_ne_inv (hS.small _ _ hna))⟩

theorem rec_line_parsed {F : DblFmt} {S : Src} {k : Kind} {es : List DEnt} (hr : S.RecOK F es) :
    parseLine ((WLine.record k (S.refsOf es) (S.immsOf es)).text F) =
      .record k ⟨(S.refsOf es).map (BitVec.ofNat 64 ·), (S.immsOf es).map (fun p => BitVec.ofNat 64 p.1),
        (S.immsOf es).map fun p => word F p.2⟩ := by
  have := parse_recLine k ((S.refsOf es).map (BitVec.ofNat 64 ·))
    ((S.immsOf es).map fun p => (BitVec.ofNat 64 p.1, p.2.writeCali F, word F p.2))
    (hr.ne.imp (fun h => by simpa using h) (fun h => by simpa using h))
    (by intro e he
        obtain ⟨p, hp, rfl⟩ := List.mem_map.1 he
        exact (value_textOf F p.2 (hr.imm p hp).1).1)
    (by intro e he
        cases hi : S.immsOf es with
        | nil => simp [hi] at he
        | cons p ps =>
          cases ps with
          | cons => simp [hi] at he
          | nil =>
            simp [hi] at he
            subst he
            exact hr.single p hi)
  simp only [List.map_map] at this
  exact this

/-- reading the globals record, when there are no globals yet -/
theorem globals_record {F : DblFmt} {S : Src} (hS : S.Sound F) {pre : List WLine} {s s' : RState} (h : RInv S pre s)
    {es : List DEnt} (hr : S.RecOK F es) (hg : S.GlobOK es) (hdef : Defined pre (.record .globals (S.refsOf es) (S.immsOf es)))
    (h0 : s.db.globals = [])
    (hl : s.line F (parseLine ((WLine.record .globals (S.refsOf es) (S.immsOf es)).text F)) = some s') :
    SameRec S s'.db (S.refsOf es, S.immsOf es) s'.db.globals := by
  have used : ∀ i, i < 11 ∨ i ∈ nodeIds pre → i < 12 ∨ i ∈ nodeIds pre := fun i hi => hi.imp (fun _ => by omega) fun x => x
  rw [rec_line_parsed hr] at hl
  simp only [RState.line, Option.some.injEq] at hl
  -- references
  have href : ∀ i ∈ S.refsOf es, ∃ D n, i < invN ∧ S.node i = some n ∧ Denotes S.node i D ∧ ¬ D.isOf 8 ∧
      Denotes s.db.node? (mapId s.idmap i) D := by
    intro i hi
    obtain ⟨e, he, hn, him⟩ := mem_refsOf hi
    have hs := hr.has e he i hn
    obtain ⟨n, hn'⟩ := Option.isSome_iff_exists.1 hs
    obtain ⟨D, hD⟩ := hS.denotes _ i rfl hs
    refine ⟨D, n, hS.small i n hn', hn', hD, ?_, h.means i D (used i (hdef i (List.mem_append_left _ hi))) hD⟩
    rw [hD.isOf_iff hn' 8 (by omega)]
    simpa [Src.isImm, hn'] using him
  have himm : ∀ p ∈ S.immsOf es, ∃ A, p.1 < invN ∧ Denotes S.node p.1 A ∧ A.isOf 8 ∧ p.2.ty = A.attrType ∧ Supported F p.2 ∧
      Denotes s.db.node? (mapId s.idmap p.1) A := by
    intro p hp
    obtain ⟨hsup, A, hA, hty⟩ := hr.imm p hp
    obtain ⟨e, he, hn, hv, him⟩ := mem_immsOf (i := p.1) (v := p.2) hp
    obtain ⟨n, hnn⟩ := hA.node_some
    refine ⟨A, hS.small _ _ hnn, hA, ?_, hty, hsup, h.means p.1 A (used _ (hdef p.1 (List.mem_append_right _ (List.mem_map.2 ⟨p, hp, rfl⟩)))) hA⟩
    rw [hA.isOf_iff hnn 8 (by omega)]
    simpa [Src.isImm, hnn] using him
  -- first fold
  have f1 : ((S.refsOf es).map (BitVec.ofNat 64 ·)).foldl (fun db (id : U64) => db.mergeGlobalRef s.idmap id.toNat) s.db =
      (S.refsOf es).foldl (fun db id => db.mergeGlobalRef s.idmap id) s.db := by
    rw [List.foldl_map]
    have : ∀ l : List Nat, (∀ i ∈ l, i < invN) → ∀ db : DB,
        l.foldl (fun db i => db.mergeGlobalRef s.idmap (BitVec.ofNat 64 i).toNat) db = l.foldl (fun db i => db.mergeGlobalRef s.idmap i) db := by
      intro l
      induction l with
      | nil => intro _ _; rfl
      | cons i l ih =>
        intro hlt db
        simp only [List.foldl_cons]
        rw [toNat_id (Nat.le_of_lt (hlt i (by simp))), ih fun j hj => hlt j (List.mem_cons_of_mem _ hj)]
    exact this _ (fun i hi => by obtain ⟨_, _, h1, _⟩ := href i hi; exact h1) _
  obtain ⟨new, e1, hnew⟩ := foldl_globalRef s.idmap (S.refsOf es) s.db h.ok
    (by intro i hi
        obtain ⟨D, n, _, _, hD, h8, hD'⟩ := href i hi
        obtain ⟨n', hn'⟩ := hD'.node_some
        refine ⟨n', hn', ?_⟩
        rcases DB.OK.attribute? hD' with h' | h'
        · exact absurd h'.2 h8
        · exact h'.1)
    (by rw [List.Nodup, List.pairwise_map]
        refine List.Pairwise.imp_of_mem ?_ hg.refs
        intro i j hi hj hij e
        obtain ⟨D, n, _, _, hD, _, hD'⟩ := href i hi
        obtain ⟨E, n2, _, _, hE, _, hE'⟩ := href j hj
        rw [e] at hD'
        rw [hD'.det hE'] at hD
        exact hij E hD hE)
    (by rw [h0]; simp)
  rw [h0, List.nil_append] at e1
  -- second fold
  have f2 : ∀ db : DB, ((((S.immsOf es).map (fun p => BitVec.ofNat 64 p.1)).zip ((S.immsOf es).map fun p => word F p.2))).foldl
        (fun db (p : U64 × List Byte) => db.mergeGlobalImm F s.idmap p.1.toNat p.2) db =
      ((S.immsOf es).map fun p => (p.1, word F p.2)).foldl (fun db p => db.mergeGlobalImm F s.idmap p.1 p.2) db := by
    have : ∀ l : List (Nat × Val), (∀ p ∈ l, p.1 < invN) → ∀ db : DB,
        (((l.map (fun p => BitVec.ofNat 64 p.1)).zip (l.map fun p => word F p.2))).foldl
          (fun db (p : U64 × List Byte) => db.mergeGlobalImm F s.idmap p.1.toNat p.2) db =
        (l.map fun p => (p.1, word F p.2)).foldl (fun db p => db.mergeGlobalImm F s.idmap p.1 p.2) db := by
      intro l
      induction l with
      | nil => intro _ _; rfl
      | cons p l ih =>
        intro hlt db
        simp only [List.map_cons, List.zip_cons_cons, List.foldl_cons]
        rw [toNat_id (Nat.le_of_lt (hlt p (by simp))), ih fun j hj => hlt j (List.mem_cons_of_mem _ hj)]
    exact this _ (fun p hp => by obtain ⟨_, h1, _⟩ := himm p hp; exact h1)
  obtain ⟨ok1, ext1⟩ := foldl_ok (fun db (id : Nat) => db.mergeGlobalRef s.idmap id)
    (fun db b hb => hb.mergeGlobalRef s.idmap b) (S.refsOf es) s.db h.ok
  have e2 := foldl_globalImm F s.idmap ((S.immsOf es).map fun p => (p.1, word F p.2))
    ((S.refsOf es).foldl (fun db id => db.mergeGlobalRef s.idmap id) s.db) ok1
    (by intro q hq
        obtain ⟨p, hp, rfl⟩ := List.mem_map.1 hq
        obtain ⟨A, _, hA, h8, _, _, hA'⟩ := himm p hp
        obtain ⟨k1, k2⟩ := hg.prop p hp A hA
        have hA'' := ext1.denotes hA'
        simp only
        rw [ok1.attrProp hA'']
        refine ⟨?_, k1, k2⟩
        rcases DB.OK.attribute? hA'' with h' | h'
        · exact h'.1
        · exact absurd h8 h'.2)
    (by rw [List.map_map, List.Nodup, List.pairwise_map]
        refine List.Pairwise.imp_of_mem ?_ hg.imms
        intro p q hp hq hpq e
        obtain ⟨A, _, hA, _, _, _, hA'⟩ := himm p hp
        obtain ⟨B, _, hB, _, _, _, hB'⟩ := himm q hq
        simp only [Function.comp] at e
        rw [e] at hA'
        rw [hA'.det hB'] at hA
        exact hpq B hA hB)
    (by intro g hgm q hq e
        obtain ⟨p, hp, rfl⟩ := List.mem_map.1 hq
        rw [e1] at hgm e
        simp only at hgm e
        obtain ⟨i, hi, hgi⟩ : ∃ i ∈ S.refsOf es, g.node = some (mapId s.idmap i) := by
          obtain ⟨i, hi, h1, _⟩ := forall₂_mem_right hnew hgm
          exact ⟨i, hi, h1⟩
        obtain ⟨D, n, _, hn, hD, h8, hD'⟩ := href i hi
        obtain ⟨A, _, hA, _, _, _, hA'⟩ := himm p hp
        obtain ⟨n', hn'⟩ := hD'.node_some
        have h8' : n'.attr ≠ 8 := fun c => h8 ((hD'.isOf_iff hn' 8 (by omega)).2 c)
        have ea : n'.attr = mapId s.idmap p.1 := by
          unfold DB.node? at hn'
          simpa [DB.entAttr, hgi, hn', h8'] using e
        obtain ⟨B, hB, hB'⟩ := hD.attr hS.boot (fun i hi => h.ok.bootAt hi) hD' hn hn'
        rw [ea] at hB'
        rw [hA'.det hB'] at hA
        exact hg.sep i hi n hn p hp B hB hA)
  rw [f1, f2, e2, e1] at hl
  subst hl
  simp only
  refine ⟨new, _, rfl, ?_, ?_⟩
  · refine forall₂_imp_mem hnew ?_
    rintro i hi e ⟨k1, n', k2, k3⟩
    obtain ⟨D, n, _, hn, hD, h8, hD'⟩ := href i hi
    exact ⟨D, n, _, hD, hn, k1, hD', by rw [k3, hD.data hD' hn k2]⟩
  · rw [List.map_map]
    refine forall₂_map _ _ fun p hp => ?_
    obtain ⟨A, _, hA, _, hty, hsup, hA'⟩ := himm p hp
    refine ⟨A, _, hA, rfl, hA', ?_⟩
    have : ({ s.db with globals := new } : DB).attrType (some (mapId s.idmap p.1)) = A.attrType := by
      have := h.ok.attrType hA'
      unfold DB.attrType at *
      exact this
    simp only [Function.comp, this, ← hty]
    exact (value_textOf F p.2 hsup).2

/-- globals after all lines -/
theorem read_lines_globals {F : DblFmt} {S : Src} (hS : S.Sound F) (all : List WLine) (hnd : (nodeIds all).Nodup)
    (hnode : ∀ id n, WLine.node id n ∈ all → S.node id = some n ∧ 11 ≤ id)
    (hdef : ∀ pre l post, all = pre ++ l :: post → Defined pre l)
    (hrec : ∀ k r i, WLine.record k r i ∈ all → ∃ es, S.RecOK F es ∧ (k = .globals → S.GlobOK es) ∧ r = S.refsOf es ∧ i = S.immsOf es) :
    ∀ (post pre : List WLine) (s s' : RState), all = pre ++ post → RInv S pre s → GInv S pre s →
      s.db.nodes.length + (post.map WLine.cost).sum ≤ invN →
      s.lines F (post.map fun l => parseLine (l.text F)) = some s' → GInv S all s' := by
  intro post
  induction post with
  | nil =>
    intro pre s s' e h hg _ hl
    simp only [List.map_nil, RState.lines, Option.some.injEq] at hl
    subst hl
    rw [e, List.append_nil]; exact hg
  | cons l post ih =>
    intro pre s s' e h hg hlen hl
    have hmem : l ∈ all := by rw [e]; simp
    have step : ∃ s1, s.line F (parseLine (l.text F)) = some s1 ∧ RInv S (pre ++ [l]) s1 ∧ GInv S (pre ++ [l]) s1 ∧
        s1.db.nodes.length ≤ s.db.nodes.length + l.cost := by
      cases l with
      | node id n =>
        obtain ⟨hn, h11⟩ := hnode id n hmem
        obtain ⟨s1, k1, k2, k3, -⟩ := h.node hS hn h11 (by
          intro hc
          rw [e, nodeIds_append] at hnd
          exact (List.nodup_append.1 hnd).2.2 id hc id (by simp [nodeIds]) rfl) (by
          intro i hi
          obtain ⟨m, hm⟩ := mem_nodeIds.1 hi
          obtain ⟨k1, k2⟩ := hnode i m (by rw [e]; exact List.mem_append_left _ hm)
          exact ⟨k2, hS.small i m k1⟩) (hdef _ _ _ e) (by
          simp only [List.map_cons, List.sum_cons, WLine.cost] at hlen
          omega)
        refine ⟨s1, k1, k2, ?_, k3⟩
        obtain ⟨f, hf⟩ := node_line_parsed hS hn h11
        rw [hf] at k1
        have hgl := RState.line_globals h.ok k1
        have hext := (RState.line_ok h.ok k1).2.1
        have eg : globsOf (pre ++ [.node id n]) = globsOf pre := by simp [globsOf]
        unfold GInv
        rw [eg, hgl]
        exact ⟨hg.1, fun r hr => (hg.2 r hr).mono hext⟩
      | record k r i =>
        obtain ⟨es, hes, hge, rfl, rfl⟩ := hrec k r i hmem
        obtain ⟨s1, k1, k2, k3⟩ := h.record hS hes (hdef _ _ _ e)
        refine ⟨s1, k1, k2, ?_, k3⟩
        cases k with
        | snapshot =>
          rw [rec_line_parsed hes] at k1
          simp only [RState.line, Option.some.injEq] at k1
          subst k1
          have eg : globsOf (pre ++ [.record .snapshot (S.refsOf es) (S.immsOf es)]) = globsOf pre := by simp [globsOf]
          unfold GInv
          rw [eg]
          exact hg
        | globals =>
          have eg : globsOf (pre ++ [.record .globals (S.refsOf es) (S.immsOf es)]) = globsOf pre ++ [(S.refsOf es, S.immsOf es)] := by
            simp [globsOf]
          unfold GInv
          rw [eg]
          refine ⟨by simp, ?_⟩
          intro r hr
          cases hp : globsOf pre with
          | cons a b => rw [hp] at hr; simp at hr
          | nil =>
            rw [hp] at hr
            simp at hr
            subst hr
            exact globals_record hS h hes (hge rfl) (hdef _ _ _ e) (hg.1 hp) k1
    obtain ⟨s1, e1, h1, g1, l1⟩ := step
    simp only [List.map_cons, RState.lines, e1] at hl
    exact ih (pre ++ [l]) s1 s' (by rw [e]; simp) h1 g1 (by
      simp only [List.map_cons, List.sum_cons] at hlen
      omega) hl

/-- globals records written -/
def Src.globs (S : Src) (calls : List (Kind × List DEnt)) : List (List Nat × List (Nat × Val)) :=
  calls.filterMap fun c => match c.1 with
    | .snapshot => none
    | .globals => some (S.refsOf c.2, S.immsOf c.2)

theorem globsOf_recsOf (ls : List WLine) : globsOf ls = (recsOf ls).filterMap fun c => match c.1 with
    | .snapshot => none
    | .globals => some c.2 := by
  induction ls with
  | nil => rfl
  | cons l ls ih =>
    cases l with
    | node => simpa [globsOf, recsOf] using ih
    | record k r i => cases k <;> simpa [globsOf, recsOf] using ih

/-- globals after reading back a written file -/
theorem roundtrip_globals {F : DblFmt} {S : Src} (hS : S.Sound F) (calls : List (Kind × List DEnt)) (hr : ∀ c ∈ calls, S.RecOK F c.2)
    (hg : ∀ c ∈ calls, c.1 = .globals → S.GlobOK c.2)
    (db : DB) (hdb : db.OK) (h0 : db.globals = []) (hlen : db.nodes.length + fileCost S calls ≤ invN) {s : RState}
    (hs : readCali F db (caliFile F S calls) = some s) :
    (S.globs calls = [] → s.db.globals = []) ∧ ∀ r, S.globs calls = [r] → SameRec S s.db r s.db.globals := by
  obtain ⟨hw, hrecs⟩ := writeAll_spec S hS.acyclic calls .init (WInv.init S) fun c hc => (hr c hc).has
  have e0 : recsOf WState.init.lines = [] := rfl
  rw [e0, List.nil_append] at hrecs
  have hrec : ∀ k r i, WLine.record k r i ∈ (writeAll S .init calls).lines →
      ∃ es, S.RecOK F es ∧ (k = .globals → S.GlobOK es) ∧ r = S.refsOf es ∧ i = S.immsOf es := by
    intro k r i hm
    have : (k, r, i) ∈ recsOf (writeAll S .init calls).lines := by
      simp only [recsOf, List.mem_filterMap]; exact ⟨_, hm, rfl⟩
    rw [hrecs] at this
    obtain ⟨c, hc, e⟩ := List.mem_map.1 this
    simp only [Prod.mk.injEq] at e
    exact ⟨c.2, hr c hc, fun h => hg c hc (e.1.trans h), e.2.1.symm, e.2.2.symm⟩
  have hids : (nodeIds (writeAll S .init calls).lines).Nodup := by rw [hw.ids]; exact hw.nodup
  have hp : parseFile (caliFile F S calls) = (writeAll S .init calls).lines.map fun l => parseLine (l.text F) := by
    unfold caliFile
    rw [parseFile_lines, List.map_map]
    · rfl
    · intro l hl
      obtain ⟨x, hx, rfl⟩ := List.mem_map.1 hl
      exact text_line hS (fun id n e => hw.lines id n (e ▸ hx)) fun k r i e => by
        obtain ⟨es, a, _, b⟩ := hrec k r i (e ▸ hx)
        exact ⟨es, a, b⟩
  rw [readCali, hp] at hs
  have := read_lines_globals hS _ hids hw.lines hw.defd hrec _ [] ⟨db, [], false, []⟩ s rfl
    ⟨hdb, rfl, by simp, fun id D hi hD => by
      rcases hi with hi | hi
      · have : D = .boot id := hD.boot_iff.2 ⟨rfl, hi⟩
        subst this
        exact .boot hi (hdb.bootAt hi)
      · simp [nodeIds] at hi, .nil⟩ ⟨fun _ => h0, by simp [globsOf]⟩ hlen hs
  unfold GInv at this
  have eg : globsOf (writeAll S .init calls).lines = S.globs calls := by
    rw [globsOf_recsOf, hrecs, List.filterMap_map]
    rfl
  rw [eg] at this
  exact this

end Verif.Cali
