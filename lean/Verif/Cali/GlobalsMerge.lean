import Verif.Cali.Globals
/-!
# Globals of several streams read into one database
-/
namespace Verif.Cali
open Verif

theorem mem_replaceFirst' {α : Type} {p : α → Bool} {x y : α} {l : List α} (h : y ∈ replaceFirst p x l) : y = x ∨ y ∈ l := by
  induction l with
  | nil => cases h
  | cons z l ih =>
    unfold replaceFirst at h
    split at h
    · rcases List.mem_cons.1 h with h | h
      · exact .inl h
      · exact .inr (List.mem_cons_of_mem _ h)
    · rcases List.mem_cons.1 h with h | h
      · exact .inr (by simp [h])
      · exact (ih h).imp id (List.mem_cons_of_mem _)

theorem mem_replaceFirst_new {α : Type} {p : α → Bool} {x : α} {l : List α} (h : l.any p = true) : x ∈ replaceFirst p x l := by
  induction l with
  | nil => cases h
  | cons z l ih =>
    unfold replaceFirst
    by_cases hz : p z = true
    · simp [hz]
    · have : l.any p = true := by simpa [hz] using h
      simp [hz, ih this]

theorem mem_replaceFirst_old {α : Type} {p : α → Bool} {x y : α} {l : List α} (h : y ∈ l) : y ∈ replaceFirst p x l ∨ p y = true := by
  induction l with
  | nil => cases h
  | cons z l ih =>
    unfold replaceFirst
    by_cases hz : p z = true
    · rcases List.mem_cons.1 h with rfl | h
      · exact .inr hz
      · exact .inl (by simp [hz, h])
    · rcases List.mem_cons.1 h with rfl | h
      · exact .inl (by simp [hz])
      · rcases ih h with h | h
        · exact .inl (by simp [hz, h])
        · exact .inr h

theorem map_replaceFirst {α β : Type} {p : α → Bool} {x : α} {l : List α} (f : α → β) (h : ∀ y ∈ l, p y = true → f y = f x) :
    (replaceFirst p x l).map f = l.map f := by
  induction l with
  | nil => rfl
  | cons z l ih =>
    unfold replaceFirst
    by_cases hz : p z = true
    · simp [hz, h z (by simp) hz]
    · simp only [hz, Bool.false_eq_true, if_false, List.map_cons]
      rw [ih fun y hy => h y (List.mem_cons_of_mem _ hy)]

/-- merging global references into any globals -/
theorem merge_refs (m : IdMap) (ids : List Nat) : ∀ (db : DB),
    (∀ i ∈ ids, ∃ n, db.node? (mapId m i) = some n ∧ db.attribute? (mapId m i) = none) →
    ∃ G', ids.foldl (fun db id => db.mergeGlobalRef m id) db = { db with globals := G' } ∧
      (∀ i ∈ ids, ∃ e ∈ G', e.node = some (mapId m i)) ∧ (∀ g ∈ db.globals, g ∈ G') ∧
      (∀ e ∈ G', e ∈ db.globals ∨ ∃ i ∈ ids, e.node = some (mapId m i) ∧ ∃ n, db.node? (mapId m i) = some n ∧ e.val = n.data) ∧
      ((db.globals.map DEnt.node).Nodup → (G'.map DEnt.node).Nodup) := by
  induction ids with
  | nil => intro db _; exact ⟨db.globals, rfl, by simp, fun g h => h, fun e h => .inl h, id⟩
  | cons i ids ih =>
    intro db hn
    obtain ⟨n, hi, hia⟩ := hn i (by simp)
    rw [List.foldl_cons]
    by_cases hany : db.globals.any (fun g => db.entEq g ⟨some (mapId m i), n.data⟩) = true
    · have hstep : db.mergeGlobalRef m i = db := by simp only [DB.mergeGlobalRef, hi]; rw [if_pos hany]
      rw [hstep]
      obtain ⟨G', e, h1, h2, h3, h4⟩ := ih db (fun j hj => hn j (List.mem_cons_of_mem _ hj))
      refine ⟨G', e, ?_, h2, ?_, h4⟩
      · intro j hj
        rcases List.mem_cons.1 hj with rfl | hj
        · obtain ⟨g, hg, he⟩ := List.any_eq_true.1 hany
          refine ⟨g, h2 g hg, ?_⟩
          simp only [DB.entEq, Bool.and_eq_true, decide_eq_true_eq] at he
          exact he.1
        · exact h1 j hj
      · intro g hg
        rcases h3 g hg with h | ⟨j, hj, h⟩
        · exact .inl h
        · exact .inr ⟨j, List.mem_cons_of_mem _ hj, h⟩
    · have hstep : db.mergeGlobalRef m i = { db with globals := db.globals ++ [⟨some (mapId m i), n.data⟩] } := by
        simp only [DB.mergeGlobalRef, hi]; rw [if_neg hany]
      rw [hstep]
      obtain ⟨G', e, h1, h2, h3, h4⟩ := ih { db with globals := db.globals ++ [⟨some (mapId m i), n.data⟩] }
        (fun j hj => hn j (List.mem_cons_of_mem _ hj))
      simp only at e h2 h3 h4
      refine ⟨G', e, ?_, fun g hg => h2 g (by simp [hg]), ?_, ?_⟩
      · intro j hj
        rcases List.mem_cons.1 hj with rfl | hj
        · exact ⟨_, h2 ⟨some (mapId m j), n.data⟩ (by simp), rfl⟩
        · exact h1 j hj
      · intro g hg
        rcases h3 g hg with h | ⟨j, hj, h⟩
        · rcases List.mem_append.1 h with h | h
          · exact .inl h
          · simp only [List.mem_singleton] at h
            subst h
            exact .inr ⟨i, by simp, rfl, n, hi, rfl⟩
        · exact .inr ⟨j, List.mem_cons_of_mem _ hj, h⟩
      · intro hnd
        apply h4
        rw [List.map_append, List.nodup_append]
        refine ⟨hnd, by simp, ?_⟩
        intro a ha b hb e
        subst e
        simp only [List.map_cons, List.map_nil, List.mem_singleton] at hb
        subst hb
        obtain ⟨g, hg, hgn⟩ := List.mem_map.1 ha
        apply hany
        rw [List.any_eq_true]
        refine ⟨g, hg, ?_⟩
        simp [DB.entEq, hgn, DB.isImm, hia]

theorem entAttr_attr {db : DB} {a : Nat} {v : Val} (ha : db.attribute? a = some a) : db.entAttr ⟨some a, v⟩ = a := by
  unfold DB.entAttr
  unfold DB.attribute? at ha
  cases hn : db.nodes[a]? with
  | none => simp [hn] at ha
  | some n =>
    by_cases h8 : n.attr = 8
    · simp [hn, h8]
    · simp [hn, h8] at ha

/-- merging global values into any globals -/
theorem merge_imms (F : DblFmt) (m : IdMap) (ps : List (Nat × List Byte)) : ∀ (db : DB),
    (∀ p ∈ ps, db.attribute? (mapId m p.1) = some (mapId m p.1) ∧ db.attrProp (some (mapId m p.1)) &&& 512#32 ≠ 0#32 ∧
      db.attrProp (some (mapId m p.1)) &&& 1#32 ≠ 0#32) →
    (ps.map fun p => mapId m p.1).Nodup →
    ∃ G', ps.foldl (fun db p => db.mergeGlobalImm F m p.1 p.2) db = { db with globals := G' } ∧
      (∀ p ∈ ps, (⟨some (mapId m p.1), makeVar F (db.attrType (some (mapId m p.1))) p.2⟩ : DEnt) ∈ G') ∧
      (∀ g ∈ db.globals, g ∈ G' ∨ ∃ p ∈ ps, db.entAttr g = mapId m p.1) ∧
      (∀ e ∈ G', e ∈ db.globals ∨ ∃ p ∈ ps, e = ⟨some (mapId m p.1), makeVar F (db.attrType (some (mapId m p.1))) p.2⟩) ∧
      ((∀ g ∈ db.globals, ∀ p ∈ ps, db.entAttr g = mapId m p.1 → g.node = some (mapId m p.1)) →
        (db.globals.map DEnt.node).Nodup → (G'.map DEnt.node).Nodup) := by
  induction ps with
  | nil => intro db _ _; exact ⟨db.globals, rfl, by simp, fun g h => .inl h, fun e h => .inl h, fun _ h => h⟩
  | cons p ps ih =>
    intro db hp hnd
    obtain ⟨ha, h1, h2⟩ := hp p (by simp)
    rw [List.map_cons, List.nodup_cons] at hnd
    rw [List.foldl_cons]
    have hself := entAttr_attr (v := makeVar F (db.attrType (some (mapId m p.1))) p.2) ha
    generalize hx : (⟨some (mapId m p.1), makeVar F (db.attrType (some (mapId m p.1))) p.2⟩ : DEnt) = x at *
    obtain ⟨G1, hstep, a1, a2, a3, a4⟩ : ∃ G1, db.mergeGlobalImm F m p.1 p.2 = { db with globals := G1 } ∧ x ∈ G1 ∧
        (∀ g ∈ db.globals, g ∈ G1 ∨ db.entAttr g = mapId m p.1) ∧ (∀ e ∈ G1, e ∈ db.globals ∨ e = x) ∧
        ((∀ g ∈ db.globals, db.entAttr g = mapId m p.1 → g.node = some (mapId m p.1)) →
          (db.globals.map DEnt.node).Nodup → (G1.map DEnt.node).Nodup) := by
      by_cases hany : db.globals.any (fun e => decide (db.entAttr e = mapId m p.1)) = true
      · refine ⟨replaceFirst (fun e => decide (db.entAttr e = mapId m p.1)) x db.globals, ?_, mem_replaceFirst_new hany, ?_, ?_, ?_⟩
        · unfold DB.mergeGlobalImm DB.setGlobal
          simp only [ha]
          rw [if_neg (show ¬ db.attrProp (some (mapId m p.1)) &&& 512#32 = 0 from h1),
            if_pos (show db.attrProp (some (mapId m p.1)) &&& 1#32 ≠ 0 from h2), if_pos hany, hx]
        · intro g hg
          exact (mem_replaceFirst_old hg).imp id (by simp)
        · intro e he
          exact (mem_replaceFirst' he).symm
        · intro hs hn
          rw [map_replaceFirst]
          · exact hn
          · intro y hy hy'
            rw [hs y hy (by simpa using hy'), ← hx]
      · refine ⟨db.globals ++ [x], ?_, by simp, fun g hg => .inl (by simp [hg]), ?_, ?_⟩
        · unfold DB.mergeGlobalImm DB.setGlobal
          simp only [ha]
          rw [if_neg (show ¬ db.attrProp (some (mapId m p.1)) &&& 512#32 = 0 from h1),
            if_pos (show db.attrProp (some (mapId m p.1)) &&& 1#32 ≠ 0 from h2), if_neg hany, hx]
        · intro e he
          simpa using he
        · intro _ hn
          rw [List.map_append, List.nodup_append]
          refine ⟨hn, by simp, ?_⟩
          intro a ha' b hb e
          subst e
          simp only [List.map_cons, List.map_nil, List.mem_singleton] at hb
          subst hb
          obtain ⟨g, hg, hgn⟩ := List.mem_map.1 ha'
          apply hany
          rw [List.any_eq_true]
          refine ⟨g, hg, ?_⟩
          rw [← hx] at hgn
          obtain ⟨gn, gv⟩ := g
          simp only at hgn
          subst hgn
          simpa using entAttr_attr ha
    rw [hstep]
    obtain ⟨G', e, b1, b2, b3, b4⟩ := ih { db with globals := G1 } (fun q hq => hp q (List.mem_cons_of_mem _ hq)) hnd.2
    refine ⟨G', e, ?_, ?_, ?_, ?_⟩
    · intro q hq
      rcases List.mem_cons.1 hq with rfl | hq
      · rw [hx]
        rcases b2 x a1 with h | ⟨r, hr, h⟩
        · exact h
        · have : mapId m q.1 = mapId m r.1 := hself.symm.trans h
          exact absurd (List.mem_map.2 ⟨r, hr, this.symm⟩) hnd.1
      · exact b1 q hq
    · intro g hg
      rcases a2 g hg with h | h
      · rcases b2 g h with h | ⟨r, hr, h⟩
        · exact .inl h
        · exact .inr ⟨r, List.mem_cons_of_mem _ hr, h⟩
      · exact .inr ⟨p, by simp, h⟩
    · intro g hg
      rcases b3 g hg with h | ⟨r, hr, h⟩
      · rcases a3 g h with h | h
        · exact .inl h
        · exact .inr ⟨p, by simp, h.trans hx.symm⟩
      · exact .inr ⟨r, List.mem_cons_of_mem _ hr, h⟩
    · intro hs hn
      apply b4
      · intro g hg q hq hgq
        rcases a3 g hg with h | h
        · exact hs g h q (List.mem_cons_of_mem _ hq) hgq
        · subst h
          have : mapId m p.1 = mapId m q.1 := hself.symm.trans hgq
          exact absurd (List.mem_map.2 ⟨q, hq, this.symm⟩) hnd.1
      · exact a4 (fun g hg => hs g hg p (by simp)) hn

/-- the globals of a database: known nodes, none twice; references are not for attributes that are stored as value -/
structure DB.GlobalsOK (db : DB) : Prop where
  nodup : (db.globals.map DEnt.node).Nodup
  known : ∀ g ∈ db.globals, ∃ i n, g.node = some i ∧ db.node? i = some n ∧
    (n.attr ≠ 8 → ∃ A, Denotes db.node? n.attr A ∧ A.attrProp &&& 1#32 = 0#32)

theorem DB.GlobalsOK.ext {db db' : DB} (h : db.GlobalsOK) (hx : db.Ext db') (hg : db'.globals = db.globals) : db'.GlobalsOK := by
  refine ⟨by rw [hg]; exact h.nodup, ?_⟩
  rw [hg]
  intro g hm
  obtain ⟨i, n, h1, h2, h3⟩ := h.known g hm
  refine ⟨i, n, h1, hx.node h2, fun h8 => ?_⟩
  obtain ⟨A, a, b⟩ := h3 h8
  exact ⟨A, hx.denotes a, b⟩

/-- globals as a running program writes them (`Src.GlobOK`); references are for attributes that are not stored as value -/
structure Src.GlobOK' (S : Src) (es : List DEnt) : Prop where
  refs : ∀ i ∈ S.refsOf es, ∀ n, S.node i = some n → ∀ A, Denotes S.node n.attr A → A.attrProp &&& 1#32 = 0#32
  imms : (S.immsOf es).Pairwise fun p q => ∀ D, Denotes S.node p.1 D → ¬ Denotes S.node q.1 D
  prop : ∀ p ∈ S.immsOf es, ∀ A, Denotes S.node p.1 A → A.attrProp &&& 512#32 ≠ 0#32 ∧ A.attrProp &&& 1#32 ≠ 0#32

/-- the globals `G'` are `G` updated with the globals record `r` -/
structure Merged (S : Src) (db : DB) (r : List Nat × List (Nat × Val)) (G G' : List DEnt) : Prop where
  refs : ∀ i ∈ r.1, ∃ e ∈ G', ∃ D j, Denotes S.node i D ∧ e.node = some j ∧ Denotes db.node? j D
  imms : ∀ p ∈ r.2, ∃ e ∈ G', SameImm S db p e
  kept : ∀ g ∈ G, g ∈ G' ∨ ∃ p ∈ r.2, ∃ A j, Denotes S.node p.1 A ∧ g.node = some j ∧ Denotes db.node? j A
  only : ∀ e ∈ G', e ∈ G ∨ (∃ i ∈ r.1, SameRef S db i e) ∨ ∃ p ∈ r.2, SameImm S db p e

theorem SameRef.mono {S : Src} {db db' : DB} (h : db.Ext db') {i : Nat} {e : DEnt} (hs : SameRef S db i e) : SameRef S db' i e := by
  obtain ⟨D, n, j, k1, k2, k3, k4, k5⟩ := hs
  exact ⟨D, n, j, k1, k2, k3, h.denotes k4, k5⟩

theorem SameImm.mono {S : Src} {db db' : DB} (h : db.Ext db') {p : Nat × Val} {e : DEnt} (hs : SameImm S db p e) : SameImm S db' p e := by
  obtain ⟨A, j, k1, k2, k3, k4⟩ := hs
  exact ⟨A, j, k1, k2, h.denotes k3, k4⟩

theorem Merged.mono {S : Src} {db db' : DB} (h : db.Ext db') {r : List Nat × List (Nat × Val)} {G G' : List DEnt}
    (hs : Merged S db r G G') : Merged S db' r G G' := by
  refine ⟨?_, ?_, ?_, ?_⟩
  · intro i hi
    obtain ⟨e, he, D, j, h1, h2, h3⟩ := hs.refs i hi
    exact ⟨e, he, D, j, h1, h2, h.denotes h3⟩
  · intro p hp
    obtain ⟨e, he, h1⟩ := hs.imms p hp
    exact ⟨e, he, h1.mono h⟩
  · intro g hg
    rcases hs.kept g hg with h1 | ⟨p, hp, A, j, h1, h2, h3⟩
    · exact .inl h1
    · exact .inr ⟨p, hp, A, j, h1, h2, h.denotes h3⟩
  · intro e he
    rcases hs.only e he with h1 | ⟨i, hi, h1⟩ | ⟨p, hp, h1⟩
    · exact .inl h1
    · exact .inr (.inl ⟨i, hi, h1.mono h⟩)
    · exact .inr (.inr ⟨p, hp, h1.mono h⟩)

/-- reading a globals record -/
theorem globals_record' {F : DblFmt} {S : Src} (hS : S.Sound F) {pre : List WLine} {s s' : RState} (h : RInv S pre s)
    {es : List DEnt} (hr : S.RecOK F es) (hg : S.GlobOK' es) (hdef : Defined pre (.record .globals (S.refsOf es) (S.immsOf es)))
    (h0 : s.db.GlobalsOK)
    (hl : s.line F (parseLine ((WLine.record .globals (S.refsOf es) (S.immsOf es)).text F)) = some s') :
    s'.db.GlobalsOK ∧ Merged S s'.db (S.refsOf es, S.immsOf es) s.db.globals s'.db.globals := by
  have used : ∀ i, i < 11 ∨ i ∈ nodeIds pre → i < 12 ∨ i ∈ nodeIds pre := fun i hi => hi.imp (fun _ => by omega) fun x => x
  rw [rec_line_parsed hr] at hl
  simp only [RState.line, Option.some.injEq] at hl
  -- references
  have href : ∀ i ∈ S.refsOf es, ∃ D n, i < invN ∧ S.node i = some n ∧ Denotes S.node i D ∧ ¬ D.isOf 8 ∧
      Denotes s.db.node? (mapId s.idmap i) D := by
    intro i hi
    obtain ⟨e, he, hn, him⟩ := mem_refsOf hi
    have hs := hr.has e he i hn
    obtain ⟨n, hn'⟩ := Option.isSome_iff_exists.1 hs
    obtain ⟨D, hD⟩ := hS.denotes _ i rfl hs
    refine ⟨D, n, hS.small i n hn', hn', hD, ?_, h.means i D (used i (hdef i (List.mem_append_left _ hi))) hD⟩
    rw [hD.isOf_iff hn' 8 (by omega)]
    simpa [Src.isImm, hn'] using him
  have himm : ∀ p ∈ S.immsOf es, ∃ A, p.1 < invN ∧ Denotes S.node p.1 A ∧ A.isOf 8 ∧ p.2.ty = A.attrType ∧ Supported F p.2 ∧
      Denotes s.db.node? (mapId s.idmap p.1) A := by
    intro p hp
    obtain ⟨hsup, A, hA, hty⟩ := hr.imm p hp
    obtain ⟨e, he, hn, hv, him⟩ := mem_immsOf (i := p.1) (v := p.2) hp
    obtain ⟨n, hnn⟩ := hA.node_some
    refine ⟨A, hS.small _ _ hnn, hA, ?_, hty, hsup, h.means p.1 A (used _ (hdef p.1 (List.mem_append_right _ (List.mem_map.2 ⟨p, hp, rfl⟩)))) hA⟩
    rw [hA.isOf_iff hnn 8 (by omega)]
    simpa [Src.isImm, hnn] using him
  -- first fold
  have f1 : ((S.refsOf es).map (BitVec.ofNat 64 ·)).foldl (fun db (id : U64) => db.mergeGlobalRef s.idmap id.toNat) s.db =
      (S.refsOf es).foldl (fun db id => db.mergeGlobalRef s.idmap id) s.db := by
    rw [List.foldl_map]
    have : ∀ l : List Nat, (∀ i ∈ l, i < invN) → ∀ db : DB,
        l.foldl (fun db i => db.mergeGlobalRef s.idmap (BitVec.ofNat 64 i).toNat) db = l.foldl (fun db i => db.mergeGlobalRef s.idmap i) db := by
      intro l
      induction l with
      | nil => intro _ _; rfl
      | cons i l ih =>
        intro hlt db
        simp only [List.foldl_cons]
        rw [toNat_id (Nat.le_of_lt (hlt i (by simp))), ih fun j hj => hlt j (List.mem_cons_of_mem _ hj)]
    exact this _ (fun i hi => by obtain ⟨_, _, h1, _⟩ := href i hi; exact h1) _
  obtain ⟨G1, e1, m1, m2, m3, m4⟩ := merge_refs s.idmap (S.refsOf es) s.db
    (by intro i hi
        obtain ⟨D, n, _, _, hD, h8, hD'⟩ := href i hi
        obtain ⟨n', hn'⟩ := hD'.node_some
        refine ⟨n', hn', ?_⟩
        rcases DB.OK.attribute? hD' with h' | h'
        · exact absurd h'.2 h8
        · exact h'.1)
  -- second fold
  have f2 : ∀ db : DB, ((((S.immsOf es).map (fun p => BitVec.ofNat 64 p.1)).zip ((S.immsOf es).map fun p => word F p.2))).foldl
        (fun db (p : U64 × List Byte) => db.mergeGlobalImm F s.idmap p.1.toNat p.2) db =
      ((S.immsOf es).map fun p => (p.1, word F p.2)).foldl (fun db p => db.mergeGlobalImm F s.idmap p.1 p.2) db := by
    have : ∀ l : List (Nat × Val), (∀ p ∈ l, p.1 < invN) → ∀ db : DB,
        (((l.map (fun p => BitVec.ofNat 64 p.1)).zip (l.map fun p => word F p.2))).foldl
          (fun db (p : U64 × List Byte) => db.mergeGlobalImm F s.idmap p.1.toNat p.2) db =
        (l.map fun p => (p.1, word F p.2)).foldl (fun db p => db.mergeGlobalImm F s.idmap p.1 p.2) db := by
      intro l
      induction l with
      | nil => intro _ _; rfl
      | cons p l ih =>
        intro hlt db
        simp only [List.map_cons, List.zip_cons_cons, List.foldl_cons]
        rw [toNat_id (Nat.le_of_lt (hlt p (by simp))), ih fun j hj => hlt j (List.mem_cons_of_mem _ hj)]
    exact this _ (fun p hp => by obtain ⟨_, h1, _⟩ := himm p hp; exact h1)
  have himm' : ∀ p ∈ S.immsOf es, ∀ A, Denotes S.node p.1 A → Denotes s.db.node? (mapId s.idmap p.1) A := by
    intro p hp A hA
    obtain ⟨B, _, hB, _, _, _, hB'⟩ := himm p hp
    rw [hA.det hB]; exact hB'
  obtain ⟨G2, e2, n1, n2, n3, n4⟩ := merge_imms F s.idmap ((S.immsOf es).map fun p => (p.1, word F p.2)) { s.db with globals := G1 }
    (by intro q hq
        obtain ⟨p, hp, rfl⟩ := List.mem_map.1 hq
        obtain ⟨A, _, hA, h8, _, _, hA'⟩ := himm p hp
        obtain ⟨k1, k2⟩ := hg.prop p hp A hA
        have e : ({ s.db with globals := G1 } : DB).attrProp (some (mapId s.idmap p.1)) = A.attrProp := by
          have := h.ok.attrProp hA'
          unfold DB.attrProp at *
          exact this
        simp only
        rw [e]
        refine ⟨?_, k1, k2⟩
        rcases DB.OK.attribute? hA' with h' | h'
        · exact h'.1
        · exact absurd h8 h'.2)
    (by rw [List.map_map, List.Nodup, List.pairwise_map]
        refine List.Pairwise.imp_of_mem ?_ hg.imms
        intro p q hp hq hpq e
        obtain ⟨A, _, hA, _, _, _, hA'⟩ := himm p hp
        obtain ⟨B, _, hB, _, _, _, hB'⟩ := himm q hq
        simp only [Function.comp] at e
        rw [e] at hA'
        rw [hA'.det hB'] at hA
        exact hpq B hA hB)
  -- references are not stored as value
  have hknown1 : ∀ g ∈ G1, ∃ i n, g.node = some i ∧ s.db.node? i = some n ∧
      (n.attr ≠ 8 → ∃ A, Denotes s.db.node? n.attr A ∧ A.attrProp &&& 1#32 = 0#32) := by
    intro g hg1
    rcases m3 g hg1 with hg1 | ⟨i, hi, hgi, _⟩
    · exact h0.known g hg1
    · obtain ⟨D, n, _, hn, hD, h8, hD'⟩ := href i hi
      obtain ⟨n', hn'⟩ := hD'.node_some
      refine ⟨_, n', hgi, hn', fun _ => ?_⟩
      obtain ⟨B, hB, hB'⟩ := hD.attr hS.boot (fun i hi => h.ok.bootAt hi) hD' hn hn'
      exact ⟨B, hB', hg.refs i hi n hn B hB⟩
  have hsep : ∀ g ∈ G1, ∀ p ∈ S.immsOf es, ({ s.db with globals := G1 } : DB).entAttr g = mapId s.idmap p.1 → g.node = some (mapId s.idmap p.1) := by
    intro g hg1 p hp e
    obtain ⟨i, n, h1, h2, h3⟩ := hknown1 g hg1
    unfold DB.node? at h2
    by_cases h8 : n.attr = 8
    · have : i = mapId s.idmap p.1 := by simpa [DB.entAttr, h1, h2, h8] using e
      rw [h1, this]
    · have : n.attr = mapId s.idmap p.1 := by simpa [DB.entAttr, h1, h2, h8] using e
      obtain ⟨A, _, hA, _, _, _, hA'⟩ := himm p hp
      obtain ⟨B, hB, hB'⟩ := h3 h8
      rw [this] at hB
      rw [hB.det hA'] at hB'
      exact absurd hB' (hg.prop p hp A hA).2
  have hval : ∀ p ∈ S.immsOf es, makeVar F (({ s.db with globals := G1 } : DB).attrType (some (mapId s.idmap p.1))) (word F p.2) = p.2 := by
    intro p hp
    obtain ⟨A, _, hA, _, hty, hsup, hA'⟩ := himm p hp
    have : ({ s.db with globals := G1 } : DB).attrType (some (mapId s.idmap p.1)) = A.attrType := by
      have := h.ok.attrType hA'
      unfold DB.attrType at *
      exact this
    rw [this, ← hty]
    exact (value_textOf F p.2 hsup).2
  rw [f1, f2, e1, e2] at hl
  subst hl
  refine ⟨⟨?_, ?_⟩, ?_, ?_, ?_, ?_⟩
  · refine n4 ?_ (m4 h0.nodup)
    intro g hg1 q hq e
    obtain ⟨p, hp, rfl⟩ := List.mem_map.1 hq
    exact hsep g hg1 p hp e
  · intro g hg2
    rcases n3 g hg2 with hg2 | ⟨q, hq, rfl⟩
    · exact hknown1 g hg2
    · obtain ⟨p, hp, rfl⟩ := List.mem_map.1 hq
      obtain ⟨A, _, hA, h8, _, _, hA'⟩ := himm p hp
      obtain ⟨n', hn'⟩ := hA'.node_some
      exact ⟨_, n', rfl, hn', fun c => absurd ((hA'.isOf_iff hn' 8 (by omega)).1 h8) c⟩
  · intro i hi
    obtain ⟨e, he, hen⟩ := m1 i hi
    obtain ⟨D, n, _, hn, hD, h8, hD'⟩ := href i hi
    rcases n2 e he with he' | ⟨q, hq, hq'⟩
    · exact ⟨e, he', D, _, hD, hen, hD'⟩
    · obtain ⟨p, hp, rfl⟩ := List.mem_map.1 hq
      have := hsep e he p hp hq'
      rw [hen] at this
      simp only [Option.some.injEq] at this
      obtain ⟨A, _, hA, h8', _, _, hA'⟩ := himm p hp
      rw [← this] at hA'
      rw [hA'.det hD'] at h8'
      exact absurd h8' h8
  · intro p hp
    obtain ⟨A, _, hA, _, _, _, hA'⟩ := himm p hp
    refine ⟨_, n1 (p.1, word F p.2) (List.mem_map.2 ⟨p, hp, rfl⟩), A, _, hA, rfl, hA', hval p hp⟩
  · intro g hgm
    rcases n2 g (m2 g hgm) with h1 | ⟨q, hq, hq'⟩
    · exact .inl h1
    · obtain ⟨p, hp, rfl⟩ := List.mem_map.1 hq
      obtain ⟨A, _, hA, _, _, _, hA'⟩ := himm p hp
      exact .inr ⟨p, hp, A, _, hA, hsep g (m2 g hgm) p hp hq', hA'⟩
  · intro e he
    rcases n3 e he with he | ⟨q, hq, rfl⟩
    · rcases m3 e he with he | ⟨i, hi, hen, n', hn', hv⟩
      · exact .inl he
      · obtain ⟨D, n, _, hn, hD, h8, hD'⟩ := href i hi
        exact .inr (.inl ⟨i, hi, D, n, _, hD, hn, hen, hD', by rw [hv, hD.data hD' hn hn']⟩)
    · obtain ⟨p, hp, rfl⟩ := List.mem_map.1 hq
      obtain ⟨A, _, hA, _, _, _, hA'⟩ := himm p hp
      exact .inr (.inr ⟨p, hp, A, _, hA, rfl, hA', hval p hp⟩)

/-- globals while reading a written stream into a database with globals `G` -/
def GInv' (S : Src) (G : List DEnt) (pre : List WLine) (s : RState) : Prop :=
  s.db.GlobalsOK ∧ (globsOf pre = [] → s.db.globals = G) ∧ ∀ r, globsOf pre = [r] → Merged S s.db r G s.db.globals

/-- globals after all lines -/
theorem read_lines_globals' {F : DblFmt} {S : Src} (hS : S.Sound F) (G : List DEnt) (all : List WLine) (hnd : (nodeIds all).Nodup)
    (hnode : ∀ id n, WLine.node id n ∈ all → S.node id = some n ∧ 11 ≤ id)
    (hdef : ∀ pre l post, all = pre ++ l :: post → Defined pre l)
    (hrec : ∀ k r i, WLine.record k r i ∈ all → ∃ es, S.RecOK F es ∧ (k = .globals → S.GlobOK' es) ∧ r = S.refsOf es ∧ i = S.immsOf es) :
    ∀ (post pre : List WLine) (s s' : RState), all = pre ++ post → RInv S pre s → GInv' S G pre s →
      s.db.nodes.length + (post.map WLine.cost).sum ≤ invN →
      s.lines F (post.map fun l => parseLine (l.text F)) = some s' → GInv' S G all s' ∧ s'.db.nodes.length ≤ s.db.nodes.length + (post.map WLine.cost).sum := by
  intro post
  induction post with
  | nil =>
    intro pre s s' e h hg _ hl
    simp only [List.map_nil, RState.lines, Option.some.injEq] at hl
    subst hl
    rw [e, List.append_nil]; exact ⟨hg, by simp⟩
  | cons l post ih =>
    intro pre s s' e h hg hlen hl
    have hmem : l ∈ all := by rw [e]; simp
    have step : ∃ s1, s.line F (parseLine (l.text F)) = some s1 ∧ RInv S (pre ++ [l]) s1 ∧ GInv' S G (pre ++ [l]) s1 ∧
        s1.db.nodes.length ≤ s.db.nodes.length + l.cost := by
      cases l with
      | node id n =>
        obtain ⟨hn, h11⟩ := hnode id n hmem
        obtain ⟨s1, k1, k2, k3, -⟩ := h.node hS hn h11 (by
          intro hc
          rw [e, nodeIds_append] at hnd
          exact (List.nodup_append.1 hnd).2.2 id hc id (by simp [nodeIds]) rfl) (by
          intro i hi
          obtain ⟨m, hm⟩ := mem_nodeIds.1 hi
          obtain ⟨k1, k2⟩ := hnode i m (by rw [e]; exact List.mem_append_left _ hm)
          exact ⟨k2, hS.small i m k1⟩) (hdef _ _ _ e) (by
          simp only [List.map_cons, List.sum_cons, WLine.cost] at hlen
          omega)
        refine ⟨s1, k1, k2, ?_, k3⟩
        obtain ⟨f, hf⟩ := node_line_parsed hS hn h11
        rw [hf] at k1
        have hgl := RState.line_globals h.ok k1
        have hext := (RState.line_ok h.ok k1).2.1
        have eg : globsOf (pre ++ [.node id n]) = globsOf pre := by simp [globsOf]
        unfold GInv'
        rw [eg, hgl]
        exact ⟨hg.1.ext hext hgl, hg.2.1, fun r hr => (hg.2.2 r hr).mono hext⟩
      | record k r i =>
        obtain ⟨es, hes, hge, rfl, rfl⟩ := hrec k r i hmem
        obtain ⟨s1, k1, k2, k3⟩ := h.record hS hes (hdef _ _ _ e)
        refine ⟨s1, k1, k2, ?_, k3⟩
        cases k with
        | snapshot =>
          rw [rec_line_parsed hes] at k1
          simp only [RState.line, Option.some.injEq] at k1
          subst k1
          have eg : globsOf (pre ++ [.record .snapshot (S.refsOf es) (S.immsOf es)]) = globsOf pre := by simp [globsOf]
          unfold GInv'
          rw [eg]
          exact hg
        | globals =>
          have eg : globsOf (pre ++ [.record .globals (S.refsOf es) (S.immsOf es)]) = globsOf pre ++ [(S.refsOf es, S.immsOf es)] := by
            simp [globsOf]
          unfold GInv'
          rw [eg]
          obtain ⟨q1, q2⟩ := globals_record' hS h hes (hge rfl) (hdef _ _ _ e) hg.1 k1
          refine ⟨q1, by simp, ?_⟩
          intro r hr
          cases hp : globsOf pre with
          | cons a b => rw [hp] at hr; simp at hr
          | nil =>
            rw [hp] at hr
            simp at hr
            subst hr
            rw [hg.2.1 hp] at q2
            exact q2
    obtain ⟨s1, e1, h1, g1, l1⟩ := step
    simp only [List.map_cons, RState.lines, e1] at hl
    obtain ⟨z1, z2⟩ := ih (pre ++ [l]) s1 s' (by rw [e]; simp) h1 g1 (by
      simp only [List.map_cons, List.sum_cons] at hlen
      omega) hl
    refine ⟨z1, ?_⟩
    simp only [List.map_cons, List.sum_cons]
    omega

/-- globals after reading back a written file -/
theorem roundtrip_globals' {F : DblFmt} {S : Src} (hS : S.Sound F) (calls : List (Kind × List DEnt)) (hr : ∀ c ∈ calls, S.RecOK F c.2)
    (hg : ∀ c ∈ calls, c.1 = .globals → S.GlobOK' c.2)
    (db : DB) (hdb : db.OK) (h0 : db.GlobalsOK) (hlen : db.nodes.length + fileCost S calls ≤ invN) {s : RState}
    (hs : readCali F db (caliFile F S calls) = some s) :
    s.db.nodes.length ≤ db.nodes.length + fileCost S calls ∧ s.db.GlobalsOK ∧ (S.globs calls = [] → s.db.globals = db.globals) ∧ ∀ r, S.globs calls = [r] → Merged S s.db r db.globals s.db.globals := by
  obtain ⟨hw, hrecs⟩ := writeAll_spec S hS.acyclic calls .init (WInv.init S) fun c hc => (hr c hc).has
  have e0 : recsOf WState.init.lines = [] := rfl
  rw [e0, List.nil_append] at hrecs
  have hrec : ∀ k r i, WLine.record k r i ∈ (writeAll S .init calls).lines →
      ∃ es, S.RecOK F es ∧ (k = .globals → S.GlobOK' es) ∧ r = S.refsOf es ∧ i = S.immsOf es := by
    intro k r i hm
    have : (k, r, i) ∈ recsOf (writeAll S .init calls).lines := by
      simp only [recsOf, List.mem_filterMap]; exact ⟨_, hm, rfl⟩
    rw [hrecs] at this
    obtain ⟨c, hc, e⟩ := List.mem_map.1 this
    simp only [Prod.mk.injEq] at e
    exact ⟨c.2, hr c hc, fun h => hg c hc (e.1.trans h), e.2.1.symm, e.2.2.symm⟩
  have hids : (nodeIds (writeAll S .init calls).lines).Nodup := by rw [hw.ids]; exact hw.nodup
  have hp : parseFile (caliFile F S calls) = (writeAll S .init calls).lines.map fun l => parseLine (l.text F) := by
    unfold caliFile
    rw [parseFile_lines, List.map_map]
    · rfl
    · intro l hl
      obtain ⟨x, hx, rfl⟩ := List.mem_map.1 hl
      exact text_line hS (fun id n e => hw.lines id n (e ▸ hx)) fun k r i e => by
        obtain ⟨es, a, _, b⟩ := hrec k r i (e ▸ hx)
        exact ⟨es, a, b⟩
  rw [readCali, hp] at hs
  obtain ⟨this, hln⟩ := read_lines_globals' hS db.globals _ hids hw.lines hw.defd hrec _ [] ⟨db, [], false, []⟩ s rfl
    ⟨hdb, rfl, by simp, fun id D hi hD => by
      rcases hi with hi | hi
      · have : D = .boot id := hD.boot_iff.2 ⟨rfl, hi⟩
        subst this
        exact .boot hi (hdb.bootAt hi)
      · simp [nodeIds] at hi, .nil⟩ ⟨h0, fun _ => rfl, by simp [globsOf]⟩ hlen hs
  unfold GInv' at this
  have eg : globsOf (writeAll S .init calls).lines = S.globs calls := by
    rw [globsOf_recsOf, hrecs, List.filterMap_map]
    rfl
  rw [eg] at this
  exact ⟨hln, this⟩

end Verif.Cali
