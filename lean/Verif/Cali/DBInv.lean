import Verif.Cali.Deep
/-!
# All database operations keep the invariant and only add nodes
-/
namespace Verif.Cali
open Verif

theorem DB.OK.mergeNode {db : DB} (h : db.OK) (nid aid pid : Nat) (v : Val) :
    (db.mergeNode nid aid pid v).1.OK ∧ db.Ext (db.mergeNode nid aid pid v).1 ∧
    (db.mergeNode nid aid pid v).1.globals = db.globals ∧
    (∀ i, (db.mergeNode nid aid pid v).2 = some i → (db.mergeNode nid aid pid v).1.node? i =
      some ⟨aid, v, if pid = invN then none else some pid⟩ ∧ (db.attribute? aid).isSome ∧ (pid ≠ invN → pid < db.nodes.length) ∧ nid ≠ invN) ∧
    ((db.attribute? aid).isSome → nid ≠ invN → aid ≠ invN → v.isEmpty = false → (pid ≠ invN → pid < db.nodes.length) →
      (db.mergeNode nid aid pid v).2.isSome) ∧
    ((∃ i : Nat, db.nodes[i]? = some (⟨aid, v, if pid = invN then none else some pid⟩ : Nd)) → (db.mergeNode nid aid pid v).1 = db) := by
  unfold DB.mergeNode
  cases ha : db.attribute? aid with
  | none => simp [h, DB.Ext.refl]
  | some a =>
    simp only
    split
    · rename_i hc
      refine ⟨h, .refl db, rfl, by simp, ?_, fun _ => rfl⟩
      intro _ h1 h2 h3
      exfalso
      rcases hc with hc | hc | hc
      · exact h1 hc
      · exact h2 hc
      · rw [h3] at hc; cases hc
    · rename_i hc
      split
      · rename_i hp
        refine ⟨h, .refl db, rfl, by simp, ?_, fun _ => rfl⟩
        intro _ _ _ _ h5
        have := h5 hp.1
        omega
      · rename_i hp
        obtain ⟨b1, b2, b3, b4, b5, b6, b7, b8⟩ := h.findOrCreate aid v (if pid = invN then none else some pid) (by simp [ha])
          (by intro q hq
              split at hq
              · cases hq
              · cases hq; omega)
        have hnid : nid ≠ invN := fun e => hc (.inl e)
        have hpl : pid ≠ invN → pid < db.nodes.length := fun e => by omega
        clear hc hp
        generalize (if pid = invN then none else some pid) = q at *
        split
        · rename_i hl
          refine ⟨b1.congr rfl b1.glob, b2, b4, ?_, by simp, ?_⟩
          · intro i hi
            cases hi
            exact ⟨b3, by simp, hpl, hnid⟩
          · intro he
            exfalso
            exact hl.1 (by rw [b7 he])
        · refine ⟨b1, b2, b4, ?_, by simp, b7⟩
          intro i hi
          cases hi
          exact ⟨b3, by simp, hpl, hnid⟩

theorem DB.OK.mergeNodeMap {db : DB} (h : db.OK) {m : IdMap} {nid aid pid : Nat} {v : Val} {r : DB × IdMap × Nat}
    (hr : db.mergeNodeMap m nid aid pid v = some r) : r.1.OK ∧ db.Ext r.1 ∧ r.1.globals = db.globals := by
  unfold DB.mergeNodeMap at hr
  obtain ⟨b1, b2, b3, _⟩ := h.mergeNode nid (mapId m aid) (mapId m pid) v
  cases hm : (db.mergeNode nid (mapId m aid) (mapId m pid) v) with
  | mk db' o =>
    rw [hm] at hr b1 b2 b3
    cases o with
    | none => simp at hr
    | some i => simp at hr; subst hr; exact ⟨b1, b2, b3⟩

theorem mem_replaceFirst {α : Type} {p : α → Bool} {x y : α} {l : List α} (h : y ∈ replaceFirst p x l) : y = x ∨ y ∈ l := by
  induction l with
  | nil => simp [replaceFirst] at h
  | cons a l ih =>
    simp only [replaceFirst] at h
    split at h
    · rcases List.mem_cons.1 h with h | h
      · exact .inl h
      · exact .inr (List.mem_cons_of_mem _ h)
    · rcases List.mem_cons.1 h with h | h
      · exact .inr (by simp [h])
      · exact (ih h).imp id (List.mem_cons_of_mem _)

theorem DB.OK.attribute_lt {db : DB} {a : Nat} (ha : (db.attribute? a).isSome) : a < db.nodes.length := by
  unfold DB.attribute? at ha
  cases hh : db.nodes[a]? with
  | none => simp [hh] at ha
  | some n => exact (List.getElem?_eq_some_iff.1 hh).1

theorem DB.OK.mergeGlobalRef {db : DB} (h : db.OK) (m : IdMap) (id : Nat) :
    (db.mergeGlobalRef m id).OK ∧ db.Ext (db.mergeGlobalRef m id) := by
  unfold DB.mergeGlobalRef
  cases hn : db.node? (mapId m id) with
  | none => exact ⟨h, .refl db⟩
  | some n =>
    simp only
    split
    · exact ⟨h, .refl db⟩
    · refine ⟨h.congr rfl ?_, [], by simp⟩
      intro e he i hi
      simp only [List.mem_append, List.mem_singleton] at he
      rcases he with he | rfl
      · exact h.glob e he i hi
      · cases hi; exact (List.getElem?_eq_some_iff.1 hn).1

theorem DB.OK.setGlobal {db : DB} (h : db.OK) (a : Nat) (v : Val) (ha : (db.attribute? a).isSome) :
    (db.setGlobal a v).OK ∧ db.Ext (db.setGlobal a v) := by
  have hal := DB.OK.attribute_lt ha
  unfold DB.setGlobal
  simp only
  split
  · exact ⟨h, .refl db⟩
  · split
    · split
      · refine ⟨h.congr rfl ?_, [], by simp⟩
        intro e he i hi
        rcases mem_replaceFirst he with rfl | he
        · cases hi; exact hal
        · exact h.glob e he i hi
      · refine ⟨h.congr rfl ?_, [], by simp⟩
        intro e he i hi
        simp only [List.mem_append, List.mem_singleton] at he
        rcases he with he | rfl
        · exact h.glob e he i hi
        · cases hi; exact hal
    · split
      · exact ⟨h, .refl db⟩
      · have new : ∀ q, (∀ x, q = some x → x < db.nodes.length) →
            ({ (db.findOrCreate a v q).1 with globals := (db.findOrCreate a v q).1.globals ++ [⟨some (db.findOrCreate a v q).2, v⟩] } : DB).OK ∧
            db.Ext ({ (db.findOrCreate a v q).1 with globals := (db.findOrCreate a v q).1.globals ++ [⟨some (db.findOrCreate a v q).2, v⟩] } : DB) := by
          intro q hq
          obtain ⟨b1, b2, b3, b4, b5, b6, b7, b8⟩ := h.findOrCreate a v q ha hq
          refine ⟨b1.congr rfl ?_, b2⟩
          intro e' he' i hi
          simp only [List.mem_append, List.mem_singleton] at he'
          rcases he' with he' | rfl
          · exact b1.glob e' he' i hi
          · cases hi; exact (List.getElem?_eq_some_iff.1 b3).1
        split
        · rename_i e he
          split
          · obtain ⟨b1, b2, b3, b4, b5, b6, b7, b8⟩ := h.findOrCreate a v e.node ha
              (fun q hq => h.glob e (List.mem_of_find?_eq_some he) q hq)
            refine ⟨b1.congr rfl ?_, b2⟩
            intro e' he' i hi
            rcases mem_replaceFirst he' with rfl | he'
            · cases hi; exact (List.getElem?_eq_some_iff.1 b3).1
            · exact b1.glob e' he' i hi
          · exact new none (by simp)
        · exact new none (by simp)

theorem DB.attribute?_self {db : DB} {i a : Nat} (h : db.attribute? i = some a) : a = i := by
  unfold DB.attribute? at h
  cases hn : db.nodes[i]? with
  | none => simp [hn] at h
  | some n =>
    simp only [hn] at h
    split at h
    · cases h; rfl
    · cases h

theorem DB.OK.mergeGlobalImm {db : DB} (h : db.OK) (F : DblFmt) (m : IdMap) (id : Nat) (w : List Byte) :
    (db.mergeGlobalImm F m id w).OK ∧ db.Ext (db.mergeGlobalImm F m id w) := by
  unfold DB.mergeGlobalImm
  cases ha : db.attribute? (mapId m id) with
  | none => exact ⟨h, .refl db⟩
  | some a =>
    have := DB.attribute?_self ha
    exact h.setGlobal a _ (by rw [this]; simp [ha])

theorem foldl_ok {β : Type} (f : DB → β → DB) (hf : ∀ db b, db.OK → (f db b).OK ∧ db.Ext (f db b)) (l : List β) :
    ∀ db : DB, db.OK → (l.foldl f db).OK ∧ db.Ext (l.foldl f db) := by
  induction l with
  | nil => intro db h; exact ⟨h, .refl db⟩
  | cons b l ih =>
    intro db h
    obtain ⟨h1, h2⟩ := hf db b h
    obtain ⟨h3, h4⟩ := ih _ h1
    exact ⟨h3, h2.trans h4⟩

theorem RState.line_ok {F : DblFmt} {s s' : RState} {p : Parsed} (h : s.db.OK) (hl : s.line F p = some s') :
    s'.db.OK ∧ s.db.Ext s'.db ∧ s.recs <+: s'.recs := by
  cases p with
  | bad => simp [RState.line] at hl; subst hl; exact ⟨h, .refl _, List.prefix_rfl⟩
  | node f =>
    simp only [RState.line] at hl
    cases hm : s.db.mergeNodeText F s.idmap f.id.toNat f.attr.toNat f.parent.toNat f.data with
    | none => simp [hm] at hl
    | some r =>
      rw [hm] at hl
      simp at hl
      subst hl
      obtain ⟨a, b, _⟩ := h.mergeNodeMap hm
      exact ⟨a, b, List.prefix_rfl⟩
  | record k f =>
    cases k with
    | snapshot =>
      simp [RState.line] at hl; subst hl
      exact ⟨h, .refl _, List.prefix_append _ _⟩
    | globals =>
      simp only [RState.line, Option.some.injEq] at hl; subst hl
      obtain ⟨a, b⟩ := foldl_ok (fun db (id : U64) => db.mergeGlobalRef s.idmap id.toNat)
        (fun db b hb => hb.mergeGlobalRef s.idmap b.toNat) f.refs s.db h
      obtain ⟨c, d⟩ := foldl_ok (fun db (p : U64 × List Byte) => db.mergeGlobalImm F s.idmap p.1.toNat p.2)
        (fun db b hb => hb.mergeGlobalImm F s.idmap b.1.toNat b.2) (f.attr.zip f.data) _ a
      exact ⟨c, b.trans d, List.prefix_rfl⟩

theorem RState.lines_ok {F : DblFmt} {ps : List Parsed} : ∀ {s s' : RState}, s.db.OK → s.lines F ps = some s' →
    s'.db.OK ∧ s.db.Ext s'.db ∧ s.recs <+: s'.recs := by
  induction ps with
  | nil => intro s s' h hl; simp [RState.lines] at hl; subst hl; exact ⟨h, .refl _, List.prefix_rfl⟩
  | cons p ps ih =>
    intro s s' h hl
    simp only [RState.lines] at hl
    cases hm : s.line F p with
    | none => simp [hm] at hl
    | some s1 =>
      rw [hm] at hl
      obtain ⟨a, b, c⟩ := RState.line_ok h hm
      obtain ⟨d, e, f⟩ := ih a hl
      exact ⟨d, b.trans e, c.trans f⟩

theorem DB.OK.makeTreeEntry (l : List (Nat × Val)) : ∀ {db : DB} {p : Option Nat}, db.OK → (∀ x ∈ l, (db.attribute? x.1).isSome) →
    (∀ q, p = some q → q < db.nodes.length) →
    (db.makeTreeEntry l p).1.OK ∧ db.Ext (db.makeTreeEntry l p).1 ∧
      (∀ i, (db.makeTreeEntry l p).2 = some i → i < (db.makeTreeEntry l p).1.nodes.length) := by
  induction l with
  | nil => intro db p h _ _; exact ⟨h, .refl db, by simp [DB.makeTreeEntry]⟩
  | cons x l ih =>
    intro db p h hl hp
    obtain ⟨a, v⟩ := x
    simp only [DB.makeTreeEntry]
    split
    · exact ih h (fun y hy => hl y (List.mem_cons_of_mem _ hy)) hp
    · obtain ⟨b1, b2, b3, b4, b5, b6, b7, b8⟩ := h.findOrCreate a v p (hl (a, v) (by simp)) hp
      obtain ⟨c1, c2, c3⟩ := ih (p := some (db.findOrCreate a v p).2) b1
        (fun y hy => b2.attribute? (hl y (List.mem_cons_of_mem _ hy)))
        (by intro q hq; cases hq; exact (List.getElem?_eq_some_iff.1 b3).1)
      cases hm : ((db.findOrCreate a v p).1.makeTreeEntry l (some (db.findOrCreate a v p).2)) with
      | mk db2 o =>
        rw [hm] at c1 c2 c3
        cases o with
        | none =>
          refine ⟨c1, b2.trans c2, ?_⟩
          intro i hi
          cases hi
          have := c2.len
          have := (List.getElem?_eq_some_iff.1 b3).1
          simp only at *
          omega
        | some j => exact ⟨c1, b2.trans c2, c3⟩

theorem typeNode_lt (t : AttrType) (q : Nat) (h : typeNode t = some q) : q < 12 := by
  cases t <;> simp [typeNode] at h <;> omega

theorem DB.OK.attr_boot {db : DB} (h : db.OK) (a : Nat) (ha : a = 8 ∨ a = 9 ∨ a = 10) : (db.attribute? a).isSome := by
  unfold DB.attribute?
  rcases ha with rfl | rfl | rfl
  all_goals
    rw [h.bootAt (by omega)]
    simp [bootNodes]

theorem DB.OK.createAttribute {db : DB} (h : db.OK) (name : List Byte) (ty : AttrType) (prop : BitVec 32)
    (metas : List (Nat × Val)) (u al : Nat) (hm : ∀ x ∈ metas, (db.attribute? x.1).isSome) (hu : (db.attribute? u).isSome)
    (hal : (db.attribute? al).isSome) :
    (db.createAttribute name ty prop metas u al).1.OK ∧ db.Ext (db.createAttribute name ty prop metas u al).1 := by
  unfold DB.createAttribute
  cases hlk : lookup name db.attrs with
  | some i => exact ⟨h, .refl db⟩
  | none =>
    simp only
    -- a stage
    let Good : DB × Option Nat → Prop := fun p => p.1.OK ∧ db.Ext p.1 ∧ ∀ q, p.2 = some q → q < p.1.nodes.length
    have g0 : Good (db, typeNode ty) := ⟨h, .refl db, fun q hq => by
      have := typeNode_lt ty q hq
      have := h.len
      simp only
      omega⟩
    have stage : ∀ (p : DB × Option Nat) (l : List (Nat × Val)), Good p → (∀ x ∈ l, (db.attribute? x.1).isSome) →
        Good (p.1.makeTreeEntry l p.2) := by
      intro p l hg hl
      obtain ⟨g1, g2, g3⟩ := hg
      obtain ⟨k1, k2, k3⟩ := DB.OK.makeTreeEntry l (p := p.2) g1 (fun x hx => g2.attribute? (hl x hx)) g3
      exact ⟨k1, g2.trans k2, k3⟩
    have extra : ∀ (p : DB × Option Nat) (a : Nat) (o : Option (List Byte)), Good p → (db.attribute? a).isSome →
        Good (DB.attrExtra p a o) := by
      intro p a o hp ha
      cases o with
      | none => exact hp
      | some w => exact stage p [(a, .string w)] hp (by simp [ha])
    have fin : ∀ p : DB × Option Nat, Good p → (DB.attrFinish p name prop).1.OK ∧ db.Ext (DB.attrFinish p name prop).1 := by
      intro p hg
      obtain ⟨g1, g2, g3⟩ := hg
      obtain ⟨b1, b2, b3, -⟩ := g1.findOrCreate 10 (.int (prop.signExtend 64)) p.2 (g1.attr_boot 10 (by simp)) g3
      obtain ⟨c1, c2, c3, -⟩ := b1.findOrCreate 8 (.string name) (some (p.1.findOrCreate 10 (.int (prop.signExtend 64)) p.2).2)
        (b1.attr_boot 8 (by simp)) (by intro q hq; cases hq; exact (List.getElem?_eq_some_iff.1 b3).1)
      exact ⟨c1.congr rfl c1.glob, g2.trans (b2.trans c2)⟩
    apply fin
    refine extra _ _ _ (extra _ _ _ ?_ hu) hal
    split
    · exact g0
    · exact stage _ metas g0 hm

theorem DB.init_ok : DB.init.OK := by
  refine ⟨⟨DB.init.nodes.drop 12, by decide⟩, by decide, ?_, by decide⟩
  intro i n hi h12
  have hl : DB.init.nodes.length = 15 := by decide
  have : i < 15 := by rw [← hl]; exact (List.getElem?_eq_some_iff.1 hi).1
  have all : ∀ j, j < 15 → 12 ≤ j → ∀ n ∈ DB.init.nodes[j]?, n.attr < j ∧ (DB.init.attribute? n.attr).isSome ∧
      ∀ p ∈ n.parent, p < j := by decide +kernel
  exact all i this h12 n hi

end Verif.Cali
