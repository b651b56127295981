import Verif.Cali.MetadataSpec
import Verif.Props.CaliGlobals
import Mathlib.Data.List.Induction
/-!
# C98 Attributes and globals added to a metadata database

Model: `Verif/Cali/DB.lean`; specification: `Verif/Cali/MetadataSpec.lean`.
-/
namespace Verif.Cali
open Verif

theorem DB.OK.parent_lt {db : DB} (h : db.OK) {i p : Nat} {n : Nd} (hn : db.node? i = some n) (hp : n.parent = some p) : p < i := by
  rcases Nat.lt_or_ge i 12 with hi | hi
  · have e : bootNodes[i]? = some n := by rw [← h.bootAt hi]; exact hn
    have all : ∀ i < 12, ∀ m, bootNodes[i]? = some m → ∀ p, m.parent = some p → p < i := by
      intro i hi
      interval_cases i <;> (intro m hm; cases hm; intro p hp; cases hp <;> omega)
    exact all i hi n e p hp
  · exact (h.wf i n hn hi).2.2 p hp

theorem onPath_iff {db : DB} (h : db.OK) (a : Nat) (v : Val) : ∀ (fuel i : Nat), i < fuel →
    (onPath db.nodes a v fuel (some i) = true ↔ OnPath db.node? i a v) := by
  intro fuel
  induction fuel with
  | zero => intro i hi; omega
  | succ fuel ih =>
    intro i hi
    rw [onPath]
    cases hn : db.nodes[i]? with
    | none =>
      simp only [Bool.false_eq_true, false_iff]
      rintro ⟨j, n, h1, h2, -⟩
      cases h1 with
      | self h3 => rw [DB.node?, hn] at h3; cases h3
      | up h3 => rw [DB.node?, hn] at h3; cases h3
    | some n =>
      simp only
      split
      · rename_i hc
        simp only [true_iff]
        exact ⟨i, n, .self hn, hn, hc.2, hc.1⟩
      · rename_i hc
        cases hp : n.parent with
        | none =>
          have : onPath db.nodes a v fuel none = false := by cases fuel <;> rfl
          rw [this]
          simp only [Bool.false_eq_true, false_iff]
          rintro ⟨j, m, h1, h2, h3, h4⟩
          cases h1 with
          | self _ => rw [DB.node?, hn] at h2; cases h2; exact hc ⟨h4, h3⟩
          | up h5 h6 => rw [DB.node?, hn] at h5; cases h5; rw [hp] at h6; cases h6
        | some p =>
          have hlt := h.parent_lt (i := i) hn hp
          rw [ih p (by omega)]
          constructor
          · rintro ⟨j, m, h1, h2⟩
            exact ⟨j, m, .up hn hp h1, h2⟩
          · rintro ⟨j, m, h1, h2, h3, h4⟩
            cases h1 with
            | self _ => rw [DB.node?, hn] at h2; cases h2; exact absurd ⟨h4, h3⟩ hc
            | up h5 h6 h7 =>
              rw [DB.node?, hn] at h5; cases h5
              rw [hp] at h6; cases h6
              exact ⟨j, m, h7, h2, h3, h4⟩

theorem above_ext {db db' : DB} (hx : db.Ext db') {i j : Nat} (h : Above db.node? i j) : Above db'.node? i j := by
  induction h with
  | self h1 => exact .self (hx.node h1)
  | up h1 h2 _ ih => exact .up (hx.node h1) h2 ih

theorem node_ext_iff {db db' : DB} (hx : db.Ext db') {i : Nat} (hi : i < db.nodes.length) : db'.node? i = db.node? i := by
  obtain ⟨more, e⟩ := hx
  simp only [DB.node?, e, List.getElem?_append_left hi]

theorem onPath_ext {db db' : DB} (h : db.OK) (hx : db.Ext db') {i a : Nat} {v : Val} (hi : i < db.nodes.length) :
    OnPath db'.node? i a v ↔ OnPath db.node? i a v := by
  constructor
  · rintro ⟨j, n, h1, h2, h3⟩
    induction h1 with
    | @self i m h4 => exact ⟨i, n, .self ((node_ext_iff hx hi).symm.trans h4), (node_ext_iff hx hi).symm.trans h2, h3⟩
    | @up i p j m h4 h5 _ ih =>
      have h4' : db.node? i = some m := (node_ext_iff hx hi).symm.trans h4
      obtain ⟨j', n', k1, k2⟩ := ih (by have := h.parent_lt h4' h5; omega) h2
      exact ⟨j', n', .up h4' h5 k1, k2⟩
  · rintro ⟨j, n, h1, h2, h3⟩
    exact ⟨j, n, above_ext hx h1, hx.node h2, h3⟩

theorem attribute_ext {db db' : DB} (hx : db.Ext db') {i : Nat} (hi : i < db.nodes.length) : db'.attribute? i = db.attribute? i := by
  have := node_ext_iff hx hi
  simp only [DB.node?] at this
  simp only [DB.attribute?, this]

theorem attrProp_ext {db db' : DB} (h : db.OK) (h' : db'.OK) (hx : db.Ext db') {a : Nat} (ha : a < db.nodes.length) :
    db'.attrProp (some a) = db.attrProp (some a) := by
  obtain ⟨D, hD⟩ := h.denotes a ha
  rw [h.attrProp hD, h'.attrProp (hx.denotes hD)]

theorem hasGlobal_ext {db db' : DB} (h : db.OK) (hx : db.Ext db') (hg : db'.globals = db.globals) (a : Nat) (v : Val) :
    HasGlobal db' a v ↔ HasGlobal db a v := by
  unfold HasGlobal
  rw [hg]
  refine exists_congr fun e => and_congr_right fun he => exists_congr fun i => and_congr_right fun hi => ?_
  have hl := h.glob e he i hi
  rw [attribute_ext hx hl, onPath_ext h hx hl]

/-! ## lists -/

theorem replaceFirst_first {α : Type} {p : α → Bool} {x e y : α} {l : List α} (hf : l.find? p = some e) (hy : y ∈ l) :
    y ∈ replaceFirst p x l ∨ y = e := by
  induction l with
  | nil => cases hy
  | cons z l ih =>
    rw [List.find?_cons] at hf
    rw [replaceFirst]
    cases hp : p z with
    | true =>
      rw [hp] at hf; cases hf
      rw [if_pos rfl]
      rcases List.mem_cons.1 hy with rfl | hy
      · exact .inr rfl
      · exact .inl (List.mem_cons_of_mem _ hy)
    | false =>
      rw [hp] at hf
      rw [if_neg (by simp)]
      rcases List.mem_cons.1 hy with rfl | hy
      · exact .inl (by simp)
      · exact (ih hf hy).imp (List.mem_cons_of_mem _) id

theorem replaceFirst_nodup {α β : Type} {p : α → Bool} {x : α} {l : List α} (f : α → β) (h : (l.map f).Nodup) (hx : f x ∉ l.map f) :
    ((replaceFirst p x l).map f).Nodup := by
  induction l with
  | nil => exact h
  | cons z l ih =>
    simp only [List.map_cons, List.nodup_cons, List.mem_cons, not_or] at h hx
    rw [replaceFirst]
    split
    · simp only [List.map_cons, List.nodup_cons]
      exact ⟨hx.2, h.2⟩
    · simp only [List.map_cons, List.nodup_cons]
      refine ⟨?_, ih h.2 hx.2⟩
      intro hm
      obtain ⟨y, hy, e⟩ := List.mem_map.1 hm
      rcases mem_replaceFirst hy with rfl | hy
      · exact hx.1 e
      · exact h.1 (e ▸ List.mem_map_of_mem hy)

theorem replaceFirst_unique {α β : Type} {p : α → Bool} {x y : α} {l : List α} (f : α → β) (b : β) (hp : ∀ z ∈ l, p z = true ↔ f z = b)
    (h : (l.map f).Nodup) (hy : y ∈ replaceFirst p x l) : y = x ∨ (y ∈ l ∧ f y ≠ b) := by
  induction l with
  | nil => cases hy
  | cons z l ih =>
    simp only [List.map_cons, List.nodup_cons] at h
    rw [replaceFirst] at hy
    split at hy
    · rename_i hz
      rcases List.mem_cons.1 hy with rfl | hy
      · exact .inl rfl
      · refine .inr ⟨List.mem_cons_of_mem _ hy, fun e => h.1 ?_⟩
        rw [(hp z (by simp)).1 hz, ← e]
        exact List.mem_map_of_mem hy
    · rename_i hz
      rcases List.mem_cons.1 hy with rfl | hy
      · exact .inr ⟨by simp, fun e => hz ((hp y (by simp)).2 e)⟩
      · exact (ih (fun z hz => hp z (List.mem_cons_of_mem _ hz)) h.2 hy).imp id fun ⟨h1, h2⟩ => ⟨List.mem_cons_of_mem _ h1, h2⟩

theorem lastSet_snoc (sets : List (Nat × Val)) (a b : Nat) (v : Val) : lastSet (sets ++ [(a, v)]) b = if a = b then some v else lastSet sets b := by
  unfold lastSet
  rw [List.reverse_append, List.reverse_singleton, List.singleton_append, List.find?_cons]
  by_cases h : a = b <;> simp [h]

theorem lastSet_mem {sets : List (Nat × Val)} {a : Nat} {v : Val} (h : lastSet sets a = some v) : ∃ s ∈ sets, s.1 = a := by
  unfold lastSet at h
  cases hf : sets.reverse.find? (fun s => decide (s.1 = a)) with
  | none => rw [hf] at h; cases h
  | some s =>
    have := List.find?_some hf
    exact ⟨s, by simpa using List.mem_of_find?_eq_some hf, by simpa using this⟩

/-! ## globals -/

/-- the database after the calls `done` -/
structure GS (db0 db : DB) (done : List (Nat × Val)) : Prop where
  ok : db.OK
  ext : db0.Ext db
  ent : ∀ e ∈ db.globals, ∃ i, e.node = some i ∧
    ((db.attribute? i = some i ∧ i < db0.nodes.length ∧ AsValue db0 i ∧ IsGlobal db0 i ∧ lastSet done i = some e.val) ∨
      (db.attribute? i = none ∧ ∀ a v, OnPath db.node? i a v → (a, v) ∈ done ∧ IsGlobal db0 a ∧ ¬ AsValue db0 a))
  nd : (db.globals.map DEnt.node).Nodup
  all : ∀ a v, Wanted db0 done a v → HasGlobal db a v

theorem GS.only {db0 db : DB} {done : List (Nat × Val)} (h : GS db0 db done) {a : Nat} {v : Val} (hg : HasGlobal db a v) : Wanted db0 done a v := by
  obtain ⟨e, he, i, h1, h2⟩ := hg
  obtain ⟨j, k1, k2⟩ := h.ent e he
  rw [h1] at k1; cases k1
  rcases h2 with ⟨h2, h3⟩ | ⟨h2, h3⟩
  · have := DB.attribute?_self h2
    subst this
    rcases k2 with ⟨k2, k3, k4, k5, k6⟩ | ⟨k2, -⟩
    · exact ⟨k5, .inl ⟨k4, by rw [k6, h3]⟩⟩
    · rw [k2] at h2; cases h2
  · rcases k2 with ⟨k2, -⟩ | ⟨k2, k3⟩
    · rw [k2] at h2; cases h2
    · obtain ⟨m1, m2, m3⟩ := k3 a v h3
      exact ⟨m2, .inr ⟨m3, m1⟩⟩

theorem not_global_name {db : DB} (h : db.OK) : ¬ IsGlobal db 8 := by
  have hd : Denotes db.node? 8 (.boot 8) := .boot (by omega) (h.bootAt (by omega))
  unfold IsGlobal
  rw [h.attrProp hd]
  decide

theorem wanted_snoc_ne {db0 : DB} {done : List (Nat × Val)} {a b : Nat} {v w : Val} (hw : Wanted db0 (done ++ [(a, v)]) b w) (hne : a ≠ b) :
    Wanted db0 done b w := by
  obtain ⟨h1, h2⟩ := hw
  refine ⟨h1, h2.imp (fun ⟨x, y⟩ => ⟨x, by rwa [lastSet_snoc, if_neg hne] at y⟩) fun ⟨x, y⟩ => ⟨x, ?_⟩⟩
  rcases List.mem_append.1 y with y | y
  · exact y
  · simp only [List.mem_singleton, Prod.mk.injEq] at y
    exact absurd y.1.symm hne

theorem GS.entAttr {db0 db : DB} {done : List (Nat × Val)} (h : GS db0 db done) {a : Nat} (hv : AsValue db0 a) (ha : db.attribute? a = some a) {e : DEnt} (he : e ∈ db.globals) :
    db.entAttr e = a ↔ e.node = some a := by
  obtain ⟨i, k1, k2⟩ := h.ent e he
  have hi := h.ok.glob e he i k1
  obtain ⟨n, hn⟩ : ∃ n, db.nodes[i]? = some n := ⟨_, List.getElem?_eq_getElem hi⟩
  unfold DB.entAttr
  simp only [k1, hn, Option.some.injEq]
  unfold DB.attribute? at k2
  rw [hn] at k2
  simp only at k2
  by_cases h8 : n.attr = 8
  · rw [if_pos h8]
  · rw [if_neg h8] at k2 ⊢
    rcases k2 with ⟨k2, -⟩ | ⟨-, k3⟩
    · cases k2
    · have := (k3 n.attr n.data ⟨i, n, .self hn, hn, rfl, rfl⟩).2.2
      constructor
      · rintro rfl; exact absurd hv this
      · rintro rfl
        unfold DB.attribute? at ha
        rw [hn] at ha
        simp only [if_neg h8] at ha
        cases ha

theorem GS.new {db0 db : DB} {done : List (Nat × Val)} (h : GS db0 db done) {a : Nat} {v : Val} (ha : db.attribute? a = some a)
    (hg : IsGlobal db0 a) (hr : ¬ AsValue db0 a) (hno : ∀ e ∈ db.globals, ∀ i, e.node = some i → ¬ OnPath db.node? i a v)
    (h8 : a ≠ 8) (q : Option Nat) (hq : ∀ j, q = some j → ∃ e ∈ db.globals, e.node = some j ∧ db.attribute? j = none)
    (gl : List DEnt)
    (hmem : ∀ y ∈ gl, y = ⟨some (db.findOrCreate a v q).2, v⟩ ∨ y ∈ db.globals)
    (hnew : (⟨some (db.findOrCreate a v q).2, v⟩ : DEnt) ∈ gl)
    (hold : ∀ y ∈ db.globals, y ∈ gl ∨ ∃ j, q = some j ∧ y.node = some j)
    (hnd : some (db.findOrCreate a v q).2 ∉ db.globals.map DEnt.node → (gl.map DEnt.node).Nodup) :
    GS db0 { (db.findOrCreate a v q).1 with globals := gl } (done ++ [(a, v)]) := by
  have hql : ∀ j, q = some j → j < db.nodes.length := by
    intro j hj
    obtain ⟨e, he, h1, -⟩ := hq j hj
    exact h.ok.glob e he j h1
  obtain ⟨b1, b2, b3, b4, -⟩ := h.ok.findOrCreate a v q (by simp [ha]) hql
  generalize hi' : (db.findOrCreate a v q).2 = i' at *
  generalize hdb' : (db.findOrCreate a v q).1 = db' at *
  have hx : db.Ext { db' with globals := gl } := b2
  have hnode : ∀ i, ({ db' with globals := gl } : DB).node? i = db'.node? i := fun _ => rfl
  have hatt : ∀ i, ({ db' with globals := gl } : DB).attribute? i = db'.attribute? i := fun _ => rfl
  have hil : i' < db'.nodes.length := (List.getElem?_eq_some_iff.1 b3).1
  -- the new node
  have hatt' : db'.attribute? i' = none := by
    unfold DB.attribute?
    rw [show db'.nodes[i']? = _ from b3]
    simp [h8]
  have hpath : ∀ b w, OnPath db'.node? i' b w ↔ ((b = a ∧ w = v) ∨ ∃ j, q = some j ∧ OnPath db.node? j b w) := by
    intro b w
    constructor
    · rintro ⟨j, n, h1, h2, h3, h4⟩
      cases h1 with
      | self _ => rw [b3] at h2; cases h2; exact .inl ⟨h3.symm, h4.symm⟩
      | @up _ p _ m h5 h6 h7 =>
        rw [b3] at h5; cases h5
        exact .inr ⟨p, h6, (onPath_ext h.ok b2 (hql p h6)).1 ⟨j, n, h7, h2, h3, h4⟩⟩
    · rintro (⟨rfl, rfl⟩ | ⟨j, hj, h1⟩)
      · exact ⟨i', _, .self b3, b3, rfl, rfl⟩
      · obtain ⟨k, n, k1, k2⟩ := (onPath_ext h.ok b2 (hql j hj)).2 h1
        exact ⟨k, n, .up b3 hj k1, k2⟩
  have hfresh : some i' ∉ db.globals.map DEnt.node := by
    intro hm
    obtain ⟨e, he, h1⟩ := List.mem_map.1 hm
    have hlt := h.ok.glob e he i' h1
    have hn : db.node? i' = some ⟨a, v, q⟩ := by rw [← node_ext_iff b2 hlt]; exact b3
    exact hno e he i' h1 ⟨i', ⟨a, v, q⟩, .self hn, hn, rfl, rfl⟩
  have hgl : ∀ e ∈ gl, ∀ i, e.node = some i → i < db'.nodes.length := by
    intro e he i hi
    rcases hmem e he with rfl | he
    · cases hi; exact hil
    · exact Nat.lt_of_lt_of_le (h.ok.glob e he i hi) b2.len
  refine ⟨b1.congr rfl hgl, h.ext.trans b2, ?_, hnd hfresh, ?_⟩
  · intro e he
    rcases hmem e he with rfl | he
    · refine ⟨i', rfl, .inr ⟨hatt', ?_⟩⟩
      intro b w hp
      rcases (hpath b w).1 hp with ⟨rfl, rfl⟩ | ⟨j, hj, h1⟩
      · exact ⟨by simp, hg, hr⟩
      · obtain ⟨e2, he2, k1, k2⟩ := hq j hj
        obtain ⟨i2, m1, m2⟩ := h.ent e2 he2
        rw [k1] at m1; cases m1
        rcases m2 with ⟨m2, -⟩ | ⟨-, m3⟩
        · rw [k2] at m2; cases m2
        · obtain ⟨n1, n2⟩ := m3 b w h1
          exact ⟨List.mem_append_left _ n1, n2⟩
    · obtain ⟨i, k1, k2⟩ := h.ent e he
      have hlt := h.ok.glob e he i k1
      refine ⟨i, k1, k2.imp ?_ ?_⟩
      · rintro ⟨m1, m2, m3, m4, m5⟩
        refine ⟨(attribute_ext hx hlt).trans m1, m2, m3, m4, ?_⟩
        rw [lastSet_snoc, if_neg]
        · exact m5
        · rintro rfl; exact hr m3
      · rintro ⟨m1, m2⟩
        refine ⟨(attribute_ext hx hlt).trans m1, fun b w hp => ?_⟩
        obtain ⟨n1, n2⟩ := m2 b w ((onPath_ext h.ok b2 hlt).1 hp)
        exact ⟨List.mem_append_left _ n1, n2⟩
  · intro b w hw
    have old : HasGlobal db b w → HasGlobal { db' with globals := gl } b w := by
      rintro ⟨e, he, i, h1, h2⟩
      have hlt := h.ok.glob e he i h1
      rcases hold e he with hm | ⟨j, hj, hy⟩
      · refine ⟨e, hm, i, h1, h2.imp ?_ ?_⟩
        · rintro ⟨m1, m2⟩; exact ⟨(attribute_ext hx hlt).trans m1, m2⟩
        · rintro ⟨m1, m2⟩; exact ⟨(attribute_ext hx hlt).trans m1, (onPath_ext h.ok b2 hlt).2 m2⟩
      · obtain ⟨e2, he2, k1, k2⟩ := hq j hj
        rw [h1] at hy; cases hy
        rcases h2 with ⟨h2, -⟩ | ⟨-, h2⟩
        · rw [k2] at h2; cases h2
        · exact ⟨_, hnew, i', rfl, .inr ⟨hatt', (hpath b w).2 (.inr ⟨_, hj, h2⟩)⟩⟩
    by_cases e : a = b
    · subst e
      rcases hw.2 with ⟨m1, -⟩ | ⟨m1, m2⟩
      · exact absurd m1 hr
      · rcases List.mem_append.1 m2 with m2 | m2
        · exact old (h.all _ _ ⟨hg, .inr ⟨m1, m2⟩⟩)
        · simp only [List.mem_singleton, Prod.mk.injEq] at m2
          obtain ⟨-, rfl⟩ := m2
          exact ⟨_, hnew, i', rfl, .inr ⟨hatt', (hpath a w).2 (.inl ⟨rfl, rfl⟩)⟩⟩
    · exact old (h.all _ _ (wanted_snoc_ne hw e))

/-- one call -/
theorem GS.set {db0 db : DB} {done : List (Nat × Val)} (h0 : db0.OK) (h : GS db0 db done) (a : Nat) (v : Val) (ha0 : (db0.attribute? a).isSome)
    (hm : ∀ s ∈ done, ¬ IsMetadataOf db0 a s.1) : GS db0 (db.setGlobal a v) (done ++ [(a, v)]) := by
  have hal : a < db0.nodes.length := DB.OK.attribute_lt ha0
  have hal' : a < db.nodes.length := Nat.lt_of_lt_of_le hal h.ext.len
  have ha : db.attribute? a = some a := by
    rw [attribute_ext h.ext hal]
    obtain ⟨b, hb⟩ := Option.isSome_iff_exists.1 ha0
    rw [hb, DB.attribute?_self hb]
  have hprop : db.attrProp (some a) = db0.attrProp (some a) := attrProp_ext h0 h.ok h.ext hal
  unfold DB.setGlobal
  simp only
  rw [hprop]
  by_cases hg : db0.attrProp (some a) &&& 512#32 = 0
  · rw [if_pos hg]
    refine ⟨h.ok, h.ext, ?_, h.nd, ?_⟩
    · intro e he
      obtain ⟨i, k1, k2⟩ := h.ent e he
      refine ⟨i, k1, k2.imp ?_ ?_⟩
      · rintro ⟨m1, m2, m3, m4, m5⟩
        refine ⟨m1, m2, m3, m4, ?_⟩
        rw [lastSet_snoc, if_neg]
        · exact m5
        · rintro rfl; exact m4 hg
      · rintro ⟨m1, m2⟩
        exact ⟨m1, fun b w hp => ⟨List.mem_append_left _ (m2 b w hp).1, (m2 b w hp).2⟩⟩
    · intro b w hw
      refine h.all b w (wanted_snoc_ne hw ?_)
      rintro rfl; exact hw.1 hg
  · rw [if_neg hg]
    by_cases hv : db0.attrProp (some a) &&& 1#32 ≠ 0
    · rw [if_pos hv]
      have hent := fun e (he : e ∈ db.globals) => h.entAttr (a := a) hv ha he
      -- entries other than that of the attribute stay
      have keep : ∀ e ∈ db.globals, e.node ≠ some a → ∃ i, e.node = some i ∧
          ((db.attribute? i = some i ∧ i < db0.nodes.length ∧ AsValue db0 i ∧ IsGlobal db0 i ∧ lastSet (done ++ [(a, v)]) i = some e.val) ∨
            (db.attribute? i = none ∧ ∀ b w, OnPath db.node? i b w → (b, w) ∈ done ++ [(a, v)] ∧ IsGlobal db0 b ∧ ¬ AsValue db0 b)) := by
        intro e he hne
        obtain ⟨i, k1, k2⟩ := h.ent e he
        refine ⟨i, k1, k2.imp ?_ ?_⟩
        · rintro ⟨m1, m2, m3, m4, m5⟩
          refine ⟨m1, m2, m3, m4, ?_⟩
          rw [lastSet_snoc, if_neg]
          · exact m5
          · rintro rfl; exact hne k1
        · rintro ⟨m1, m2⟩
          exact ⟨m1, fun b w hp => ⟨List.mem_append_left _ (m2 b w hp).1, (m2 b w hp).2⟩⟩
      have hnew : ∃ i, (⟨some a, v⟩ : DEnt).node = some i ∧
          ((db.attribute? i = some i ∧ i < db0.nodes.length ∧ AsValue db0 i ∧ IsGlobal db0 i ∧ lastSet (done ++ [(a, v)]) i = some (⟨some a, v⟩ : DEnt).val) ∨
            (db.attribute? i = none ∧ ∀ b w, OnPath db.node? i b w → (b, w) ∈ done ++ [(a, v)] ∧ IsGlobal db0 b ∧ ¬ AsValue db0 b)) :=
        ⟨a, rfl, .inl ⟨ha, hal, hv, hg, by rw [lastSet_snoc, if_pos rfl]⟩⟩
      have fin : ∀ gl : List DEnt, (∀ y ∈ gl, y = ⟨some a, v⟩ ∨ (y ∈ db.globals ∧ y.node ≠ some a)) → (⟨some a, v⟩ : DEnt) ∈ gl →
          (∀ y ∈ db.globals, y.node ≠ some a → y ∈ gl) → (gl.map DEnt.node).Nodup → GS db0 { db with globals := gl } (done ++ [(a, v)]) := by
        intro gl g1 g2 g3 g4
        refine ⟨h.ok.congr rfl ?_, h.ext, ?_, g4, ?_⟩
        · intro e he i hi
          rcases g1 e he with rfl | ⟨he, -⟩
          · cases hi; exact hal'
          · exact h.ok.glob e he i hi
        · intro e he
          rcases g1 e he with rfl | ⟨he, hne⟩
          · exact hnew
          · exact keep e he hne
        · intro b w hw
          by_cases e : a = b
          · subst e
            rcases hw.2 with ⟨-, m2⟩ | ⟨m1, -⟩
            · rw [lastSet_snoc, if_pos rfl] at m2
              cases m2
              exact ⟨_, g2, a, rfl, .inl ⟨ha, rfl⟩⟩
            · exact absurd hv m1
          · obtain ⟨y, hy, i, h1, h2⟩ := h.all b w (wanted_snoc_ne hw e)
            refine ⟨y, g3 y hy ?_, i, h1, h2⟩
            intro hya
            rw [h1] at hya; cases hya
            rcases h2 with ⟨h2, -⟩ | ⟨h2, -⟩
            · rw [ha] at h2; cases h2; exact e rfl
            · rw [ha] at h2; cases h2
      by_cases hany : db.globals.any (fun e => decide (db.entAttr e = a)) = true
      · rw [if_pos hany]
        refine fin _ ?_ (mem_replaceFirst_new hany) ?_ ?_
        · intro y hy
          exact replaceFirst_unique DEnt.node (some a) (fun z hz => by rw [decide_eq_true_iff]; exact hent z hz) h.nd hy
        · intro y hy hne
          rcases mem_replaceFirst_old (p := fun e => decide (db.entAttr e = a)) (x := ⟨some a, v⟩) hy with hy' | hy'
          · exact hy'
          · exact absurd ((hent y hy).1 (by simpa using hy')) hne
        · rw [map_replaceFirst DEnt.node (fun y hy hp => (hent y hy).1 (by simpa using hp))]
          exact h.nd
      · rw [if_neg hany]
        have hno : ∀ y ∈ db.globals, y.node ≠ some a := by
          intro y hy e
          exact hany (List.any_eq_true.2 ⟨y, hy, by simpa using (hent y hy).2 e⟩)
        refine fin _ ?_ (by simp) (fun y hy _ => by simp [hy]) ?_
        · intro y hy
          rcases List.mem_append.1 hy with hy | hy
          · exact .inr ⟨hy, hno y hy⟩
          · exact .inl (by simpa using hy)
        · rw [List.map_append]
          refine List.nodup_append.2 ⟨h.nd, by simp, ?_⟩
          intro x hx y hy
          obtain ⟨z, hz, rfl⟩ := List.mem_map.1 hx
          simp only [List.map_cons, List.map_nil, List.mem_singleton] at hy
          subst hy
          exact hno z hz
    · rw [if_neg hv]
      by_cases hany : db.globals.any (fun e => onPath db.nodes a v (db.nodes.length + 1) e.node) = true
      · rw [if_pos hany]
        obtain ⟨e, he, hp⟩ := List.any_eq_true.1 hany
        have hhas : HasGlobal db a v := by
          obtain ⟨i, k1, k2⟩ := h.ent e he
          rw [k1] at hp
          have hlt := h.ok.glob e he i k1
          have hp' := (onPath_iff h.ok a v _ i (by omega)).1 hp
          rcases k2 with ⟨m1, m2, m3, m4, m5⟩ | ⟨m1, -⟩
          · obtain ⟨s, hs, rfl⟩ := lastSet_mem m5
            exact absurd ⟨v, (onPath_ext h0 h.ext m2).1 hp'⟩ (hm s hs)
          · exact ⟨e, he, i, k1, .inr ⟨m1, hp'⟩⟩
        refine ⟨h.ok, h.ext, ?_, h.nd, ?_⟩
        · intro e he
          obtain ⟨i, k1, k2⟩ := h.ent e he
          refine ⟨i, k1, k2.imp ?_ ?_⟩
          · rintro ⟨m1, m2, m3, m4, m5⟩
            refine ⟨m1, m2, m3, m4, ?_⟩
            rw [lastSet_snoc, if_neg]
            · exact m5
            · rintro rfl; exact hv m3
          · rintro ⟨m1, m2⟩
            exact ⟨m1, fun b w hp => ⟨List.mem_append_left _ (m2 b w hp).1, (m2 b w hp).2⟩⟩
        · intro b w hw
          by_cases e : a = b
          · subst e
            rcases hw.2 with ⟨m1, -⟩ | ⟨m1, m2⟩
            · exact absurd m1 hv
            · rcases List.mem_append.1 m2 with m2 | m2
              · exact h.all _ _ ⟨hg, .inr ⟨m1, m2⟩⟩
              · simp only [List.mem_singleton, Prod.mk.injEq] at m2
                obtain ⟨-, rfl⟩ := m2
                exact hhas
          · exact h.all _ _ (wanted_snoc_ne hw e)
      · rw [if_neg hany]
        have hno : ∀ e ∈ db.globals, ∀ i, e.node = some i → ¬ OnPath db.node? i a v := by
          intro e he i hi hp
          have hlt := h.ok.glob e he i hi
          exact hany (List.any_eq_true.2 ⟨e, he, by rw [hi]; exact (onPath_iff h.ok a v _ i (by omega)).2 hp⟩)
        have h8 : a ≠ 8 := by
          rintro rfl
          exact not_global_name h0 hg
        have fresh : GS db0 { (db.findOrCreate a v none).1 with globals := (db.findOrCreate a v none).1.globals ++ [⟨some (db.findOrCreate a v none).2, v⟩] }
            (done ++ [(a, v)]) := by
          have hgl : (db.findOrCreate a v none).1.globals = db.globals := (h.ok.findOrCreate a v none (by simp [ha]) (by simp)).2.2.2.1
          rw [hgl]
          refine h.new ha hg hv hno h8 none (by simp) _ ?_ (by simp) (fun y hy => .inl (by simp [hy])) ?_
          · intro y hy
            rcases List.mem_append.1 hy with hy | hy
            · exact .inr hy
            · exact .inl (by simpa using hy)
          · intro hf
            rw [List.map_append]
            refine List.nodup_append.2 ⟨h.nd, by simp, ?_⟩
            intro x hx y hy
            simp only [List.map_cons, List.map_nil, List.mem_singleton] at hy
            subst hy
            rintro rfl
            exact hf hx
        split
        · rename_i e he
          have hmem := List.mem_of_find?_eq_some he
          have hp := List.find?_some he
          obtain ⟨i, k1, k2⟩ := h.ent e hmem
          have hnone : db.attribute? i = none := by
            simp only [DB.isImm, k1, Bool.and_eq_true, Bool.not_eq_true', Option.isSome_some, true_and] at hp
            cases hh : db.attribute? i with
            | none => rfl
            | some x => rw [hh] at hp; simp at hp
          split
          · have hgl : (db.findOrCreate a v e.node).1.globals = db.globals :=
              (h.ok.findOrCreate a v e.node (by simp [ha]) (fun j hj => h.ok.glob e hmem j hj)).2.2.2.1
            rw [hgl]
            refine h.new ha hg hv hno h8 e.node ?_ _ (fun y hy => mem_replaceFirst hy)
              (mem_replaceFirst_new (List.any_eq_true.2 ⟨e, hmem, hp⟩)) ?_ (fun hf => replaceFirst_nodup DEnt.node h.nd hf)
            · intro j hj
              rw [k1] at hj; cases hj
              exact ⟨e, hmem, k1, hnone⟩
            · intro y hy
              rcases replaceFirst_first he hy with hy | rfl
              · exact .inl hy
              · exact .inr ⟨i, k1, k1⟩
          · exact fresh
        · exact fresh

/-- a sequence of `set_global` calls -/
def DB.setGlobals (db : DB) (sets : List (Nat × Val)) : DB := sets.foldl (fun db s => db.setGlobal s.1 s.2) db

/-- **C98** (globals; partial: no attribute that is set is metadata of another one): in every database a program can have, without globals
so far, after every sequence of `set_global` calls with any attributes and values, the globals have, for every attribute marked as global
and stored as value, exactly the last value set, for every other attribute marked as global exactly the values set, and for no
other attribute any value. -/
theorem C98_globals_partial (F : DblFmt) (db : DB) (hdb : Reachable F db) (h0 : db.globals = []) (sets : List (Nat × Val))
    (ha : ∀ s ∈ sets, (db.attribute? s.1).isSome) (hm : ∀ s ∈ sets, ∀ t ∈ sets, ¬ IsMetadataOf db t.1 s.1) (a : Nat) (v : Val) :
    HasGlobal (db.setGlobals sets) a v ↔ Wanted db sets a v := by
  have key : GS db (db.setGlobals sets) sets := by
    induction sets using List.reverseRecOn with
    | nil =>
      refine ⟨hdb.ok, .refl db, by simp [DB.setGlobals, h0], by simp [DB.setGlobals, h0], ?_⟩
      rintro b w ⟨-, ⟨-, h⟩ | ⟨-, h⟩⟩
      · cases h
      · cases h
    | append_singleton l s ih =>
      have := ih (fun x hx => ha x (by simp [hx])) (fun x hx y hy => hm x (by simp [hx]) y (by simp [hy]))
      have k := this.set hdb.ok s.1 s.2 (ha s (by simp)) (fun x hx => hm x (by simp [hx]) s (by simp))
      simpa [DB.setGlobals] using k
  exact ⟨key.only, key.all a v⟩

/-! ## attributes -/

/-- a stage of the construction of the metadata path: the nodes so far stand for type `ty` and the metadata `M` -/
structure Stage (db : DB) (ty : AttrType) (M : List (Nat × Val)) (q : DB × Option Nat) : Prop where
  ok : q.1.OK
  ext : db.Ext q.1
  top : (q.2 = none ∧ ty = .inv ∧ M = []) ∨ ∃ j D, q.2 = some j ∧ Denotes q.1.node? j D ∧ ((D.up 9).map Val.toAttrType).getD .inv = ty ∧
    ∀ x ∈ M, OnPath q.1.node? j x.1 x.2

theorem Stage.lt {db : DB} {ty : AttrType} {M : List (Nat × Val)} {q : DB × Option Nat} (h : Stage db ty M q) :
    ∀ j, q.2 = some j → j < q.1.nodes.length := by
  intro j hj
  rcases h.top with ⟨h1, -⟩ | ⟨j', D, h1, h2, -⟩
  · rw [h1] at hj; cases hj
  · rw [h1] at hj; cases hj
    exact h2.lt

theorem onPath_child {N : Nat → Option Nd} {i j a b : Nat} {v w : Val} (hn : N i = some ⟨a, v, some j⟩) (h : OnPath N j b w) : OnPath N i b w := by
  obtain ⟨k, n, h1, h2⟩ := h
  exact ⟨k, n, .up hn rfl h1, h2⟩

theorem DB.OK.boot_node {db : DB} (h : db.OK) {i : Nat} {n : Nd} (hn : db.node? i = some n)
    (hb : (n.attr ≠ 8 ∧ n.attr ≠ 9) ∨ ∃ j, n.parent = some j ∧ 12 ≤ j) : 12 ≤ i := by
  rcases Nat.lt_or_ge i 12 with hi | hi
  · exfalso
    have e : bootNodes[i]? = some n := by rw [← h.bootAt hi]; exact hn
    have all : ∀ i < 12, ∀ m, bootNodes[i]? = some m → ¬ ((m.attr ≠ 8 ∧ m.attr ≠ 9) ∨ ∃ j, m.parent = some j ∧ 12 ≤ j) := by
      intro i hi
      interval_cases i <;> (intro m hm; cases hm; simp)
    exact all i hi n e hb
  · exact hi

/-- one more node -/
theorem Stage.add {db : DB} {ty : AttrType} {M : List (Nat × Val)} {q : DB × Option Nat} (h : Stage db ty M q) {a : Nat} {v : Val}
    (ha : (db.attribute? a).isSome) (h8 : a ≠ 8) (h9 : a ≠ 9) :
    Stage db ty (M ++ [(a, v)]) ((q.1.findOrCreate a v q.2).1, some (q.1.findOrCreate a v q.2).2) ∧
    (q.1.findOrCreate a v q.2).1.node? (q.1.findOrCreate a v q.2).2 = some ⟨a, v, q.2⟩ ∧
    12 ≤ (q.1.findOrCreate a v q.2).2 := by
  have ha' := h.ext.attribute? ha
  obtain ⟨b1, b2, b3, b4, b5, b6, b7, b8⟩ := h.ok.findOrCreate a v q.2 ha' h.lt
  clear b4 b5 b6 b7 b8
  generalize q.1.findOrCreate a v q.2 = r at *
  have h12 := b1.boot_node b3 (.inl ⟨h8, h9⟩)
  refine ⟨⟨b1, h.ext.trans b2, .inr ?_⟩, b3, h12⟩
  obtain ⟨A, hA⟩ := b1.denotes a (DB.OK.attribute_lt (b2.attribute? ha'))
  have hA9 : A ≠ .boot 9 := fun e => h9 (hA.boot_iff.1 e).1
  rcases h.top with ⟨h1, h2, h3⟩ | ⟨j, D, h1, h2, h3, h4⟩
  · rw [h1] at b3
    refine ⟨_, .root A v, rfl, .root h12 b3 hA, ?_, ?_⟩
    · simp [Deep.up, hA9, h2]
    · intro x hx
      rw [h3] at hx
      simp only [List.nil_append, List.mem_singleton] at hx
      subst hx
      exact ⟨_, _, .self b3, b3, rfl, rfl⟩
  · rw [h1] at b3
    refine ⟨_, .child A v D, rfl, .child h12 b3 hA (b2.denotes h2), ?_, ?_⟩
    · simpa [Deep.up, hA9] using h3
    · intro x hx
      rcases List.mem_append.1 hx with hx | hx
      · exact onPath_child b3 ((onPath_ext h.ok b2 h2.lt).2 (h4 x hx))
      · simp only [List.mem_singleton] at hx
        subst hx
        exact ⟨_, _, .self b3, b3, rfl, rfl⟩

theorem Stage.entries {db : DB} (h0 : db.OK) {ty : AttrType} (l : List (Nat × Val)) : ∀ {M : List (Nat × Val)} {q : DB × Option Nat}, Stage db ty M q →
    (∀ x ∈ l, (db.attribute? x.1).isSome ∧ x.1 ≠ 8 ∧ x.1 ≠ 9 ∧ ¬ AsValue db x.1) → l ≠ [] → Stage db ty (M ++ l) (q.1.makeTreeEntry l q.2) := by
  induction l with
  | nil => intro M q _ _ hne; exact absurd rfl hne
  | cons x l ih =>
    intro M q h hl _
    obtain ⟨a, v⟩ := x
    obtain ⟨h1, h2, h3, h4⟩ := hl (a, v) (by simp)
    have hp : q.1.attrProp (some a) = db.attrProp (some a) := attrProp_ext h0 h.ok h.ext (DB.OK.attribute_lt h1)
    obtain ⟨k, -⟩ := h.add (v := v) h1 h2 h3
    simp only at h1 h2 h3 h4 k
    unfold AsValue at h4
    rw [DB.makeTreeEntry, hp, if_neg h4]
    simp only
    cases l with
    | nil => simpa [DB.makeTreeEntry] using k
    | cons y l =>
      have k2 := ih k (fun x hx => hl x (List.mem_cons_of_mem _ hx)) (by simp)
      simp only at k2
      cases hm : ((q.1.findOrCreate a v q.2).1.makeTreeEntry (y :: l) (some (q.1.findOrCreate a v q.2).2)) with
      | mk d o =>
        rw [hm] at k2
        cases o with
        | none =>
          exfalso
          rcases k2.top with ⟨-, -, k3⟩ | ⟨j, D, k3, -⟩
          · simp at k3
          · cases k3
        | some j => simpa using k2

theorem Stage.extra {db : DB} (h0 : db.OK) {ty : AttrType} {M : List (Nat × Val)} {q : DB × Option Nat} (h : Stage db ty M q) {a : Nat}
    (ha : (db.attribute? a).isSome ∧ a ≠ 8 ∧ a ≠ 9 ∧ ¬ AsValue db a) (o : Option (List Byte)) :
    Stage db ty (M ++ (o.toList.map fun w => (a, Val.string w))) (DB.attrExtra q a o) := by
  cases o with
  | none => simpa [DB.attrExtra] using h
  | some w => exact h.entries h0 [(a, .string w)] (by simpa using ha) (by simp)

/-- the name of an attribute, as its accessor reports it (`Attribute.cpp:18-26`) -/
def DB.attrName (db : DB) (a : Nat) : Option Val := upTo db.nodes 8 (db.nodes.length + 1) (some a)

/-- **C98** (attributes; partial: metadata entries are not stored as value): in every database a program can have, an attribute created
under a new name is found by that name and has this name, the given type and properties, and all the metadata given, and the unit and alias
the user defined for the name. -/
theorem C98_attribute_partial (F : DblFmt) (db : DB) (hdb : Reachable F db) (name : List Byte) (ty : AttrType) (prop : BitVec 32)
    (metas : List (Nat × Val)) (u al : Nat)
    (hm : ∀ x ∈ metas, (db.attribute? x.1).isSome ∧ x.1 ≠ 8 ∧ x.1 ≠ 9 ∧ ¬ AsValue db x.1)
    (hu : (db.attribute? u).isSome ∧ u ≠ 8 ∧ u ≠ 9 ∧ ¬ AsValue db u) (hal : (db.attribute? al).isSome ∧ al ≠ 8 ∧ al ≠ 9 ∧ ¬ AsValue db al)
    (hnew : lookup name db.attrs = none) :
    let r := db.createAttribute name ty prop metas u al
    lookup name r.1.attrs = some r.2 ∧ r.1.attribute? r.2 = some r.2 ∧ r.1.attrName r.2 = some (.string name) ∧
      r.1.attrType (some r.2) = ty ∧ r.1.attrProp (some r.2) = prop ∧ (∀ x ∈ metas, OnPath r.1.node? r.2 x.1 x.2) ∧
      (∀ w, lookup name db.units = some w → OnPath r.1.node? r.2 u (.string w)) ∧
      ∀ w, lookup name db.aliases = some w → OnPath r.1.node? r.2 al (.string w) := by
  have h0 := hdb.ok
  have hlk := (C27_names_created F db hdb name ty prop metas u al (fun x hx => (hm x hx).1) hu.1 hal.1).1
  intro r
  refine ⟨hlk, ?_⟩
  have hr : r = DB.attrFinish (db.attrMeta name ty metas u al) name prop := by
    show db.createAttribute name ty prop metas u al = _
    simp [DB.createAttribute, hnew]
  clear_value r
  -- the metadata
  have s0 : Stage db ty [] (db, typeNode ty) := by
    refine ⟨h0, .refl db, ?_⟩
    have hb : ∀ j, typeNode ty = some j → Denotes db.node? j (.boot j) := fun j hj =>
      .boot (typeNode_lt ty j hj) (h0.bootAt (typeNode_lt ty j hj))
    cases ty with
    | inv => exact .inl ⟨rfl, rfl, rfl⟩
    | _ => exact .inr ⟨_, _, rfl, hb _ rfl, by decide, by simp⟩
  have s1 : Stage db ty metas (if metas = [] then (db, typeNode ty) else db.makeTreeEntry metas (typeNode ty)) := by
    by_cases hmm : metas = []
    · rw [if_pos hmm, hmm]; exact s0
    · rw [if_neg hmm]
      simpa using s0.entries h0 metas hm hmm
  have s2 := (s1.extra h0 hu (lookup name db.units)).extra h0 hal (lookup name db.aliases)
  have s3 : Stage db ty (metas ++ ((lookup name db.units).toList.map fun w => (u, Val.string w)) ++
      ((lookup name db.aliases).toList.map fun w => (al, Val.string w))) (db.attrMeta name ty metas u al) := s2
  generalize hM : metas ++ ((lookup name db.units).toList.map fun w => (u, Val.string w)) ++
      ((lookup name db.aliases).toList.map fun w => (al, Val.string w)) = M at s3
  generalize db.attrMeta name ty metas u al = q at s3 hr
  clear s0 s1 s2
  -- property node
  obtain ⟨s4, n4, h12⟩ := s3.add (v := .int (prop.signExtend 64)) (h0.attr_boot 10 (by simp)) (by decide) (by decide)
  -- name node
  have hattr8 := s4.ok.attr_boot 8 (by simp)
  obtain ⟨c1, c2, c3, -⟩ := s4.ok.findOrCreate 8 (.string name) (some (q.1.findOrCreate 10 (.int (prop.signExtend 64)) q.2).2) hattr8 s4.lt
  generalize hq1 : q.1.findOrCreate 10 (.int (prop.signExtend 64)) q.2 = q1 at *
  generalize hr1 : q1.1.findOrCreate 8 (.string name) (some q1.2) = r1 at *
  have hr' : r = ({ r1.1 with attrs := insertNew name r1.2 r1.1.attrs }, r1.2) := by
    rw [hr]; unfold DB.attrFinish; simp only [hq1, hr1]
  have hok : r.1.OK := by rw [hr']; exact c1.congr rfl c1.glob
  have hnode : ∀ i, r.1.node? i = r1.1.node? i := by intro i; rw [hr']; rfl
  have hx : q1.1.Ext r.1 := by rw [hr']; exact c2
  have hr2 : r.2 = r1.2 := by rw [hr']
  have hn : r.1.node? r.2 = some ⟨8, .string name, some q1.2⟩ := by rw [hnode, hr2]; exact c3
  have i12 : 12 ≤ r.2 := hok.boot_node hn (.inr ⟨_, rfl, h12⟩)
  have d8 : Denotes r.1.node? 8 (.boot 8) := .boot (by omega) (hok.bootAt (by omega))
  have d10 : Denotes q1.1.node? 10 (.boot 10) := .boot (by omega) (s4.ok.bootAt (by omega))
  rcases s4.top with ⟨h1, -⟩ | ⟨j, D, h1, h2, h3, h4⟩
  · cases h1
  cases h1
  have hD : ((D.up 10).map Val.propWord).getD 0 = prop := by
    have hv : Val.propWord (.int (prop.signExtend 64)) = prop := by
      simp only [Val.propWord]
      ext i hi
      rw [BitVec.getElem_setWidth, BitVec.getLsbD_signExtend]
      simp [hi, show i < 64 by omega]
    cases hq2 : q.2 with
    | none =>
      rw [hq2] at n4
      have := h2.det (.root h12 n4 d10)
      subst this
      simpa [Deep.up] using hv
    | some p =>
      rw [hq2] at n4
      obtain ⟨P, hP⟩ := s4.ok.denotes p (by
        have := s4.ok.parent_lt n4 rfl
        have := h2.lt
        simp only at *
        omega)
      have := h2.det (.child h12 n4 d10 hP)
      subst this
      simpa [Deep.up] using hv
  have hd : Denotes r.1.node? r.2 (.child (.boot 8) (.string name) D) := .child i12 hn d8 (hx.denotes h2)
  have hpath : ∀ x ∈ M, OnPath r.1.node? r.2 x.1 x.2 := fun x hx' =>
    onPath_child hn ((onPath_ext s4.ok hx h2.lt).2 (h4 x (by simp [hx'])))
  refine ⟨?_, ?_, ?_, ?_, ?_, ?_, ?_⟩
  · unfold DB.attribute?
    rw [show r.1.nodes[r.2]? = _ from hn]
    simp
  · unfold DB.attrName
    rw [hok.upTo 8 (by omega) hd _ (by have := hd.lt; omega)]
    simp [Deep.up]
  · rw [hok.attrType hd]
    simpa [Deep.attrType, Deep.up] using h3
  · rw [hok.attrProp hd]
    simpa [Deep.attrProp, Deep.up] using hD
  · intro x hx'
    exact hpath x (by rw [← hM]; simp [hx'])
  · intro w hw
    exact hpath (u, .string w) (by rw [← hM]; simp [hw])
  · intro w hw
    exact hpath (al, .string w) (by rw [← hM]; simp [hw])

/-! ### violations -/

/-- **C98**, violated: if all metadata given is stored as value, the attribute has no type. -/
theorem C98_violation_type :
    let m := DB.init.createAttribute (str "m") .int 1 [] 14 13
    let r := m.1.createAttribute (str "x") .int 0 [(m.2, .int 7)] 14 13
    r.1.attribute? r.2 = some r.2 ∧ r.1.attrType (some r.2) = .inv := by
  decide +kernel

/-- two global attributes: `g`, and `a` stored as value with metadata `g=v` -/
def metaG : DB × Nat := DB.init.createAttribute (str "g") .string 512 [] 14 13
@[inherit_doc metaG]
def metaA : DB × Nat := metaG.1.createAttribute (str "a") .int 513 [(metaG.2, .string (str "v"))] 14 13

/-- **C98**, violated: a value is not set if a global attribute stored as value has it as metadata. -/
theorem C98_violation_metadata (F : DblFmt) : Reachable F metaA.1 ∧ metaA.1.globals = [] ∧
    IsGlobal metaA.1 metaG.2 ∧ ¬ AsValue metaA.1 metaG.2 ∧
    ¬ HasGlobal (metaA.1.setGlobals [(metaA.2, .int 1), (metaG.2, .string (str "v"))]) metaG.2 (.string (str "v")) := by
  have r1 : Reachable F metaG.1 := .attr .init (by simp) (by decide +kernel) (by decide +kernel)
  have r2 : Reachable F metaA.1 := .attr r1 (by decide +kernel) (by decide +kernel) (by decide +kernel)
  refine ⟨r2, by decide +kernel, by unfold IsGlobal; decide +kernel, by unfold AsValue; decide +kernel, ?_⟩
  rintro ⟨e, he, i, h1, h2⟩
  have hg : (metaA.1.setGlobals [(metaA.2, .int 1), (metaG.2, .string (str "v"))]).globals = [⟨some metaA.2, .int 1⟩] := by decide +kernel
  have ha : (metaA.1.setGlobals [(metaA.2, .int 1), (metaG.2, .string (str "v"))]).attribute? metaA.2 = some metaA.2 := by decide +kernel
  rw [hg] at he
  simp only [List.mem_singleton] at he
  subst he
  cases h1
  rcases h2 with ⟨h2, -⟩ | ⟨h2, -⟩
  · rw [ha] at h2
    exact absurd h2 (by decide +kernel)
  · rw [ha] at h2; cases h2

/-! ### example -/

/-- four attributes: stored as value, combined, not combined, not global -/
def exDB : DB :=
  let a := DB.init.createAttribute (str "a") .int 513 [] 14 13
  let b := a.1.createAttribute (str "b") .string 512 [] 14 13
  let c := b.1.createAttribute (str "c") .string 514 [] 14 13
  (c.1.createAttribute (str "d") .string 0 [] 14 13).1

/-- their ids -/
def exId (n : String) : Nat := (lookup (str n) exDB.attrs).getD 0

/-- calls -/
def exSets : List (Nat × Val) :=
  [(exId "a", .int 1), (exId "b", .string (str "x")), (exId "c", .string (str "y")), (exId "d", .string (str "z")), (exId "b", .string (str "w")),
   (exId "a", .int 2), (exId "b", .string (str "x"))]

theorem exDB_reachable (F : DblFmt) : Reachable F exDB := by
  refine .attr (.attr (.attr (.attr .init ?_ ?_ ?_) ?_ ?_ ?_) ?_ ?_ ?_) ?_ ?_ ?_ <;> first | decide +kernel | simp

/-- the hypotheses hold: all are attributes without metadata -/
example : exDB.globals = [] ∧ (∀ s ∈ exSets, (exDB.attribute? s.1).isSome) ∧ (∀ s ∈ exSets, ∀ t ∈ exSets, ¬ IsMetadataOf exDB t.1 s.1) := by
  refine ⟨by decide +kernel, by decide +kernel, ?_⟩
  rintro s hs t ht ⟨v, h⟩
  have hok := (exDB_reachable ⟨fun _ => [], fun _ => [], fun _ => none⟩).ok
  have hs' : ∀ s ∈ exSets, s.1 < exDB.nodes.length + 1 := by decide +kernel
  have := (onPath_iff hok t.1 v _ s.1 (hs' s hs)).2 h
  -- the path only has name, properties and type
  have key : ∀ s ∈ exSets, ∀ t ∈ exSets, ∀ v, onPath exDB.nodes t.1 v (exDB.nodes.length + 1) (some s.1) = false := by
    intro s hs t ht v
    have hnone : ∀ s ∈ exSets, ∀ t ∈ exSets, upTo exDB.nodes t.1 (exDB.nodes.length + 1) (some s.1) = none := by decide +kernel
    have gen : ∀ (fuel : Nat) (o : Option Nat) (a : Nat) (v : Val), upTo exDB.nodes a fuel o = none → onPath exDB.nodes a v fuel o = false := by
      intro fuel
      induction fuel with
      | zero => intro o a v _; cases o <;> rfl
      | succ n ih =>
        intro o a v ho
        cases o with
        | none => rfl
        | some i =>
          rw [upTo] at ho
          rw [onPath]
          cases hn : exDB.nodes[i]? with
          | none => rfl
          | some m =>
            rw [hn] at ho
            simp only at ho ⊢
            split at ho
            · cases ho
            · rename_i hne
              rw [if_neg (fun hh => hne hh.2)]
              exact ih _ _ _ ho
    exact gen _ _ _ _ (hnone s hs t ht)
  rw [key s hs t ht v] at this
  cases this

/-- the globals have the last value of `a`, both values of `b`, that of `c`, and none of `d` -/
example : Wanted exDB exSets (exId "a") (.int 2) ∧ ¬ Wanted exDB exSets (exId "a") (.int 1) ∧ Wanted exDB exSets (exId "b") (.string (str "x")) ∧
    Wanted exDB exSets (exId "b") (.string (str "w")) ∧ Wanted exDB exSets (exId "c") (.string (str "y")) ∧
    ¬ Wanted exDB exSets (exId "d") (.string (str "z")) ∧ (exDB.setGlobals exSets).globals.length = 3 := by
  refine ⟨?_, ?_, ?_, ?_, ?_, ?_, ?_⟩ <;> (try unfold Wanted IsGlobal AsValue) <;> decide +kernel

end Verif.Cali
