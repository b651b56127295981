import Verif.Cali.Merge
import Verif.Props.CaliFile
import Verif.Tree.Model
/-!
# C102: merging records of the running program, or of any other metadata database, into a query database
-/
namespace Verif.Cali
open Verif

/-! ## specification -/

/-- the merged entry `e'` stands for the same as entry `e` of the source: the node or attribute has the same meaning (path,
names, types and properties of the attributes), the value of an immediate entry is the same, a reference carries its node's
value -/
def SameEntry (S : Src) (db : DB) (e e' : DEnt) : Prop :=
  ∃ i j n D, e.node = some i ∧ e'.node = some j ∧ S.node i = some n ∧ Denotes S.node i D ∧ Denotes db.node? j D ∧
    e'.val = if n.attr = 8 then e.val else n.data

/-- the entries of a record that hold something -/
def entriesIn (es : List DEnt) : List DEnt := es.filter fun e => e.node.isSome

/-- every entry with a node refers to a node of the source -/
def Src.HasRec (S : Src) (es : List DEnt) : Prop := ∀ e ∈ es, ∀ i, e.node = some i → (S.node i).isSome

/-- fuel that suffices for the nodes of a record -/
def Src.FuelFor (S : Src) (fuel : Nat) (es : List DEnt) : Prop := 0 < fuel ∧ ∀ e ∈ es, ∀ i, e.node = some i → S.rank i + 1 < fuel

/-- upper bound for the nodes a record adds -/
def Src.recSteps (S : Src) (fuel : Nat) (es : List DEnt) : Nat :=
  (es.map fun e => match e.node with
    | none => 0
    | some i => S.steps fuel i).sum

/-! ## lemmas -/

theorem SameEntry.mono {S : Src} {db db' : DB} (h : db.Ext db') {e e' : DEnt} (hs : SameEntry S db e e') : SameEntry S db' e e' := by
  obtain ⟨i, j, n, D, h1, h2, h3, h4, h5, h6⟩ := hs
  exact ⟨i, j, n, D, h1, h2, h3, h4, h.denotes h5, h6⟩

theorem mergeRecord_spec {S : Src} (hS : S.Mergeable) (fuel : Nat) : ∀ (es : List DEnt) {db : DB}, db.OK → S.HasRec es → S.FuelFor fuel es →
    db.nodes.length + S.recSteps fuel es ≤ invN →
    ∃ db' r, db.mergeRecord S fuel es = some (db', r) ∧ db'.OK ∧ db.Ext db' ∧ db'.globals = db.globals ∧
      List.Forall₂ (SameEntry S db') (entriesIn es) r ∧ db'.nodes.length ≤ db.nodes.length + S.recSteps fuel es ∧
      (∀ r', List.Forall₂ (SameEntry S db) (entriesIn es) r' → db' = db ∧ r' = r) := by
  intro es
  induction es with
  | nil =>
    intro db hdb _ _ _
    refine ⟨db, [], rfl, hdb, .refl _, rfl, .nil, by simp [Src.recSteps], ?_⟩
    intro r' h'
    cases h'; exact ⟨rfl, rfl⟩
  | cons e es ih =>
    intro db hdb hh hf hlen
    have hh' : S.HasRec es := fun x hx => hh x (List.mem_cons_of_mem _ hx)
    have hf' : S.FuelFor fuel es := ⟨hf.1, fun x hx => hf.2 x (List.mem_cons_of_mem _ hx)⟩
    cases hn : e.node with
    | none =>
      have hlen' : db.nodes.length + S.recSteps fuel es ≤ invN := by
        simp only [Src.recSteps, List.map_cons, hn, List.sum_cons] at hlen ⊢; omega
      obtain ⟨db', r, e1, o1, x1, g1, f1, l1, u1⟩ := ih hdb hh' hf' hlen'
      have ee : entriesIn (e :: es) = entriesIn es := by simp [entriesIn, hn]
      have es' : S.recSteps fuel (e :: es) = S.recSteps fuel es := by simp [Src.recSteps, hn]
      refine ⟨db', r, ?_, o1, x1, g1, by rw [ee]; exact f1, by rw [es']; exact l1, by rw [ee]; exact u1⟩
      obtain ⟨f, rfl⟩ : ∃ f, fuel = f + 1 := ⟨fuel - 1, by have := hf.1; omega⟩
      simp only [DB.mergeRecord, hn, DB.recMerge, e1, DB.mergedEntry, List.nil_append]
    | some i =>
      have hi := hh e List.mem_cons_self i hn
      have hfi := hf.2 e List.mem_cons_self i hn
      have hst : S.recSteps fuel (e :: es) = S.steps fuel i + S.recSteps fuel es := by simp [Src.recSteps, hn]
      rw [hst] at hlen
      obtain ⟨D, hD⟩ := hS.denotes _ i rfl hi
      obtain ⟨n, hni⟩ := Option.isSome_iff_exists.1 hi
      obtain ⟨db1, j, e1, o1, x1, g1, d1, l1, u1⟩ := recMerge_spec hS fuel hdb hD (.inl hfi) (by omega)
      obtain ⟨db2, r, e2, o2, x2, g2, f2, l2, u2⟩ := ih o1 hh' hf' (by omega)
      have ee : entriesIn (e :: es) = e :: entriesIn es := by simp [entriesIn, hn]
      obtain ⟨m, hm⟩ := d1.node_some
      -- the entry itself
      have hent : db1.mergedEntry S e (some j) = [⟨some j, if n.attr = 8 then e.val else n.data⟩] := by
        unfold DB.mergedEntry Src.immediate
        simp only [hn, hni]
        have q1 := hD.isOf_iff hni 8 (by omega)
        by_cases h8 : n.attr = 8
        · have : db1.attribute? j = some j := by
            rcases DB.OK.attribute? d1 with ⟨q, _⟩ | ⟨_, q⟩
            · exact q
            · exact absurd (q1.2 h8) q
          simp [h8, this]
        · have := hD.data d1 hni hm
          simp only [h8, decide_false, if_neg Bool.false_ne_true]
          simp [hm, this]
      refine ⟨db2, ⟨some j, if n.attr = 8 then e.val else n.data⟩ :: r, ?_, o2, x1.trans x2, by rw [g2, g1], ?_, by rw [hst]; omega, ?_⟩
      · simp only [DB.mergeRecord, hn, e1, e2, hent, List.cons_append, List.nil_append]
      · rw [ee]
        exact .cons ⟨i, j, n, D, hn, rfl, hni, hD, x2.denotes d1, rfl⟩ f2
      · rw [ee]
        intro r' h'
        cases h' with
        | @cons _ b _ r'' hs h' =>
          obtain ⟨i', j', n', D', s1, s2, s3, s4, s5, s6⟩ := hs
          rw [hn] at s1; cases s1
          rw [hni] at s3; cases s3
          have := s4.det hD
          subst this
          have q1 := u1 j' s5
          subst q1
          obtain ⟨q2, q3⟩ := u2 _ h'
          subst q2 q3
          have q4 : j' = j := o1.inj s5 d1
          subst q4
          refine ⟨rfl, ?_⟩
          obtain ⟨bn, bv⟩ := b
          simp only at s2 s6
          rw [s2, s6]

theorem sameEntry_expands {S : Src} (hS : S.Mergeable) {db : DB} (hdb : db.OK) {e e' : DEnt} (h : SameEntry S db e e')
    {l : List (List Byte × Val)} (hx : Expands S.node e l) : Expands db.node? e' l := by
  obtain ⟨i, j, n, D, h1, h2, h3, h4, h5, h6⟩ := h
  obtain ⟨m, hm⟩ := h5.node_some
  have e1 := h4.isOf_iff h3 8 (by omega)
  have e2 := h5.isOf_iff hm 8 (by omega)
  cases hx with
  | empty he => rw [h1] at he; cases he
  | ref he hn h8 hp =>
    rw [h1] at he; cases he
    rw [h3] at hn; cases hn
    exact .ref h2 hm (fun q => h8 (e1.1 (e2.2 q))) (hp.transfer hS.boot (fun i hi => hdb.bootAt hi) h4 h5)
  | @imm i' name q he hn =>
    rw [h1] at he; cases he
    rw [h3] at hn; cases hn
    have e3 := h4.data h5 h3 hm
    have e4 : m.attr = 8 := e2.1 (e1.2 rfl)
    obtain ⟨x, y, z⟩ := m
    simp only at e3 e4
    subst e3 e4
    simp only [if_pos] at h6
    rw [← h6]
    exact .imm h2 hm

theorem contents_entriesIn {N : Nat → Option Nd} : ∀ {es : List DEnt} {l : List (List Byte × Val)}, Contents N es l ↔ Contents N (entriesIn es) l := by
  intro es
  induction es with
  | nil => intro l; simp [entriesIn]
  | cons e es ih =>
    intro l
    cases hn : e.node with
    | none =>
      have ee : entriesIn (e :: es) = entriesIn es := by simp [entriesIn, hn]
      rw [ee, ← ih]
      constructor
      · rintro ⟨ls, h, rfl⟩
        cases h with
        | @cons _ b _ ls' h1 h2 =>
          cases h1 with
          | empty => exact ⟨ls', h2, by simp⟩
          | ref he => rw [hn] at he; cases he
          | imm he => rw [hn] at he; cases he
      · rintro ⟨ls, h, rfl⟩
        exact ⟨[] :: ls, .cons (.empty hn) h, by simp⟩
    | some i =>
      have ee : entriesIn (e :: es) = e :: entriesIn es := by simp [entriesIn, hn]
      rw [ee]
      constructor
      · rintro ⟨ls, h, rfl⟩
        cases h with
        | @cons _ b _ ls' h1 h2 =>
          obtain ⟨ls'', h3, h4⟩ := ih.1 ⟨ls', h2, rfl⟩
          exact ⟨b :: ls'', .cons h1 h3, by simp [h4]⟩
      · rintro ⟨ls, h, rfl⟩
        cases h with
        | @cons _ b _ ls' h1 h2 =>
          obtain ⟨ls'', h3, h4⟩ := ih.2 ⟨ls', h2, rfl⟩
          exact ⟨b :: ls'', .cons h1 h3, by simp [h4]⟩

theorem forall₂_contents {S : Src} (hS : S.Mergeable) {db : DB} (hdb : db.OK) {es r : List DEnt}
    (h : List.Forall₂ (SameEntry S db) es r) : ∀ {ls : List (List (List Byte × Val))}, List.Forall₂ (Expands S.node) es ls →
    List.Forall₂ (Expands db.node?) r ls := by
  induction h with
  | nil => intro ls h'; cases h'; exact .nil
  | cons h1 _ ih =>
    intro ls h'
    cases h' with
    | cons k1 k2 => exact .cons (sameEntry_expands hS hdb h1 k1) (ih k2)

/-! ## theorems -/

/-- C102 (for values that can be copied): merging a record of any other database into a query database never fails, whatever ids
the two databases use; the result has one entry per non-empty entry, in the same order, with the same attribute names, values,
types and properties and the same paths; nodes already in the query database, and its globals, stay as they are.  Missing:
nodes with empty values and strings with NUL characters (`C102_violated_…`). -/
theorem C102_merge_partial (S : Src) (hS : S.Mergeable) (db : DB) (hdb : db.OK) (es : List DEnt) (hes : S.HasRec es) (fuel : Nat)
    (hfuel : S.FuelFor fuel es) (hlen : db.nodes.length + S.recSteps fuel es ≤ invN) :
    ∃ db' r, db.mergeRecord S fuel es = some (db', r) ∧ db'.OK ∧
      (∀ l, Contents S.node es l → Contents db'.node? r l) ∧
      List.Forall₂ (SameEntry S db') (entriesIn es) r ∧
      (∀ i n, db.node? i = some n → db'.node? i = some n) ∧ db'.globals = db.globals := by
  obtain ⟨db', r, e1, o1, x1, g1, f1, _, _⟩ := mergeRecord_spec hS fuel es hdb hes hfuel hlen
  refine ⟨db', r, e1, o1, ?_, f1, fun i n h => x1.node h, g1⟩
  intro l hl
  obtain ⟨ls, h1, h2⟩ := contents_entriesIn.1 hl
  exact ⟨ls, forall₂_contents hS o1 f1 h1, h2⟩

/-- the merged attributes have the types and properties of the source's attributes -/
theorem C102_attributes_partial (S : Src) (db : DB) (hdb : db.OK) (T : DB) (hT : T.OK) (hST : S.node = T.node?) (e e' : DEnt)
    (h : SameEntry S db e e') (i j : Nat) (hi : e.node = some i) (hj : e'.node = some j) :
    db.attrType (some j) = T.attrType (some i) ∧ db.attrProp (some j) = T.attrProp (some i) ∧
    ((db.attribute? j).isSome ↔ (T.attribute? i).isSome) := by
  obtain ⟨i', j', n, D, h1, h2, h3, h4, h5, h6⟩ := h
  rw [hi] at h1; cases h1
  rw [hj] at h2; cases h2
  rw [hST] at h4
  refine ⟨by rw [hdb.attrType h5, hT.attrType h4], by rw [hdb.attrProp h5, hT.attrProp h4], ?_⟩
  rcases DB.OK.attribute? h4 with ⟨a, b⟩ | ⟨a, b⟩ <;> rcases DB.OK.attribute? h5 with ⟨c, d⟩ | ⟨c, d⟩
  · simp [a, c]
  · exact absurd b d
  · exact absurd d b
  · simp [a, c]

/-- C102 (same restriction): merging the same record again gives the same entries and adds nothing to the database. -/
theorem C102_merge_again_partial (S : Src) (hS : S.Mergeable) (db : DB) (hdb : db.OK) (es : List DEnt) (hes : S.HasRec es) (fuel : Nat)
    (hfuel : S.FuelFor fuel es) (hlen : db.nodes.length + 2 * S.recSteps fuel es ≤ invN) (db' : DB) (r : List DEnt)
    (h : db.mergeRecord S fuel es = some (db', r)) : db'.mergeRecord S fuel es = some (db', r) := by
  obtain ⟨db1, r1, e1, o1, x1, g1, f1, l1, _⟩ := mergeRecord_spec hS fuel es hdb hes hfuel (by omega)
  rw [h] at e1; cases e1
  obtain ⟨db2, r2, e2, _, _, _, _, _, u2⟩ := mergeRecord_spec hS fuel es o1 hes hfuel (by omega)
  obtain ⟨q1, q2⟩ := u2 _ f1
  rw [e2, q1, q2]

/-- C102 (same restriction): two records from any two databases (processes, runs), merged one after the other: their entries
refer to the same node of the query database exactly if they stand for the same path. -/
theorem C102_sources_agree_partial (S₁ S₂ : Src) (h₁ : S₁.Mergeable) (h₂ : S₂.Mergeable) (db : DB) (hdb : db.OK) (i₁ i₂ : Nat)
    (D₁ D₂ : Deep) (d₁ : Denotes S₁.node i₁ D₁) (d₂ : Denotes S₂.node i₂ D₂) (v₁ v₂ : Val) (fuel : Nat)
    (hf : S₁.rank i₁ + 1 < fuel ∧ S₂.rank i₂ + 1 < fuel)
    (hlen : db.nodes.length + S₁.steps fuel i₁ + S₂.steps fuel i₂ ≤ invN) :
    ∃ db₁ db₂ e₁ e₂, db.mergeRecord S₁ fuel [⟨some i₁, v₁⟩] = some (db₁, [e₁]) ∧
      db₁.mergeRecord S₂ fuel [⟨some i₂, v₂⟩] = some (db₂, [e₂]) ∧ e₁.node.isSome ∧ (e₁.node = e₂.node ↔ D₁ = D₂) := by
  have step : ∀ (S : Src) (_ : S.Mergeable) (db : DB) (_ : db.OK) (i : Nat) (D : Deep) (_ : Denotes S.node i D) (v : Val)
      (_ : S.rank i + 1 < fuel) (_ : db.nodes.length + S.steps fuel i ≤ invN),
      ∃ db' e j, db.mergeRecord S fuel [⟨some i, v⟩] = some (db', [e]) ∧ db'.OK ∧ db.Ext db' ∧ e.node = some j ∧
        Denotes db'.node? j D ∧ db'.nodes.length ≤ db.nodes.length + S.steps fuel i := by
    intro S hS db hdb i D d v hf hlen
    obtain ⟨n, hn⟩ := d.node_some
    obtain ⟨db', r, e1, o1, x1, _, f1, l1, _⟩ := mergeRecord_spec hS fuel [⟨some i, v⟩] hdb
      (by intro e he j hj; simp at he; subst he; cases hj; rw [hn]; rfl)
      ⟨by omega, by intro e he j hj; simp at he; subst he; cases hj; exact hf⟩ (by simpa [Src.recSteps] using hlen)
    cases f1 with
    | @cons _ e _ r hs hr =>
      cases hr
      obtain ⟨i', j', n', D', s1, s2, s3, s4, s5, s6⟩ := hs
      cases s1
      have := s4.det d
      subst this
      exact ⟨db', e, j', e1, o1, x1, s2, s5, by simpa [Src.recSteps] using l1⟩
  obtain ⟨db₁, e₁, j₁, a1, a2, a3, a4, a5, a6⟩ := step S₁ h₁ db hdb i₁ D₁ d₁ v₁ hf.1 (by omega)
  obtain ⟨db₂, e₂, j₂, b1, b2, b3, b4, b5, b6⟩ := step S₂ h₂ db₁ a2 i₂ D₂ d₂ v₂ hf.2 (by omega)
  refine ⟨db₁, db₂, e₁, e₂, a1, b1, by rw [a4]; rfl, ?_⟩
  rw [a4, b4]
  have a5' := b3.denotes a5
  constructor
  · intro e; cases e; exact a5'.det b5
  · rintro rfl; rw [b2.inj a5' b5]

/-- C102 (same restriction): after `import_globals` the globals are exactly the imported ones, in order, whatever the globals
were before. -/
theorem C102_import_globals_partial (S : Src) (hS : S.Mergeable) (db : DB) (hdb : db.OK) (es : List DEnt) (hes : S.HasRec es) (fuel : Nat)
    (hfuel : S.FuelFor fuel es) (hlen : db.nodes.length + S.recSteps fuel es ≤ invN) :
    ∃ db', db.importGlobals S fuel es = some db' ∧ db'.OK ∧ (∀ l, Contents S.node es l → Contents db'.node? db'.globals l) ∧
      List.Forall₂ (SameEntry S db') (entriesIn es) db'.globals ∧
      (∀ i n, db.node? i = some n → db'.node? i = some n) := by
  have hok : ({ db with globals := [] } : DB).OK := hdb.congr rfl (by intro e he; cases he)
  obtain ⟨db', r, e1, o1, c1, f1, x1, _⟩ := C102_merge_partial S hS _ hok es hes fuel hfuel hlen
  refine ⟨{ db' with globals := r }, ?_, o1.congr rfl ?_, c1, ?_, x1⟩
  · unfold DB.importGlobals; rw [e1]
  · intro e he i hi
    have : ∀ {a b : List DEnt}, List.Forall₂ (SameEntry S db') a b → ∀ e ∈ b, ∀ i, e.node = some i → i < db'.nodes.length := by
      intro a b h
      induction h with
      | nil => intro e he; cases he
      | cons h1 _ ih =>
        intro e he i hi
        rcases List.mem_cons.1 he with rfl | he
        · obtain ⟨_, j, _, _, _, s2, _, _, s5, _⟩ := h1
          rw [hi] at s2; cases s2; exact s5.lt
        · exact ih e he i hi
    exact this f1 e he i hi
  · refine forall₂_imp (fun a b hab => ?_) f1
    obtain ⟨i, j, n, D, s1, s2, s3, s4, s5, s6⟩ := hab
    exact ⟨i, j, n, D, s1, s2, s3, s4, s5, s6⟩

/-- a runtime value and a reader value are the same (types and strings, the values of built-in nodes) -/
def SameVal (v : Verif.Val) : Val → Prop
  | .type t => v = ⟨.type, .inr (BitVec.ofNat 64 t.code)⟩
  | .string bs => v = ⟨.string, .inl bs⟩
  | _ => False

/-- C102: the nodes that keep their ids when merged (ids below 12) are the same in the running program and in every query
database: same ids, attributes, values and parents. -/
theorem C102_builtin_nodes_agree (i : Nat) : ((MTree.bootNode i).isSome ↔ i < 12) ∧ ((bootNodes[i]?).isSome ↔ i < 12) ∧
    ∀ r n, MTree.bootNode i = some r → bootNodes[i]? = some n → r.id = i ∧ r.attr = n.attr ∧ SameVal r.val n.data ∧
      r.parent = (match n.parent with
        | none => .root
        | some p => .cell 0 p) := by
  by_cases h : i < 12
  · interval_cases i <;> refine ⟨by decide, by decide, ?_⟩ <;> intro r n hr hn <;> cases hr <;> cases hn <;>
      refine ⟨rfl, rfl, ?_, rfl⟩ <;> (unfold SameVal; decide +kernel)
  · refine ⟨?_, ?_, ?_⟩
    · have : MTree.bootNode i = none := by unfold MTree.bootNode; split <;> first | omega | rfl
      simp [this, h]
    · have : bootNodes[i]? = none := List.getElem?_eq_none (by show 12 ≤ i; omega)
      simp [this, h]
    · intro r n _ hn
      have : bootNodes[i]? = none := List.getElem?_eq_none (by show 12 ≤ i; omega)
      rw [this] at hn; cases hn

/-! ## the hypotheses are satisfiable -/
namespace MergeExample

/-- the source: regions `main/foo`, a counter -/
def src : DB :=
  let db := (DB.init.createAttribute (str "region") .string 256 [] 14 13).1
  let db := (db.createAttribute (str "count") .int 1 [] 14 13).1
  let db := (db.mergeNode 50 16 invN (.string (str "main"))).1
  (db.mergeNode 51 16 19 (.string (str "foo"))).1

/-- the query database, where the same ids stand for other things -/
def dst : DB := (DB.init.createAttribute (str "function") .string 256 [] 14 13).1

def rec1 : List DEnt := [⟨some 18, .int 42⟩, ⟨none, .inv⟩, ⟨some 20, .string (str "foo")⟩]

instance (v : Val) : Decidable v.Copies := by
  cases v <;> unfold Val.Copies <;> infer_instance

/-- a database is a source if its nodes are as required -/
theorem mergeable (db : DB) (hb : ∀ i, i < 12 → db.nodes[i]? = bootNodes[i]?) (hlen : db.nodes.length ≤ invN)
    (h : ∀ i ∈ List.range db.nodes.length, 12 ≤ i → ∀ n ∈ db.nodes[i]?,
      ((db.nodes[n.attr]?).map (·.attr) = some 8 ∧ n.attr < i) ∧ (∀ p ∈ n.parent, p < i) ∧ n ∉ bootNodes ∧ n.data.Copies) :
    (DB.asSource db).Mergeable := by
  have key : ∀ i n, db.node? i = some n → 12 ≤ i → _ := fun i n hn h12 =>
    h i (List.mem_range.2 (List.getElem?_eq_some_iff.1 hn).1) h12 n hn
  refine ⟨hb, ?_, ?_, ?_, fun i n hn h12 => (key i n hn h12).2.2.1, fun i n hn h12 => (key i n hn h12).2.2.2⟩
  · intro i n hn h12
    obtain ⟨⟨a, b⟩, _⟩ := key i n hn h12
    refine ⟨?_, .inr b⟩
    obtain ⟨m, hm, hm'⟩ := Option.map_eq_some_iff.1 a
    exact ⟨m, hm, hm'⟩
  · intro i n p hn h12 hp
    have := (key i n hn h12).2.1 p hp
    have hl := (List.getElem?_eq_some_iff.1 hn).1
    refine ⟨?_, .inr this⟩
    show (db.nodes[p]?).isSome
    rw [List.getElem?_eq_getElem (by omega)]; rfl
  · intro i n hn
    have := (List.getElem?_eq_some_iff.1 hn).1
    omega

theorem src_mergeable : (DB.asSource src).Mergeable :=
  mergeable src (by decide +kernel) (by decide +kernel) (by decide +kernel)

/-- the example satisfies the hypotheses, and the ids of the source mean something else in the query database -/
example : (DB.asSource src).Mergeable ∧ dst.OK ∧ (DB.asSource src).HasRec rec1 ∧ (DB.asSource src).FuelFor 30 rec1 ∧
    dst.nodes.length + (DB.asSource src).recSteps 30 rec1 ≤ invN ∧ dst.node? 16 ≠ src.node? 16 ∧
    Contents src.node? rec1 [(str "count", .int 42), (str "region", .string (str "foo")), (str "region", .string (str "main"))] := by
  refine ⟨src_mergeable, ?_, ?_, ?_, by decide +kernel, by decide +kernel, ?_⟩
  · exact (DB.init_ok.createAttribute _ _ _ _ _ _ (by simp) (by decide +kernel) (by decide +kernel)).1
  · intro e he i hi
    simp only [rec1, List.mem_cons, List.not_mem_nil, or_false] at he
    rcases he with rfl | rfl | rfl <;> cases hi <;> decide +kernel
  · refine ⟨by decide, ?_⟩
    intro e he i hi
    simp only [rec1, List.mem_cons, List.not_mem_nil, or_false] at he
    rcases he with rfl | rfl | rfl <;> cases hi <;> decide +kernel
  · refine ⟨[[(str "count", .int 42)], [], [(str "region", .string (str "foo")), (str "region", .string (str "main"))]], ?_, by simp⟩
    refine .cons (.imm (i := 18) rfl (q := some 17) (by decide +kernel)) (.cons (.empty rfl) (.cons ?_ .nil))
    refine .ref (i := 20) rfl (n := ⟨16, .string (str "foo"), some 19⟩) (by decide +kernel) (by decide) ?_
    exact .step (a := 16) (b := 8) (p := 19) (q := some 15) (by decide +kernel) (by decide +kernel)
      (.last (a := 16) (b := 8) (q := some 15) (by decide +kernel) (by decide +kernel))

/-- and this is the merged record -/
example : dst.mergeRecord (DB.asSource src) 30 rec1 =
    some ((dst.mergeRecord (DB.asSource src) 30 rec1).get (by decide +kernel)) ∧
    ((dst.mergeRecord (DB.asSource src) 30 rec1).map (·.2)) = some [⟨some 18, .int 42⟩, ⟨some 21, .string (str "foo")⟩] := by
  refine ⟨by simp, by decide +kernel⟩

/-- `main`, then a region begun with an empty value, then `foo` -/
def odd : DB :=
  let db := (DB.init.createAttribute (str "region") .string 256 [] 14 13).1
  { db with nodes := db.nodes ++ [⟨16, .string (str "main"), none⟩, ⟨16, .inv, some 17⟩, ⟨16, .string (str "foo"), some 18⟩] }

/-- a string value with a NUL in the middle, and one with a NUL at its end -/
def nuls : DB :=
  let db := (DB.init.createAttribute (str "region") .string 256 [] 14 13).1
  { db with nodes := db.nodes ++ [⟨16, .string [97, 0, 98], none⟩, ⟨16, .string [97, 0], none⟩, ⟨16, .string [97], none⟩] }

end MergeExample

/-- C102 is violated for regions begun with an empty value (`cali_begin` with an empty variant is accepted): the merged path of
a region nested in it ends there, so the enclosing `main` is lost. -/
theorem C102_violated_empty_value :
    Path MergeExample.odd.node? 19 [(str "region", .string (str "foo")), (str "region", .inv), (str "region", .string (str "main"))] ∧
    ∃ db' j, MergeExample.dst.mergeRecord (DB.asSource MergeExample.odd) 30 [⟨some 19, .string (str "foo")⟩] =
        some (db', [⟨some j, .string (str "foo")⟩]) ∧
      Path db'.node? j [(str "region", .string (str "foo"))] := by
  refine ⟨?_, ?_⟩
  · exact .step (a := 16) (b := 8) (p := 18) (q := some 15) (by decide +kernel) (by decide +kernel)
      (.step (a := 16) (b := 8) (p := 17) (q := some 15) (by decide +kernel) (by decide +kernel)
        (.last (a := 16) (b := 8) (q := some 15) (by decide +kernel) (by decide +kernel)))
  · refine ⟨((MergeExample.dst.mergeRecord (DB.asSource MergeExample.odd) 30 [⟨some 19, .string (str "foo")⟩]).get (by decide +kernel)).1, 19, ?_, ?_⟩
    · decide +kernel
    · exact .last (a := 17) (b := 8) (q := some 15) (by decide +kernel) (by decide +kernel)

/-- C102 is violated for strings with NUL characters: the bytes after the first NUL are replaced by NULs, and the strings `a` and
`a\0` become the same node. -/
theorem C102_violated_nul_strings :
    ((MergeExample.dst.mergeRecord (DB.asSource MergeExample.nuls) 30 [⟨some 17, .string [97, 0, 98]⟩]).map (·.2)) =
      some [⟨some 18, .string [97, 0, 0]⟩] ∧
    ((MergeExample.dst.mergeRecord (DB.asSource MergeExample.nuls) 30 [⟨some 18, .string [97, 0]⟩, ⟨some 19, .string [97]⟩]).map (·.2)) =
      some [⟨some 18, .string [97]⟩, ⟨some 18, .string [97]⟩] := by
  refine ⟨by decide +kernel, by decide +kernel⟩

end Verif.Cali
