import Verif.Cali.RoundTrip
/-!
# C25, C26, C27: `.cali` streams and the reader's metadata database
-/
namespace Verif
open Verif.Cali

/-! ## specification: the contents of a node and of a record, independently of ids -/

/-- `Path N i l`: following node `i` up to the root gives the (attribute name, value) pairs `l` -/
inductive Path (N : Nat → Option Nd) : Nat → List (List Byte × Val) → Prop
  | last {i a b : Nat} {v : Val} {name : List Byte} {q : Option Nat} : N i = some ⟨a, v, none⟩ → N a = some ⟨b, .string name, q⟩ →
      Path N i [(name, v)]
  | step {i a b p : Nat} {v : Val} {name : List Byte} {q : Option Nat} {l : List (List Byte × Val)} :
      N i = some ⟨a, v, some p⟩ → N a = some ⟨b, .string name, q⟩ → Path N p l → Path N i ((name, v) :: l)

/-- the (attribute name, value) pairs of a snapshot entry: the path of a reference, name and value of an immediate entry,
nothing for an empty entry -/
inductive Expands (N : Nat → Option Nd) : DEnt → List (List Byte × Val) → Prop
  | empty {e : DEnt} : e.node = none → Expands N e []
  | ref {e : DEnt} {i : Nat} {n : Nd} {l : List (List Byte × Val)} : e.node = some i → N i = some n → n.attr ≠ 8 → Path N i l →
      Expands N e l
  | imm {e : DEnt} {i : Nat} {name : List Byte} {q : Option Nat} : e.node = some i → N i = some ⟨8, .string name, q⟩ →
      Expands N e [(name, e.val)]

/-- the contents of a record: the pairs of all entries -/
def Contents (N : Nat → Option Nd) (es : List DEnt) (l : List (List Byte × Val)) : Prop :=
  ∃ ls, List.Forall₂ (Expands N) es ls ∧ l = ls.flatten

/-! ## from meanings to contents -/

theorem boot_entries : ∀ i, i < 12 → ∀ n ∈ bootNodes[i]?, n.attr < 12 ∧ ∀ p ∈ n.parent, p < 12 := by decide

theorem Path.transfer {N N' : Nat → Option Nd} (hb : ∀ i, i < 12 → N i = bootNodes[i]?) (hb' : ∀ i, i < 12 → N' i = bootNodes[i]?)
    {i : Nat} {l : List (List Byte × Val)} (h : Path N i l) : ∀ {j : Nat} {D : Deep}, Denotes N i D → Denotes N' j D → Path N' j l := by
  -- the name of an attribute
  have name : ∀ {a b : Nat} {nm : List Byte} {q : Option Nat} {a' : Nat} {A : Deep}, N a = some ⟨b, .string nm, q⟩ → Denotes N a A →
      Denotes N' a' A → ∃ b' q', N' a' = some ⟨b', .string nm, q'⟩ := by
    intro a b nm q a' A h1 h2 h3
    obtain ⟨n', hn'⟩ := h3.node_some
    have := h2.data h3 h1 hn'
    obtain ⟨b', d, q'⟩ := n'
    simp only at this
    subst this
    exact ⟨b', q', hn'⟩
  induction h with
  | @last i a b v nm q h1 h2 =>
    intro j D hD hD'
    cases hD with
    | boot k1 k2 =>
      cases hD' with
      | boot m1 m2 =>
        obtain ⟨a1, a2⟩ := boot_entries i k1 _ (k2 ▸ h1)
        refine .last (by rw [m2, ← k2]; exact h1) ?_ (b := b) (q := q)
        rw [hb' a a1, ← hb a a1]; exact h2
    | root k1 k2 k3 =>
      rw [h1] at k2; cases k2
      cases hD' with
      | root m1 m2 m3 =>
        obtain ⟨b', q', hn⟩ := name h2 k3 m3
        exact .last m2 hn
    | child k1 k2 => rw [h1] at k2; cases k2
  | @step i a b p v nm q l h1 h2 _ ih =>
    intro j D hD hD'
    cases hD with
    | boot k1 k2 =>
      cases hD' with
      | boot m1 m2 =>
        obtain ⟨a1, a2⟩ := boot_entries i k1 _ (k2 ▸ h1)
        have hp : p < 12 := a2 p rfl
        refine .step (by rw [m2, ← k2]; exact h1) (b := b) (q := q) ?_ (ih (.boot hp (hb p hp)) (.boot hp (hb' p hp)))
        rw [hb' a a1, ← hb a a1]; exact h2
    | root k1 k2 => rw [h1] at k2; cases k2
    | child k1 k2 k3 k4 =>
      rw [h1] at k2; cases k2
      cases hD' with
      | child m1 m2 m3 m4 =>
        obtain ⟨b', q', hn⟩ := name h2 k3 m3
        exact .step m2 hn (ih k4 m4)

theorem contents_split {S : Src} : ∀ {es : List DEnt} {ls : List (List (List Byte × Val))}, List.Forall₂ (Expands S.node) es ls →
    ∃ lr li, List.Forall₂ (fun i l => Path S.node i l ∧ ∃ n, S.node i = some n ∧ n.attr ≠ 8) (S.refsOf es) lr ∧
      List.Forall₂ (fun (p : Nat × Val) l => ∃ name q, S.node p.1 = some ⟨8, .string name, q⟩ ∧ l = [(name, p.2)]) (S.immsOf es) li ∧
      (lr.flatten ++ li.flatten).Perm ls.flatten := by
  intro es ls h
  induction h with
  | nil => exact ⟨[], [], .nil, .nil, by simp⟩
  | @cons e l es ls h1 _ ih =>
    obtain ⟨lr, li, a, b, c⟩ := ih
    cases h1 with
    | empty he => exact ⟨lr, li, by simpa [Src.refsOf, he] using a, by simpa [Src.immsOf, he] using b, by simpa using c⟩
    | @ref i n _ he hn h8 hp =>
      refine ⟨l :: lr, li, ?_, ?_, ?_⟩
      · have : S.refsOf (e :: es) = i :: S.refsOf es := by simp [Src.refsOf, he, Src.isImm, hn, h8]
        rw [this]
        exact .cons ⟨hp, n, hn, h8⟩ a
      · have : S.immsOf (e :: es) = S.immsOf es := by simp [Src.immsOf, he, Src.isImm, hn, h8]
        rw [this]; exact b
      · simp only [List.flatten_cons, List.append_assoc]
        exact List.Perm.append_left l c
    | @imm i name q he hn =>
      refine ⟨lr, [(name, e.val)] :: li, ?_, ?_, ?_⟩
      · have : S.refsOf (e :: es) = S.refsOf es := by simp [Src.refsOf, he, Src.isImm, hn]
        rw [this]; exact a
      · have : S.immsOf (e :: es) = (i, e.val) :: S.immsOf es := by simp [Src.immsOf, he, Src.isImm, hn]
        rw [this]
        exact .cons ⟨name, q, hn, rfl⟩ b
      · simp only [List.flatten_cons]
        refine List.Perm.trans ?_ (List.Perm.append_left _ c)
        have := List.perm_append_comm (l₁ := lr.flatten) (l₂ := [(name, e.val)])
        simpa using List.Perm.append_right li.flatten this

theorem sameRec_contents {F : DblFmt} {S : Src} {db : DB} (hS : S.Sound F) (hdb : db.OK) {es r : List DEnt}
    (h : SameRec S db (S.refsOf es, S.immsOf es) r) {l : List (List Byte × Val)} (hc : Contents S.node es l) :
    ∃ l', Contents db.node? r l' ∧ l'.Perm l := by
  obtain ⟨ls, hls, rfl⟩ := hc
  obtain ⟨lr, li, h1, h2, hp⟩ := contents_split hls
  obtain ⟨r1, r2, rfl, k1, k2⟩ := h
  refine ⟨(lr ++ li).flatten, ⟨lr ++ li, List.rel_append ?_ ?_, rfl⟩, by simpa using hp⟩
  · clear h2 k2 hp hls
    simp only at k1
    generalize S.refsOf es = refs at h1 k1
    induction h1 generalizing r1 with
    | nil => cases k1; exact .nil
    | @cons i l refs lr a _ ih =>
      cases k1 with
      | cons b k1 =>
        refine .cons ?_ (ih _ k1)
        obtain ⟨hpath, n, hn, h8⟩ := a
        obtain ⟨D, n2, j, d1, d2, d3, d4, d5⟩ := b
        obtain ⟨n', hn'⟩ := d4.node_some
        refine .ref d3 hn' ?_ (hpath.transfer hS.boot (fun i hi => hdb.bootAt hi) d1 d4)
        have e1 := d1.isOf_iff hn 8 (by omega)
        have e2 := d4.isOf_iff hn' 8 (by omega)
        exact fun e => h8 (e1.1 (e2.2 e))
  · clear h1 k1 hp hls
    simp only at k2
    generalize S.immsOf es = imms at h2 k2
    induction h2 generalizing r2 with
    | nil => cases k2; exact .nil
    | @cons p l imms li a _ ih =>
      cases k2 with
      | cons b k2 =>
        refine .cons ?_ (ih _ k2)
        obtain ⟨name, q, hn, rfl⟩ := a
        obtain ⟨A, j, d1, d2, d3, d4⟩ := b
        obtain ⟨n', hn'⟩ := d3.node_some
        have e1 := d1.isOf_iff hn 8 (by omega)
        have e2 := d3.isOf_iff hn' 8 (by omega)
        have e3 := d1.data d3 hn hn'
        have e4 : n'.attr = 8 := e2.1 (e1.2 rfl)
        obtain ⟨x, y, z⟩ := n'
        simp only at e3 e4
        subst e3 e4
        rw [← d4]
        exact .imm d2 hn'

/-! ## C26 -/

/-- C26: the lines a new writer produces for any sequence of calls: every node appears at most once, with its contents; every
id used as attribute, parent, reference or immediate attribute is built in or defined on an earlier line; and there is exactly
one record line per call, in order, holding the entries of the record. -/
theorem C26_nodes_once_before_use (S : Src) (hS : S.Acyclic) (calls : List (Kind × List DEnt)) (hh : ∀ c ∈ calls, S.Has c.2) :
    (nodeIds (writeAll S .init calls).lines).Nodup ∧
    (∀ id n, WLine.node id n ∈ (writeAll S .init calls).lines → S.node id = some n) ∧
    (∀ pre l post, (writeAll S .init calls).lines = pre ++ l :: post →
      ∀ i ∈ l.uses, i < 11 ∨ ∃ n, WLine.node i n ∈ pre) ∧
    recsOf (writeAll S .init calls).lines = calls.map fun c => (c.1, S.refsOf c.2, S.immsOf c.2) := by
  obtain ⟨h, hr⟩ := writeAll_spec S hS calls .init (WInv.init S) hh
  refine ⟨by rw [h.ids]; exact h.nodup, fun id n hm => (h.lines id n hm).1, ?_, hr⟩
  intro pre l post e i hi
  exact (h.defd pre l post e i hi).imp id mem_nodeIds.1

/-! ## databases as sources: what was read can be written again -/

/-- the metadata of a database as input of a writer -/
def DB.asSource (db : DB) : Src := ⟨db.node?, fun i => i⟩

theorem DB.asSource_acyclic {db : DB} (h : db.OK) : (DB.asSource db).Acyclic := by
  have key : ∀ i n, db.node? i = some n → 11 ≤ i → (n.attr < 11 ∨ (db.node? n.attr).isSome ∧ n.attr < i) ∧
      ∀ p, n.parent = some p → p < 11 ∨ (db.node? p).isSome ∧ p < i := by
    intro i n hn h11
    by_cases h12 : 12 ≤ i
    · obtain ⟨a, _, c⟩ := h.wf i n hn h12
      have hl := (List.getElem?_eq_some_iff.1 hn).1
      have some : ∀ j, j < i → (db.node? j).isSome := by
        intro j hj
        rw [DB.node?, List.getElem?_eq_getElem (by omega)]; rfl
      exact ⟨.inr ⟨some _ a, a⟩, fun p hp => .inr ⟨some _ (c p hp), c p hp⟩⟩
    · have : i = 11 := by omega
      subst this
      unfold DB.node? at hn
      rw [h.bootAt (by omega)] at hn
      simp [bootNodes] at hn
      subst hn
      simp
  exact ⟨fun i n hn h11 => (key i n hn h11).1, fun i n p hn h11 hp => (key i n hn h11).2 p hp⟩

theorem DB.asSource_sound {F : DblFmt} {db : DB} (h : db.OK) (hlen : db.nodes.length ≤ invN)
    (hv : ∀ i n, db.nodes[i]? = some n → 12 ≤ i → n.data.ty = db.attrType (some n.attr) ∧ Supported F n.data ∧
      db.hidden (some n.attr) = false) : (DB.asSource db).Sound F := by
  refine ⟨DB.asSource_acyclic h, ?_, fun i hi => h.bootAt hi, ?_, ?_⟩
  · intro i n hn
    have := (List.getElem?_eq_some_iff.1 hn).1
    omega
  · intro i n hn h12
    obtain ⟨a, b, _⟩ := h.wf i n hn h12
    have hl := (List.getElem?_eq_some_iff.1 hn).1
    obtain ⟨A, hA⟩ := h.denotes n.attr (by omega)
    obtain ⟨h1, h2, h3⟩ := hv i n hn h12
    refine ⟨A, hA, ?_, ?_, h2, ?_⟩
    · rcases DB.OK.attribute? hA with k | k
      · exact k.2
      · rw [k.1] at b; cases b
    · rw [h1, h.attrType hA]
    · unfold DB.hidden at h3
      rw [h.attrProp hA] at h3
      simpa using h3
  · intro i n hn h12 hm
    obtain ⟨k, hk⟩ := List.mem_iff_getElem?.1 hm
    have hk12 : k < 12 := (List.getElem?_eq_some_iff.1 hk).1
    rw [← h.bootAt hk12] at hk
    have := (List.getElem?_inj (List.getElem?_eq_some_iff.1 hk).1 h.nodup).1 (hk.trans (show db.nodes[i]? = some n from hn).symm)
    omega

/-! ## C25 -/

/-- C25 (part: metadata and values the format supports): writing any records to a file and reading the file into any
database, whatever it contains already, succeeds without error and delivers, record by record, a record with the same
contents: same attribute names and values, expanded along the context tree.

Missing: values of the user-defined and pointer types, strings with characters outside printable ASCII, attributes marked
hidden, records without entries and records consisting of a single immediate entry with an empty text (see the theorems
below). -/
theorem C25_roundtrip_partial (F : DblFmt) (S : Src) (hS : S.Sound F) (records : List (List DEnt)) (hr : ∀ es ∈ records, S.RecOK F es)
    (db : DB) (hdb : db.OK) (hlen : db.nodes.length + fileCost S (records.map fun es => (Kind.snapshot, es)) ≤ invN) :
    ∃ s, readCali F db (caliFile F S (records.map fun es => (Kind.snapshot, es))) = some s ∧ s.err = false ∧
      List.Forall₂ (fun es r => ∀ l, Contents S.node es l → ∃ l', Contents s.db.node? r l' ∧ l'.Perm l) records s.recs := by
  obtain ⟨s, e, h1, h2, h3, h4, _⟩ := roundtrip hS (records.map fun es => (Kind.snapshot, es))
    (by intro c hc; obtain ⟨es, he, rfl⟩ := List.mem_map.1 hc; exact hr es he) db hdb hlen
  refine ⟨s, e, h1, ?_⟩
  have e : S.snaps (records.map fun es => (Kind.snapshot, es)) = records.map fun es => (S.refsOf es, S.immsOf es) := by
    simp [Src.snaps, List.filterMap_map]
  rw [e, List.forall₂_map_left_iff] at h4
  exact forall₂_imp (fun es r hsr l hl => sameRec_contents hS h2 hsr hl) h4

/-- C25: the same with globals records in between; moreover the attributes are the same attributes (name, type, properties
and metadata), references come first, then immediate entries, and data read earlier is still there. -/
theorem C25_same_attributes_partial (F : DblFmt) (S : Src) (hS : S.Sound F) (calls : List (Kind × List DEnt))
    (hr : ∀ c ∈ calls, S.RecOK F c.2) (db : DB) (hdb : db.OK) (hlen : db.nodes.length + fileCost S calls ≤ invN) :
    ∃ s, readCali F db (caliFile F S calls) = some s ∧ s.err = false ∧ List.Forall₂ (SameRec S s.db) (S.snaps calls) s.recs ∧
      ∀ i n, db.node? i = some n → s.db.node? i = some n := by
  obtain ⟨s, e, h1, h2, h3, h4, _⟩ := roundtrip hS calls hr db hdb hlen
  exact ⟨s, e, h1, h4, fun i n hn => h3.node hn⟩

/-! ## C27 -/

/-- databases a program can have: created, extended by attributes and globals, and by reading any streams (also invalid
ones) that do not crash the reader -/
inductive Reachable (F : DblFmt) : DB → Prop
  | init : Reachable F DB.init
  | read {db : DB} {s : RState} {file : List Byte} : Reachable F db → readCali F db file = some s → Reachable F s.db
  | attr {db : DB} {name : List Byte} {ty : AttrType} {prop : BitVec 32} {metas : List (Nat × Val)} {u al : Nat} : Reachable F db →
      (∀ x ∈ metas, (db.attribute? x.1).isSome) → (db.attribute? u).isSome → (db.attribute? al).isSome →
      Reachable F (db.createAttribute name ty prop metas u al).1
  | glob {db : DB} {a : Nat} {v : Val} : Reachable F db → (db.attribute? a).isSome → Reachable F (db.setGlobal a v)

theorem Reachable.ok {F : DblFmt} {db : DB} (h : Reachable F db) : db.OK := by
  induction h with
  | init => exact DB.init_ok
  | read _ e ih => exact (RState.lines_ok ih e).1
  | attr _ h1 h2 h3 ih => exact (ih.createAttribute _ _ _ _ _ _ h1 h2 h3).1
  | glob _ h1 ih => exact (ih.setGlobal _ _ h1).1

/-- C27: reading a further stream, valid or not, never changes a node: same attribute, value and parent, same meaning. -/
theorem C27_earlier_nodes_unchanged (F : DblFmt) (db : DB) (hdb : Reachable F db) (file : List Byte) (s : RState)
    (hr : readCali F db file = some s) :
    (∀ i n, db.node? i = some n → s.db.node? i = some n) ∧
    (∀ i D, Denotes db.node? i D → Denotes s.db.node? i D) ∧
    (∀ i l, Path db.node? i l → Path s.db.node? i l) := by
  have hx := (RState.lines_ok hdb.ok hr).2.1
  refine ⟨fun i n h => hx.node h, fun i D h => hx.denotes h, ?_⟩
  intro i l h
  induction h with
  | last h1 h2 => exact .last (hx.node h1) (hx.node h2)
  | step h1 h2 _ ih => exact .step (hx.node h1) (hx.node h2) ih

/-- C27: in any database identical paths share one node: two nodes with the same attribute, value and parent are the same
node; so are two nodes whose whole paths (including the attributes' names, types and metadata) are equal. -/
theorem C27_identical_paths_share (F : DblFmt) (db : DB) (hdb : Reachable F db) :
    (∀ i j n, db.node? i = some n → db.node? j = some n → i = j) ∧
    (∀ i j D, Denotes db.node? i D → Denotes db.node? j D → i = j) := by
  refine ⟨?_, fun i j D => hdb.ok.inj⟩
  intro i j n hi hj
  exact (List.getElem?_inj (List.getElem?_eq_some_iff.1 hi).1 hdb.ok.nodup).1 (hi.trans hj.symm)

/-- C27: every node has exactly one path. -/
theorem C27_every_node_one_path (F : DblFmt) (db : DB) (hdb : Reachable F db) (i : Nat) (hi : (db.node? i).isSome) :
    ∃ D, Denotes db.node? i D ∧ ∀ D', Denotes db.node? i D' → D' = D := by
  obtain ⟨n, hn⟩ := Option.isSome_iff_exists.1 hi
  obtain ⟨D, hD⟩ := hdb.ok.denotes i (List.getElem?_eq_some_iff.1 hn).1
  exact ⟨D, hD, fun D' hD' => hD'.det hD⟩

/-- C27: two streams read one after the other: a node of the first and a node of the second stream end up as the same node
exactly if they have the same path, whatever ids they have in their streams. -/
theorem C27_two_streams (F : DblFmt) (db : DB) (hdb : Reachable F db) (S₁ S₂ : Src) (h₁ : S₁.Sound F) (h₂ : S₂.Sound F)
    (c₁ c₂ : List (Kind × List DEnt)) (r₁ : ∀ c ∈ c₁, S₁.RecOK F c.2) (r₂ : ∀ c ∈ c₂, S₂.RecOK F c.2)
    (hlen : db.nodes.length + fileCost S₁ c₁ ≤ invN) (s₁ s₂ : RState) (e₁ : readCali F db (caliFile F S₁ c₁) = some s₁)
    (hlen₂ : s₁.db.nodes.length + fileCost S₂ c₂ ≤ invN) (e₂ : readCali F s₁.db (caliFile F S₂ c₂) = some s₂)
    (i₁ i₂ : Nat) (m₁ : i₁ ∈ nodeIds (writeAll S₁ .init c₁).lines) (m₂ : i₂ ∈ nodeIds (writeAll S₂ .init c₂).lines)
    (D₁ D₂ : Deep) (d₁ : Denotes S₁.node i₁ D₁) (d₂ : Denotes S₂.node i₂ D₂) :
    mapId s₁.idmap i₁ = mapId s₂.idmap i₂ ↔ D₁ = D₂ := by
  obtain ⟨s, e, _, _, _, _, hm⟩ := roundtrip h₁ c₁ r₁ db hdb.ok hlen
  rw [e₁] at e; cases e
  have hR : Reachable F s₁.db := .read hdb e₁
  obtain ⟨s, e, _, hok, hext, _, hm₂⟩ := roundtrip h₂ c₂ r₂ s₁.db hR.ok hlen₂
  rw [e₂] at e; cases e
  have k₁ := hext.denotes (hm i₁ D₁ m₁ d₁)
  have k₂ := hm₂ i₂ D₂ m₂ d₂
  constructor
  · intro h
    rw [h] at k₁
    exact k₁.det k₂
  · rintro rfl
    exact hok.inj k₁ k₂

/-! ## the hypotheses are met, and the limits of C25 -/

instance (F : DblFmt) (v : Val) : Decidable (Supported F v) := by
  cases v <;> unfold Supported <;> first | infer_instance | (unfold Plain; infer_instance)

namespace Demo

/-- a number format for the examples -/
def F : DblFmt := ⟨fun _ => [], fun _ => [], fun _ => none⟩

/-- a database with a region attribute, a counter stored as value and regions `main/foo` -/
def src : DB :=
  let db := (DB.init.createAttribute (str "region") .string 256 [] 14 13).1
  let db := (db.createAttribute (str "count") .int 1 [] 14 13).1
  let db := (db.mergeNode 50 16 invN (.string (str "main"))).1
  (db.mergeNode 51 16 19 (.string (str "fo=o,"))).1

/-- another database, in which the same ids stand for other things -/
def other : DB := (DB.init.createAttribute (str "function") .string 256 [] 14 13).1

/-- entries: path `main/fo=o,` and `count=42` -/
def rec1 : List DEnt := [⟨some 18, .int 42⟩, ⟨some 20, .inv⟩]

theorem src_ok : Reachable F src := by
  have h : Reachable F (((DB.init.createAttribute (str "region") .string 256 [] 14 13).1).createAttribute (str "count") .int 1 [] 14 13).1 :=
    .attr (.attr .init (by simp) (by decide) (by decide)) (by simp) (by decide) (by decide)
  have e : readCali F (((DB.init.createAttribute (str "region") .string 256 [] 14 13).1).createAttribute (str "count") .int 1 [] 14 13).1
      (str "__rec=node,id=50,attr=16,data=main\n__rec=node,id=51,attr=16,data=fo\\=o\\,,parent=50\n") =
        some ⟨src, [(50, 19), (51, 20)], false, []⟩ := by decide +kernel
  exact .read h e

theorem src_sound : (DB.asSource src).Sound F := by
  refine DB.asSource_sound src_ok.ok (by decide +kernel) ?_
  have all : ∀ i, i < src.nodes.length → 12 ≤ i → ∀ n ∈ src.nodes[i]?, n.data.ty = src.attrType (some n.attr) ∧ Supported F n.data ∧
      src.hidden (some n.attr) = false := by decide +kernel
  intro i n hn h12
  exact all i (List.getElem?_eq_some_iff.1 hn).1 h12 n hn

theorem rec1_ok : (DB.asSource src).RecOK F rec1 := by
  refine ⟨?_, ?_, by decide +kernel, ?_⟩
  · intro e he i hi
    have : ∀ e ∈ rec1, ∀ i ∈ e.node, ((DB.asSource src).node i).isSome := by decide +kernel
    exact this e he i hi
  · have e : (DB.asSource src).immsOf rec1 = [(18, .int 42)] := by decide +kernel
    rw [e]
    intro p hp
    simp at hp
    subst hp
    refine ⟨trivial, ?_⟩
    obtain ⟨A, hA⟩ := src_ok.ok.denotes 18 (by decide +kernel)
    exact ⟨A, hA, by rw [← src_ok.ok.attrType hA]; decide +kernel⟩
  · have e : (DB.asSource src).immsOf rec1 = [(18, .int 42)] := by decide +kernel
    rw [e]
    intro p hp
    simp at hp
    subst hp
    decide +kernel

/-- the hypotheses of C25, C26 and C27 hold here, and the contents of the record are what one expects -/
example : (DB.asSource src).Sound F ∧ (DB.asSource src).RecOK F rec1 ∧ other.OK ∧
    other.nodes.length + fileCost (DB.asSource src) [(Kind.snapshot, rec1)] ≤ invN ∧
    other.node? 16 ≠ none ∧ other.node? 16 ≠ src.node? 16 ∧
    Contents src.node? rec1 [(str "count", .int 42), (str "region", .string (str "fo=o,")), (str "region", .string (str "main"))] := by
  refine ⟨src_sound, rec1_ok, ?_, by decide +kernel, by decide +kernel, by decide +kernel, ?_⟩
  · exact (DB.init_ok.createAttribute _ _ _ _ _ _ (by simp) (by decide +kernel) (by decide +kernel)).1
  · refine ⟨[[(str "count", .int 42)], [(str "region", .string (str "fo=o,")), (str "region", .string (str "main"))]], ?_, by simp⟩
    refine .cons (.imm (i := 18) rfl (q := some 17) (by decide +kernel)) (.cons ?_ .nil)
    refine .ref (i := 20) rfl (n := ⟨16, .string (str "fo=o,"), some 19⟩) (by decide +kernel) (by decide) ?_
    exact .step (a := 16) (b := 8) (p := 19) (q := some 15) (by decide +kernel) (by decide +kernel)
      (.last (a := 16) (b := 8) (q := some 15) (by decide +kernel) (by decide +kernel))

/-- a database with a string attribute stored as value, a hidden one and a pointer one -/
def odd : DB :=
  let db := (DB.init.createAttribute (str "tag") .string 1 [] 14 13).1
  let db := (db.createAttribute (str "secret") .string 128 [] 14 13).1
  let db := (db.createAttribute (str "p") .ptr 0 [] 14 13).1
  let db := (db.mergeNode 50 18 invN (.string (str "x"))).1
  (db.mergeNode 51 20 invN (.ptr 5)).1

end Demo

open Demo

/-- limit of C25: a record without entries is written, but reported as a parse error instead of being delivered -/
theorem C25_empty_record_violated (F : DblFmt) (S : Src) (db : DB) :
    readCali F db (caliFile F S [(Kind.snapshot, [])]) = some ⟨db, [], true, []⟩ := by
  have e : caliFile F S [(Kind.snapshot, [])] = str "__rec=ctx\n" := by
    simp [caliFile, writeAll, writeRec, writeDeps, Src.refsOf, Src.immsOf, WLine.text, recLine, fileText, WState.init,
      Kind.header]
    decide
  have p : parseFile (str "__rec=ctx\n") = [.bad] := by decide +kernel
  rw [e, readCali, p]
  rfl

/-- limit of C25: a record consisting of one entry with an empty string is delivered without the entry -/
theorem C25_single_empty_text_violated :
    (readCali F DB.init (caliFile F (DB.asSource odd) [(Kind.snapshot, [⟨some 16, .string []⟩])])).map (·.recs) = some [[]] ∧
    odd.node? 16 = some ⟨8, .string (str "tag"), some 15⟩ := by decide +kernel

/-- limit of C25: the values of hidden attributes are replaced by empty ones -/
theorem C25_hidden_violated :
    (readCali F DB.init (caliFile F (DB.asSource odd) [(Kind.snapshot, [⟨some 21, .inv⟩])])).map (·.recs) =
      some [[⟨some 17, .usr []⟩]] ∧ odd.node? 21 = some ⟨18, .string (str "x"), none⟩ := by decide +kernel

/-- limit of C25: a node holding a pointer crashes the reader -/
theorem C25_pointer_value_crash : readCali F DB.init (caliFile F (DB.asSource odd) [(Kind.snapshot, [⟨some 22, .inv⟩])]) = none ∧
    odd.node? 22 = some ⟨20, .ptr 5, none⟩ := by decide +kernel


end Verif
