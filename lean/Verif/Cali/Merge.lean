import Verif.Cali.RoundTrip
/-!
# Merging records of another metadata database

Model of `recursive_merge_node`, `merge_snapshot(db, rec)` and `import_globals` of
`/repo/src/reader/CaliperMetadataDB.cpp:253-287, 463-480`, which `runtime-report`, `mpi-report`, the `report` service, the Spot
and loop report controllers and `collective_flush` use to bring the records of the running program into a query database.

The other database is a `Src`: the map from node ids to nodes that `CaliperMetadataAccessInterface::node` gives; nodes are named
by their ids there, so `e.node()` is an id and `node->parent()` the parent's id.  Values of immediate entries are copied as they
are (the pointer of a string or blob is shared with the source; lifetimes are not modelled).
-/
namespace Verif.Cali
open Verif

/-- bytes up to the first NUL, padded with NULs to the old length: `strncpy` into a buffer of that length
(`CaliperMetadataDB.cpp:135-137`) -/
def strncpyPad (bs : List Byte) : List Byte :=
  bs.takeWhile (fun c => decide (c ≠ 0)) ++ List.replicate (bs.length - (bs.takeWhile (fun c => decide (c ≠ 0))).length) 0

/-- the value a merged node gets (`CaliperMetadataDB.cpp:263-266`, `122-143`): a string is copied by `make_string_variant`, which
drops one trailing NUL; other values are kept.  The string database behind `make_string_variant` is the subject of C41. -/
def mergedVal : Val → Val
  | .string bs => .string (strncpyPad (if bs.getLast? = some 0 then bs.dropLast else bs))
  | v => v

/-- `recursive_merge_node(node, db)` (`CaliperMetadataDB.cpp:253-269`).  Outer `none`: null pointer dereference
(`attr_node->id()`, line 268) or, with the fuel used up, endless recursion; inner `none`: the null pointer. -/
def DB.recMerge (S : Src) : Nat → DB → Option Nat → Option (DB × Option Nat)
  | 0, _, _ => none
  | _ + 1, db, none => some (db, none)
  | fuel + 1, db, some i =>
    if i = invN then some (db, none)
    else if i < 12 then some (db, some i)
    else match S.node i with
      | none => some (db, none)
      | some n =>
        match db.recMerge S fuel (some n.attr) with
        | none => none
        | some (_, none) => none
        | some (db, some a) =>
          match db.recMerge S fuel n.parent with
          | none => none
          | some (db, p) => some (db.mergeNode i a (p.getD invN) (mergedVal n.data))

/-- `Entry::is_immediate()` in the source (`Entry.h:85`) -/
def Src.immediate (S : Src) (i : Nat) : Bool := match S.node i with
  | some n => decide (n.attr = 8)
  | none => false

/-- the merged entry (`CaliperMetadataDB.cpp:279-282`): `Entry(Node*)` or `Entry(Attribute, Variant)`; an entry without node is
neither a reference nor immediate and is left out -/
def DB.mergedEntry (S : Src) (db : DB) (e : DEnt) (node : Option Nat) : List DEnt :=
  match e.node with
  | none => []
  | some i =>
    if S.immediate i then
      match node.bind db.attribute? with
      | some a => [⟨some a, e.val⟩]
      | none => [⟨none, e.val⟩]
    else [⟨node, ((node.bind db.node?).map Nd.data).getD .inv⟩]

/-- `merge_snapshot(db, rec)` (`CaliperMetadataDB.cpp:271-287`) -/
def DB.mergeRecord (S : Src) (fuel : Nat) : DB → List DEnt → Option (DB × List DEnt)
  | db, [] => some (db, [])
  | db, e :: es =>
    match db.recMerge S fuel e.node with
    | none => none
    | some (db', node) =>
      match db'.mergeRecord S fuel es with
      | none => none
      | some (db'', r) => some (db'', db'.mergedEntry S e node ++ r)

/-- `import_globals` (`CaliperMetadataDB.cpp:463-480`) -/
def DB.importGlobals (S : Src) (fuel : Nat) (db : DB) (es : List DEnt) : Option DB :=
  match ({ db with globals := [] } : DB).mergeRecord S fuel es with
  | none => none
  | some (db', r) => some { db' with globals := r }

/-! ## specification and lemmas -/

/-- a value whose copy is the same: not the empty variant, and no NUL in a string -/
def Val.Copies : Val → Prop
  | .inv => False
  | .string bs => ∀ c ∈ bs, c ≠ 0
  | _ => True

/-- a metadata database records can be taken from: its built-in nodes are the usual ones, every other node has an attribute and
maybe a parent, both of which are nodes created before it (`rank`); no node repeats a built-in node; ids are below
`CALI_INV_ID`; the values can be copied -/
structure Src.Mergeable (S : Src) : Prop where
  boot : ∀ i, i < 12 → S.node i = bootNodes[i]?
  attr : ∀ i n, S.node i = some n → 12 ≤ i →
    (∃ m, S.node n.attr = some m ∧ m.attr = 8) ∧ (n.attr < 12 ∨ S.rank n.attr < S.rank i)
  parent : ∀ i n p, S.node i = some n → 12 ≤ i → n.parent = some p → (S.node p).isSome ∧ (p < 12 ∨ S.rank p < S.rank i)
  small : ∀ i n, S.node i = some n → i < invN
  fresh : ∀ i n, S.node i = some n → 12 ≤ i → n ∉ bootNodes
  value : ∀ i n, S.node i = some n → 12 ≤ i → n.data.Copies

theorem mergedVal_eq {v : Val} (h : v.Copies) : mergedVal v = v := by
  cases v with
  | string bs =>
    have h : ∀ c ∈ bs, c ≠ 0 := h
    have h1 : bs.getLast? ≠ some 0 := by
      intro e
      exact h 0 (List.mem_of_getLast? e) rfl
    have h2 : bs.takeWhile (fun c => decide (c ≠ 0)) = bs := by
      clear h1
      induction bs with
      | nil => rfl
      | cons c bs ih =>
        rw [List.takeWhile_cons, if_pos (decide_eq_true (h c List.mem_cons_self)),
          ih (fun x hx => h x (List.mem_cons_of_mem _ hx)) (fun x hx => h x (List.mem_cons_of_mem _ hx))]
    show Val.string _ = _
    rw [if_neg h1]
    unfold strncpyPad
    rw [h2]
    simp
  | _ => rfl

theorem Val.Copies.nonempty {v : Val} (h : v.Copies) : v.isEmpty = false := by
  cases v <;> first | rfl | exact h.elim

/-- an upper bound for the nodes created for one node -/
def Src.steps (S : Src) : Nat → Nat → Nat
  | 0, _ => 0
  | fuel + 1, i =>
    if i < 12 then 0
    else match S.node i with
      | none => 0
      | some n => 1 + S.steps fuel n.attr + (match n.parent with
        | none => 0
        | some p => S.steps fuel p)

theorem Src.Mergeable.denotes {S : Src} (h : S.Mergeable) : ∀ (r i : Nat), S.rank i = r → (S.node i).isSome →
    ∃ D, Denotes S.node i D := by
  intro r
  induction r using Nat.strongRecOn with
  | _ r ih =>
    intro i hr hi
    by_cases h12 : i < 12
    · exact ⟨_, .boot h12 (h.boot i h12)⟩
    · obtain ⟨n, hn⟩ := Option.isSome_iff_exists.1 hi
      have sub : ∀ j, (S.node j).isSome → (j < 12 ∨ S.rank j < S.rank i) → ∃ D, Denotes S.node j D := by
        intro j hj hl
        rcases hl with hl | hl
        · exact ⟨_, .boot hl (h.boot j hl)⟩
        · exact ih _ (by omega) j rfl hj
      obtain ⟨⟨m, hm, _⟩, hl⟩ := h.attr i n hn (by omega)
      obtain ⟨A, hA⟩ := sub _ (by rw [hm]; rfl) hl
      cases hp : n.parent with
      | none => exact ⟨_, .root (by omega) (a := n.attr) (v := n.data) (by rw [hn, ← hp]) hA⟩
      | some p =>
        obtain ⟨h1, h2⟩ := h.parent i n p hn (by omega) hp
        obtain ⟨P, hP⟩ := sub p h1 h2
        exact ⟨_, .child (by omega) (a := n.attr) (v := n.data) (by rw [hn, ← hp]) hA hP⟩

theorem invN_ge : 12 ≤ invN := by unfold invN; omega

/-- one merged node, given its merged attribute and parent -/
theorem merge_one {S : Src} (hS : S.Mergeable) {db : DB} (hdb : db.OK) {i : Nat} {n : Nd} (hn : S.node i = some n) (h12 : 12 ≤ i)
    {D : Deep} (hD : Denotes S.node i D) {a : Nat} {A : Deep} (hA : Denotes S.node n.attr A) (ha : Denotes db.node? a A)
    {p : Option Nat} (hp : match n.parent with
      | none => p = none
      | some q => ∃ j P, p = some j ∧ Denotes S.node q P ∧ Denotes db.node? j P) (hlen : db.nodes.length ≤ invN) :
    ∃ j, (db.mergeNode i a (p.getD invN) (mergedVal n.data)).2 = some j ∧
      (db.mergeNode i a (p.getD invN) (mergedVal n.data)).1.OK ∧ db.Ext (db.mergeNode i a (p.getD invN) (mergedVal n.data)).1 ∧
      (db.mergeNode i a (p.getD invN) (mergedVal n.data)).1.globals = db.globals ∧
      Denotes (db.mergeNode i a (p.getD invN) (mergedVal n.data)).1.node? j D ∧
      (∀ j', Denotes db.node? j' D → (db.mergeNode i a (p.getD invN) (mergedVal n.data)).1 = db) := by
  rw [mergedVal_eq (hS.value i n hn h12)]
  obtain ⟨b1, b2, b3, b4, b5, b6⟩ := hdb.mergeNode i a (p.getD invN) n.data
  have hal : a < db.nodes.length := ha.lt
  have hat : (db.attribute? a).isSome := by
    obtain ⟨⟨m, hm, hm8⟩, _⟩ := hS.attr i n hn h12
    have : A.isOf 8 := (hA.isOf_iff hm 8 (by omega)).2 hm8
    rcases DB.OK.attribute? ha with ⟨e, _⟩ | ⟨_, e⟩
    · rw [e]; rfl
    · exact absurd this e
  have hpl : ∀ j, p = some j → j < db.nodes.length := by
    intro j hj
    cases hq : n.parent with
    | none => rw [hq] at hp; simp only at hp; rw [hp] at hj; cases hj
    | some q =>
      rw [hq] at hp
      obtain ⟨j', P, e1, _, e3⟩ := hp
      rw [hj] at e1; cases e1; exact e3.lt
  have hpid : (p.getD invN ≠ invN → p.getD invN < db.nodes.length) := by
    intro hne
    cases p with
    | none => exact absurd rfl hne
    | some j => exact hpl j rfl
  have hpi : (if p.getD invN = invN then none else some (p.getD invN)) = p := by
    cases p with
    | none => simp
    | some j =>
      have := hpl j rfl
      simp only [Option.getD_some]
      rw [if_neg (by omega)]
  have hs := b5 hat (by have := hS.small i n hn; omega) (by omega) (hS.value i n hn h12).nonempty hpid
  rw [hpi] at b4 b6
  obtain ⟨j, hj⟩ := Option.isSome_iff_exists.1 hs
  obtain ⟨hnd, _⟩ := b4 j hj
  refine ⟨j, hj, b1, b2, b3, ?_, ?_⟩
  · -- the node means the same
    generalize (db.mergeNode i a (p.getD invN) n.data).1 = db' at *
    have ha' := b2.denotes ha
    have hj12 : 12 ≤ j := by
      by_contra hlt
      have hlt : j < 12 := by omega
      have e1 : bootNodes[j]? = some ⟨a, n.data, p⟩ := by rw [← b1.bootAt hlt]; exact hnd
      obtain ⟨s1, s2⟩ := bootNodes_small _ (List.mem_of_getElem? e1)
      simp only at s1 s2
      have eA : A = .boot a := by
        have : Denotes db.node? a (.boot a) := .boot s1 (hdb.bootAt s1)
        exact ha.det this
      have e2 : n.attr = a := (hA.boot_iff.1 eA).1
      have e3 : n.parent = p := by
        cases hq : n.parent with
        | none => rw [hq] at hp; simp only at hp; exact hp.symm
        | some q =>
          rw [hq] at hp
          obtain ⟨j', P, f1, f2, f3⟩ := hp
          have hj' : j' < 12 := s2 j' (by rw [f1]; rfl)
          have : P = .boot j' := f3.det (.boot hj' (hdb.bootAt hj'))
          rw [(f2.boot_iff.1 this).1, f1]
      refine hS.fresh i n hn h12 ?_
      have : n = ⟨a, n.data, p⟩ := by rw [← e2, ← e3]
      rw [this]
      exact List.mem_of_getElem? e1
    cases hD with
    | boot h1 => omega
    | root h1 h2 h3 =>
      rw [hn] at h2; cases h2
      simp only at hp hA hnd
      rw [h3.det hA]
      rw [hp] at hnd
      exact .root hj12 hnd ha'
    | child h1 h2 h3 h4 =>
      rw [hn] at h2; cases h2
      simp only at hp hA hnd
      obtain ⟨j', P, f1, f2, f3⟩ := hp
      rw [h3.det hA, h4.det f2]
      rw [f1] at hnd
      exact .child hj12 hnd ha' (b2.denotes f3)
  · intro j' hj'
    refine b6 ⟨j', ?_⟩
    cases hD with
    | boot h1 => omega
    | root h1 h2 h3 =>
      rw [hn] at h2; cases h2
      simp only at hp hA
      cases hj' with
      | root k1 k2 k3 =>
        rw [h3.det hA] at k3
        rw [hdb.inj k3 ha] at k2
        rw [hp]; exact k2
    | child h1 h2 h3 h4 =>
      rw [hn] at h2; cases h2
      simp only at hp hA
      obtain ⟨j'', P, f1, f2, f3⟩ := hp
      cases hj' with
      | child k1 k2 k3 k4 =>
        rw [h3.det hA] at k3
        rw [h4.det f2] at k4
        rw [hdb.inj k3 ha, hdb.inj k4 f3] at k2
        rw [f1]; exact k2

theorem recMerge_spec {S : Src} (hS : S.Mergeable) : ∀ (fuel : Nat) {db : DB}, db.OK → ∀ {i : Nat} {D : Deep}, Denotes S.node i D →
    S.rank i + 1 < fuel ∨ i < 12 ∧ 0 < fuel → db.nodes.length + S.steps fuel i ≤ invN →
    ∃ db' j, db.recMerge S fuel (some i) = some (db', some j) ∧ db'.OK ∧ db.Ext db' ∧ db'.globals = db.globals ∧
      Denotes db'.node? j D ∧ db'.nodes.length ≤ db.nodes.length + S.steps fuel i ∧
      (∀ j', Denotes db.node? j' D → db' = db) := by
  intro fuel
  induction fuel with
  | zero => intro db _ i D _ h; omega
  | succ fuel ih =>
    intro db hdb i D hD hf hlen
    obtain ⟨n, hn⟩ := hD.node_some
    have hi : i ≠ invN := by have := hS.small i n hn; omega
    unfold DB.recMerge
    rw [if_neg hi]
    by_cases h12 : i < 12
    · rw [if_pos h12]
      have : D = .boot i := hD.det (.boot h12 (hS.boot i h12))
      subst this
      exact ⟨db, i, rfl, hdb, .refl db, rfl, .boot h12 (hdb.bootAt h12), by omega, fun _ _ => rfl⟩
    · rw [if_neg h12]
      have hr : S.rank i < fuel := by omega
      simp only [hn]
      obtain ⟨⟨m, hm, hm8⟩, hl⟩ := hS.attr i n hn (by omega)
      obtain ⟨A, hA⟩ := hS.denotes _ n.attr rfl (by rw [hm]; rfl)
      have hst : S.steps (fuel + 1) i = 1 + S.steps fuel n.attr + (match n.parent with
        | none => 0
        | some p => S.steps fuel p) := by
        simp only [Src.steps, if_neg h12, hn]
      have hpos : ∀ j, (j < 12 ∨ S.rank j < S.rank i) → S.rank j + 1 < fuel ∨ j < 12 ∧ 0 < fuel := by
        intro j hj
        rcases hj with hj | hj
        · exact .inr ⟨hj, by omega⟩
        · exact .inl (by omega)
      rw [hst] at hlen ⊢
      obtain ⟨db1, a, e1, o1, x1, g1, d1, l1, u1⟩ := ih hdb hA (hpos _ hl) (by omega)
      simp only [e1]
      -- the parent
      have hpar : ∃ db2 p, db1.recMerge S fuel n.parent = some (db2, p) ∧ db2.OK ∧ db1.Ext db2 ∧ db2.globals = db1.globals ∧
          (match n.parent with
            | none => p = none
            | some q => ∃ j P, p = some j ∧ Denotes S.node q P ∧ Denotes db2.node? j P) ∧
          db2.nodes.length ≤ db1.nodes.length + (match n.parent with
            | none => 0
            | some p => S.steps fuel p) ∧
          (∀ j', Denotes db1.node? j' D → db2 = db1) := by
        cases hp : n.parent with
        | none =>
          obtain ⟨f, rfl⟩ : ∃ f, fuel = f + 1 := ⟨fuel - 1, by omega⟩
          exact ⟨db1, none, rfl, o1, .refl _, rfl, rfl, by simp, fun _ _ => rfl⟩
        | some q =>
          obtain ⟨hq1, hq2⟩ := hS.parent i n q hn (by omega) hp
          obtain ⟨P, hP⟩ := hS.denotes _ q rfl hq1
          rw [hp] at hlen
          simp only at hlen
          obtain ⟨db2, j, e2, o2, x2, g2, d2, l2, u2⟩ := ih o1 hP (hpos _ hq2) (by omega)
          refine ⟨db2, some j, e2, o2, x2, g2, ⟨j, P, rfl, hP, d2⟩, l2, ?_⟩
          intro j' hj'
          cases hD with
          | boot h1 => omega
          | root h1 h2 => rw [hn] at h2; cases h2; cases hp
          | child h1 h2 h3 h4 =>
            rw [hn] at h2; cases h2; cases hp
            cases hj' with
            | child k1 k2 k3 k4 => exact u2 _ (h4.det hP ▸ k4)
      obtain ⟨db2, p, e2, o2, x2, g2, d2, l2, u2⟩ := hpar
      simp only [e2]
      obtain ⟨j, m1, m2, m3, m4, m5, m6⟩ := merge_one hS o2 hn (by omega) hD hA (x2.denotes d1) d2 (by
        revert l2 hlen
        generalize (match n.parent with
          | none => 0
          | some p => S.steps fuel p) = k
        intro hlen l2
        omega)
      have hml := db2.mergeNode_len i a (p.getD invN) (mergedVal n.data)
      refine ⟨(db2.mergeNode i a (p.getD invN) (mergedVal n.data)).1, j, ?_, m2, x1.trans (x2.trans m3), by rw [m4, g2, g1], m5, ?_, ?_⟩
      · rw [← m1]
      · revert l2 hlen
        generalize (match n.parent with
          | none => 0
          | some p => S.steps fuel p) = k
        intro hlen l2
        omega
      · intro j' hj'
        have q1 : db1 = db := by
          cases hD with
          | boot h1 => omega
          | root h1 h2 h3 =>
            rw [hn] at h2; cases h2
            cases hj' with
            | root k1 k2 k3 => exact u1 _ (h3.det hA ▸ k3)
          | child h1 h2 h3 h4 =>
            rw [hn] at h2; cases h2
            cases hj' with
            | child k1 k2 k3 k4 => exact u1 _ (h3.det hA ▸ k3)
        subst q1
        have q2 := u2 j' hj'
        subst q2
        exact m6 j' hj'

end Verif.Cali
