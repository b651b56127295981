import Verif.Cali.GlobalsMerge
import Verif.Props.CaliFile
/-!
# C49: run metadata survives the file; C27: attribute names in the reader
-/
namespace Verif
open Verif.Cali

/-! ## C27: looking up attributes by name -/

theorem lookup_insertNew {β : Type} (k k' : List Byte) (v : β) (l : List (List Byte × β)) :
    lookup k' (insertNew k v l) = match lookup k' l with
      | some x => some x
      | none => if k' = k then some v else none := by
  unfold insertNew
  cases h : lookup k l with
  | some x =>
    cases h' : lookup k' l with
    | some y => simp
    | none =>
      have : k' ≠ k := by rintro rfl; rw [h] at h'; cases h'
      simp [this]
  | none =>
    simp only [lookup_append]
    cases h' : lookup k' l with
    | some y => simp
    | none =>
      simp only [lookup]
      by_cases e : k' = k
      · simp [e]
      · simp [e, Ne.symm e]

/-- every name stands for an attribute of that name -/
def NamesOK (db : DB) : Prop := ∀ name i, lookup name db.attrs = some i → ∃ q, db.node? i = some ⟨8, .string name, q⟩

/-- names keep their meaning -/
def NamesKept (db db' : DB) : Prop := ∀ name i, lookup name db.attrs = some i → lookup name db'.attrs = some i

theorem NamesKept.refl (db : DB) : NamesKept db db := fun _ _ h => h
theorem NamesKept.trans {a b c : DB} (h : NamesKept a b) (h' : NamesKept b c) : NamesKept a c := fun n i e => h' n i (h n i e)

theorem NamesOK.ext {db db' : DB} (h : NamesOK db) (hx : db.Ext db') (ha : db'.attrs = db.attrs) : NamesOK db' ∧ NamesKept db db' := by
  refine ⟨?_, fun n i e => by rw [ha]; exact e⟩
  intro name i e
  rw [ha] at e
  obtain ⟨q, hq⟩ := h name i e
  exact ⟨q, hx.node hq⟩

theorem NamesOK.insert {db : DB} (h : NamesOK db) {name : List Byte} {i : Nat} {q : Option Nat}
    (hi : db.node? i = some ⟨8, .string name, q⟩) :
    NamesOK { db with attrs := insertNew name i db.attrs } ∧ NamesKept db { db with attrs := insertNew name i db.attrs } := by
  constructor
  · intro n j e
    simp only [lookup_insertNew] at e
    cases hl : lookup n db.attrs with
    | some x => rw [hl] at e; cases e; exact h n j hl
    | none =>
      rw [hl] at e
      simp only at e
      split at e
      · rename_i hn
        cases e
        subst hn
        exact ⟨q, hi⟩
      · cases e
  · intro n j e
    simp only [lookup_insertNew, e]

theorem findOrCreate_attrs (db : DB) (a : Nat) (v : Val) (p : Option Nat) : (db.findOrCreate a v p).1.attrs = db.attrs := by
  unfold DB.findOrCreate
  split <;> rfl

theorem makeTreeEntry_attrs (l : List (Nat × Val)) : ∀ (db : DB) (p : Option Nat), (db.makeTreeEntry l p).1.attrs = db.attrs := by
  induction l with
  | nil => intro db p; rfl
  | cons x l ih =>
    intro db p
    obtain ⟨a, v⟩ := x
    simp only [DB.makeTreeEntry]
    split
    · exact ih db p
    · have h1 := ih (db.findOrCreate a v p).1 (some (db.findOrCreate a v p).2)
      have h2 := findOrCreate_attrs db a v p
      cases hm : (db.findOrCreate a v p).1.makeTreeEntry l (some (db.findOrCreate a v p).2) with
      | mk db2 o =>
        rw [hm] at h1
        cases o <;> exact h1.trans h2

theorem mergeNode_names {db : DB} (hok : db.OK) (h : NamesOK db) (nid aid pid : Nat) (v : Val)
    (h8 : aid = 8 → ∃ s, v = .string s) :
    NamesOK (db.mergeNode nid aid pid v).1 ∧ NamesKept db (db.mergeNode nid aid pid v).1 := by
  obtain ⟨b1, b2, b3, b4, _⟩ := hok.mergeNode nid aid pid v
  revert b2 b4
  unfold DB.mergeNode
  cases ha : db.attribute? aid with
  | none => intro _ _; exact ⟨h, .refl db⟩
  | some a =>
    simp only
    split
    · intro _ _; exact ⟨h, .refl db⟩
    · split
      · intro _ _; exact ⟨h, .refl db⟩
      · generalize (if pid = invN then none else some pid) = q
        have hattrs := findOrCreate_attrs db aid v q
        cases hf : db.findOrCreate aid v q with
        | mk db' i =>
          rw [hf] at hattrs
          simp only
          by_cases hc : db'.nodes.length ≠ db.nodes.length ∧ aid = 8
          · rw [if_pos hc]
            intro b2 b4
            simp only at b2 b4
            obtain ⟨s, rfl⟩ := h8 hc.2
            have hx : db.Ext db' := b2
            obtain ⟨k1, k2⟩ := h.ext hx hattrs
            have hn : db'.node? i = some ⟨8, .string s, q⟩ := by
              have := (b4 i rfl).1
              rw [hc.2] at this
              exact this
            obtain ⟨m1, m2⟩ := k1.insert hn
            exact ⟨m1, k2.trans m2⟩
          · rw [if_neg hc]
            intro b2 b4
            exact h.ext b2 hattrs

theorem setGlobal_attrs (db : DB) (a : Nat) (v : Val) : (db.setGlobal a v).attrs = db.attrs := by
  unfold DB.setGlobal
  simp only
  split
  · rfl
  · split
    · split <;> rfl
    · split
      · rfl
      · split
        · split <;> exact findOrCreate_attrs ..
        · exact findOrCreate_attrs ..

theorem line_names {F : DblFmt} {s s' : RState} {p : Parsed} (hok : s.db.OK) (h : NamesOK s.db) (hl : s.line F p = some s') :
    NamesOK s'.db ∧ NamesKept s.db s'.db := by
  have hx := (RState.line_ok hok hl).2.1
  cases p with
  | bad => simp only [RState.line, Option.some.injEq] at hl; subst hl; exact ⟨h, .refl _⟩
  | node f =>
    simp only [RState.line] at hl
    cases hm : s.db.mergeNodeText F s.idmap f.id.toNat f.attr.toNat f.parent.toNat f.data with
    | none => rw [hm] at hl; cases hl
    | some r =>
      rw [hm] at hl
      obtain ⟨db1, m1, i1⟩ := r
      simp only [Option.some.injEq] at hl
      subst hl
      simp only [DB.mergeNodeText, DB.mergeNodeMap] at hm
      generalize hv : (if s.db.hidden (s.db.attribute? (mapId s.idmap f.attr.toNat)) then Val.usr []
        else makeVar F (s.db.attrType (s.db.attribute? (mapId s.idmap f.attr.toNat))) f.data) = v at hm
      have hstr : mapId s.idmap f.attr.toNat = 8 → ∃ s, v = .string s := by
        intro e
        rw [e] at hv
        have hd : Denotes s.db.node? 8 (.boot 8) := .boot (by omega) (hok.bootAt (by omega))
        have hat : s.db.attribute? 8 = some 8 := by
          rcases DB.OK.attribute? hd with h' | h'
          · exact h'.1
          · exact absurd (by simp [Deep.isOf, bootNodes] : (Deep.boot 8).isOf 8) h'.2
        rw [hat, hok.attrType hd] at hv
        have h1 : s.db.hidden (some 8) = false := by
          unfold DB.hidden
          rw [hok.attrProp hd]
          decide
        have h2 : (Deep.boot 8).attrType = .string := by decide
        rw [h1, h2] at hv
        exact ⟨_, hv.symm⟩
      have := mergeNode_names hok h f.id.toNat (mapId s.idmap f.attr.toNat) (mapId s.idmap f.parent.toNat) v hstr
      split at hm
      · cases hm
      · rename_i db2 i2 he
        rw [he] at this
        simp only [Option.some.injEq, Prod.mk.injEq] at hm
        rw [← hm.1]
        exact this
  | record k f =>
    cases k with
    | snapshot => simp only [RState.line, Option.some.injEq] at hl; subst hl; exact ⟨h, .refl _⟩
    | globals =>
      apply h.ext hx
      simp only [RState.line, Option.some.injEq] at hl
      subst hl
      have e1 : ∀ (l : List U64) (db : DB), (l.foldl (fun db id => db.mergeGlobalRef s.idmap id.toNat) db).attrs = db.attrs := by
        intro l
        induction l with
        | nil => intro db; rfl
        | cons i l ih =>
          intro db
          rw [List.foldl_cons, ih]
          unfold DB.mergeGlobalRef
          split
          · rfl
          · simp only; split <;> rfl
      have e2 : ∀ (l : List (U64 × List Byte)) (db : DB),
          (l.foldl (fun db p => db.mergeGlobalImm F s.idmap p.1.toNat p.2) db).attrs = db.attrs := by
        intro l
        induction l with
        | nil => intro db; rfl
        | cons i l ih =>
          intro db
          rw [List.foldl_cons, ih]
          unfold DB.mergeGlobalImm
          split
          · exact setGlobal_attrs _ _ _
          · rfl
      simp only
      rw [e2, e1]

theorem lines_names {F : DblFmt} (ps : List Parsed) : ∀ {s s' : RState}, s.db.OK → NamesOK s.db → s.lines F ps = some s' →
    NamesOK s'.db ∧ NamesKept s.db s'.db := by
  induction ps with
  | nil =>
    intro s s' _ h hl
    simp only [RState.lines, Option.some.injEq] at hl
    subst hl
    exact ⟨h, .refl _⟩
  | cons p ps ih =>
    intro s s' hok h hl
    simp only [RState.lines] at hl
    cases hm : s.line F p with
    | none => rw [hm] at hl; cases hl
    | some s1 =>
      rw [hm] at hl
      obtain ⟨k1, k2⟩ := line_names hok h hm
      obtain ⟨m1, m2⟩ := ih (RState.line_ok hok hm).1 k1 hl
      exact ⟨m1, k2.trans m2⟩

theorem createAttribute_names {db : DB} (hok : db.OK) (h : NamesOK db) (name : List Byte) (ty : AttrType) (prop : BitVec 32)
    (metas : List (Nat × Val)) (u al : Nat) (hm : ∀ x ∈ metas, (db.attribute? x.1).isSome) (hu : (db.attribute? u).isSome)
    (hal : (db.attribute? al).isSome) :
    NamesOK (db.createAttribute name ty prop metas u al).1 ∧ NamesKept db (db.createAttribute name ty prop metas u al).1 ∧
    lookup name (db.createAttribute name ty prop metas u al).1.attrs = some (db.createAttribute name ty prop metas u al).2 := by
  obtain ⟨b1, b2⟩ := hok.createAttribute name ty prop metas u al hm hu hal
  revert b1 b2
  unfold DB.createAttribute
  cases hlk : lookup name db.attrs with
  | some i => intro _ _; exact ⟨h, .refl db, hlk⟩
  | none =>
    simp only
    have hma : (db.attrMeta name ty metas u al).1.attrs = db.attrs := by
      have hex : ∀ (p : DB × Option Nat) (a : Nat) (o : Option (List Byte)), (DB.attrExtra p a o).1.attrs = p.1.attrs := by
        intro p a o
        cases o with
        | none => rfl
        | some w => exact makeTreeEntry_attrs _ _ _
      unfold DB.attrMeta
      rw [hex, hex]
      split
      · rfl
      · exact makeTreeEntry_attrs _ _ _
    unfold DB.attrFinish
    simp only
    generalize db.attrMeta name ty metas u al = p at hma
    generalize hq : p.1.findOrCreate 10 (.int (prop.signExtend 64)) p.2 = q
    generalize hr : q.1.findOrCreate 8 (.string name) (some q.2) = r
    have ha : r.1.attrs = db.attrs := by
      rw [← hr, findOrCreate_attrs, ← hq, findOrCreate_attrs, hma]
    intro b1 b2
    have hx : db.Ext r.1 := b2
    obtain ⟨k1, k2⟩ := h.ext hx ha
    have hn : r.1.node? r.2 = some ⟨8, .string name, some q.2⟩ := by
      rw [← hr]
      unfold DB.findOrCreate findChild
      rcases findIdx?_spec (fun n => decide (n = (⟨8, .string name, some q.2⟩ : Nd))) q.1.nodes with ⟨i, x, e1, e2, e3⟩ | ⟨e1, _⟩
      · rw [e1]
        have : x = ⟨8, .string name, some q.2⟩ := by simpa using e3
        subst this
        exact e2
      · rw [e1]
        simp [DB.createNode, DB.node?]
    obtain ⟨m1, m2⟩ := k1.insert hn
    refine ⟨m1, k2.trans m2, ?_⟩
    simp only [lookup_insertNew, ha, hlk]
    simp

theorem Reachable.names {F : DblFmt} {db : DB} (h : Reachable F db) : NamesOK db := by
  induction h with
  | init =>
    intro name i e
    have hm := lookup_some_mem e
    have all : ∀ p ∈ DB.init.attrs, ∃ q ∈ [some 3, some 12, some 3], DB.init.node? p.2 = some ⟨8, .string p.1, q⟩ := by decide +kernel
    obtain ⟨q, _, hq⟩ := all _ hm
    exact ⟨q, hq⟩
  | read hr e ih => exact (lines_names _ hr.ok ih e).1
  | attr hr h1 h2 h3 ih => exact (createAttribute_names hr.ok ih _ _ _ _ _ _ h1 h2 h3).1
  | glob hr h1 ih => exact (ih.ext (hr.ok.setGlobal _ _ h1).2 (setGlobal_attrs _ _ _)).1

/-- C27 (names): in every database a program can have, looking up an attribute by name gives an attribute of that name; and
reading a further stream, valid or not, never changes what a known name stands for. -/
theorem C27_names_stable (F : DblFmt) (db : DB) (hdb : Reachable F db) :
    (∀ name i, lookup name db.attrs = some i → ∃ q, db.node? i = some ⟨8, .string name, q⟩) ∧
    (∀ file s, readCali F db file = some s → ∀ name i, lookup name db.attrs = some i → lookup name s.db.attrs = some i) :=
  ⟨hdb.names, fun _ _ hr => (lines_names _ hdb.ok hdb.names hr).2⟩

/-- C27 (names): creating an attribute makes its name known, and gives back the existing attribute if the name is known. -/
theorem C27_names_created (F : DblFmt) (db : DB) (hdb : Reachable F db) (name : List Byte) (ty : AttrType) (prop : BitVec 32)
    (metas : List (Nat × Val)) (u al : Nat) (hm : ∀ x ∈ metas, (db.attribute? x.1).isSome) (hu : (db.attribute? u).isSome)
    (hal : (db.attribute? al).isSome) :
    let r := db.createAttribute name ty prop metas u al
    lookup name r.1.attrs = some r.2 ∧ (∀ i, lookup name db.attrs = some i → r = (db, i)) ∧
    (∀ n i, lookup n db.attrs = some i → lookup n r.1.attrs = some i) := by
  obtain ⟨_, h2, h3⟩ := createAttribute_names hdb.ok hdb.names name ty prop metas u al hm hu hal
  refine ⟨h3, ?_, h2⟩
  intro i hi
  simp [DB.createAttribute, hi]

/-! ## C49 -/

/-- C49: a program writes any snapshot records and, anywhere among them, its globals; the file is read into a database that has
no globals yet (but may contain anything else).  Then the reader's globals have exactly the contents of the globals written:
same attribute names and values, expanded along the context tree.  Without a globals record there are none.

(Part: metadata and values the format supports, as for C25; values of globals stored as value belong to attributes marked
global, at most one value per attribute.) -/
theorem C49_globals_roundtrip_partial (F : DblFmt) (S : Src) (hS : S.Sound F) (before after : List (List DEnt)) (es : List DEnt)
    (hr : ∀ r ∈ before ++ es :: after, S.RecOK F r) (hg : S.GlobOK es) (db : DB) (hdb : db.OK) (h0 : db.globals = [])
    (hlen : db.nodes.length + fileCost S (before.map (fun r => (Kind.snapshot, r)) ++ (Kind.globals, es) ::
      after.map (fun r => (Kind.snapshot, r))) ≤ invN) :
    ∃ s, readCali F db (caliFile F S (before.map (fun r => (Kind.snapshot, r)) ++ (Kind.globals, es) ::
        after.map (fun r => (Kind.snapshot, r)))) = some s ∧ s.err = false ∧
      ∀ l, Contents S.node es l → ∃ l', Contents s.db.node? s.db.globals l' ∧ l'.Perm l := by
  generalize hc : (before.map (fun r => (Kind.snapshot, r)) ++ (Kind.globals, es) :: after.map (fun r => (Kind.snapshot, r))) = calls at *
  have hrc : ∀ c ∈ calls, S.RecOK F c.2 := by
    intro c hm
    rw [← hc] at hm
    simp only [List.mem_append, List.mem_cons, List.mem_map] at hm
    rcases hm with ⟨r, h, rfl⟩ | rfl | ⟨r, h, rfl⟩
    · exact hr r (by simp [h])
    · exact hr es (by simp)
    · exact hr r (by simp [h])
  have hgc : ∀ c ∈ calls, c.1 = .globals → S.GlobOK c.2 := by
    intro c hm hk
    rw [← hc] at hm
    simp only [List.mem_append, List.mem_cons, List.mem_map] at hm
    rcases hm with ⟨r, h, rfl⟩ | rfl | ⟨r, h, rfl⟩
    · cases hk
    · exact hg
    · cases hk
  obtain ⟨s, e, h1, h2, h3, _⟩ := roundtrip hS calls hrc db hdb hlen
  refine ⟨s, e, h1, ?_⟩
  have hgl : S.globs calls = [(S.refsOf es, S.immsOf es)] := by
    rw [← hc]
    have hs : ∀ l : List (List DEnt), S.globs (l.map fun r => (Kind.snapshot, r)) = [] := by
      intro l
      induction l with
      | nil => rfl
      | cons a l ih => simpa [Src.globs] using ih
    have ha : ∀ l l', S.globs (l ++ l') = S.globs l ++ S.globs l' := fun l l' => List.filterMap_append
    have hc' : ∀ l, S.globs ((Kind.globals, es) :: l) = (S.refsOf es, S.immsOf es) :: S.globs l := fun l => rfl
    rw [ha, hc', hs, hs, List.nil_append]
  have := (roundtrip_globals hS calls hrc hgc db hdb h0 hlen e).2 _ hgl
  intro l hl
  exact sameRec_contents hS h2 this hl

/-- C49: a file without a globals record leaves the reader without globals. -/
theorem C49_no_globals (F : DblFmt) (S : Src) (hS : S.Sound F) (records : List (List DEnt)) (hr : ∀ r ∈ records, S.RecOK F r)
    (db : DB) (hdb : db.OK) (h0 : db.globals = [])
    (hlen : db.nodes.length + fileCost S (records.map fun r => (Kind.snapshot, r)) ≤ invN) (s : RState)
    (hs : readCali F db (caliFile F S (records.map fun r => (Kind.snapshot, r))) = some s) : s.db.globals = [] := by
  refine (roundtrip_globals hS _ ?_ ?_ db hdb h0 hlen hs).1 ?_
  · intro c hc; obtain ⟨r, h, rfl⟩ := List.mem_map.1 hc; exact hr r h
  · intro c hc hk; obtain ⟨r, h, rfl⟩ := List.mem_map.1 hc; cases hk
  · clear hs hlen hr
    induction records with
    | nil => rfl
    | cons a l ih => simpa [Src.globs] using ih

/-! ### several files -/

/-- a file with globals: snapshot records before and after, and the globals; `S` is the metadata of the program that wrote it -/
structure GFile where
  S : Src
  before : List (List DEnt)
  globals : List DEnt
  after : List (List DEnt)

/-- what the program writes -/
def GFile.calls (f : GFile) : List (Kind × List DEnt) :=
  f.before.map (fun r => (Kind.snapshot, r)) ++ (Kind.globals, f.globals) :: f.after.map (fun r => (Kind.snapshot, r))

/-- metadata, records and globals the format supports -/
structure GFile.OK (F : DblFmt) (f : GFile) : Prop where
  sound : f.S.Sound F
  recs : ∀ r ∈ f.before ++ f.globals :: f.after, f.S.RecOK F r
  globs : f.S.GlobOK' f.globals

/-- reading files one after the other into a database -/
def readFiles (F : DblFmt) : DB → List (List Byte) → Option DB
  | db, [] => some db
  | db, f :: fs => match readCali F db f with
    | some s => if s.err then none else readFiles F s.db fs
    | none => none

/-- an entry of a record that holds a value (not a path) -/
def IsValue (S : Src) (e : DEnt) : Prop := ∃ i, e.node = some i ∧ S.isImm i = true

/-- an entry of a record that holds a path -/
def IsPath (S : Src) (e : DEnt) : Prop := ∃ i, e.node = some i ∧ S.isImm i = false

/-- the attribute (name, type, properties, metadata) of a value entry -/
def ValueAttr (N : Nat → Option Nd) (e : DEnt) (A : Deep) : Prop := ∃ i, e.node = some i ∧ Denotes N i A

/-- entry `g` of one database says the same as entry `e` of another -/
def SameContents (N : Nat → Option Nd) (e : DEnt) (N' : Nat → Option Nd) (g : DEnt) : Prop := ∀ l, Expands N e l → Expands N' g l

theorem Path.mono {N N' : Nat → Option Nd} (h : ∀ i n, N i = some n → N' i = some n) {i : Nat} {l : List (List Byte × Val)} (hp : Path N i l) :
    Path N' i l := by
  induction hp with
  | last h1 h2 => exact .last (h _ _ h1) (h _ _ h2)
  | step h1 h2 _ ih => exact .step (h _ _ h1) (h _ _ h2) ih

theorem Expands.mono {N N' : Nat → Option Nd} (h : ∀ i n, N i = some n → N' i = some n) {e : DEnt} {l : List (List Byte × Val)}
    (hp : Expands N e l) : Expands N' e l := by
  cases hp with
  | empty h1 => exact .empty h1
  | ref h1 h2 h3 h4 => exact .ref h1 (h _ _ h2) h3 (h4.mono h)
  | imm h1 h2 => exact .imm h1 (h _ _ h2)

theorem same_path {F : DblFmt} {S : Src} {db : DB} (hS : S.Sound F) (hdb : db.OK) {e g : DEnt} {i j : Nat} {D : Deep} (he : e.node = some i)
    (hi : S.isImm i = false) (hD : Denotes S.node i D) (hg : g.node = some j) (hD' : Denotes db.node? j D) :
    SameContents S.node e db.node? g := by
  intro l hl
  cases hl with
  | empty h1 => rw [he] at h1; cases h1
  | @ref i' n _ h1 h2 h3 h4 =>
    rw [he] at h1; cases h1
    obtain ⟨n', hn'⟩ := hD'.node_some
    refine .ref hg hn' ?_ (h4.transfer hS.boot (fun i hi => hdb.bootAt hi) hD hD')
    exact fun c => h3 ((hD.isOf_iff h2 8 (by omega)).1 ((hD'.isOf_iff hn' 8 (by omega)).2 c))
  | @imm i' name q h1 h2 =>
    rw [he] at h1; cases h1
    simp [Src.isImm, h2] at hi

theorem same_value {S : Src} {db : DB} {e g : DEnt} {i : Nat} (he : e.node = some i)
    (hi : S.isImm i = true) (hs : SameImm S db (i, e.val) g) : SameContents S.node e db.node? g := by
  obtain ⟨A, j, hA, hg, hA', hv⟩ := hs
  intro l hl
  cases hl with
  | empty h1 => rw [he] at h1; cases h1
  | @ref i' n _ h1 h2 h3 h4 =>
    rw [he] at h1; cases h1
    simp [Src.isImm, h2, h3] at hi
  | @imm i' name q h1 h2 =>
    rw [he] at h1; cases h1
    obtain ⟨n', hn'⟩ := hA'.node_some
    have e2 := (hA'.isOf_iff hn' 8 (by omega)).1 ((hA.isOf_iff h2 8 (by omega)).2 rfl)
    have e3 := hA.data hA' h2 hn'
    obtain ⟨x, y, z⟩ := n'
    simp only at e2 e3 hv
    subst e2 e3
    rw [← hv]
    exact .imm hg hn'

theorem globs_calls (f : GFile) : f.S.globs f.calls = [(f.S.refsOf f.globals, f.S.immsOf f.globals)] := by
  have hs : ∀ l : List (List DEnt), f.S.globs (l.map fun r => (Kind.snapshot, r)) = [] := by
    intro l
    induction l with
    | nil => rfl
    | cons a l ih => simpa [Src.globs] using ih
  have ha : ∀ l l', f.S.globs (l ++ l') = f.S.globs l ++ f.S.globs l' := fun l l' => List.filterMap_append
  have hc' : ∀ l, f.S.globs ((Kind.globals, f.globals) :: l) = (f.S.refsOf f.globals, f.S.immsOf f.globals) :: f.S.globs l := fun l => rfl
  rw [GFile.calls, ha, hc', hs, hs, List.nil_append]

/-- reading one file -/
theorem read_gfile {F : DblFmt} {f : GFile} (hf : f.OK F) {db : DB} (hdb : db.OK) (hg : db.GlobalsOK)
    (hlen : db.nodes.length + fileCost f.S f.calls ≤ invN) :
    ∃ s, readCali F db (caliFile F f.S f.calls) = some s ∧ s.err = false ∧ s.db.OK ∧ db.Ext s.db ∧ s.db.GlobalsOK ∧
      s.db.nodes.length ≤ db.nodes.length + fileCost f.S f.calls ∧
      Merged f.S s.db (f.S.refsOf f.globals, f.S.immsOf f.globals) db.globals s.db.globals := by
  have hrc : ∀ c ∈ f.calls, f.S.RecOK F c.2 := by
    intro c hm
    simp only [GFile.calls, List.mem_append, List.mem_cons, List.mem_map] at hm
    rcases hm with ⟨r, h, rfl⟩ | rfl | ⟨r, h, rfl⟩
    · exact hf.recs r (by simp [h])
    · exact hf.recs _ (by simp)
    · exact hf.recs r (by simp [h])
  have hgc : ∀ c ∈ f.calls, c.1 = .globals → f.S.GlobOK' c.2 := by
    intro c hm hk
    simp only [GFile.calls, List.mem_append, List.mem_cons, List.mem_map] at hm
    rcases hm with ⟨r, h, rfl⟩ | rfl | ⟨r, h, rfl⟩
    · cases hk
    · exact hf.globs
    · cases hk
  obtain ⟨s, e, h1, h2, h3, _⟩ := roundtrip hf.sound f.calls hrc db hdb hlen
  obtain ⟨k0, k1, k2, k3⟩ := roundtrip_globals' hf.sound f.calls hrc hgc db hdb hg hlen e
  exact ⟨s, e, h1, h2, h3, k1, k0, k3 _ (globs_calls f)⟩

theorem mem_refsOf_of {S : Src} {es : List DEnt} {e : DEnt} {i : Nat} (he : e ∈ es) (h : e.node = some i) (hi : S.isImm i = false) :
    i ∈ S.refsOf es := by
  rw [Src.refsOf, List.mem_filterMap]
  exact ⟨e, he, by simp [h, hi]⟩

theorem mem_immsOf_of {S : Src} {es : List DEnt} {e : DEnt} {i : Nat} (he : e ∈ es) (h : e.node = some i) (hi : S.isImm i = true) :
    (i, e.val) ∈ S.immsOf es := by
  rw [Src.immsOf, List.mem_filterMap]
  exact ⟨e, he, by simp [h, hi]⟩

/-- C49 (several files): any number of files, each with globals, are read one after the other into a database that may have globals already.
Afterwards the globals are: every path written in one of the files; for every attribute stored as value, the value written in the last file that has
one; and the globals the database had before, except those for which a file has a new value.  Nothing else, and nothing twice.

(Part: metadata and values the format supports, as for C25; values of globals stored as value belong to attributes marked
global, at most one value per attribute and file.) -/
theorem C49_files_partial (F : DblFmt) (fs : List GFile) (hf : ∀ f ∈ fs, f.OK F) (db : DB) (hdb : db.OK) (hg : db.GlobalsOK)
    (hlen : db.nodes.length + (fs.map fun f => fileCost f.S f.calls).sum ≤ invN) :
    ∃ db', readFiles F db (fs.map fun f => caliFile F f.S f.calls) = some db' ∧ db'.OK ∧ db.Ext db' ∧ db'.GlobalsOK ∧
      (∀ f ∈ fs, ∀ e ∈ f.globals, IsPath f.S e → ∃ g ∈ db'.globals, SameContents f.S.node e db'.node? g) ∧
      (∀ fs1 f fs2, fs = fs1 ++ f :: fs2 → ∀ e ∈ f.globals, IsValue f.S e →
        (∀ f' ∈ fs2, ∀ e' ∈ f'.globals, IsValue f'.S e' → ∀ A, ValueAttr f.S.node e A → ¬ ValueAttr f'.S.node e' A) →
        ∃ g ∈ db'.globals, SameContents f.S.node e db'.node? g) ∧
      (∀ g ∈ db.globals, g ∈ db'.globals ∨
        ∃ f ∈ fs, ∃ e ∈ f.globals, IsValue f.S e ∧ ∃ A, ValueAttr f.S.node e A ∧ ValueAttr db'.node? g A) ∧
      (∀ g ∈ db'.globals, g ∈ db.globals ∨ ∃ f ∈ fs, ∃ e ∈ f.globals, SameContents f.S.node e db'.node? g) ∧
      (db'.globals.map DEnt.node).Nodup := by
  induction fs generalizing db with
  | nil =>
    exact ⟨db, rfl, hdb, .refl _, hg, by simp, by intro a b c e; simp at e, fun g h => .inl h, fun g h => .inl h, hg.nodup⟩
  | cons f fs ih =>
    simp only [List.map_cons, List.sum_cons] at hlen
    obtain ⟨s, e1, e2, o1, x1, g1, l1, M⟩ := read_gfile (hf f (by simp)) hdb hg (by omega)
    obtain ⟨db', e3, o2, x2, g2, r, v, k, o, n⟩ := ih (fun f' h => hf f' (List.mem_cons_of_mem _ h)) s.db o1 g1 (by omega)
    have xn : ∀ i n, s.db.node? i = some n → db'.node? i = some n := fun i n h => x2.node h
    have hS := (hf f (by simp)).sound
    -- the attribute of an overwritten global is an attribute
    have over : ∀ f' ∈ fs, ∀ e ∈ f'.globals, IsValue f'.S e → ∀ A, ValueAttr f'.S.node e A → A.isOf 8 := by
      rintro f' hf' e he ⟨i, h1, h2⟩ A ⟨j, h3, h4⟩
      rw [h1] at h3; cases h3
      obtain ⟨nn, hn⟩ := h4.node_some
      refine (h4.isOf_iff hn 8 (by omega)).2 ?_
      simpa [Src.isImm, hn] using h2
    refine ⟨db', ?_, o2, x1.trans x2, g2, ?_, ?_, ?_, ?_, n⟩
    · simp only [List.map_cons, readFiles, e1, e2, e3]
      simp
    · intro f' hf' e he hp
      rcases List.mem_cons.1 hf' with rfl | hf'
      · obtain ⟨i, h1, h2⟩ := hp
        obtain ⟨g, hgm, D, j, hD, hj, hD'⟩ := M.refs i (mem_refsOf_of he h1 h2)
        have hsame := same_path hS o1 h1 h2 hD hj hD'
        rcases k g hgm with h | ⟨f2, hf2, e2, he2, hv2, A, hA, j', hj', hA'⟩
        · exact ⟨g, h, fun l hl => (hsame l hl).mono xn⟩
        · have h8 := over f2 hf2 e2 he2 hv2 A hA
          rw [hj] at hj'; cases hj'
          rw [hA'.det (x2.denotes hD')] at h8
          obtain ⟨nn, hn⟩ := hD.node_some
          have := (hD.isOf_iff hn 8 (by omega)).1 h8
          simp [Src.isImm, hn, this] at h2
      · exact r f' hf' e he hp
    · intro fs1 f' fs2 e he' he hv hlast
      cases fs1 with
      | cons a fs1 =>
        simp only [List.cons_append, List.cons.injEq] at e
        exact v fs1 f' fs2 e.2 he' he hv hlast
      | nil =>
        simp only [List.nil_append, List.cons.injEq] at e
        obtain ⟨rfl, rfl⟩ := e
        obtain ⟨i, h1, h2⟩ := hv
        obtain ⟨g, hgm, hs⟩ := M.imms (i, he'.val) (mem_immsOf_of he h1 h2)
        rcases k g hgm with h | ⟨f2, hf2, e2, he2, hv2, A, hA, j', hj', hA'⟩
        · exact ⟨g, h, fun l hl => (same_value h1 h2 hs l hl).mono xn⟩
        · obtain ⟨B, j, hB, hj, hB', _⟩ := hs
          rw [hj] at hj'; cases hj'
          rw [hA'.det (x2.denotes hB')] at hA
          exact absurd hA (hlast f2 hf2 e2 he2 hv2 B ⟨i, h1, hB⟩)
    · intro g hgm
      rcases M.kept g hgm with h | ⟨p, hp, A, j, h1, h2, h3⟩
      · rcases k g h with h | ⟨f2, hf2, h⟩
        · exact .inl h
        · exact .inr ⟨f2, List.mem_cons_of_mem _ hf2, h⟩
      · obtain ⟨e, he, hn, hv, him⟩ := mem_immsOf (i := p.1) (v := p.2) hp
        exact .inr ⟨f, by simp, e, he, ⟨p.1, hn, him⟩, A, ⟨p.1, hn, h1⟩, j, h2, x2.denotes h3⟩
    · intro g hgm
      rcases o g hgm with h | ⟨f2, hf2, h⟩
      · rcases M.only g h with h | ⟨i, hi, D, nn, j, hD, hn, hj, hD', _⟩ | ⟨p, hp, hs⟩
        · exact .inl h
        · obtain ⟨e, he, hen, him⟩ := mem_refsOf hi
          exact .inr ⟨f, by simp, e, he, fun l hl => (same_path hS o1 hen (by simpa using him) hD hj hD' l hl).mono xn⟩
        · obtain ⟨e, he, hen, hv, him⟩ := mem_immsOf (i := p.1) (v := p.2) hp
          exact .inr ⟨f, by simp, e, he, fun l hl => (same_value hen him (by rw [hv]; exact hs) l hl).mono xn⟩
      · exact .inr ⟨f2, List.mem_cons_of_mem _ hf2, h⟩

namespace Demo

/-- a database with a global stored as value and one stored as path -/
def gsrc : DB :=
  let db := (DB.init.createAttribute (str "jobsize") .int 513 [] 14 13).1
  let db := (db.createAttribute (str "user") .string 512 [] 14 13).1
  (db.mergeNode 50 18 invN (.string (str "me"))).1

/-- `user=me`, `jobsize=4` -/
def grec : List DEnt := [⟨some 19, .inv⟩, ⟨some 16, .int 4⟩]

theorem gsrc_ok : gsrc.OK := by
  have h : Reachable F (((DB.init.createAttribute (str "jobsize") .int 513 [] 14 13).1).createAttribute (str "user") .string 512 [] 14 13).1 :=
    .attr (.attr .init (by simp) (by decide) (by decide)) (by simp) (by decide) (by decide)
  exact (h.ok.mergeNode _ _ _ _).1

/-- the hypotheses of C49 are met -/
example : (DB.asSource gsrc).Sound F ∧ (DB.asSource gsrc).RecOK F grec ∧ (DB.asSource gsrc).GlobOK grec ∧
    gsrc.globals = [] ∧ Contents gsrc.node? grec [(str "user", .string (str "me")), (str "jobsize", .int 4)] := by
  have ei : (DB.asSource gsrc).immsOf grec = [(16, .int 4)] := by decide +kernel
  have er : (DB.asSource gsrc).refsOf grec = [19] := by decide +kernel
  have hs : (DB.asSource gsrc).Sound F := by
    refine DB.asSource_sound gsrc_ok (by decide +kernel) ?_
    have all : ∀ i, i < gsrc.nodes.length → 12 ≤ i → ∀ n ∈ gsrc.nodes[i]?, n.data.ty = gsrc.attrType (some n.attr) ∧ Supported F n.data ∧
        gsrc.hidden (some n.attr) = false := by decide +kernel
    intro i n hn h12
    exact all i (List.getElem?_eq_some_iff.1 hn).1 h12 n hn
  obtain ⟨A, hA⟩ := gsrc_ok.denotes 16 (by decide +kernel)
  refine ⟨hs, ⟨?_, ?_, by decide +kernel, ?_⟩, ⟨?_, ?_, ?_, ?_⟩, by decide +kernel, ?_⟩
  · have : ∀ e ∈ grec, ∀ i ∈ e.node, ((DB.asSource gsrc).node i).isSome := by decide +kernel
    exact fun e he i hi => this e he i hi
  · rw [ei]
    intro p hp
    simp at hp
    subst hp
    exact ⟨trivial, A, hA, by rw [← gsrc_ok.attrType hA]; decide +kernel⟩
  · rw [ei]
    intro p hp
    simp at hp
    subst hp
    decide +kernel
  · rw [er]; simp
  · rw [ei]; simp
  · rw [ei]
    intro p hp A' hA'
    simp at hp
    subst hp
    rw [← gsrc_ok.attrProp hA']
    decide +kernel
  · rw [er, ei]
    intro i hi n hn p hp B hB hB'
    simp at hi hp
    subst hi hp
    have : n.attr = 18 := by
      have : ∀ n ∈ gsrc.nodes[19]?, n.attr = 18 := by decide +kernel
      exact this n hn
    rw [this] at hB
    have := gsrc_ok.inj hB hB'
    simp at this
  · refine ⟨[[(str "user", .string (str "me"))], [(str "jobsize", .int 4)]], ?_, by simp⟩
    refine .cons ?_ (.cons (.imm (i := 16) rfl (q := some 15) (by decide +kernel)) .nil)
    refine .ref (i := 19) rfl (n := ⟨18, .string (str "me"), none⟩) (by decide +kernel) (by decide) ?_
    exact .last (a := 18) (b := 8) (q := some 17) (by decide +kernel) (by decide +kernel)

/-- `user=me`, `jobsize=8` -/
def grec2 : List DEnt := [⟨some 19, .inv⟩, ⟨some 16, .int 8⟩]

theorem gsrc_sound : (DB.asSource gsrc).Sound F := by
  refine DB.asSource_sound gsrc_ok (by decide +kernel) ?_
  have all : ∀ i, i < gsrc.nodes.length → 12 ≤ i → ∀ n ∈ gsrc.nodes[i]?, n.data.ty = gsrc.attrType (some n.attr) ∧ Supported F n.data ∧
      gsrc.hidden (some n.attr) = false := by decide +kernel
  intro i n hn h12
  exact all i (List.getElem?_eq_some_iff.1 hn).1 h12 n hn

theorem gfile_ok (k : U64) (hk : ([(16, .int k)] : List (Nat × Val)) = (DB.asSource gsrc).immsOf [⟨some 19, .inv⟩, ⟨some 16, .int k⟩])
    (hw : (Val.int k).writeCali F ≠ []) :
    GFile.OK F ⟨DB.asSource gsrc, [], [⟨some 19, .inv⟩, ⟨some 16, .int k⟩], []⟩ := by
  have er : (DB.asSource gsrc).refsOf [⟨some 19, .inv⟩, ⟨some 16, .int k⟩] = [19] := by
    simp only [Src.refsOf, List.filterMap_cons, show (DB.asSource gsrc).isImm 19 = false from by decide +kernel,
      show (DB.asSource gsrc).isImm 16 = true from by decide +kernel]
    rfl
  obtain ⟨A, hA⟩ := gsrc_ok.denotes 16 (by decide +kernel)
  refine ⟨gsrc_sound, ?_, ?_⟩
  · intro r hr
    simp at hr
    subst hr
    refine ⟨?_, ?_, .inl (by rw [er]; simp), ?_⟩
    · intro e he i hi
      simp at he
      rcases he with rfl | rfl <;> simp at hi <;> subst hi
      · exact (by decide +kernel : ((DB.asSource gsrc).node 19).isSome = true)
      · exact (by decide +kernel : ((DB.asSource gsrc).node 16).isSome = true)
    · rw [← hk]
      intro p hp
      simp at hp
      subst hp
      exact ⟨trivial, A, hA, by rw [← gsrc_ok.attrType hA]; rw [show gsrc.attrType (some 16) = .int from by decide +kernel]; rfl⟩
    · rw [← hk]
      intro p hp
      simp at hp
      subst hp
      exact hw
  · refine ⟨?_, by rw [← hk]; simp, ?_⟩
    · rw [er]
      intro i hi n hn B hB
      simp at hi
      subst hi
      have : n.attr = 18 := by
        have : ∀ n ∈ gsrc.nodes[19]?, n.attr = 18 := by decide +kernel
        exact this n hn
      rw [this] at hB
      rw [← gsrc_ok.attrProp hB]
      decide +kernel
    · rw [← hk]
      intro p hp A' hA'
      simp at hp
      subst hp
      rw [← gsrc_ok.attrProp hA']
      exact (by decide +kernel : gsrc.attrProp (some 16) &&& 512#32 ≠ 0#32 ∧ gsrc.attrProp (some 16) &&& 1#32 ≠ 0#32)

/-- the hypotheses of `C49_files_partial` are met: two files of runs with different job sizes -/
example : let fs : List GFile := [⟨DB.asSource gsrc, [], grec, []⟩, ⟨DB.asSource gsrc, [], grec2, []⟩]
    (∀ f ∈ fs, f.OK F) ∧ DB.init.OK ∧ DB.init.GlobalsOK ∧ DB.init.nodes.length + (fs.map fun f => fileCost f.S f.calls).sum ≤ invN := by
  have h0 : DB.init.globals = [] := by decide +kernel
  refine ⟨?_, Reachable.init.ok (F := F), ⟨by rw [h0]; simp, by rw [h0]; simp⟩, by decide +kernel⟩
  intro f hf
  simp only [List.mem_cons, List.not_mem_nil, or_false] at hf
  rcases hf with rfl | rfl
  · exact gfile_ok 4 (by decide +kernel) (by decide +kernel)
  · exact gfile_ok 8 (by decide +kernel) (by decide +kernel)

/-- both files read: the user once, the job size of the second run -/
example : ((readFiles F DB.init [caliFile F (DB.asSource gsrc) [(.globals, grec)], caliFile F (DB.asSource gsrc) [(.globals, grec2)]]).map
    fun db => db.globals.map fun e => ((db.node? (db.entAttr e)).map Nd.data, e.val)) =
    some [(some (.string (str "user")), .string (str "me")), (some (.string (str "jobsize")), .int 8)] := by decide +kernel

end Demo

end Verif
