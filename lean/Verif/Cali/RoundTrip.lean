import Verif.Cali.DBInv
import Mathlib.Data.List.Forall2
/-!
# Reading back what the writer wrote
-/
namespace Verif.Cali
open Verif

/-- the word the reader reads for a value -/
def word (F : DblFmt) (v : Val) : List Byte := (readEsc (v.writeCali F)).1

/-- the text of a supported value determines a word, and the word is converted back to the value -/
theorem value_textOf (F : DblFmt) (v : Val) (hv : Supported F v) : TextOf (v.writeCali F) (word F v) ∧ makeVar F v.ty (word F v) = v := by
  have esc : ∃ s, v.writeCali F = writeEsc s := by
    cases v with
    | inv => exact hv.elim
    | usr _ => exact hv.elim
    | ptr _ => exact hv.elim
    | int i => exact ⟨_, (writeEsc_plain _ (writeInt_plain i)).symm⟩
    | uint u => exact ⟨_, (writeEsc_plain _ (writeUint_plain u)).symm⟩
    | addr u => exact ⟨_, rfl⟩
    | bool b => exact ⟨_, rfl⟩
    | type t => exact ⟨_, (writeEsc_plain _ (type_text t).1).symm⟩
    | double d => exact ⟨_, (writeEsc_plain _ hv.2).symm⟩
    | string bs => exact ⟨_, rfl⟩
  obtain ⟨s, hs⟩ := esc
  have hw : word F v = s.filter keep := by
    have := readEsc_writeEsc s [] (.inl rfl)
    rw [List.append_nil] at this
    rw [word, hs, readEsc, this]
  refine ⟨?_, ?_⟩
  · intro rest hr
    rw [hw, hs, readEsc_writeEsc s rest hr]
  · have := (value_roundtrip F v hv [] (.inl rfl)).2
    rwa [List.append_nil] at this

/-- metadata that can be written and read back -/
structure Src.Sound (F : DblFmt) (S : Src) : Prop where
  acyclic : S.Acyclic
  small : ∀ i n, S.node i = some n → i < invN
  boot : ∀ i, i < 12 → S.node i = bootNodes[i]?
  attr : ∀ i n, S.node i = some n → 12 ≤ i → ∃ A, Denotes S.node n.attr A ∧ A.isOf 8 ∧ n.data.ty = A.attrType ∧
    Supported F n.data ∧ A.attrProp &&& 128#32 = 0
  fresh : ∀ i n, S.node i = some n → 12 ≤ i → n ∉ bootNodes

/-- records that can be written and read back -/
structure Src.RecOK (F : DblFmt) (S : Src) (es : List DEnt) : Prop where
  has : S.Has es
  imm : ∀ p ∈ S.immsOf es, Supported F p.2 ∧ ∃ A, Denotes S.node p.1 A ∧ p.2.ty = A.attrType
  ne : S.refsOf es ≠ [] ∨ S.immsOf es ≠ []
  single : ∀ p, S.immsOf es = [p] → p.2.writeCali F ≠ []

theorem Src.Sound.denotes {F : DblFmt} {S : Src} (h : S.Sound F) : ∀ (r i : Nat), S.rank i = r → (S.node i).isSome →
    ∃ D, Denotes S.node i D := by
  intro r
  induction r using Nat.strongRecOn with
  | _ r ih =>
    intro i hr hi
    by_cases h12 : i < 12
    · exact ⟨_, .boot h12 (h.boot i h12)⟩
    · obtain ⟨n, hn⟩ := Option.isSome_iff_exists.1 hi
      obtain ⟨A, hA, _⟩ := h.attr i n hn (by omega)
      cases hp : n.parent with
      | none => exact ⟨_, .root (by omega) (a := n.attr) (v := n.data) (by rw [hn, ← hp]) hA⟩
      | some p =>
        have : ∃ P, Denotes S.node p P := by
          rcases h.acyclic.parent i n p hn (by omega) hp with hb | ⟨hb, hrk⟩
          · exact ⟨_, .boot (by omega) (h.boot p (by omega))⟩
          · exact ih _ (by omega) p rfl hb
        obtain ⟨P, hP⟩ := this
        exact ⟨_, .child (by omega) (a := n.attr) (v := n.data) (by rw [hn, ← hp]) hA hP⟩

theorem lookup_some_mem {α β : Type} [DecidableEq α] {k : α} {v : β} {l : List (α × β)} (h : lookup k l = some v) : (k, v) ∈ l := by
  induction l with
  | nil => simp [lookup] at h
  | cons x l ih =>
    obtain ⟨a, b⟩ := x
    simp only [lookup] at h
    split at h
    · rename_i e; cases h; subst e; simp
    · exact List.mem_cons_of_mem _ (ih h)

theorem lookup_append {α β : Type} [DecidableEq α] (k : α) (l l' : List (α × β)) :
    lookup k (l ++ l') = (lookup k l).or (lookup k l') := by
  induction l with
  | nil => simp [lookup]
  | cons x l ih =>
    obtain ⟨a, b⟩ := x
    simp only [List.cons_append, lookup]
    split
    · simp
    · exact ih

theorem lookup_none_of {α β : Type} [DecidableEq α] {k : α} {l : List (α × β)} (h : ∀ p ∈ l, p.1 ≠ k) : lookup k l = none := by
  cases e : lookup k l with
  | none => rfl
  | some v => exact absurd rfl (h _ (lookup_some_mem e))

/-- the id map after merging a node that was not known before -/
theorem mapId_insert {m : IdMap} {id i : Nat} (h : lookup id m = none) (x : Nat) :
    mapId (if id ≠ i then insertNew id i m else m) x = if x = id then i else mapId m x := by
  by_cases e : id ≠ i
  · rw [if_pos e]
    unfold insertNew mapId
    rw [h, lookup_append]
    by_cases hx : x = id
    · subst hx; rw [h, if_pos rfl]; simp [lookup]
    · rw [if_neg hx]
      have : lookup x [(id, i)] = none := by simp [lookup, Ne.symm hx]
      rw [this]; simp
  · rw [if_neg e]
    have e : id = i := by simpa using e
    subst e
    by_cases hx : x = id
    · subst hx; simp [mapId, h]
    · rw [if_neg hx]

/-- a reference entry of a record read is the same as in the source -/
def SameRef (S : Src) (db : DB) (i : Nat) (e : DEnt) : Prop :=
  ∃ D n j, Denotes S.node i D ∧ S.node i = some n ∧ e.node = some j ∧ Denotes db.node? j D ∧ e.val = n.data

/-- an immediate entry of a record read is the same as in the source -/
def SameImm (S : Src) (db : DB) (p : Nat × Val) (e : DEnt) : Prop :=
  ∃ A j, Denotes S.node p.1 A ∧ e.node = some j ∧ Denotes db.node? j A ∧ e.val = p.2

/-- a record read is the same as the one written: references, then immediates -/
def SameRec (S : Src) (db : DB) (r : List Nat × List (Nat × Val)) (r' : List DEnt) : Prop :=
  ∃ r1 r2, r' = r1 ++ r2 ∧ List.Forall₂ (SameRef S db) r.1 r1 ∧ List.Forall₂ (SameImm S db) r.2 r2

theorem forall₂_imp {α β : Type} {R R' : α → β → Prop} (h : ∀ a b, R a b → R' a b) {l : List α} {l' : List β}
    (hf : List.Forall₂ R l l') : List.Forall₂ R' l l' := by
  induction hf with
  | nil => exact .nil
  | cons h1 _ ih => exact .cons (h _ _ h1) ih

theorem SameRec.mono {S : Src} {db db' : DB} (h : db.Ext db') {r : List Nat × List (Nat × Val)} {r' : List DEnt}
    (hs : SameRec S db r r') : SameRec S db' r r' := by
  obtain ⟨r1, r2, e, h1, h2⟩ := hs
  refine ⟨r1, r2, e, forall₂_imp ?_ h1, forall₂_imp ?_ h2⟩
  · rintro a b ⟨D, n, j, k1, k2, k3, k4, k5⟩
    exact ⟨D, n, j, k1, k2, k3, h.denotes k4, k5⟩
  · rintro a b ⟨A, j, k1, k2, k3, k4⟩
    exact ⟨A, j, k1, k2, h.denotes k3, k4⟩

/-- snapshot records among the lines -/
def snapsOf (ls : List WLine) : List (List Nat × List (Nat × Val)) := ls.filterMap fun l => match l with
  | .record .snapshot r i => some (r, i)
  | _ => none

theorem snapsOf_append (a b : List WLine) : snapsOf (a ++ b) = snapsOf a ++ snapsOf b := by simp [snapsOf]

/-- invariant of reading a written stream -/
structure RInv (S : Src) (pre : List WLine) (s : RState) : Prop where
  ok : s.db.OK
  err : s.err = false
  keys : ∀ p ∈ s.idmap, p.1 ∈ nodeIds pre
  means : ∀ id D, id < 12 ∨ id ∈ nodeIds pre → Denotes S.node id D → Denotes s.db.node? (mapId s.idmap id) D
  recs : List.Forall₂ (SameRec S s.db) (snapsOf pre) s.recs

/-- the number of nodes a line can add -/
def WLine.cost : WLine → Nat
  | .node _ _ => 1
  | .record _ _ imms => imms.length

theorem Denotes.node_some {N : Nat → Option Nd} {i : Nat} {D : Deep} (h : Denotes N i D) : ∃ n, N i = some n := by
  cases h with
  | boot h1 h2 => exact ⟨_, h2.trans (List.getElem?_eq_getElem (show i < bootNodes.length from h1))⟩
  | root _ h2 => exact ⟨_, h2⟩
  | child _ h2 => exact ⟨_, h2⟩

theorem toNat_id {i : Nat} (h : i ≤ invN) : (BitVec.ofNat 64 i).toNat = i := by
  simp only [BitVec.toNat_ofNat]
  unfold invN at h
  omega

theorem parent_toNat (p : Option Nat) (h : ∀ q, p = some q → q ≤ invN) :
    ((p.map (BitVec.ofNat 64 ·)).getD invId).toNat = p.getD invN := by
  cases p with
  | none => decide
  | some q => simp only [Option.map_some, Option.getD_some]; exact toNat_id (h q rfl)

theorem ofNat_ne_inv {i : Nat} (h : i < invN) : BitVec.ofNat 64 i ≠ invId := by
  intro e
  have := congrArg BitVec.toNat e
  rw [toNat_id (by omega)] at this
  have e2 : invId.toNat = invN := by decide
  omega

/-- bootstrap attributes are not hidden, and their values have the right type -/
theorem ptrNode_facts : (Deep.boot 9).attrProp = 0 ∧ (Deep.boot 9).attrType = .type := by decide

theorem DB.OK.hidden {db : DB} (h : db.OK) {i : Nat} {D : Deep} (hd : Denotes db.node? i D) (hh : D.attrProp &&& 128#32 = 0) :
    db.hidden (some i) = false := by
  unfold DB.hidden
  rw [h.attrProp hd, hh]
  decide

theorem DB.mergeNode_len (db : DB) (nid aid pid : Nat) (v : Val) :
    (db.mergeNode nid aid pid v).1.nodes.length ≤ db.nodes.length + 1 := by
  have hf : ∀ q, (db.findOrCreate aid v q).1.nodes.length ≤ db.nodes.length + 1 := by
    intro q
    unfold DB.findOrCreate DB.createNode
    split <;> simp
  unfold DB.mergeNode
  cases db.attribute? aid with
  | none => simp
  | some a =>
    simp only
    split
    · simp
    · split
      · simp
      · have := hf (if pid = invN then none else some pid)
        generalize (if pid = invN then none else some pid) = q at *
        split <;> exact this

theorem DB.mergeNode_new (db : DB) (nid aid pid : Nat) (v : Val) {i : Nat} (h : (db.mergeNode nid aid pid v).2 = some i) :
    (db.mergeNode nid aid pid v).1.nodes.length = db.nodes.length ∨ i = db.nodes.length := by
  have hf : ∀ q, (db.findOrCreate aid v q).1.nodes.length = db.nodes.length ∨ (db.findOrCreate aid v q).2 = db.nodes.length := by
    intro q
    unfold DB.findOrCreate DB.createNode
    split <;> simp
  unfold DB.mergeNode at h ⊢
  cases hc : db.attribute? aid with
  | none => simp
  | some a =>
    simp only [hc] at h ⊢
    split
    · simp
    · rename_i h1
      rw [if_neg h1] at h
      split
      · simp
      · rename_i h2
        rw [if_neg h2] at h
        have := hf (if pid = invN then none else some pid)
        generalize (if pid = invN then none else some pid) = q at *
        split
        · rename_i h3
          rw [if_pos h3] at h
          cases h; exact this
        · rename_i h3
          rw [if_neg h3] at h
          cases h; exact this

theorem bootNodes_small : ∀ n ∈ bootNodes, n.attr < 12 ∧ ∀ p ∈ n.parent, p < 12 := by decide

/-- reading a node line -/
theorem RInv.node {F : DblFmt} {S : Src} (hS : S.Sound F) {pre : List WLine} {s : RState} (h : RInv S pre s) {id : Nat} {n : Nd}
    (hn : S.node id = some n) (h11 : 11 ≤ id) (hid : id ∉ nodeIds pre) (hsm : ∀ i ∈ nodeIds pre, 11 ≤ i ∧ i < invN)
    (hdef : Defined pre (.node id n)) (hlen : s.db.nodes.length < invN) :
    ∃ s', s.line F (parseLine ((WLine.node id n).text F)) = some s' ∧ RInv S (pre ++ [.node id n]) s' ∧
      s'.db.nodes.length ≤ s.db.nodes.length + 1 ∧
      (s'.db.nodes.length = s.db.nodes.length ∨ mapId s'.idmap id = s.db.nodes.length) := by
  have hidlt := hS.small id n hn
  -- the attribute in the source
  obtain ⟨A, hA, h8, hty, hsup, hhid⟩ : ∃ A, Denotes S.node n.attr A ∧ A.isOf 8 ∧ n.data.ty = A.attrType ∧ Supported F n.data ∧
      A.attrProp &&& 128#32 = 0 := by
    by_cases h12 : 12 ≤ id
    · exact hS.attr id n hn h12
    · have : id = 11 := by omega
      subst this
      rw [hS.boot 11 (by omega)] at hn
      simp [bootNodes] at hn
      subst hn
      exact ⟨.boot 9, .boot (i := 9) (by omega) (hS.boot 9 (by omega)), by simp [Deep.isOf, bootNodes], ptrNode_facts.2.symm, by simp [Supported],
        by rw [ptrNode_facts.1]; decide⟩
  obtain ⟨na, hna⟩ := hA.node_some
  have hattrlt := hS.small _ _ hna
  have hparlt : ∀ q, n.parent = some q → (S.node q).isSome ∧ q < invN := by
    intro q hq
    have : (S.node q).isSome := by
      rcases hS.acyclic.parent id n q hn h11 hq with hb | ⟨hb, _⟩
      · rw [hS.boot q (by omega), List.getElem?_eq_getElem (show q < bootNodes.length from by
          have : bootNodes.length = 12 := rfl
          omega)]; rfl
      · exact hb
    obtain ⟨nq, hnq⟩ := Option.isSome_iff_exists.1 this
    exact ⟨this, hS.small q nq hnq⟩
  -- parse
  obtain ⟨hw, hmv⟩ := value_textOf F n.data hsup
  generalize word F n.data = w at hw hmv
  have hparse : parseLine ((WLine.node id n).text F) = .node ⟨BitVec.ofNat 64 n.attr, BitVec.ofNat 64 id,
      (n.parent.map (BitVec.ofNat 64 ·)).getD invId, w⟩ :=
    parse_nodeLine _ _ _ w _ hw (ofNat_ne_inv hidlt) (ofNat_ne_inv hattrlt)
  rw [hparse]
  simp only [RState.line, DB.mergeNodeText, toNat_id (Nat.le_of_lt hidlt), toNat_id (Nat.le_of_lt hattrlt),
    parent_toNat n.parent (fun q hq => Nat.le_of_lt (hparlt q hq).2)]
  -- the attribute in the database
  have used : ∀ i, i < 11 ∨ i ∈ nodeIds pre → i < 12 ∨ i ∈ nodeIds pre := fun i hi => hi.imp (fun _ => by omega) fun x => x
  have hA' := h.means n.attr A (used _ (hdef n.attr (by simp [WLine.uses]))) hA
  obtain ⟨hat, _⟩ : s.db.attribute? (mapId s.idmap n.attr) = some (mapId s.idmap n.attr) ∧ A.isOf 8 := by
    rcases DB.OK.attribute? hA' with h' | h'
    · exact h'
    · exact absurd h8 h'.2
  rw [hat, h.ok.hidden hA' hhid, h.ok.attrType hA', ← hty, hmv]
  -- the parent in the database
  have hfree : lookup id s.idmap = none := lookup_none_of fun p hp e => hid (e ▸ h.keys p hp)
  have hinv : mapId s.idmap invN = invN := by
    have : lookup invN s.idmap = none := lookup_none_of fun p hp e => by
      have := hsm _ (h.keys p hp); omega
    simp [mapId, this]
  obtain ⟨hp1, hp2⟩ : (if mapId s.idmap (n.parent.getD invN) = invN then none else some (mapId s.idmap (n.parent.getD invN))) =
      n.parent.map (mapId s.idmap) ∧ (mapId s.idmap (n.parent.getD invN) ≠ invN →
        mapId s.idmap (n.parent.getD invN) < s.db.nodes.length) := by
    cases hp : n.parent with
    | none => simp [hinv]
    | some q =>
      obtain ⟨Q, hQ⟩ := hS.denotes _ q rfl (hparlt q hp).1
      have := (h.means q Q (used _ (hdef q (by simp [WLine.uses, hp]))) hQ).lt
      simp only [Option.getD_some, Option.map_some]
      exact ⟨if_neg (by omega), fun _ => this⟩
  have hnonempty : n.data.isEmpty = false := by
    cases hd : n.data with
    | inv => rw [hd] at hsup; exact hsup.elim
    | _ => rfl
  obtain ⟨b1, b2, b3, b4, b5, b6⟩ := h.ok.mergeNode id (mapId s.idmap n.attr) (mapId s.idmap (n.parent.getD invN)) n.data
  have hsome := b5 (by rw [hat]; rfl) (by omega) (by have := hA'.lt; omega) hnonempty hp2
  have b8 := @DB.mergeNode_new s.db id (mapId s.idmap n.attr) (mapId s.idmap (n.parent.getD invN)) n.data
  have b7 := DB.mergeNode_len s.db id (mapId s.idmap n.attr) (mapId s.idmap (n.parent.getD invN)) n.data
  rw [if_neg (by simp)]
  unfold DB.mergeNodeMap
  cases hm : s.db.mergeNode id (mapId s.idmap n.attr) (mapId s.idmap (n.parent.getD invN)) n.data with
  | mk db' o =>
    rw [hm] at b1 b2 b3 b4 b7 b8 hsome
    cases o with
    | none => simp at hsome
    | some i =>
      refine ⟨_, rfl, ?_, b7, ?_⟩
      swap
      · rw [mapId_insert hfree, if_pos rfl]; exact b8 rfl
      obtain ⟨hi, -⟩ := b4 i rfl
      rw [hp1] at hi
      refine ⟨b1, h.err, ?_, ?_, ?_⟩
      · intro p hp
        rw [nodeIds_append]
        simp only [] at hp
        split at hp
        · unfold insertNew at hp
          rw [hfree] at hp
          rcases List.mem_append.1 hp with hp | hp
          · exact List.mem_append_left _ (h.keys p hp)
          · simp at hp; subst hp; exact List.mem_append_right _ (by simp [nodeIds])
        · exact List.mem_append_left _ (h.keys p hp)
      · intro x D hx hD
        simp only [mapId_insert hfree]
        by_cases e : x = id
        · subst e
          rw [if_pos rfl]
          by_cases h12 : x < 12
          · have hx11 : x = 11 := by omega
            subst hx11
            have hb := b1.bootAt (i := 11) (by omega)
            rw [hS.boot 11 (by omega)] at hn
            have hn' : n = ⟨9, .type .ptr, none⟩ := by simp [bootNodes] at hn; exact hn.symm
            subst hn'
            have e9 : mapId s.idmap 9 = 9 := by
              have : lookup 9 s.idmap = none := lookup_none_of fun p hp e => by
                have := hsm p.1 (h.keys p hp)
                omega
              simp [mapId, this]
            rw [e9] at hi
            have hi11 : i = 11 := by
              refine (List.getElem?_inj (List.getElem?_eq_some_iff.1 hi).1 b1.nodup).1 ?_
              rw [hb]; exact hi
            subst hi11
            cases hD with
            | boot k1 k2 => exact .boot k1 hb
            | root k1 => omega
            | child k1 => omega
          · have hi12 : 12 ≤ i := by
              refine Nat.not_lt.1 fun hlt => hS.fresh x n hn (by omega) ?_
              have hb : (⟨mapId s.idmap n.attr, n.data, n.parent.map (mapId s.idmap)⟩ : Nd) ∈ bootNodes := by
                refine List.mem_of_getElem? (i := i) ?_
                rw [← b1.bootAt hlt]; exact hi
              obtain ⟨q1, q2⟩ := bootNodes_small _ hb
              have same : ∀ (y : Nat) (Y : Deep), Denotes S.node y Y → Denotes s.db.node? (mapId s.idmap y) Y →
                  mapId s.idmap y < 12 → mapId s.idmap y = y := by
                intro y Y k1 k2 k3
                have : Y = .boot (mapId s.idmap y) := k2.boot_iff.2 ⟨rfl, k3⟩
                exact (k1.boot_iff.1 this).1.symm
              have e1 := same n.attr A hA hA' q1
              have e2 : n.parent.map (mapId s.idmap) = n.parent := by
                cases hp : n.parent with
                | none => rfl
                | some q =>
                  obtain ⟨Q, hQ⟩ := hS.denotes _ q rfl (hparlt q hp).1
                  have hQ' := h.means q Q (used _ (hdef q (by simp [WLine.uses, hp]))) hQ
                  simp only [Option.map_some, Option.some.injEq]
                  exact same q Q hQ hQ' (q2 _ (by simp [hp]))
              rw [e1, e2] at hb
              exact hb
            have hA'' := b2.denotes hA'
            cases hD with
            | boot k1 => omega
            | root k1 k2 k3 =>
              rw [hn] at k2
              cases k2
              rw [k3.det hA]
              exact .root hi12 hi hA''
            | @child _ a q v A2 P k1 k2 k3 k4 =>
              rw [hn] at k2
              cases k2
              rw [k3.det hA]
              exact .child hi12 hi hA'' (b2.denotes (h.means q P (used _ (hdef q (by simp [WLine.uses]))) k4))
        · rw [if_neg e]
          refine b2.denotes (h.means x D ?_ hD)
          rcases hx with hx | hx
          · exact .inl hx
          · rw [nodeIds_append] at hx
            rcases List.mem_append.1 hx with hx | hx
            · exact .inr hx
            · simp [nodeIds] at hx; exact absurd hx e
      · rw [snapsOf_append]
        simp only [snapsOf, List.filterMap_cons, List.filterMap_nil, List.append_nil]
        exact forall₂_imp (fun a b hab => SameRec.mono b2 hab) h.recs

theorem Denotes.data {N N' : Nat → Option Nd} {i j : Nat} {D : Deep} (h : Denotes N i D) (h' : Denotes N' j D) {n n' : Nd}
    (hn : N i = some n) (hn' : N' j = some n') : n.data = n'.data := by
  cases h with
  | boot h1 h2 =>
    cases h' with
    | boot k1 k2 => rw [h2] at hn; rw [k2] at hn'; rw [hn] at hn'; cases hn'; rfl
  | root h1 h2 =>
    cases h' with
    | root k1 k2 => rw [h2] at hn; rw [k2] at hn'; cases hn; cases hn'; rfl
  | child h1 h2 =>
    cases h' with
    | child k1 k2 => rw [h2] at hn; rw [k2] at hn'; cases hn; cases hn'; rfl

theorem Denotes.isOf_iff {N : Nat → Option Nd} {i : Nat} {D : Deep} (h : Denotes N i D) {n : Nd} (hn : N i = some n) (a : Nat)
    (ha : a < 12) : D.isOf a ↔ n.attr = a := by
  cases h with
  | boot h1 h2 => rw [hn] at h2; simp [Deep.isOf, ← h2]
  | root h1 h2 h3 => rw [hn] at h2; cases h2; simp [Deep.isOf, h3.boot_iff, ha]
  | child h1 h2 h3 => rw [hn] at h2; cases h2; simp [Deep.isOf, h3.boot_iff, ha]

theorem DB.findOrCreate_len (db : DB) (a : Nat) (v : Val) (q : Option Nat) :
    (db.findOrCreate a v q).1.nodes.length ≤ db.nodes.length + 1 := by
  unfold DB.findOrCreate DB.createNode
  split <;> simp

theorem DB.setGlobal_len (db : DB) (a : Nat) (v : Val) : (db.setGlobal a v).nodes.length ≤ db.nodes.length + 1 := by
  unfold DB.setGlobal
  simp only
  split
  · simp
  · split
    · split <;> simp
    · split
      · simp
      · split
        · split
          · exact DB.findOrCreate_len _ _ _ _
          · exact DB.findOrCreate_len _ _ _ _
        · exact DB.findOrCreate_len _ _ _ _

theorem DB.mergeGlobalImm_len (F : DblFmt) (db : DB) (m : IdMap) (a : Nat) (w : List Byte) :
    (db.mergeGlobalImm F m a w).nodes.length ≤ db.nodes.length + 1 := by
  unfold DB.mergeGlobalImm
  split
  · exact DB.setGlobal_len _ _ _
  · simp

theorem DB.mergeGlobalRef_len (db : DB) (m : IdMap) (i : Nat) : (db.mergeGlobalRef m i).nodes.length = db.nodes.length := by
  unfold DB.mergeGlobalRef
  split
  · rfl
  · simp only []
    split <;> rfl

theorem foldl_len {β : Type} (f : DB → β → DB) (k : Nat) (hf : ∀ db b, (f db b).nodes.length ≤ db.nodes.length + k) (l : List β) :
    ∀ db : DB, (l.foldl f db).nodes.length ≤ db.nodes.length + k * l.length := by
  induction l with
  | nil => intro db; simp
  | cons b l ih =>
    intro db
    have := ih (f db b)
    have := hf db b
    simp only [List.foldl_cons, List.length_cons, Nat.mul_add]
    omega

theorem forall₂_map {α β : Type} {R : α → β → Prop} (f : α → β) (l : List α) (h : ∀ a ∈ l, R a (f a)) :
    List.Forall₂ R l (l.map f) := by
  induction l with
  | nil => exact .nil
  | cons a l ih => exact .cons (h a (by simp)) (ih fun x hx => h x (List.mem_cons_of_mem _ hx))

/-- reading a record line -/
theorem RInv.record {F : DblFmt} {S : Src} (hS : S.Sound F) {pre : List WLine} {s : RState} (h : RInv S pre s) {k : Kind}
    {es : List DEnt} (hr : S.RecOK F es) (hdef : Defined pre (.record k (S.refsOf es) (S.immsOf es))) :
    ∃ s', s.line F (parseLine ((WLine.record k (S.refsOf es) (S.immsOf es)).text F)) = some s' ∧
      RInv S (pre ++ [.record k (S.refsOf es) (S.immsOf es)]) s' ∧
      s'.db.nodes.length ≤ s.db.nodes.length + (S.immsOf es).length := by
  have hids : ∀ i ∈ (WLine.record k (S.refsOf es) (S.immsOf es)).uses, i < invN ∧ (S.node i).isSome := by
    intro i hi
    simp only [WLine.uses, List.mem_append, List.mem_map] at hi
    have : (S.node i).isSome := by
      rcases hi with hi | ⟨⟨j, v⟩, hi, rfl⟩
      · obtain ⟨e, he, hn, _⟩ := mem_refsOf hi
        exact hr.has e he i hn
      · obtain ⟨e, he, hn, _⟩ := mem_immsOf hi
        exact hr.has e he j hn
    obtain ⟨n, hn⟩ := Option.isSome_iff_exists.1 this
    exact ⟨hS.small i n hn, this⟩
  have used : ∀ i, i < 11 ∨ i ∈ nodeIds pre → i < 12 ∨ i ∈ nodeIds pre := fun i hi => hi.imp (fun _ => by omega) fun x => x
  have hparse : parseLine ((WLine.record k (S.refsOf es) (S.immsOf es)).text F) =
      .record k ⟨(S.refsOf es).map (BitVec.ofNat 64 ·), (S.immsOf es).map (fun p => BitVec.ofNat 64 p.1),
        (S.immsOf es).map fun p => word F p.2⟩ := by
    have := parse_recLine k ((S.refsOf es).map (BitVec.ofNat 64 ·))
      ((S.immsOf es).map fun p => (BitVec.ofNat 64 p.1, p.2.writeCali F, word F p.2))
      (hr.ne.imp (fun h => by simpa using h) (fun h => by simpa using h))
      (by intro e he
          obtain ⟨p, hp, rfl⟩ := List.mem_map.1 he
          exact (value_textOf F p.2 (hr.imm p hp).1).1)
      (by intro e he
          cases hi : S.immsOf es with
          | nil => simp [hi] at he
          | cons p ps =>
            cases ps with
            | cons => simp [hi] at he
            | nil =>
              simp [hi] at he
              subst he
              exact hr.single p hi)
    simp only [List.map_map] at this
    exact this
  rw [hparse]
  have hzip : (((S.immsOf es).map (fun p => BitVec.ofNat 64 p.1)).zip ((S.immsOf es).map fun p => word F p.2)) =
      (S.immsOf es).map fun p => (BitVec.ofNat 64 p.1, word F p.2) := by
    induction S.immsOf es with
    | nil => rfl
    | cons p ps ih => simp [ih]
  have hnodeIds : nodeIds (pre ++ [.record k (S.refsOf es) (S.immsOf es)]) = nodeIds pre := by simp [nodeIds]
  cases k with
  | snapshot =>
    simp only [RState.line, hzip]
    refine ⟨_, rfl, ⟨h.ok, by simp [h.err], ?_, ?_, ?_⟩, by simp⟩
    · rw [hnodeIds]; exact h.keys
    · rw [hnodeIds]; exact h.means
    · rw [snapsOf_append]
      refine List.rel_append h.recs ?_
      simp only [snapsOf, List.filterMap_cons, List.filterMap_nil]
      refine .cons ⟨_, _, rfl, ?_, ?_⟩ .nil
      · rw [List.map_map]
        refine forall₂_map _ _ fun i hi => ?_
        have hu : i ∈ (WLine.record .snapshot (S.refsOf es) (S.immsOf es)).uses := List.mem_append_left _ hi
        obtain ⟨hlt, hsm⟩ := hids i hu
        obtain ⟨D, hD⟩ := hS.denotes _ i rfl hsm
        have hD' := h.means i D (used _ (hdef i hu)) hD
        obtain ⟨n, hn⟩ := hD.node_some
        obtain ⟨n', hn'⟩ := hD'.node_some
        refine ⟨D, n, mapId s.idmap i, hD, hn, ?_, hD', ?_⟩
        · simp [DB.mergeRef, toNat_id (Nat.le_of_lt hlt), hn']
        · simp [DB.mergeRef, toNat_id (Nat.le_of_lt hlt), hn', hD.data hD' hn hn']
      · rw [List.map_map]
        refine forall₂_map _ _ fun p hp => ?_
        have hu : p.1 ∈ (WLine.record .snapshot (S.refsOf es) (S.immsOf es)).uses :=
          List.mem_append_right _ (List.mem_map.2 ⟨p, hp, rfl⟩)
        obtain ⟨hlt, hsm⟩ := hids p.1 hu
        obtain ⟨hsup, A, hA, hty⟩ := hr.imm p hp
        have hA' := h.means p.1 A (used _ (hdef p.1 hu)) hA
        obtain ⟨e, he, hn, hv, him⟩ := mem_immsOf hp
        obtain ⟨n, hnn⟩ := hA.node_some
        have h8 : A.isOf 8 := by
          rw [hA.isOf_iff hnn 8 (by omega)]
          simpa [Src.isImm, hnn] using him
        have hat : s.db.attribute? (mapId s.idmap p.1) = some (mapId s.idmap p.1) := by
          rcases DB.OK.attribute? hA' with h' | h'
          · exact h'.1
          · exact absurd h8 h'.2
        refine ⟨A, mapId s.idmap p.1, hA, ?_, hA', ?_⟩
        · simp [DB.mergeImm, toNat_id (Nat.le_of_lt hlt), hat]
        · simp [DB.mergeImm, toNat_id (Nat.le_of_lt hlt), hat, h.ok.attrType hA', ← hty, (value_textOf F p.2 hsup).2]
  | globals =>
    simp only [RState.line, hzip]
    obtain ⟨a, b⟩ := foldl_ok (fun db (id : U64) => db.mergeGlobalRef s.idmap id.toNat)
      (fun db b hb => hb.mergeGlobalRef s.idmap b.toNat) ((S.refsOf es).map (BitVec.ofNat 64 ·)) s.db h.ok
    obtain ⟨c, d⟩ := foldl_ok (fun db (p : U64 × List Byte) => db.mergeGlobalImm F s.idmap p.1.toNat p.2)
      (fun db b hb => hb.mergeGlobalImm F s.idmap b.1.toNat b.2) ((S.immsOf es).map fun p => (BitVec.ofNat 64 p.1, word F p.2)) _ a
    have hext := b.trans d
    refine ⟨_, rfl, ⟨c, by simp [h.err], ?_, ?_, ?_⟩, ?_⟩
    · rw [hnodeIds]; exact h.keys
    · rw [hnodeIds]; intro id D hi hD; exact hext.denotes (h.means id D hi hD)
    · rw [snapsOf_append]
      simp only [snapsOf, List.filterMap_cons, List.filterMap_nil, List.append_nil]
      exact forall₂_imp (fun a b hab => SameRec.mono hext hab) h.recs
    · have l1 := foldl_len (fun db (id : U64) => db.mergeGlobalRef s.idmap id.toNat) 0
        (fun db b => Nat.le_of_eq (DB.mergeGlobalRef_len db _ _)) ((S.refsOf es).map (BitVec.ofNat 64 ·)) s.db
      have l2 := foldl_len (fun db (p : U64 × List Byte) => db.mergeGlobalImm F s.idmap p.1.toNat p.2) 1
        (fun db b => DB.mergeGlobalImm_len F db _ _ _) ((S.immsOf es).map fun p => (BitVec.ofNat 64 p.1, word F p.2))
        (((S.refsOf es).map (BitVec.ofNat 64 ·)).foldl (fun db (id : U64) => db.mergeGlobalRef s.idmap id.toNat) s.db)
      simp only [List.length_map] at l1 l2
      refine Nat.le_trans l2 ?_
      omega

theorem mem_nodeIds {ls : List WLine} {i : Nat} : i ∈ nodeIds ls ↔ ∃ n, WLine.node i n ∈ ls := by
  simp only [nodeIds, List.mem_filterMap]
  constructor
  · rintro ⟨l, hl, h⟩
    cases l with
    | node id n => simp at h; subst h; exact ⟨n, hl⟩
    | record => simp at h
  · rintro ⟨n, hn⟩
    exact ⟨_, hn, rfl⟩

/-- all lines -/
theorem read_lines {F : DblFmt} {S : Src} (hS : S.Sound F) (all : List WLine) (hnd : (nodeIds all).Nodup)
    (hnode : ∀ id n, WLine.node id n ∈ all → S.node id = some n ∧ 11 ≤ id)
    (hdef : ∀ pre l post, all = pre ++ l :: post → Defined pre l)
    (hrec : ∀ k r i, WLine.record k r i ∈ all → ∃ es, S.RecOK F es ∧ r = S.refsOf es ∧ i = S.immsOf es) :
    ∀ (post pre : List WLine) (s : RState), all = pre ++ post → RInv S pre s →
      s.db.nodes.length + (post.map WLine.cost).sum ≤ invN →
      ∃ s', s.lines F (post.map fun l => parseLine (l.text F)) = some s' ∧ RInv S all s' := by
  intro post
  induction post with
  | nil => intro pre s e h _; exact ⟨s, rfl, by rw [e, List.append_nil]; exact h⟩
  | cons l post ih =>
    intro pre s e h hlen
    have hmem : l ∈ all := by rw [e]; simp
    have step : ∃ s1, s.line F (parseLine (l.text F)) = some s1 ∧ RInv S (pre ++ [l]) s1 ∧
        s1.db.nodes.length ≤ s.db.nodes.length + l.cost := by
      cases l with
      | node id n =>
        obtain ⟨hn, h11⟩ := hnode id n hmem
        suffices hs : ∃ s1, s.line F (parseLine ((WLine.node id n).text F)) = some s1 ∧ RInv S (pre ++ [.node id n]) s1 ∧
            s1.db.nodes.length ≤ s.db.nodes.length + 1 ∧ (s1.db.nodes.length = s.db.nodes.length ∨ mapId s1.idmap id = s.db.nodes.length) by
          obtain ⟨s1, a, b, c, -⟩ := hs
          exact ⟨s1, a, b, c⟩
        refine h.node hS hn h11 ?_ ?_ (hdef _ _ _ e) ?_
        · intro hc
          rw [e, nodeIds_append] at hnd
          exact (List.nodup_append.1 hnd).2.2 id hc id (by simp [nodeIds]) rfl
        · intro i hi
          obtain ⟨m, hm⟩ := mem_nodeIds.1 hi
          obtain ⟨k1, k2⟩ := hnode i m (by rw [e]; exact List.mem_append_left _ hm)
          exact ⟨k2, hS.small i m k1⟩
        · simp only [List.map_cons, List.sum_cons, WLine.cost] at hlen
          omega
      | record k r i =>
        obtain ⟨es, hes, rfl, rfl⟩ := hrec k r i hmem
        exact h.record hS hes (hdef _ _ _ e)
    obtain ⟨s1, e1, h1, l1⟩ := step
    obtain ⟨s', e2, h2⟩ := ih (pre ++ [l]) s1 (by rw [e]; simp) h1 (by
      simp only [List.map_cons, List.sum_cons] at hlen
      omega)
    refine ⟨s', ?_, h2⟩
    simp only [List.map_cons, RState.lines, e1]
    exact e2

/-- no line break in a text -/
def NoNL (s : List Byte) : Prop := ∀ c ∈ s, c ≠ ch '\n'

theorem NoNL.append {a b : List Byte} (h : NoNL a) (h' : NoNL b) : NoNL (a ++ b) := by
  intro c hc
  rcases List.mem_append.1 hc with hc | hc
  · exact h c hc
  · exact h' c hc

theorem no_newline_eqList (ts : List (List Byte)) (h : ∀ t ∈ ts, ∀ c ∈ t, c ≠ ch '\n') : ∀ c ∈ eqList ts, c ≠ ch '\n' := by
  intro c hc
  simp only [eqList, List.mem_flatMap, List.mem_cons] at hc
  obtain ⟨t, ht, rfl | hc⟩ := hc
  · decide
  · exact h t ht c hc

theorem writeUint_no_newline (u : U64) : ∀ c ∈ writeUint u, c ≠ ch '\n' := by
  intro c hc e
  subst e
  exact (writeUint_plain u _ hc).2.2.2 (by decide)

theorem str_no_newline (s : List Byte) (h : s.all (fun c => decide (c ≠ ch '\n')) = true) : ∀ c ∈ s, c ≠ ch '\n' := by
  simpa using h

/-- lines are not empty and contain no line break -/
theorem text_line {F : DblFmt} {S : Src} (hS : S.Sound F) {l : WLine}
    (hnode : ∀ id n, l = WLine.node id n → S.node id = some n ∧ 11 ≤ id)
    (hrec : ∀ k r i, l = WLine.record k r i → ∃ es, S.RecOK F es ∧ r = S.refsOf es ∧ i = S.immsOf es) :
    l.text F ≠ [] ∧ ∀ c ∈ l.text F, c ≠ ch '\n' := by
  cases l with
  | node id n =>
    obtain ⟨hn, h11⟩ := hnode id n rfl
    have hsup : Supported F n.data := by
      by_cases h12 : 12 ≤ id
      · obtain ⟨_, _, _, _, h, _⟩ := hS.attr id n hn h12
        exact h
      · have : id = 11 := by omega
        subst this
        rw [hS.boot 11 (by omega)] at hn
        simp [bootNodes] at hn
        subst hn
        simp [Supported]
    have hv : NoNL (n.data.writeCali F) := writeCali_no_newline F n.data hsup
    refine ⟨by simp [WLine.text, nodeLine, str], ?_⟩
    have h1 : NoNL (str "__rec=node,id=") := str_no_newline _ (by decide)
    have h2 : NoNL (str ",attr=") := str_no_newline _ (by decide)
    have h3 : NoNL (str ",data=") := str_no_newline _ (by decide)
    have h4 : NoNL (str ",parent=") := str_no_newline _ (by decide)
    have hu := writeUint_no_newline
    refine (((h1.append (hu _)).append (h2.append (hu _))).append (h3.append hv)).append ?_
    cases n.parent with
    | none => intro c hc; simp at hc
    | some p => exact h4.append (hu _)
  | record k r i =>
    obtain ⟨es, hes, rfl, rfl⟩ := hrec k r i rfl
    refine ⟨by cases k <;> simp [WLine.text, recLine, Kind.header, str], ?_⟩
    have h0 : NoNL k.header := by cases k <;> exact str_no_newline _ (by decide)
    have h1 : NoNL (str ",ref") := str_no_newline _ (by decide)
    have h2 : NoNL (str ",attr") := str_no_newline _ (by decide)
    have h3 : NoNL (str ",data") := str_no_newline _ (by decide)
    have hnil : NoNL [] := by intro c hc; simp at hc
    have hl : ∀ ts : List (List Byte), (∀ t ∈ ts, NoNL t) → NoNL (eqList ts) := no_newline_eqList
    refine (h0.append ?_).append ?_
    · split
      · exact hnil
      · refine h1.append (hl _ ?_)
        intro t ht
        obtain ⟨u, _, rfl⟩ := List.mem_map.1 ht
        exact writeUint_no_newline u
    · split
      · exact hnil
      · refine (h2.append (hl _ ?_)).append (h3.append (hl _ ?_))
        · intro t ht
          obtain ⟨u, _, rfl⟩ := List.mem_map.1 ht
          exact writeUint_no_newline _
        · intro t ht
          simp only [List.map_map, List.mem_map, Function.comp] at ht
          obtain ⟨u, hu, rfl⟩ := ht
          exact writeCali_no_newline F _ (hes.imm u hu).1

/-- snapshot records written -/
def Src.snaps (S : Src) (calls : List (Kind × List DEnt)) : List (List Nat × List (Nat × Val)) :=
  calls.filterMap fun c => match c.1 with
    | .snapshot => some (S.refsOf c.2, S.immsOf c.2)
    | .globals => none

theorem snapsOf_recsOf (ls : List WLine) : snapsOf ls = (recsOf ls).filterMap fun c => match c.1 with
    | .snapshot => some c.2
    | .globals => none := by
  induction ls with
  | nil => rfl
  | cons l ls ih =>
    cases l with
    | node => simpa [snapsOf, recsOf] using ih
    | record k r i => cases k <;> simpa [snapsOf, recsOf] using ih

/-- the number of nodes reading the file can add -/
def fileCost (S : Src) (calls : List (Kind × List DEnt)) : Nat := ((writeAll S .init calls).lines.map WLine.cost).sum

/-- reading back a written file -/
theorem roundtrip {F : DblFmt} {S : Src} (hS : S.Sound F) (calls : List (Kind × List DEnt)) (hr : ∀ c ∈ calls, S.RecOK F c.2)
    (db : DB) (hdb : db.OK) (hlen : db.nodes.length + fileCost S calls ≤ invN) :
    ∃ s, readCali F db (caliFile F S calls) = some s ∧ s.err = false ∧ s.db.OK ∧ db.Ext s.db ∧
      List.Forall₂ (SameRec S s.db) (S.snaps calls) s.recs ∧
      ∀ id D, id ∈ nodeIds (writeAll S .init calls).lines → Denotes S.node id D → Denotes s.db.node? (mapId s.idmap id) D := by
  obtain ⟨hw, hrecs⟩ := writeAll_spec S hS.acyclic calls .init (WInv.init S) fun c hc => (hr c hc).has
  have e0 : recsOf WState.init.lines = [] := rfl
  rw [e0, List.nil_append] at hrecs
  have hrec : ∀ k r i, WLine.record k r i ∈ (writeAll S .init calls).lines → ∃ es, S.RecOK F es ∧ r = S.refsOf es ∧ i = S.immsOf es := by
    intro k r i hm
    have : (k, r, i) ∈ recsOf (writeAll S .init calls).lines := by
      simp only [recsOf, List.mem_filterMap]; exact ⟨_, hm, rfl⟩
    rw [hrecs] at this
    obtain ⟨c, hc, e⟩ := List.mem_map.1 this
    simp only [Prod.mk.injEq] at e
    exact ⟨c.2, hr c hc, e.2.1.symm, e.2.2.symm⟩
  have hids : (nodeIds (writeAll S .init calls).lines).Nodup := by rw [hw.ids]; exact hw.nodup
  obtain ⟨s, e, h⟩ := read_lines hS _ hids hw.lines hw.defd hrec _ [] ⟨db, [], false, []⟩ rfl
    ⟨hdb, rfl, by simp, fun id D hi hD => by
      rcases hi with hi | hi
      · have : D = .boot id := hD.boot_iff.2 ⟨rfl, hi⟩
        subst this
        exact .boot hi (hdb.bootAt hi)
      · simp [nodeIds] at hi, .nil⟩ hlen
  have hp : parseFile (caliFile F S calls) = (writeAll S .init calls).lines.map fun l => parseLine (l.text F) := by
    unfold caliFile
    rw [parseFile_lines, List.map_map]
    · rfl
    · intro l hl
      obtain ⟨x, hx, rfl⟩ := List.mem_map.1 hl
      exact text_line hS (fun id n e => hw.lines id n (e ▸ hx)) fun k r i e => hrec k r i (e ▸ hx)
  refine ⟨s, by rw [readCali, hp, e], h.err, h.ok, ?_, ?_, ?_⟩
  · exact (RState.lines_ok hdb e).2.1
  · have := h.recs
    rw [snapsOf_recsOf, hrecs, List.filterMap_map] at this
    exact this
  · intro id D hi hD
    exact h.means id D (.inr hi) hD

end Verif.Cali
