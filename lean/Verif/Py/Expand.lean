import Verif.Py.Inv
/-!
# Expanding records in the Python reader, and reading whole files
-/
namespace Verif.Py
open Verif Verif.Cali

/-- a Python node stands for an item of a path -/
def Stands (db : PyDB) (n : PNode) (it : Item) : Prop :=
  n.data = it.data ∧ ∃ prop, db.attribute n.attr = some (.text it.name, prop) ∧ hasBit prop 7 = false ∧ hasBit prop 8 = it.nested

theorem and_pow (x : BitVec 32) (k : Nat) (hk : k < 32) : x &&& BitVec.ofNat 32 (2 ^ k) = 0 ↔ x.getLsbD k = false := by
  have e : BitVec.ofNat 32 (2 ^ k) = BitVec.twoPow 32 k := by
    apply BitVec.eq_of_toNat_eq; simp [BitVec.toNat_twoPow]
  rw [e, BitVec.and_twoPow]
  cases x.getLsbD k
  · simp
  · have hp : 2 ^ k < 2 ^ 32 := Nat.pow_lt_pow_right (by omega) hk
    have : BitVec.twoPow 32 k ≠ 0 := by
      intro h
      have := congrArg BitVec.toNat h
      rw [BitVec.toNat_twoPow, Nat.mod_eq_of_lt hp] at this
      have : 0 < 2 ^ k := Nat.two_pow_pos k
      simp at *
    simpa using this

theorem NInv.attribute {F : DblFmt} {S : Src} (hS : S.Sound F) (hM : MetaOK F S) {pre : List WLine} {db : PyDB} (h : NInv F S pre db)
    {a : Nat} {name : List Byte} {prop : BitVec 32} (ha : IsAttr S a name prop) (hh : Has pre a) :
    ∃ p, db.attribute a = some (.text name, p) ∧ ∀ k, k < 32 → hasBit p k = prop.getLsbD k := by
  obtain ⟨⟨q, hn⟩, D, hD, rfl⟩ := ha
  obtain ⟨p, hp⟩ := Option.ne_none_iff_exists'.1 (hM.parent a _ hn rfl)
  obtain ⟨m, hm, hl, hattr, hpar⟩ := h.node a hh
  rw [hn] at hm; cases hm
  obtain ⟨prop, e1, e2⟩ := h.mkProp hS hn rfl hp (hpar p hp) hD
  refine ⟨prop, ?_, e2⟩
  unfold PyDB.attribute
  rw [hl]
  simp only [e1, Option.map_some]
  rfl

theorem NInv.chain {F : DblFmt} {S : Src} (hS : S.Sound F) (hM : MetaOK F S) {pre : List WLine} {db : PyDB} (h : NInv F S pre db) {r : Nat → Nat}
    (hr : ∀ i n, lookup i db.nodes = some n → r i < db.nodes.length ∧ ∀ p, n.parent = some p → r p < r i) {q : Option Nat} {l : List Item}
    (hp : PathTo F S q l) : ∀ fuel, (∀ i, q = some i → r i < fuel ∧ Has pre i) → ∃ ns, db.chain fuel q = some ns ∧ List.Forall₂ (Stands db) ns l := by
  induction hp with
  | empty => intro fuel _; exact ⟨[], by cases fuel <;> rfl, .nil⟩
  | @shown i a v q name prop l hn ha hh hq ih =>
    intro fuel hf
    obtain ⟨hf1, hf2⟩ := hf i rfl
    obtain ⟨m, hm, hl, hattr, hpar⟩ := h.node i hf2
    rw [hn] at hm; cases hm
    obtain ⟨fuel, rfl⟩ : ∃ k, fuel = k + 1 := ⟨fuel - 1, by omega⟩
    obtain ⟨ns, e1, e2⟩ := ih fuel (by
      intro p hp
      subst hp
      have := (hr i _ hl).2 p rfl
      exact ⟨by omega, hpar p rfl⟩)
    refine ⟨ns ++ [pyNode F i ⟨a, v, q⟩], ?_, ?_⟩
    · simp only [PyDB.chain, hl]
      show Option.map _ (db.chain fuel q) = _
      rw [e1]; rfl
    · refine List.rel_append e2 (.cons ?_ .nil)
      obtain ⟨p, k1, k2⟩ := h.attribute hS hM ha hattr
      refine ⟨rfl, p, k1, ?_, ?_⟩
      · rw [k2 7 (by omega)]
        exact (and_pow prop 7 (by omega)).1 hh
      · rw [k2 8 (by omega)]
        have := and_pow prop 8 (by omega)
        cases hb : prop.getLsbD 8
        · rw [hb] at this
          have := this.2 rfl
          simp only [ne_eq, Bool.false_eq, decide_eq_false_iff_not, not_not]
          exact this
        · rw [hb] at this
          simp only [ne_eq, Bool.true_eq, decide_eq_true_eq]
          intro hc
          have := this.1 hc
          cases this

/-- a dictionary with the entries of a path -/
structure Holds (d : Dict) (l : List Item) : Prop where
  keys : (d.map (·.1)).Nodup
  text : ∀ k, lookup (.text k) d = pathEntry l k
  pair : ∀ k s, lookup (.pair k s) d = none

theorem pack_snoc (ds : List Data) (x : Data) : pack (ds ++ [x]) = some (addVal (pack ds) x) := by
  match ds with
  | [] => rfl
  | [d] => rfl
  | a :: b :: ds => rfl

theorem pack_cases (ds : List Data) : (ds = [] ∧ pack ds = none) ∨ (∃ d, ds = [d] ∧ pack ds = some (.one d)) ∨ pack ds = some (.many ds) := by
  match ds with
  | [] => exact .inl ⟨rfl, rfl⟩
  | [d] => exact .inr (.inl ⟨d, rfl, rfl⟩)
  | a :: b :: ds => exact .inr (.inr rfl)

theorem Holds.one {db : PyDB} {d : Dict} {l : List Item} (h : Holds d l) {n : PNode} {it : Item} (hs : Stands db n it)
    (hp : it.name ≠ str "path") : ∃ d', db.expandOne d n = some d' ∧ Holds d' (l ++ [it]) := by
  obtain ⟨hd, prop, ha, h7, h8⟩ := hs
  -- the entry under the attribute's name
  obtain ⟨v, hv1, hv2⟩ : ∃ v, pathEntry (l ++ [it]) it.name = some v ∧
      addVal (lookup (.text it.name) d) n.data = v := by
    rw [h.text]
    simp only [pathEntry, if_neg hp, List.filter_append, List.map_append]
    have : (List.filter (fun x => decide (x.name = it.name)) [it]) = [it] := by simp
    rw [this]
    simp only [List.map_cons, List.map_nil, pack_snoc]
    exact ⟨_, rfl, by rw [hd]⟩
  -- the entries under the other names
  have hother : ∀ k, k ≠ it.name → k ≠ str "path" → pathEntry (l ++ [it]) k = pathEntry l k := by
    intro k h1 h2
    simp only [pathEntry, if_neg h2, List.filter_append, List.map_append]
    have : (List.filter (fun x : Item => decide (x.name = k)) [it]) = [] := by simp [Ne.symm h1]
    rw [this]; simp
  have h1 : ((dset d (.text it.name) v).map (·.1)).Nodup := nodup_dset h.keys _ _
  have hl : ∀ x, lookup x (dset d (.text it.name) v) = if Data.text it.name = x then some v else lookup x d := fun x => lookup_dset _ _ _ _
  unfold PyDB.expandOne
  rw [ha]
  simp only [h7, Bool.false_eq_true, if_false, hv2]
  have hpath : lookup pathKey (dset d (.text it.name) v) = pathEntry l (str "path") := by
    rw [hl, if_neg (by unfold pathKey; intro e; exact hp (Data.text.inj e))]
    exact h.text (str "path")
  by_cases hn : it.nested = true
  · rw [h8, if_pos hn, hpath]
    have e2 : pathEntry (l ++ [it]) (str "path") = some (.many ((l.filter (·.nested)).map (·.data) ++ [it.data])) := by
      simp only [pathEntry, if_true, List.filter_append, List.map_append]
      have : (List.filter (fun x : Item => x.nested) [it]) = [it] := by simp [hn]
      rw [this]
      cases (List.map (fun x => x.data) (List.filter (fun x : Item => x.nested) l)) <;> rfl
    have e3 : addPath (pathEntry l (str "path")) n.data = some (.many ((l.filter (·.nested)).map (·.data) ++ [it.data])) := by
      simp only [pathEntry, if_true]
      rw [hd]
      cases (List.map (fun x => x.data) (List.filter (fun x : Item => x.nested) l)) <;> rfl
    rw [e3]
    refine ⟨_, rfl, ?_⟩
    refine ⟨nodup_dset h1 _ _, fun k => ?_, fun k s => ?_⟩
    · rw [lookup_dset, hl]
      by_cases hk : k = str "path"
      · subst hk; rw [if_pos (show pathKey = Data.text (str "path") from rfl), e2]
      · rw [if_neg (by unfold pathKey; intro e; exact hk (Data.text.inj e).symm)]
        by_cases hk2 : k = it.name
        · subst hk2; rw [if_pos rfl, hv1]
        · rw [if_neg (by intro e; cases e; exact hk2 rfl), hother k hk2 hk, h.text]
    · rw [lookup_dset, hl, if_neg (by unfold pathKey; intro e; cases e), if_neg (by intro e; cases e)]
      exact h.pair k s
  · rw [h8, if_neg hn]
    refine ⟨_, rfl, h1, fun k => ?_, fun k s => ?_⟩
    · rw [hl]
      by_cases hk2 : k = it.name
      · subst hk2; rw [if_pos rfl, hv1]
      · rw [if_neg (by intro e; cases e; exact hk2 rfl), h.text]
        by_cases hk : k = str "path"
        · subst hk
          simp only [pathEntry, if_true, List.filter_append, List.map_append]
          have : (List.filter (fun x : Item => x.nested) [it]) = [] := by simp [hn]
          rw [this]; simp
        · exact (hother k hk2 hk).symm
    · rw [hl, if_neg (by intro e; cases e)]
      exact h.pair k s

theorem Holds.all {db : PyDB} {ns : List PNode} {l : List Item} (hs : List.Forall₂ (Stands db) ns l) (hp : ∀ it ∈ l, it.name ≠ str "path") :
    ∀ {d : Dict} {l0 : List Item}, Holds d l0 → ∃ d', db.expandAll d ns = some d' ∧ Holds d' (l0 ++ l) := by
  induction hs with
  | nil => intro d l0 h; exact ⟨d, rfl, by simpa using h⟩
  | @cons n it ns l h1 _ ih =>
    intro d l0 h
    obtain ⟨d1, e1, k1⟩ := h.one h1 (hp it (by simp))
    obtain ⟨d2, e2, k2⟩ := ih (fun x hx => hp x (List.mem_cons_of_mem _ hx)) k1
    exact ⟨d2, by simp only [PyDB.expandAll, e1, e2], by simpa using k2⟩

theorem Holds.nil : Holds [] [] := ⟨by simp, fun k => by simp [lookup, pathEntry, pack], fun k s => rfl⟩

theorem path_names {F : DblFmt} {S : Src} (hM : MetaOK F S) {q : Option Nat} {l : List Item} (h : PathTo F S q l) : ∀ it ∈ l, it.name ≠ str "path" := by
  induction h with
  | empty => simp
  | @shown i a v q name prop l hn ha hh hq ih =>
    intro it hit
    simp only [List.mem_append, List.mem_singleton] at hit
    rcases hit with hit | rfl
    · exact ih it hit
    · obtain ⟨⟨q, hn⟩, _⟩ := ha
      intro e
      simp only at e
      exact hM.path a _ hn rfl (by rw [e])

theorem NInv.expand {F : DblFmt} {S : Src} (hS : S.Sound F) (hM : MetaOK F S) {pre : List WLine} {db : PyDB} (h : NInv F S pre db)
    {i : Nat} {l : List Item} (hp : PathTo F S (some i) l) (hi : Has pre i) : ∃ d, db.expand i = some d ∧ Holds d l := by
  obtain ⟨r, hr⟩ := h.rank
  obtain ⟨n, _, hl, _, _⟩ := h.node i hi
  obtain ⟨ns, e1, e2⟩ := h.chain hS hM hr hp (db.nodes.length + 1) (by
    intro j hj; cases hj
    exact ⟨by have := (hr i _ hl).1; omega, hi⟩)
  obtain ⟨d, e3, e4⟩ := Holds.all e2 (path_names hM hp) .nil
  exact ⟨d, by simp only [PyDB.expand, e1, e3], by simpa using e4⟩

/-- a dictionary with the given entries -/
structure Gives (d : Dict) (f : List Byte → Option PVal) : Prop where
  keys : (d.map (·.1)).Nodup
  text : ∀ k, lookup (.text k) d = f k
  pair : ∀ k s, lookup (.pair k s) d = none

theorem lastSome_cons {α : Type} (x : Option α) (l : List (Option α)) : lastSome (x :: l) = (lastSome l).or x := by
  have key : ∀ (l : List (Option α)) (a : Option α), l.foldl (fun a b => b.or a) a = (l.foldl (fun a b => b.or a) none).or a := by
    intro l
    induction l with
    | nil => intro a; simp
    | cons y l ih =>
      intro a
      simp only [List.foldl_cons]
      rw [ih, ih (y.or none)]
      simp [Option.or_assoc]
  unfold lastSome
  rw [List.foldl_cons, key]
  simp

theorem NInv.refs {F : DblFmt} {S : Src} (hS : S.Sound F) (hM : MetaOK F S) {pre : List WLine} {db : PyDB} (h : NInv F S pre db)
    {refs : List Nat} {paths : List (List Item)} (hp : List.Forall₂ (fun i l => PathTo F S (some i) l) refs paths) (hi : ∀ i ∈ refs, Has pre i) :
    ∀ {d : Dict} {f : List Byte → Option PVal}, Gives d f →
      ∃ d', db.expandRefs d (refs.map fun i => writeUint (BitVec.ofNat 64 i)) = some d' ∧
        Gives d' (fun k => (lastSome (paths.map fun l => pathEntry l k)).or (f k)) := by
  induction hp with
  | nil => intro d f h; exact ⟨d, rfl, by simpa [lastSome] using h⟩
  | @cons i l refs paths h1 _ ih =>
    intro d f hg
    obtain ⟨e, k1, k2⟩ := h.expand hS hM h1 (hi i (by simp))
    obtain ⟨m, hm, hl, _, _⟩ := h.node i (hi i (by simp))
    have hg2 : Gives (dupdate d e) (fun k => (pathEntry l k).or (f k)) := by
      refine ⟨nodup_dupdate e hg.keys, fun k => ?_, fun k s => ?_⟩
      · rw [lookup_dupdate e k2.keys, k2.text, hg.text]
      · rw [lookup_dupdate e k2.keys, k2.pair, hg.pair]; rfl
    obtain ⟨d', e3, e4⟩ := ih (fun j hj => hi j (List.mem_cons_of_mem _ hj)) hg2
    refine ⟨d', ?_, e4.keys, fun k => ?_, e4.pair⟩
    · have : (BitVec.ofNat 64 i).toNat = i := toNat_id (Nat.le_of_lt (hS.small i m hm))
      simp only [List.map_cons, PyDB.expandRefs, pyNat_writeUint, this, hl, k1]
      exact e3
    · rw [e4.text, List.map_cons, lastSome_cons, Option.or_assoc]

theorem PInv.imms {F : DblFmt} {S : Src} (hS : S.Sound F) {pre : List WLine} {db : PyDB} (h : PInv F S pre db)
    {es : List (Nat × Val)} {l : List (List Byte × List Byte)} (hp : Imms F S es l) :
    (∀ p ∈ es, Has pre p.1) → ∀ {d : Dict} {f : List Byte → Option PVal}, Gives d f →
      ∃ d', db.expandImms d (es.map fun p => (writeUint (BitVec.ofNat 64 p.1), textOf F p.2)) = some d' ∧
        Gives d' (fun k => (lastSome (l.map fun e => if e.1 = k then some (PVal.one (.text e.2)) else none)).or (f k)) := by
  have one : ∀ {a : Nat} {name : List Byte} {prop : BitVec 32}, IsAttr S a name prop → Has pre a →
      pyNat (writeUint (BitVec.ofNat 64 a)) = some a ∧ ∃ p, lookup a db.attrs = some (.text name, p) ∧ hasBit p 7 = prop.getLsbD 7 := by
    intro a name prop ha hh
    obtain ⟨⟨q, hn⟩, D, hD, rfl⟩ := ha
    obtain ⟨p, e1, e2⟩ := h.attr a _ hh hn rfl
    refine ⟨by rw [pyNat_writeUint, toNat_id (Nat.le_of_lt (hS.small a _ hn))], p, ?_, e2 D hD 7 (by omega)⟩
    rw [e1]; simp [dataOf, textOf]
  induction hp with
  | nil => intro _ d f h; exact ⟨d, rfl, by simpa [lastSome] using h⟩
  | @shown a v name prop es l ha hh _ ih =>
    intro hi d f hg
    obtain ⟨e0, p, e1, e2⟩ := one ha (hi (a, v) (by simp))
    rw [(and_pow prop 7 (by omega)).1 hh] at e2
    have hg2 : Gives (dset d (.text name) (.one (.text (textOf F v))))
        (fun k => (if name = k then some (PVal.one (.text (textOf F v))) else none).or (f k)) := by
      refine ⟨nodup_dset hg.keys _ _, fun k => ?_, fun k s => ?_⟩
      · rw [lookup_dset, hg.text]
        by_cases hk : name = k
        · subst hk; simp
        · rw [if_neg (by intro e; cases e; exact hk rfl), if_neg hk]; simp
      · rw [lookup_dset, if_neg (by intro e; cases e), hg.pair]
    obtain ⟨d', e3, e4⟩ := ih (fun j hj => hi j (List.mem_cons_of_mem _ hj)) hg2
    refine ⟨d', ?_, e4.keys, fun k => ?_, e4.pair⟩
    · simp only [List.map_cons, PyDB.expandImms, e0, e1, e2, Bool.false_eq_true, if_false]
      exact e3
    · rw [e4.text, List.map_cons, lastSome_cons, Option.or_assoc]
  | @hidden a v name prop es l ha hh _ ih =>
    intro hi d f hg
    obtain ⟨e0, p, e1, e2⟩ := one ha (hi (a, v) (by simp))
    have hb : prop.getLsbD 7 = true := by
      cases hb : prop.getLsbD 7
      · exact absurd ((and_pow prop 7 (by omega)).2 hb) hh
      · rfl
    rw [hb] at e2
    obtain ⟨d', e3, e4⟩ := ih (fun j hj => hi j (List.mem_cons_of_mem _ hj)) hg
    refine ⟨d', ?_, e4⟩
    simp only [List.map_cons, PyDB.expandImms, e0, e1, e2, if_true]
    exact e3

/-! ## whole files -/

theorem Has.mono {pre post : List WLine} {i : Nat} (h : Has pre i) : Has (pre ++ post) i := by
  rcases h with h | h
  · exact .inl h
  · right; rw [nodeIds_append]; exact List.mem_append_left _ h

/-- the paths and immediates of a record exist -/
theorem attr_is {F : DblFmt} {S : Src} (hS : S.Sound F) {a : Nat} {n : Nd} (hn : S.node a = some n) (h8 : n.attr = 8) :
    ∃ name prop, IsAttr S a name prop := by
  obtain ⟨s, hs⟩ := attr_string hS hn h8
  obtain ⟨D, hD⟩ := hS.denotes _ a rfl (by rw [hn]; rfl)
  refine ⟨s, D.attrProp, ⟨n.parent, ?_⟩, D, hD, rfl⟩
  rw [hn, ← h8, ← hs]

theorem path_exists {F : DblFmt} {S : Src} (hS : S.Sound F) : ∀ (r i : Nat), S.rank i = r → (S.node i).isSome → ∃ l, PathTo F S (some i) l := by
  -- built-in nodes first
  have battr : ∀ a, a < 12 → ∀ n, bootNodes[a]? = some n → n.attr = 8 → ∃ name, IsAttr S a name 0 := by
    intro a ha n hn h8
    rw [← hS.boot a ha] at hn
    obtain ⟨s, hs⟩ := attr_string hS hn h8
    refine ⟨s, ⟨n.parent, by rw [hn, ← h8, ← hs]⟩, .boot a, .boot ha (hS.boot a ha), ?_⟩
    have : ∀ j, j < 12 → (Deep.boot j).attrProp = 0 := by decide
    exact this a ha
  have boot : ∀ i, i < 12 → ∃ l, PathTo F S (some i) l := by
    have hroot : ∀ i, i < 12 → ∀ n, bootNodes[i]? = some n → n.parent = none → ∃ l, PathTo F S (some i) l := by
      intro i hi n hn hp
      have h : ∀ i, i < 12 → ∀ n ∈ bootNodes[i]?, n.attr = 8 ∨ n.attr = 9 := by decide
      obtain ⟨name, hA⟩ : ∃ name, IsAttr S n.attr name 0 := by
        rcases h i hi n hn with e | e
        · rw [e]; exact battr 8 (by omega) _ rfl rfl
        · rw [e]; exact battr 9 (by omega) _ rfl rfl
      exact ⟨_, .shown (v := n.data) (q := none) (by rw [hS.boot i hi, hn, ← hp]) hA (by decide) .empty⟩
    intro i hi
    obtain ⟨n, hn⟩ : ∃ n, bootNodes[i]? = some n := ⟨bootNodes[i]'hi, List.getElem?_eq_getElem hi⟩
    have h : ∀ i, i < 12 → ∀ n ∈ bootNodes[i]?, n.attr = 8 ∨ n.attr = 9 := by decide
    obtain ⟨name, hA⟩ : ∃ name, IsAttr S n.attr name 0 := by
      rcases h i hi n hn with e | e
      · rw [e]; exact battr 8 (by omega) _ rfl rfl
      · rw [e]; exact battr 9 (by omega) _ rfl rfl
    cases hp : n.parent with
    | none => exact hroot i hi n hn hp
    | some p =>
      have h2 : ∀ i, i < 12 → ∀ n ∈ bootNodes[i]?, ∀ p ∈ n.parent, p < 12 ∧ ∀ m ∈ bootNodes[p]?, m.parent = none := by decide
      obtain ⟨hp1, hp2⟩ := h2 i hi n hn p hp
      obtain ⟨m, hm⟩ : ∃ m, bootNodes[p]? = some m := ⟨bootNodes[p]'hp1, List.getElem?_eq_getElem hp1⟩
      obtain ⟨l, hl⟩ := hroot p hp1 m hm (hp2 m hm)
      exact ⟨_, .shown (v := n.data) (q := some p) (by rw [hS.boot i hi, hn, ← hp]) hA (by decide) hl⟩
  intro r
  induction r using Nat.strongRecOn with
  | _ r ih =>
    intro i hr hi
    by_cases h12 : i < 12
    · exact boot i h12
    · obtain ⟨n, hn⟩ := Option.isSome_iff_exists.1 hi
      obtain ⟨A, hA, h8, _, _, hh⟩ := hS.attr i n hn (by omega)
      obtain ⟨m, hm⟩ := hA.node_some
      have hm8 := (hA.isOf_iff hm 8 (by omega)).1 h8
      obtain ⟨s, hs⟩ := attr_string hS hm hm8
      have hIs : IsAttr S n.attr s A.attrProp := ⟨⟨m.parent, by rw [hm, ← hm8, ← hs]⟩, A, hA, rfl⟩
      cases hp : n.parent with
      | none => exact ⟨_, .shown (v := n.data) (q := none) (by rw [hn, ← hp]) hIs hh .empty⟩
      | some p =>
        obtain ⟨l, hl⟩ : ∃ l, PathTo F S (some p) l := by
          rcases hS.acyclic.parent i n p hn (by omega) hp with hb | ⟨hb, hrk⟩
          · exact boot p (by omega)
          · exact ih _ (by omega) p rfl hb
        exact ⟨_, .shown (v := n.data) (q := some p) (by rw [hn, ← hp]) hIs hh hl⟩

theorem imms_exist {F : DblFmt} {S : Src} (hS : S.Sound F) : ∀ es : List (Nat × Val), (∀ p ∈ es, S.isImm p.1 = true) → ∃ l, Imms F S es l := by
  intro es
  induction es with
  | nil => intro _; exact ⟨[], .nil⟩
  | cons p es ih =>
    intro h
    obtain ⟨a, v⟩ := p
    obtain ⟨l, hl⟩ := ih fun q hq => h q (List.mem_cons_of_mem _ hq)
    have := h (a, v) (by simp)
    unfold Src.isImm at this
    cases hn : S.node a with
    | none => simp only [hn] at this; cases this
    | some n =>
      simp only [hn, decide_eq_true_eq] at this
      obtain ⟨name, prop, hA⟩ := attr_is hS hn this
      by_cases hh : prop &&& 128#32 = 0
      · exact ⟨_, .shown hA hh hl⟩
      · exact ⟨_, .hidden hA hh hl⟩

/-- expanding the raw record of a record line -/
theorem PInv.record {F : DblFmt} {S : Src} (hS : S.Sound F) (hM : MetaOK F S) {pre : List WLine} {db : PyDB} (h : PInv F S pre db)
    {k : Kind} {es : List DEnt} (hr : RecordOK F S es) (hd : Defined pre (.record k (S.refsOf es) (S.immsOf es))) :
    ∃ d, db.expandRecord (recRaw k ((S.refsOf es).map (BitVec.ofNat 64 ·)) ((S.immsOf es).map fun e => (BitVec.ofNat 64 e.1, textOf F e.2))) = some d ∧
      DictOf F S es d := by
  have hrefs : ∀ i ∈ S.refsOf es, Has pre i := fun i hi => hd i (by simp [WLine.uses, hi])
  have himms : ∀ p ∈ S.immsOf es, Has pre p.1 := fun p hp => hd p.1 (by simp only [WLine.uses, List.mem_append, List.mem_map]; exact .inr ⟨p, hp, rfl⟩)
  obtain ⟨paths, hpaths⟩ : ∃ paths, List.Forall₂ (fun i l => PathTo F S (some i) l) (S.refsOf es) paths := by
    have : ∀ i ∈ S.refsOf es, ∃ l, PathTo F S (some i) l := by
      intro i hi
      obtain ⟨e, he, hn, _⟩ := mem_refsOf hi
      exact path_exists hS _ i rfl (hr.has e he i hn)
    generalize S.refsOf es = refs at this
    induction refs with
    | nil => exact ⟨[], .nil⟩
    | cons i refs ih =>
      obtain ⟨l, hl⟩ := this i (by simp)
      obtain ⟨ls, hls⟩ := ih fun j hj => this j (List.mem_cons_of_mem _ hj)
      exact ⟨l :: ls, .cons hl hls⟩
  obtain ⟨imms, hi⟩ := imms_exist (F := F) hS (S.immsOf es) (by
    intro p hp
    obtain ⟨e, _, _, _, h⟩ := mem_immsOf (S := S) (es := es) (i := p.1) (v := p.2) hp
    exact h)
  have hg0 : Gives [] (fun _ => none) := ⟨by simp, fun _ => rfl, fun _ _ => rfl⟩
  obtain ⟨d1, e1, g1⟩ := h.toNInv.refs hS hM hpaths hrefs hg0
  obtain ⟨d2, e2, g2⟩ := h.imms hS hi himms g1
  have hfin : DictOf F S es d2 := by
    refine ⟨paths, imms, hpaths, hi, fun k => ?_, g2.pair⟩
    rw [g2.text]
    simp [recordEntry]
  refine ⟨d2, ?_, hfin⟩
  have l1 : (lookup (str "ref") (recRaw k ((S.refsOf es).map (BitVec.ofNat 64 ·)) ((S.immsOf es).map fun e => (BitVec.ofNat 64 e.1, textOf F e.2)))).getD [] =
      (S.refsOf es).map fun i => writeUint (BitVec.ofNat 64 i) := by
    unfold recRaw
    by_cases hr0 : S.refsOf es = []
    · rw [hr0]
      by_cases hi0 : S.immsOf es = []
      · rw [hi0]; simp [lookup, kne]
      · simp [hi0, lookup, kne, kne.2.2.2.2.2.2.2.2.2.2.2.1.symm, kne.2.2.2.2.2.2.2.2.2.2.2.2.symm]
    · simp [hr0, lookup, kne, Function.comp_def]
  unfold PyDB.expandRecord
  rw [l1, e1]
  simp only
  by_cases hi0 : S.immsOf es = []
  · have : d2 = d1 := by
      rw [hi0] at e2
      simp only [List.map_nil, PyDB.expandImms, Option.some.injEq] at e2
      exact e2.symm
    subst this
    have : lookup (str "attr") (recRaw k ((S.refsOf es).map (BitVec.ofNat 64 ·)) ((S.immsOf es).map fun e => (BitVec.ofNat 64 e.1, textOf F e.2))) = none := by
      unfold recRaw
      rw [hi0]
      by_cases hr0 : S.refsOf es = []
      · rw [hr0]; simp [lookup, kne]
      · simp [hr0, lookup, kne]
    rw [this]
  · have a1 : lookup (str "attr") (recRaw k ((S.refsOf es).map (BitVec.ofNat 64 ·)) ((S.immsOf es).map fun e => (BitVec.ofNat 64 e.1, textOf F e.2))) =
        some ((S.immsOf es).map fun e => writeUint (BitVec.ofNat 64 e.1)) := by
      unfold recRaw
      by_cases hr0 : S.refsOf es = []
      · rw [hr0]; simp [lookup, kne, hi0, Function.comp_def]
      · simp [hr0, lookup, kne, hi0, Function.comp_def]
    have a2 : lookup (str "data") (recRaw k ((S.refsOf es).map (BitVec.ofNat 64 ·)) ((S.immsOf es).map fun e => (BitVec.ofNat 64 e.1, textOf F e.2))) =
        some ((S.immsOf es).map fun e => textOf F e.2) := by
      unfold recRaw
      by_cases hr0 : S.refsOf es = []
      · rw [hr0]; simp [lookup, kne, hi0, Function.comp_def]
      · simp [hr0, lookup, kne, hi0, Function.comp_def]
    rw [a1, a2]
    simp only
    rw [List.zip_map']
    exact e2

/-- the state after the lines `pre`, which contain the records of `calls` -/
structure SInv (F : DblFmt) (S : Src) (want : Bool) (pre : List WLine) (calls : List (Kind × List DEnt)) (st : PyState) : Prop where
  db : PInv F S pre st.db
  recs : List.Forall₂ (DictOf F S) (if want then (calls.filter (·.1 = .snapshot)).map (·.2) else []) st.records
  glob : match (calls.filter (·.1 = .globals)).getLast? with
    | none => st.globals = []
    | some c => DictOf F S c.2 st.globals

theorem SInv.node {F : DblFmt} {S : Src} (hS : S.Sound F) (hM : MetaOK F S) {want : Bool} {pre : List WLine} {calls : List (Kind × List DEnt)}
    {st : PyState} (h : SInv F S want pre calls st) {id : Nat} {n : Nd} (hn : S.node id = some n) (h11 : 11 ≤ id) (hfresh : id ∉ nodeIds pre)
    (hdef : Defined pre (.node id n)) :
    ∃ st', st.process want (WLine.text F (.node id n)) = some st' ∧ SInv F S want (pre ++ [.node id n]) calls st' := by
  obtain ⟨db', e1, e2⟩ := h.db.step hS hM hn h11 hfresh hdef
  have hsup : Supported F n.data := by
    by_cases h12 : 12 ≤ id
    · obtain ⟨_, _, _, _, hs, _⟩ := hS.attr id n hn h12; exact hs
    · have : id = 11 := by omega
      subst this
      rw [hS.boot 11 (by omega)] at hn
      cases hn
      show AttrType.ptr ≠ .inv
      decide
  have hraw : readRecord (WLine.text F (.node id n)) = some (nodeRaw (BitVec.ofNat 64 id) (BitVec.ofNat 64 n.attr) (textOf F n.data) (n.parent.map (BitVec.ofNat 64 ·))) := by
    refine readRecord_nodeLine _ _ _ _ _ (writeCali_scans F _ hsup) fun hp => ?_
    exact writeCali_end F _ hsup (hM.blank id n hn (by simpa using hp))
  have sm : ∀ i, Has pre i → (BitVec.ofNat 64 i).toNat = i := by
    intro i hi
    obtain ⟨m, hm, _⟩ := h.db.node i hi
    exact toNat_id (Nat.le_of_lt (hS.small i m hm))
  have hidn : (BitVec.ofNat 64 id).toNat = id := toNat_id (Nat.le_of_lt (hS.small id n hn))
  have hattr : (BitVec.ofNat 64 n.attr).toNat = n.attr := sm _ (hdef n.attr (by simp [WLine.uses]))
  have hproc : st.db.processNode (nodeRaw (BitVec.ofNat 64 id) (BitVec.ofNat 64 n.attr) (textOf F n.data) (n.parent.map (BitVec.ofNat 64 ·))) = some db' := by
    have k3 : str "parent" ≠ str "data" := by decide
    cases hp : n.parent with
    | none =>
      rw [hp] at e1
      by_cases h0 : textOf F n.data = []
      · rw [h0] at e1
        simp [PyDB.processNode, nodeRaw, lookup, kne, h0, pyNat_writeUint, hidn, hattr, Option.map_none]
        simpa using e1
      · simp [PyDB.processNode, nodeRaw, lookup, kne, h0, pyNat_writeUint, hidn, hattr]
        simpa using e1
    | some p =>
      rw [hp] at e1
      have := sm p (hdef p (by simp [WLine.uses, hp]))
      simp [PyDB.processNode, nodeRaw, lookup, kne, pyNat_writeUint, hidn, hattr, this]
      simpa using e1
  refine ⟨{ st with db := db' }, ?_, e2, h.recs, h.glob⟩
  unfold PyState.process
  rw [hraw]
  have hk : lookup (str "__rec") (nodeRaw (BitVec.ofNat 64 id) (BitVec.ofNat 64 n.attr) (textOf F n.data) (n.parent.map (BitVec.ofNat 64 ·))) = some [str "node"] := by
    simp [nodeRaw, lookup]
  simp only [hk, List.head?_cons, if_true, hproc, Option.map_some]

theorem SInv.record {F : DblFmt} {S : Src} (hS : S.Sound F) (hM : MetaOK F S) {want : Bool} {pre : List WLine} {calls : List (Kind × List DEnt)}
    {st : PyState} (h : SInv F S want pre calls st) {k : Kind} {es : List DEnt} (hr : RecordOK F S es)
    (hd : Defined pre (.record k (S.refsOf es) (S.immsOf es))) :
    ∃ st', st.process want (WLine.text F (.record k (S.refsOf es) (S.immsOf es))) = some st' ∧
      SInv F S want (pre ++ [.record k (S.refsOf es) (S.immsOf es)]) (calls ++ [(k, es)]) st' := by
  obtain ⟨d, e1, e2⟩ := h.db.record hS hM hr hd
  have hdb : PInv F S (pre ++ [.record k (S.refsOf es) (S.immsOf es)]) st.db := by
    have : ∀ i, Has (pre ++ [WLine.record k (S.refsOf es) (S.immsOf es)]) i ↔ Has pre i := by
      intro i; simp [Has, nodeIds]
    obtain ⟨⟨a, b, c, d⟩, e, f⟩ := h.db
    refine ⟨⟨?_, ?_, c, d⟩, ?_, ?_⟩
    · simpa only [this] using a
    · simpa only [this] using b
    · simpa only [this] using e
    · simpa only [this] using f
  have hne : ∀ v, Supported F v → textOf F v ≠ [] → v.writeCali F ≠ [] := by
    intro v hv ht he
    have := writeCali_scans F v hv [] [] [] []
    rw [he] at this
    simp only [List.nil_append] at this
    rw [scan_end ht] at this
    rw [scan.eq_def] at this
    simp [put, dset] at this
  have hraw : readRecord (WLine.text F (.record k (S.refsOf es) (S.immsOf es))) =
      some (recRaw k ((S.refsOf es).map (BitVec.ofNat 64 ·)) ((S.immsOf es).map fun e => (BitVec.ofNat 64 e.1, textOf F e.2))) := by
    have := readRecord_recLine k ((S.refsOf es).map (BitVec.ofNat 64 ·)) ((S.immsOf es).map fun e => (BitVec.ofNat 64 e.1, e.2.writeCali F, textOf F e.2))
      (by
        intro e he
        obtain ⟨p, hp, rfl⟩ := List.mem_map.1 he
        exact writeCali_scans F _ (hr.imm p hp))
      (by
        intro e he
        rw [List.getLast?_map, Option.map_eq_some_iff] at he
        obtain ⟨p, hp, rfl⟩ := he
        obtain ⟨l1, l2⟩ := hr.last p hp
        have hs := hr.imm p (List.mem_of_getLast? hp)
        exact ⟨hne _ hs l1, l1, writeCali_end F _ hs l2⟩)
    simp only [List.map_map, Function.comp_def] at this
    exact this
  unfold PyState.process
  rw [hraw]
  cases k with
  | snapshot =>
    have hk : lookup (str "__rec") (recRaw .snapshot ((S.refsOf es).map (BitVec.ofNat 64 ·)) ((S.immsOf es).map fun e => (BitVec.ofNat 64 e.1, textOf F e.2))) =
        some [str "ctx"] := by simp [recRaw, lookup]
    simp only [hk, List.head?_cons, e1, Option.map_some]
    rw [if_neg (by decide)]
    cases want with
    | true =>
      rw [if_pos ⟨trivial, rfl⟩]
      refine ⟨_, rfl, hdb, ?_, ?_⟩
      · have := h.recs
        simp only [if_true] at this ⊢
        rw [List.filter_append, List.map_append]
        exact List.rel_append this (by simpa using e2)
      · have := h.glob
        simpa [List.filter_append] using this
    | false =>
      rw [if_neg (by simp), if_neg (by decide)]
      refine ⟨_, rfl, hdb, h.recs, ?_⟩
      have := h.glob
      simpa [List.filter_append] using this
  | globals =>
    have hk : lookup (str "__rec") (recRaw .globals ((S.refsOf es).map (BitVec.ofNat 64 ·)) ((S.immsOf es).map fun e => (BitVec.ofNat 64 e.1, textOf F e.2))) =
        some [str "globals"] := by simp [recRaw, lookup]
    simp only [hk, List.head?_cons, e1, Option.map_some]
    rw [if_neg (by decide), if_neg (by rintro ⟨h, _⟩; revert h; decide), if_pos trivial]
    refine ⟨_, rfl, hdb, ?_, ?_⟩
    · have := h.recs
      simpa [List.filter_append] using this
    · simpa [List.filter_append] using e2

/-- the lines of a written file -/
theorem lines_spec {F : DblFmt} {S : Src} (hS : S.Sound F) (hM : MetaOK F S) (want : Bool) (all : List WLine) (hnd : (nodeIds all).Nodup)
    (hlines : ∀ id n, WLine.node id n ∈ all → S.node id = some n ∧ 11 ≤ id) (hdef : ∀ pre l post, all = pre ++ l :: post → Defined pre l) :
    ∀ (post pre : List WLine) (calls calls' : List (Kind × List DEnt)) (st : PyState), all = pre ++ post → SInv F S want pre calls st →
      recsOf post = calls'.map (fun c => (c.1, S.refsOf c.2, S.immsOf c.2)) → (∀ c ∈ calls', RecordOK F S c.2) →
      ∃ st', PyState.lines want st (post.map (WLine.text F)) = some st' ∧ SInv F S want all (calls ++ calls') st' := by
  intro post
  induction post with
  | nil =>
    intro pre calls calls' st e h hc _
    have : calls' = [] := by
      simp only [recsOf, List.filterMap_nil] at hc
      exact List.map_eq_nil_iff.1 hc.symm
    subst this
    rw [List.append_nil] at e
    subst e
    exact ⟨st, rfl, by simpa using h⟩
  | cons l post ih =>
    intro pre calls calls' st e h hc hok
    have hd := hdef pre l post e
    have e' : all = (pre ++ [l]) ++ post := by rw [e]; simp
    cases l with
    | node id n =>
      obtain ⟨hn, h11⟩ := hlines id n (by rw [e]; simp)
      have hfresh : id ∉ nodeIds pre := by
        rw [e, nodeIds_append] at hnd
        intro hm
        exact (List.nodup_append.1 hnd).2.2 id hm id (by simp [nodeIds]) rfl
      obtain ⟨st', e1, h'⟩ := h.node hS hM hn h11 hfresh hd
      obtain ⟨st'', e2, h''⟩ := ih _ calls calls' st' e' h' (by simpa [recsOf] using hc) hok
      exact ⟨st'', by simp only [List.map_cons, PyState.lines, e1, e2], h''⟩
    | record k refs imms =>
      cases calls' with
      | nil => simp [recsOf] at hc
      | cons c calls' =>
        obtain ⟨ck, ces⟩ := c
        have hc' : (k, refs, imms) = (ck, S.refsOf ces, S.immsOf ces) ∧ recsOf post = calls'.map (fun c => (c.1, S.refsOf c.2, S.immsOf c.2)) := by
          simpa [recsOf] using hc
        obtain ⟨hcc, hrest⟩ := hc'
        cases hcc
        obtain ⟨st', e1, h'⟩ := h.record hS hM (hok (k, ces) (by simp)) hd
        obtain ⟨st'', e2, h''⟩ := ih _ _ calls' st' e' h' hrest fun c hc => hok c (List.mem_cons_of_mem _ hc)
        exact ⟨st'', by simp only [List.map_cons, PyState.lines, e1, e2], by simpa using h''⟩

end Verif.Py
