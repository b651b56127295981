import Verif.Py.LineLemmas
/-!
# The Python reader's metadata database while a written file is read
-/
namespace Verif.Py
open Verif Verif.Cali

/-- the Python node of node `i` of the source -/
def pyNode (F : DblFmt) (i : Nat) (n : Nd) : PNode := ⟨n.attr, dataOf F i n.data, n.parent⟩

/-- ids the reader knows -/
def Has (pre : List WLine) (i : Nat) : Prop := i < 11 ∨ i ∈ nodeIds pre

/-- invariant of the node dictionary after the lines `pre` -/
structure NInv (F : DblFmt) (S : Src) (pre : List WLine) (db : PyDB) : Prop where
  node : ∀ i, Has pre i → ∃ n, S.node i = some n ∧ lookup i db.nodes = some (pyNode F i n) ∧ Has pre n.attr ∧ ∀ p, n.parent = some p → Has pre p
  keys : ∀ i, (lookup i db.nodes).isSome ↔ Has pre i ∨ i = 11
  rank : ∃ r : Nat → Nat, ∀ i n, lookup i db.nodes = some n → r i < db.nodes.length ∧ ∀ p, n.parent = some p → r p < r i
  eleven : ∀ m, lookup 11 db.nodes = some m → m.parent = none

/-- invariant of the database after the lines `pre` -/
structure PInv (F : DblFmt) (S : Src) (pre : List WLine) (db : PyDB) : Prop extends NInv F S pre db where
  attr : ∀ i n, Has pre i → S.node i = some n → n.attr = 8 → ∃ prop, lookup i db.attrs = some (dataOf F i n.data, prop) ∧
    ∀ D, Denotes S.node i D → ∀ k, k < 32 → hasBit prop k = D.attrProp.getLsbD k
  /-- attributes by name -/
  name : ∀ i n, Has pre i → S.node i = some n → n.attr = 8 → (∀ j m, Has pre j → S.node j = some m → m.attr = 8 → m.data = n.data → j = i) →
    lookup (dataOf F i n.data) db.names = some i

theorem boot_pyNode (F : DblFmt) : ∀ i, i < 11 → ∃ n, bootNodes[i]? = some n ∧ lookup i PyDB.init.nodes = some (pyNode F i n) ∧
    n.attr < 11 ∧ ∀ p, n.parent = some p → p < 11 := by
  intro i hi
  interval_cases i <;> exact ⟨_, rfl, rfl, by decide, by decide⟩

theorem init_len (db : PyDB) (h : db = PyDB.init) : db.nodes.length = 12 := by rw [h]; rfl

/-- walking up with enough fuel -/
theorem propVal {F : DblFmt} {S : Src} (hS : S.Sound F) {i : Nat} {v : Val} {q : Option Nat} (hn : S.node i = some ⟨10, v, q⟩)
    (h12 : 12 ≤ i) : ∃ w, v = .int w := by
  obtain ⟨A', hA', h8, hty, _, _⟩ := hS.attr i _ hn h12
  have := hA'.det (.boot (by show 10 < 12; omega) (hS.boot 10 (by omega)))
  subst this
  have hint : v.ty = .int := hty.trans (show (Deep.boot 10).attrType = .int by decide)
  cases v <;> simp only [Val.ty] at hint <;> first | exact ⟨_, rfl⟩ | cases hint

theorem NInv.get_up {F : DblFmt} {S : Src} (hS : S.Sound F) {pre : List WLine} {db : PyDB} (h : NInv F S pre db) {r : Nat → Nat}
    (hr : ∀ i n, lookup i db.nodes = some n → r i < db.nodes.length ∧ ∀ p, n.parent = some p → r p < r i) :
    ∀ (fuel i : Nat) (D : Deep), r i < fuel → Has pre i → Denotes S.node i D →
      ∃ x, db.get 10 fuel (some i) = some x ∧ ((x = none ∧ D.up 10 = none) ∨ ∃ v, x = some (.text (writeInt v)) ∧ D.up 10 = some (.int v)) := by
  intro fuel
  induction fuel with
  | zero => intro i D h; omega
  | succ fuel ih =>
    intro i D hfuel hi hD
    obtain ⟨n, hn, hl, ha, hp⟩ := h.node i hi
    simp only [PyDB.get, hl, pyNode]
    -- built-in nodes
    have boot : ∀ j, j < 12 → (Deep.boot j).up 10 = none := by decide
    cases hD with
    | @boot _ h1 h2 =>
      have hb : n.attr ≠ 10 ∧ ∀ p, n.parent = some p → p < 12 := by
        rw [h2] at hn
        have : ∀ j, j < 12 → ∀ m ∈ bootNodes[j]?, m.attr ≠ 10 ∧ ∀ p ∈ m.parent, p < 12 := by decide
        exact this i h1 n hn
      rw [if_neg hb.1]
      cases hq : n.parent with
      | none => 
        refine ⟨none, ?_, .inl ⟨rfl, boot i h1⟩⟩
        cases fuel <;> rfl
      | some p =>
        have hp12 := hb.2 p hq
        have hrk := (hr i _ hl).2 p hq
        obtain ⟨x, e1, e2⟩ := ih p (.boot p) (by omega) (hp p hq) (.boot hp12 (hS.boot p hp12))
        refine ⟨x, e1, ?_⟩
        rw [boot p hp12] at e2
        rw [boot i h1]
        exact e2
    | @root _ a v A h1 h2 h3 =>
      rw [h2] at hn
      cases hn
      by_cases ha10 : a = 10
      · subst ha10
        rw [if_pos rfl]
        obtain ⟨w, rfl⟩ := propVal hS h2 h1
        exact ⟨_, rfl, .inr ⟨w, by simp [dataOf, textOf, Val.toStr], by rw [(h3.boot_iff (a := 10)).2 ⟨rfl, by omega⟩]; simp [Deep.up]⟩⟩
      · rw [if_neg ha10]
        refine ⟨none, ?_, .inl ⟨rfl, ?_⟩⟩
        · cases fuel <;> rfl
        · have : A ≠ .boot 10 := by intro e; exact ha10 ((h3.boot_iff.1 e).1)
          simp [Deep.up, this]
    | @child _ a p v A P h1 h2 h3 h4 =>
      rw [h2] at hn
      cases hn
      by_cases ha10 : a = 10
      · subst ha10
        rw [if_pos rfl]
        obtain ⟨w, rfl⟩ := propVal hS h2 h1
        exact ⟨_, rfl, .inr ⟨w, by simp [dataOf, textOf, Val.toStr], by rw [(h3.boot_iff (a := 10)).2 ⟨rfl, by omega⟩]; simp [Deep.up]⟩⟩
      · rw [if_neg ha10]
        have hrk := (hr i _ hl).2 p rfl
        obtain ⟨x, e1, e2⟩ := ih p P (by omega) (hp p rfl) h4
        refine ⟨x, e1, ?_⟩
        have : A ≠ .boot 10 := by intro e; exact ha10 ((h3.boot_iff.1 e).1)
        simpa [Deep.up, this] using e2

theorem hasBit_zero (k : Nat) : hasBit 0 k = false := by simp [hasBit]

/-- properties of an attribute: the walk up from the parent of an attribute node -/
theorem NInv.mkProp {F : DblFmt} {S : Src} (hS : S.Sound F) {pre : List WLine} {db : PyDB} (h : NInv F S pre db)
    {i p : Nat} {n : Nd} (hn : S.node i = some n) (h8 : n.attr = 8) (hpar : n.parent = some p) (hp : Has pre p)
    {D : Deep} (hD : Denotes S.node i D) :
    ∃ prop, db.mkProp (pyNode F i n) = some prop ∧ ∀ k, k < 32 → hasBit prop k = D.attrProp.getLsbD k := by
  obtain ⟨r, hr⟩ := h.rank
  -- the parent's meaning
  obtain ⟨P, hP, hup⟩ : ∃ P, Denotes S.node p P ∧ D.up 10 = P.up 10 := by
    cases hD with
    | boot h1 h2 =>
      have : ∀ j, j < 12 → ∀ m ∈ bootNodes[j]?, ∀ q ∈ m.parent, q < 12 := by decide
      have hp12 := this i h1 n (h2 ▸ hn) p hpar
      refine ⟨.boot p, .boot hp12 (hS.boot p hp12), ?_⟩
      have boot : ∀ j, j < 12 → (Deep.boot j).up 10 = none := by decide
      rw [boot i h1, boot p hp12]
    | root h1 h2 =>
      rw [h2] at hn; cases hn; cases hpar
    | @child _ a _ v A P h1 h2 h3 h4 =>
      rw [h2] at hn; cases hn; cases hpar
      refine ⟨P, h4, ?_⟩
      have : A ≠ .boot 10 := by
        intro e
        have := (h3.boot_iff.1 e).1
        simp only at h8
        omega
      simp [Deep.up, this]
  obtain ⟨m, hm, hl, _, _⟩ := h.node p hp
  obtain ⟨x, e1, e2⟩ := h.get_up hS hr (db.nodes.length + 1) p P (by have := (hr p _ hl).1; omega) hp hP
  unfold PyDB.mkProp
  simp only [pyNode, hpar, PyDB.getNode, e1]
  rcases e2 with ⟨rfl, e2⟩ | ⟨v, rfl, e2⟩
  · refine ⟨0, rfl, fun k hk => ?_⟩
    rw [hasBit_zero, Deep.attrProp, hup, e2]
    simp
  · refine ⟨v.toInt, pyInt_writeInt v, fun k hk => ?_⟩
    rw [hasBit_toInt v k (by omega), Deep.attrProp, hup, e2]
    simp [Val.propWord, hk]

theorem PInv.init (F : DblFmt) (S : Src) (hS : S.Sound F) : PInv F S [] .init := by
  have has : ∀ i, Has [] i ↔ i < 11 := by intro i; simp [Has, nodeIds]
  have hn8 : ∀ i n, i < 11 → S.node i = some n → n.attr = 8 → 8 ≤ i := by
    intro i n hi hn h8
    rw [hS.boot i (by omega)] at hn
    have : ∀ i, i < 11 → ∀ n ∈ bootNodes[i]?, n.attr = 8 → 8 ≤ i := by decide
    exact this i hi n hn h8
  refine ⟨⟨?_, ?_, ⟨fun i => if i = 8 ∨ i = 9 ∨ i = 10 then i else 0, ?_⟩, ?_⟩, ?_, ?_⟩
  · intro i hi
    rw [has] at hi
    obtain ⟨n, a, b, c, d⟩ := boot_pyNode F i hi
    exact ⟨n, by rw [hS.boot i (by omega), a], b, (has _).2 c, fun p hp => (has _).2 (d p hp)⟩
  · intro i
    rw [has, lookup_isSome_mem]
    simp only [PyDB.init, List.map_cons, List.map_nil, List.mem_cons, List.not_mem_nil, or_false]
    omega
  · intro i n hl
    have hi : i < 12 := by
      have : (lookup i PyDB.init.nodes).isSome := by rw [hl]; rfl
      rw [lookup_isSome_mem] at this
      simp only [PyDB.init, List.map_cons, List.map_nil, List.mem_cons, List.not_mem_nil, or_false] at this
      omega
    have : ∀ i, i < 12 → ∀ n ∈ lookup i PyDB.init.nodes, (if i = 8 ∨ i = 9 ∨ i = 10 then i else 0) < PyDB.init.nodes.length ∧
      ∀ p ∈ n.parent, (if p = 8 ∨ p = 9 ∨ p = 10 then p else 0) < (if i = 8 ∨ i = 9 ∨ i = 10 then i else 0) := by decide +kernel
    exact this i hi n hl
  · intro m hm
    cases hm; rfl
  · intro i n hi hn h8
    rw [has] at hi
    have h8i := hn8 i n hi hn h8
    rw [hS.boot i (by omega)] at hn
    refine ⟨0, ?_, ?_⟩
    · interval_cases i <;> (cases hn; rfl)
    · intro D hD k hk
      have := hD.det (.boot (by omega) (hS.boot i (by omega)))
      subst this
      have : ∀ j, j < 11 → (Deep.boot j).attrProp = 0 := by decide
      rw [this i hi, hasBit_zero]
      simp
  · intro i n hi hn h8 _
    rw [has] at hi
    have h8i := hn8 i n hi hn h8
    rw [hS.boot i (by omega)] at hn
    interval_cases i <;> (cases hn; rfl)

/-- attributes have names -/
theorem attr_string {F : DblFmt} {S : Src} (hS : S.Sound F) {i : Nat} {n : Nd} (hn : S.node i = some n) (h8 : n.attr = 8) :
    ∃ s, n.data = .string s := by
  by_cases h12 : i < 12
  · rw [hS.boot i h12] at hn
    have : ∀ i, i < 12 → ∀ n ∈ bootNodes[i]?, n.attr = 8 → ∃ s, n.data = .string s := by
      intro i hi
      interval_cases i <;> (intro n hn h8; cases hn; first | exact ⟨_, rfl⟩ | cases h8)
    exact this i h12 n hn h8
  · obtain ⟨A, hA, _, hty, _, _⟩ := hS.attr i n hn (by omega)
    rw [h8] at hA
    have := hA.det (.boot (by omega) (hS.boot 8 (by omega)))
    subst this
    have hs : n.data.ty = .string := hty.trans (show (Deep.boot 8).attrType = .string by decide)
    cases hd : n.data <;> rw [hd] at hs <;> simp only [Val.ty] at hs <;> first | exact ⟨_, rfl⟩ | cases hs

/-- reading the line of a node -/
theorem PInv.step {F : DblFmt} {S : Src} (hS : S.Sound F) (hM : MetaOK F S) {pre : List WLine} {db : PyDB} (h : PInv F S pre db)
    {id : Nat} {n : Nd} (hn : S.node id = some n) (h11 : 11 ≤ id) (hfresh : id ∉ nodeIds pre) (hdef : Defined pre (.node id n)) :
    ∃ db', db.importNode id n.attr (textOf F n.data) (n.parent.getD invN) = some db' ∧ PInv F S (pre ++ [.node id n]) db' := by
  have hdata : dataOf F id n.data = .text (textOf F n.data) := by
    unfold dataOf
    cases n.data <;> simp [textOf, Val.toStr]
    omega
  have hattr : Has pre n.attr := hdef n.attr (by simp [WLine.uses])
  have hpar : ∀ p, n.parent = some p → Has pre p := fun p hp => hdef p (by simp [WLine.uses, hp])
  have hnh : ¬ Has pre id := by intro hh; rcases hh with hh | hh; · omega
                                · exact hfresh hh
  have small : ∀ i, Has pre i → i < invN := by
    intro i hi
    obtain ⟨m, hm, _⟩ := h.node i hi
    exact hS.small i m hm
  have hid := hS.small id n hn
  -- the parent is found
  have hpl : (if (lookup (n.parent.getD invN) (dset db.nodes id (⟨n.attr, .text (textOf F n.data), none⟩ : PNode))).isSome = true then
      ({ attr := n.attr, data := .text (textOf F n.data), parent := some (n.parent.getD invN) } : PNode)
      else ⟨n.attr, .text (textOf F n.data), none⟩) = pyNode F id n := by
    cases hp : n.parent with
    | none =>
      rw [if_neg]
      · simp [pyNode, hp, hdata]
      · rw [Option.getD_none, lookup_dset, if_neg (by omega), h.keys]
        rintro (hh | hh)
        · exact absurd (small _ hh) (by omega)
        · revert hh; decide
    | some p =>
      rw [if_pos]
      · simp [pyNode, hp, hdata]
      · rw [Option.getD_some, lookup_dset]
        split
        · rfl
        · exact (h.keys p).2 (.inl (hpar p hp))
  have hdd : dset (dset db.nodes id (⟨n.attr, .text (textOf F n.data), none⟩ : PNode)) id (pyNode F id n) = dset db.nodes id (pyNode F id n) := by
    generalize db.nodes = l
    induction l with
    | nil => simp [dset]
    | cons x l ih =>
      obtain ⟨a, b⟩ := x
      simp only [dset]
      split
      · rename_i e; simp [dset, e]
      · rename_i e; simp [dset, e, ih]
  -- the database with the new node, without the attribute dictionaries
  have hids : ∀ i, Has (pre ++ [WLine.node id n]) i ↔ Has pre i ∨ i = id := by
    intro i
    simp only [Has, nodeIds_append, List.mem_append]
    simp [nodeIds, or_assoc]
  have hlook : ∀ i, lookup i (dset db.nodes id (pyNode F id n)) = if id = i then some (pyNode F id n) else lookup i db.nodes :=
    fun i => lookup_dset _ _ _ _
  have hnode : ∀ i, Has (pre ++ [WLine.node id n]) i → ∃ m, S.node i = some m ∧ lookup i (dset db.nodes id (pyNode F id n)) = some (pyNode F i m) ∧
      Has (pre ++ [WLine.node id n]) m.attr ∧ ∀ p, m.parent = some p → Has (pre ++ [WLine.node id n]) p := by
    intro i hi
    rw [hids] at hi
    by_cases e : id = i
    · subst e
      exact ⟨n, hn, by rw [hlook, if_pos rfl], (hids _).2 (.inl hattr), fun p hp => (hids _).2 (.inl (hpar p hp))⟩
    · rcases hi with hi | hi
      · obtain ⟨m, a, b, c, d⟩ := h.node i hi
        exact ⟨m, a, by rw [hlook, if_neg e]; exact b, (hids _).2 (.inl c), fun p hp => (hids _).2 (.inl (d p hp))⟩
      · exact absurd hi.symm e
  have hkeys : ∀ i, (lookup i (dset db.nodes id (pyNode F id n))).isSome ↔ Has (pre ++ [WLine.node id n]) i ∨ i = 11 := by
    intro i
    rw [hlook, hids]
    split
    · rename_i e; subst e; simp
    · rename_i e
      rw [h.keys]
      constructor
      · rintro (a | a); exacts [.inl (.inl a), .inr a]
      · rintro ((a | a) | a); exacts [.inl a, absurd a.symm e, .inr a]
  have hrank : ∃ r : Nat → Nat, ∀ i m, lookup i (dset db.nodes id (pyNode F id n)) = some m →
      r i < (dset db.nodes id (pyNode F id n)).length ∧ ∀ p, m.parent = some p → r p < r i := by
    obtain ⟨r, hr⟩ := h.rank
    by_cases hk : (lookup id db.nodes).isSome
    · -- node 11, which is built in, is defined again
      have hid11 : id = 11 := by rcases (h.keys id).1 hk with a | a; exacts [absurd a hnh, a]
      have hnp : n.parent = none := by
        rw [hid11, hS.boot 11 (by omega)] at hn
        cases hn; rfl
      refine ⟨r, fun i m hm => ?_⟩
      rw [length_dset, if_pos hk]
      rw [hlook] at hm
      split at hm
      · rename_i e
        subst e
        obtain ⟨m', hm'⟩ := Option.isSome_iff_exists.1 hk
        cases hm
        exact ⟨(hr id m' hm').1, by simp [pyNode, hnp]⟩
      · exact hr i m hm
    · refine ⟨fun i => if i = id then db.nodes.length else r i, fun i m hm => ?_⟩
      rw [length_dset, if_neg hk]
      rw [hlook] at hm
      split at hm
      · rename_i e
        subst e
        cases hm
        simp only [if_true]
        refine ⟨by omega, fun p hp => ?_⟩
        have hph := hpar p hp
        obtain ⟨m', _, hl', _, _⟩ := h.node p hph
        rw [if_neg (by rintro rfl; exact hnh hph)]
        exact (hr p _ hl').1
      · rename_i e
        obtain ⟨a, b⟩ := hr i m hm
        simp only [if_neg (Ne.symm e)]
        refine ⟨by omega, fun p hp => ?_⟩
        split
        · rename_i e2
          subst e2
          -- `id` cannot be the parent of an older node
          exfalso
          have hib : (lookup i db.nodes).isSome := by rw [hm]; rfl
          rcases (h.keys i).1 hib with hi | hi
          · obtain ⟨m', hm1, hm2, _, hm4⟩ := h.node i hi
            rw [hm] at hm2
            cases hm2
            exact hnh (hm4 p hp)
          · subst hi
            rw [h.eleven m hm] at hp
            cases hp
        · exact b p hp
  have heleven : ∀ m, lookup 11 (dset db.nodes id (pyNode F id n)) = some m → m.parent = none := by
    intro m hm
    rw [hlook] at hm
    split at hm
    · rename_i e
      subst e
      rw [hS.boot 11 (by omega)] at hn
      cases hn; cases hm; rfl
    · exact h.eleven m hm
  have hN : NInv F S (pre ++ [.node id n]) { db with nodes := dset db.nodes id (pyNode F id n) } := ⟨hnode, hkeys, hrank, heleven⟩
  have old : ∀ i m, Has (pre ++ [WLine.node id n]) i → S.node i = some m → m.attr = 8 → n.attr ≠ 8 → Has pre i := by
    intro i m hi hm h8 hne
    rcases (hids i).1 hi with a | a
    · exact a
    · subst a; rw [hn] at hm; cases hm; exact absurd h8 hne
  have himp : db.importNode id n.attr (textOf F n.data) (n.parent.getD invN) =
      if n.attr = 8 then
        (match ({ db with nodes := dset db.nodes id (pyNode F id n) } : PyDB).mkProp (pyNode F id n) with
         | none => none
         | some p => some { db with nodes := dset db.nodes id (pyNode F id n), names := dset db.names (.text (textOf F n.data)) id,
                                    attrs := dset db.attrs id (.text (textOf F n.data), p) })
      else some { db with nodes := dset db.nodes id (pyNode F id n) } := by
    unfold PyDB.importNode
    simp only [hpl, hdd]
    have : (pyNode F id n).data = .text (textOf F n.data) := hdata
    rw [this]
    rfl
  by_cases h8 : n.attr = 8
  · rw [himp, if_pos h8]
    obtain ⟨p, hp⟩ := Option.ne_none_iff_exists'.1 (hM.parent id n hn h8)
    obtain ⟨D, hD⟩ := hS.denotes _ id rfl (by rw [hn]; rfl)
    obtain ⟨prop, e1, e2⟩ := hN.mkProp hS hn h8 hp ((hids p).2 (.inl (hpar p hp))) hD
    rw [e1]
    refine ⟨_, rfl, ⟨hnode, hkeys, hrank, heleven⟩, ?_, ?_⟩
    · intro i m hi hm hm8
      simp only [lookup_dset]
      by_cases e : id = i
      · subst e
        rw [hn] at hm; cases hm
        refine ⟨prop, by rw [if_pos rfl, hdata], fun D' hD' k hk => ?_⟩
        rw [hD'.det hD]
        exact e2 k hk
      · rw [if_neg e]
        rcases (hids i).1 hi with a | a
        · exact h.attr i m a hm hm8
        · exact absurd a.symm e
    · intro i m hi hm hm8 huniq
      simp only [lookup_dset]
      by_cases e : id = i
      · subst e
        rw [hn] at hm; cases hm
        rw [if_pos hdata.symm]
      · have hi' : Has pre i := by rcases (hids i).1 hi with a | a; exacts [a, absurd a.symm e]
        rw [if_neg]
        · exact h.name i m hi' hm hm8 fun j m' hj hm' h8' hd => huniq j m' ((hids j).2 (.inl hj)) hm' h8' hd
        · intro hd
          apply e
          refine huniq id n ((hids id).2 (.inr rfl)) hn h8 ?_
          have s1 := attr_string hS hn h8
          have s2 := attr_string hS hm hm8
          obtain ⟨a, ha⟩ := s1
          obtain ⟨b, hb⟩ := s2
          rw [ha, hb] at hd ⊢
          simp only [textOf, dataOf, Data.text.injEq] at hd
          rw [hd]
  · rw [himp, if_neg h8]
    refine ⟨_, rfl, hN, ?_, ?_⟩
    · intro i m hi hm hm8
      exact h.attr i m (old i m hi hm hm8 h8) hm hm8
    · intro i m hi hm hm8 huniq
      exact h.name i m (old i m hi hm hm8 h8) hm hm8 fun j m' hj hm' h8' hd => huniq j m' ((hids j).2 (.inl hj)) hm' h8' hd

end Verif.Py
