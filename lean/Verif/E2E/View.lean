import Verif.E2E.Rows
/-!
# The database the reader makes of a profile, as the query processor sees it
-/
namespace Verif.E2E
open Verif Verif.Cali Verif.Query Verif.Query.Pre Verif.Query.Pipe Verif.Prof

/-- node `j` of the database is node `i` of the source -/
def Corr (S : Src) (db : DB) (i j : Nat) : Prop := ∃ A, Denotes S.node i A ∧ Denotes db.node? j A

variable {F : DblFmt} {S : Src} {db : DB}

theorem Corr.fun (ok : db.OK) {i j k : Nat} (h : Corr S db i j) (h' : Corr S db i k) : j = k := by
  obtain ⟨A, a1, a2⟩ := h
  obtain ⟨B, b1, b2⟩ := h'
  rw [a1.det b1] at a2
  exact ok.inj a2 b2

theorem Corr.inj (hu : ∀ i j n m, S.node i = some n → S.node j = some m → n.attr = 8 → m.attr = 8 → n.data = m.data → i = j)
    {i i' j : Nat} (h : Corr S db i j) (h' : Corr S db i' j) {n n' : Nd} (hn : S.node i = some n) (hn' : S.node i' = some n')
    (h8 : n.attr = 8) (h8' : n'.attr = 8) : i = i' := by
  obtain ⟨A, a1, a2⟩ := h
  obtain ⟨B, b1, b2⟩ := h'
  rw [a2.det b2] at a1
  exact hu i i' n n' hn hn' h8 h8' (a1.data b1 hn hn')

/-- the node of the database for a node of the source -/
noncomputable def cOf (S : Src) (db : DB) (i : Nat) : Nat := by
  classical exact if h : ∃ j, Corr S db i j then h.choose else 0

theorem cOf_eq (ok : db.OK) {i j : Nat} (h : Corr S db i j) : cOf S db i = j := by
  unfold cOf
  have hx : ∃ j, Corr S db i j := ⟨j, h⟩
  rw [dif_pos hx]
  exact hx.choose_spec.fun ok h

/-- an attribute of the source in the database -/
theorem Corr.node {i j : Nat} (h : Corr S db i j) {n : Str} {q : Option Nat} (hn : S.node i = some ⟨8, .string n, q⟩) :
    ∃ q', db.nodes[j]? = some ⟨8, .string n, q'⟩ := by
  obtain ⟨A, a1, a2⟩ := h
  obtain ⟨m, hm⟩ := a2.node_some
  have h1 := a1.data a2 hn hm
  have h2 := (a2.isOf_iff hm 8 (by omega)).1 ((a1.isOf_iff hn 8 (by omega)).2 rfl)
  obtain ⟨a, d, q'⟩ := m
  simp only at h1 h2
  subst h1 h2
  exact ⟨q', hm⟩

theorem Corr.node' {i j : Nat} (h : Corr S db i j) {m : Nd} (hm : db.nodes[j]? = some m) (h8 : m.attr = 8) :
    ∃ n, S.node i = some n ∧ n.attr = 8 ∧ n.data = m.data := by
  obtain ⟨A, a1, a2⟩ := h
  obtain ⟨n, hn⟩ := a1.node_some
  exact ⟨n, hn, (a1.isOf_iff hn 8 (by omega)).1 ((a2.isOf_iff hm 8 (by omega)).2 h8), a1.data a2 hn hm⟩

theorem Corr.lt {i j : Nat} (h : Corr S db i j) : j < db.nodes.length := by
  obtain ⟨A, -, a2⟩ := h
  exact a2.lt

/-! ## the attributes -/

theorem mem_pdb {a : PAttr} : a ∈ (pdbOf db).attrs ↔ ∃ j n, db.nodes[j]? = some n ∧ attrAt db j n = some a := by
  simp only [pdbOf, List.mem_filterMap]
  constructor
  · rintro ⟨⟨n, j⟩, h1, h2⟩
    exact ⟨j, n, List.mem_zipIdx_iff_getElem?.1 h1, h2⟩
  · rintro ⟨j, n, h1, h2⟩
    exact ⟨(n, j), List.mem_zipIdx_iff_getElem?.2 h1, h2⟩

theorem attrAt_some {j : Nat} {n : Nd} {a : PAttr} (h : attrAt db j n = some a) :
    n.attr = 8 ∧ a.id = j ∧ a.name = n.data.nameText ∧ a.ty = db.attrType (some j) ∧ a.nested = decide (db.attrProp (some j) &&& 256#32 ≠ 0) := by
  unfold attrAt at h
  split at h
  · rename_i h8
    simp only [Option.some.injEq] at h
    subst h
    exact ⟨h8, rfl, rfl, rfl, rfl⟩
  · cases h

theorem pdb_wf : ∀ a ∈ (pdbOf db).attrs, a.id < (pdbOf db).next := by
  intro a ha
  obtain ⟨j, n, h1, h2⟩ := mem_pdb.1 ha
  rw [(attrAt_some h2).2.1]
  exact (List.getElem?_eq_some_iff.1 h1).1

theorem pdb_uniq {a b : PAttr} (ha : a ∈ (pdbOf db).attrs) (hb : b ∈ (pdbOf db).attrs) (h : a.id = b.id) : a = b := by
  obtain ⟨j, n, h1, h2⟩ := mem_pdb.1 ha
  obtain ⟨k, m, k1, k2⟩ := mem_pdb.1 hb
  have e : j = k := by rw [← (attrAt_some h2).2.1, ← (attrAt_some k2).2.1, h]
  subst e
  rw [h1] at k1
  cases k1
  rw [h2] at k2
  cases k2; rfl

theorem byId_of_mem {a : PAttr} (ha : a ∈ (pdbOf db).attrs) : (pdbOf db).byId a.id = some a := by
  unfold PDB.byId
  cases h : (pdbOf db).attrs.find? fun b => decide (b.id = a.id) with
  | none =>
    have := List.find?_eq_none.1 h a ha
    simp at this
  | some b =>
    have h1 := List.mem_of_find?_eq_some h
    have h2 := List.find?_some h
    rw [pdb_uniq h1 ha (by simpa using h2)]

theorem Corr.attr (ok : db.OK) {i j : Nat} {A : Deep} (hA : Denotes S.node i A) (h : Corr S db i j) {n : Str} {q : Option Nat}
    (hn : S.node i = some ⟨8, .string n, q⟩) :
    (⟨j, n, A.attrType, decide (A.attrProp &&& 256#32 ≠ 0)⟩ : PAttr) ∈ (pdbOf db).attrs := by
  obtain ⟨q', hq⟩ := h.node hn
  obtain ⟨B, b1, b2⟩ := h
  rw [← hA.det b1] at b2
  refine mem_pdb.2 ⟨j, _, hq, ?_⟩
  simp only [attrAt, if_true, Cali.Val.nameText, ok.attrType b2, ok.attrProp b2]

/-- names in the initial database -/
theorem init_names : ∀ n ∈ DB.init.nodes, n.attr = 8 → n.data.nameText ≠ T ∧ n.data.nameText ≠ str "sum#" ++ T ∧ n.data.nameText ≠ str "inclusive#" ++ T := by
  decide +kernel

theorem name_string {v : Cali.Val} {n : Str} (h : v.nameText = n) (hn : n ≠ []) : v = .string n := by
  cases v <;> simp only [Cali.Val.nameText] at h
  case string bs => rw [h]
  all_goals exact absurd h.symm hn

theorem T_ne : T ≠ [] ∧ str "sum#" ++ T ≠ [] ∧ str "inclusive#" ++ T ≠ [] := by decide +kernel

/-- an attribute with a name other than those of the initial database comes from the source -/
theorem from_source (hext : DB.init.Ext db) (ho : Orig S DB.init.nodes.length db) {n : Str} (hn : n ≠ [])
    (hini : ∀ m ∈ DB.init.nodes, m.attr = 8 → m.data.nameText ≠ n) {a : PAttr} (ha : a ∈ (pdbOf db).attrs) (he : a.name = n) :
    ∃ i q, Corr S db i a.id ∧ S.node i = some ⟨8, .string n, q⟩ := by
  obtain ⟨j, m, h1, h2⟩ := mem_pdb.1 ha
  obtain ⟨a1, a2, a3, -, -⟩ := attrAt_some h2
  rw [he] at a3
  rw [a2]
  rcases Nat.lt_or_ge j DB.init.nodes.length with hj | hj
  · exfalso
    obtain ⟨more, e⟩ := hext
    rw [e, List.getElem?_append_left hj] at h1
    exact hini m (List.mem_of_getElem? h1) a1 a3.symm
  · obtain ⟨i, D, d1, d2⟩ := ho j hj (List.getElem?_eq_some_iff.1 h1).1
    obtain ⟨⟨b, v, q⟩, k1, k2, k3⟩ := Corr.node' ⟨D, d1, d2⟩ h1 a1
    simp only at k2 k3
    subst k2
    rw [name_string a3.symm hn] at k3
    subst k3
    exact ⟨i, q, ⟨D, d1, d2⟩, k1⟩

theorem attr_none {D : PDB} {n : Str} (h : ∀ a ∈ D.attrs, a.name ≠ n) : D.attr n = none := by
  unfold PDB.attr
  rw [List.find?_eq_none]
  intro a ha
  simpa using h a ha

/-! ## the paths -/

theorem props_small : (Deep.boot 8).attrProp &&& 256#32 = 0#32 ∧ (Deep.boot 9).attrProp &&& 256#32 = 0#32 := by decide +kernel

theorem boot_attrs : ∀ i, i < 12 → ∀ n ∈ bootNodes[i]?, n.attr = 8 ∨ n.attr = 9 := by decide

theorem path_up {t : MTree.Tree} {conv : Verif.Val → Cali.Val} (ok : db.OK)
    (htree : ∀ p r, t.get? p = some r → S.node r.id = some ⟨r.attr, conv r.val, if r.parent = .root then none else some (t.idOf r.parent)⟩)
    {n : MTree.Ptr} {P : MTree.PathL} (hp : MTree.Path t n P) : P ≠ [] →
    (∀ x ∈ P, ∃ A, Denotes S.node x.1 A ∧ A.attrProp &&& 256#32 ≠ 0#32) → ∀ {j : Nat} {D : Deep}, Denotes S.node (t.idOf n) D → Denotes db.node? j D →
    (∀ fuel, j < fuel → pathUp db.nodes fuel (some j) = P.reverse.map fun x => (cOf S db x.1, conv x.2)) ∧ (∀ x ∈ P, Corr S db x.1 (cOf S db x.1)) := by
  induction hp with
  | root => intro h; exact absurd rfl h
  | @cell b i r l hr hp ih =>
    intro _ hreg j D hD hD'
    have hid : t.idOf (.cell b i) = r.id := by simp [MTree.Tree.idOf, MTree.Tree.get?, hr]
    have hn := htree (.cell b i) r hr
    rw [hid] at hD
    have hlt : ∀ k m, db.nodes[k]? = some m → 12 ≤ k → ∀ p, m.parent = some p → p < k := fun k m h1 h2 => (ok.wf k m h1 h2).2.2
    cases hD with
    | boot h1 h2 =>
      exfalso
      obtain ⟨A, hA, hne⟩ := hreg (r.attr, r.val) (by simp)
      rw [h2] at hn
      rcases boot_attrs _ h1 _ hn with e | e
      · simp only at e hA
        rw [e] at hA
        have := hA.boot_iff.2 ⟨rfl, by omega⟩
        subst this
        exact hne props_small.1
      · simp only at e hA
        rw [e] at hA
        have := hA.boot_iff.2 ⟨rfl, by omega⟩
        subst this
        exact hne props_small.2
    | @root _ a v A h1 h2 h3 =>
      rw [hn] at h2
      simp only [Option.some.injEq, Nd.mk.injEq] at h2
      obtain ⟨rfl, rfl, hpar⟩ := h2
      have hroot : r.parent = .root := by
        by_cases e : r.parent = .root
        · exact e
        · rw [if_neg e] at hpar; cases hpar
      have hl : l = [] := by rw [hroot] at hp; exact hp.fun .root
      subst hl
      cases hD' with
      | @root _ a' _ _ k1 k2 k3 =>
        have hc : Corr S db r.attr a' := ⟨A, h3, k3⟩
        have he := cOf_eq ok hc
        refine ⟨?_, ?_⟩
        · intro fuel hf
          obtain ⟨k, rfl⟩ : ∃ k, fuel = k + 1 := ⟨fuel - 1, by omega⟩
          simp only [DB.node?] at k2
          simp only [pathUp, k2, List.nil_append, List.reverse_cons, List.reverse_nil, List.map_cons, List.map_nil, he]
          cases k <;> rfl
        · intro x hx
          simp only [List.nil_append, List.mem_singleton] at hx
          subst hx
          simp only [he]
          exact hc
    | @child _ a p v A Q h1 h2 h3 h4 =>
      rw [hn] at h2
      simp only [Option.some.injEq, Nd.mk.injEq] at h2
      obtain ⟨rfl, rfl, hpar⟩ := h2
      have hroot : r.parent ≠ .root := by
        intro e
        rw [if_pos e] at hpar; cases hpar
      rw [if_neg hroot] at hpar
      simp only [Option.some.injEq] at hpar
      have hl : l ≠ [] := by
        rintro rfl
        cases hpp : r.parent with
        | root => exact hroot hpp
        | cell b' i' =>
          rw [hpp] at hp
          generalize hz : ([] : MTree.PathL) = z at hp
          cases hp with
          | cell => simp at hz
      cases hD' with
      | @child _ a' p' _ _ _ k1 k2 k3 k4 =>
        have hc : Corr S db r.attr a' := ⟨A, h3, k3⟩
        have he := cOf_eq ok hc
        obtain ⟨i1, i2⟩ := ih hl (fun x hx => hreg x (by simp [hx])) (by rw [hpar]; exact h4) k4
        simp only [DB.node?] at k2
        have hp' := hlt _ _ k2 k1 p' rfl
        refine ⟨?_, ?_⟩
        · intro fuel hf
          obtain ⟨k, rfl⟩ : ∃ k, fuel = k + 1 := ⟨fuel - 1, by omega⟩
          simp only [pathUp, k2, i1 k (by omega), List.reverse_append, List.reverse_cons, List.reverse_nil, List.nil_append, List.map_append,
            List.map_cons, List.map_nil, he, List.cons_append]
        · intro x hx
          rcases List.mem_append.1 hx with hx | hx
          · exact i2 x hx
          · simp only [List.mem_singleton] at hx
            subst hx
            simp only [he]
            exact hc

end Verif.E2E
