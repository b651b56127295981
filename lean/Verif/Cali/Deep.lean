import Verif.Cali.Writer
import Mathlib.Tactic.IntervalCases
/-!
# What node ids mean, independently of the ids

`Denotes N i D`: in the metadata `N`, node `i` stands for `D`: its attribute (again as such a tree, so including name, type,
properties and metadata of the attribute), its value and its path.  Only the twelve built-in nodes are identified by their
ids.
-/
namespace Verif.Cali
open Verif

/-- id-independent description of a node -/
inductive Deep where
  | boot (i : Nat)
  | root (attr : Deep) (v : Val)
  | child (attr : Deep) (v : Val) (parent : Deep)
  deriving DecidableEq, Repr

/-- meaning of a node id -/
inductive Denotes (N : Nat → Option Nd) : Nat → Deep → Prop
  | boot {i : Nat} : i < 12 → N i = bootNodes[i]? → Denotes N i (.boot i)
  | root {i a : Nat} {v : Val} {A : Deep} : 12 ≤ i → N i = some ⟨a, v, none⟩ → Denotes N a A → Denotes N i (.root A v)
  | child {i a p : Nat} {v : Val} {A P : Deep} : 12 ≤ i → N i = some ⟨a, v, some p⟩ → Denotes N a A → Denotes N p P →
      Denotes N i (.child A v P)

/-- value of the first node with attribute `a` (one of the built-in attributes) from a node upwards -/
def Deep.up (a : Nat) : Deep → Option Val
  | .boot i => upTo bootNodes a 3 (some i)
  | .root A v => if A = .boot a then some v else none
  | .child A v P => if A = .boot a then some v else P.up a

/-- type of an attribute -/
def Deep.attrType (D : Deep) : AttrType := ((D.up 9).map Val.toAttrType).getD .inv
/-- properties of an attribute -/
def Deep.attrProp (D : Deep) : BitVec 32 := ((D.up 10).map Val.propWord).getD 0
/-- name of an attribute -/
def Deep.attrName (D : Deep) : Option Val := D.up 8

/-- the attribute a node belongs to is the built-in attribute `a` -/
def Deep.isOf (a : Nat) : Deep → Prop
  | .boot i => (bootNodes[i]?).map (·.attr) = some a
  | .root A _ => A = .boot a
  | .child A _ _ => A = .boot a

theorem Denotes.det {N : Nat → Option Nd} {i : Nat} {D D' : Deep} (h : Denotes N i D) (h' : Denotes N i D') : D = D' := by
  induction h generalizing D' with
  | boot h1 h2 =>
    cases h' with
    | boot => rfl
    | root h3 => omega
    | child h3 => omega
  | root h1 h2 _ ih =>
    cases h' with
    | boot h3 => omega
    | root h3 h4 h5 => rw [h2] at h4; cases h4; rw [ih h5]
    | child h3 h4 => rw [h2] at h4; cases h4
  | child h1 h2 _ _ ih1 ih2 =>
    cases h' with
    | boot h3 => omega
    | root h3 h4 h5 => rw [h2] at h4; cases h4
    | child h3 h4 h5 h6 => rw [h2] at h4; cases h4; rw [ih1 h5, ih2 h6]

theorem Denotes.mono {N N' : Nat → Option Nd} (h : ∀ i n, N i = some n → N' i = some n) {i : Nat} {D : Deep}
    (hd : Denotes N i D) : Denotes N' i D := by
  induction hd with
  | @boot i h1 h2 =>
    refine .boot h1 ?_
    have : i < bootNodes.length := h1
    rw [List.getElem?_eq_getElem this] at h2 ⊢
    exact h _ _ h2
  | root h1 h2 _ ih => exact .root h1 (h _ _ h2) ih
  | child h1 h2 _ _ ih1 ih2 => exact .child h1 (h _ _ h2) ih1 ih2

/-- which ids denote built-in nodes -/
theorem Denotes.boot_iff {N : Nat → Option Nd} {i a : Nat} {A : Deep} (h : Denotes N i A) : A = .boot a ↔ i = a ∧ a < 12 := by
  cases h with
  | boot h1 h2 =>
    constructor
    · intro e; cases e; exact ⟨rfl, h1⟩
    · rintro ⟨rfl, _⟩; rfl
  | root h1 => constructor
               · intro e; cases e
               · rintro ⟨rfl, _⟩; omega
  | child h1 => constructor
                · intro e; cases e
                · rintro ⟨rfl, _⟩; omega

/-! ## well-formed databases -/

/-- invariant of the reader's database -/
structure DB.OK (db : DB) : Prop where
  boot : ∃ rest, db.nodes = bootNodes ++ rest
  nodup : db.nodes.Nodup
  wf : ∀ i n, db.nodes[i]? = some n → 12 ≤ i → n.attr < i ∧ (db.attribute? n.attr).isSome ∧ ∀ p, n.parent = some p → p < i
  glob : ∀ e ∈ db.globals, ∀ i, e.node = some i → i < db.nodes.length

theorem DB.OK.len {db : DB} (h : db.OK) : 12 ≤ db.nodes.length := by
  obtain ⟨rest, e⟩ := h.boot
  have : db.nodes.length = bootNodes.length + rest.length := by rw [e]; simp
  have e : bootNodes.length = 12 := rfl
  omega

theorem DB.OK.bootAt {db : DB} (h : db.OK) {i : Nat} (hi : i < 12) : db.nodes[i]? = bootNodes[i]? := by
  obtain ⟨rest, e⟩ := h.boot
  rw [e, List.getElem?_append_left (show i < bootNodes.length from hi)]

/-- every node of a well-formed database has a meaning -/
theorem DB.OK.denotes {db : DB} (h : db.OK) : ∀ i, i < db.nodes.length → ∃ D, Denotes db.node? i D := by
  intro i
  induction i using Nat.strongRecOn with
  | _ i ih =>
    intro hi
    by_cases h12 : i < 12
    · exact ⟨_, .boot h12 (h.bootAt h12)⟩
    · have hn : db.nodes[i]? = some db.nodes[i] := List.getElem?_eq_getElem hi
      obtain ⟨h1, _, h3⟩ := h.wf i _ hn (by omega)
      obtain ⟨A, hA⟩ := ih _ h1 (by omega)
      cases hp : db.nodes[i].parent with
      | none => exact ⟨_, .root (by omega) (a := db.nodes[i].attr) (v := db.nodes[i].data) (by rw [DB.node?, hn, ← hp]) hA⟩
      | some p =>
        have := h3 p hp
        obtain ⟨P, hP⟩ := ih p this (by omega)
        exact ⟨_, .child (by omega) (a := db.nodes[i].attr) (v := db.nodes[i].data) (by rw [DB.node?, hn, ← hp]) hA hP⟩

/-- different ids have different meanings -/
theorem DB.OK.inj {db : DB} (h : db.OK) {D : Deep} : ∀ {i j : Nat}, Denotes db.node? i D → Denotes db.node? j D → i = j := by
  induction D with
  | boot k => intro i j hi hj; cases hi; cases hj; rfl
  | root A v ih =>
    intro i j hi hj
    cases hi with
    | root h1 h2 h3 =>
      cases hj with
      | root k1 k2 k3 =>
        have := ih h3 k3
        subst this
        exact (List.getElem?_inj (by
          have := h2
          simp only [DB.node?, List.getElem?_eq_some_iff] at this
          exact this.1) h.nodup).1 (h2.trans k2.symm)
  | child A v P ih1 ih2 =>
    intro i j hi hj
    cases hi with
    | child h1 h2 h3 h4 =>
      cases hj with
      | child k1 k2 k3 k4 =>
        have := ih1 h3 k3
        subst this
        have := ih2 h4 k4
        subst this
        exact (List.getElem?_inj (by
          have := h2
          simp only [DB.node?, List.getElem?_eq_some_iff] at this
          exact this.1) h.nodup).1 (h2.trans k2.symm)

theorem upTo_none (nodes : List Nd) (a fuel : Nat) : upTo nodes a fuel none = none := by cases fuel <;> rfl

theorem upTo_boot (nodes rest : List Nd) (he : nodes = bootNodes ++ rest) (a i : Nat) (hi : i < 12) (fuel : Nat) (hf : i < fuel) :
    upTo nodes a fuel (some i) = upTo bootNodes a 3 (some i) := by
  have hb : ∀ j, j < 12 → nodes[j]? = bootNodes[j]? := by
    intro j hj; rw [he, List.getElem?_append_left (show j < bootNodes.length from hj)]
  obtain ⟨k, rfl⟩ : ∃ k, fuel = k + 1 := ⟨fuel - 1, by omega⟩
  interval_cases i
  all_goals simp only [upTo, hb _ (show _ < 12 by omega)]
  all_goals simp only [bootNodes, List.getElem?_cons_succ, List.getElem?_cons_zero, upTo_none]
  all_goals
    obtain ⟨k, rfl⟩ : ∃ k', k = k' + 1 := ⟨k - 1, by omega⟩
    simp only [upTo, hb 3 (by omega), hb 7 (by omega), hb 1 (by omega), bootNodes, List.getElem?_cons_succ, List.getElem?_cons_zero, upTo_none]

/-- walking up in the database computes `Deep.up` -/
theorem DB.OK.upTo {db : DB} (h : db.OK) (a : Nat) (ha : a < 12) {i : Nat} {D : Deep} (hd : Denotes db.node? i D) :
    ∀ fuel, i < fuel → Cali.upTo db.nodes a fuel (some i) = D.up a := by
  obtain ⟨rest, he⟩ := h.boot
  induction hd with
  | @boot i h1 _ => intro fuel hf; exact upTo_boot _ rest he a i h1 fuel hf
  | @root i b v A h1 h2 h3 _ =>
    intro fuel hf
    obtain ⟨k, rfl⟩ : ∃ k, fuel = k + 1 := ⟨fuel - 1, by omega⟩
    simp only [DB.node?] at h2
    simp only [Cali.upTo, h2, upTo_none, Deep.up]
    have := h3.boot_iff (a := a)
    by_cases e : b = a
    · rw [if_pos e, if_pos (this.2 ⟨e, ha⟩)]
    · rw [if_neg e, if_neg (fun c => e (this.1 c).1)]
  | @child i b p v A P h1 h2 h3 h4 _ ih =>
    intro fuel hf
    obtain ⟨k, rfl⟩ : ∃ k, fuel = k + 1 := ⟨fuel - 1, by omega⟩
    simp only [DB.node?] at h2
    have hp := (h.wf i _ h2 h1).2.2 p rfl
    simp only [Cali.upTo, h2, Deep.up]
    have := h3.boot_iff (a := a)
    by_cases e : b = a
    · rw [if_pos e, if_pos (this.2 ⟨e, ha⟩)]
    · rw [if_neg e, if_neg (fun c => e (this.1 c).1), ih k (by omega)]

theorem Denotes.lt {db : DB} {i : Nat} {D : Deep} (h : Denotes db.node? i D) : i < db.nodes.length := by
  have : ∃ n, db.node? i = some n := by
    cases h with
    | boot h1 h2 => rw [h2]; exact ⟨_, List.getElem?_eq_getElem (show i < bootNodes.length from h1)⟩
    | root _ h2 => exact ⟨_, h2⟩
    | child _ h2 => exact ⟨_, h2⟩
  obtain ⟨n, hn⟩ := this
  exact (List.getElem?_eq_some_iff.1 hn).1

theorem DB.OK.attrType {db : DB} (h : db.OK) {i : Nat} {D : Deep} (hd : Denotes db.node? i D) :
    db.attrType (some i) = D.attrType := by
  unfold DB.attrType Deep.attrType
  rw [h.upTo 9 (by omega) hd _ (by have := hd.lt; omega)]

theorem DB.OK.attrProp {db : DB} (h : db.OK) {i : Nat} {D : Deep} (hd : Denotes db.node? i D) :
    db.attrProp (some i) = D.attrProp := by
  unfold DB.attrProp Deep.attrProp
  rw [h.upTo 10 (by omega) hd _ (by have := hd.lt; omega)]

/-- being an attribute node -/
theorem DB.OK.attribute? {db : DB} {i : Nat} {D : Deep} (hd : Denotes db.node? i D) :
    (db.attribute? i = some i ∧ D.isOf 8) ∨ (db.attribute? i = none ∧ ¬ D.isOf 8) := by
  cases hd with
  | boot h1 h2 =>
    simp only [DB.attribute?, Deep.isOf]
    simp only [DB.node?] at h2
    rw [h2, List.getElem?_eq_getElem (show i < bootNodes.length from h1)]
    simp only [Option.map_some, Option.some.injEq]
    by_cases e : bootNodes[i].attr = 8
    · exact .inl ⟨if_pos e, e⟩
    · exact .inr ⟨if_neg e, e⟩
  | root h1 h2 h3 =>
    simp only [DB.node?] at h2
    simp only [DB.attribute?, Deep.isOf, h2, h3.boot_iff]
    rename_i a v A
    by_cases e : a = 8
    · left; simp [e]
    · right; simp [e]
  | child h1 h2 h3 h4 =>
    simp only [DB.node?] at h2
    simp only [DB.attribute?, Deep.isOf, h2, h3.boot_iff]
    rename_i a p v A P
    by_cases e : a = 8
    · left; simp [e]
    · right; simp [e]

/-! ## operations keep the invariant and only add nodes -/

/-- `db'` is `db` with possibly more nodes -/
def DB.Ext (db db' : DB) : Prop := ∃ more, db'.nodes = db.nodes ++ more

theorem DB.Ext.refl (db : DB) : db.Ext db := ⟨[], by simp⟩
theorem DB.Ext.trans {a b c : DB} (h : a.Ext b) (h' : b.Ext c) : a.Ext c := by
  obtain ⟨m, e⟩ := h
  obtain ⟨m', e'⟩ := h'
  exact ⟨m ++ m', by rw [e', e]; simp⟩

theorem DB.Ext.node {db db' : DB} (h : db.Ext db') {i : Nat} {n : Nd} (hn : db.node? i = some n) : db'.node? i = some n := by
  obtain ⟨m, e⟩ := h
  unfold DB.node? at *
  rw [e, List.getElem?_append_left (List.getElem?_eq_some_iff.1 hn).1, hn]

theorem DB.Ext.denotes {db db' : DB} (h : db.Ext db') {i : Nat} {D : Deep} (hd : Denotes db.node? i D) : Denotes db'.node? i D :=
  hd.mono fun _ _ hn => h.node hn

theorem DB.Ext.len {db db' : DB} (h : db.Ext db') : db.nodes.length ≤ db'.nodes.length := by
  obtain ⟨m, e⟩ := h
  rw [e]; simp

theorem DB.Ext.attribute? {db db' : DB} (h : db.Ext db') {i : Nat} (hs : (db.attribute? i).isSome) : (db'.attribute? i).isSome := by
  unfold DB.attribute? at *
  cases hn : db.nodes[i]? with
  | none => simp [hn] at hs
  | some n =>
    rw [hn] at hs
    rw [show db'.nodes[i]? = some n from h.node hn]
    exact hs

/-- changing the globals or the name table only -/
theorem DB.OK.congr {db db' : DB} (h : db.OK) (hn : db'.nodes = db.nodes)
    (hg : ∀ e ∈ db'.globals, ∀ i, e.node = some i → i < db.nodes.length) : db'.OK := by
  refine ⟨hn ▸ h.boot, hn ▸ h.nodup, ?_, by rw [hn]; exact hg⟩
  intro i n hi
  rw [hn] at hi
  have := h.wf i n hi
  unfold DB.attribute? at *
  rw [hn]
  exact this

theorem findIdx?_spec {α : Type} (p : α → Bool) (l : List α) : (∃ i x, l.findIdx? p = some i ∧ l[i]? = some x ∧ p x = true) ∨
    (l.findIdx? p = none ∧ ∀ x ∈ l, p x = false) := by
  cases h : l.findIdx? p with
  | none => right; exact ⟨rfl, List.findIdx?_eq_none_iff.1 h⟩
  | some i =>
    left
    obtain ⟨hi, hp, _⟩ := List.findIdx?_eq_some_iff_getElem.1 h
    exact ⟨i, l[i], rfl, List.getElem?_eq_getElem hi, hp⟩

theorem DB.OK.findOrCreate {db : DB} (h : db.OK) (a : Nat) (v : Val) (p : Option Nat) (ha : (db.attribute? a).isSome)
    (hp : ∀ q, p = some q → q < db.nodes.length) :
    (db.findOrCreate a v p).1.OK ∧ db.Ext (db.findOrCreate a v p).1 ∧
    (db.findOrCreate a v p).1.node? (db.findOrCreate a v p).2 = some ⟨a, v, p⟩ ∧
    (db.findOrCreate a v p).1.globals = db.globals ∧ (db.findOrCreate a v p).1.attrs = db.attrs ∧
    (db.findOrCreate a v p).1.nodes.length ≤ db.nodes.length + 1 ∧
    ((∃ i : Nat, db.nodes[i]? = some (⟨a, v, p⟩ : Nd)) → (db.findOrCreate a v p).1 = db) ∧
    ((db.findOrCreate a v p).1 = db ∨ (db.findOrCreate a v p).2 = db.nodes.length) := by
  unfold DB.findOrCreate findChild
  rcases findIdx?_spec (fun n => decide (n = (⟨a, v, p⟩ : Nd))) db.nodes with ⟨i, x, e1, e2, e3⟩ | ⟨e1, e2⟩
  · simp only [e1]
    have : x = ⟨a, v, p⟩ := by simpa using e3
    subst this
    exact ⟨h, .refl db, e2, trivial, trivial, by omega, fun _ => trivial, .inl trivial⟩
  · simp only [e1, DB.createNode]
    have hnew : (⟨a, v, p⟩ : Nd) ∉ db.nodes := by
      intro hm
      have := e2 _ hm
      simp at this
    have hext : db.Ext { db with nodes := db.nodes ++ [⟨a, v, p⟩] } := ⟨_, rfl⟩
    have halt : a < db.nodes.length := by
      unfold DB.attribute? at ha
      cases hh : db.nodes[a]? with
      | none => simp [hh] at ha
      | some n => exact (List.getElem?_eq_some_iff.1 hh).1
    refine ⟨⟨?_, ?_, ?_, ?_⟩, hext, ?_, trivial, trivial, by simp, ?_, .inr trivial⟩
    · obtain ⟨rest, e⟩ := h.boot
      exact ⟨rest ++ [⟨a, v, p⟩], by simp [e]⟩
    · exact List.nodup_append.2 ⟨h.nodup, by simp, by
        intro x hx y hy; simp at hy; subst hy; intro e; subst e; exact hnew hx⟩
    · intro i n hi h12
      rcases Nat.lt_or_ge i db.nodes.length with hlt | hge
      · simp only [List.getElem?_append_left hlt] at hi
        obtain ⟨b1, b2, b3⟩ := h.wf i n hi h12
        exact ⟨b1, hext.attribute? b2, b3⟩
      · simp only [List.getElem?_append_right hge] at hi
        have hi0 : i = db.nodes.length := by
          have := (List.getElem?_eq_some_iff.1 hi).1
          simp at this; omega
        subst hi0
        simp at hi
        subst hi
        exact ⟨halt, hext.attribute? ha, hp⟩
    · intro e he i hi
      have := h.glob e he i hi
      simp; omega
    · simp [DB.node?]
    · rintro ⟨i, hi⟩
      exact absurd (List.mem_of_getElem? hi) hnew

end Verif.Cali
