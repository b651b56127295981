import Verif.Query.SnapTreeLemmas
/-!
# Order of the tree output
-/
namespace Verif.Query.Tree
open Verif Verif.Cali Verif.Query Verif.Query.Fmt Verif.Util
open Verif.Query.Json (AInfo)

/-- equivalent values can be exchanged in comparisons -/
theorem _root_.Verif.Util.SWO.congr {α : Type} {lt : α → α → Bool} {l : List α} (h : SWO lt l) {a a' b b' : α} (ha : a ∈ l) (ha' : a' ∈ l) (hb : b ∈ l)
    (hb' : b' ∈ l) (e1 : lt a a' = false) (e2 : lt a' a = false) (e3 : lt b b' = false) (e4 : lt b' b = false) : lt a b = lt a' b' := by
  have key : ∀ {a a' b b' : α}, a ∈ l → a' ∈ l → b ∈ l → b' ∈ l → lt a a' = false → lt a' a = false → lt b b' = false → lt b' b = false →
      lt a b = true → lt a' b' = true := by
    intro a a' b b' ha ha' hb hb' e1 e2 e3 e4 hab
    cases hx : lt a' b' with
    | true => rfl
    | false =>
      -- `b ≤ b' ≤ a' ≤ a`
      have h1 := h.le_trans hb' ha' ha hx e1
      have h2 := h.le_trans hb hb' ha e4 h1
      rw [h2] at hab; exact hab.symm ▸ rfl
  cases h1 : lt a b with
  | true => exact (key ha ha' hb hb' e1 e2 e3 e4 h1).symm
  | false =>
    cases h2 : lt a' b' with
    | false => rfl
    | true =>
      have := key ha' ha hb' hb e2 e1 e4 e3 h2
      rw [h1] at this; exact this

/-- two extremes of the same values are equivalent -/
theorem IsExt.equiv {dcmp : U64 → U64 → Int} {asc : Bool} {vs vs' : List Val} {v v' : Val} (h : IsExt dcmp asc vs v) (h' : IsExt dcmp asc vs' v')
    (hm : ∀ x, x ∈ vs ↔ x ∈ vs') : vlt dcmp v v' = false ∧ vlt dcmp v' v = false := by
  have h1 := h.2 v' ((hm v').2 h'.1)
  have h2 := h'.2 v ((hm v).1 h.1)
  cases asc with
  | true => exact ⟨by simpa using h2, by simpa using h1⟩
  | false => exact ⟨by simpa using h1, by simpa using h2⟩

/-! ### `min_val` and `max_val` -/

/-- what the loop has seen so far -/
def Seen (dcmp : U64 → U64 → Int) (asc : Bool) (vs : List Val) (acc : Val) : Prop := (vs = [] ∧ acc = .inv) ∨ (acc ≠ .inv ∧ IsExt dcmp asc vs acc)

theorem pick_ext {dcmp : U64 → U64 → Int} {asc : Bool} {V vs ws : List Val} {v w : Val} (hV : SWO (vlt dcmp) V) (h1 : ∀ x ∈ vs, x ∈ V)
    (h2 : ∀ x ∈ ws, x ∈ V) (hv : IsExt dcmp asc vs v) (hw : IsExt dcmp asc ws w) : IsExt dcmp asc (vs ++ ws) (pick (vlt dcmp) asc v w) := by
  have hvV := h1 v hv.1
  have hwV := h2 w hw.1
  cases asc with
  | true =>
    simp only [pick, if_true, IsExt] at *
    cases hc : vlt dcmp w v with
    | true =>
      rw [if_pos rfl]
      refine ⟨List.mem_append_right _ hw.1, ?_⟩
      intro x hx
      rcases List.mem_append.1 hx with hx | hx
      · exact hV.le_trans hwV hvV (h1 x hx) (hV.asymm hwV hvV hc) (hv.2 x hx)
      · exact hw.2 x hx
    | false =>
      rw [if_neg Bool.false_ne_true]
      refine ⟨List.mem_append_left _ hv.1, ?_⟩
      intro x hx
      rcases List.mem_append.1 hx with hx | hx
      · exact hv.2 x hx
      · exact hV.le_trans hvV hwV (h2 x hx) hc (hw.2 x hx)
  | false =>
    simp only [pick, Bool.false_eq_true, if_false, IsExt] at *
    cases hc : vlt dcmp v w with
    | true =>
      rw [if_pos rfl]
      refine ⟨List.mem_append_right _ hw.1, ?_⟩
      intro x hx
      rcases List.mem_append.1 hx with hx | hx
      · exact hV.le_trans (h1 x hx) hvV hwV (hv.2 x hx) (hV.asymm hvV hwV hc)
      · exact hw.2 x hx
    | false =>
      rw [if_neg Bool.false_ne_true]
      refine ⟨List.mem_append_left _ hv.1, ?_⟩
      intro x hx
      rcases List.mem_append.1 hx with hx | hx
      · exact hv.2 x hx
      · exact hV.le_trans (h2 x hx) hwV hvV (hw.2 x hx) hc

theorem Seen.step {dcmp : U64 → U64 → Int} {asc : Bool} {V vs ws : List Val} {acc w : Val} (hV : SWO (vlt dcmp) V) (h1 : ∀ x ∈ vs, x ∈ V)
    (h2 : ∀ x ∈ ws, x ∈ V) (hw0 : w ≠ .inv) (hs : Seen dcmp asc vs acc) (hw : IsExt dcmp asc ws w) :
    Seen dcmp asc (vs ++ ws) (pick0 (vlt dcmp) asc acc w) := by
  rcases hs with ⟨rfl, rfl⟩ | ⟨ha, hs⟩
  · right
    rw [pick0, if_neg (by simp), List.nil_append]
    exact ⟨hw0, hw⟩
  · right
    rw [pick0, if_pos ha]
    have := pick_ext hV h1 h2 hs hw
    refine ⟨?_, this⟩
    unfold pick
    split <;> split <;> assumption

/-- the values of a key in some records -/
def valsOf (key : Nat) (es : List (List Lbl × Rec)) : List Val := es.map fun e => dataVal key e.2

theorem dataVal_eq {key : Nat} {d : Rec} (h : dataVal key d ≠ .inv) : recGet key d = some (dataVal key d) := by
  unfold dataVal recGet at *
  cases hf : d.find? (fun p => decide (p.1 = key)) with
  | none => rw [hf] at h; simp at h
  | some p => rfl

theorem recs_seen {dcmp : U64 → U64 → Int} {asc : Bool} {V : List Val} {key : Nat} (hV : SWO (vlt dcmp) V) (q : List Lbl) (rs : List Rec) :
    ∀ (vs : List Val) (acc : Val), (∀ x ∈ vs, x ∈ V) → (∀ r ∈ rs, dataVal key r ∈ V ∧ dataVal key r ≠ .inv) → Seen dcmp asc vs acc →
    Seen dcmp asc (vs ++ valsOf key (rs.map fun r => (q, r)))
      (rs.foldl (fun acc r => match recGet key r with | some v => pick0 (vlt dcmp) asc acc v | none => acc) acc) := by
  induction rs with
  | nil => intro vs acc _ _ hs; simpa [valsOf] using hs
  | cons r rs ih =>
    intro vs acc h1 h2 hs
    obtain ⟨hr1, hr2⟩ := h2 r (List.mem_cons_self ..)
    rw [List.foldl_cons, dataVal_eq hr2]
    have hx : IsExt dcmp asc [dataVal key r] (dataVal key r) := by
      refine ⟨List.mem_singleton.2 rfl, ?_⟩
      intro w hw
      rw [List.mem_singleton] at hw; subst hw
      cases asc <;> simp [hV.irrefl _ hr1]
    have hs' := hs.step hV h1 (ws := [dataVal key r]) (by intro x hx; rw [List.mem_singleton] at hx; subst hx; exact hr1) hr2 hx
    have := ih (vs ++ [dataVal key r]) _ (by
      intro x hx
      rcases List.mem_append.1 hx with hx | hx
      · exact h1 x hx
      · rw [List.mem_singleton] at hx; subst hx; exact hr1) (fun r' hr' => h2 r' (List.mem_cons_of_mem _ hr')) hs'
    simpa [valsOf] using this

mutual
/-- every node of the subtree has records at or below it -/
def Full : SNode → Prop
  | .mk l rs ks => entries [] (.mk l rs ks) ≠ [] ∧ FullL ks
def FullL : List SNode → Prop
  | [] => True
  | k :: ks => Full k ∧ FullL ks
end

mutual
theorem entries_data (pre pre' : List Lbl) : ∀ (n : SNode), (entries pre n).map Prod.snd = (entries pre' n).map Prod.snd
  | .mk l rs ks => by
    rw [entries, entries, List.map_append, List.map_append, entriesL_data (pre ++ [l]) (pre' ++ [l]) ks]
    simp
theorem entriesL_data (pre pre' : List Lbl) : ∀ (ks : List SNode), (entriesL pre ks).map Prod.snd = (entriesL pre' ks).map Prod.snd
  | [] => rfl
  | k :: ks => by rw [entriesL, entriesL, List.map_append, List.map_append, entries_data pre pre' k, entriesL_data pre pre' ks]
end

theorem entries_ne (pre pre' : List Lbl) (n : SNode) (h : entries pre n ≠ []) : entries pre' n ≠ [] := by
  intro e
  have := entries_data pre pre' n
  rw [e, List.map_nil, List.map_eq_nil_iff] at this
  exact h this

mutual
theorem extVal_spec {dcmp : U64 → U64 → Int} {asc : Bool} {V : List Val} {key : Nat} (hV : SWO (vlt dcmp) V) (pre : List Lbl) : ∀ (n : SNode), Full n →
    (∀ e ∈ entries pre n, dataVal key e.2 ∈ V ∧ dataVal key e.2 ≠ .inv) →
    extVal (vlt dcmp) asc key n ≠ .inv ∧ IsExt dcmp asc (valsOf key (entries pre n)) (extVal (vlt dcmp) asc key n)
  | .mk l rs ks, hf, h => by
    rw [Full] at hf
    have h1 := recs_seen (asc := asc) (key := key) hV (pre ++ [l]) rs [] .inv (by simp)
      (fun r hr => h (pre ++ [l], r) (by rw [entries]; exact List.mem_append_left _ (List.mem_map_of_mem hr))) (.inl ⟨rfl, rfl⟩)
    rw [List.nil_append] at h1
    have h2 := extKids_spec (asc := asc) (key := key) hV (pre ++ [l]) ks hf.2
      (fun e he => h e (by rw [entries]; exact List.mem_append_right _ he)) (valsOf key (rs.map fun r => (pre ++ [l], r))) _
      (by
        intro x hx
        simp only [valsOf, List.map_map, List.mem_map, Function.comp] at hx
        obtain ⟨r, hr, rfl⟩ := hx
        exact (h (pre ++ [l], r) (by rw [entries]; exact List.mem_append_left _ (List.mem_map_of_mem hr))).1) h1
    rw [extVal]
    have e : valsOf key (entries pre (.mk l rs ks)) = valsOf key (rs.map fun r => (pre ++ [l], r)) ++ valsOf key (entriesL (pre ++ [l]) ks) := by
      rw [entries]; simp [valsOf]
    rw [e]
    rcases h2 with ⟨h2, -⟩ | h2
    · exfalso
      have hne := entries_ne [] pre _ hf.1
      rw [← e] at h2
      exact hne (List.map_eq_nil_iff.1 h2)
    · exact h2
theorem extKids_spec {dcmp : U64 → U64 → Int} {asc : Bool} {V : List Val} {key : Nat} (hV : SWO (vlt dcmp) V) (pre : List Lbl) : ∀ (ks : List SNode), FullL ks →
    (∀ e ∈ entriesL pre ks, dataVal key e.2 ∈ V ∧ dataVal key e.2 ≠ .inv) → ∀ (vs : List Val) (acc : Val), (∀ x ∈ vs, x ∈ V) → Seen dcmp asc vs acc →
    Seen dcmp asc (vs ++ valsOf key (entriesL pre ks)) (extKids (vlt dcmp) asc key acc ks)
  | [], _, _, vs, acc, _, hs => by simpa [extKids, entriesL, valsOf] using hs
  | k :: ks, hf, h, vs, acc, h1, hs => by
    rw [FullL] at hf
    have h2 : ∀ e ∈ entries pre k, dataVal key e.2 ∈ V ∧ dataVal key e.2 ≠ .inv := fun e he => h e (by rw [entriesL]; exact List.mem_append_left _ he)
    obtain ⟨hk1, hk2⟩ := extVal_spec (asc := asc) (key := key) hV pre k hf.1 h2
    have hsub : ∀ x ∈ valsOf key (entries pre k), x ∈ V := by
      intro x hx
      obtain ⟨e, he, rfl⟩ := List.mem_map.1 hx
      exact (h2 e he).1
    have hs' := hs.step hV h1 hsub hk1 hk2
    rw [extKids]
    have := extKids_spec (asc := asc) (key := key) hV pre ks hf.2 (fun e he => h e (by rw [entriesL]; exact List.mem_append_right _ he))
      (vs ++ valsOf key (entries pre k)) _ (by
        intro x hx
        rcases List.mem_append.1 hx with hx | hx
        · exact h1 x hx
        · exact hsub x hx) hs'
    rw [entriesL]
    simpa [valsOf] using this
end

mutual
theorem full_of_paths (pre : List Lbl) : ∀ (n : SNode), WF n → (∀ q ∈ paths pre n, ∃ e ∈ entries pre n, q <+: e.1) → Full n
  | .mk l rs ks, hw, h => by
    rw [WF] at hw
    rw [Full]
    refine ⟨?_, fullL_of_paths (pre ++ [l]) ks hw.1 hw.2 ?_⟩
    · obtain ⟨e, he, -⟩ := h (pre ++ [l]) (by rw [paths]; exact List.mem_cons_self ..)
      exact entries_ne pre [] _ (List.ne_nil_of_mem he)
    · intro q hq
      obtain ⟨e, he, hp⟩ := h q (by rw [paths]; exact List.mem_cons_of_mem _ hq)
      rw [entries, List.mem_append] at he
      rcases he with he | he
      · obtain ⟨r, -, rfl⟩ := List.mem_map.1 he
        obtain ⟨k, -, hk⟩ := pathsL_prefix _ ks q hq
        have := (hk.trans hp).length_le
        simp at this
      · exact ⟨e, he, hp⟩
theorem fullL_of_paths (pre : List Lbl) : ∀ (ks : List SNode), (ks.map SNode.label).Nodup → WFL ks →
    (∀ q ∈ pathsL pre ks, ∃ e ∈ entriesL pre ks, q <+: e.1) → FullL ks
  | [], _, _, _ => by simp [FullL]
  | k :: ks, hn, hw, h => by
    rw [WFL] at hw
    rw [List.map_cons, List.nodup_cons] at hn
    rw [FullL]
    refine ⟨full_of_paths pre k hw.1 ?_, fullL_of_paths pre ks hn.2 hw.2 ?_⟩
    · intro q hq
      obtain ⟨e, he, hp⟩ := h q (by rw [pathsL]; exact List.mem_append_left _ hq)
      rw [entriesL, List.mem_append] at he
      rcases he with he | he
      · exact ⟨e, he, hp⟩
      · exfalso
        obtain ⟨k', hk', hk''⟩ := entriesL_prefix pre ks e he
        have h1 := (paths_prefix pre k q hq).trans hp
        have := (List.prefix_of_prefix_length_le h1 hk'' (by simp)).eq_of_length (by simp)
        have : k.label = k'.label := by simpa using this
        exact hn.1 (List.mem_map.2 ⟨k', hk', this.symm⟩)
    · intro q hq
      obtain ⟨e, he, hp⟩ := h q (by rw [pathsL]; exact List.mem_append_right _ hq)
      rw [entriesL, List.mem_append] at he
      rcases he with he | he
      · exfalso
        obtain ⟨k', hk', hk''⟩ := pathsL_prefix pre ks q hq
        have h1 := entries_prefix pre k e he
        have := (List.prefix_of_prefix_length_le h1 (hk''.trans hp) (by simp)).eq_of_length (by simp)
        have : k.label = k'.label := by simpa using this
        exact hn.1 (List.mem_map.2 ⟨k', hk', this.symm⟩)
      · exact ⟨e, he, hp⟩
end

/-! ### the order of the nodes -/

theorem LexLe_congr {α β : Type} (f : α → β) {R : List (α → α → Bool)} {R' : List (β → β → Bool)} {a b : α}
    (h : List.Forall₂ (fun r r' => r a b = r' (f a) (f b) ∧ r b a = r' (f b) (f a)) R R') : LexLe R a b → LexLe R' (f a) (f b) := by
  induction h with
  | nil => exact fun _ => trivial
  | cons h _ ih =>
    rintro (h1 | ⟨h1, h2⟩)
    · exact .inl (by rw [← h.1]; exact h1)
    · exact .inr ⟨by rw [← h.2]; exact h1, ih h2⟩

/-- "in this order if they have the same parent" -/
def SibLe (ks : List (List Lbl → List Lbl → Bool)) (p q : List Lbl) : Prop := Siblings p q → LexLe ks p q

/-- what is known about a list of sibling nodes with common path `pre`: `A` are all records of the run -/
structure Level (A : List (List Lbl × Rec)) (pre : List Lbl) (ks : List SNode) : Prop where
  nodup : (ks.map SNode.label).Nodup
  wf : WFL ks
  full : FullL ks
  mem : ∀ e, e ∈ entriesL pre ks ↔ e ∈ A ∧ pre <+: e.1 ∧ e.1 ≠ pre

theorem mem_entriesL {pre : List Lbl} {ks : List SNode} {e : List Lbl × Rec} : e ∈ entriesL pre ks ↔ ∃ k ∈ ks, e ∈ entries pre k := by
  rw [entriesL_eq_flatMap, List.mem_flatMap]

theorem WFL_mem {ks : List SNode} (h : WFL ks) {k : SNode} (hk : k ∈ ks) : WF k := by
  induction ks with
  | nil => cases hk
  | cons x ks ih =>
    rw [WFL] at h
    rcases List.mem_cons.1 hk with rfl | hk
    · exact h.1
    · exact ih h.2 hk

theorem FullL_mem {ks : List SNode} (h : FullL ks) {k : SNode} (hk : k ∈ ks) : Full k := by
  induction ks with
  | nil => cases hk
  | cons x ks ih =>
    rw [FullL] at h
    rcases List.mem_cons.1 hk with rfl | hk
    · exact h.1
    · exact ih h.2 hk

theorem label_of_nodup {ks : List SNode} (h : (ks.map SNode.label).Nodup) {a b : SNode} (ha : a ∈ ks) (hb : b ∈ ks) (e : a.label = b.label) : a = b :=
  List.inj_on_of_nodup_map h ha hb e

theorem prefix_same {pre : List Lbl} {l l' : Lbl} {q : List Lbl} (h : pre ++ [l] <+: q) (h' : pre ++ [l'] <+: q) : l = l' := by
  have := (List.prefix_of_prefix_length_le h h' (by simp)).eq_of_length (by simp)
  simpa using this

/-- the records of one node of a level -/
theorem Level.node {A : List (List Lbl × Rec)} {pre : List Lbl} {ks : List SNode} (h : Level A pre ks) {k : SNode} (hk : k ∈ ks) (e : List Lbl × Rec) :
    e ∈ entries pre k ↔ e ∈ A ∧ pre ++ [k.label] <+: e.1 := by
  constructor
  · intro he
    exact ⟨((h.mem e).1 (mem_entriesL.2 ⟨k, hk, he⟩)).1, entries_prefix pre k e he⟩
  · rintro ⟨h1, h2⟩
    have h3 : e ∈ entriesL pre ks := (h.mem e).2 ⟨h1, (List.prefix_append _ _).trans h2, fun e' => by
      rw [e'] at h2; have := h2.length_le; simp at this⟩
    obtain ⟨k', hk', he⟩ := mem_entriesL.1 h3
    have := prefix_same h2 (entries_prefix pre k' e he)
    rw [label_of_nodup h.nodup hk hk' this]; exact he

/-- the level below a node -/
theorem Level.below {A : List (List Lbl × Rec)} {pre : List Lbl} {ks : List SNode} (h : Level A pre ks) {l : Lbl} {rs : List Rec} {ks' : List SNode}
    (hk : SNode.mk l rs ks' ∈ ks) : Level A (pre ++ [l]) ks' := by
  have hw := WFL_mem h.wf hk
  rw [WF] at hw
  have hf := FullL_mem h.full hk
  rw [Full] at hf
  refine ⟨hw.1, hw.2, hf.2, ?_⟩
  intro e
  have h1 := h.node hk e
  rw [entries, List.mem_append] at h1
  constructor
  · intro he
    obtain ⟨k, -, hp⟩ := entriesL_prefix _ ks' e he
    have h2 := h1.1 (.inr he)
    refine ⟨h2.1, h2.2, fun e' => ?_⟩
    rw [e'] at hp; have := hp.length_le; simp at this
  · rintro ⟨h2, h3, h4⟩
    rcases h1.2 ⟨h2, h3⟩ with h5 | h5
    · obtain ⟨r, -, rfl⟩ := List.mem_map.1 h5
      exact absurd rfl h4
    · exact h5

/-- the extreme values a reader would assign to the paths -/
structure Extremes (dcmp : U64 → U64 → Int) (A : List (List Lbl × Rec)) (keys : List (Nat × Bool)) (m : Nat × Bool → List Lbl → Val) (V : Nat × Bool → List Val) : Prop where
  good : ∀ k ∈ keys, GoodOrder dcmp (V k)
  vals : ∀ k ∈ keys, ∀ e ∈ A, dataVal k.1 e.2 ∈ V k ∧ dataVal k.1 e.2 ≠ .inv
  ext : ∀ k ∈ keys, ∀ p, p ≠ [] → (∃ e ∈ A, p <+: e.1) → IsExt dcmp k.2 (valsOf k.1 (A.filter fun e => p.isPrefixOf e.1)) (m k p)

theorem nodeLt_eq {dcmp : U64 → U64 → Int} {A : List (List Lbl × Rec)} {keys : List (Nat × Bool)} {m : Nat × Bool → List Lbl → Val} {V : Nat × Bool → List Val}
    (hE : Extremes dcmp A keys m V) {pre : List Lbl} {ks : List SNode} (h : Level A pre ks) {a b : SNode} (ha : a ∈ ks) (hb : b ∈ ks)
    {k : Nat × Bool} (hk : k ∈ keys) :
    nodeLt dcmp k.1 k.2 a b = keyLt dcmp k.2 (m k (pre ++ [a.label])) (m k (pre ++ [b.label])) := by
  have spec : ∀ n ∈ ks, extVal (vlt dcmp) k.2 k.1 n ∈ V k ∧ m k (pre ++ [n.label]) ∈ V k ∧
      vlt dcmp (extVal (vlt dcmp) k.2 k.1 n) (m k (pre ++ [n.label])) = false ∧ vlt dcmp (m k (pre ++ [n.label])) (extVal (vlt dcmp) k.2 k.1 n) = false := by
    intro n hn
    have hf := FullL_mem h.full hn
    have hv : ∀ e ∈ entries pre n, dataVal k.1 e.2 ∈ V k ∧ dataVal k.1 e.2 ≠ .inv := fun e he => hE.vals k hk e ((h.node hn e).1 he).1
    obtain ⟨-, h1⟩ := extVal_spec (asc := k.2) (key := k.1) (hE.good k hk).swo pre n hf hv
    have hex : ∃ e ∈ A, pre ++ [n.label] <+: e.1 := by
      have hne : entries pre n ≠ [] := by
        cases n with
        | mk l rs ks' => rw [Full] at hf; exact entries_ne [] pre _ hf.1
      obtain ⟨e, he⟩ := List.exists_mem_of_ne_nil _ hne
      exact ⟨e, (h.node hn e).1 he⟩
    have h2 := hE.ext k hk (pre ++ [n.label]) (by simp) hex
    have hm : ∀ x, x ∈ valsOf k.1 (entries pre n) ↔ x ∈ valsOf k.1 (A.filter fun e => (pre ++ [n.label]).isPrefixOf e.1) := by
      intro x
      unfold valsOf
      rw [List.mem_map, List.mem_map]
      refine exists_congr fun e => and_congr_left fun _ => ?_
      rw [h.node hn e, List.mem_filter, List.isPrefixOf_iff_prefix]
    have hV : ∀ x ∈ valsOf k.1 (entries pre n), x ∈ V k := by
      intro x hx
      obtain ⟨e, he, rfl⟩ := List.mem_map.1 hx
      exact (hv e he).1
    refine ⟨hV _ h1.1, hV _ ((hm _).2 h2.1), h1.equiv h2 hm⟩
  obtain ⟨a1, a2, a3, a4⟩ := spec a ha
  obtain ⟨b1, b2, b3, b4⟩ := spec b hb
  unfold nodeLt keyLt
  cases hk2 : k.2 with
  | true =>
    rw [hk2] at a1 a3 a4 b1 b3 b4
    simp only [if_true]
    exact (hE.good k hk).swo.congr a1 a2 b1 b2 a3 a4 b3 b4
  | false =>
    rw [hk2] at a1 a3 a4 b1 b3 b4
    simp only [Bool.false_eq_true, if_false]
    rw [(hE.good k hk).conv _ a1 _ b1]
    exact (hE.good k hk).swo.congr b1 b2 a1 a2 b3 b4 a3 a4

theorem sortTs_fst (S : Sorter) (dcmp : U64 → U64 → Int) (keys : List (Nat × Bool)) (ks : List SNode) : (sortTs S dcmp keys ks).map Prod.fst = ks := by
  induction ks with
  | nil => rfl
  | cons k ks ih => rw [sortTs, List.map_cons, ih]

theorem sortTs_snd (S : Sorter) (dcmp : U64 → U64 → Int) (keys : List (Nat × Bool)) (ks : List SNode) :
    ∀ p ∈ sortTs S dcmp keys ks, p.2 = sortT S dcmp keys p.1 := by
  induction ks with
  | nil => intro p hp; cases hp
  | cons k ks ih =>
    intro p hp
    rw [sortTs] at hp
    rcases List.mem_cons.1 hp with rfl | hp
    · rfl
    · exact ih p hp

@[simp] theorem sortT_label (S : Sorter) (dcmp : U64 → U64 → Int) (keys : List (Nat × Bool)) (n : SNode) : (sortT S dcmp keys n).label = n.label := by
  cases n; rw [sortT]; rfl

@[simp] theorem sortRecs_label (S : Sorter) (dcmp : U64 → U64 → Int) (keys : List (Nat × Bool)) (n : SNode) : (n.sortRecs S dcmp keys).label = n.label := by
  cases n; rfl

/-- siblings in different subtrees of a level are the tops of the subtrees -/
theorem siblings_tops {pre p q : List Lbl} {l l' : Lbl} (hne : l ≠ l') (hp : pre ++ [l] <+: p) (hq : pre ++ [l'] <+: q) (hs : Siblings p q) :
    p = pre ++ [l] ∧ q = pre ++ [l'] := by
  obtain ⟨r, rfl⟩ := hp
  obtain ⟨r', rfl⟩ := hq
  obtain ⟨-, -, hd⟩ := hs
  rcases List.eq_nil_or_concat r with rfl | ⟨r0, x, rfl⟩
  · rcases List.eq_nil_or_concat r' with rfl | ⟨r1, y, rfl⟩
    · simp
    · simp only [List.append_nil, List.dropLast_concat] at hd
      rw [List.concat_eq_append, ← List.append_assoc, List.dropLast_concat] at hd
      have := congrArg List.length hd
      simp at this
  · rcases List.eq_nil_or_concat r' with rfl | ⟨r1, y, rfl⟩
    · rw [List.concat_eq_append, ← List.append_assoc, List.dropLast_concat, List.append_nil, List.dropLast_concat] at hd
      have := congrArg List.length hd
      simp at this
    · rw [List.concat_eq_append, List.concat_eq_append, ← List.append_assoc, ← List.append_assoc, List.dropLast_concat, List.dropLast_concat,
        List.append_assoc, List.append_assoc] at hd
      have := List.append_cancel_left hd
      simp only [List.cons_append, List.nil_append, List.cons.injEq] at this
      exact absurd this.1 hne

theorem mem_paths_prefix_sorted {S : Sorter} {dcmp : U64 → U64 → Int} {keys : List (Nat × Bool)} {pre : List Lbl} {n : SNode} {q : List Lbl}
    (h : q ∈ paths pre ((sortT S dcmp keys n).sortRecs S dcmp keys)) : pre ++ [n.label] <+: q := by
  have := paths_prefix pre _ q h
  simpa using this

theorem pairwise_flatMap {α β : Type} {R : β → β → Prop} {f : α → List β} : ∀ {l : List α}, (∀ x ∈ l, (f x).Pairwise R) →
    l.Pairwise (fun a b => ∀ p ∈ f a, ∀ q ∈ f b, R p q) → (l.flatMap f).Pairwise R
  | [], _, _ => List.Pairwise.nil
  | x :: l, h1, h2 => by
    rw [List.pairwise_cons] at h2
    rw [List.flatMap_cons, List.pairwise_append]
    refine ⟨h1 x (List.mem_cons_self ..), pairwise_flatMap (fun y hy => h1 y (List.mem_cons_of_mem _ hy)) h2.2, ?_⟩
    intro p hp q hq
    obtain ⟨y, hy, hq⟩ := List.mem_flatMap.1 hq
    exact h2.1 y hy p hp q hq

theorem forall₂_map_map {α β γ : Type} {R : β → γ → Prop} {f : α → β} {g : α → γ} : ∀ {l : List α}, (∀ x ∈ l, R (f x) (g x)) → List.Forall₂ R (l.map f) (l.map g)
  | [], _ => .nil
  | x :: l, h => .cons (h x (List.mem_cons_self ..)) (forall₂_map_map fun y hy => h y (List.mem_cons_of_mem _ hy))

theorem keyLt_swo {dcmp : U64 → U64 → Int} {V : List Val} (h : SWO (vlt dcmp) V) (asc : Bool) : SWO (keyLt dcmp asc) V := by
  cases asc with
  | true => exact h
  | false => exact h.flip

theorem SWO_congr {α : Type} {lt lt' : α → α → Bool} {l : List α} (h : SWO lt l) (he : ∀ a ∈ l, ∀ b ∈ l, lt' a b = lt a b) : SWO lt' l := by
  refine ⟨?_, ?_, ?_⟩
  · intro a ha; rw [he a ha a ha]; exact h.irrefl a ha
  · intro a ha b hb c hc; rw [he a ha b hb, he b hb c hc, he a ha c hc]; exact h.trans a ha b hb c hc
  · intro a ha b hb c hc
    rw [he a ha b hb, he b hb c hc, he a ha c hc, he b hb a ha, he c hc b hb, he c hc a ha]
    exact h.incomp a ha b hb c hc

theorem level_order (S : Sorter) {dcmp : U64 → U64 → Int} {A : List (List Lbl × Rec)} {keys : List (Nat × Bool)} {m : Nat × Bool → List Lbl → Val} {V : Nat × Bool → List Val}
    (hE : Extremes dcmp A keys m V) {pre : List Lbl} {ks : List SNode} (h : Level A pre ks)
    (ih : ∀ n ∈ ks, (paths pre (sortT S dcmp keys n)).Pairwise (SibLe (pathKeys dcmp keys m))) :
    (pathsL pre (sortTop S dcmp keys ks)).Pairwise (SibLe (pathKeys dcmp keys m)) := by
  unfold sortTop arrange
  rw [pathsL_eq_flatMap, List.flatMap_map, List.flatMap_map]
  set nk := keys.map fun k (a b : SNode × SNode) => nodeLt dcmp k.1 k.2 a.1 b.1 with hnk
  have hperm := sortAll_perm S nk (sortTs S dcmp keys ks)
  have hfst : ∀ p ∈ sortTs S dcmp keys ks, p.1 ∈ ks ∧ p.2 = sortT S dcmp keys p.1 := by
    intro p hp
    refine ⟨?_, sortTs_snd S dcmp keys ks p hp⟩
    have := List.mem_map_of_mem (f := Prod.fst) hp
    rw [sortTs_fst] at this; exact this
  have hsw : ∀ lt ∈ nk, SWO lt (sortTs S dcmp keys ks) := by
    intro lt hlt
    rw [hnk] at hlt
    obtain ⟨k, hk, rfl⟩ := List.mem_map.1 hlt
    have hmV : ∀ x ∈ (sortTs S dcmp keys ks).map fun p => m k (pre ++ [p.1.label]), x ∈ V k := by
      intro x hx
      obtain ⟨p, hp, rfl⟩ := List.mem_map.1 hx
      have hpk := (hfst p hp).1
      have hf := FullL_mem h.full hpk
      have hne : entries pre p.1 ≠ [] := by
        cases hn : p.1 with
        | mk l rs ks' => rw [hn, Full] at hf; exact entries_ne [] pre _ hf.1
      obtain ⟨e, he⟩ := List.exists_mem_of_ne_nil _ hne
      have h2 := hE.ext k hk (pre ++ [p.1.label]) (by simp) ⟨e, (h.node hpk e).1 he⟩
      obtain ⟨e', he', heq⟩ := List.mem_map.1 h2.1
      rw [← heq]
      exact (hE.vals k hk e' (List.mem_filter.1 he').1).1
    have h1 := SWO.comap (fun p : SNode × SNode => m k (pre ++ [p.1.label])) ((keyLt_swo (hE.good k hk).swo k.2).mono hmV)
    refine SWO_congr h1 ?_
    intro a ha b hb
    exact nodeLt_eq hE h (hfst a ha).1 (hfst b hb).1 hk
  obtain ⟨hso, -⟩ := sortAll_spec S nk (sortTs S dcmp keys ks) hsw
  have hnd : ((sortAll S nk (sortTs S dcmp keys ks)).map fun p => p.1.label).Nodup := by
    have := (hperm.map fun p => p.1.label).nodup_iff.2
    refine this ?_
    have e : (sortTs S dcmp keys ks).map (fun p => p.1.label) = ks.map SNode.label := by
      have := congrArg (List.map SNode.label) (sortTs_fst S dcmp keys ks)
      rw [List.map_map] at this; exact this
    rw [e]; exact h.nodup
  refine pairwise_flatMap ?_ ?_
  · intro p hp
    have hp' := hperm.mem_iff.1 hp
    simp only
    rw [(sortRecs_entries S dcmp keys pre p.2).2, (hfst p hp').2]
    exact ih p.1 (hfst p hp').1
  · have hpw : (sortAll S nk (sortTs S dcmp keys ks)).Pairwise fun a b => a.1.label ≠ b.1.label := by
      rw [List.Nodup, List.pairwise_map] at hnd; exact hnd
    have hmem : (sortAll S nk (sortTs S dcmp keys ks)).Pairwise fun a b => a ∈ sortTs S dcmp keys ks ∧ b ∈ sortTs S dcmp keys ks :=
      List.pairwise_of_forall_mem_list fun a ha b hb => ⟨hperm.mem_iff.1 ha, hperm.mem_iff.1 hb⟩
    refine ((hso.and hpw).and hmem).imp ?_
    rintro a b ⟨⟨hlex, hne⟩, hma, hmb⟩ p hp q hq hsib
    simp only at hp hq
    rw [(hfst a hma).2] at hp
    rw [(hfst b hmb).2] at hq
    obtain ⟨rfl, rfl⟩ := siblings_tops hne (mem_paths_prefix_sorted hp) (mem_paths_prefix_sorted hq) hsib
    refine LexLe_congr (fun p : SNode × SNode => pre ++ [p.1.label]) ?_ hlex
    rw [hnk, pathKeys, ← List.map_reverse]
    refine forall₂_map_map ?_
    intro k hk
    rw [List.mem_reverse] at hk
    exact ⟨nodeLt_eq hE h (hfst a hma).1 (hfst b hmb).1 hk, nodeLt_eq hE h (hfst b hmb).1 (hfst a hma).1 hk⟩

mutual
theorem sortT_order (S : Sorter) {dcmp : U64 → U64 → Int} {A : List (List Lbl × Rec)} {keys : List (Nat × Bool)} {m : Nat × Bool → List Lbl → Val} {V : Nat × Bool → List Val}
    (hE : Extremes dcmp A keys m V) (pre : List Lbl) : ∀ (n : SNode) (ks : List SNode), n ∈ ks → Level A pre ks →
    (paths pre (sortT S dcmp keys n)).Pairwise (SibLe (pathKeys dcmp keys m))
  | .mk l rs ks', ks, hn, h => by
    rw [sortT, paths, List.pairwise_cons]
    have hb := h.below hn
    refine ⟨?_, ?_⟩
    · intro q hq hs
      obtain ⟨k, -, hk⟩ := pathsL_prefix _ _ q hq
      have h1 := hk.length_le
      have h2 := congrArg List.length hs.2.2
      simp at h1 h2
      omega
    · exact level_order S hE hb (sortTs_order S hE (pre ++ [l]) ks' ks' (fun _ hx => hx) hb)
theorem sortTs_order (S : Sorter) {dcmp : U64 → U64 → Int} {A : List (List Lbl × Rec)} {keys : List (Nat × Bool)} {m : Nat × Bool → List Lbl → Val} {V : Nat × Bool → List Val}
    (hE : Extremes dcmp A keys m V) (pre : List Lbl) : ∀ (ls ks : List SNode), (∀ x ∈ ls, x ∈ ks) → Level A pre ks →
    ∀ n ∈ ls, (paths pre (sortT S dcmp keys n)).Pairwise (SibLe (pathKeys dcmp keys m))
  | [], _, _, _, n, hn => by cases hn
  | k :: ls, ks, hsub, h, n, hn => by
    rcases List.mem_cons.1 hn with e | hn
    · rw [e]; exact sortT_order S hE pre k ks (hsub _ (List.mem_cons_self ..)) h
    · exact sortTs_order S hE pre ls ks (fun x hx => hsub x (List.mem_cons_of_mem _ hx)) h n hn
end

theorem top_order (S : Sorter) {dcmp : U64 → U64 → Int} {A : List (List Lbl × Rec)} {keys : List (Nat × Bool)} {m : Nat × Bool → List Lbl → Val} {V : Nat × Bool → List Val}
    (hE : Extremes dcmp A keys m V) {ks : List SNode} (h : Level A [] ks) :
    (pathsL [] (sortTop S dcmp keys ks)).Pairwise (SibLe (pathKeys dcmp keys m)) :=
  level_order S hE h (sortTs_order S hE [] ks ks (fun _ hx => hx) h)

/-! ### the order of the records of a node -/

/-- "in this order if they belong to the same path" -/
def SameLe (ks : List (Rec → Rec → Bool)) (e f : List Lbl × Rec) : Prop := e.1 = f.1 → LexLe ks e.2 f.2

theorem recLt_eq {dcmp : U64 → U64 → Int} {V : List Val} (hV : GoodOrder dcmp V) {k : Nat × Bool} {d d' : Rec} (h : dataVal k.1 d ∈ V ∧ dataVal k.1 d ≠ .inv)
    (h' : dataVal k.1 d' ∈ V ∧ dataVal k.1 d' ≠ .inv) : recLt dcmp k.1 k.2 d d' = keyLt dcmp k.2 (dataVal k.1 d) (dataVal k.1 d') := by
  unfold recLt keyLt
  rw [dataVal_eq h.2, dataVal_eq h'.2]
  cases k.2 with
  | true => rfl
  | false => simp only [Bool.false_eq_true, if_false]; exact hV.conv _ h.1 _ h'.1

theorem node_rec_order (S : Sorter) {dcmp : U64 → U64 → Int} {V : Nat × Bool → List Val} {keys : List (Nat × Bool)} (hV : ∀ k ∈ keys, GoodOrder dcmp (V k)) {rs : List Rec}
    (h : ∀ k ∈ keys, ∀ r ∈ rs, dataVal k.1 r ∈ V k ∧ dataVal k.1 r ≠ .inv) :
    (sortAll S (keys.map fun k => recLt dcmp k.1 k.2) rs).Pairwise (LexLe (recKeys dcmp keys)) := by
  have hperm := sortAll_perm S (keys.map fun k => recLt dcmp k.1 k.2) rs
  obtain ⟨h1, -⟩ := sortAll_spec S (keys.map fun k => recLt dcmp k.1 k.2) rs (by
    intro lt hlt
    obtain ⟨k, hk, rfl⟩ := List.mem_map.1 hlt
    have := SWO.comap (l := rs) (dataVal k.1) ((keyLt_swo (hV k hk).swo k.2).mono (by
      intro x hx
      obtain ⟨r, hr, rfl⟩ := List.mem_map.1 hx
      exact (h k hk r hr).1))
    exact SWO_congr this fun a ha b hb => recLt_eq (hV k hk) (h k hk a ha) (h k hk b hb))
  have hmem : (sortAll S (keys.map fun k => recLt dcmp k.1 k.2) rs).Pairwise fun a b => a ∈ rs ∧ b ∈ rs :=
    List.pairwise_of_forall_mem_list fun a ha b hb => ⟨hperm.mem_iff.1 ha, hperm.mem_iff.1 hb⟩
  refine (h1.and hmem).imp ?_
  rintro a b ⟨hl, ha, hb⟩
  refine LexLe_congr (fun r : Rec => r) ?_ hl
  rw [recKeys, ← List.map_reverse]
  refine forall₂_map_map ?_
  intro k hk
  rw [List.mem_reverse] at hk
  exact ⟨recLt_eq (hV k hk) (h k hk a ha) (h k hk b hb), recLt_eq (hV k hk) (h k hk b hb) (h k hk a ha)⟩

theorem level_recs (S : Sorter) {dcmp : U64 → U64 → Int} (keys : List (Nat × Bool)) (pre : List Lbl) (ks : List SNode)
    (hn : (ks.map SNode.label).Nodup) (ih : ∀ n ∈ ks, (entries pre ((sortT S dcmp keys n).sortRecs S dcmp keys)).Pairwise (SameLe (recKeys dcmp keys))) :
    (entriesL pre ((arrange S dcmp keys (sortTs S dcmp keys ks)).map Prod.snd)).Pairwise (SameLe (recKeys dcmp keys)) := by
    have hfst : ∀ p ∈ sortTs S dcmp keys ks, p.1 ∈ ks ∧ p.2 = sortT S dcmp keys p.1 := by
      intro p hp
      refine ⟨?_, sortTs_snd S dcmp keys ks p hp⟩
      have := List.mem_map_of_mem (f := Prod.fst) hp
      rw [sortTs_fst] at this; exact this
    unfold arrange
    rw [entriesL_eq_flatMap, List.flatMap_map, List.flatMap_map]
    have hperm := sortAll_perm S (keys.map fun k (a b : SNode × SNode) => nodeLt dcmp k.1 k.2 a.1 b.1) (sortTs S dcmp keys ks)
    refine pairwise_flatMap ?_ ?_
    · intro p hp
      have hp' := hperm.mem_iff.1 hp
      simp only
      rw [(hfst p hp').2]
      exact ih p.1 (hfst p hp').1
    · have hnd : ((sortAll S (keys.map fun k (a b : SNode × SNode) => nodeLt dcmp k.1 k.2 a.1 b.1) (sortTs S dcmp keys ks)).map fun p => p.1.label).Nodup := by
        refine (hperm.map fun p => p.1.label).nodup_iff.2 ?_
        have e : (sortTs S dcmp keys ks).map (fun p => p.1.label) = ks.map SNode.label := by
          have := congrArg (List.map SNode.label) (sortTs_fst S dcmp keys ks)
          rw [List.map_map] at this; exact this
        rw [e]; exact hn
      have hmem : (sortAll S (keys.map fun k (a b : SNode × SNode) => nodeLt dcmp k.1 k.2 a.1 b.1) (sortTs S dcmp keys ks)).Pairwise
          fun a b => a ∈ sortTs S dcmp keys ks ∧ b ∈ sortTs S dcmp keys ks :=
        List.pairwise_of_forall_mem_list fun a ha b hb => ⟨hperm.mem_iff.1 ha, hperm.mem_iff.1 hb⟩
      rw [List.Nodup, List.pairwise_map] at hnd
      refine (hnd.and hmem).imp ?_
      rintro a b ⟨hne, hma, hmb⟩ e he f hf hef
      simp only at he hf
      rw [(hfst a hma).2] at he
      rw [(hfst b hmb).2] at hf
      have h1 := entries_prefix pre _ e he
      have h2 := entries_prefix pre _ f hf
      rw [← hef] at h2
      simp only [sortRecs_label, sortT_label] at h1 h2
      exact absurd (prefix_same h1 h2) hne
mutual
/-- the entries below the top of an arranged subtree are in order, for every node -/
theorem sortT_recs (S : Sorter) {dcmp : U64 → U64 → Int} {V : Nat × Bool → List Val} (keys : List (Nat × Bool)) (hV : ∀ k ∈ keys, GoodOrder dcmp (V k)) (pre : List Lbl) : ∀ (n : SNode), WF n →
    (∀ k ∈ keys, ∀ e ∈ entries pre n, dataVal k.1 e.2 ∈ V k ∧ dataVal k.1 e.2 ≠ .inv) →
    (entries pre ((sortT S dcmp keys n).sortRecs S dcmp keys)).Pairwise (SameLe (recKeys dcmp keys))
  | .mk l rs ks, hw, h => by
    rw [WF] at hw
    rw [sortT, SNode.sortRecs, entries, List.pairwise_append]
    refine ⟨?_, ?_, ?_⟩
    · rw [List.pairwise_map]
      refine (node_rec_order S (keys := keys) hV (rs := rs) ?_).imp (fun {a b} hab => fun _ => hab)
      intro k hk r hr
      exact h k hk (pre ++ [l], r) (by rw [entries]; exact List.mem_append_left _ (List.mem_map_of_mem hr))
    · exact level_recs S keys (pre ++ [l]) ks hw.1 (sortL_recs S keys hV (pre ++ [l]) ks ks (fun _ hx => hx) hw.2
        fun k hk e he => h k hk e (by rw [entries]; exact List.mem_append_right _ he))
    · intro a ha b hb hab
      obtain ⟨r, -, rfl⟩ := List.mem_map.1 ha
      obtain ⟨k, -, hk⟩ := entriesL_prefix _ _ b hb
      simp only at hab
      rw [← hab] at hk
      have := hk.length_le
      simp at this
theorem sortL_recs (S : Sorter) {dcmp : U64 → U64 → Int} {V : Nat × Bool → List Val} (keys : List (Nat × Bool)) (hV : ∀ k ∈ keys, GoodOrder dcmp (V k)) (pre : List Lbl) : ∀ (ls ks : List SNode),
    (∀ x ∈ ls, x ∈ ks) → WFL ks → (∀ k ∈ keys, ∀ e ∈ entriesL pre ks, dataVal k.1 e.2 ∈ V k ∧ dataVal k.1 e.2 ≠ .inv) →
    ∀ n ∈ ls, (entries pre ((sortT S dcmp keys n).sortRecs S dcmp keys)).Pairwise (SameLe (recKeys dcmp keys))
  | [], _, _, _, _, n, hn => by cases hn
  | k :: ls, ks, hsub, hw, h, n, hn => by
    rcases List.mem_cons.1 hn with e | hn
    · rw [e]; exact sortT_recs S keys hV pre k (WFL_mem hw (hsub _ (List.mem_cons_self ..)))
        fun k' hk e he => h k' hk e (mem_entriesL.2 ⟨k, hsub _ (List.mem_cons_self ..), he⟩)
    · exact sortL_recs S keys hV pre ls ks (fun x hx => hsub x (List.mem_cons_of_mem _ hx)) hw h n hn
end

end Verif.Query.Tree
