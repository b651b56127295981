import Verif.E2E.View
/-!
# From the rows of a profile to the rows of the report
-/
namespace Verif.E2E
open Verif Verif.Cali Verif.Query Verif.Query.Pre Verif.Query.Pipe Verif.Prof

/-! ## times -/

theorem sum_if (st : MTree.PathL) (d : Nat) (L : List MTree.PathL) (hn : L.Nodup) (p : MTree.PathL → Bool) :
    ((L.filter p).map fun V => if st = V then d else 0).sum = if st ∈ L ∧ p st = true then d else 0 := by
  induction L with
  | nil => simp
  | cons V L ih =>
    obtain ⟨h1, h2⟩ := List.nodup_cons.1 hn
    have ih := ih h2
    rw [List.filter_cons]
    by_cases e : st = V
    · subst e
      have h0 : ¬ (st ∈ L ∧ p st = true) := fun h => h1 h.1
      rw [if_neg h0] at ih
      cases hp : p st with
      | true => simp [hp, ih]
      | false => simp [hp, ih]
    · have : (st ∈ V :: L ∧ p st = true) ↔ (st ∈ L ∧ p st = true) := by simp [e]
      simp only [this, ← ih]
      split
      · simp [e]
      · rfl

theorem sum_add {α : Type} (f g : α → Nat) (l : List α) : (l.map fun x => f x + g x).sum = (l.map f).sum + (l.map g).sum := by
  induction l with
  | nil => rfl
  | cons a l ih => simp only [List.map_cons, List.sum_cons, ih]; omega

/-- the inclusive time is the sum of the times of the paths -/
theorem within_sum (th : Nat) (P : MTree.PathL) (L : List MTree.PathL) (hn : L.Nodup) (h : List (Nat × RT.Op)) : ∀ st prev, (∀ V ∈ visits th st h, V ∈ L) →
    ((L.filter fun V => decide (P <+: V)).map fun V => spent th V st prev h).sum = within th P st prev h := by
  induction h with
  | nil => intro st prev _; simp [spent, within]
  | cons y h ih =>
    obtain ⟨t, op⟩ := y
    intro st prev hL
    simp only [spent, within]
    by_cases e : op.thread = th
    · simp only [if_pos e]
      have hv : ∀ V ∈ visits th st ((t, op) :: h), V ∈ L := hL
      simp only [visits, if_pos e] at hv
      rw [sum_add, sum_if st _ L hn, ih _ _ fun V hV => hv V (by simp [hV])]
      have : st ∈ L := hv st (by simp)
      simp [this]
    · simp only [if_neg e]
      have hv : ∀ V ∈ visits th st ((t, op) :: h), V ∈ L := hL
      simp only [visits, if_neg e] at hv
      exact ih _ _ hv

theorem within_lt (th : Nat) (P : MTree.PathL) (h : List (Nat × RT.Op)) : ∀ st prev, Times prev h → within th P st prev h + prev < 2 ^ 64 := by
  induction h with
  | nil => intro st prev hT; simpa [within, Times] using hT
  | cons y h ih =>
    obtain ⟨t, op⟩ := y
    intro st prev hT
    simp only [Times] at hT
    simp only [within]
    split
    · have := ih (after st op) t hT.2
      split <;> omega
    · have : ∀ (h : List (Nat × RT.Op)) st a b, a ≤ b → within th P st b h ≤ within th P st a h := by
        intro h
        induction h with
        | nil => intro st a b _; simp [within]
        | cons y h ih =>
          obtain ⟨t, op⟩ := y
          intro st a b hab
          simp only [within]
          split
          · split <;> omega
          · exact ih _ _ _ hab
      -- prev ≤ t: bound with prev
      have hT' : Times prev h := by
        have mono : ∀ (h : List (Nat × RT.Op)) a b, a ≤ b → Times b h → Times a h := by
          intro h
          cases h with
          | nil => intro a b hab hb; simp only [Times] at *; omega
          | cons y h => intro a b hab hb; simp only [Times] at *; exact ⟨by omega, hb.2⟩
        exact mono h prev t hT.1 hT.2
      exact ih st prev hT'

/-! ## a record of the profile, read back -/

theorem pathUp_lt {db : DB} (ok : db.OK) (fuel : Nat) : ∀ o, ∀ x ∈ pathUp db.nodes fuel o, x.1 < db.nodes.length := by
  induction fuel with
  | zero => intro o x hx; cases o <;> simp [pathUp] at hx
  | succ k ih =>
    intro o x hx
    cases o with
    | none => simp [pathUp] at hx
    | some i =>
      simp only [pathUp] at hx
      split at hx
      · simp at hx
      · rename_i n hn
        rcases List.mem_cons.1 hx with rfl | hx
        · have hi := (List.getElem?_eq_some_iff.1 hn).1
          by_cases h12 : 12 ≤ i
          · have := (ok.wf i n hn h12).1
            simp only; omega
          · rw [ok.bootAt (by omega)] at hn
            have hl := ok.len
            rcases boot_attrs i (by omega) n hn with e | e <;> simp only <;> omega
        · exact ih _ x hx

variable {F : DblFmt} {S : Src} {db : DB}

theorem imms_entQ {imms : List (Nat × Cali.Val)} {r2 : List DEnt} (ok : db.OK) (h : List.Forall₂ (SameImm S db) imms r2)
    (hi : ∀ p ∈ imms, S.isImm p.1 = true) : r2.map (entQ db) = imms.map fun p => .imm (cOf S db p.1) p.2 := by
  induction h with
  | nil => rfl
  | @cons p e imms r2 h1 _ ih =>
    rw [List.map_cons, List.map_cons, ih fun p hp => hi p (by simp [hp])]
    congr 1
    obtain ⟨A, j, a1, a2, a3, a4⟩ := h1
    have hc : Corr S db p.1 j := ⟨A, a1, a3⟩
    rw [cOf_eq ok hc]
    have : (db.attribute? j).isSome = true := by
      have h8 := hi p (by simp)
      unfold Src.isImm at h8
      obtain ⟨n, hn⟩ := a1.node_some
      rw [hn] at h8
      have := (a1.isOf_iff hn 8 (by omega)).2 (of_decide_eq_true h8)
      rcases DB.OK.attribute? a3 with h' | h'
      · rw [h'.1]; rfl
      · exact absurd this h'.2
    simp only [entQ, a2, DB.isImm, this, if_true, a4]

theorem ref_entQ {i : Nat} {e : DEnt} (h : SameRef S db i e) (hi : S.isImm i = false) :
    ∃ D j, Denotes S.node i D ∧ Denotes db.node? j D ∧ entQ db e = .ref (pathUp db.nodes (j + 1) (some j)) := by
  obtain ⟨D, n, j, d1, d2, d3, d4, d5⟩ := h
  refine ⟨D, j, d1, d4, ?_⟩
  have : (db.attribute? j).isSome = false := by
    unfold Src.isImm at hi
    rw [d2] at hi
    rcases DB.OK.attribute? d4 with h' | h'
    · exact absurd ((d1.isOf_iff d2 8 (by omega)).1 h'.2) (of_decide_eq_false hi)
    · rw [h'.1]; rfl
  simp [entQ, d3, DB.isImm, this]

theorem filterMap_one (l : List (Nat × U64)) (hn : (l.map Prod.fst).Nodup) {a : Nat} {w : U64} (hm : (a, w) ∈ l) (g : Nat → Nat) (b : Nat)
    (hg : ∀ x ∈ l, g x.1 = b ↔ x.1 = a) : (l.filterMap fun x => if g x.1 = b then some (Cali.Val.uint x.2) else none) = [.uint w] := by
  induction l with
  | nil => simp at hm
  | cons x l ih =>
    rw [List.map_cons] at hn
    obtain ⟨h1, h2⟩ := List.nodup_cons.1 hn
    rw [List.filterMap_cons]
    rcases List.mem_cons.1 hm with e | e
    · subst e
      have : g a = b := (hg (a, w) (by simp)).2 rfl
      simp only [this, if_true]
      congr 1
      apply List.filterMap_eq_nil_iff.2
      intro y hy
      have : ¬ g y.1 = b := fun hc => h1 (List.mem_map.2 ⟨y, hy, (hg y (by simp [hy])).1 hc⟩)
      rw [if_neg this]
    · have : ¬ g x.1 = b := fun hc => h1 (List.mem_map.2 ⟨_, e, ((hg x (by simp)).1 hc).symm⟩)
      simp only [this, if_false]
      exact ih h2 e fun y hy => hg y (by simp [hy])

/-- the path of a record, with the attributes of the database -/
noncomputable def pathF (S : Src) (db : DB) (conv : Verif.Val → Cali.Val) (P : MTree.PathL) : List (Nat × Cali.Val) := P.map fun x => (cOf S db x.1, conv x.2)

theorem good_of {E : Agg.Env} {t : MTree.Tree} {conv : Verif.Val → Cali.Val} (ok : db.OK)
    (htree : ∀ p r, t.get? p = some r → S.node r.id = some ⟨r.attr, conv r.val, if r.parent = .root then none else some (t.idOf r.parent)⟩)
    (hu : ∀ i j n m, S.node i = some n → S.node j = some m → n.attr = 8 → m.attr = 8 → n.data = m.data → i = j)
    {r rep r' : List DEnt} {P : MTree.PathL} {l : List (Nat × U64)} {a : Nat} {w : U64} {ta : PAttr}
    (hP : HasPath E t r P) (hr : ∀ i ∈ E.refNodes r, S.isImm i = false) (ho : OutRec S (E.refNodes r) l rep) (hs : SameRec S db (S.refsOf rep, S.immsOf rep) r')
    (hn : (l.map Prod.fst).Nodup) (ha : (a, w) ∈ l) (hl : ∀ x ∈ l, ∃ n q, S.node x.1 = some ⟨8, .string n, q⟩) (hta : Corr S db a ta.id)
    (hreg : ∀ x ∈ P, (∃ n q, S.node x.1 = some ⟨8, .string n, q⟩) ∧ ∃ A, Denotes S.node x.1 A ∧ A.attrProp &&& 256#32 ≠ 0#32) :
    Good (pdbOf db) ta (r'.map (entQ db)) (pathF S db conv P).reverse w ∧ ∀ x ∈ P, Corr S db x.1 (cOf S db x.1) := by
  obtain ⟨r1, r2, e, h1, h2⟩ := hs
  simp only at h1 h2
  rw [ho.refs] at h1
  have himm : ∀ p ∈ S.immsOf rep, S.isImm p.1 = true := by
    intro p hp
    rw [ho.imms] at hp
    obtain ⟨x, hx, rfl⟩ := List.mem_map.1 hp
    obtain ⟨n, q, hn⟩ := hl x hx
    simp [Src.isImm, hn]
  have e2 := imms_entQ ok h2 himm
  rw [ho.imms, List.map_map] at e2
  have hcl : ∀ x ∈ l, Corr S db x.1 (cOf S db x.1) := by
    intro x hx
    have hf := List.forall₂_iff_get.1 h2
    have hx' : (x.1, Cali.Val.uint x.2) ∈ S.immsOf rep := by rw [ho.imms]; exact List.mem_map.2 ⟨x, hx, rfl⟩
    obtain ⟨i, hi, e⟩ := List.mem_iff_getElem.1 hx'
    obtain ⟨A, j, a1, a2, a3, a4⟩ := hf.2 i hi (by rw [← hf.1]; exact hi)
    simp only [List.get_eq_getElem, e] at a1
    have hc : Corr S db x.1 j := ⟨A, a1, a3⟩
    rw [cOf_eq ok hc]; exact hc
  have ea : cOf S db a = ta.id := cOf_eq ok hta
  -- the reference
  have href : ∃ q : List QEnt, r1.map (entQ db) = q ∧ (q = if P = [] then [] else [.ref (pathF S db conv P).reverse]) ∧ ∀ x ∈ P, Corr S db x.1 (cOf S db x.1) := by
    rcases hP with ⟨rfl, hz⟩ | ⟨n, hne, hz, hp⟩
    · rw [hz] at h1
      cases h1
      exact ⟨[], rfl, by simp, by simp⟩
    · rw [hz] at h1
      cases h1 with
      | cons g1 g2 =>
        cases g2
        obtain ⟨D, j, d1, d2, d3⟩ := ref_entQ g1 (hr _ (by rw [hz]; simp))
        obtain ⟨p1, p2⟩ := path_up ok htree hp hne (fun x hx => (hreg x hx).2) d1 d2
        refine ⟨_, rfl, ?_, p2⟩
        rw [if_neg hne, List.map_cons, List.map_nil, d3, p1 _ (Nat.lt_succ_self j)]
        simp [pathF]
  obtain ⟨q, e1, hq, hc⟩ := href
  have er : r'.map (entQ db) = q ++ l.map fun x => .imm (cOf S db x.1) (.uint x.2) := by
    rw [e, List.map_append, e1, e2]; rfl
  refine ⟨⟨?_, ?_, ?_, ?_⟩, hc⟩
  · rw [er, List.flatMap_append]
    have z : ∀ f : QEnt → List (Nat × Cali.Val), (∀ a v, f (.imm a v) = []) → (l.map fun x => QEnt.imm (cOf S db x.1) (.uint x.2)).flatMap f = [] := by
      intro f hf
      rw [List.flatMap_eq_nil_iff]
      intro y hy
      obtain ⟨x, hx, rfl⟩ := List.mem_map.1 hy
      exact hf _ _
    rw [z _ (fun _ _ => rfl), List.append_nil, hq]
    by_cases hne : P = []
    · rw [if_pos hne, hne]; rfl
    · rw [if_neg hne]; simp
  · intro x hx
    rw [List.mem_reverse] at hx
    obtain ⟨y, hy, rfl⟩ := List.mem_map.1 hx
    obtain ⟨⟨n, q', hn⟩, A, hA, hne⟩ := hreg y hy
    have := byId_of_mem ((hc y hy).attr ok hA hn)
    simp only at this ⊢
    unfold PDB.isNested
    rw [this]
    simpa using hne
  · rw [er, List.filterMap_append]
    have z : ∀ f : QEnt → Option Cali.Val, (∀ p, f (.ref p) = none) → q.filterMap f = [] := by
      intro f hf
      rw [hq]
      split
      · rfl
      · simp [hf]
    rw [z _ (fun _ => rfl), List.nil_append, List.filterMap_map]
    refine filterMap_one l hn ha (cOf S db) ta.id ?_
    intro x hx
    rw [← ea]
    constructor
    · intro hxx
      obtain ⟨n, q1, hn1⟩ := hl x hx
      obtain ⟨m, q2, hn2⟩ := hl _ ha
      have c1 := hcl x hx
      rw [hxx] at c1
      have c2 := hcl _ ha
      exact c1.inj hu c2 hn1 hn2 rfl rfl
    · intro hxx; rw [hxx]
  · constructor
    · rw [er]
      intro hm
      rcases List.mem_append.1 hm with hm | hm
      · rw [hq] at hm
        split at hm
        · simp at hm
        · rename_i hne
          simp [pathF] at hm
          exact hne hm
      · obtain ⟨x, hx, hh⟩ := List.mem_map.1 hm
        cases hh
    · rw [er]
      intro x hx
      simp only [Query.pairs, List.flatMap_append, List.mem_append] at hx
      show x.1 < db.nodes.length
      rcases hx with hx | hx
      · rw [hq] at hx
        split at hx
        · simp at hx
        · simp only [List.flatMap_cons, List.flatMap_nil, List.append_nil, List.mem_reverse] at hx
          obtain ⟨y, hy, rfl⟩ := List.mem_map.1 hx
          exact (hc y hy).lt
      · obtain ⟨y, hy, hx⟩ := List.mem_flatMap.1 hx
        obtain ⟨z, hz, rfl⟩ := List.mem_map.1 hy
        simp only [List.mem_singleton] at hx
        subst hx
        exact (hcl z hz).lt

end Verif.E2E
