import Verif.E2E.Final
/-!
# The report of a profile
-/
namespace Verif.E2E
open Verif Verif.Cali Verif.Query Verif.Query.Pre Verif.Query.Pipe Verif.Prof

/-! ## lists -/

theorem map_prefix {α β : Type} (f : α → β) : ∀ (P V : List α), (∀ x ∈ P, ∀ y ∈ V, f x = f y → x = y) → (P.map f <+: V.map f ↔ P <+: V) := by
  intro P
  induction P with
  | nil => intro V _; simp
  | cons x P ih =>
    intro V h
    cases V with
    | nil => simp
    | cons y V =>
      rw [List.map_cons, List.map_cons, List.cons_prefix_cons, List.cons_prefix_cons, ih V fun a ha b hb => h a (by simp [ha]) b (by simp [hb])]
      constructor
      · rintro ⟨a, b⟩; exact ⟨h x (by simp) y (by simp) a, b⟩
      · rintro ⟨rfl, b⟩; exact ⟨rfl, b⟩

theorem map_injOn {α β : Type} (f : α → β) : ∀ (P V : List α), (∀ x ∈ P, ∀ y ∈ V, f x = f y → x = y) → (P.map f = V.map f ↔ P = V) := by
  intro P
  induction P with
  | nil => intro V _; cases V <;> simp
  | cons x P ih =>
    intro V h
    cases V with
    | nil => simp
    | cons y V =>
      rw [List.map_cons, List.map_cons, List.cons.injEq, List.cons.injEq, ih V fun a ha b hb => h a (by simp [ha]) b (by simp [hb])]
      constructor
      · rintro ⟨a, b⟩; exact ⟨h x (by simp) y (by simp) a, b⟩
      · rintro ⟨rfl, b⟩; exact ⟨rfl, b⟩

theorem exists_map {α β : Type} (f : α → β) (p : α → Prop) (l : List β) (h : ∀ y ∈ l, ∃ x, p x ∧ f x = y) : ∃ m : List α, m.map f = l ∧ ∀ x ∈ m, p x := by
  induction l with
  | nil => exact ⟨[], rfl, by simp⟩
  | cons y l ih =>
    obtain ⟨m, h1, h2⟩ := ih fun y hy => h y (by simp [hy])
    obtain ⟨x, hx, e⟩ := h y (by simp)
    refine ⟨x :: m, by rw [List.map_cons, h1, e], ?_⟩
    intro z hz
    rcases List.mem_cons.1 hz with rfl | hz
    · exact hx
    · exact h2 z hz

theorem filter_eq_one {α : Type} [DecidableEq α] (P : α) (L : List α) (hn : L.Nodup) : (L.filter fun V => decide (P = V)) = if P ∈ L then [P] else [] := by
  induction L with
  | nil => rfl
  | cons V L ih =>
    obtain ⟨h1, h2⟩ := List.nodup_cons.1 hn
    rw [List.filter_cons, ih h2]
    by_cases e : P = V
    · subst e; simp [h1]
    · simp [e]

theorem foldl_ofNat (ns : List Nat) : ∀ a : Nat, ((ns.map (BitVec.ofNat 64)).foldl (· + ·) (BitVec.ofNat 64 a)) = BitVec.ofNat 64 (a + ns.sum) := by
  induction ns with
  | nil => intro a; simp
  | cons n ns ih =>
    intro a
    rw [List.map_cons, List.foldl_cons, ← BitVec.ofNat_add, ih, List.sum_cons]
    congr 1; omega

theorem f2_map_left {α β γ : Type} {R : β → γ → Prop} (f : α → β) {l : List α} {m : List γ} : List.Forall₂ R (l.map f) m ↔ List.Forall₂ (fun a c => R (f a) c) l m := by
  rw [List.forall₂_map_left_iff]

/-! ## the rows written -/

/-- the record written for the region path `P` -/
structure Wrow (E : Agg.Env) (S : Src) (t : MTree.Tree) (nm : Nat → Str) (rd : Agg.ResAttr) (w : U64) (P : MTree.PathL) (rep : List DEnt) (r : List DEnt) (l : List (Nat × U64)) :
    Prop where
  path : HasPath E t r P
  refs : ∀ i ∈ E.refNodes r, S.isImm i = false
  out : OutRec S (E.refNodes r) l rep
  nodup : (l.map Prod.fst).Nodup
  two : 2 ≤ l.length
  sum : (rd.sum, w) ∈ l
  attrs : ∀ x ∈ l, (∃ q, S.node x.1 = some ⟨8, .string (nm x.1), q⟩) ∧ ∃ A, Denotes S.node x.1 A ∧ A.attrType = .uint

variable {F : DblFmt} {S : Src} {db : DB}

theorem Wrow.recOK {E : Agg.Env} {t : MTree.Tree} {nm : Nat → Str} {rd : Agg.ResAttr} {w : U64} {P : MTree.PathL} {rep r : List DEnt} {l : List (Nat × U64)}
    (h : Wrow E S t nm rd w P rep r l) : S.RecOK F rep := by
  refine ⟨h.out.has, ?_, .inr ?_, ?_⟩
  · intro p hp
    rw [h.out.imms] at hp
    obtain ⟨x, hx, rfl⟩ := List.mem_map.1 hp
    obtain ⟨-, A, a1, a2⟩ := h.attrs x hx
    exact ⟨trivial, A, a1, a2.symm⟩
  · rw [h.out.imms]
    intro hc
    have := h.two
    rw [List.map_eq_nil_iff] at hc
    rw [hc] at this; simp at this
  · intro p hp
    rw [h.out.imms] at hp
    have := congrArg List.length hp
    have h2 := h.two
    simp at this
    omega

theorem Wrow.corr {E : Agg.Env} {t : MTree.Tree} {nm : Nat → Str} {rd : Agg.ResAttr} {w : U64} {P : MTree.PathL} {rep r r' : List DEnt} {l : List (Nat × U64)}
    (h : Wrow E S t nm rd w P rep r l) (hs : SameRec S db (S.refsOf rep, S.immsOf rep) r') : ∃ j, Corr S db rd.sum j := by
  obtain ⟨r1, r2, e, h1, h2⟩ := hs
  simp only at h2
  rw [h.out.imms] at h2
  have hf := List.forall₂_iff_get.1 h2
  have hx' : (rd.sum, Cali.Val.uint w) ∈ l.map fun x => (x.1, Cali.Val.uint x.2) := List.mem_map.2 ⟨_, h.sum, rfl⟩
  obtain ⟨i, hi, e⟩ := List.mem_iff_getElem.1 hx'
  obtain ⟨A, j, a1, a2, a3, a4⟩ := hf.2 i hi (by rw [← hf.1]; exact hi)
  simp only [List.get_eq_getElem, e] at a1
  exact ⟨j, A, a1, a3⟩

section
variable {conv : Verif.Val → Cali.Val} {nm : Nat → Str} {t : MTree.Tree} {I : Ids} {info : Agg.Info} {rd : Agg.ResAttr} {th : Nat} {st : MTree.PathL} {h : List (Nat × RT.Op)}

theorem rowsWritten (M : Metadata F S conv nm t I info rd th st h) {E : Agg.Env} {rc : Agg.ResAttr} (O : Agg.DblOps) (hi : MTree.Inv t) (hE : EnvOf E t)
    (ho : InfoOk E I info rd rc) {recs : List (List DEnt)} (hf : List.Forall₂ (Says E t I) recs (stays th st 0 h)) {reps : List (List DEnt)}
    {Ys : List (MTree.PathL × Nat × Bool)} (hY : List.Forall₂ (Says E t I) reps Ys) (hsub : ∀ y ∈ Ys, y ∈ stays th st 0 h) :
    List.Forall₂ (fun P rep => ∃ r l, Wrow E S t nm rd (BitVec.ofNat 64 (spent th P st 0 h)) P rep r l) (Ys.map Prod.fst)
      (reps.mapIdx fun i r => E.report (Agg.kernStats O) info recs r i) := by
  have g := List.forall₂_iff_get.1 hY
  apply List.forall₂_iff_get.2
  refine ⟨by simp [g.1], ?_⟩
  intro i h1 h2
  have hi1 : i < Ys.length := by simpa using h1
  have hi2 : i < reps.length := by rw [g.1]; exact hi1
  simp only [List.get_eq_getElem, List.getElem_map, List.getElem_mapIdx]
  have hs := g.2 i hi2 hi1
  simp only [List.get_eq_getElem] at hs
  have hp := hs.path
  have hmem := hsub _ (List.getElem_mem hi1)
  have hne : atP (Ys[i]).1 (stays th st 0 h) ≠ [] := by
    intro hc
    have : Ys[i] ∈ atP (Ys[i]).1 (stays th st 0 h) := List.mem_filter.2 ⟨hmem, by simp⟩
    rw [hc] at this; simp at this
  have hids : ∀ i ∈ resIds (info.aggr.zip info.res) ++ [info.countA, info.slotA], S.isImm i = true := by
    intro i hi
    obtain ⟨⟨q, hq⟩, -⟩ := M.result i hi
    simp [Src.isImm, hq]
  have hrefs : ∀ k ∈ E.refNodes reps[i], S.isImm k = false ∧ (S.node k).isSome := by
    intro k hk
    have hka : E.isAttr k = false := by
      have : ∀ r : List DEnt, k ∈ E.refNodes r → E.isAttr k = false := by
        intro r
        induction r with
        | nil => intro h; simp [Agg.Env.refNodes] at h
        | cons e r ih =>
          intro h
          simp only [Agg.Env.refNodes] at h
          split at h
          · split at h
            · exact ih h
            · rename_i hna
              rcases List.mem_cons.1 h with rfl | h
              · simpa using hna
              · exact ih h
          · exact ih h
      exact this _ hk
    rcases hp with ⟨-, hz⟩ | ⟨n, hne, hz, hpp⟩
    · rw [hz] at hk; simp at hk
    · rw [hz, List.mem_singleton] at hk
      subst hk
      have hlive := hpp.live
      have hnr : n ≠ .root := by
        rintro rfl; exact hne (hpp.fun .root)
      cases n with
      | root => exact absurd rfl hnr
      | cell b c =>
        obtain ⟨r, hr⟩ : ∃ r, t.get? (.cell b c) = some r := by
          generalize hz : (Ys[i]).1 = z at hpp
          cases hpp with
          | cell hr _ => exact ⟨_, hr⟩
        have hid : t.idOf (.cell b c) = r.id := by simp [MTree.Tree.idOf, hr]
        rw [hE _ hlive hnr] at hka
        have ha : t.attrOf (.cell b c) = r.attr := by simp [MTree.Tree.attrOf, hr]
        rw [ha] at hka
        have hn := M.tree _ _ hr
        rw [hid]
        refine ⟨?_, by rw [hn]; rfl⟩
        simp only [Src.isImm, hn]
        exact hka
  obtain ⟨l, a1, a2, a3, a4⟩ := report_out O hi ho M.aggr hf hp hne i hids hrefs
  rw [spent_eq] at a4
  exact ⟨_, l, hp, fun k hk => (hrefs k hk).1, a1, a2.nodup ho.nodup, a3, a4, fun x hx => M.result _ (a2.subset (List.mem_map_of_mem hx))⟩

/-! ## the database -/

theorem target_ok (M : Metadata F S conv nm t I info rd th st h) (ok : db.OK) (hext : DB.init.Ext db) (horig : Orig S DB.init.nodes.length db) {j : Nat}
    (hj : Corr S db rd.sum j) {A : Deep} (hA : Denotes S.node rd.sum A) (hn : ∃ q, S.node rd.sum = some ⟨8, .string (nm rd.sum), q⟩) :
    DbOk (pdbOf db) ⟨j, T, A.attrType, decide (A.attrProp &&& 256#32 ≠ 0)⟩ := by
  obtain ⟨q, hq⟩ := hn
  rw [M.sum] at hq
  have hmem := hj.attr ok hA hq
  refine ⟨pdb_wf, ?_, ?_, ?_⟩
  · unfold PDB.attr
    cases hfd : (pdbOf db).attrs.find? fun a => decide (a.name = T) with
    | none =>
      have := List.find?_eq_none.1 hfd _ hmem
      exact absurd (decide_eq_true rfl) this
    | some b =>
      have h1 := List.mem_of_find?_eq_some hfd
      have h2 : b.name = T := by have := List.find?_some hfd; exact of_decide_eq_true this
      obtain ⟨i, q', c1, c2⟩ := from_source hext horig T_ne.1 (fun m hm h8 => (init_names m hm h8).1) h1 h2
      have := M.uniq i rd.sum _ _ c2 hq rfl rfl rfl
      subst this
      rw [pdb_uniq h1 hmem (c1.fun ok hj)]
  · apply attr_none
    intro a ha hc
    obtain ⟨i, q', c1, c2⟩ := from_source hext horig T_ne.2.1 (fun m hm h8 => (init_names m hm h8).2.1) ha hc
    exact (M.other i _ _ c2).1 rfl
  · apply attr_none
    intro a ha hc
    obtain ⟨i, q', c1, c2⟩ := from_source hext horig T_ne.2.2 (fun m hm h8 => (init_names m hm h8).2.2) ha hc
    exact (M.other i _ _ c2).2 rfl

theorem meta_ok (Q : Pipe.Env) (ok : db.OK) : MetaOk (envOf Q db) (pdbOf db) := by
  intro b x hx
  exact .inl (pathUp_lt ok _ _ x hx)

/-! ## names -/

theorem nameIn_D2 {D : PDB} {ta : PAttr} {a : PAttr} (hb : D.byId a.id = some a) : nameIn (D2 D ta) a.id = some a.name := by
  unfold nameIn
  have : (D2 D ta).byId a.id = some a := by
    unfold PDB.byId D2 at *
    simp only [List.append_assoc, List.find?_append, hb, Option.some_or]
  rw [this]; rfl

theorem nameIn_new {D : PDB} {ta : PAttr} (hw : ∀ a ∈ D.attrs, a.id < D.next) :
    nameIn (D2 D ta) D.next = some (str "sum#sum#time.duration.ns") ∧ nameIn (D2 D ta) (D.next + 1) = some (str "inclusive#sum#time.duration.ns") := by
  have h0 : ∀ k, D.next ≤ k → D.attrs.find? (fun a => decide (a.id = k)) = none := by
    intro k hk
    rw [List.find?_eq_none]
    intro a ha
    have := hw a ha
    simp; omega
  constructor
  · unfold nameIn PDB.byId D2
    simp only [List.append_assoc, List.find?_append, h0 _ (Nat.le_refl _), Option.none_or, List.find?_cons, sumA, decide_true, Option.some_or, Option.map_some]
    exact congrArg some (by decide +kernel)
  · unfold nameIn PDB.byId D2
    have : decide ((sumA D ta).id = D.next + 1) = false := by simp [sumA]
    simp only [List.append_assoc, List.find?_append, h0 _ (Nat.le_succ _), Option.none_or, List.find?_cons, this, inclA, decide_true, List.find?_nil, Option.map_some]
    exact congrArg some (by decide +kernel)

end

end Verif.E2E
