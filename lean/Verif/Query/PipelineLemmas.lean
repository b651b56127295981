import Verif.Query.PipelineSpec
import Verif.Props.Preproc
import Verif.Props.Select
/-!
# Growing databases do not change what a query means
-/
namespace Verif.Query.Pipe
open Verif Verif.Cali Verif.Query Verif.Query.Pre

/-- `D'` is `D` with more attributes -/
structure Ext (D D' : PDB) : Prop where
  keep : ∀ n a, D.attr n = some a → D'.attr n = some a
  new : ∀ n a, D'.attr n = some a → D.attr n = some a ∨ D.next ≤ a.id
  byId : ∀ i, i < D.next → D'.byId i = D.byId i
  next : D.next ≤ D'.next

theorem Ext.refl (D : PDB) : Ext D D := ⟨fun _ _ h => h, fun _ _ h => .inl h, fun _ _ => rfl, le_refl _⟩

theorem Ext.trans {A B C : PDB} (h : Ext A B) (g : Ext B C) : Ext A C := by
  refine ⟨fun n a x => g.keep n a (h.keep n a x), ?_, ?_, le_trans h.next g.next⟩
  · intro n a x
    rcases g.new n a x with y | y
    · exact h.new n a y
    · exact .inr (le_trans h.next y)
  · intro i hi
    rw [g.byId i (lt_of_lt_of_le hi h.next), h.byId i hi]

theorem Ext.create (D : PDB) (n : Str) (t : AttrType) (b : Bool) : Ext D (D.create n t b).1 := by
  refine ⟨fun m a h => attr_create_some h, ?_, ?_, ?_⟩
  · intro m a h
    by_cases hm : m = n
    · subst hm
      rw [attr_create_self] at h
      unfold PDB.create at h
      split at h
      · rename_i x hx
        left; rw [hx]; exact h
      · right
        simp at h
        subst h
        exact le_refl _
    · rw [attr_create_ne hm] at h
      exact .inl h
  · intro i hi
    unfold PDB.create
    split
    · rfl
    · unfold PDB.byId
      simp only [List.find?_append]
      have : ¬ D.next = i := by omega
      simp [this]
  · unfold PDB.create
    split
    · exact le_refl _
    · exact Nat.le_succ _

theorem attr_mem {D : PDB} {n : Str} {a : PAttr} (h : D.attr n = some a) : a ∈ D.attrs ∧ a.name = n := by
  unfold PDB.attr at h
  exact ⟨List.mem_of_find?_eq_some h, by simpa using List.find?_some h⟩

theorem byId_some_of_mem {D : PDB} {a : PAttr} (h : a ∈ D.attrs) : (D.byId a.id).isSome = true := by
  unfold PDB.byId
  rw [List.find?_isSome]
  exact ⟨a, h, by simp⟩

theorem byId_none_of_ge {D : PDB} (hw : D.WF) {i : Nat} (h : D.next ≤ i) : D.byId i = none := by
  unfold PDB.byId
  rw [List.find?_eq_none]
  intro a ha
  have := hw a ha
  simp
  omega

theorem Ext.nested {D D' : PDB} (h : Ext D D') {i : Nat} (hi : i < D.next) : D'.isNested i = D.isNested i := by
  unfold PDB.isNested; rw [h.byId i hi]

theorem IdsOk.mono {D D' : PDB} {r : List QEnt} (h : IdsOk D r) (hn : D.next ≤ D'.next) : IdsOk D' r :=
  ⟨h.1, fun x hx => lt_of_lt_of_le (h.2 x hx) hn⟩

theorem pairs_append (r s : List QEnt) : pairs (r ++ s) = pairs r ++ pairs s := by
  unfold pairs; rw [List.flatMap_append]

theorem IdsOk.snoc {D : PDB} {r : List QEnt} (h : IdsOk D r) {a : Nat} (ha : a < D.next) (v : Val) : IdsOk D (r ++ [.imm a v]) := by
  refine ⟨by simp [h.1], ?_⟩
  intro x hx
  rw [pairs_append, List.mem_append] at hx
  rcases hx with hx | hx
  · exact h.2 x hx
  · simp [pairs] at hx
    subst hx
    exact ha

/-! ### WHERE -/

theorem anyMatch_none {m : Nat → Val → Bool} {rec : List QEnt} (he : .ref [] ∉ rec) (h : ∀ x ∈ pairs rec, m x.1 x.2 = false) :
    anyMatch m rec = false := by
  have := anyMatch_pairs m rec he
  rw [Bool.eq_false_iff]
  intro hc
  obtain ⟨a, v, h1, h2⟩ := this.1 hc
  rw [h (a, v) h1] at h2
  cases h2

theorem passOne_stable {D D' : PDB} (hx : Ext D D') (hinv : D'.next ≤ invN) (dcmp : U64 → U64 → Int) (F : DblFmt) {r : List QEnt}
    (hr : IdsOk D r) (c : Cond) :
    (D'.sel dcmp F).passOne ((D'.sel dcmp F).clause c) r = (D.sel dcmp F).passOne ((D.sel dcmp F).clause c) r := by
  cases hd : D.attr c.name with
  | some a =>
    have h1 : (D.sel dcmp F).clause c = (D'.sel dcmp F).clause c := by
      simp [SelEnv.clause, PDB.sel, hd, hx.keep _ _ hd]
    rw [h1]; rfl
  | none =>
    cases hd' : D'.attr c.name with
    | none =>
      have h1 : (D.sel dcmp F).clause c = (D'.sel dcmp F).clause c := by
        simp [SelEnv.clause, PDB.sel, hd, hd']
      rw [h1]; rfl
    | some a =>
      have ha : D.next ≤ a.id := by
        rcases hx.new _ _ hd' with h | h
        · rw [hd] at h; cases h
        · exact h
      have h1 : (D.sel dcmp F).clause c = ⟨c.op, invN, .inv⟩ := by simp [SelEnv.clause, PDB.sel, hd]
      have h2 : (D'.sel dcmp F).clause c = ⟨c.op, a.id, fromString F a.ty c.value⟩ := by simp [SelEnv.clause, PDB.sel, hd']
      rw [h1, h2]
      have na : ∀ x ∈ pairs r, (x.1 == a.id) = false := by
        intro x hx'
        have := hr.2 x hx'
        simp; omega
      have ni : ∀ x ∈ pairs r, (x.1 == invN) = false := by
        intro x hx'
        have := hr.2 x hx'
        have := hx.next
        simp; omega
      unfold SelEnv.passOne
      cases c.op <;> simp only <;>
        first
        | rfl
        | (rw [anyMatch_none hr.1 (fun x hx' => by simp [na x hx']), anyMatch_none hr.1 (fun x hx' => by simp [ni x hx'])])

theorem pass_stable {D D' : PDB} (hx : Ext D D') (hinv : D'.next ≤ invN) (dcmp : U64 → U64 → Int) (F : DblFmt) {r : List QEnt}
    (hr : IdsOk D r) (cs : List Cond) : (D'.sel dcmp F).pass cs r = (D.sel dcmp F).pass cs r := by
  induction cs with
  | nil => rfl
  | cons c cs ih =>
    unfold SelEnv.pass
    rw [passOne_stable hx hinv dcmp F hr c, ih]

/-! ### LET -/

theorem inner_pairs {a : Nat} {e : QEnt} {v : Val} (h : inner a e = some v) {r : List QEnt} (he : e ∈ r) : (a, v) ∈ pairs r := by
  unfold inner at h
  have hm := List.mem_of_head? h
  simp only [List.mem_map, List.mem_filter, decide_eq_true_eq] at hm
  obtain ⟨⟨b, w⟩, ⟨h1, h2⟩, h3⟩ := hm
  simp at h2 h3
  subst h2 h3
  unfold pairs at h1 ⊢
  rw [List.mem_flatMap] at h1 ⊢
  obtain ⟨e', h4, h5⟩ := h1
  simp at h4
  subst h4
  exact ⟨e', he, h5⟩

theorem firstVal_pairs {r : List QEnt} {a : Nat} {v : Val} (h : FirstVal r a v) : (a, v) ∈ pairs r := by
  obtain ⟨pre, e, post, rfl, h, -⟩ := h
  exact inner_pairs h (by simp)

/-- looking up an attribute and a value -/
theorem lookup_stable {D D' : PDB} (hx : Ext D D') {r : List QEnt} (hr : IdsOk D r) {n : Str} {a : PAttr} {v : Val}
    (hv : (a.id, v) ∈ pairs r) : D.attr n = some a ↔ D'.attr n = some a := by
  constructor
  · exact hx.keep n a
  · intro h
    rcases hx.new n a h with h' | h'
    · exact h'
    · have := hr.2 _ hv
      simp at this
      omega

theorem has_stable {D D' : PDB} (hx : Ext D D') {r : List QEnt} (hr : IdsOk D r) (n : Str) (v : Val) : Has D r n v ↔ Has D' r n v := by
  unfold Has
  constructor
  · rintro ⟨a, h, hv⟩; exact ⟨a, hx.keep _ _ h, hv⟩
  · rintro ⟨a, h, hv⟩; exact ⟨a, (lookup_stable hx hr (firstVal_pairs hv)).2 h, hv⟩

theorem present_stable {D D' : PDB} (hx : Ext D D') {r : List QEnt} (hr : IdsOk D r) (ns : List Str) (vs : List Val) :
    Present D r ns vs ↔ Present D' r ns vs := by
  constructor <;> intro h <;> induction h with
  | nil => exact .nil
  | has h1 _ ih => exact .has (by first | exact (has_stable hx hr _ _).1 h1 | exact (has_stable hx hr _ _).2 h1) ih
  | skip h1 _ ih =>
    refine .skip ?_ ih
    rintro ⟨v, hv⟩
    first | exact h1 ⟨v, (has_stable hx hr _ _).2 hv⟩ | exact h1 ⟨v, (has_stable hx hr _ _).1 hv⟩

theorem pathLeaf_stable {D D' : PDB} (hx : Ext D D') {r : List QEnt} (hr : IdsOk D r) {e : QEnt} (he : e ∈ r) (v : Val) :
    PathLeaf D e v ↔ PathLeaf D' e v := by
  have hid : ∀ p, e = .ref p → ∀ x ∈ p, D'.isNested x.1 = D.isNested x.1 := by
    intro p hp x hxp
    refine hx.nested (hr.2 x ?_)
    unfold pairs
    rw [List.mem_flatMap]
    exact ⟨e, he, by rw [hp]; exact hxp⟩
  unfold PathLeaf
  constructor
  · rintro ⟨p1, a, p2, h1, h2, h3⟩
    refine ⟨p1, a, p2, h1, ?_, ?_⟩
    · rw [hid _ h1 (a, v) (by simp)]; exact h2
    · intro x hxp; rw [hid _ h1 x (by simp [hxp])]; exact h3 x hxp
  · rintro ⟨p1, a, p2, h1, h2, h3⟩
    refine ⟨p1, a, p2, h1, ?_, ?_⟩
    · rw [← hid _ h1 (a, v) (by simp)]; exact h2
    · intro x hxp; rw [← hid _ h1 x (by simp [hxp])]; exact h3 x hxp

theorem firstOfType_congr {G G' : QEnt → Val → Prop} {t : AttrType} {r : List QEnt} (h : ∀ e ∈ r, ∀ v, G e v ↔ G' e v) (v : Val) :
    FirstOfType G t r v ↔ FirstOfType G' t r v := by
  unfold FirstOfType
  constructor
  · rintro ⟨pre, e, post, rfl, h1, h2, h3⟩
    exact ⟨pre, e, post, rfl, (h e (by simp) v).1 h1, h2, fun e' he' w hw => h3 e' he' w ((h e' (by simp [he']) w).2 hw)⟩
  · rintro ⟨pre, e, post, rfl, h1, h2, h3⟩
    exact ⟨pre, e, post, rfl, (h e (by simp) v).2 h1, h2, fun e' he' w hw => h3 e' he' w ((h e' (by simp [he']) w).1 hw)⟩

theorem computes_stable {D D' : PDB} (hx : Ext D D') {r : List QEnt} (hr : IdsOk D r) (O : POps) (rt : AttrType) (op : LOp) (v : Val) :
    Computes O D rt r op v ↔ Computes O D' rt r op v := by
  cases op with
  | ratio n d s => simp only [Computes, has_stable hx hr]
  | scale t s => simp only [Computes, has_stable hx hr]
  | truncate t f =>
    simp only [Computes]
    constructor
    · rintro ⟨a, x, h1, h2, h3⟩; exact ⟨a, x, hx.keep _ _ h1, h2, h3⟩
    · rintro ⟨a, x, h1, h2, h3⟩; exact ⟨a, x, (lookup_stable hx hr (firstVal_pairs h2)).2 h1, h2, h3⟩
  | first ts => simp only [Computes, has_stable hx hr]
  | sum ts => simp only [Computes, present_stable hx hr]
  | leafPath =>
    simp only [Computes]
    exact firstOfType_congr (fun e he w => pathLeaf_stable hx hr he w) v
  | leaf t =>
    simp only [Computes]
    constructor
    · rintro ⟨a, h1, h2⟩; exact ⟨a, hx.keep _ _ h1, h2⟩
    · rintro ⟨a, h1, h2⟩
      refine ⟨a, ?_, h2⟩
      obtain ⟨pre, e, post, rfl, h3, -⟩ := h2
      exact (lookup_stable hx hr (inner_pairs h3 (by simp))).2 h1

theorem emit_ext (D : PDB) (k : KState) (n : Str) (t : AttrType) (v : Val) (r : List QEnt) : Ext D (emit D k n t v r).1 := by
  unfold emit
  split
  · exact Ext.refl D
  · exact Ext.create D n t false

theorem process_ext (O : POps) (meta_ : Nat → List (Nat × Val)) (L : LetDef) (D : PDB) (k : KState) (r : List QEnt) :
    Ext D (process O meta_ L D k r).1 := by
  unfold process
  split
  · dsimp only
    split
    · exact Ext.refl D
    · split
      · exact Ext.refl D
      · exact emit_ext ..
  · dsimp only
    split
    · exact Ext.refl D
    · exact emit_ext ..
  · split
    · dsimp only
      split
      · exact Ext.refl D
      · exact emit_ext ..
    · exact Ext.refl D
  · split
    · exact emit_ext ..
    · exact Ext.refl D
  · unfold sumEnd
    split
    · exact Ext.refl D
    · exact emit_ext ..
  · split
    · rw [(leafRun_fst ..).1]; exact Ext.refl D
    · dsimp only; rw [(leafRun_fst ..).1]; exact Ext.create ..
  · split
    · split
      · rw [(leafRun_fst ..).1]; exact Ext.refl D
      · exact Ext.refl D
    · split
      · exact Ext.refl D
      · dsimp only; rw [(leafRun_fst ..).1]; exact Ext.create ..
  · exact Ext.refl D

theorem preprocess_ext (O : POps) (meta_ : Nat → List (Nat × Val)) (dcmp : U64 → U64 → Int) (F : DblFmt) (ks : List (LetDef × KState)) :
    ∀ (D : PDB) (r : List QEnt), Ext D (preprocess O meta_ dcmp F ks D r).1 := by
  induction ks with
  | nil => intro D r; exact Ext.refl D
  | cons p ks ih =>
    intro D r
    obtain ⟨L, k⟩ := p
    unfold preprocess
    split
    · exact (process_ext O meta_ L D k r).trans (ih _ _)
    · exact ih _ _

/-- the LETs, seen from any later database -/
theorem chain_stable (O : POps) (meta_ : Nat → List (Nat × Val)) (dcmp : U64 → U64 → Int) (F : DblFmt) {Df : PDB} (hinv : Df.next ≤ invN)
    {Ls : List LetDef} {D : PDB} (hw : D.WF) (r : List QEnt) (hr : IdsOk D r)
    (hm : MetaFree meta_ (preprocess O meta_ dcmp F (configure Ls) D r).1 Ls)
    (hx : Ext (preprocess O meta_ dcmp F (configure Ls) D r).1 Df) :
    LetChain O dcmp F Ls Df r Df (preprocess O meta_ dcmp F (configure Ls) D r).2.2 ∧
      IdsOk (preprocess O meta_ dcmp F (configure Ls) D r).1 (preprocess O meta_ dcmp F (configure Ls) D r).2.2 := by
  induction Ls generalizing D r with
  | nil => exact ⟨.nil, hr⟩
  | cons L Ls ih =>
    have hxD := (preprocess_ext O meta_ dcmp F (configure (L :: Ls)) D r).trans hx
    simp only [configure, List.map_cons, preprocess] at hm hx ⊢
    split at hm
    · rename_i hp
      rw [if_pos hp] at hx ⊢
      obtain ⟨s1, s2, s3, s4, s5⟩ := process_same O meta_ hw (coh_new D L) r
      have hx1 := process_ext O meta_ L D (KState.new L.op) r
      have hx2 := preprocess_ext O meta_ dcmp F (configure Ls) (process O meta_ L D (KState.new L.op) r).1 (process O meta_ L D (KState.new L.op) r).2.2
      have hfree : ∀ n ∈ L.op.names, Free meta_ D n :=
        fun n hn a ha => hm L (List.mem_cons_self ..) n hn a (hx2.keep _ _ (hx1.keep _ _ ha))
      have hspec := process_new_spec O meta_ L hw r hfree
      have hids : IdsOk (process O meta_ L D (KState.new L.op) r).1 (process O meta_ L D (KState.new L.op) r).2.2 := by
        rcases hspec with ⟨a, v, h1, -, h3⟩ | ⟨-, h3⟩
        · rw [h3]
          exact (hr.mono hx1.next).snoc (s5 a (attr_mem h1).1) v
        · rw [h3]
          exact hr.mono hx1.next
      obtain ⟨c1, c2⟩ := ih s5 _ hids (fun L' hL' => hm L' (List.mem_cons_of_mem _ hL')) hx
      refine ⟨.cons ⟨grows_refl _ _, ?_⟩ c1, c2⟩
      rw [pass_stable hxD hinv dcmp F hr, if_pos hp]
      have hx3 : Ext (process O meta_ L D (KState.new L.op) r).1 Df := hx2.trans hx
      rcases hspec with ⟨a, v, h1, h2, h3⟩ | ⟨h2, h3⟩
      · exact .inl ⟨a, v, hx3.keep _ _ h1, (computes_stable hxD hr O _ _ _).1 h2, h3⟩
      · refine .inr ⟨?_, h3⟩
        rintro rt hrt ⟨v, hv⟩
        exact h2 rt (fun a ha => hrt a (hx3.keep _ _ ha)) ⟨v, (computes_stable hxD hr O _ _ _).2 hv⟩
    · rename_i hp
      rw [if_neg hp] at hx ⊢
      obtain ⟨c1, c2⟩ := ih hw r hr (fun L' hL' => hm L' (List.mem_cons_of_mem _ hL')) hx
      refine ⟨.cons ⟨grows_refl _ _, ?_⟩ c1, c2⟩
      rw [pass_stable hxD hinv dcmp F hr, if_neg hp]
      exact ⟨rfl, rfl⟩

end Verif.Query.Pipe
