import Verif.Capi.CallsSpec
import Verif.Attr.Lemmas
import Verif.Props.Attr
import Verif.Props.Presets
import Verif.Runtime.AbsLemmas
import Mathlib.Data.List.Induction
namespace Verif.CApi
open Verif.MTree Verif.RT Verif.AttrReg

/-! ## lists of named values -/

/-- the list with ids for names -/
def toIds (f : Name → Nat) (l : Vals) : PathL := l.map fun e => (f e.1, e.2)

/-- `f` tells the names in `K` apart -/
def InjOn (f : Name → Nat) (K : Name → Prop) : Prop := ∀ n m, K n → K m → f n = f m → n = m

theorem dropLatest_snoc (n : Name) (l : Vals) (e : Name × Val) :
    dropLatest n (l ++ [e]) = if e.1 = n then l else dropLatest n l ++ [e] := by
  induction l with
  | nil => by_cases h : e.1 = n <;> simp [dropLatest, h]
  | cons x l ih =>
    rw [List.cons_append, dropLatest]
    by_cases h : e.1 = n
    · rw [if_neg (fun c => c.2 e (by simp) h), ih, if_pos h, if_pos h]
    · rw [ih, if_neg h, if_neg h]
      by_cases hx : x.1 = n ∧ ∀ y ∈ l, y.1 ≠ n
      · rw [if_pos ⟨hx.1, by
          intro y hy
          rcases List.mem_append.1 hy with hy | hy
          · exact hx.2 y hy
          · rw [List.mem_singleton.1 hy]; exact h⟩, dropLatest, if_pos hx]
      · rw [if_neg (fun c => hx ⟨c.1, fun y hy => c.2 y (by simp [hy])⟩), dropLatest, if_neg hx, List.cons_append]

theorem latest_snoc (n : Name) (l : Vals) (e : Name × Val) : latest n (l ++ [e]) = if e.1 = n then some e.2 else latest n l := by
  unfold latest
  rw [List.reverse_append, List.reverse_singleton, List.singleton_append, List.lookup]
  by_cases h : e.1 = n
  · subst h; simp
  · rw [if_neg h, show (n == e.1) = false by simpa using fun c => h c.symm]

theorem mem_dropLatest {n : Name} {l : Vals} {e : Name × Val} (h : e ∈ dropLatest n l) : e ∈ l := by
  induction l with
  | nil => exact h
  | cons x l ih =>
    rw [dropLatest] at h
    split at h
    · exact List.mem_cons_of_mem _ h
    · rcases List.mem_cons.1 h with h | h
      · rw [h]; exact List.mem_cons_self
      · exact List.mem_cons_of_mem _ (ih h)

theorem innermost_toIds {f : Name → Nat} {K : Name → Prop} (hf : InjOn f K) {n : Name} (hn : K n) (l : Vals) (hl : ∀ e ∈ l, K e.1) :
    innermost (f n) (toIds f l) = latest n l := by
  induction l using List.reverseRecOn with
  | nil => rfl
  | append_singleton l e ih =>
    rw [latest_snoc]
    have he : K e.1 := hl e (by simp)
    have ih := ih (fun x hx => hl x (by simp [hx]))
    unfold innermost toIds at *
    simp only [List.map_append, List.map_cons, List.map_nil, List.reverse_append, List.reverse_singleton, List.singleton_append]
    rw [List.find?_cons]
    by_cases h : e.1 = n
    · simp [h]
    · have h' : ¬ f e.1 = f n := fun c => h (hf _ _ he hn c)
      simp only [h', h, decide_false, if_false]
      exact ih

theorem eraseInner_toIds {f : Name → Nat} {K : Name → Prop} (hf : InjOn f K) {n : Name} (hn : K n) (l : Vals) (hl : ∀ e ∈ l, K e.1) :
    eraseInner (f n) (toIds f l) = toIds f (dropLatest n l) := by
  induction l using List.reverseRecOn with
  | nil => rfl
  | append_singleton l e ih =>
    rw [dropLatest_snoc]
    have he : K e.1 := hl e (by simp)
    have ih := ih (fun x hx => hl x (by simp [hx]))
    unfold eraseInner toIds at *
    simp only [List.map_append, List.map_cons, List.map_nil, List.reverse_append, List.reverse_singleton, List.singleton_append]
    rw [List.eraseP_cons]
    by_cases h : e.1 = n
    · simp [h]
    · have h' : ¬ f e.1 = f n := fun c => h (hf _ _ he hn c)
      simp only [h', h, decide_false, if_false]
      simp [ih]

/-! ## contexts -/

/-- a context by ids and the context by names -/
structure NRel (f : Name → Nat) (K : Name → Prop) (c : Ctx) (x : NCtx) : Prop where
  region : c.region = toIds f x.region
  unal : c.unal = toIds f x.unal
  regK : ∀ e ∈ x.region, K e.1
  unalK : ∀ e ∈ x.unal, K e.1
  vals : ∀ n, K n → c.vals (f n) = x.vals n
  noVal : ∀ n, ¬ K n → x.vals n = none
  noId : ∀ i, (∀ n, K n → f n ≠ i) → c.vals i = none

theorem NRel.empty (f : Name → Nat) (K : Name → Prop) : NRel f K Ctx.empty ⟨[], [], fun _ => none⟩ :=
  ⟨rfl, rfl, by simp, by simp, fun _ _ => rfl, fun _ _ => rfl, fun _ _ => rfl⟩

theorem toIds_congr {f g : Name → Nat} {K : Name → Prop} (h : ∀ n, K n → f n = g n) {l : Vals} (hl : ∀ e ∈ l, K e.1) :
    toIds f l = toIds g l := by
  unfold toIds
  apply List.map_congr_left
  intro e he
  rw [h _ (hl e he)]

/-- new names -/
theorem NRel.grow {f g : Name → Nat} {K K' : Name → Prop} {c : Ctx} {x : NCtx} (R : NRel f K c x) (hg : ∀ n, K n → g n = f n)
    (hK : ∀ n, K n → K' n) (hi : InjOn g K') : NRel g K' c x := by
  refine ⟨?_, ?_, fun e he => hK _ (R.regK e he), fun e he => hK _ (R.unalK e he), ?_, ?_, ?_⟩
  · rw [R.region]; exact toIds_congr (fun n h => (hg n h).symm) R.regK
  · rw [R.unal]; exact toIds_congr (fun n h => (hg n h).symm) R.unalK
  · intro n hn
    by_cases h : K n
    · rw [hg n h]; exact R.vals n h
    · rw [R.noVal n h]
      apply R.noId
      intro m hm e
      rw [← hg m hm] at e
      exact h (hi m n (hK m hm) hn e ▸ hm)
  · intro n hn; exact R.noVal n (fun h => hn (hK n h))
  · intro i hi'; exact R.noId i (fun n hn e => hi' n (hK n hn) (by rw [hg n hn]; exact e))

/-- the handle and the attribute -/
structure IsHandle (f : Name → Nat) (n : Name) (a : Ann) (h : Attr) : Prop where
  id : h.id = f n
  prop : h.prop = a.prop

theorem IsHandle.asValue {f : Name → Nat} {n : Name} {a : Ann} {h : Attr} (H : IsHandle f n a h) : h.asValue = decide a.asValue := by
  unfold Attr.asValue Ann.asValue; rw [H.prop]; rfl
theorem IsHandle.unaligned {f : Name → Nat} {n : Name} {a : Ann} {h : Attr} (H : IsHandle f n a h) :
    h.unaligned = decide a.unaligned := by
  unfold Attr.unaligned Ann.unaligned; rw [H.prop]; rfl
theorem IsHandle.loc {f : Name → Nat} {n : Name} {a : Ann} {h : Attr} (H : IsHandle f n a h) (th : Nat) : scopeLoc h th = a.loc th := by
  unfold scopeLoc Ann.loc Attr.scope; rw [H.prop]; rfl

theorem IsHandle.kind {f : Name → Nat} {n : Name} {a : Ann} {h : Attr} (H : IsHandle f n a h) :
    h.kind = if a.asValue then .value else if a.unaligned then .unaligned else .region := by
  unfold Attr.kind
  rw [H.asValue, H.unaligned]
  by_cases h1 : a.asValue <;> by_cases h2 : a.unaligned <;> simp [h1, h2]

section
variable {f : Name → Nat} {K : Name → Prop} {c : Ctx} {x : NCtx} {n : Name} {a : Ann} {h : Attr}

theorem NRel.putVal (R : NRel f K c x) (hf : InjOn f K) (hn : K n) (v : Option Val) :
    NRel f K { c with vals := updV c.vals (f n) v } { x with vals := fun m => if m = n then v else x.vals m } := by
  refine ⟨R.region, R.unal, R.regK, R.unalK, ?_, ?_, ?_⟩
  · intro m hm
    simp only [updV]
    by_cases e : m = n
    · simp [e]
    · rw [if_neg (fun q => e (hf _ _ hm hn q)), if_neg e]; exact R.vals m hm
  · intro m hm
    simp only
    rw [if_neg (fun e : m = n => hm (by rw [e]; exact hn))]; exact R.noVal m hm
  · intro i hi
    simp only [updV]
    rw [if_neg (fun e => hi n hn e.symm)]; exact R.noId i hi

theorem NRel.putRegion (R : NRel f K c x) {l : Vals} (hl : ∀ e ∈ l, K e.1) :
    NRel f K { c with region := toIds f l } { x with region := l } :=
  ⟨rfl, R.unal, hl, R.unalK, R.vals, R.noVal, R.noId⟩

theorem NRel.putUnal (R : NRel f K c x) {l : Vals} (hl : ∀ e ∈ l, K e.1) :
    NRel f K { c with unal := toIds f l } { x with unal := l } :=
  ⟨R.region, rfl, R.regK, hl, R.vals, R.noVal, R.noId⟩

theorem snocK {l : Vals} (hl : ∀ e ∈ l, K e.1) (hn : K n) (v : Val) : ∀ e ∈ l ++ [(n, v)], K e.1 := by
  intro e he
  rcases List.mem_append.1 he with he | he
  · exact hl e he
  · rw [List.mem_singleton.1 he]; exact hn

theorem toIds_snoc (f : Name → Nat) (l : Vals) (n : Name) (v : Val) : toIds f l ++ [(f n, v)] = toIds f (l ++ [(n, v)]) := by
  simp [toIds]

theorem NRel.begin (R : NRel f K c x) (hf : InjOn f K) (hn : K n) (H : IsHandle f n a h) (v : Val) :
    NRel f K (c.begin h v) (x.begin n a v) := by
  unfold Ctx.begin NCtx.begin
  rw [H.kind, H.id]
  by_cases h1 : a.asValue
  · simp only [h1, if_true]; exact R.putVal hf hn _
  by_cases h2 : a.unaligned
  · simp only [h1, h2, if_true, if_false]
    rw [R.unal, toIds_snoc]; exact R.putUnal (snocK R.unalK hn v)
  · simp only [h1, h2, if_false]
    rw [R.region, toIds_snoc]; exact R.putRegion (snocK R.regK hn v)

theorem NRel.set (R : NRel f K c x) (hf : InjOn f K) (hn : K n) (H : IsHandle f n a h) (v : Val) :
    NRel f K (c.set h v) (x.set n a v) := by
  unfold Ctx.set NCtx.set
  rw [H.kind, H.id]
  by_cases h1 : a.asValue
  · simp only [h1, if_true]; exact R.putVal hf hn _
  by_cases h2 : a.unaligned
  · simp only [h1, h2, if_true, if_false]
    rw [R.unal, eraseInner_toIds hf hn _ R.unalK, toIds_snoc]
    exact R.putUnal (snocK (fun e he => R.unalK e (mem_dropLatest he)) hn v)
  · simp only [h1, h2, if_false]
    rw [R.region, eraseInner_toIds hf hn _ R.regK, toIds_snoc]
    exact R.putRegion (snocK (fun e he => R.regK e (mem_dropLatest he)) hn v)

theorem NRel.closes (R : NRel f K c x) (hf : InjOn f K) (hn : K n) (H : IsHandle f n a h) : c.endable h = x.closes n a := by
  unfold Ctx.endable NCtx.closes
  rw [H.kind, H.id]
  by_cases h1 : a.asValue
  · simp only [h1, if_true]; exact R.vals n hn
  by_cases h2 : a.unaligned
  · simp only [h1, h2, if_true, if_false]
    rw [R.unal]; exact innermost_toIds hf hn _ R.unalK
  · simp only [h1, h2, if_false]
    rw [R.region]
    cases hl : x.region.getLast? with
    | none => simp [toIds, List.getLast?_map, hl]
    | some e =>
      have he : K e.1 := R.regK e (List.mem_of_getLast? hl)
      simp only [toIds, List.getLast?_map, hl, Option.map_some]
      by_cases q : e.1 = n
      · simp [q]
      · rw [if_neg (fun p => q (hf _ _ he hn p)), if_neg q]

theorem NRel.close (R : NRel f K c x) (hf : InjOn f K) (hn : K n) (H : IsHandle f n a h) : NRel f K (c.endR h) (x.close n a) := by
  unfold Ctx.endR NCtx.close
  rw [H.kind, H.id]
  by_cases h1 : a.asValue
  · simp only [h1, if_true]; exact R.putVal hf hn _
  by_cases h2 : a.unaligned
  · simp only [h1, h2, if_true, if_false]
    rw [R.unal, eraseInner_toIds hf hn _ R.unalK]
    exact R.putUnal (fun e he => R.unalK e (mem_dropLatest he))
  · simp only [h1, h2, if_false]
    rw [R.region, show (toIds f x.region).dropLast = toIds f x.region.dropLast by simp [toIds, List.map_dropLast]]
    exact R.putRegion (fun e he => R.regK e (List.mem_of_mem_dropLast he))

theorem NRel.get (R : NRel f K c x) (hf : InjOn f K) (hn : K n) (H : IsHandle f n a h) : c.get h = x.get n a := by
  unfold Ctx.get NCtx.get
  rw [H.kind, H.id]
  by_cases h1 : a.asValue
  · simp only [h1, if_true]; exact R.vals n hn
  by_cases h2 : a.unaligned
  · simp only [h1, h2, if_true, if_false]
    rw [R.unal]; exact innermost_toIds hf hn _ R.unalK
  · simp only [h1, h2, if_false]
    rw [R.region]; exact innermost_toIds hf hn _ R.regK

end

/-! ## attributes in the context tree -/

/-- `p` is the node of attribute `n` -/
def IsAttr (cfg : Config) (t : Tree) (n : Name) (a : Ann) (p : Ptr) : Prop :=
  ∃ pr, a.prop = newProp cfg n pr ∧ Path t p (attrPath cfg ⟨n, a.ty, pr, []⟩)

theorem IsAttr.ext {cfg : Config} {t t' : Tree} {n : Name} {a : Ann} {p : Ptr} (x : Ext t t') (h : IsAttr cfg t n a p) :
    IsAttr cfg t' n a p := by
  obtain ⟨pr, h1, h2⟩ := h; exact ⟨pr, h1, x.path h2⟩

theorem wantProp_new (cfg : Config) (n : Name) (ty : AttrType) (pr : BitVec 32) : wantProp cfg ⟨n, ty, pr, []⟩ = newProp cfg n pr := by
  unfold wantProp
  rw [if_neg (by simp), Presets.norm_with]; rfl

theorem IsAttr.live {cfg : Config} {t : Tree} {n : Name} {a : Ann} {p : Ptr} (h : IsAttr cfg t n a p) :
    Live t p ∧ p ≠ .root ∧ t.attrOf p = nameAttr := by
  obtain ⟨pr, h1, h2⟩ := h
  obtain ⟨b, i, r, rfl, hr, ha, -, -⟩ := h2.snoc_inv
  exact ⟨h2.live, by simp, by simp [Tree.attrOf, Tree.get?, hr, ha]⟩

theorem IsAttr.handle {cfg : Config} {t : Tree} (I : Inv t) {n : Name} {a : Ann} {p : Ptr} (h : IsAttr cfg t n a p) :
    handle t (some p) = ⟨p, t.idOf p, a.prop⟩ := by
  obtain ⟨pr, h1, h2⟩ := h
  rw [CApi.handle, (attr_reads I h2).2.1, wantProp_new, ← h1]

theorem IsAttr.inj {cfg : Config} {t : Tree} {n m : Name} {a b : Ann} {p : Ptr} (I : Inv t) (h : IsAttr cfg t n a p)
    (g : IsAttr cfg t m b p) : n = m := by
  obtain ⟨_, _, h2⟩ := h
  obtain ⟨_, _, g2⟩ := g
  have := (attr_reads I h2).1
  rw [(attr_reads I g2).1] at this
  simpa [Val.str] using this.symm

/-- a node's id and its place -/
theorem lookup_cell {t : Tree} (I : Inv t) {b i : Nat} {r : NodeRec} (hr : t.node b i = some r) :
    t.lookup (t.idOf (.cell b i)) = some (.cell b i) ∧ t.idOf (.cell b i) = b * t.npb + i ∧ b < t.numBlocks ∧ i < t.npb := by
  have e0 : t.idOf (.cell b i) = b * t.npb + i := by
    simp only [Tree.idOf, Tree.get?, hr, Option.map_some, Option.getD_some]; exact I.id _ _ _ hr
  have a1 := (I.alloc b i).1 (by rw [hr]; rfl)
  have x1 := I.idx b a1.1
  have hn := I.npb
  have hnb := I.nb
  refine ⟨?_, e0, by omega, by omega⟩
  rw [e0]
  unfold Tree.lookup
  have e1 : (b * t.npb + i) / t.npb = b := by
    rw [Nat.mul_comm, Nat.mul_add_div (by omega), Nat.div_eq_of_lt (by omega)]; omega
  have e2 : (b * t.npb + i) % t.npb = i := by
    rw [Nat.mul_comm, Nat.mul_add_mod, Nat.mod_eq_of_lt (by omega)]
  simp only [e1, e2]
  rw [if_neg]
  simp; omega

theorem lookup_inv {t : Tree} (I : Inv t) (hs : t.numBlocks * 256 ≤ invId) : t.lookup invId = none := by
  have := I.npb
  have h2 := I.npb2
  have : t.numBlocks ≤ invId / t.npb := by
    rw [Nat.le_div_iff_mul_le (by omega)]
    exact Nat.le_trans (Nat.mul_le_mul_left _ h2) hs
  unfold Tree.lookup
  simp only
  rw [if_pos]
  simp [this]

/-- the node of an attribute that was created is none of the bootstrap nodes -/
theorem IsAttr.ge12 {cfg : Config} {t : Tree} (I : Inv t) (B : Boot t) {n : Name} {a : Ann} {p : Ptr} (h : IsAttr cfg t n a p) :
    12 ≤ t.idOf p := by
  obtain ⟨pr, -, h2⟩ := h
  obtain ⟨b, i, r, rfl, hr, ha, hv, hp⟩ := h2.snoc_inv
  obtain ⟨-, e, -, -⟩ := lookup_cell I hr
  by_contra hlt
  have hn := I.npb
  have hb : b = 0 := by
    by_contra hb
    have : t.npb ≤ b * t.npb := Nat.le_mul_of_pos_left _ (by omega)
    omega
  subst hb
  have hi : i < 12 := by omega
  obtain ⟨b', i', r', e', hr', ha', -, -⟩ := hp.snoc_inv
  have key : ∀ (j : Nat) (q : NodeRec), bootNode j = some q → t.node 0 j = some q := B
  have : ∀ i < 12, ∀ r, t.node 0 i = some r → r.attr = 8 → ∃ j q, r.parent = .cell 0 j ∧ bootNode j = some q ∧ q.attr = 9 := by
    intro i hi r hr ha
    have hb : ∃ q, bootNode i = some q := by
      have : ∀ i < 12, (bootNode i).isSome := by decide
      exact Option.isSome_iff_exists.1 (this i hi)
    obtain ⟨q, hq⟩ := hb
    have := key i q hq
    rw [hr] at this
    cases this
    have : ∀ i < 12, ∀ q, bootNode i = some q → q.attr = 8 → i = 8 ∨ i = 9 ∨ i = 10 := by
      intro i hi q hq ha
      have : i = 0 ∨ i = 1 ∨ i = 2 ∨ i = 3 ∨ i = 4 ∨ i = 5 ∨ i = 6 ∨ i = 7 ∨ i = 8 ∨ i = 9 ∨ i = 10 ∨ i = 11 := by omega
      rcases this with rfl | rfl | rfl | rfl | rfl | rfl | rfl | rfl | rfl | rfl | rfl | rfl <;>
        first | (simp; done) | (cases hq; cases ha)
    rcases this i hi _ hq ha with rfl | rfl | rfl <;> cases hq
    · exact ⟨3, _, rfl, rfl, rfl⟩
    · exact ⟨7, _, rfl, rfl, rfl⟩
    · exact ⟨1, _, rfl, rfl, rfl⟩
  obtain ⟨j, q, h3, h4, h5⟩ := this i hi r hr ha
  rw [h3] at e'
  cases e'
  rw [key _ _ h4] at hr'
  cases hr'
  rw [h5] at ha'
  exact absurd ha' (by decide)

theorem IsAttr.lookup {cfg : Config} {t : Tree} (I : Inv t) (hs : t.numBlocks * 256 ≤ invId) {n : Name} {a : Ann} {p : Ptr}
    (h : IsAttr cfg t n a p) : t.lookup (t.idOf p) = some p ∧ t.idOf p ≠ invId := by
  obtain ⟨pr, -, h2⟩ := h
  obtain ⟨b, i, r, rfl, hr, -, -, -⟩ := h2.snoc_inv
  obtain ⟨h1, h2, h3, h4⟩ := lookup_cell I hr
  refine ⟨h1, ?_⟩
  have := I.npb2
  have h5 : (b + 1) * t.npb ≤ t.numBlocks * 256 := Nat.mul_le_mul (by omega) this
  rw [Nat.add_mul, Nat.one_mul] at h5
  omega

theorem IsAttr.valid {cfg : Config} {t : Tree} (I : Inv t) (B : Boot t) (hs : t.numBlocks * 256 ≤ invId) {n : Name} {a : Ann} {p : Ptr}
    (h : IsAttr cfg t n a p) : (CApi.handle t (some p)).Valid t := by
  rw [h.handle I]
  obtain ⟨h1, h2, h3⟩ := h.live
  exact ⟨h1, h2, rfl, h3, h.ge12 I B, (h.lookup I hs).2⟩

/-! ## the relation -/

/-- the names known -/
def Spec.Has (S : Spec) (n : Name) : Prop := (S.attrs n).isSome

structure Rel (t0 : Tree) (cfg : Config) (s : St) (S : Spec) (c : Abs) : Prop where
  rt : RelS s.rt c
  ext : Ext t0 s.rt.tree
  boot : Boot s.rt.tree
  small : s.rt.tree.numBlocks * 256 ≤ invId
  known : ∀ n a, S.attrs n = some a → ∃ p, s.map n = some (some p) ∧ IsAttr cfg s.rt.tree n a p
  unknown : ∀ n, ¬ Builtin n → S.attrs n = none → s.map n = none
  names : ∀ n, Builtin n → S.attrs n = none
  err : S.err = c.err
  ctx : ∀ l, NRel s.find S.Has (c.ctx l) (S.ctx l)

section
variable {t0 : Tree} {cfg : Config} {s : St} {S : Spec} {c : Abs}

theorem Rel.find (R : Rel t0 cfg s S c) {n : Name} {a : Ann} (h : S.attrs n = some a) :
    ∃ p, s.map n = some (some p) ∧ IsAttr cfg s.rt.tree n a p ∧ s.find n = s.rt.tree.idOf p ∧
      s.arg n = ⟨p, s.rt.tree.idOf p, a.prop⟩ ∧ CApi.handle s.rt.tree (s.byName n) = ⟨p, s.rt.tree.idOf p, a.prop⟩ := by
  obtain ⟨p, h1, h2⟩ := R.known n a h
  have e : s.byName n = some p := by simp [St.byName, h1]
  have e2 : s.find n = s.rt.tree.idOf p := by simp [St.find, e, CApi.handle]
  refine ⟨p, h1, h2, e2, ?_, ?_⟩
  · unfold St.arg St.byId
    rw [e2, (h2.lookup R.rt.inv R.small).1]
    simp only [makeAttribute, h2.live.2.2, if_true]
    exact h2.handle R.rt.inv
  · rw [e]; exact h2.handle R.rt.inv

theorem Rel.findNone (R : Rel t0 cfg s S c) {n : Name} (hb : ¬ Builtin n) (h : S.attrs n = none) :
    s.find n = invId ∧ s.arg n = ⟨.root, invId, 0⟩ ∧ CApi.handle s.rt.tree (s.byName n) = ⟨.root, invId, 0⟩ := by
  have e : s.byName n = none := by simp [St.byName, R.unknown n hb h]
  have e2 : s.find n = invId := by simp [St.find, e, CApi.handle]
  refine ⟨e2, ?_, by rw [e]; rfl⟩
  unfold St.arg St.byId
  rw [e2, lookup_inv R.rt.inv R.small]; rfl

theorem Rel.injOn (R : Rel t0 cfg s S c) : InjOn s.find S.Has := by
  intro n m hn hm e
  obtain ⟨a, ha⟩ := Option.isSome_iff_exists.1 hn
  obtain ⟨b, hb⟩ := Option.isSome_iff_exists.1 hm
  obtain ⟨p, -, h1, h2, -⟩ := R.find ha
  obtain ⟨q, -, g1, g2, -⟩ := R.find hb
  rw [h2, g2] at e
  have := R.rt.inv.idOf_inj h1.live.1 g1.live.1 h1.live.2.1 g1.live.2.1 e
  subst this
  exact h1.inj R.rt.inv g1

theorem Ext.idOf {t t' : Tree} (h : Ext t t') {p : Ptr} (e : Live t p) : t'.idOf p = t.idOf p := by
  rcases e with rfl | e
  · rfl
  · obtain ⟨r, hr⟩ := Option.isSome_iff_exists.1 e
    simp [Tree.idOf, hr, h.get hr]

/-- an operation of the runtime on the attribute with handle `h`: what is needed of the step on the specification -/
theorem Rel.op (R : Rel t0 cfg s S c) {n : Name} {a : Ann} (hn : S.attrs n = some a) {o : Op} {h : Attr}
    (ha : o.attr = h) (hh : ∃ p, IsAttr cfg s.rt.tree n a p ∧ h = ⟨p, s.rt.tree.idOf p, a.prop⟩) (nl : NoLoss s.rt (s.op o).rt)
    {S' : Spec} (h1 : S'.attrs = S.attrs)
    (h2 : S'.err = (c.step s.rt.active s.rt.isActive o).err)
    (h3 : ∀ l, NRel s.find S.Has ((c.step s.rt.active s.rt.isActive o).ctx l) (S'.ctx l)) :
    ∃ c', Rel t0 cfg (s.op o) S' c' := by
  obtain ⟨p, hp, rfl⟩ := hh
  have hv : o.attr.Valid s.rt.tree := by rw [ha, ← hp.handle R.rt.inv]; exact hp.valid R.rt.inv R.boot R.small
  obtain ⟨R1, x, -, -⟩ := step_sim R.rt hv nl
  refine ⟨_, R1, R.ext.trans x, R.boot.ext x, ?_, ?_, ?_, ?_, h2, ?_⟩
  · show (step s.rt o).tree.numBlocks * 256 ≤ invId
    rw [x.numBlocks]; exact R.small
  · intro m b hm
    rw [h1] at hm
    obtain ⟨q, g1, g2⟩ := R.known m b hm
    exact ⟨q, g1, g2.ext x⟩
  · intro m hb hm; rw [h1] at hm; exact R.unknown m hb hm
  · intro m hm; rw [h1]; exact R.names m hm
  · intro l
    have e : S'.Has = S.Has := by funext m; simp [Spec.Has, h1]
    rw [e]
    refine (h3 l).grow ?_ (fun _ h => h) ?_
    · intro m hm
      obtain ⟨b, hb⟩ := Option.isSome_iff_exists.1 hm
      obtain ⟨q, g1, g2, g3, -⟩ := R.find hb
      rw [g3]
      simp only [St.find, St.byName, St.op, g1, Option.getD_some, CApi.handle]
      exact Ext.idOf x g2.live.1
    · intro m m' hm hm' q
      have key : ∀ m, S.Has m → (s.op o).find m = s.find m := by
        intro m hm
        obtain ⟨b, hb⟩ := Option.isSome_iff_exists.1 hm
        obtain ⟨q, g1, g2, g3, -⟩ := R.find hb
        rw [g3]
        simp only [St.find, St.byName, St.op, g1, Option.getD_some, CApi.handle]
        exact Ext.idOf x g2.live.1
      rw [key m hm, key m' hm'] at q
      exact R.injOn m m' hm hm' q


theorem relOf {s' : St} (R : Rel t0 cfg s S c) {c' : Abs} (h1 : RelS s'.rt c') (h2 : s'.rt.tree = s.rt.tree) (h3 : s'.map = s.map)
    (h4 : c'.err = c.err) (h5 : c'.ctx = c.ctx) : Rel t0 cfg s' S c' := by
  have hf : s'.find = s.find := by funext n; simp [St.find, St.byName, h2, h3]
  refine ⟨h1, by rw [h2]; exact R.ext, by rw [h2]; exact R.boot, by rw [h2]; exact R.small, ?_, ?_, R.names, by rw [h4]; exact R.err, ?_⟩
  · rw [h2, h3]; exact R.known
  · rw [h3]; exact R.unknown
  · rw [hf, h5]; exact R.ctx

@[simp] theorem absEmitErr (c : Abs) (ac k th a v) : (c.emitAll ac k th a v).err = c.err := by unfold Abs.emitAll; split <;> rfl

/-- a call with the null attribute -/
theorem Rel.null (R : Rel t0 cfg s S c) {o : Op} (ho : ∃ th v, o = .begin th ⟨.root, invId, 0⟩ v ∨ o = .set th ⟨.root, invId, 0⟩ v ∨
    o = .endR th ⟨.root, invId, 0⟩ ∨ o = .endCheck th ⟨.root, invId, 0⟩ v) : ∃ c', Rel t0 cfg (s.op o) S c' := by
  have e : ∀ th, scopeLoc ⟨.root, invId, 0⟩ th = none := fun th => by simp [scopeLoc, Attr.scope, scopeThread, scopeProcess]
  have ek : Attr.skipEvents ⟨.root, invId, 0⟩ = false := by decide
  generalize (⟨.root, invId, 0⟩ : Attr) = z at *
  obtain ⟨th, v, h⟩ := ho
  rcases h with rfl | rfl | rfl | rfl
  · by_cases he : s.rt.err th = true
    · refine ⟨c, relOf R ?_ ?_ rfl rfl rfl⟩ <;> simp [St.op, RT.step, RT.begin, R.rt.dead, he, R.rt]
    · have R1 := emitAll_sim R.rt .preBegin th z v
      have R2 := emitAll_sim R1 .postBegin th z v
      have hs : (s.op (.begin th z v)).rt =
          (s.rt.emitAll .preBegin th z v).emitAll .postBegin th z v := by
        have hd := R1.dead
        simp [St.op, RT.step, RT.begin, R.rt.dead, he, e, hd]
      refine ⟨_, relOf R (by rw [hs]; exact R2) ?_ rfl (by simp) (by simp)⟩
      rw [hs]; simp [State.emitAll, ek]
  · by_cases he : s.rt.err th = true
    · refine ⟨c, relOf R ?_ ?_ rfl rfl rfl⟩ <;> simp [St.op, RT.step, RT.set, R.rt.dead, he, R.rt]
    · have R1 := emitAll_sim R.rt .preSet th z v
      have hs : (s.op (.set th z v)).rt = s.rt.emitAll .preSet th z v := by
        simp [St.op, RT.step, RT.set, R.rt.dead, he, e]
      refine ⟨_, relOf R (by rw [hs]; exact R1) ?_ rfl (by simp) (by simp)⟩
      rw [hs]; simp [State.emitAll, ek]
  · have hs : (s.op (.endR th z)).rt = s.rt := by
      simp [St.op, RT.step, RT.endR, RT.endCore, R.rt.dead, e]
    exact ⟨c, relOf R (by rw [hs]; exact R.rt) (by rw [hs]) rfl rfl rfl⟩
  · have hs : (s.op (.endCheck th z v)).rt = s.rt := by
      simp [St.op, RT.step, RT.endCheck, RT.endCore, R.rt.dead, e]
    exact ⟨c, relOf R (by rw [hs]; exact R.rt) (by rw [hs]) rfl rfl rfl⟩

/-- the handle a call uses -/
def HandleOf (cfg : Config) (s : St) (S : Spec) (n : Name) (h : Attr) : Prop :=
  match S.attrs n with
  | none => h = ⟨.root, invId, 0⟩
  | some a => ∃ p, IsAttr cfg s.rt.tree n a p ∧ h = ⟨p, s.rt.tree.idOf p, a.prop⟩ ∧ s.find n = s.rt.tree.idOf p

theorem put_ctx {S : Spec} {l : Loc} {x : NCtx} {c : Abs} {y : Ctx} {f : Name → Nat} {K : Name → Prop} {c0 : Loc → Ctx}
    (h : ∀ l, NRel f K (c0 l) (S.ctx l)) (hc : c.ctx = fun l' => if l' = l then y else c0 l') (hx : NRel f K y x) (l' : Loc) :
    NRel f K (c.ctx l') ((S.put l x).ctx l') := by
  rw [hc]
  simp only [Spec.put]
  by_cases e : l' = l
  · simp only [e, if_true]; exact hx
  · simp only [e, if_false]; exact h l'

theorem Rel.begin (R : Rel t0 cfg s S c) {n : Name} {h : Attr} (H : HandleOf cfg s S n h) (th : Nat) (v : Val)
    (nl : NoLoss s.rt (s.op (.begin th h v)).rt) : ∃ c', Rel t0 cfg (s.op (.begin th h v)) (S.begin th n v) c' := by
  unfold HandleOf at H
  unfold Spec.begin
  cases ha : S.attrs n with
  | none =>
    rw [ha] at H; subst H
    exact R.null ⟨th, v, .inl rfl⟩
  | some a =>
    rw [ha] at H
    obtain ⟨p, H1, H2, H3⟩ := H
    have IH : IsHandle s.find n a h := ⟨by rw [H2, H3], by rw [H2]⟩
    have hK : S.Has n := by simp [Spec.Has, ha]
    simp only
    cases hl : a.loc th with
    | none =>
      refine R.op (o := .begin th h v) (h := h) ha rfl ⟨p, H1, H2⟩ nl (by rfl) ?_ ?_
      · simp only [Abs.step]; rw [IH.loc, hl]; split <;> simp [R.err]
      · simp only [Abs.step]; rw [IH.loc, hl]; split <;> simp [R.ctx]
    | some l =>
      simp only
      rw [R.err]
      cases he : c.err th with
      | true =>
        simp only [if_true]
        refine R.op (o := .begin th h v) (h := h) ha rfl ⟨p, H1, H2⟩ nl (by rfl) ?_ ?_ <;> simp only [Abs.step, he, if_true]
        · exact R.err
        · exact R.ctx
      | false =>
        simp only [Bool.false_eq_true, if_false]
        refine R.op (o := .begin th h v) (h := h) ha rfl ⟨p, H1, H2⟩ nl (by rfl) ?_ ?_ <;> simp only [Abs.step, he, IH.loc, hl, Bool.false_eq_true, if_false]
        · simp [Spec.put, Abs.put, R.err]
        · refine put_ctx R.ctx ?_ ((R.ctx l).begin R.injOn hK IH v)
          simp [Abs.put]

theorem Rel.set (R : Rel t0 cfg s S c) {n : Name} {h : Attr} (H : HandleOf cfg s S n h) (th : Nat) (v : Val)
    (nl : NoLoss s.rt (s.op (.set th h v)).rt) : ∃ c', Rel t0 cfg (s.op (.set th h v)) (S.set th n v) c' := by
  unfold HandleOf at H
  unfold Spec.set
  cases ha : S.attrs n with
  | none =>
    rw [ha] at H; subst H
    exact R.null ⟨th, v, .inr (.inl rfl)⟩
  | some a =>
    rw [ha] at H
    obtain ⟨p, H1, H2, H3⟩ := H
    have IH : IsHandle s.find n a h := ⟨by rw [H2, H3], by rw [H2]⟩
    have hK : S.Has n := by simp [Spec.Has, ha]
    simp only
    cases hl : a.loc th with
    | none =>
      refine R.op (o := .set th h v) (h := h) ha rfl ⟨p, H1, H2⟩ nl (by rfl) ?_ ?_
      · simp only [Abs.step]; rw [IH.loc, hl]; split <;> simp [R.err]
      · simp only [Abs.step]; rw [IH.loc, hl]; split <;> simp [R.ctx]
    | some l =>
      simp only
      rw [R.err]
      cases he : c.err th with
      | true =>
        simp only [if_true]
        refine R.op (o := .set th h v) (h := h) ha rfl ⟨p, H1, H2⟩ nl (by rfl) ?_ ?_ <;> simp only [Abs.step, he, if_true]
        · exact R.err
        · exact R.ctx
      | false =>
        simp only [Bool.false_eq_true, if_false]
        refine R.op (o := .set th h v) (h := h) ha rfl ⟨p, H1, H2⟩ nl (by rfl) ?_ ?_ <;> simp only [Abs.step, he, IH.loc, hl, Bool.false_eq_true, if_false]
        · simp [Spec.put, Abs.put, R.err]
        · refine put_ctx R.ctx ?_ ((R.ctx l).set R.injOn hK IH v)
          simp [Abs.put]

/-- `end` and `end_with_value_check` as one operation -/
def endOp (th : Nat) (h : Attr) : Option Val → Op
  | none => .endR th h
  | some v => .endCheck th h v

theorem Rel.end_ (R : Rel t0 cfg s S c) {n : Name} {h : Attr} (H : HandleOf cfg s S n h) (th : Nat) (w : Option Val)
    (nl : NoLoss s.rt (s.op (endOp th h w)).rt) : ∃ c', Rel t0 cfg (s.op (endOp th h w)) (S.end_ th n w) c' := by
  unfold HandleOf at H
  unfold Spec.end_
  have hst : c.step s.rt.active s.rt.isActive (endOp th h w) = c.endCore s.rt.active th h w := by cases w <;> rfl
  have hat : (endOp th h w).attr = h := by cases w <;> rfl
  cases ha : S.attrs n with
  | none =>
    rw [ha] at H; subst H
    cases w with
    | none => exact R.null ⟨th, Val.empty, .inr (.inr (.inl rfl))⟩
    | some v => exact R.null ⟨th, v, .inr (.inr (.inr rfl))⟩
  | some a =>
    rw [ha] at H
    obtain ⟨p, H1, H2, H3⟩ := H
    have IH : IsHandle s.find n a h := ⟨by rw [H2, H3], by rw [H2]⟩
    have hK : S.Has n := by simp [Spec.Has, ha]
    simp only
    have key : ∀ S' : Spec, S'.attrs = S.attrs → S'.err = (c.endCore s.rt.active th h w).err →
        (∀ l, NRel s.find S.Has ((c.endCore s.rt.active th h w).ctx l) (S'.ctx l)) → ∃ c', Rel t0 cfg (s.op (endOp th h w)) S' c' := by
      intro S' k1 k2 k3
      exact R.op ha hat ⟨p, H1, H2⟩ nl k1 (by rw [hst]; exact k2) (by rw [hst]; exact k3)
    cases hl : a.loc th with
    | none =>
      refine key S rfl ?_ ?_ <;> simp only [Abs.endCore, IH.loc, hl] <;> split <;> simp [R.err, R.ctx]
    | some l =>
      simp only
      rw [R.err]
      cases he : c.err th with
      | true =>
        simp only [if_true]
        refine key S rfl ?_ ?_ <;> simp only [Abs.endCore, he, if_true]
        · exact R.err
        · exact R.ctx
      | false =>
        simp only [Bool.false_eq_true, if_false]
        rw [← (R.ctx l).closes R.injOn hK IH]
        cases hv : (c.ctx l).endable h with
        | none =>
          refine key _ rfl ?_ ?_ <;> simp only [Abs.endCore, he, IH.loc, hl, hv, Bool.false_eq_true, if_false]
          · funext t; simp [BB.upd]
          · exact R.ctx
        | some v =>
          simp only
          by_cases hw : w = none ∨ w = some v
          · rw [if_pos hw]
            refine key _ (by rfl) ?_ ?_ <;> simp only [Abs.endCore, he, IH.loc, hl, hv, Bool.false_eq_true, if_false, if_pos hw]
            · simp [Spec.put, Abs.put, Abs.endAt, R.err]
            · refine put_ctx R.ctx ?_ ((R.ctx l).close R.injOn hK IH)
              simp [Abs.endAt, Abs.put]
          · rw [if_neg hw]
            refine key _ (by rfl) ?_ ?_ <;> simp only [Abs.endCore, he, IH.loc, hl, hv, Bool.false_eq_true, if_false, if_neg hw]
            · funext t; simp [BB.upd]
            · exact R.ctx

/-- `create_attribute` -/
theorem Rel.create (R : Rel t0 cfg s S c) (hg : cfg.aggId ≠ typeAttr) {n : Name} (hb : ¬ Builtin n) (th : Nat) (ty : AttrType) (pr : BitVec 32)
    (nl : (createAttribute cfg s th n ty pr).1.rt.tree.fails = s.rt.tree.fails) :
    Rel t0 cfg (createAttribute cfg s th n ty pr).1 (S.mention cfg n ty pr) c ∧
    HandleOf cfg (createAttribute cfg s th n ty pr).1 (S.mention cfg n ty pr) n
      (CApi.handle (createAttribute cfg s th n ty pr).1.rt.tree (createAttribute cfg s th n ty pr).2) ∧
    (createAttribute cfg s th n ty pr).1.map n = some (createAttribute cfg s th n ty pr).2 := by
  unfold Spec.mention
  cases ha : S.attrs n with
  | some a =>
    obtain ⟨p, h1, h2, h3, h4, h5⟩ := R.find ha
    have e : createAttribute cfg s th n ty pr = (s, some p) := by simp [createAttribute, h1]
    rw [e]
    refine ⟨R, ?_, h1⟩
    simp only [HandleOf, ha]
    exact ⟨p, h2, h2.handle R.rt.inv, h3⟩
  | none =>
    have hm := R.unknown n hb ha
    have P0 : PathO s.rt.tree (typeNode ty) (typePath ty) := boot_path R.boot
    have L0 : Live s.rt.tree ((typeNode ty).getD .root) := Path.live P0
    have fp : finalProp cfg s.rt.tree ⟨n, ty, pr, []⟩ (typeNode ty) = wantProp cfg ⟨n, ty, pr, []⟩ :=
      finalProp_eq R.rt.inv hg (by simpa using P0)
    generalize hr : createAttribute cfg s th n ty pr = r at nl
    simp only [createAttribute, hm, fp] at hr
    obtain ⟨I1, x1, ok1, l1⟩ := getChild_step R.rt.inv th propAttr (Val.ofInt (wantProp cfg ⟨n, ty, pr, []⟩)) (typeNode ty) L0
    obtain ⟨I2, x2, ok2, l2⟩ := getChild_step I1 th nameAttr (Val.str n)
      (getChild s.rt.tree th propAttr (Val.ofInt (wantProp cfg ⟨n, ty, pr, []⟩)) (typeNode ty)).2 l1
    generalize getChild s.rt.tree th propAttr (Val.ofInt (wantProp cfg ⟨n, ty, pr, []⟩)) (typeNode ty) = g1 at *
    generalize getChild g1.1 th nameAttr (Val.str n) g1.2 = g2 at *
    subst hr
    have f1 := x1.fails
    have f2 := x2.fails
    simp only at nl
    obtain ⟨q1, e1, P1⟩ := ok1 _ P0 (by omega)
    have P1' : PathO g1.1 g1.2 (typePath ty ++ [(propAttr, Val.ofInt (wantProp cfg ⟨n, ty, pr, []⟩))]) := by rw [e1]; exact P1
    obtain ⟨p, e2, P2⟩ := ok2 _ P1' (by omega)
    have P3 : IsAttr cfg g2.1 n ⟨ty, newProp cfg n pr⟩ p := ⟨pr, rfl, by simpa [attrPath] using P2⟩
    have x := x1.trans x2
    have em : makeAttribute g2.1 g2.2 = some p := by
      rw [e2]; simp [makeAttribute, P3.live.2.2]
    rw [em]
    have hK : ∀ m, (∃ b, (if m = n then some (⟨ty, newProp cfg n pr⟩ : Ann) else S.attrs m) = some b) ↔ (m = n ∨ S.Has m) := by
      intro m
      by_cases e : m = n
      · simp [e]
      · simp only [e, if_false, false_or, Spec.Has, Option.isSome_iff_exists]
    have hold : ∀ m b, S.attrs m = some b → m ≠ n := fun m b hm e => by rw [e, ha] at hm; cases hm
    have key : ∀ m b, (if m = n then some (⟨ty, newProp cfg n pr⟩ : Ann) else S.attrs m) = some b →
        ∃ q, updN s.map n (some (some p)) m = some (some q) ∧ IsAttr cfg g2.1 m b q := by
      intro m b hm'
      by_cases e : m = n
      · subst e
        rw [if_pos rfl] at hm'
        cases hm'
        exact ⟨p, by simp [updN], P3⟩
      · rw [if_neg e] at hm'
        obtain ⟨q, k1, k2⟩ := R.known m b hm'
        exact ⟨q, by simp [updN, e, k1], k2.ext x⟩
    have hR : Rel t0 cfg { s with rt := { s.rt with tree := g2.1 }, map := updN s.map n (some (some p)) }
        { S with attrs := fun m => if m = n then some ⟨ty, newProp cfg n pr⟩ else S.attrs m } c := by
      have rt' : RelS { s.rt with tree := g2.1 } c :=
        ⟨I2, by show g2.1.dead = false; rw [x.dead]; exact R.rt.tdead, R.rt.dead,
          fun l => by have := (R.rt.ctx l).ext x; cases l <;> exact this, R.rt.err, R.rt.log⟩
      have inj : InjOn (St.find { s with rt := { s.rt with tree := g2.1 }, map := updN s.map n (some (some p)) })
          (Spec.Has { S with attrs := fun m => if m = n then some ⟨ty, newProp cfg n pr⟩ else S.attrs m }) := by
        intro m m' hm hm' e
        obtain ⟨b, hb⟩ := Option.isSome_iff_exists.1 hm
        obtain ⟨b', hb'⟩ := Option.isSome_iff_exists.1 hm'
        obtain ⟨q, k1, k2⟩ := key m b hb
        obtain ⟨q', k1', k2'⟩ := key m' b' hb'
        simp only [St.find, St.byName, k1, k1', Option.getD_some, CApi.handle] at e
        have := I2.idOf_inj k2.live.1 k2'.live.1 k2.live.2.1 k2'.live.2.1 e
        subst this
        exact k2.inj I2 k2'
      refine ⟨rt', R.ext.trans x, R.boot.ext x, ?_, key, ?_, ?_, R.err, ?_⟩
      · show g2.1.numBlocks * 256 ≤ invId
        rw [x.numBlocks]; exact R.small
      · intro m hbm hm'
        simp only at hm' ⊢
        by_cases e : m = n
        · rw [if_pos e] at hm'; cases hm'
        · rw [if_neg e] at hm'
          simp [updN, e, R.unknown m hbm hm']
      · intro m hbm
        simp only
        rw [if_neg (fun e : m = n => hb (by rw [← e]; exact hbm))]
        exact R.names m hbm
      · intro l
        refine (R.ctx l).grow ?_ ?_ inj
        · intro m hm'
          obtain ⟨b, hb'⟩ := Option.isSome_iff_exists.1 hm'
          obtain ⟨q, k1, k2, k3, -⟩ := R.find hb'
          rw [k3]
          simp only [St.find, St.byName, updN, if_neg (hold m b hb'), k1, Option.getD_some, CApi.handle]
          exact Ext.idOf x k2.live.1
        · intro m hm'
          exact Option.isSome_iff_exists.2 ((hK m).2 (.inr hm'))
    refine ⟨hR, ?_, by simp [updN]⟩
    simp only [HandleOf, if_true]
    refine ⟨p, P3, P3.handle I2, ?_⟩
    simp [St.find, St.byName, updN, CApi.handle]

theorem handleOf_arg (R : Rel t0 cfg s S c) {n : Name} (hb : ¬ Builtin n) : HandleOf cfg s S n (s.arg n) := by
  unfold HandleOf
  cases ha : S.attrs n with
  | none => exact (R.findNone hb ha).2.1
  | some a =>
    obtain ⟨p, h1, h2, h3, h4, h5⟩ := R.find ha
    exact ⟨p, h2, h4, h3⟩

theorem handleOf_name (R : Rel t0 cfg s S c) {n : Name} (hb : ¬ Builtin n) : HandleOf cfg s S n (CApi.handle s.rt.tree (s.byName n)) := by
  unfold HandleOf
  cases ha : S.attrs n with
  | none => exact (R.findNone hb ha).2.2
  | some a =>
    obtain ⟨p, h1, h2, h3, h4, h5⟩ := R.find ha
    exact ⟨p, h2, h5, h3⟩

/-! ## calls -/

theorem create_le (cfg : Config) (s : St) (th : Nat) (n : Name) (ty : AttrType) (pr : BitVec 32) :
    LeLoss s.rt (createAttribute cfg s th n ty pr).1.rt := by
  unfold createAttribute
  split
  · exact .refl _
  · simp only
    refine ⟨?_, fun l => by cases l <;> exact Nat.le_refl _⟩
    exact Nat.le_trans (getChild_fails ..) (getChild_fails ..)

theorem create_region (cfg : Config) (s : St) (th : Nat) (n : Name) (ty : AttrType) (pr : BitVec 32) (k : RegionKind) :
    (createAttribute cfg s th n ty pr).1.regionPtr k = s.regionPtr k := by
  unfold createAttribute
  split <;> cases k <;> rfl

theorem create_map (cfg : Config) (s : St) (th : Nat) (n : Name) (ty : AttrType) (pr : BitVec 32) {m : Name} {a : Option Ptr}
    (h : s.map m = some a) : (createAttribute cfg s th n ty pr).1.map m = some a := by
  unfold createAttribute
  split
  · exact h
  · rename_i hn
    simp only [updN]
    rw [if_neg (fun e => by rw [e, hn] at h; cases h)]; exact h

theorem op_le (s : St) (o : Op) : LeLoss s.rt (s.op o).rt := step_le s.rt o

theorem call_le (cfg : Config) (s : St) (th : Nat) (x : Call) : LeLoss s.rt (call cfg s th x).rt := by
  cases x with
  | create n ty pr => exact create_le ..
  | beginName n x => exact (create_le cfg s th n x.ty 0).trans (op_le _ _)
  | setName n x => exact (create_le cfg s th n x.ty 1024).trans (op_le _ _)
  | setGlobal n x => exact (create_le cfg s th n x.ty _).trans (op_le _ _)
  | _ => exact op_le _ _

theorem runCalls_le (cfg : Config) (s : St) (xs : List (Nat × Call)) : LeLoss s.rt (runCalls cfg s xs).rt := by
  induction xs generalizing s with
  | nil => exact .refl _
  | cons x xs ih => exact (call_le cfg s x.1 x.2).trans (ih _)

/-- the regions' attributes are in the map -/
def RegionsOk (s : St) : Prop := ∀ k : RegionKind, s.map k.name = some (s.regionPtr k)

theorem call_regions (cfg : Config) (s : St) (th : Nat) (x : Call) (h : RegionsOk s) : RegionsOk (call cfg s th x) := by
  have cr : ∀ n ty pr, RegionsOk (createAttribute cfg s th n ty pr).1 := fun n ty pr k => by
    rw [create_region]; exact create_map cfg s th n ty pr (h k)
  cases x with
  | create n ty pr => exact cr n ty pr
  | beginName n x => exact cr n x.ty 0
  | setName n x => exact cr n x.ty 1024
  | setGlobal n x => exact cr n x.ty _
  | _ => exact h

theorem regionName_ok (k : RegionKind) : ¬ Builtin k.name := by
  unfold Builtin; cases k <;> decide

theorem CArg.val_means (x : CArg) : x.means = x.val := by cases x <;> rfl
theorem CArg.ty_means (x : CArg) : x.means.ty = x.ty := by cases x <;> rfl

theorem Rel.call (R : Rel t0 cfg s S c) (hg : cfg.aggId ≠ typeAttr) (hr : RegionsOk s) (th : Nat) (x : Call) (hb : ¬ Builtin x.name)
    (nl : NoLoss s.rt (CApi.call cfg s th x).rt) : ∃ c', Rel t0 cfg (CApi.call cfg s th x) (S.call cfg th x) c' := by
  have reg : ∀ k : RegionKind, HandleOf cfg s S k.name (CApi.handle s.rt.tree (s.regionPtr k)) := by
    intro k
    have := handleOf_name R (regionName_ok k)
    rwa [show s.byName k.name = s.regionPtr k by simp [St.byName, hr k]] at this
  cases x with
  | create n ty pr => exact ⟨c, (R.create hg hb th ty pr nl.1).1⟩
  | begin n x => simp only [Spec.call, CArg.val_means]; exact R.begin (handleOf_arg R hb) th _ nl
  | set n x => simp only [Spec.call, CArg.val_means]; exact R.set (handleOf_arg R hb) th _ nl
  | end_ n => exact R.end_ (handleOf_arg R hb) th none nl
  | endName n => exact R.end_ (handleOf_name R hb) th none nl
  | beginRegion k v => exact R.begin (reg k) th _ nl
  | endRegion k v => exact R.end_ (reg k) th (some _) nl
  | beginName n x =>
    obtain ⟨n1, n2⟩ := nl.split (create_le cfg s th n x.ty 0) (op_le _ _)
    obtain ⟨R1, H1, -⟩ := R.create hg hb th x.ty 0 n1.1
    simp only [Spec.call, CArg.val_means, show x.val.ty = x.ty by cases x <;> rfl]
    exact R1.begin H1 th _ n2
  | setName n x =>
    obtain ⟨n1, n2⟩ := nl.split (create_le cfg s th n x.ty 1024) (op_le _ _)
    obtain ⟨R1, H1, -⟩ := R.create hg hb th x.ty 1024 n1.1
    simp only [Spec.call, CArg.val_means, show x.val.ty = x.ty by cases x <;> rfl]
    exact R1.set H1 th _ n2
  | setGlobal n x =>
    obtain ⟨n1, n2⟩ := nl.split (create_le cfg s th n x.ty (512 ||| 1024 ||| 64)) (op_le _ _)
    obtain ⟨R1, H1, -⟩ := R.create hg hb th x.ty (512 ||| 1024 ||| 64) n1.1
    have := R1.set H1 th x.globalVal n2
    cases x <;> exact this

theorem Rel.run (R : Rel t0 cfg s S c) (hg : cfg.aggId ≠ typeAttr) (hr : RegionsOk s) (xs : List (Nat × Call))
    (hb : ∀ x ∈ xs, ¬ Builtin x.2.name) (nl : NoLoss s.rt (runCalls cfg s xs).rt) :
    ∃ c', Rel t0 cfg (runCalls cfg s xs) (S.run cfg xs) c' ∧ RegionsOk (runCalls cfg s xs) := by
  induction xs generalizing s S c with
  | nil => exact ⟨c, R, hr⟩
  | cons x xs ih =>
    obtain ⟨n1, n2⟩ := nl.split (call_le cfg s x.1 x.2) (runCalls_le _ _ xs)
    obtain ⟨c1, R1⟩ := R.call hg hr x.1 x.2 (hb x (by simp)) n1
    exact ih R1 (call_regions cfg s x.1 x.2 hr) (fun y hy => hb y (by simp [hy])) n2

end

end Verif.CApi
