import Verif.Capi.SnapshotSpec
import Verif.Props.Globals
import Verif.Props.Compressed
import Mathlib.Data.List.Forall2
namespace Verif.Capi
open Verif MTree RT CSR

variable {σ : Type}

/-! ### what an entry stands for -/

/-- a reference entry stands for its path, innermost first; an immediate entry for itself -/
inductive Den (t : Tree) : Entry → List (Nat × Verif.Val) → Prop where
  | ref {n : Ptr} {l : PathL} : Path t n l → l ≠ [] → (∀ x ∈ l, 12 ≤ x.1) → Den t (Entry.ofNode t n) l.reverse
  | imm {e : Entry} {k : Nat} : ImmEntry t e k → Den t e [(k, e.val)]

/-- as `feed`, with the last answer of the callback -/
def feedB (cb : Proc σ) : List (Nat × Verif.Val) → σ → σ × Bool
  | [], x => (x, true)
  | (a, v) :: D, x =>
    match cb x a v with
    | (x, false) => (x, false)
    | (x, true) => feedB cb D x

theorem feedB_fst (cb : Proc σ) (D : List (Nat × Verif.Val)) (x : σ) : (feedB cb D x).1 = feed cb D x := by
  induction D generalizing x with
  | nil => rfl
  | cons d D ih =>
    obtain ⟨a, v⟩ := d
    simp only [feedB, feed]
    rcases cb x a v with ⟨y, b⟩
    cases b
    · rfl
    · exact ih y

theorem feed_append (cb : Proc σ) (D E : List (Nat × Verif.Val)) (x : σ) :
    feed cb (D ++ E) x = match feedB cb D x with
      | (x, false) => x
      | (x, true) => feed cb E x := by
  induction D generalizing x with
  | nil => rfl
  | cons d D ih =>
    obtain ⟨a, v⟩ := d
    simp only [List.cons_append, feedB, feed]
    rcases cb x a v with ⟨y, b⟩
    cases b
    · rfl
    · exact ih y

theorem forEach_feed (cb : Proc σ) (op : σ → Entry → σ × Bool) (es : List Entry) (ds : List (List (Nat × Verif.Val)))
    (h : List.Forall₂ (fun e d => ∀ x, op x e = feedB cb d x) es ds) (x : σ) : forEach op es x = feed cb ds.flatten x := by
  induction h generalizing x with
  | nil => rfl
  | cons h1 _ ih =>
    rename_i e d es ds _
    rw [List.flatten_cons, feed_append]
    simp only [forEach]
    rw [h1 x]
    rcases feedB cb d x with ⟨y, b⟩
    cases b
    · rfl
    · exact ih y

theorem visit_path {t : Tree} (I : Inv t) (f : Nat → Bool) (cb : Proc σ) {n : Ptr} {l : PathL} (h : Path t n l) {fuel : Nat}
    (hf : l.length < fuel) (x : σ) : visit t f cb fuel (some n) x = feedB cb (l.reverse.filter fun e => f e.1) x := by
  induction fuel generalizing n l x with
  | zero => omega
  | succ fuel ih =>
    rcases snoc_cases l with rfl | ⟨l', a, v, rfl⟩
    · have : n = .root := h.inj I .root
      subst this
      simp [visit, feedB]
    · obtain ⟨q, h1, h2, h3, h4⟩ := parentOf_path h
      have hr : n ≠ .root := by
        intro e
        subst e
        have := Path.root.fun h
        simp at this
      simp only [visit, if_neg hr, h1, h3, h4]
      simp only [List.length_append, List.length_singleton] at hf
      simp only [List.reverse_append, List.reverse_cons, List.reverse_nil, List.nil_append, List.cons_append, List.filter_cons]
      by_cases hfa : f a = true
      · rw [if_pos hfa, if_pos hfa]
        simp only [feedB]
        rcases cb x a v with ⟨y, b⟩
        cases b
        · rfl
        · exact ih h2 (by omega) y
      · rw [if_neg hfa, if_neg hfa]
        exact ih h2 (by omega) x

theorem fuel_path {t : Tree} (I : Inv t) {n : Ptr} {l : PathL} (h : Path t n l) : l.length + 1 < t.fuelOf (some n) := by
  simp only [Tree.fuelOf, Option.map_some, Option.getD_some]
  rw [h.rank I]; omega

theorem ref_not_imm {t : Tree} {n : Ptr} {l : PathL} (h : Path t n l) (hl : l ≠ []) (h12 : ∀ x ∈ l, 12 ≤ x.1) :
    isImmediate t (Entry.ofNode t n) = false := by
  rcases snoc_cases l with rfl | ⟨l', a, v, rfl⟩
  · exact absurd rfl hl
  · obtain ⟨q, _, _, h3, _⟩ := parentOf_path h
    simp only [isImmediate, Entry.ofNode, h3]
    have : 12 ≤ a := h12 (a, v) (by simp)
    exact decide_eq_false (by unfold nameAttr; omega)

theorem imm_is {t : Tree} {e : Entry} {k : Nat} (h : ImmEntry t e k) : isImmediate t e = true ∧ e.attribute t = k := by
  obtain ⟨p, h1, _, _, h4, h5⟩ := h
  simp [isImmediate, Entry.attribute, h1, h4, h5]

theorem unpackOp_den {t : Tree} (I : Inv t) (cb : Proc σ) {e : Entry} {d : List (Nat × Verif.Val)} (h : Den t e d) (x : σ) :
    unpackOp t cb x e = feedB cb d x := by
  cases h with
  | ref hp hl h12 =>
    rename_i n l
    simp only [unpackOp, ref_not_imm hp hl h12, Bool.false_eq_true, if_false]
    have := visit_path I (fun _ => true) cb hp (fuel := t.fuelOf (some n)) (by have := fuel_path I hp; omega) x
    simpa [Entry.ofNode] using this
  | imm hk =>
    obtain ⟨h1, h2⟩ := imm_is hk
    simp only [unpackOp, h1, if_true, h2, feedB]
    rcases cb x _ e.val with ⟨y, b⟩
    cases b <;> rfl

theorem attrOp_den {t : Tree} (I : Inv t) {a : Nat} (hm : NotMeta t a) (cb : Proc σ) {e : Entry} {d : List (Nat × Verif.Val)} (h : Den t e d) (x : σ) :
    attrOp t a cb x e = feedB cb (d.filter fun y => decide (y.1 = a)) x := by
  cases h with
  | ref hp hl h12 =>
    rename_i n l
    simp only [attrOp, ref_not_imm hp hl h12, Bool.false_and, Bool.false_eq_true, if_false]
    exact visit_path I (fun b => decide (b = a)) cb hp (fuel := t.fuelOf (some n)) (by have := fuel_path I hp; omega) x
  | imm hk =>
    rename_i k
    obtain ⟨h1, h2⟩ := imm_is hk
    simp only [attrOp, h1, h2, Bool.true_and]
    by_cases hka : k = a
    · subst hka
      simp only [decide_true, if_true, List.filter_cons, List.filter_nil, feedB]
      rcases cb x k e.val with ⟨y, b⟩
      cases b <;> rfl
    · obtain ⟨p, p1, p2, p3, p4, p5⟩ := hk
      obtain ⟨l, hp⟩ := p2.path I
      rw [if_neg (by simp [hka]), p1]
      rw [visit_path I _ cb hp (by have := fuel_path I hp; omega) x]
      have e1 : (l.reverse.filter fun e => decide (e.1 = a)) = [] := by
        rw [List.filter_eq_nil_iff]
        intro y hy
        simpa using hm p l p5 hp y (by simpa using hy)
      rw [e1]
      simp [hka, feedB]

theorem firstOf_append (a : Nat) (D E : List (Nat × Verif.Val)) : firstOf a (D ++ E) = (firstOf a D).or (firstOf a E) := by
  simp only [firstOf, List.find?_append]
  cases D.find? fun y => decide (y.1 = a) <;> rfl

theorem firstOp_den {t : Tree} (I : Inv t) {a : Nat} (ha : a ≠ invId) {e : Entry} {d : List (Nat × Verif.Val)} (h : Den t e d) (x : Verif.Val) :
    firstOp t a x e = match firstOf a d with
      | some v => (v, false)
      | none => (x, true) := by
  cases h with
  | ref hp hl h12 =>
    rename_i n l
    simp only [firstOp, ref_not_imm hp hl h12, Bool.false_eq_true, if_false]
    have hnode : (Entry.ofNode t n).node = some n := rfl
    rw [hnode]
    rcases findUp_spec I ha hp (fuel_path I hp) with ⟨h1, h2⟩ | ⟨l₁, v, l₂, q, h1, h2, h3, h4⟩
    · rw [h1]
      have : firstOf a l.reverse = none := by
        simp only [firstOf, Option.map_eq_none_iff, List.find?_eq_none]
        intro y hy
        simpa using h2 y (by simpa using hy)
      rw [this]
    · rw [h3]
      obtain ⟨_, _, _, _, hv⟩ := parentOf_path h4
      have : firstOf a l.reverse = some v := by
        subst h1
        simp only [List.reverse_append, List.reverse_cons, List.reverse_nil, List.nil_append, firstOf_append]
        have : firstOf a l₂.reverse = none := by
          simp only [firstOf, Option.map_eq_none_iff, List.find?_eq_none]
          intro y hy
          simpa using h2 y (by simpa using hy)
        rw [this]
        simp [firstOf]
      rw [this]
      dsimp only
      rw [hv]
  | imm hk =>
    rename_i k
    obtain ⟨h1, h2⟩ := imm_is hk
    simp only [firstOp, h1, h2, if_true]
    by_cases hka : k = a
    · simp [hka, firstOf]
    · simp [hka, firstOf]

theorem forEach_first {t : Tree} (I : Inv t) {a : Nat} (ha : a ≠ invId) {es : List Entry} {ds : List (List (Nat × Verif.Val))}
    (h : List.Forall₂ (Den t) es ds) (x : Verif.Val) : forEach (firstOp t a) es x = (firstOf a ds.flatten).getD x := by
  induction h generalizing x with
  | nil => rfl
  | cons h1 _ ih =>
    rename_i e d es ds _
    rw [List.flatten_cons, firstOf_append]
    simp only [forEach]
    rw [firstOp_den I ha h1 x]
    cases firstOf a d with
    | some v => rfl
    | none => exact ih x

/-! ### look-up -/

theorem lookup_live {t : Tree} (I : Inv t) {p : Ptr} (h1 : Live t p) (h2 : p ≠ .root) : t.lookup (t.idOf p) = some p ∧
    t.idOf p < t.numBlocks * t.npb := by
  rcases h1 with h1 | h1
  · exact absurd h1 h2
  · cases p with
    | root => exact absurd rfl h2
    | cell b i =>
      obtain ⟨r, hr⟩ := Option.isSome_iff_exists.1 h1
      have hr' : t.node b i = some r := hr
      have hid : t.idOf (.cell b i) = b * t.npb + i := by
        rw [← I.id _ _ _ hr']; simp [Tree.idOf, hr]
      have a1 := (I.alloc b i).1 (by rw [hr']; rfl)
      have x1 := I.idx b a1.1
      have hn := I.npb
      have hnb := I.nb
      rw [hid]
      constructor
      · unfold Tree.lookup
        have e1 : (b * t.npb + i) / t.npb = b := by
          rw [Nat.mul_comm, Nat.mul_add_div (by omega), Nat.div_eq_of_lt (by omega)]; omega
        have e2 : (b * t.npb + i) % t.npb = i := by
          rw [Nat.mul_comm, Nat.mul_add_mod, Nat.mod_eq_of_lt (by omega)]
        simp only [e1, e2]
        rw [if_neg]
        simp; omega
      · have : (b + 1) * t.npb ≤ t.numBlocks * t.npb := Nat.mul_le_mul_right _ (by omega)
        rw [Nat.add_mul] at this
        omega

theorem Den.ext {t t' : Tree} (x : Ext t t') {e : Entry} {d : List (Nat × Verif.Val)} (h : Den t e d) : Den t' e d := by
  cases h with
  | ref hp hl h12 =>
    rename_i n l
    have e1 : Entry.ofNode t n = Entry.ofNode t' n := by
      rcases snoc_cases l with rfl | ⟨l', a, v, rfl⟩
      · exact absurd rfl hl
      · obtain ⟨_, _, _, _, h4⟩ := parentOf_path hp
        obtain ⟨_, _, _, _, h4'⟩ := parentOf_path (x.path hp)
        simp only [Entry.ofNode, h4, h4']
    rw [e1]
    exact .ref (x.path hp) hl h12
  | imm hk =>
    obtain ⟨p, p1, p2, p3, p4, p5⟩ := hk
    refine .imm ⟨p, p1, x.live p2, p3, by rw [x.idOf p2]; exact p4, ?_⟩
    rcases p2 with p2 | p2
    · exact absurd p2 p3
    · obtain ⟨r, hr⟩ := Option.isSome_iff_exists.1 p2
      rw [← p5]
      simp [Tree.attrOf, hr, x.get hr]

theorem resolve_pack {W : Words} {t t' : Tree} (I : Inv t) (I' : Inv t') (x : Ext t t') (hsz : t.numBlocks * t.npb ≤ invId) {e : Entry}
    {d : List (Nat × Verif.Val)} (h : Den t e d) (hw : isImmediate t e = true → W.Reads e.val) :
    resolve W t' (packEntry W t e) = some e ∧ e.isReference t = !isImmediate t e ∧ packEntry W t e ≠ .empty := by
  have h' := h.ext x
  cases h with
  | ref hp hl h12 =>
    rename_i n l
    have hn := ref_not_imm hp hl h12
    have hr : (Entry.ofNode t n).isReference t = true := by
      simp only [isImmediate, Entry.ofNode] at hn
      simp only [Entry.isReference, Entry.ofNode]
      simpa using hn
    have hroot : n ≠ .root := by
      intro e
      subst e
      exact hl (Path.root.fun hp).symm
    have hlive : Live t n := by
      cases hp with
      | root => exact .inl rfl
      | cell hr0 _ => exact .inr (by simp [Tree.get?, hr0])
    obtain ⟨k1, k2⟩ := lookup_live I hlive hroot
    obtain ⟨k3, _⟩ := lookup_live I' (x.live hlive) hroot
    rw [x.idOf hlive] at k3
    have hpk : packEntry W t (Entry.ofNode t n) = .ref (BitVec.ofNat 64 (t.idOf n)) := by
      unfold packEntry
      have : (Entry.ofNode t n).node = some n := rfl
      rw [this]
      dsimp only
      rw [if_pos hr]
    refine ⟨?_, by rw [hr, hn]; rfl, by rw [hpk]; simp⟩
    rw [hpk]
    simp only [resolve, BitVec.toNat_ofNat]
    rw [Nat.mod_eq_of_lt (by unfold invId at hsz; omega), k3, Option.map_some]
    rcases snoc_cases l with rfl | ⟨l', a, v, rfl⟩
    · exact absurd rfl hl
    · obtain ⟨_, _, _, _, h4⟩ := parentOf_path hp
      obtain ⟨_, _, _, _, h4'⟩ := parentOf_path (x.path hp)
      simp only [Entry.ofNode, h4, h4']
  | imm hk =>
    obtain ⟨i1, i2⟩ := imm_is hk
    have hk' := hk
    obtain ⟨p, p1, p2, p3, p4, p5⟩ := hk'
    have hr : e.isReference t = false := by simp [Entry.isReference, p1, p5]
    have hpk : packEntry W t e = .imm (BitVec.ofNat 64 (e.attribute t)) (W.enc e.val) := by
      unfold packEntry
      rw [p1]
      dsimp only
      rw [if_neg (by rw [hr]; simp)]
    refine ⟨?_, by rw [hr, i1]; rfl, by rw [hpk]; simp⟩
    obtain ⟨k1, k2⟩ := lookup_live I p2 p3
    obtain ⟨k3, _⟩ := lookup_live I' (x.live p2) p3
    rw [x.idOf p2] at k3
    rw [hpk]
    simp only [resolve, BitVec.toNat_ofNat]
    rw [i2, ← p4, Nat.mod_eq_of_lt (by unfold invId at hsz; omega), k3, (hw i1).1]
    have : t'.attrOf p = nameAttr := by
      rcases p2 with p2 | p2
      · exact absurd p2 p3
      · obtain ⟨r, hr⟩ := Option.isSome_iff_exists.1 p2
        rw [← p5]
        simp [Tree.attrOf, hr, x.get hr]
    simp only [AttrReg.makeAttribute, this, if_true]
    obtain ⟨en, ev⟩ := e
    simp only at p1
    rw [p1]

/-! ### the entries on a blackboard -/

/-- (attribute, value) of an immediate entry -/
def immOf (t : Tree) (e : Entry) : Nat × Verif.Val := (e.attribute t, e.val)

theorem two_refs' {β : Type} (M : List (Nat × Entry)) (f : Entry → List β) (R U : List β) (hn : (M.map Prod.fst).Nodup)
    (h12 : ∀ x ∈ M, x.1 = 1 ∨ x.1 = 2) (h1 : ∀ e, (1, e) ∈ M → f e = R) (h2 : ∀ e, (2, e) ∈ M → f e = U)
    (n1 : (∀ e, (1, e) ∉ M) → R = []) (n2 : (∀ e, (2, e) ∉ M) → U = []) :
    (M.flatMap (fun x => f x.2) = R ++ U ∨ M.flatMap (fun x => f x.2) = U ++ R) ∧ M.length ≤ 2 := by
  match M with
  | [] => exact ⟨.inl (by rw [n1 (by simp), n2 (by simp)]; rfl), by simp⟩
  | [(k, e)] =>
    refine ⟨.inl ?_, by simp⟩
    rcases h12 (k, e) (by simp) with hk | hk <;> dsimp only at hk <;> subst hk
    · rw [n2 (by simp)]; simp [h1 e (by simp)]
    · rw [n1 (by simp)]; simp [h2 e (by simp)]
  | [(k, e), (k', e')] =>
    refine ⟨?_, by simp⟩
    have hne : k ≠ k' := by simpa using hn
    rcases h12 (k, e) (by simp) with hk | hk <;> rcases h12 (k', e') (by simp) with hk' | hk' <;> dsimp only at hk hk' <;>
      subst hk <;> subst hk'
    · exact absurd rfl hne
    · left; simp [h1 e (by simp), h2 e' (by simp)]
    · right; simp [h2 e (by simp), h1 e' (by simp)]
    · exact absurd rfl hne
  | (a, e1) :: (b, e2) :: (c, e3) :: M =>
    exfalso
    have ha := h12 (a, e1) (by simp)
    have hb := h12 (b, e2) (by simp)
    have hc := h12 (c, e3) (by simp)
    simp only [List.map_cons, List.nodup_cons, List.mem_cons, not_or] at hn
    dsimp only at ha hb hc
    omega

theorem forall2_of {α β : Type} {R : α → β → Prop} {l : List α} {f : α → β} (h : ∀ x ∈ l, R x (f x)) : List.Forall₂ R l (l.map f) := by
  induction l with
  | nil => exact .nil
  | cons a l ih => exact .cons (h a (by simp)) (ih fun x hx => h x (by simp [hx]))

theorem board_entries {s : State} (h : RtReachV s) (l : Loc) :
    (∃ ds, List.Forall₂ (Den s.tree) ((BB.snapshot (s.board l)).filter fun e => !isImmediate s.tree e) ds ∧ PathsOf s l ds.flatten) ∧
    ((BB.snapshot (s.board l)).filter fun e => !isImmediate s.tree e).length ≤ 2 ∧
    List.Forall₂ (Den s.tree) ((BB.snapshot (s.board l)).filter fun e => isImmediate s.tree e)
      (((BB.snapshot (s.board l)).filter fun e => isImmediate s.tree e).map fun e => [immOf s.tree e]) ∧
    ValuesOf s l (((BB.snapshot (s.board l)).filter fun e => isImmediate s.tree e).map (immOf s.tree)) := by
  obtain ⟨c, Rs⟩ := h.toReach.rel
  have I := Rs.inv
  obtain ⟨p, hr, s1, s2, s3⟩ := (Rs.ctx l).ex
  obtain ⟨L, hn, hk, hL, hsnap⟩ := (h.vis l).exact hr
  have hL' : ∀ k v, (k, v) ∈ L → p.m k = some v := fun k v hm => ((hL k v (hk _ hm)).1 hm).1
  have slotDen : ∀ e lp, Slot s.tree (some e) lp → Den s.tree e lp.reverse ∧ isImmediate s.tree e = false := by
    intro e lp hs
    obtain ⟨_, hne, n, rfl, hp⟩ := slot_ref hs
    exact ⟨.ref hp hne hs.1, ref_not_imm hp hne hs.1⟩
  have valDen : ∀ k e v, ValSlot s.tree k (some e) v → ImmEntry s.tree e k ∧ v = some e.val := by
    intro k e v hs
    cases v with
    | none => exact absurd hs (by simp [ValSlot])
    | some v =>
      obtain ⟨q, rfl, h1, h2, h3, h4⟩ := hs
      exact ⟨⟨q, rfl, h1, h2, h3, h4⟩, rfl⟩
  have kref : ∀ k e, (k, e) ∈ L → (k = 1 ∨ k = 2) → isImmediate s.tree e = false := by
    intro k e hm hk12
    have := hL' k e hm
    rcases hk12 with rfl | rfl
    · rw [this] at s1; exact (slotDen _ _ s1).2
    · rw [this] at s2; exact (slotDen _ _ s2).2
  have kimm : ∀ k e, (k, e) ∈ L → k ≠ 1 → k ≠ 2 → ImmEntry s.tree e k := by
    intro k e hm h1 h2
    have := s3 k h1 h2 (hk _ hm)
    rw [hL' k e hm] at this
    exact (valDen _ _ _ this).1
  have kcase : ∀ k e, (k, e) ∈ L → isImmediate s.tree e = false → k = 1 ∨ k = 2 := by
    intro k e hm hre
    by_cases h1 : k = 1
    · exact .inl h1
    · by_cases h2 : k = 2
      · exact .inr h2
      · rw [(imm_is (kimm k e hm h1 h2)).1] at hre; simp at hre
  rw [hsnap]
  simp only [List.filter_map]
  -- references
  let g : Entry → List (Nat × Verif.Val) := fun e => if p.m 1 = some e then (c.ctx l).region.reverse else (c.ctx l).unal.reverse
  let M := L.filter (fun x => !isImmediate s.tree x.2)
  have hM : ∀ x ∈ M, x ∈ L ∧ (x.1 = 1 ∨ x.1 = 2) := fun x hx => by
    obtain ⟨a, b⟩ := List.mem_filter.1 hx
    exact ⟨a, kcase x.1 x.2 a (by simpa using b)⟩
  -- both slots holding the same entry means the same path
  have g1 : ∀ e, (1, e) ∈ M → g e = (c.ctx l).region.reverse := fun e he => by
    simp only [g, hL' 1 e (hM _ he).1, if_true]
  have g2 : ∀ e, (2, e) ∈ M → g e = (c.ctx l).unal.reverse := fun e he => by
    simp only [g]
    split
    · rename_i h1
      rw [h1] at s1
      rw [hL' 2 e (hM _ he).1] at s2
      obtain ⟨_, _, n, e1, hp⟩ := slot_ref s1
      obtain ⟨_, _, n', e2, hp'⟩ := slot_ref s2
      rw [e1] at e2
      have : n = n' := by simpa [Entry.ofNode] using (congrArg Entry.node e2)
      subst this
      rw [hp.fun hp']
    · rfl
  have key := two_refs' M g (c.ctx l).region.reverse (c.ctx l).unal.reverse (hn.sublist (List.Sublist.map _ List.filter_sublist))
    (fun x hx => (hM x hx).2) g1 g2
    (fun hno => by
      cases hm : p.m 1 with
      | none => rw [hm] at s1; rw [s1.2]; rfl
      | some e =>
        have hmem := (hL 1 e (by decide)).2 ⟨hm, rfl⟩
        exact absurd (List.mem_filter.2 ⟨hmem, by simp [kref 1 e hmem (.inl rfl)]⟩) (hno e))
    (fun hno => by
      cases hm : p.m 2 with
      | none => rw [hm] at s2; rw [s2.2]; rfl
      | some e =>
        have hmem := (hL 2 e (by decide)).2 ⟨hm, rfl⟩
        exact absurd (List.mem_filter.2 ⟨hmem, by simp [kref 2 e hmem (.inr rfl)]⟩) (hno e))
  refine ⟨⟨M.map fun x => g x.2, ?_, ?_⟩, ?_, ?_, ?_⟩
  · have : (M.map fun x => g x.2) = (M.map Prod.snd).map g := by simp
    rw [this]
    apply forall2_of
    intro e he
    obtain ⟨⟨k, e'⟩, hx, rfl⟩ := List.mem_map.1 he
    obtain ⟨x1, x2⟩ := hM _ hx
    dsimp only at x2 ⊢
    rcases x2 with rfl | rfl
    · rw [g1 e' hx]
      have := hL' 1 e' x1
      rw [this] at s1
      exact (slotDen _ _ s1).1
    · rw [g2 e' hx]
      have := hL' 2 e' x1
      rw [this] at s2
      exact (slotDen _ _ s2).1
  · refine ⟨(c.ctx l).region, (c.ctx l).unal, (Rs.regions l _).2 rfl, (Rs.unaligned l _).2 rfl, ?_⟩
    have e1 : (M.map fun x => g x.2).flatten = M.flatMap fun x => g x.2 := (List.flatMap_def ..).symm
    rw [e1]; exact key.1
  · have := key.2
    rw [List.length_map]; exact this
  · apply forall2_of
    intro e he
    obtain ⟨⟨k, e'⟩, hx, rfl⟩ := List.mem_map.1 he
    obtain ⟨x1, x2⟩ := List.mem_filter.1 hx
    dsimp only [Function.comp] at x2
    have k1 : k ≠ 1 := fun hc => by rw [kref k e' x1 (.inl hc)] at x2; simp at x2
    have k2 : k ≠ 2 := fun hc => by rw [kref k e' x1 (.inr hc)] at x2; simp at x2
    have hi := kimm k e' x1 k1 k2
    dsimp only
    simp only [immOf, (imm_is hi).2]
    exact .imm hi
  · have hv : ∀ y ∈ L.filter (fun x => isImmediate s.tree x.2), y ∈ L ∧ y.1 ≠ 1 ∧ y.1 ≠ 2 ∧ ImmEntry s.tree y.2 y.1 := by
      rintro ⟨k, e⟩ hy
      obtain ⟨y1, y2⟩ := List.mem_filter.1 hy
      have k1 : k ≠ 1 := fun hc => by rw [kref k e y1 (.inl hc)] at y2; simp at y2
      have k2 : k ≠ 2 := fun hc => by rw [kref k e y1 (.inr hc)] at y2; simp at y2
      exact ⟨y1, k1, k2, kimm k e y1 k1 k2⟩
    constructor
    · have : ((L.filter ((fun e => isImmediate s.tree e) ∘ Prod.snd)).map Prod.snd).map (immOf s.tree) =
        (L.filter (fun x => isImmediate s.tree x.2)).map fun y => (y.1, y.2.val) := by
        rw [List.map_map]
        apply List.map_congr_left
        intro y hy
        simp only [Function.comp, immOf, (imm_is (hv y hy).2.2.2).2]
      rw [this, List.map_map]
      exact hn.sublist (List.Sublist.map _ List.filter_sublist)
    · intro k v
      rw [List.map_map, List.mem_map]
      constructor
      · rintro ⟨⟨k', e⟩, hy, he⟩
        obtain ⟨v1, v2, v3, v4⟩ := hv _ hy
        simp only [Function.comp, immOf, (imm_is v4).2, Prod.mk.injEq] at he
        obtain ⟨rfl, rfl⟩ := he
        have kinv := hk _ v1
        refine ⟨v2, v3, kinv, e, ?_, ?_, rfl⟩
        · rw [bb_get hr kinv, hL' k' e v1]; rfl
        · obtain ⟨q, q1, _⟩ := v4
          simp only at q1
          rw [q1]; rfl
      · rintro ⟨k1, k2, k3, e, g1, g2, g3⟩
        rw [bb_get hr k3] at g1
        have hm : p.m k = some e := by
          cases hp : p.m k with
          | none =>
            rw [hp] at g1
            simp only [Option.getD_none, Option.some.injEq] at g1
            rw [← g1] at g2
            exact absurd g2 (by simp [default])
          | some e' => rw [hp] at g1; simpa using g1
        have hmem := (hL k e k3).2 ⟨hm, rfl⟩
        have hi := kimm k e hmem k1 k2
        refine ⟨(k, e), List.mem_filter.2 ⟨hmem, (imm_is hi).1⟩, ?_⟩
        simp only [Function.comp, immOf, (imm_is hi).2, g3]

/-! ### packing and unpacking -/

theorem refs_pack (W : Words) (t : Tree) (es : List Entry) (h : ∀ e ∈ es, e.isReference t = !isImmediate t e ∧ packEntry W t e ≠ .empty) :
    (refs (es.map (packEntry W t))).map SEntry.ref = (es.filter fun e => !isImmediate t e).map (packEntry W t) ∧
    (imms (es.map (packEntry W t))).map (fun e => SEntry.imm e.1 e.2) = (es.filter fun e => isImmediate t e).map (packEntry W t) := by
  induction es with
  | nil => exact ⟨rfl, rfl⟩
  | cons e es ih =>
    obtain ⟨i1, i2⟩ := ih fun x hx => h x (by simp [hx])
    obtain ⟨h1, h2⟩ := h e (by simp)
    have hn : ∃ n, e.node = some n := by
      cases hn : e.node with
      | none => exact absurd (by simp [packEntry, hn]) h2
      | some n => exact ⟨n, rfl⟩
    obtain ⟨n, hn⟩ := hn
    cases hi : isImmediate t e with
    | true =>
      rw [hi] at h1
      have hp : packEntry W t e = .imm (BitVec.ofNat 64 (e.attribute t)) (W.enc e.val) := by
        unfold packEntry; rw [hn]; dsimp only; rw [if_neg (by rw [h1]; simp)]
      constructor
      · simp [hp, refs, hi, i1]
      · simp [hp, imms, hi, i2]
    | false =>
      rw [hi] at h1
      have hp : packEntry W t e = .ref (BitVec.ofNat 64 (t.idOf n)) := by
        unfold packEntry; rw [hn]; dsimp only; rw [if_pos (by rw [h1]; rfl)]
      constructor
      · simp [hp, refs, hi, i1]
      · simp [hp, imms, hi, i2]

/-- a record with at most four references that fits into the buffer is read back completely -/
theorem read_all (L : Nat) (hL : 2 ≤ L) (es : List SEntry) (h4 : (refs es).length ≤ 4) (hv : ∀ e ∈ imms es, ValidVar e.2)
    (h128 : (imms es).length < 128) :
    ∃ r, (Rec.init L).append es = some r ∧ (r.neededLen ≤ L → ∃ v, View.parse r.buffer = some (v, r.neededLen) ∧
      v.unpack = some ((refs es).map .ref ++ (imms es).map (fun e => .imm e.1 e.2))) := by
  obtain ⟨r, hr, hp⟩ := Prog.loop (L := L) es (Rec.init L) [] [] [] [] (Prog.init L hL) (.inl ⟨rfl, by simpa using h4⟩)
  simp only [List.nil_append] at hp
  obtain ⟨hl, hn, ns, is, hg, hs1, hs2, hk, hf⟩ := hp
  refine ⟨r, hr, fun hle => ?_⟩
  rw [hn] at hle
  obtain ⟨rfl, rfl⟩ := hf hle (by omega) h128
  obtain ⟨rest, hb⟩ := hg.buf
  obtain ⟨p1, p2, p3⟩ := parse_enc _ _ hg.lt1 hg.lt2 hv rest r.buffer hb
  refine ⟨_, by rw [p1, hn], ?_⟩
  rw [unpack_eq_toEntryList]
  unfold View.toEntryList
  simp only [p2, p3, Option.bind_eq_bind, Option.bind_some]

theorem mapM_resolve {W : Words} {t t' : Tree} (es : List Entry) (h : ∀ e ∈ es, resolve W t' (packEntry W t e) = some e) :
    (es.map (packEntry W t)).mapM (resolve W t') = some es := by
  induction es with
  | nil => rfl
  | cons e es ih =>
    rw [List.map_cons, List.mapM_cons, h e (by simp), ih fun x hx => h x (by simp [hx])]
    rfl

end Verif.Capi
