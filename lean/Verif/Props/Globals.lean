import Verif.Runtime.GlobalsLemmas
import Verif.Props.Tree
import Verif.Props.Runtime
/-!
# C42: global metadata
-/
namespace Verif.RT
open MTree AttrReg

theorem isGlobalId_iff {t : Tree} (I : Inv t) (id : Nat) : isGlobalId t id = true ↔ IsGlobal t id := by
  unfold isGlobalId IsGlobal
  constructor
  · intro h
    cases hl : t.lookup id with
    | none => rw [hl] at h; simp [makeAttribute] at h
    | some p =>
      rw [hl] at h
      simp only [makeAttribute] at h
      split at h
      · rename_i p' hp
        split at hp
        · rename_i ha
          simp only [Option.some.injEq] at hp
          subst hp
          unfold Tree.lookup at hl
          dsimp only at hl
          split at hl
          · simp at hl
          · simp only [Option.some.injEq] at hl
            subst hl
            have hs : (t.node (id / t.npb) (id % t.npb)).isSome := by
              cases hn : t.node (id / t.npb) (id % t.npb) with
              | some r => rfl
              | none =>
                have : t.attrOf (.cell (id / t.npb) (id % t.npb)) = invId := by simp [Tree.attrOf, Tree.get?, hn]
                rw [this] at ha
                exact absurd ha (by decide)
            obtain ⟨r, hr⟩ := Option.isSome_iff_exists.1 hs
            refine ⟨.cell (id / t.npb) (id % t.npb), .inr hs, by simp, ?_, ha, ?_⟩
            · simp only [Tree.idOf, Tree.get?, hr, Option.map_some, Option.getD_some]
              rw [I.id _ _ _ hr, Nat.mul_comm]
              exact Nat.div_add_mod ..
            · exact of_decide_eq_true h
        · simp at hp
      · simp at h
  · rintro ⟨p, h1, h2, h3, h4, h5⟩
    rcases h1 with h1 | h1
    · exact absurd h1 h2
    · cases p with
      | root => exact absurd rfl h2
      | cell b i =>
        obtain ⟨r, hr⟩ := Option.isSome_iff_exists.1 h1
        have hr' : t.node b i = some r := hr
        have hid : r.id = id := by simpa [Tree.idOf, hr] using h3
        have hl : t.lookup id = some (.cell b i) := by
          have a1 := (I.alloc b i).1 (by rw [hr']; rfl)
          have x1 := I.idx b a1.1
          have hn := I.npb
          have hnb := I.nb
          rw [← hid, I.id _ _ _ hr']
          unfold Tree.lookup
          have e1 : (b * t.npb + i) / t.npb = b := by
            rw [Nat.mul_comm, Nat.mul_add_div (by omega), Nat.div_eq_of_lt (by omega)]; omega
          have e2 : (b * t.npb + i) % t.npb = i := by
            rw [Nat.mul_comm, Nat.mul_add_mod, Nat.mod_eq_of_lt (by omega)]
          simp only [e1, e2]
          rw [if_neg]
          simp; omega
        rw [hl]
        simp only [makeAttribute, if_pos h4]
        exact decide_eq_true h5

/-- a tree has fewer than 2^64 nodes -/
theorem inv_not_global {t : Tree} (I : Inv t) (hsz : t.numBlocks * t.npb ≤ invId) : isGlobalId t invId = false := by
  have hn := I.npb
  have : t.lookup invId = none := by
    unfold Tree.lookup
    dsimp only
    rw [if_pos]
    have : t.numBlocks ≤ invId / t.npb := (Nat.le_div_iff_mul_le (by omega)).2 hsz
    simp [this]
  simp [isGlobalId, this, makeAttribute]

/-- the walk up a path finds the nodes of its global part, innermost first -/
theorem walk_spec {t : Tree} (I : Inv t) (hinv : isGlobalId t invId = false) {n : Ptr} {l : PathL} (h : Path t n l) {fuel : Nat} (hf : l.length + 1 < fuel) :
    (∀ m ∈ walkGlobals t fuel (some n), Live t m ∧ m ≠ .root) ∧
    (walkGlobals t fuel (some n)).reverse.map (fun m => (t.attrOf m, t.valOf m)) = globalPart t l := by
  induction fuel generalizing n l with
  | zero => omega
  | succ fuel ih =>
    cases h with
    | root =>
      cases fuel with
      | zero => simp at hf
      | succ fuel =>
        have e : t.attrOf .root = invId := rfl
        have e2 : t.parentOf .root = none := rfl
        simp [walkGlobals, e, e2, hinv, globalPart]
    | cell hr hp =>
      rename_i b i r l
      have e : t.attrOf (.cell b i) = r.attr := by simp [Tree.attrOf, Tree.get?, hr]
      have e1 : t.valOf (.cell b i) = r.val := by simp [Tree.valOf, Tree.get?, hr]
      have e2 : t.parentOf (.cell b i) = some r.parent := by simp [Tree.parentOf, Tree.get?, hr]
      obtain ⟨i1, i2⟩ := ih hp (by simpa using hf)
      simp only [walkGlobals, e2, e]
      by_cases hg : isGlobalId t r.attr = true
      · rw [if_pos hg]
        refine ⟨?_, ?_⟩
        · intro m hm
          rcases List.mem_cons.1 hm with rfl | hm
          · exact ⟨.inr (by simp [Tree.get?, hr]), by simp⟩
          · exact i1 m hm
        · rw [List.reverse_cons, List.map_append, i2]
          simp [globalPart, e, e1, (isGlobalId_iff I _).1 hg]
      · rw [if_neg hg]
        refine ⟨i1, ?_⟩
        rw [i2]
        have : ¬ IsGlobal t r.attr := fun hc => hg ((isGlobalId_iff I _).2 hc)
        simp [globalPart, this]


/-- result of the loop over the snapshot -/
theorem foldl_global (t : Tree) (es : List Entry) (acc : List Entry × List Ptr) :
    es.foldl (globalStep t) acc =
      (acc.1 ++ es.filter (fun e => !e.isReference t && isGlobalId t (e.attribute t)),
       acc.2 ++ (es.filter (fun e => e.isReference t)).flatMap fun e => walkGlobals t (t.fuelOf e.node) e.node) := by
  induction es generalizing acc with
  | nil => simp
  | cons e es ih =>
    rw [List.foldl_cons, ih, globalStep]
    cases h1 : e.isReference t <;> cases h2 : isGlobalId t (e.attribute t) <;> simp [h1, h2]

theorem slot_ref {t : Tree} {e : Entry} {l : PathL} (h : Slot t (some e) l) : e.isReference t = true ∧ l ≠ [] ∧
    ∃ n, e = Entry.ofNode t n ∧ Path t n l := by
  obtain ⟨h0, h1, n, rfl, hn⟩ := h
  refine ⟨?_, h1, n, rfl, hn⟩
  simp only [Entry.isReference, Entry.ofNode]
  rcases snoc_cases l with rfl | ⟨l', a, v, rfl⟩
  · exact absurd rfl h1
  · obtain ⟨q, _, _, e1, _⟩ := parentOf_path hn
    rw [e1]
    have : 12 ≤ a := h0 (a, v) (by simp)
    exact decide_eq_true (by unfold nameAttr; omega)

theorem val_imm {t : Tree} {k : Nat} {e : Entry} {v : Option Val} (h : ValSlot t k (some e) v) :
    e.isReference t = false ∧ e.attribute t = k ∧ v = some e.val ∧ e.node.isSome = true := by
  cases v with
  | none => exact absurd h (by simp [ValSlot])
  | some v =>
    obtain ⟨p, rfl, h1, h2, h3, h4⟩ := h
    simp [Entry.isReference, Entry.attribute, h4, h3]


theorem two_refs {β : Type} (M : List (Nat × Entry)) (f : Entry → List β) (R U : List β) (hn : (M.map Prod.fst).Nodup)
    (h12 : ∀ x ∈ M, x.1 = 1 ∨ x.1 = 2) (h1 : ∀ e, (1, e) ∈ M → f e = R) (h2 : ∀ e, (2, e) ∈ M → f e = U)
    (n1 : (∀ e, (1, e) ∉ M) → R = []) (n2 : (∀ e, (2, e) ∉ M) → U = []) :
    M.reverse.flatMap (fun x => f x.2) = U ++ R ∨ M.reverse.flatMap (fun x => f x.2) = R ++ U := by
  match M with
  | [] => left; rw [n1 (by simp), n2 (by simp)]; rfl
  | [(k, e)] =>
    left
    rcases h12 (k, e) (by simp) with hk | hk <;> dsimp only at hk <;> subst hk
    · rw [n2 (by simp)]; simp [h1 e (by simp)]
    · rw [n1 (by simp)]; simp [h2 e (by simp)]
  | [(k, e), (k', e')] =>
    have hne : k ≠ k' := by simpa using hn
    rcases h12 (k, e) (by simp) with hk | hk <;> rcases h12 (k', e') (by simp) with hk' | hk' <;> dsimp only at hk hk' <;>
      subst hk <;> subst hk'
    · exact absurd rfl hne
    · left; simp [h1 e (by simp), h2 e' (by simp)]
    · right; simp [h2 e (by simp), h1 e' (by simp)]
    · exact absurd rfl hne
  | (a, e1) :: (b, e2) :: (c, e3) :: M =>
    exfalso
    have ha := h12 (a, e1) (by simp)
    have hb := h12 (b, e2) (by simp)
    have hc := h12 (c, e3) (by simp)
    simp only [List.map_cons, List.nodup_cons, List.mem_cons, not_or] at hn
    dsimp only at ha hb hc
    omega

theorem getPathNodes_fails (th : Nat) (ns : List (Option Ptr)) (t : Tree) (p : Option Ptr) :
    t.fails ≤ (getPathNodes t th ns p).1.fails := by
  induction ns generalizing t p with
  | nil => exact Nat.le_refl _
  | cons n ns ih =>
    cases n with
    | none => exact ih t p
    | some n => exact Nat.le_trans (getChild_fails ..) (ih _ _)

theorem globalsOf_fails (t : Tree) (th : Nat) (bb : Board) : t.fails ≤ (globalsOf t th bb).1.fails := by
  unfold globalsOf
  dsimp only
  split
  · exact Nat.le_refl _
  · have := getPathNodes_fails th ((((BB.snapshot bb).take snapMax).foldl (globalStep t) ([], [])).2.reverse.map some) t none
    split
    · rename_i h; rw [h] at this; exact this
    · rename_i h; rw [h] at this; exact this

/-- the entries on one blackboard -/
theorem globalsOf_exact {s : State} (h : RtReachV s) (l : Loc) (th : Nat) {t : Tree} (I : Inv t) (x : Ext s.tree t)
    (hsz : t.numBlocks * t.npb ≤ invId) (hlen : (BB.snapshot (s.board l)).length ≤ 120)
    (hf : (globalsOf t th (s.board l)).1.fails = t.fails) :
    ExactGlobals { s with tree := t } l (globalsOf t th (s.board l)).1 (globalsOf t th (s.board l)).2 ∧
      Ext t (globalsOf t th (s.board l)).1 ∧ Inv (globalsOf t th (s.board l)).1 := by
  have hinv := inv_not_global I hsz
  obtain ⟨c, Rs⟩ := h.toReach.rel
  obtain ⟨p, hr, s1, s2, s3⟩ := (Rs.ctx l).ex
  obtain ⟨L, hn, hk, hL, hsnap⟩ := (h.vis l).exact hr
  have s1 := s1.ext x
  have s2 := s2.ext x
  have s3 := fun k a b c => (s3 k a b c).ext x
  have hL' : ∀ k v, (k, v) ∈ L → p.m k = some v := fun k v hm => ((hL k v (hk _ hm)).1 hm).1
  -- references sit on slots 1 and 2, immediate entries elsewhere
  have kref : ∀ k e, (k, e) ∈ L → (k = 1 ∨ k = 2) → e.isReference t = true := by
    intro k e hm hk12
    have := hL' k e hm
    rcases hk12 with rfl | rfl
    · rw [this] at s1; exact (slot_ref s1).1
    · rw [this] at s2; exact (slot_ref s2).1
  have kimm : ∀ k e, (k, e) ∈ L → k ≠ 1 → k ≠ 2 → ValSlot t k (some e) ((c.ctx l).vals k) := by
    intro k e hm h1 h2
    have := s3 k h1 h2 (hk _ hm)
    rwa [hL' k e hm] at this
  have kcase : ∀ k e, (k, e) ∈ L → e.isReference t = true → k = 1 ∨ k = 2 := by
    intro k e hm hre
    by_cases h1 : k = 1
    · exact .inl h1
    · by_cases h2 : k = 2
      · exact .inr h2
      · have := (val_imm (kimm k e hm h1 h2)).1
        rw [this] at hre; simp at hre
  -- the loop
  let W : Entry → List Ptr := fun e => walkGlobals t (t.fuelOf e.node) e.node
  let im := L.filter (fun x => !x.2.isReference t && isGlobalId t (x.2.attribute t))
  let M := L.filter (fun x => x.2.isReference t)
  have hacc : ((BB.snapshot (s.board l)).take snapMax).foldl (globalStep t) ([], []) =
      (im.map Prod.snd, M.flatMap fun x => W x.2) := by
    rw [List.take_of_length_le (by exact hlen), foldl_global, hsnap]
    simp only [List.nil_append, List.filter_map, List.flatMap_map]
    rfl
  have wspec : ∀ e lp, Slot t (some e) lp → (∀ m ∈ W e, Live t m ∧ m ≠ .root) ∧
      (W e).reverse.map (fun m => (t.attrOf m, t.valOf m)) = globalPart t lp := by
    intro e lp hs
    obtain ⟨_, _, n, rfl, hp⟩ := slot_ref hs
    refine walk_spec I hinv hp ?_
    simp only [Tree.fuelOf, Option.map_some, Option.getD_some, Entry.ofNode]
    rw [hp.rank I]; omega
  have hG := two_refs M (fun e => (W e).reverse.map (fun m => (t.attrOf m, t.valOf m))) (globalPart t (c.ctx l).region) (globalPart t (c.ctx l).unal)
    (hn.sublist (List.Sublist.map _ List.filter_sublist))
    (fun x hx => kcase x.1 x.2 (List.mem_filter.1 hx).1 (List.mem_filter.1 hx).2)
    (fun e he => by
      have := hL' 1 e (List.mem_filter.1 he).1
      exact (wspec e _ (by rw [this] at s1; exact s1)).2)
    (fun e he => by
      have := hL' 2 e (List.mem_filter.1 he).1
      exact (wspec e _ (by rw [this] at s2; exact s2)).2)
    (fun hno => by
      cases hm : p.m 1 with
      | none => rw [hm] at s1; rw [s1.2]; rfl
      | some e =>
        have hmem := (hL 1 e (by decide)).2 ⟨hm, rfl⟩
        exact absurd (List.mem_filter.2 ⟨hmem, kref 1 e hmem (.inl rfl)⟩) (hno e))
    (fun hno => by
      cases hm : p.m 2 with
      | none => rw [hm] at s2; rw [s2.2]; rfl
      | some e =>
        have hmem := (hL 2 e (by decide)).2 ⟨hm, rfl⟩
        exact absurd (List.mem_filter.2 ⟨hmem, kref 2 e hmem (.inr rfl)⟩) (hno e))
  have hnodes : (M.flatMap fun x => W x.2).reverse.map (fun m => (t.attrOf m, t.valOf m)) =
      M.reverse.flatMap (fun x => (W x.2).reverse.map (fun m => (t.attrOf m, t.valOf m))) := by
    rw [List.reverse_flatMap, List.map_flatMap]; rfl
  have hlive : ∀ m ∈ M.flatMap (fun x => W x.2), Live t m := by
    intro m hm
    obtain ⟨⟨k, e⟩, hx, hm⟩ := List.mem_flatMap.1 hm
    obtain ⟨hx1, hx2⟩ := List.mem_filter.1 hx
    have := hL' k e hx1
    rcases kcase k e hx1 hx2 with rfl | rfl
    · rw [this] at s1; exact ((wspec e _ s1).1 m hm).1
    · rw [this] at s2; exact ((wspec e _ s2).1 m hm).1
  -- observations
  have hRo : OpenRegions { s with tree := t } l (c.ctx l).region := by
    obtain ⟨e, he, hpth⟩ := (Rs.regions l (c.ctx l).region).2 rfl
    refine ⟨e, ?_, x.path hpth⟩
    cases l <;> exact he
  have hUo : OpenUnaligned { s with tree := t } l (c.ctx l).unal := by
    obtain ⟨e, he, hpth⟩ := (Rs.unaligned l (c.ctx l).unal).2 rfl
    refine ⟨e, ?_, x.path hpth⟩
    cases l <;> exact he
  have hbd : ({ s with tree := t } : State).board l = s.board l := by cases l <;> rfl
  have himm : ∀ t', Ext t t' →
      ((im.map Prod.snd).map (Entry.attribute t')).Nodup ∧
      (∀ k v, (∃ e ∈ im.map Prod.snd, e.attribute t' = k ∧ e.val = v ∧ e.isReference t' = false) ↔
        CurrentValue { s with tree := t } l k v ∧ IsGlobal t k) ∧
      (∀ e ∈ im.map Prod.snd, e.isReference t' = false) := by
    intro t' x'
    have hv : ∀ y ∈ im, y ∈ L ∧ y.1 ≠ 1 ∧ y.1 ≠ 2 ∧ ValSlot t y.1 (some y.2) ((c.ctx l).vals y.1) ∧ isGlobalId t y.1 = true := by
      rintro ⟨k, e⟩ hy
      obtain ⟨hy1, hy2⟩ := List.mem_filter.1 hy
      simp only [Bool.and_eq_true, Bool.not_eq_true'] at hy2
      have k1 : k ≠ 1 := fun hc => by rw [kref k e hy1 (.inl hc)] at hy2; simp at hy2
      have k2 : k ≠ 2 := fun hc => by rw [kref k e hy1 (.inr hc)] at hy2; simp at hy2
      have hs := kimm k e hy1 k1 k2
      exact ⟨hy1, k1, k2, hs, by rw [← (val_imm hs).2.1]; exact hy2.2⟩
    refine ⟨?_, ?_, ?_⟩
    · have : (im.map Prod.snd).map (Entry.attribute t') = im.map Prod.fst := by
        rw [List.map_map]
        apply List.map_congr_left
        intro y hy
        exact (val_imm ((hv y hy).2.2.2.1.ext x')).2.1
      rw [this]
      exact hn.sublist (List.Sublist.map _ List.filter_sublist)
    · intro k v
      constructor
      · rintro ⟨e, he, e1, e2, _⟩
        obtain ⟨⟨k', e'⟩, hy, rfl⟩ := List.mem_map.1 he
        obtain ⟨v1, v2, v3, v4, v5⟩ := hv _ hy
        have a1 := val_imm (v4.ext x')
        dsimp only at *
        have hkk : k' = k := by rw [← a1.2.1]; exact e1
        subst hkk
        have kinv := hk _ v1
        refine ⟨⟨v2, v3, kinv, e', ?_, (val_imm v4).2.2.2, e2⟩, (isGlobalId_iff I _).1 v5⟩
        rw [hbd, bb_get hr kinv, hL' k' e' v1]; rfl
      · rintro ⟨⟨k1, k2, k3, e, g1, g2, g3⟩, hg⟩
        rw [hbd, bb_get hr k3] at g1
        have hm : p.m k = some e := by
          cases hp : p.m k with
          | none =>
            rw [hp] at g1
            simp only [Option.getD_none, Option.some.injEq] at g1
            rw [← g1] at g2
            exact absurd g2 (by simp [default])
          | some e' => rw [hp] at g1; simpa using g1
        have hmem := (hL k e k3).2 ⟨hm, rfl⟩
        have hs := kimm k e hmem k1 k2
        have a := val_imm hs
        have a' := val_imm (hs.ext x')
        refine ⟨e, List.mem_map.2 ⟨(k, e), List.mem_filter.2 ⟨hmem, ?_⟩, rfl⟩, a'.2.1, g3, a'.1⟩
        dsimp only
        rw [a.1, a.2.1, (isGlobalId_iff I _).2 hg]; rfl
    · intro e he
      obtain ⟨y, hy, rfl⟩ := List.mem_map.1 he
      exact (val_imm ((hv _ hy).2.2.2.1.ext x')).1
  generalize hGdef : M.reverse.flatMap (fun x => (W x.2).reverse.map (fun m => (t.attrOf m, t.valOf m))) = G at hG hnodes
  have hGnil : G = [] ↔ M.flatMap (fun x => W x.2) = [] := by rw [← hnodes]; simp
  unfold globalsOf at hf ⊢
  rw [hacc] at hf ⊢
  dsimp only at hf ⊢
  by_cases hnil : M.flatMap (fun x => W x.2) = []
  · rw [if_pos hnil] at hf ⊢
    refine ⟨⟨im.map Prod.snd, [], by simp, ?_⟩, Ext.refl t, I⟩
    obtain ⟨a1, a2, a3⟩ := himm t (Ext.refl t)
    exact ⟨a1, a2, a3, (c.ctx l).region, (c.ctx l).unal, G, hRo, hUo, hG, fun _ => rfl, fun hc => absurd (hGnil.2 hnil) hc⟩
  · rw [if_neg hnil] at hf ⊢
    obtain ⟨res, hres, hgood⟩ := getPathNodes_spec I th ((M.flatMap fun x => W x.2).reverse.map some) (p := none) (l := []) Path.root
      (by
        intro n hn
        simp only [List.mem_map, List.mem_reverse, Option.some.injEq, exists_eq_right] at hn
        exact hlive n hn)
    rw [← hres] at hf ⊢
    obtain ⟨t', q⟩ := res
    have hwant : ([] ++ (((M.flatMap fun x => W x.2).reverse.map some).filterMap id).map fun n => (t.attrOf n, t.valOf n)) = G := by
      rw [List.nil_append, List.filterMap_map]
      simp only [Function.id_comp, List.filterMap_some]
      exact hnodes
    rw [hwant] at hgood
    have hf' : t'.fails = t.fails := by cases q <;> exact hf
    obtain ⟨n, hn1, hn2⟩ := hgood.ok hf'
    have hGne : G ≠ [] := fun hc => hnil (hGnil.1 hc)
    simp only [Option.some.injEq] at hn1
    cases q with
    | none =>
      exfalso
      simp only [Option.getD_none] at hn1
      subst hn1
      exact hGne (Path.root.fun hn2).symm
    | some q =>
      simp only [Option.getD_some] at hn1
      subst hn1
      refine ⟨⟨im.map Prod.snd, [Entry.ofNode t' q], rfl, ?_⟩, hgood.ext, hgood.inv⟩
      obtain ⟨a1, a2, a3⟩ := himm t' hgood.ext
      exact ⟨a1, a2, a3, (c.ctx l).region, (c.ctx l).unal, G, hRo, hUo, hG, fun hc => absurd hc hGne, fun _ => ⟨q, rfl, hn2⟩⟩


/-- C42, partial: in every reachable state without hidden attributes whose process blackboard has at most 120 entries, `get_globals()`
returns exactly the global values set on the process, unless the context tree is full.  (More than 120 entries: see
`C42_violation_truncated`.) -/
theorem C42_process_globals_partial {s : State} (h : RtReachV s) (th : Nat) (hsz : s.tree.numBlocks * s.tree.npb ≤ invId)
    (hlen : (BB.snapshot (s.board .process)).length ≤ 120) (hf : (getGlobals s th).1.fails = s.tree.fails) :
    ExactGlobals s .process (getGlobals s th).1 (getGlobals s th).2 := by
  obtain ⟨c, R⟩ := h.toReach.rel
  exact (globalsOf_exact h .process th R.inv (Ext.refl _) hsz hlen hf).1

/-- C42, partial: `get_globals(channel)` returns the process' globals and then exactly the channel's. -/
theorem C42_channel_globals_partial {s : State} (h : RtReachV s) (th ch : Nat) (hsz : s.tree.numBlocks * s.tree.npb ≤ invId)
    (hlen : (BB.snapshot (s.board .process)).length ≤ 120) (hlen' : (BB.snapshot (s.board (.channel ch))).length ≤ 120)
    (hf : (getGlobalsCh s th ch).1.fails = s.tree.fails) :
    ∃ es es' t₁, (getGlobalsCh s th ch).2 = es ++ es' ∧ ExactGlobals s .process t₁ es ∧
      ExactGlobals { s with tree := t₁ } (.channel ch) (getGlobalsCh s th ch).1 es' := by
  obtain ⟨c, R⟩ := h.toReach.rel
  have e1 : (getGlobalsCh s th ch).1 = (globalsOf (globalsOf s.tree th (s.board .process)).1 th (s.board (.channel ch))).1 := rfl
  have e2 : (getGlobalsCh s th ch).2 = (globalsOf s.tree th (s.board .process)).2 ++
    (globalsOf (globalsOf s.tree th (s.board .process)).1 th (s.board (.channel ch))).2 := rfl
  rw [e1] at hf ⊢
  rw [e2]
  have m1 := globalsOf_fails s.tree th (s.board .process)
  have m2 := globalsOf_fails (globalsOf s.tree th (s.board .process)).1 th (s.board (.channel ch))
  have g1 := globalsOf_exact h .process th R.inv (Ext.refl _) hsz hlen (by omega)
  have hsz1 : (globalsOf s.tree th (s.board .process)).1.numBlocks * (globalsOf s.tree th (s.board .process)).1.npb ≤ invId := by
    rw [g1.2.1.numBlocks, g1.2.1.npb]; exact hsz
  have g2 := globalsOf_exact h (.channel ch) th g1.2.2 g1.2.1 hsz1 hlen' (by omega)
  exact ⟨_, _, _, rfl, g1.1, g2.1⟩

/-- C42 is violated by the code: whatever is set, `get_globals()` never returns more than 121 entries. -/
theorem C42_violation_truncated (s : State) (th : Nat) : (getGlobals s th).2.length ≤ 121 := by
  unfold getGlobals globalsOf
  dsimp only
  have key : (((BB.snapshot (s.board .process)).take snapMax).foldl (globalStep s.tree) ([], [])).1.length ≤ 120 := by
    rw [foldl_global]
    simp only [List.nil_append]
    refine Nat.le_trans (List.length_filter_le ..) ?_
    rw [List.length_take]
    exact Nat.min_le_left ..
  split
  · exact Nat.le_trans key (by omega)
  · split
    · simp only [List.length_append, List.length_cons, List.length_nil]; omega
    · simp only; omega

/-! ### a concrete case -/

/-- nodes of global attributes: properties 1548 (global, process scope, unaligned) and 1549 (also as-value) -/
def glTree (k : Nat) : Tree :=
  let t := MTree.init 256 4 (fun _ => 0)
  let t := (getChild t 0 10 (.ofInt 1548) (some (.cell 0 3))).1
  let t := (getChild t 0 10 (.ofInt 1549) (some (.cell 0 3))).1
  let t := (getChild t 0 8 (.ofInt 1) (some (.cell 0 12))).1
  let t := (getChild t 0 8 (.ofInt 2) (some (.cell 0 12))).1
  (List.range k).foldl (fun t i => (getChild t 0 8 (.ofInt (BitVec.ofNat 32 i)) (some (.cell 0 13))).1) t

theorem glTree_reach (k : Nat) : MTree.Reach (glTree k) := by
  have h0 : MTree.Reach (MTree.init 256 4 (fun _ => 0)) := .init (by omega) (by omega)
  have h1 := MTree.Reach.step (q := .getChild 0 10 (.ofInt 1548) (some (.cell 0 3))) h0 (.inr (by decide)) (by decide)
  have h2 := MTree.Reach.step (q := .getChild 0 10 (.ofInt 1549) (some (.cell 0 3))) h1 (.inr (by decide)) (by decide)
  have h3 := MTree.Reach.step (q := .getChild 0 8 (.ofInt 1) (some (.cell 0 12))) h2 (.inr (by decide)) (by decide)
  have h4 := MTree.Reach.step (q := .getChild 0 8 (.ofInt 2) (some (.cell 0 12))) h3 (.inr (by decide)) (by decide)
  have key : ∀ (l : List Nat) (t : Tree), MTree.Reach t → Live t (.cell 0 13) →
      MTree.Reach (l.foldl (fun t i => (getChild t 0 8 (.ofInt (BitVec.ofNat 32 i)) (some (.cell 0 13))).1) t) := by
    intro l
    induction l with
    | nil => exact fun _ h _ => h
    | cons i l ih =>
      intro t h hl
      have hok : (MTree.Req.getChild 0 8 (.ofInt (BitVec.ofNat 32 i)) (some (.cell 0 13))).ok t := hl
      refine ih _ (MTree.Reach.step (q := .getChild 0 8 (.ofInt (BitVec.ofNat 32 i)) (some (.cell 0 13))) h hok (Nat.zero_le _)) ?_
      exact (tree_step_ext h.inv.1 hok (Nat.zero_le _)).2.live hl
  exact key _ _ h4 (.inr (by decide))

/-- the state after a history of calls is reachable -/
theorem run_reachV {s : State} (h : RtReachV s) (ops : List Op) (hv : ∀ op ∈ ops, op.attr.Valid s.tree)
    (hh : ∀ op ∈ ops, op.attr.hidden = false) (nl : NoLoss s (run s ops)) : RtReachV (run s ops) := by
  induction ops generalizing s with
  | nil => exact h
  | cons op ops ih =>
    obtain ⟨n1, n2⟩ := nl.split (step_le s op) (run_le (step s op) ops)
    obtain ⟨c, R⟩ := h.toReach.rel
    have S := step_sim R (hv op (by simp)) n1
    exact ih (.call h (hv op (by simp)) (hh op (by simp)) n1) (fun o ho => (hv o (by simp [ho])).ext S.2.1)
      (fun o ho => hh o (by simp [ho])) n2

/-- global path attributes -/
def glA : Attr := ⟨.cell 0 14, 14, 1548#32⟩
@[inherit_doc glA]
def glB : Attr := ⟨.cell 0 15, 15, 1548#32⟩
/-- global as-value attributes -/
def glV (i : Nat) : Attr := ⟨.cell 0 (16 + i), 16 + i, 1549#32⟩

/-- values of two path attributes and of two as-value attributes, one of them ended -/
def glOps : List Op := [.set 0 glA (.ofInt 1), .set 0 (glV 0) (.ofInt 5), .set 1 glB (.ofInt 2), .set 0 (glV 1) (.ofInt 6), .begin 1 glA (.ofInt 3),
  .endR 1 (glV 0)]

/-- the state after it -/
def glS : State := run (init (glTree 2) [7] (fun c => c == 7)) glOps

/-- the hypotheses of `C42_process_globals_partial` are met; the result has one immediate entry and one path of three values -/
example : RtReachV glS ∧ glS.tree.numBlocks * glS.tree.npb ≤ invId ∧ (BB.snapshot (glS.board .process)).length = 2 ∧
    (getGlobals glS 0).1.fails = glS.tree.fails ∧ (getGlobals glS 0).2 = [⟨some (.cell 0 17), .ofInt 6⟩, Entry.ofNode glS.tree (.cell 1 1)] := by
  refine ⟨run_reachV (.init (glTree_reach 2) _ _) _ ?_ ?_ ?_, by decide +kernel, by decide +kernel, by decide +kernel, by decide +kernel⟩
  · intro op ho
    simp only [glOps, List.mem_cons, List.not_mem_nil, or_false] at ho
    rcases ho with rfl | rfl | rfl | rfl | rfl | rfl <;>
      exact ⟨.inr (by decide), by decide, by decide, by decide, by decide, by decide⟩
  · decide
  · exact noLoss_of _ _ [.process] (by decide) (by decide +kernel) (by decide +kernel)

/-- 125 global as-value attributes -/
def glMany : List Op := (List.range 125).map fun i => .set 0 (glV i) (.ofInt (BitVec.ofNat 32 i))

/-- all 125 are set, but only 120 are returned -/
example : ((List.range 125).all fun i =>
      Query (run (init (glTree 125) [] (fun _ => false)) glMany) 0 (glV i) == some (some (.ofInt (BitVec.ofNat 32 i)))) = true ∧
    (getGlobals (run (init (glTree 125) [] (fun _ => false)) glMany) 0).2.length = 120 := by
  constructor <;> decide +kernel

end Verif.RT
