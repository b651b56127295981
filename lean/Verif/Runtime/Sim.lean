import Verif.Runtime.Lemmas
namespace Verif.RT
open MTree

/-- result of a blackboard update that should lead to context `c'` -/
structure CtxRes (t : Tree) (bb : Board) (c' : Ctx) (res : Tree × Option Board) : Prop where
  inv : Inv res.1
  ext : Ext t res.1
  ok : res.1.fails = t.fails → ∃ bb', res.2 = some bb' ∧ (bb'.skipped = bb.skipped → CtxRel res.1 bb' c')

/-- path kept at key `k` -/
def Ctx.path (c : Ctx) (k : Nat) : PathL := if k = 2 then c.unal else c.region
/-- replace it -/
def Ctx.setPath (c : Ctx) (k : Nat) (l : PathL) : Ctx := if k = 2 then { c with unal := l } else { c with region := l }

theorem keyInv {k : Nat} (hk : k = 1 ∨ k = 2) : k ≠ invId := by
  rcases hk with rfl | rfl <;> decide

/-- new board whose map differs only at path key `k` -/
theorem CtxRel.updPath {t t' : Tree} (x : Ext t t') {bb' : Board} {c : Ctx} {p p' : BB.Spec Entry} {k : Nat} (hk : k = 1 ∨ k = 2)
    (h2 : Slot t (p.m 1) c.region) (h3 : Slot t (p.m 2) c.unal)
    (h4 : ∀ k, k ≠ 1 → k ≠ 2 → k ≠ invId → ValSlot t k (p.m k) (c.vals k))
    (hr : BB.Rel bb' p') {e : Option Entry} (hm : p'.m = fun j => if j = k then e else p.m j) {l : PathL} (hs : Slot t' e l) :
    CtxRel t' bb' (c.setPath k l) := by
  refine ⟨p', hr, ?_, ?_, ?_⟩
  · rw [hm]
    rcases hk with rfl | rfl
    · simpa [Ctx.setPath] using hs
    · simpa [Ctx.setPath] using h2.ext x
  · rw [hm]
    rcases hk with rfl | rfl
    · simpa [Ctx.setPath] using h3.ext x
    · simpa [Ctx.setPath] using hs
  · intro j j1 j2 j3
    have : j ≠ k := by rcases hk with rfl | rfl <;> assumption
    rw [hm]
    simp only [if_neg this]
    have e : (c.setPath k l).vals = c.vals := by unfold Ctx.setPath; split <;> rfl
    rw [e]
    exact (h4 j j1 j2 j3).ext x

theorem CtxRel.updVal {t : Tree} {bb' : Board} {c : Ctx} {p p' : BB.Spec Entry} {k : Nat} (h1 : k ≠ 1) (h2' : k ≠ 2)
    (h2 : Slot t (p.m 1) c.region) (h3 : Slot t (p.m 2) c.unal)
    (h4 : ∀ k, k ≠ 1 → k ≠ 2 → k ≠ invId → ValSlot t k (p.m k) (c.vals k))
    (hr : BB.Rel bb' p') {e : Option Entry} (hm : p'.m = fun j => if j = k then e else p.m j) {v : Option Val} (hs : ValSlot t k e v) :
    CtxRel t bb' { c with vals := updV c.vals k v } := by
  refine ⟨p', hr, ?_, ?_, ?_⟩
  · rw [hm]; simpa [Ne.symm h1] using h2
  · rw [hm]; simpa [Ne.symm h2'] using h3
  · intro j j1 j2 j3
    rw [hm]
    simp only [updV]
    by_cases e : j = k
    · subst e; simpa using hs
    · simpa [e] using h4 j j1 j2 j3

theorem refKey_cases (a : Attr) : refKey a = 1 ∨ refKey a = 2 := by
  unfold refKey; split
  · exact .inr rfl
  · exact .inl rfl

theorem slotAt {t : Tree} {c : Ctx} {p : BB.Spec Entry} (h2 : Slot t (p.m 1) c.region) (h3 : Slot t (p.m 2) c.unal) {k : Nat}
    (hk : k = 1 ∨ k = 2) : Slot t (p.m k) (c.path k) := by
  rcases hk with rfl | rfl
  · simpa [Ctx.path] using h2
  · simpa [Ctx.path] using h3

theorem slot_node {t : Tree} {e : Option Entry} {l : PathL} (h : Slot t e l) : PathO t (e.getD default).node l := by
  obtain ⟨_, h⟩ := h
  cases e with
  | none => simp only at h; subst h; exact Path.root
  | some e => obtain ⟨_, n, rfl, h2⟩ := h; exact h2

theorem begin_eq (c : Ctx) (a : Attr) (v : Val) (h : a.asValue = false) :
    c.begin a v = c.setPath (refKey a) (c.path (refKey a) ++ [(a.id, v)]) := by
  unfold Ctx.begin Attr.kind refKey
  cases hu : a.unaligned <;> simp [h, Ctx.setPath, Ctx.path, regionKey, unalignedKey]

theorem set_eq (c : Ctx) (a : Attr) (v : Val) (h : a.asValue = false) :
    c.set a v = c.setPath (refKey a) (eraseInner a.id (c.path (refKey a)) ++ [(a.id, v)]) := by
  unfold Ctx.set Attr.kind refKey
  cases hu : a.unaligned <;> simp [h, Ctx.setPath, Ctx.path, regionKey, unalignedKey]

theorem mem_eraseInner {a : Nat} {l : PathL} {x : Nat × Val} (h : x ∈ eraseInner a l) : x ∈ l := by
  unfold eraseInner at h
  rw [List.mem_reverse] at h
  simpa using List.mem_of_mem_eraseP h

theorem begin_sim {t : Tree} (I : Inv t) {bb : Board} {c : Ctx} (h : CtxRel t bb c) (th : Nat) {a : Attr} (ha : a.Valid t) (v : Val) :
    CtxRes t bb (c.begin a v) (handleBegin t th a v bb) := by
  obtain ⟨p, h1, h2, h3, h4⟩ := h
  obtain ⟨g1, g2, g3, g4, g5, g6⟩ := ha
  unfold handleBegin
  cases hav : a.asValue with
  | true =>
    simp only [if_true]
    obtain ⟨bb', k1, k2⟩ := bb_set h1 g6 ⟨some a.ptr, v⟩ (!a.hidden)
    refine ⟨I, Ext.refl t, fun _ => ⟨bb', k1, fun hs => ?_⟩⟩
    have hm := put_skipped (p := p) (k := a.id) (e := ⟨some a.ptr, v⟩) (by rw [k2.skipped, h1.skipped]; exact hs)
    have : c.begin a v = { c with vals := updV c.vals a.id (some v) } := by simp [Ctx.begin, Attr.kind, hav]
    rw [this]
    exact CtxRel.updVal (by omega) (by omega) h2 h3 h4 k2 hm ⟨a.ptr, rfl, g1, g2, g3, g4⟩
  | false =>
    simp only [Bool.false_eq_true, if_false]
    have hk := refKey_cases a
    have hs := slotAt h2 h3 hk
    rw [begin_eq c a v hav, bb_get h1 (keyInv hk)]
    generalize hkk : refKey a = k at *
    simp only
    have G := getChild_spec I th a.id v (slot_node hs)
    have GS := fun q => getChild_some I th a.id v (slot_node hs) (q := q)
    cases hg : getChild t th a.id v ((p.m k).getD default).node with
    | mk t' r =>
      rw [hg] at G GS
      cases r with
      | none =>
        refine ⟨G.inv, G.ext, fun hf => ?_⟩
        obtain ⟨q, e, _⟩ := G.ok hf
        simp at e
      | some n =>
        obtain ⟨bb', k1, k2⟩ := bb_set h1 (keyInv hk) (Entry.ofNode t' n) (!a.hidden)
        refine ⟨G.inv, G.ext, fun hf => ⟨bb', k1, fun hsk => ?_⟩⟩
        have hm := put_skipped (p := p) (k := k) (e := Entry.ofNode t' n) (by rw [k2.skipped, h1.skipped]; exact hsk)
        refine CtxRel.updPath G.ext hk h2 h3 h4 k2 hm ⟨?_, by simp, n, rfl, (GS n rfl).1⟩
        intro x hx
        rcases List.mem_append.1 hx with hx | hx
        · exact hs.1 x hx
        · simp at hx; rw [hx]; exact g5

theorem set_sim {t : Tree} (I : Inv t) {bb : Board} {c : Ctx} (h : CtxRel t bb c) (th : Nat) {a : Attr} (ha : a.Valid t) (v : Val) :
    CtxRes t bb (c.set a v) (handleSet t th a v bb) := by
  obtain ⟨p, h1, h2, h3, h4⟩ := h
  obtain ⟨g1, g2, g3, g4, g5, g6⟩ := ha
  unfold handleSet
  cases hav : a.asValue with
  | true =>
    simp only [if_true]
    obtain ⟨bb', k1, k2⟩ := bb_set h1 g6 ⟨some a.ptr, v⟩ (!a.hidden)
    refine ⟨I, Ext.refl t, fun _ => ⟨bb', k1, fun hs => ?_⟩⟩
    have hm := put_skipped (p := p) (k := a.id) (e := ⟨some a.ptr, v⟩) (by rw [k2.skipped, h1.skipped]; exact hs)
    have : c.set a v = { c with vals := updV c.vals a.id (some v) } := by simp [Ctx.set, Attr.kind, hav]
    rw [this]
    exact CtxRel.updVal (by omega) (by omega) h2 h3 h4 k2 hm ⟨a.ptr, rfl, g1, g2, g3, g4⟩
  | false =>
    simp only [Bool.false_eq_true, if_false]
    have hk := refKey_cases a
    have hs := slotAt h2 h3 hk
    rw [set_eq c a v hav, bb_get h1 (keyInv hk)]
    generalize hkk : refKey a = k at *
    simp only
    have G := replaceFirst_spec I th a.id g6 v (slot_node hs)
    cases hg : replaceFirst t th ((p.m k).getD default).node a.id v with
    | mk t' r =>
      rw [hg] at G
      cases r with
      | none =>
        refine ⟨G.inv, G.ext, fun hf => ?_⟩
        obtain ⟨q, e, _⟩ := G.ok hf
        simp at e
      | some n =>
        obtain ⟨bb', k1, k2⟩ := bb_set h1 (keyInv hk) (Entry.ofNode t' n) (!a.hidden)
        refine ⟨G.inv, G.ext, fun hf => ⟨bb', k1, fun hsk => ?_⟩⟩
        have hm := put_skipped (p := p) (k := k) (e := Entry.ofNode t' n) (by rw [k2.skipped, h1.skipped]; exact hsk)
        obtain ⟨q, e, hq⟩ := G.ok hf
        simp at e; subst e
        refine CtxRel.updPath G.ext hk h2 h3 h4 k2 hm ⟨?_, by simp, n, rfl, hq⟩
        intro x hx
        rcases List.mem_append.1 hx with hx | hx
        · exact hs.1 x (mem_eraseInner hx)
        · simp at hx; rw [hx]; exact g5

/-- outcome of `load_current_entry` -/
theorem load_sim {t : Tree} (I : Inv t) {bb : Board} {c : Ctx} (h : CtxRel t bb c) {a : Attr} (ha : a.Valid t) :
    ∃ m e, loadCurrent t a (bbKey a) bb = some (m, e) ∧
      ((c.endable a = none ∧ e.node = none) ∨
       (∃ v, c.endable a = some v ∧ e.node ≠ none ∧ e.val = v ∧ ∀ th, CtxRes t bb (c.endR a) (handleEnd t th a m e (bbKey a) bb))) := by
  obtain ⟨p, h1, h2, h3, h4⟩ := h
  have ha' := ha
  obtain ⟨g1, g2, g3, g4, g5, g6⟩ := ha
  cases hav : a.asValue with
  | true =>
    have hkey : bbKey a = a.id := by simp [bbKey, hav]
    rw [hkey]
    unfold loadCurrent
    rw [bb_get h1 g6, Option.map_some]
    have hv := h4 a.id (by omega) (by omega) g6
    have hend : c.endable a = c.vals a.id := by simp [Ctx.endable, Attr.kind, hav]
    cases hm : p.m a.id with
    | none =>
      rw [hm] at hv
      cases hc : c.vals a.id with
      | some v => rw [hc] at hv; exact absurd hv id
      | none =>
        refine ⟨default, default, ?_, .inl ⟨by rw [hend, hc], rfl⟩⟩
        simp only [Option.getD_none]
        have : (default : Entry).attribute t = invId := rfl
        rw [this, if_pos (Ne.symm g6)]
        have : ((default : Entry).get t a.id).node = none := rfl
        rw [if_pos this]
    | some e =>
      rw [hm] at hv
      cases hc : c.vals a.id with
      | none => rw [hc] at hv; exact absurd hv id
      | some v =>
        rw [hc] at hv
        obtain ⟨q, rfl, hq1, hq2, hq3, hq4⟩ := hv
        refine ⟨⟨some q, v⟩, ⟨some q, v⟩, ?_, .inr ⟨v, by rw [hend, hc], by simp, rfl, fun th => ?_⟩⟩
        · simp only [Option.getD_some]
          have e1 : (⟨some q, v⟩ : Entry).attribute t = a.id := by simp [Entry.attribute, hq4, hq3]
          have e2 : (⟨some q, v⟩ : Entry).get t a.id = ⟨some q, v⟩ := by simp [Entry.get, hq3]
          rw [e1, e2, if_neg (by simp)]
        · unfold handleEnd
          rw [hav]
          simp only [if_true]
          obtain ⟨bb', k1, k2⟩ := bb_del h1 g6
          refine ⟨I, Ext.refl t, fun _ => ⟨bb', k1, fun _ => ?_⟩⟩
          have : c.endR a = { c with vals := updV c.vals a.id none } := by simp [Ctx.endR, Attr.kind, hav]
          rw [this]
          exact CtxRel.updVal (by omega) (by omega) h2 h3 h4 k2 erase_m trivial
  | false =>
    have hk := refKey_cases a
    have hs := slotAt h2 h3 hk
    have hkey : bbKey a = refKey a := by simp [bbKey, hav]
    rw [hkey]
    unfold loadCurrent
    rw [bb_get h1 (keyInv hk), Option.map_some]
    have hend : c.endable a = if refKey a = 2 then innermost a.id (c.path 2) else
        match (c.path 1).getLast? with
        | some (x, v) => if x = a.id then some v else none
        | none => none := by
      unfold Ctx.endable Attr.kind refKey
      cases hu : a.unaligned <;> simp [hav, Ctx.path, regionKey, unalignedKey]
      cases c.region.getLast? <;> rfl
    have hendR : c.endR a = c.setPath (refKey a) (if refKey a = 2 then eraseInner a.id (c.path 2) else (c.path 1).dropLast) := by
      unfold Ctx.endR Attr.kind refKey
      cases hu : a.unaligned <;> simp [hav, Ctx.path, Ctx.setPath, regionKey, unalignedKey]
    obtain ⟨hs12, hs'⟩ := hs
    cases hm : p.m (refKey a) with
    | none =>
      rw [hm] at hs'
      simp only at hs'
      refine ⟨default, default, ?_, .inl ⟨?_, rfl⟩⟩
      · simp only [Option.getD_none]
        have : (default : Entry).attribute t = invId := rfl
        rw [this, if_pos (Ne.symm g6)]
        have : ((default : Entry).get t a.id).node = none := rfl
        rw [if_pos this]
      · rw [hend]
        rcases hk with hk | hk
        · rw [hk] at hs' ⊢; simp [hs']
        · rw [hk] at hs' ⊢; simp [hs', innermost]
    | some e =>
      rw [hm] at hs'
      obtain ⟨hne, n, rfl, hn⟩ := hs'
      rcases snoc_cases (c.path (refKey a)) with hnil | ⟨l', x, v, hl⟩
      · exact absurd hnil hne
      have hx12 : 12 ≤ x := hs12 (x, v) (by rw [hl]; simp)
      have hn' := hn
      rw [hl] at hn'
      have hattr := attribute_path hn' hx12
      simp only [Option.getD_some]
      rw [hattr]
      have hgp := get_path I hn hne hs12 ha'
      obtain ⟨np, hp1, hp2, hp3, hp4⟩ := parentOf_path hn'
      have hroot : t.parentOf n = some .root ↔ l' = [] := by
        rw [hp1]
        constructor
        · intro h; simp at h; subst h; exact hp2.fun Path.root
        · rintro rfl; rw [hp2.inj I Path.root]
      by_cases hxa : x = a.id
      · -- the innermost entry is of this attribute
        subst hxa
        have hget : (Entry.ofNode t n).get t a.id = Entry.ofNode t n := by
          rcases hgp with ⟨_, k2⟩ | ⟨l₁, w, l₂, q, k1, k2, k3, k4, k5⟩
          · exact absurd rfl (k2 (a.id, v) (by rw [hl]; simp))
          · rcases snoc_cases l₂ with rfl | ⟨l₃, y, z, rfl⟩
            · rw [k3, k4.inj I (q := n) (by rw [k1] at hn; simpa using hn)]
            · rw [hl, ← List.append_assoc] at k1
              obtain ⟨_, k1⟩ := List.append_inj' k1 rfl
              simp at k1
              exact absurd k1.1.symm (k2 (y, z) (by simp))
        rw [if_neg (by simp), hget]
        refine ⟨_, _, rfl, .inr ⟨v, ?_, by simp [Entry.ofNode], ?_, fun th => ?_⟩⟩
        · rw [hend]
          rcases hk with hk | hk
          · rw [hk] at hl ⊢; simp [hl]
          · rw [hk] at hl ⊢; simp [hl, innermost]
        · simp [Entry.ofNode, hp4]
        · have hnew : (if refKey a = 2 then eraseInner a.id (c.path 2) else (c.path 1).dropLast) = l' := by
            rcases hk with hk | hk
            · rw [hk] at hl ⊢; simp [hl]
            · rw [hk] at hl ⊢
              rw [if_pos rfl, hl]
              have := eraseInner_split (a := a.id) (v := v) (l₁ := l') (l₂ := []) (by simp)
              simpa using this
          rw [hendR, hnew]
          unfold handleEnd
          rw [hav]
          simp only [Bool.false_eq_true, if_false, Entry.ofNode]
          by_cases hl' : l' = []
          · rw [if_pos (hroot.2 hl')]
            obtain ⟨bb', k1, k2⟩ := bb_del h1 (keyInv hk)
            refine ⟨I, Ext.refl t, fun _ => ⟨bb', k1, fun _ => ?_⟩⟩
            refine CtxRel.updPath (Ext.refl t) hk h2 h3 h4 k2 erase_m ⟨by simp [hl'], hl'⟩
          · rw [if_neg (fun h => hl' (hroot.1 h))]
            simp only [ne_eq, not_true_eq_false, if_false, hp1]
            obtain ⟨bb', k1, k2⟩ := bb_set h1 (keyInv hk) (Entry.ofNode t np) (!a.hidden)
            refine ⟨I, Ext.refl t, fun _ => ⟨bb', k1, fun hsk => ?_⟩⟩
            have hm' := put_skipped (p := p) (k := refKey a) (e := Entry.ofNode t np) (by rw [k2.skipped, h1.skipped]; exact hsk)
            refine CtxRel.updPath (Ext.refl t) hk h2 h3 h4 k2 hm' ⟨?_, hl', np, rfl, hp2⟩
            intro y hy
            exact hs12 y (by rw [hl]; simp [hy])
      · rw [if_pos hxa]
        rcases hgp with ⟨k1, k2⟩ | ⟨l₁, w, l₂, q, k1, k2, k3, k4, k5⟩
        · rw [k1]
          refine ⟨default, default, by rw [if_pos (show (default : Entry).node = none from rfl)], .inl ⟨?_, rfl⟩⟩
          rw [hend]
          rcases hk with hk | hk
          · rw [hk] at hl ⊢; simp [hl, hxa]
          · rw [hk] at k2 ⊢; rw [if_pos rfl]; exact innermost_none k2
        · rw [k3, if_neg (by simp [Entry.ofNode])]
          rcases hk with hk | hk
          · rw [hk, if_pos (by decide)]
            refine ⟨default, default, rfl, .inl ⟨?_, rfl⟩⟩
            rw [hk] at hl
            rw [hend, hk]; simp [hl, hxa]
          · rw [hk, if_neg (by decide)]
            refine ⟨_, _, rfl, .inr ⟨w, ?_, by simp [Entry.ofNode], by simp [Entry.ofNode, k5], fun th => ?_⟩⟩
            · rw [hk] at k1
              rw [hend, if_pos hk, k1]; exact innermost_split k2
            · rw [hk] at hn hl hm k1 hendR hs12
              have hne2 : n ≠ q := by
                rintro rfl
                have := hn'.fun k4
                obtain ⟨_, this⟩ := List.append_inj' this rfl
                simp at this
                exact hxa this.1
              rw [hendR, if_pos rfl]
              unfold handleEnd
              rw [hav]
              simp only [Bool.false_eq_true, if_false]
              have e1 : (Entry.ofNode t n).node = some n := rfl
              have e2 : (Entry.ofNode t q).node = some q := rfl
              rw [e1, e2]
              simp only
              have hl' : l' ≠ [] := by
                rintro rfl
                rw [hl] at k1
                have := congrArg List.length k1
                simp at this
                have h2 : l₁ = [] ∧ l₂ = [] := ⟨List.eq_nil_of_length_eq_zero (by omega), List.eq_nil_of_length_eq_zero (by omega)⟩
                rw [h2.1, h2.2] at k1
                simp at k1
                exact hxa k1.1
              rw [if_neg (fun h => hl' (hroot.1 h)), if_pos (show some n ≠ some q by simpa using hne2)]
              have G := removeFirst_spec I th a.id g6 (p := some n) hn
              cases hg : removeFirst t th (some n) a.id with
              | mk t' r =>
                rw [hg] at G
                cases r with
                | none =>
                  refine ⟨G.inv, G.ext, fun hf => ?_⟩
                  obtain ⟨q, e, _⟩ := G.ok hf
                  simp at e
                | some m =>
                  obtain ⟨bb', j1, j2⟩ := bb_set h1 (keyInv (.inr rfl)) (Entry.ofNode t' m) (!a.hidden)
                  refine ⟨G.inv, G.ext, fun hf => ⟨bb', j1, fun hsk => ?_⟩⟩
                  have hm' := put_skipped (p := p) (k := 2) (e := Entry.ofNode t' m) (by rw [j2.skipped, h1.skipped]; exact hsk)
                  obtain ⟨q', e, hq⟩ := G.ok hf
                  simp at e; subst e
                  refine CtxRel.updPath G.ext (.inr rfl) h2 h3 h4 j2 hm' ⟨fun y hy => hs12 y (mem_eraseInner hy), ?_, m, rfl, hq⟩
                  rw [k1, eraseInner_split k2]
                  intro hnil
                  have hl3 := List.append_eq_nil_iff.1 hnil
                  rw [hl3.1, hl3.2, hl] at k1
                  have := congrArg List.length k1
                  simp at this
                  exact hl' this

end Verif.RT
