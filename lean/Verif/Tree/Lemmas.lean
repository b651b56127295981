import Verif.Tree.Spec
import Verif.Blackboard.Lemmas
namespace Verif.MTree
open BB (upd)

structure Inv (t : Tree) : Prop where
  npb : 12 ≤ t.npb
  npb2 : t.npb ≤ 256
  nb : t.nextBlock ≤ t.numBlocks
  alloc : ∀ b i, (t.node b i).isSome ↔ b < t.nextBlock ∧ i < t.idx b
  idx : ∀ b, b < t.nextBlock → t.idx b ≤ t.npb
  id : ∀ b i r, t.node b i = some r → r.id = b * t.npb + i
  par : ∀ b i r, t.node b i = some r → Live t r.parent ∧ r.rank = t.rankOf r.parent + 1
  kids : ∀ p c, c ∈ t.kids p ↔ ∃ b i r, c = .cell b i ∧ t.node b i = some r ∧ r.parent = p
  sib : ∀ b i r b' i' r', t.node b i = some r → t.node b' i' = some r' → r.parent = r'.parent → r.attr = r'.attr →
    r.val = r'.val → b = b' ∧ i = i'
  cur : ∀ th b, t.cur th = some b → b < t.nextBlock
  curInj : ∀ th th' b, t.cur th = some b → t.cur th' = some b → th = th'

structure Ext (t t' : Tree) : Prop where
  npb : t'.npb = t.npb
  numBlocks : t'.numBlocks = t.numBlocks
  nextBlock : t.nextBlock ≤ t'.nextBlock
  node : ∀ b i r, t.node b i = some r → t'.node b i = some r
  fails : t.fails ≤ t'.fails
  dead : t'.dead = t.dead

theorem Ext.refl (t : Tree) : Ext t t := ⟨rfl, rfl, Nat.le_refl _, fun _ _ _ h => h, Nat.le_refl _, rfl⟩

theorem Ext.trans {t₁ t₂ t₃ : Tree} (h : Ext t₁ t₂) (g : Ext t₂ t₃) : Ext t₁ t₃ :=
  ⟨g.npb.trans h.npb, g.numBlocks.trans h.numBlocks, Nat.le_trans h.nextBlock g.nextBlock,
   fun b i r e => g.node b i r (h.node b i r e), Nat.le_trans h.fails g.fails, g.dead.trans h.dead⟩

theorem Ext.get {t t' : Tree} (h : Ext t t') {p : Ptr} {r : NodeRec} (e : t.get? p = some r) : t'.get? p = some r := by
  cases p with
  | root => simp [Tree.get?] at e
  | cell b i => exact h.node b i r e

theorem Ext.live {t t' : Tree} (h : Ext t t') {p : Ptr} (e : Live t p) : Live t' p := by
  rcases e with e | e
  · exact .inl e
  · obtain ⟨r, hr⟩ := Option.isSome_iff_exists.1 e
    exact .inr (by rw [h.get hr]; rfl)

theorem Ext.path {t t' : Tree} (h : Ext t t') {p : Ptr} {l : PathL} (e : Path t p l) : Path t' p l := by
  induction e with
  | root => exact .root
  | cell hn _ ih => exact .cell (h.node _ _ _ hn) ih

theorem Ext.attrOf {t t' : Tree} (h : Ext t t') {p : Ptr} (e : Live t p) : t'.attrOf p = t.attrOf p := by
  rcases e with rfl | e
  · rfl
  · obtain ⟨r, hr⟩ := Option.isSome_iff_exists.1 e
    simp [Tree.attrOf, hr, h.get hr]

theorem Ext.valOf {t t' : Tree} (h : Ext t t') {p : Ptr} (e : Live t p) : t'.valOf p = t.valOf p := by
  rcases e with rfl | e
  · rfl
  · obtain ⟨r, hr⟩ := Option.isSome_iff_exists.1 e
    simp [Tree.valOf, hr, h.get hr]

theorem Ext.rankOf {t t' : Tree} (h : Ext t t') {p : Ptr} (e : Live t p) : t'.rankOf p = t.rankOf p := by
  rcases e with rfl | e
  · rfl
  · obtain ⟨r, hr⟩ := Option.isSome_iff_exists.1 e
    simp [Tree.rankOf, hr, h.get hr]

theorem Path.live {t : Tree} {p : Ptr} {l : PathL} (e : Path t p l) : Live t p := by
  cases e with
  | root => exact .inl rfl
  | cell hn _ => exact .inr (by simp [Tree.get?, hn])

theorem Path.fun {t : Tree} {p : Ptr} {l l' : PathL} (e : Path t p l) (e' : Path t p l') : l = l' := by
  induction e generalizing l' with
  | root => cases e'; rfl
  | cell hn _ ih =>
    cases e' with
    | cell hn' h' =>
      rw [hn] at hn'
      cases hn'
      rw [ih h']

theorem Path.inj {t : Tree} (I : Inv t) {p q : Ptr} {l : PathL} (e : Path t p l) (e' : Path t q l) : p = q := by
  induction e generalizing q with
  | root =>
    generalize hL : ([] : PathL) = L at e'
    cases e' with
    | root => rfl
    | cell hn h => simp at hL
  | @cell b i r l hn hp ih =>
    generalize hL : l ++ [(r.attr, r.val)] = L at e'
    cases e' with
    | root => simp at hL
    | @cell b' i' r' l' hn' hp' =>
      obtain ⟨h1, h2⟩ := List.append_inj' hL rfl
      subst h1
      simp at h2
      have := ih hp'
      obtain ⟨rfl, rfl⟩ := I.sib b i r b' i' r' hn hn' this h2.1 h2.2
      rfl

theorem Path.rank {t : Tree} (I : Inv t) {p : Ptr} {l : PathL} (e : Path t p l) : t.rankOf p = l.length := by
  induction e with
  | root => rfl
  | cell hn hp ih =>
    simp only [Tree.rankOf, Tree.get?, hn, Option.map_some, Option.getD_some]
    rw [(I.par _ _ _ hn).2, ih]; simp

theorem Live.path {t : Tree} (I : Inv t) {p : Ptr} (h : Live t p) : ∃ l, Path t p l := by
  generalize hk : t.rankOf p = k
  induction k using Nat.strongRecOn generalizing p with
  | _ k ih =>
    rcases h with rfl | h
    · exact ⟨[], .root⟩
    · cases p with
      | root => exact ⟨[], .root⟩
      | cell b i =>
        obtain ⟨r, hr⟩ := Option.isSome_iff_exists.1 h
        have hr' : t.node b i = some r := hr
        obtain ⟨hl, hrk⟩ := I.par b i r hr'
        have : t.rankOf (.cell b i) = r.rank := by simp [Tree.rankOf, hr]
        obtain ⟨l, hl⟩ := ih (t.rankOf r.parent) (by omega) hl rfl
        exact ⟨_, .cell hr' hl⟩

/-- the path of a snoc list is a child -/
theorem Path.snoc_inv {t : Tree} {p : Ptr} {l : PathL} {a : Nat} {v : Val} (e : Path t p (l ++ [(a, v)])) :
    ∃ b i r, p = .cell b i ∧ t.node b i = some r ∧ r.attr = a ∧ r.val = v ∧ Path t r.parent l := by
  generalize hL : l ++ [(a, v)] = L at e
  cases e with
  | root => simp at hL
  | @cell b i r l' hn hp =>
    obtain ⟨h1, h2⟩ := List.append_inj' hL rfl
    subst h1
    simp at h2
    exact ⟨b, i, r, rfl, hn, h2.1.symm, h2.2.symm, hp⟩

theorem findChild_some {t : Tree} (I : Inv t) {p c : Ptr} {a : Nat} {v : Val} {l : PathL} (hp : Path t p l)
    (h : findChild t p a v = some c) : Path t c (l ++ [(a, v)]) := by
  have h1 := List.mem_of_find?_eq_some h
  have h2 := List.find?_some h
  obtain ⟨b, i, r, rfl, hr, rfl⟩ := (I.kids p c).1 h1
  simp [Tree.valOf, Tree.attrOf, Tree.get?, hr] at h2
  obtain ⟨rfl, rfl⟩ := h2
  exact .cell hr hp

theorem findChild_none {t : Tree} (I : Inv t) {p : Ptr} {a : Nat} {v : Val} (h : findChild t p a v = none)
    (b i : Nat) (r : NodeRec) (hr : t.node b i = some r) (hp : r.parent = p) : ¬ (r.attr = a ∧ r.val = v) := by
  rintro ⟨rfl, rfl⟩
  have := List.find?_eq_none.1 h (.cell b i) ((I.kids p _).2 ⟨b, i, r, rfl, hr, hp⟩)
  simp [Tree.valOf, Tree.attrOf, Tree.get?, hr] at this

theorem findChild_none_path {t : Tree} (I : Inv t) {p : Ptr} {a : Nat} {v : Val} {l : PathL} (hp : Path t p l)
    (h : findChild t p a v = none) (q : Ptr) : ¬ Path t q (l ++ [(a, v)]) := by
  intro hq
  obtain ⟨b, i, r, rfl, hr, ha, hv, hpar⟩ := hq.snoc_inv
  exact findChild_none I h b i r hr (hpar.inj I hp) ⟨ha, hv⟩

theorem findChild_complete {t : Tree} (I : Inv t) {p q : Ptr} {a : Nat} {v : Val} {l : PathL} (hp : Path t p l)
    (hq : Path t q (l ++ [(a, v)])) : findChild t p a v = some q := by
  cases h : findChild t p a v with
  | none => exact absurd hq (findChild_none_path I hp h q)
  | some c => rw [(findChild_some I hp h).inj I hq]

/-- result of `haveFree` -/
theorem haveFree_spec {t : Tree} (I : Inv t) (th n : Nat) (hn : n ≤ t.npb) :
    Inv (haveFree t th n).1 ∧ Ext t (haveFree t th n).1 ∧ (haveFree t th n).1.node = t.node ∧
      ((haveFree t th n).2 = false → (haveFree t th n).1.fails = t.fails + 1 ∧ t.numBlocks ≤ t.nextBlock) ∧
      ((haveFree t th n).2 = true → (haveFree t th n).1.fails = t.fails ∧
        ∃ b, (haveFree t th n).1.cur th = some b ∧ (haveFree t th n).1.idx b + n ≤ t.npb) := by
  unfold haveFree
  split
  · split
    · rename_i h1 h2
      refine ⟨?_, ⟨rfl, rfl, Nat.le_refl _, fun _ _ _ h => h, Nat.le_succ _, rfl⟩, rfl, fun _ => ⟨rfl, h2⟩, by simp⟩
      exact ⟨I.npb, I.npb2, I.nb, I.alloc, I.idx, I.id, I.par, I.kids, I.sib, I.cur, I.curInj⟩
    · rename_i h1 h2
      have hlt : t.nextBlock < t.numBlocks := by omega
      refine ⟨?_, ⟨rfl, rfl, Nat.le_succ _, fun _ _ _ h => h, Nat.le_refl _, rfl⟩, rfl, by simp, fun _ => ⟨rfl, t.nextBlock, ?_, ?_⟩⟩
      · refine ⟨I.npb, I.npb2, hlt, ?_, ?_, I.id, I.par, I.kids, I.sib, ?_, ?_⟩
        · intro b i
          have := I.alloc b i
          show _ ↔ b < t.nextBlock + 1 ∧ i < upd t.idx t.nextBlock 0 b
          by_cases hb : b = t.nextBlock
          · subst hb; simp [upd] at this ⊢; simpa using this
          · simp [upd, hb, this]; omega
        · intro b hb
          show upd t.idx t.nextBlock 0 b ≤ t.npb
          by_cases hb' : b = t.nextBlock
          · simp [upd, hb']
          · simp [upd, hb']; exact I.idx b (by simp at hb; omega)
        · intro th' b h
          show b < t.nextBlock + 1
          simp only [upd] at h
          split at h
          · simp at h; omega
          · have := I.cur th' b h; omega
        · intro th' th'' b h h'
          simp only [upd] at h h'
          split at h <;> split at h'
          · omega
          · simp at h; have := I.cur _ _ h'; omega
          · simp at h'; have := I.cur _ _ h; omega
          · exact I.curInj _ _ _ h h'
      · simp [upd]
      · simp [upd]; exact hn
  · rename_i h1
    refine ⟨I, Ext.refl t, rfl, by simp, fun _ => ⟨rfl, ?_⟩⟩
    unfold needBlock at h1
    split at h1
    · simp at h1
    · rename_i b hb
      simp at h1
      exact ⟨b, hb, by show t.idx b + n ≤ t.npb; omega⟩

/-- result of `newNode` under a node that has no such child yet -/
theorem newNode_spec {t : Tree} (I : Inv t) {th a b : Nat} {v : Val} {p : Ptr} {l : PathL} (hc : t.cur th = some b)
    (hi : t.idx b < t.npb) (hp : Path t p l) (hnew : ∀ q, ¬ Path t q (l ++ [(a, v)])) :
    ∃ c, (newNode t th a v p).2 = some c ∧ Inv (newNode t th a v p).1 ∧ Ext t (newNode t th a v p).1 ∧
      Path (newNode t th a v p).1 c (l ++ [(a, v)]) ∧ ¬ Live t c ∧
      (newNode t th a v p).1.fails = t.fails ∧
      (newNode t th a v p).1.cur th = some b ∧ (newNode t th a v p).1.idx b = t.idx b + 1 ∧
      (∀ q, Live (newNode t th a v p).1 q → Live t q ∨ q = c) := by
  have hbn := I.cur _ _ hc
  have hfree : t.node b (t.idx b) = none := by
    have := I.alloc b (t.idx b)
    simpa using this
  unfold newNode
  rw [hc]
  simp only [show ¬ (t.idx b ≥ t.npb) by omega, if_false]
  generalize hN : (⟨b * t.npb + t.idx b, a, v, p, t.rankOf p + 1⟩ : NodeRec) = N
  have hnode : ∀ b' i', upd t.node b (upd (t.node b) (t.idx b) (some N)) b' i' =
      if b' = b ∧ i' = t.idx b then some N else t.node b' i' := by
    intro b' i'
    simp only [upd]
    by_cases h1 : b' = b
    · subst h1
      by_cases h2 : i' = t.idx b' <;> simp [h2, upd]
    · simp [h1]
  generalize ht : ({ t with
          idx := upd t.idx b (t.idx b + 1),
          node := upd t.node b (upd (t.node b) (t.idx b) (some N)),
          kids := updP t.kids p (.cell b (t.idx b) :: t.kids p) } : Tree) = t'
  have e1 : ∀ b' i', t'.node b' i' = if b' = b ∧ i' = t.idx b then some N else t.node b' i' := by
    intro b' i'; rw [← ht]; exact hnode b' i'
  have hext : Ext t t' := by
    subst ht
    refine ⟨rfl, rfl, Nat.le_refl _, ?_, Nat.le_refl _, rfl⟩
    intro b' i' r hr
    show upd t.node b (upd (t.node b) (t.idx b) (some N)) b' i' = some r
    rw [hnode, if_neg]
    · exact hr
    · rintro ⟨rfl, rfl⟩; rw [hfree] at hr; simp at hr
  have hlive : Live t p := hp.live
  have hold : ∀ b' i' r, t'.node b' i' = some r → ¬ (b' = b ∧ i' = t.idx b) → t.node b' i' = some r := by
    intro b' i' r h hne
    rwa [e1, if_neg hne] at h
  have hnewr : t'.node b (t.idx b) = some N := by rw [e1]; simp
  have e2 : t'.npb = t.npb := by rw [← ht]
  have e3 : t'.nextBlock = t.nextBlock := by rw [← ht]
  have e4 : t'.numBlocks = t.numBlocks := by rw [← ht]
  have e5 : ∀ x, t'.idx x = if x = b then t.idx b + 1 else t.idx x := by rw [← ht]; intro x; rfl
  have e6 : t'.cur = t.cur := by rw [← ht]
  have e7 : ∀ q, t'.kids q = if q = p then .cell b (t.idx b) :: t.kids p else t.kids q := by rw [← ht]; intro x; rfl
  have hrec := hN
  have hNid : N.id = b * t.npb + t.idx b := by rw [← hN]
  have hNa : N.attr = a := by rw [← hN]
  have hNv : N.val = v := by rw [← hN]
  have hNp : N.parent = p := by rw [← hN]
  have hNr : N.rank = t.rankOf p + 1 := by rw [← hN]
  have hdup : ∀ b' i' r, t.node b' i' = some r → r.parent = p → r.attr = a → r.val = v → False := by
    intro b' i' r hr h1 h2 h3
    subst h1
    have := Path.cell hr hp
    rw [h2, h3] at this
    exact hnew _ this
  refine ⟨.cell b (t.idx b), rfl, ?_, hext, ?_, ?_, trivial, hc, by simp [upd], ?_⟩
  · refine ⟨by rw [e2]; exact I.npb, by rw [e2]; exact I.npb2, by rw [e3, e4]; exact I.nb, ?_, ?_, ?_, ?_, ?_, ?_, ?_, ?_⟩
    · intro b' i'
      rw [e1, e3, e5]
      have := I.alloc b' i'
      by_cases h1 : b' = b
      · subst h1
        by_cases h2 : i' = t.idx b'
        · subst h2; simp [hbn]
        · simp [h2, this]; omega
      · simp [h1, this]
    · intro b' hb'
      rw [e3] at hb'
      rw [e5, e2]
      have := I.idx b' hb'
      split <;> omega
    · intro b' i' r hr
      rw [e2]
      by_cases h : b' = b ∧ i' = t.idx b
      · obtain ⟨rfl, rfl⟩ := h
        rw [hnewr] at hr; cases hr
        exact hNid
      · exact I.id _ _ _ (hold _ _ _ hr h)
    · intro b' i' r hr
      by_cases h : b' = b ∧ i' = t.idx b
      · obtain ⟨rfl, rfl⟩ := h
        rw [hnewr] at hr; cases hr
        rw [hNp]
        exact ⟨hext.live hlive, by rw [hNr, hext.rankOf hlive]⟩
      · have := I.par _ _ _ (hold _ _ _ hr h)
        exact ⟨hext.live this.1, by rw [this.2, hext.rankOf this.1]⟩
    · intro q c
      rw [e7]
      constructor
      · intro h
        split at h
        · rename_i hq
          subst hq
          rcases List.mem_cons.1 h with h | h
          · exact ⟨_, _, N, h, hnewr, hNp⟩
          · obtain ⟨b', i', r, h1, h2, h3⟩ := (I.kids q c).1 h
            exact ⟨b', i', r, h1, hext.node _ _ _ h2, h3⟩
        · obtain ⟨b', i', r, h1, h2, h3⟩ := (I.kids q c).1 h
          exact ⟨b', i', r, h1, hext.node _ _ _ h2, h3⟩
      · rintro ⟨b', i', r, rfl, h2, rfl⟩
        by_cases h : b' = b ∧ i' = t.idx b
        · obtain ⟨rfl, rfl⟩ := h
          rw [hnewr] at h2; cases h2
          rw [if_pos hNp]; exact List.mem_cons_self ..
        · have h2' := hold _ _ _ h2 h
          have := (I.kids r.parent (.cell b' i')).2 ⟨b', i', r, rfl, h2', rfl⟩
          split
          · rename_i hq; rw [hq] at this; exact List.mem_cons_of_mem _ this
          · exact this
    · intro b1 i1 r1 b2 i2 r2 h1 h2 hpar hat hv
      by_cases c1 : b1 = b ∧ i1 = t.idx b <;> by_cases c2 : b2 = b ∧ i2 = t.idx b
      · exact ⟨by omega, by omega⟩
      · obtain ⟨rfl, rfl⟩ := c1
        rw [hnewr] at h1; cases h1
        exact (hdup _ _ _ (hold _ _ _ h2 c2) (hpar.symm.trans hNp) (hat.symm.trans hNa) (hv.symm.trans hNv)).elim
      · obtain ⟨rfl, rfl⟩ := c2
        rw [hnewr] at h2; cases h2
        exact (hdup _ _ _ (hold _ _ _ h1 c1) (hpar.trans hNp) (hat.trans hNa) (hv.trans hNv)).elim
      · exact I.sib _ _ _ _ _ _ (hold _ _ _ h1 c1) (hold _ _ _ h2 c2) hpar hat hv
    · intro th' b' h; rw [e6] at h; rw [e3]; exact I.cur _ _ h
    · intro th' th'' b' h h'; rw [e6] at h h'; exact I.curInj _ _ _ h h'
  · have := Path.cell (t := t') hnewr (l := l) (by rw [hNp]; exact hext.path hp)
    rw [hNa, hNv] at this
    exact this
  · rintro (h | h)
    · exact absurd h (by simp)
    · simp [Tree.get?, hfree] at h
  · rintro q (h | h)
    · exact .inl (.inl h)
    · cases q with
      | root => exact .inl (.inl rfl)
      | cell b' i' =>
        by_cases hh : b' = b ∧ i' = t.idx b
        · obtain ⟨rfl, rfl⟩ := hh; exact .inr rfl
        · obtain ⟨r, hr⟩ := Option.isSome_iff_exists.1 h
          exact .inl (.inr (by rw [show t.get? (.cell b' i') = some r from hold _ _ _ hr hh]; rfl))

end Verif.MTree
