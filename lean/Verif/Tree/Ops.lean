import Verif.Tree.Lemmas
import Mathlib.Data.List.Induction
namespace Verif.MTree
open BB (upd)

/-- what every request guarantees -/
structure Good (t : Tree) (res : Tree × Option Ptr) (want : PathL) : Prop where
  inv : Inv res.1
  ext : Ext t res.1
  full : t.fails < res.1.fails → res.1.numBlocks ≤ res.1.nextBlock
  ok : res.1.fails = t.fails → ∃ q, res.2 = some q ∧ Path res.1 q want
  live : ∀ q, res.2 = some q → Live res.1 q
  new : res.1.fails = t.fails → ∀ q m, Path res.1 q m → ¬ Live t q → m <+: want
  same : (∃ q, Path t q want) → res.1 = t

theorem Path.pre {t : Tree} {p : Ptr} {l l2 : PathL} (h : Path t p (l ++ l2)) : ∃ q, Path t q l := by
  induction l2 using List.reverseRecOn generalizing p with
  | nil => exact ⟨p, by simpa using h⟩
  | append_singleton l2 x ih =>
    rw [← List.append_assoc] at h
    obtain ⟨_, _, r, _, _, _, _, hp⟩ := h.snoc_inv (a := x.1) (v := x.2)
    exact ih hp

theorem Live.getD {t : Tree} {p : Option Ptr} (h : ∀ q, p = some q → Live t q) : Live t (p.getD .root) := by
  cases p with
  | none => exact .inl rfl
  | some q => exact h q rfl

theorem createChild_spec {t : Tree} (I : Inv t) (th a : Nat) (v : Val) {p : Ptr} {l : PathL} (hp : Path t p l)
    (hnew : ∀ q, ¬ Path t q (l ++ [(a, v)])) : Good t (createChild t th a v p) (l ++ [(a, v)]) := by
  obtain ⟨i1, x1, n1, f1, g1⟩ := haveFree_spec I th 1 (by have := I.npb; omega)
  unfold createChild
  cases hh : haveFree t th 1 with
  | mk t1 ok =>
    rw [hh] at i1 x1 n1 f1 g1
    cases ok with
    | false =>
      obtain ⟨h1, h2⟩ := f1 rfl
      have hx := x1.numBlocks
      have hy := x1.nextBlock
      refine ⟨i1, x1, fun _ => ?_, fun h => ?_, by simp, fun h => ?_, fun ⟨q, hq⟩ => absurd hq (hnew q)⟩ <;> simp only at *
      · omega
      · omega
      · omega
    | true =>
      obtain ⟨h1, b, h2, h3⟩ := g1 rfl
      have x2 := x1.npb
      simp only at h1 h2 h3 i1 x1 n1 x2
      have hl : ∀ q, Live t1 q → Live t q := by
        rintro q (h | h)
        · exact .inl h
        · cases q with
          | root => exact .inl rfl
          | cell b i => exact .inr (by simpa [Tree.get?, n1] using h)
      have hnew1 : ∀ q, ¬ Path t1 q (l ++ [(a, v)]) := by
        intro q hq
        obtain ⟨m, hm⟩ := (hl q hq.live).path I
        have := (x1.path hm).fun hq
        subst this
        exact hnew q hm
      obtain ⟨c, c1, c2, c3, c4, c5, c6, c7, c8, c9⟩ := newNode_spec i1 (th := th) (v := v) (a := a) h2 (by omega) (x1.path hp) hnew1
      refine ⟨c2, x1.trans c3, fun h => ?_, fun _ => ⟨c, c1, c4⟩, ?_, ?_, fun ⟨q, hq⟩ => absurd hq (hnew q)⟩
      · simp only at h; omega
      · intro q hq; rw [c1] at hq; cases hq; exact c4.live
      · intro _ q m hq hnl
        rcases c9 q hq.live with h | rfl
        · exact absurd (hl q h) hnl
        · rw [c4.fun hq]; exact List.prefix_rfl

theorem getChild_spec {t : Tree} (I : Inv t) (th a : Nat) (v : Val) {p : Option Ptr} {l : PathL} (hp : PathO t p l) :
    Good t (getChild t th a v p) (l ++ [(a, v)]) := by
  unfold getChild
  simp only
  split
  · rename_i c hc
    have := findChild_some I hp hc
    exact ⟨I, Ext.refl t, fun h => by simp at h, fun _ => ⟨c, rfl, this⟩, fun q hq => by cases hq; exact this.live,
      fun _ q m hq hn => absurd hq.live hn, fun _ => rfl⟩
  · rename_i hc
    exact createChild_spec I th a v hp (findChild_none_path I hp hc)

theorem getChild_some {t : Tree} (I : Inv t) (th a : Nat) (v : Val) {p : Option Ptr} {l : PathL} (hp : PathO t p l)
    {q : Ptr} (h : (getChild t th a v p).2 = some q) :
    Path (getChild t th a v p).1 q (l ++ [(a, v)]) ∧ (getChild t th a v p).1.fails = t.fails := by
  have G := getChild_spec I th a v hp
  suffices hf : (getChild t th a v p).1.fails = t.fails by
    obtain ⟨q', h1, h2⟩ := G.ok hf
    rw [h] at h1; cases h1; exact ⟨h2, hf⟩
  unfold getChild createChild at h ⊢
  simp only at h ⊢
  split
  · rfl
  · rename_i hc
    rw [hc] at h
    simp only at h
    cases hh : haveFree t th 1 with
    | mk t1 ok =>
      rw [hh] at h
      cases ok with
      | false => simp at h
      | true =>
        obtain ⟨i1, x1, n1, f1, g1⟩ := haveFree_spec I th 1 (by have := I.npb; omega)
        rw [hh] at g1
        obtain ⟨g1, _⟩ := g1 rfl
        simp only at h g1 ⊢
        rw [← g1]
        unfold newNode
        split
        · rfl
        · simp only
          split <;> rfl

theorem createLoop_spec {t : Tree} (I : Inv t) (th a b : Nat) (vs : List Val) {p : Ptr} {l : PathL} (hc : t.cur th = some b)
    (hi : t.idx b + vs.length ≤ t.npb) (hp : Path t p l) (hv : vs ≠ [])
    (hnew : ∀ q, ¬ Path t q (l ++ [(a, vs.head hv)])) :
    Good t (createLoop t th a vs p) (l ++ vs.map fun v => (a, v)) ∧ (createLoop t th a vs p).1.fails = t.fails := by
  induction vs generalizing t p l with
  | nil => exact absurd rfl hv
  | cons v vs ih =>
    simp only [List.length_cons] at hi
    have hsame : (∃ q, Path t q (l ++ (v :: vs).map fun v => (a, v))) → (createLoop t th a (v :: vs) p).1 = t := by
      rintro ⟨q, hq⟩
      have : l ++ (v :: vs).map (fun v => (a, v)) = (l ++ [(a, v)]) ++ vs.map (fun v => (a, v)) := by simp
      rw [this] at hq
      obtain ⟨q', hq'⟩ := hq.pre
      exact absurd hq' (hnew q')
    obtain ⟨c, c1, c2, c3, c4, c5, c6, c7, c8, c9⟩ := newNode_spec I (th := th) (v := v) (a := a) hc (by omega) hp hnew
    unfold createLoop at hsame ⊢
    cases hh : newNode t th a v p with
    | mk t1 oc =>
      rw [hh] at c1 c2 c3 c4 c6 c7 c8 c9 hsame
      simp only at c1 c2 c3 c4 c6 c7 c8 c9
      subst c1
      simp only at hsame ⊢
      cases vs with
      | nil =>
        refine ⟨⟨c2, c3, fun h => ?_, fun _ => ⟨c, rfl, c4⟩, fun q hq => ?_, ?_, hsame⟩, c6⟩
        · simp only [createLoop] at h; omega
        · simp only [createLoop, Option.some.injEq] at hq; subst hq; exact c4.live
        · intro _ q m hq hnl
          rcases c9 q hq.live with h | rfl
          · exact absurd h hnl
          · rw [← c4.fun hq]; exact List.prefix_rfl
      | cons v2 vs =>
        have hx := c3.npb
        have hno : ∀ q, ¬ Path t1 q (l ++ [(a, v)] ++ [(a, v2)]) := by
          intro q hq
          obtain ⟨b', i', r, rfl, hr, _, _, hpar⟩ := hq.snoc_inv
          rcases c9 _ hq.live with h | h
          · obtain ⟨m, hm⟩ := h.path I
            have := (c3.path hm).fun hq
            subst this
            obtain ⟨b2, i2, r2, h2, hr2, _, _, hpar2⟩ := hm.snoc_inv
            exact hnew _ hpar2
          · rw [h] at hq
            have := hq.fun c4
            simp at this
        obtain ⟨g, gf⟩ := ih c2 c7 (by rw [c8, hx]; simp only [List.length_cons] at hi ⊢; omega) c4 (by simp) hno
        refine ⟨⟨g.inv, c3.trans g.ext, fun h => ?_, fun _ => ?_, g.live, ?_, hsame⟩, ?_⟩
        · omega
        · obtain ⟨q, hq1, hq2⟩ := g.ok gf
          exact ⟨q, hq1, by simpa using hq2⟩
        · intro _ q m hq hnl
          by_cases hl1 : Live t1 q
          · rcases c9 q hl1 with h | rfl
            · exact absurd h hnl
            · have := (g.ext.path c4).fun hq
              rw [← this]
              exact ⟨(v2 :: vs).map fun v => (a, v), by simp⟩
          · have := g.new gf q m hq hl1
            simpa using this
        · omega

theorem findPrefix_spec {t : Tree} (I : Inv t) (a : Nat) (vs : List Val) {p : Ptr} {l : PathL} (hp : Path t p l) :
    ∃ us, vs = us ++ (findPrefix t a vs p).2 ∧ Path t (findPrefix t a vs p).1 (l ++ us.map fun v => (a, v)) ∧
      (∀ h : (findPrefix t a vs p).2 ≠ [],
        ∀ q, ¬ Path t q ((l ++ us.map fun v => (a, v)) ++ [(a, (findPrefix t a vs p).2.head h)])) := by
  induction vs generalizing p l with
  | nil => exact ⟨[], rfl, by simpa [findPrefix] using hp, by simp [findPrefix]⟩
  | cons v vs ih =>
    cases hc : findChild t p a v with
    | none =>
      have e : findPrefix t a (v :: vs) p = (p, v :: vs) := by simp only [findPrefix, hc]
      rw [e]
      refine ⟨[], rfl, by simpa using hp, fun h q => ?_⟩
      simpa using findChild_none_path I hp hc q
    | some c =>
      have e : findPrefix t a (v :: vs) p = findPrefix t a vs c := by simp only [findPrefix, hc]
      rw [e]
      obtain ⟨us, h1, h2, h3⟩ := ih (findChild_some I hp hc)
      refine ⟨v :: us, by simp only [List.cons_append]; rw [← h1], by simpa using h2, fun h q => ?_⟩
      have := h3 h q
      simpa using this

theorem getPath_spec {t : Tree} (I : Inv t) (th a : Nat) (vs : List Val) {p : Option Ptr} {l : PathL} (hp : PathO t p l)
    (hn : vs.length ≤ t.npb) : Good t (getPath t th a vs p) (l ++ vs.map fun v => (a, v)) := by
  unfold getPath
  simp only
  obtain ⟨us, h1, h2, h3⟩ := findPrefix_spec I a vs hp
  generalize findPrefix t a vs (p.getD .root) = res at h1 h2 h3
  obtain ⟨q, rest⟩ := res
  cases rest with
  | nil =>
    simp only at h1 h2
    simp only [List.append_nil] at h1
    subst h1
    exact ⟨I, Ext.refl t, fun h => by simp at h, fun _ => ⟨q, rfl, h2⟩, fun q hq => by cases hq; exact h2.live,
      fun _ q m hq hn => absurd hq.live hn, fun _ => rfl⟩
  | cons v rest =>
    simp only at h1 h2 h3 ⊢
    have hno : ¬ ∃ q, Path t q (l ++ vs.map fun v => (a, v)) := by
      rintro ⟨q, hq⟩
      have e : l ++ vs.map (fun v => (a, v)) = ((l ++ us.map fun v => (a, v)) ++ [(a, v)]) ++ rest.map (fun v => (a, v)) := by
        rw [h1]; simp
      rw [e] at hq
      obtain ⟨q', hq'⟩ := hq.pre
      exact h3 (by simp) q' hq'
    have hlen : (v :: rest).length ≤ t.npb := by rw [h1] at hn; simp at hn ⊢; omega
    obtain ⟨i1, x1, n1, f1, g1⟩ := haveFree_spec I th (v :: rest).length hlen
    unfold createPath
    cases hh : haveFree t th (v :: rest).length with
    | mk t1 ok =>
      rw [hh] at i1 x1 n1 f1 g1
      cases ok with
      | false =>
        obtain ⟨h4, h5⟩ := f1 rfl
        have hx := x1.numBlocks
        have hy := x1.nextBlock
        refine ⟨i1, x1, fun _ => ?_, fun h => ?_, by simp, fun h => ?_, fun h => absurd h hno⟩ <;> simp only at *
        · omega
        · omega
        · omega
      | true =>
        obtain ⟨h4, b, h5, h6⟩ := g1 rfl
        have x2 := x1.npb
        simp only at h4 h5 h6 i1 x1 n1 x2
        have hl : ∀ q, Live t1 q → Live t q := by
          rintro q (h | h)
          · exact .inl h
          · cases q with
            | root => exact .inl rfl
            | cell b i => exact .inr (by simpa [Tree.get?, n1] using h)
        have hnew1 : ∀ q, ¬ Path t1 q ((l ++ us.map fun v => (a, v)) ++ [(a, v)]) := by
          intro q hq
          obtain ⟨m, hm⟩ := (hl q hq.live).path I
          have := (x1.path hm).fun hq
          subst this
          exact h3 (by simp) q hm
        obtain ⟨g, gf⟩ := createLoop_spec i1 th a b (v :: rest) h5 (by rw [x2]; exact h6) (x1.path h2) (by simp) hnew1
        have e : (l ++ us.map fun v => (a, v)) ++ (v :: rest).map (fun v => (a, v)) = l ++ vs.map fun v => (a, v) := by
          rw [h1]; simp
        rw [e] at g
        refine ⟨g.inv, x1.trans g.ext, fun h => ?_, fun _ => g.ok gf, g.live, ?_, fun h => absurd h hno⟩
        · simp only at h; omega
        · intro _ q m hq hnl
          exact g.new gf q m hq (fun h => hnl (hl q h))

/-- trivial result: the node is already there -/
theorem Good.self {t : Tree} (I : Inv t) {p : Ptr} {l : PathL} (hp : Path t p l) : Good t (t, some p) l :=
  ⟨I, Ext.refl t, fun h => by simp at h, fun _ => ⟨p, rfl, hp⟩, fun q hq => by cases hq; exact hp.live,
    fun _ q m hq hn => absurd hq.live hn, fun _ => rfl⟩

/-- a request continued at the node another request produced; in case of failure the second one starts at the root or
somewhere in the tree -/
theorem Good.bind {t : Tree} {res : Tree × Option Ptr} {w w' : PathL} (h : Good t res w) (f : Tree → Option Ptr → Tree × Option Ptr)
    (hf : ∀ p l, PathO res.1 p l → ∃ l', Good res.1 (f res.1 p) l' ∧ (l = w → l' = w')) (hw : w <+: w') :
    Good t (f res.1 res.2) w' := by
  obtain ⟨l, hl⟩ : ∃ l, PathO res.1 res.2 l := (Live.getD h.live).path h.inv
  obtain ⟨l', g, hl'⟩ := hf res.2 l hl
  have e1 := h.ext.fails
  have e2 := g.ext.fails
  have key : (f res.1 res.2).1.fails = t.fails → l' = w' := by
    intro hfl
    apply hl'
    obtain ⟨q, hq1, hq2⟩ := h.ok (by omega)
    rw [hq1] at hl
    exact Path.fun hl hq2
  have hsame : (∃ q, Path t q w') → (f res.1 res.2).1 = t := by
    rintro ⟨q, hq⟩
    obtain ⟨x, hx⟩ := hw
    have e := h.same (by rw [← hx] at hq; exact hq.pre)
    have hl2 : l' = w' := by
      apply hl'
      obtain ⟨q, hq1, hq2⟩ := h.ok (by rw [e])
      rw [hq1] at hl
      exact Path.fun hl hq2
    rw [hl2] at g
    exact (g.same ⟨q, by rw [e]; exact hq⟩).trans e
  refine ⟨g.inv, h.ext.trans g.ext, ?_, fun hfl => ?_, g.live, ?_, hsame⟩
  · intro hlt
    by_cases hc : res.1.fails < (f res.1 res.2).1.fails
    · exact g.full hc
    · have := h.full (by omega)
      have a1 := g.ext.numBlocks
      have a2 := g.ext.nextBlock
      omega
  · rw [← key hfl]; exact g.ok (by omega)
  · intro hfl q m hq hnl
    by_cases hll : Live res.1 q
    · obtain ⟨m', hm'⟩ := hll.path h.inv
      have := (g.ext.path hm').fun hq
      subst this
      exact (h.new (by omega) q m' hm' hnl).trans hw
    · rw [← key hfl]; exact g.new (by omega) q m hq hll

theorem getPathNodes_spec {t : Tree} (I : Inv t) (th : Nat) (ns : List (Option Ptr)) {p : Option Ptr} {l : PathL}
    (hp : PathO t p l) (hns : ∀ n, some n ∈ ns → Live t n) :
    ∃ res, res = getPathNodes t th ns p ∧ Good t (res.1, some (res.2.getD .root)) (l ++ (ns.filterMap id).map fun n => (t.attrOf n, t.valOf n)) := by
  refine ⟨_, rfl, ?_⟩
  induction ns generalizing t p l with
  | nil => simpa [getPathNodes] using Good.self I hp
  | cons n ns ih =>
    cases n with
    | none =>
      simp only [getPathNodes]
      simpa using ih I hp (fun n hn => hns n (by simp [hn]))
    | some n =>
      simp only [getPathNodes]
      have g := getChild_spec I th (t.attrOf n) (t.valOf n) hp
      have ge : getOrCopy t th n p = getChild t th (t.attrOf n) (t.valOf n) p := rfl
      rw [ge]
      generalize getChild t th (t.attrOf n) (t.valOf n) p = r at g
      have hns' : ∀ n', some n' ∈ ns → Live r.1 n' := fun n' hn' => g.ext.live (hns n' (by simp [hn']))
      have hmap : (ns.filterMap id).map (fun n => (r.1.attrOf n, r.1.valOf n)) = (ns.filterMap id).map (fun n => (t.attrOf n, t.valOf n)) := by
        apply List.map_congr_left
        intro n' hn'
        have : Live t n' := hns n' (by
          simp only [List.mem_filterMap, id_eq, exists_eq_right] at hn'
          simp [hn'])
        rw [g.ext.attrOf this, g.ext.valOf this]
      have := Good.bind (w' := l ++ ((some n :: ns).filterMap id).map fun n => (t.attrOf n, t.valOf n)) g
        (fun t' p' => ((getPathNodes t' th ns p').1, some ((getPathNodes t' th ns p').2.getD .root)))
        (fun p' l' hl' => ⟨_, ih g.inv hl' hns', by
          intro e
          rw [e, hmap]
          simp⟩) (by simp)
      exact this

theorem parentOf_path {t : Tree} {p : Ptr} {l : PathL} {a : Nat} {v : Val} (e : Path t p (l ++ [(a, v)])) :
    ∃ q, t.parentOf p = some q ∧ Path t q l ∧ t.attrOf p = a ∧ t.valOf p = v := by
  obtain ⟨b, i, r, rfl, hr, ha, hv, hp⟩ := e.snoc_inv
  exact ⟨r.parent, by simp [Tree.parentOf, Tree.get?, hr], hp, by simp [Tree.attrOf, Tree.get?, hr, ha],
    by simp [Tree.valOf, Tree.get?, hr, hv]⟩

theorem snoc_cases (l : PathL) : l = [] ∨ ∃ l' a v, l = l' ++ [(a, v)] := by
  rcases List.eq_nil_or_concat l with h | ⟨l', x, h⟩
  · exact .inl h
  · exact .inr ⟨l', x.1, x.2, by simpa using h⟩

theorem copy_spec {th a : Nat} {fuel : Nat} {t : Tree} (I : Inv t) {nd parent : Ptr} {lp suf : PathL}
    (hn : Path t nd (lp ++ suf)) (hp : Path t parent lp) (hf : suf.length < fuel) :
    Good t (copyPathWithout th a fuel t (some nd) parent) (lp ++ eraseAll a suf) := by
  induction fuel generalizing nd suf with
  | zero => omega
  | succ fuel ih =>
    unfold copyPathWithout
    simp only
    rcases snoc_cases suf with rfl | ⟨s', x, v, rfl⟩
    · have : nd = parent := by
        simp only [List.append_nil] at hn
        exact hn.inj I hp
      rw [if_pos this]
      simpa [eraseAll] using Good.self I hp
    · have hne : nd ≠ parent := by
        rintro rfl
        have := hn.fun hp
        have := congrArg List.length this
        simp at this
      rw [if_neg hne]
      rw [← List.append_assoc] at hn
      obtain ⟨q, h1, h2, h3, h4⟩ := parentOf_path hn
      rw [h1]
      simp only [List.length_append, List.length_singleton] at hf
      have g := ih h2 (by omega)
      cases hr : copyPathWithout th a fuel t (some q) parent with
      | mk t1 tmp =>
        rw [hr] at g
        simp only
        have ha : t1.attrOf nd = x := by rw [g.ext.attrOf hn.live, h3]
        have hv : t1.valOf nd = v := by rw [g.ext.valOf hn.live, h4]
        by_cases hx : a ≠ x
        · rw [ha, if_pos hx]
          have e : lp ++ eraseAll a (s' ++ [(x, v)]) = (lp ++ eraseAll a s') ++ [(x, v)] := by
            simp [eraseAll, Ne.symm hx]
          rw [e]
          have := Good.bind (w' := (lp ++ eraseAll a s') ++ [(x, v)]) g (fun t' p' => getOrCopy t' th nd p')
            (fun p' l' hl' => ⟨l' ++ [(x, v)], by
              have := getChild_spec g.inv th x v hl'
              show Good t1 (getChild t1 th (t1.attrOf nd) (t1.valOf nd) p') _
              rw [ha, hv]; exact this, by rintro rfl; rfl⟩) (by simp)
          exact this
        · rw [ha, if_neg hx]
          have e : eraseAll a (s' ++ [(x, v)]) = eraseAll a s' := by
            simp only [Decidable.not_not] at hx
            simp [eraseAll, hx]
          rw [e]; exact g

theorem findUp_spec {t : Tree} (I : Inv t) {a : Nat} (ha : a ≠ invId) {fuel : Nat} {nd : Ptr} {l : PathL} (hn : Path t nd l)
    (hf : l.length + 1 < fuel) :
    (findUp t a fuel (some nd) = none ∧ ∀ e ∈ l, e.1 ≠ a) ∨
    ∃ l₁ v l₂ q, l = l₁ ++ [(a, v)] ++ l₂ ∧ (∀ e ∈ l₂, e.1 ≠ a) ∧ findUp t a fuel (some nd) = some q ∧ Path t q (l₁ ++ [(a, v)]) := by
  induction fuel generalizing nd l with
  | zero => omega
  | succ fuel ih =>
    rcases snoc_cases l with rfl | ⟨l', x, v, rfl⟩
    · have : nd = .root := hn.inj I .root
      subst this
      left
      refine ⟨?_, by simp⟩
      have e1 : t.attrOf .root = invId := rfl
      have e2 : t.parentOf .root = none := rfl
      simp only [findUp]
      rw [if_pos (by rw [e1]; exact Ne.symm ha), e2]
      cases fuel <;> rfl
    · obtain ⟨q, h1, h2, h3, h4⟩ := parentOf_path hn
      simp only [List.length_append, List.length_singleton] at hf
      simp only [findUp, h3, h1]
      by_cases hx : x = a
      · subst hx
        rw [if_neg (by simp)]
        exact .inr ⟨l', v, [], nd, by simp, by simp, rfl, hn⟩
      · rw [if_pos hx]
        rcases ih h2 (by omega) with ⟨k1, k2⟩ | ⟨l₁, w, l₂, q', k1, k2, k3, k4⟩
        · refine .inl ⟨k1, ?_⟩
          intro e he
          rcases List.mem_append.1 he with he | he
          · exact k2 e he
          · simp at he; subst he; exact hx
        · refine .inr ⟨l₁, w, l₂ ++ [(x, v)], q', by rw [k1]; simp, ?_, k3, k4⟩
          intro e he
          rcases List.mem_append.1 he with he | he
          · exact k2 e he
          · simp at he; subst he; exact hx

theorem eraseInner_none {a : Nat} {l : PathL} (h : ∀ e ∈ l, e.1 ≠ a) : eraseInner a l = l := by
  unfold eraseInner
  rw [List.eraseP_of_forall_not]
  · simp
  · intro x hx; simp; exact h x (by simpa using hx)

theorem eraseInner_split {a : Nat} {v : Val} {l₁ l₂ : PathL} (h : ∀ e ∈ l₂, e.1 ≠ a) :
    eraseInner a (l₁ ++ [(a, v)] ++ l₂) = l₁ ++ l₂ := by
  unfold eraseInner
  simp only [List.reverse_append, List.reverse_cons, List.reverse_nil, List.nil_append]
  rw [List.eraseP_append_right]
  · simp [List.eraseP_cons]
  · intro x hx; simp; exact h x (by simpa using hx)

theorem eraseAll_none {a : Nat} {l : PathL} (h : ∀ e ∈ l, e.1 ≠ a) : eraseAll a l = l := by
  unfold eraseAll
  rw [List.filter_eq_self]
  intro x hx; simp; exact h x hx

theorem copy_none {th a fuel : Nat} {t : Tree} {parent : Ptr} :
    copyPathWithout th a (fuel + 1) t none parent = (t, some parent) := by
  simp [copyPathWithout]

theorem removeFirst_spec {t : Tree} (I : Inv t) (th a : Nat) (ha : a ≠ invId) {p : Option Ptr} {l : PathL} (hp : PathO t p l) :
    Good t (removeFirst t th p a) (eraseInner a l) := by
  cases p with
  | none =>
    have : l = [] := by cases hp; rfl
    subst this
    simp only [removeFirst, Tree.fuelOf, Option.map_none, Option.getD_none, findUp, copyPathWithout]
    simpa [eraseInner] using Good.self I Path.root
  | some nd =>
    have hp' : Path t nd l := hp
    have hr := hp'.rank I
    unfold removeFirst
    have hfu : t.fuelOf (some nd) = l.length + 3 := by simp [Tree.fuelOf, hr]
    rw [hfu]
    simp only
    rcases findUp_spec I ha hp' (show l.length + 1 < l.length + 3 by omega) with ⟨k1, k2⟩ | ⟨l₁, w, l₂, q', k1, k2, k3, k4⟩
    · rw [k1, eraseInner_none k2]
      simp only [Option.bind_none, Option.getD_none]
      have := copy_spec (th := th) (a := a) (fuel := l.length + 3) I (lp := []) (suf := l) (by simpa using hp') .root (by omega)
      rwa [eraseAll_none k2, List.nil_append] at this
    · rw [k3]
      obtain ⟨q2, j1, j2, _, _⟩ := parentOf_path k4
      simp only [Option.bind_some, j1, Option.getD_some]
      rw [k1, eraseInner_split k2]
      rw [k1] at hp'
      have := copy_spec (th := th) (a := a) (fuel := l.length + 3) I (lp := l₁) (suf := [(a, w)] ++ l₂)
        (by simpa using hp') j2 (by rw [k1]; simp; omega)
      have e : eraseAll a ([(a, w)] ++ l₂) = l₂ := by
        have := eraseAll_none k2
        unfold eraseAll at this ⊢
        simp [this]
        exact fun x y h => k2 (x, y) h
      rw [k1] at this
      rwa [e] at this

theorem replaceFirst_spec {t : Tree} (I : Inv t) (th a : Nat) (ha : a ≠ invId) (v : Val) {p : Option Ptr} {l : PathL}
    (hp : PathO t p l) : Good t (replaceFirst t th p a v) (eraseInner a l ++ [(a, v)]) := by
  cases p with
  | none =>
    have : l = [] := by cases hp; rfl
    subst this
    have := getChild_spec I th a v (p := none) (l := []) Path.root
    simpa [replaceFirst, eraseInner] using this
  | some nd =>
    unfold replaceFirst
    simp only
    have g := removeFirst_spec I th a ha hp
    exact Good.bind (w' := eraseInner a l ++ [(a, v)]) g (fun t' p' => getChild t' th a v p')
      (fun p' l' hl' => ⟨_, getChild_spec g.inv th a v hl', by rintro rfl; rfl⟩) (by simp)

theorem findOutermost_spec {t : Tree} (I : Inv t) {a : Nat} (ha : a ≠ invId) {fuel : Nat} {nd : Ptr} {l : PathL} (hn : Path t nd l)
    (hf : l.length + 1 < fuel) (acc : Option Ptr) :
    (findOutermost t a fuel (some nd) acc = acc ∧ ∀ e ∈ l, e.1 ≠ a) ∨
    ∃ l₁ v l₂ q, l = l₁ ++ [(a, v)] ++ l₂ ∧ (∀ e ∈ l₁, e.1 ≠ a) ∧ findOutermost t a fuel (some nd) acc = some q ∧
      Path t q (l₁ ++ [(a, v)]) := by
  induction fuel generalizing nd l acc with
  | zero => omega
  | succ fuel ih =>
    rcases snoc_cases l with rfl | ⟨l', x, v, rfl⟩
    · have : nd = .root := hn.inj I .root
      subst this
      left
      refine ⟨?_, by simp⟩
      have e1 : t.attrOf .root = invId := rfl
      have e2 : t.parentOf .root = none := rfl
      simp only [findOutermost]
      rw [if_neg (by rw [e1]; exact Ne.symm ha), e2]
      cases fuel <;> rfl
    · obtain ⟨q, h1, h2, h3, h4⟩ := parentOf_path hn
      simp only [List.length_append, List.length_singleton] at hf
      simp only [findOutermost, h3, h1]
      by_cases hx : x = a
      · subst hx
        rw [if_pos rfl]
        rcases ih h2 (by omega) (some nd) with ⟨k1, k2⟩ | ⟨l₁, w, l₂, q', k1, k2, k3, k4⟩
        · exact .inr ⟨l', v, [], nd, by simp, k2, k1, hn⟩
        · exact .inr ⟨l₁, w, l₂ ++ [(x, v)], q', by rw [k1]; simp, k2, k3, k4⟩
      · rw [if_neg hx]
        rcases ih h2 (by omega) acc with ⟨k1, k2⟩ | ⟨l₁, w, l₂, q', k1, k2, k3, k4⟩
        · refine .inl ⟨k1, ?_⟩
          intro e he
          rcases List.mem_append.1 he with he | he
          · exact k2 e he
          · simp at he; subst he; exact hx
        · exact .inr ⟨l₁, w, l₂ ++ [(x, v)], q', by rw [k1]; simp, k2, k3, k4⟩

theorem replaceAll_spec {t : Tree} (I : Inv t) (th a : Nat) (ha : a ≠ invId) (vs : List Val) {p : Option Ptr} {l : PathL}
    (hp : PathO t p l) (hn : vs.length ≤ t.npb) :
    Good t (replaceAll t th p a vs) (eraseAll a l ++ vs.map fun v => (a, v)) := by
  have fin : ∀ {res : Tree × Option Ptr}, Good t res (eraseAll a l) →
      Good t (getPath res.1 th a vs res.2) (eraseAll a l ++ vs.map fun v => (a, v)) := by
    intro res g
    exact Good.bind (w' := eraseAll a l ++ vs.map fun v => (a, v)) g (fun t' p' => getPath t' th a vs p')
      (fun p' l' hl' => ⟨_, getPath_spec g.inv th a vs hl' (by rw [g.ext.npb]; exact hn), by rintro rfl; rfl⟩) (by simp)
  cases p with
  | none =>
    have : l = [] := by cases hp; rfl
    subst this
    have := fin (res := (t, some .root)) (by simpa [eraseAll] using Good.self I Path.root)
    simpa [replaceAll, Tree.fuelOf, findOutermost, copyPathWithout] using this
  | some nd =>
    have hp' : Path t nd l := hp
    have hr := hp'.rank I
    have hfu : t.fuelOf (some nd) = l.length + 3 := by simp [Tree.fuelOf, hr]
    unfold replaceAll
    rw [hfu]
    simp only
    apply fin
    rcases findOutermost_spec I ha hp' (show l.length + 1 < l.length + 3 by omega) (some nd) with
      ⟨k1, k2⟩ | ⟨l₁, w, l₂, q', k1, k2, k3, k4⟩
    · rw [k1, eraseAll_none k2]
      simp only [Option.map_some, Option.getD_some]
      rcases snoc_cases l with rfl | ⟨l', x, v, rfl⟩
      · have : nd = .root := hp'.inj I .root
        subst this
        simp only [Tree.parentOf, Tree.get?, Option.map_none, Option.getD_none]
        have := copy_spec (th := th) (a := a) (fuel := 3) I (lp := []) (suf := []) .root .root (by simp)
        simpa [eraseAll] using this
      · obtain ⟨q, h1, h2, h3, h4⟩ := parentOf_path hp'
        rw [h1]
        simp only [Option.getD_some]
        have := copy_spec (th := th) (a := a) (fuel := (l' ++ [(x, v)]).length + 3) I hp' h2 (by simp)
        rwa [eraseAll_none (fun e he => k2 e (by simp at he; simp [he]))] at this
    · rw [k3]
      obtain ⟨q2, j1, j2, _, _⟩ := parentOf_path k4
      simp only [Option.map_some, j1, Option.getD_some]
      have := copy_spec (th := th) (a := a) (fuel := l.length + 3) I (lp := l₁) (suf := [(a, w)] ++ l₂)
        (by rw [k1] at hp'; simpa using hp') j2 (by rw [k1]; simp; omega)
      have e : l₁ ++ eraseAll a ([(a, w)] ++ l₂) = eraseAll a l := by
        rw [k1]
        have := eraseAll_none k2
        unfold eraseAll at this ⊢
        simp only [List.filter_append, this, List.append_assoc]
      rwa [e] at this

theorem Inv.init {npb nb : Nat} {g : Nat → Nat} (h : 12 ≤ npb) (h1 : 1 ≤ nb) : Inv (init npb nb g) := by
  have hnode : ∀ b i r, (MTree.init npb nb g).node b i = some r → b = 0 ∧ i < 12 ∧ bootNode i = some r := by
    intro b i r hr
    simp only [MTree.init] at hr
    split at hr
    · refine ⟨by assumption, ?_, hr⟩
      unfold bootNode at hr
      split at hr <;> simp_all
    · simp at hr
  have hlt : ∀ {P : Nat → Prop} (i : Nat), i < 12 → (∀ j : Fin 12, P j) → P i := fun i hi hP => hP ⟨i, hi⟩
  refine ⟨by simp [MTree.init]; omega, by simp [MTree.init]; omega, h1, ?_, ?_, ?_, ?_, ?_, ?_, ?_, ?_⟩
  · intro b i
    constructor
    · intro hs
      obtain ⟨r, hr⟩ := Option.isSome_iff_exists.1 hs
      obtain ⟨rfl, hi, _⟩ := hnode b i r hr
      exact ⟨by simp [MTree.init], by simpa [MTree.init, upd] using hi⟩
    · rintro ⟨hb, hi⟩
      have hb : b = 0 := by simp [MTree.init] at hb; exact hb
      subst hb
      have hi : i < 12 := by simpa [MTree.init, upd] using hi
      show (bootNode i).isSome
      exact hlt (P := fun i => (bootNode i).isSome = true) i hi (by decide)
  · intro b hb
    have hb : b = 0 := by simp [MTree.init] at hb; exact hb
    subst hb
    simp [MTree.init, upd]; omega
  · intro b i r hr
    obtain ⟨rfl, hi, hr⟩ := hnode b i r hr
    have := hlt (P := fun i => ∀ r, bootNode i = some r → r.id = i) i hi (by
      intro ⟨j, hj⟩
      have : ∀ j : Fin 12, (bootNode j).map (·.id) = some j.val := by decide
      intro r hr
      have := this ⟨j, hj⟩
      simp only at hr this
      rw [hr] at this; simpa using this) r hr
    simp [this]
  · intro b i r hr
    obtain ⟨rfl, hi, hr⟩ := hnode b i r hr
    have key : ∀ j : Fin 12, (bootNode j).all (fun r => match r.parent with
        | .root => r.rank == 1
        | .cell b k => b == 0 && ((bootNode k).any fun q => r.rank == q.rank + 1)) = true := by decide
    have := key ⟨i, hi⟩
    simp only [hr, Option.all_some] at this
    cases hp : r.parent with
    | root => rw [hp] at this; exact ⟨.inl rfl, by simpa [Tree.rankOf, Tree.get?] using this⟩
    | cell b k =>
      rw [hp] at this
      simp only [Bool.and_eq_true, beq_iff_eq] at this
      obtain ⟨rfl, this⟩ := this
      cases hk : bootNode k with
      | none => simp [hk] at this
      | some q =>
        simp [hk] at this
        have e : (MTree.init npb nb g).get? (.cell 0 k) = some q := by simp [Tree.get?, MTree.init, hk]
        exact ⟨.inr (by rw [e]; rfl), by simp [Tree.rankOf, e, this]⟩
  · intro p c
    constructor
    · intro hc
      have hc : c ∈ bootKids p := hc
      have fin : ∀ (i : Nat) (r : NodeRec), bootNode i = some r → r.parent = p → c = .cell 0 i →
          ∃ b i r, c = .cell b i ∧ (MTree.init npb nb g).node b i = some r ∧ r.parent = p := by
        intro i r h1 h2 h3
        exact ⟨0, i, r, h3, by simpa [MTree.init] using h1, h2⟩
      unfold bootKids at hc
      split at hc
      · simp only [List.mem_cons, List.not_mem_nil, or_false] at hc
        rcases hc with rfl | rfl | rfl | rfl | rfl | rfl | rfl | rfl | rfl <;> exact fin _ _ rfl rfl rfl
      · simp only [List.mem_cons, List.not_mem_nil, or_false] at hc
        subst hc; exact fin _ _ rfl rfl rfl
      · simp only [List.mem_cons, List.not_mem_nil, or_false] at hc
        subst hc; exact fin _ _ rfl rfl rfl
      · simp only [List.mem_cons, List.not_mem_nil, or_false] at hc
        subst hc; exact fin _ _ rfl rfl rfl
      · simp at hc
    · rintro ⟨b, i, r, rfl, hr, rfl⟩
      obtain ⟨rfl, hi, hr⟩ := hnode b i r hr
      have key : ∀ j : Fin 12, (bootNode j).all (fun r => decide (Ptr.cell 0 j.val ∈ bootKids r.parent)) = true := by decide
      have := key ⟨i, hi⟩
      simp only [hr, Option.all_some, decide_eq_true_eq] at this
      exact this
  · intro b i r b' i' r' hr hr' hp ha hv
    obtain ⟨rfl, hi, hr⟩ := hnode b i r hr
    obtain ⟨rfl, hi', hr'⟩ := hnode b' i' r' hr'
    have key : ∀ j k : Fin 12, (bootNode j).all (fun r => (bootNode k).all fun r' =>
        decide (r.parent = r'.parent → r.attr = r'.attr → r.val = r'.val → j = k)) = true := by decide +kernel
    have := key ⟨i, hi⟩ ⟨i', hi'⟩
    simp only [hr, hr', Option.all_some, decide_eq_true_eq] at this
    have := this hp ha hv
    simp at this
    exact ⟨rfl, this⟩
  · intro th b hb
    simp only [MTree.init] at hb ⊢
    split at hb
    · simp at hb; omega
    · simp at hb
  · intro th th' b hb hb'
    simp only [MTree.init] at hb hb'
    split at hb <;> split at hb'
    · omega
    all_goals simp_all

theorem Inv.idInj {t : Tree} (I : Inv t) {b i b' i' : Nat} {r r' : NodeRec} (hr : t.node b i = some r)
    (hr' : t.node b' i' = some r') (hid : r.id = r'.id) : b = b' ∧ i = i' := by
  have h1 := I.id _ _ _ hr
  have h2 := I.id _ _ _ hr'
  have a1 := (I.alloc b i).1 (by rw [hr]; rfl)
  have a2 := (I.alloc b' i').1 (by rw [hr']; rfl)
  have x1 := I.idx b a1.1
  have x2 := I.idx b' a2.1
  have hn := I.npb
  rw [h1, h2] at hid
  have e1 : (b * t.npb + i) / t.npb = b := by
    rw [Nat.mul_comm, Nat.mul_add_div (by omega), Nat.div_eq_of_lt (by omega)]; omega
  have e2 : (b' * t.npb + i') / t.npb = b' := by
    rw [Nat.mul_comm, Nat.mul_add_div (by omega), Nat.div_eq_of_lt (by omega)]; omega
  have : b = b' := by rw [← e1, hid, e2]
  subst this
  exact ⟨rfl, by omega⟩

theorem Inv.idOf_inj {t : Tree} (I : Inv t) {p q : Ptr} (hp : Live t p) (hq : Live t q) (hp' : p ≠ .root) (hq' : q ≠ .root)
    (h : t.idOf p = t.idOf q) : p = q := by
  cases p with
  | root => exact absurd rfl hp'
  | cell b i => cases q with
    | root => exact absurd rfl hq'
    | cell b' i' =>
      rcases hp with hp | hp
      · cases hp
      rcases hq with hq | hq
      · cases hq
      obtain ⟨r, hr⟩ := Option.isSome_iff_exists.1 hp
      obtain ⟨r', hr'⟩ := Option.isSome_iff_exists.1 hq
      have := I.idInj (r := r) (r' := r') hr hr' (by simpa [Tree.idOf, hr, hr'] using h)
      rw [this.1, this.2]

theorem Ext.idOf {t t' : Tree} (h : Ext t t') {p : Ptr} (e : Live t p) : t'.idOf p = t.idOf p := by
  rcases e with rfl | e
  · rfl
  · obtain ⟨r, hr⟩ := Option.isSome_iff_exists.1 e
    simp [Tree.idOf, hr, h.get hr]

/-! refused requests are never un-counted -/

theorem haveFree_fails (t : Tree) (th n : Nat) : t.fails ≤ (haveFree t th n).1.fails := by
  unfold haveFree
  split
  · split
    · exact Nat.le_succ _
    · exact Nat.le_refl _
  · exact Nat.le_refl _

theorem newNode_fails (t : Tree) (th a : Nat) (v : Val) (p : Ptr) : (newNode t th a v p).1.fails = t.fails := by
  unfold newNode
  split
  · rfl
  · simp only; split <;> rfl

theorem getChild_fails (t : Tree) (th a : Nat) (v : Val) (p : Option Ptr) : t.fails ≤ (getChild t th a v p).1.fails := by
  unfold getChild createChild
  simp only
  split
  · exact Nat.le_refl _
  · have := haveFree_fails t th 1
    cases hh : haveFree t th 1 with
    | mk t1 ok =>
      rw [hh] at this
      cases ok with
      | false => exact this
      | true => simp only; rw [newNode_fails]; exact this

theorem copy_fails (th a fuel : Nat) (t : Tree) (nd : Option Ptr) (p : Ptr) :
    t.fails ≤ (copyPathWithout th a fuel t nd p).1.fails := by
  induction fuel generalizing nd with
  | zero => exact Nat.le_refl _
  | succ fuel ih =>
    cases nd with
    | none => exact Nat.le_refl _
    | some nd =>
      unfold copyPathWithout
      simp only
      split
      · exact Nat.le_refl _
      · have := ih (t.parentOf nd)
        cases hh : copyPathWithout th a fuel t (t.parentOf nd) p with
        | mk t1 tmp =>
          rw [hh] at this
          simp only at this ⊢
          split
          · exact Nat.le_trans this (getChild_fails ..)
          · exact this

theorem removeFirst_fails (t : Tree) (th : Nat) (p : Option Ptr) (a : Nat) : t.fails ≤ (removeFirst t th p a).1.fails :=
  copy_fails ..

theorem replaceFirst_fails (t : Tree) (th : Nat) (p : Option Ptr) (a : Nat) (v : Val) :
    t.fails ≤ (replaceFirst t th p a v).1.fails := by
  unfold replaceFirst
  cases p with
  | none => exact getChild_fails ..
  | some p => exact Nat.le_trans (removeFirst_fails t th (some p) a) (getChild_fails ..)

end Verif.MTree
