import Verif.Tree.Ops
/-!
# C15, C16: the context tree

`Path t p l` (in `Verif/Tree/Spec.lean`): node `p` stands for the list `l` of (attribute, value) pairs.
`Reach t`: `t` is reachable from start-up by any sequence of requests of any threads.
`t.fails` counts the requests for a node block that were refused because the tree is full.
-/
namespace Verif.MTree

theorem Reach.inv {t : Tree} (h : Reach t) : Inv t ∧ t.dead = false := by
  induction h with
  | init h1 h2 => exact ⟨Inv.init h1 h2, rfl⟩
  | @step t q _ hok hb ih =>
    obtain ⟨I, hd⟩ := ih
    suffices ∃ res w, (MTree.step t q).1 = res.1 ∧ Good t res w by
      obtain ⟨res, w, h1, h2⟩ := this
      rw [h1]; exact ⟨h2.inv, h2.ext.dead.trans hd⟩
    cases q with
    | getChild th a v p => obtain ⟨l, hl⟩ := hok.path I; exact ⟨_, _, rfl, getChild_spec I th a v hl⟩
    | getPath th a vs p => obtain ⟨l, hl⟩ := hok.path I; exact ⟨_, _, rfl, getPath_spec I th a vs hl hb⟩
    | getPathNodes th ns p =>
      obtain ⟨l, hl⟩ := hok.1.path I
      obtain ⟨res, h1, h2⟩ := getPathNodes_spec I th ns hl (fun n hn => (hok.2 n hn).1)
      exact ⟨_, _, by rw [h1]; rfl, h2⟩
    | removeFirst th p a => obtain ⟨l, hl⟩ := hok.1.path I; exact ⟨_, _, rfl, removeFirst_spec I th a hok.2 hl⟩
    | replaceFirst th p a v => obtain ⟨l, hl⟩ := hok.1.path I; exact ⟨_, _, rfl, replaceFirst_spec I th a hok.2 v hl⟩
    | replaceAll th p a vs => obtain ⟨l, hl⟩ := hok.1.path I; exact ⟨_, _, rfl, replaceAll_spec I th a hok.2 vs hl hb⟩

/-- all requests, in one lemma -/
theorem step_good {t : Tree} (h : Reach t) {q : Req} (hok : q.ok t) (hb : q.batch.length ≤ t.npb) {want : PathL}
    (hw : Wanted t q want) : Good t ((step t q).1, some ((step t q).2.getD .root)) want := by
  obtain ⟨I, _⟩ := h.inv
  have conv : ∀ {res : Tree × Option Ptr} {w : PathL}, Good t res w → Good t (res.1, some (res.2.getD .root)) w := by
    intro res w g
    refine ⟨g.inv, g.ext, g.full, fun hf => ?_, fun q hq => ?_, g.new, g.same⟩
    · obtain ⟨q, h1, h2⟩ := g.ok hf
      exact ⟨q, by rw [h1]; rfl, h2⟩
    · cases hq; exact Live.getD g.live
  cases hw with
  | getChild hp => exact conv (getChild_spec I _ _ _ hp)
  | getPath hp => exact conv (getPath_spec I _ _ _ hp hb)
  | getPathNodes hp =>
    obtain ⟨res, h1, h2⟩ := getPathNodes_spec I _ _ hp (fun n hn => (hok.2 n hn).1)
    subst h1; exact h2
  | removeFirst hp => exact conv (removeFirst_spec I _ _ hok.2 hp)
  | replaceFirst hp => exact conv (replaceFirst_spec I _ _ hok.2 _ hp)
  | replaceAll hp => exact conv (replaceAll_spec I _ _ hok.2 _ hp hb)

/-- C15: no request ever changes what an existing node stands for, no matter whether it succeeds, and never corrupts memory. -/
theorem C15_existing_nodes_unchanged {t : Tree} (h : Reach t) {q : Req} (hok : q.ok t) (hb : q.batch.length ≤ t.npb) :
    (step t q).1.dead = false ∧ (∀ p l, Path t p l → Path (step t q).1 p l) ∧
    (∀ b i r, t.node b i = some r → (step t q).1.node b i = some r) := by
  have h' := (Reach.step h hok hb).inv
  suffices Ext t (step t q).1 from ⟨h'.2, fun p l hp => this.path hp, this.node⟩
  obtain ⟨I, _⟩ := h.inv
  cases q with
  | getChild th a v p => obtain ⟨l, hl⟩ := Live.path I hok; exact (getChild_spec I th a v hl).ext
  | getPath th a vs p => obtain ⟨l, hl⟩ := Live.path I hok; exact (getPath_spec I th a vs hl hb).ext
  | getPathNodes th ns p =>
    obtain ⟨l, hl⟩ := Live.path I hok.1
    exact (step_good h hok hb (.getPathNodes hl)).ext
  | removeFirst th p a => obtain ⟨l, hl⟩ := Live.path I hok.1; exact (removeFirst_spec I th a hok.2 hl).ext
  | replaceFirst th p a v => obtain ⟨l, hl⟩ := Live.path I hok.1; exact (replaceFirst_spec I th a hok.2 v hl).ext
  | replaceAll th p a vs => obtain ⟨l, hl⟩ := Live.path I hok.1; exact (replaceAll_spec I th a hok.2 vs hl hb).ext

/-- C15, `get_child` (complete): the result is null exactly if the tree is full and no such child exists; otherwise it
stands for the parent's path extended by the requested pair, only that one node may be new, and nothing changes if it existed. -/
theorem C15_get_child {t : Tree} (h : Reach t) (th a : Nat) (v : Val) {p : Option Ptr} {l : PathL} (hp : PathO t p l) :
    (∀ n, (getChild t th a v p).2 = some n → Path (getChild t th a v p).1 n (l ++ [(a, v)])) ∧
    ((getChild t th a v p).2 = none → t.numBlocks ≤ t.nextBlock ∧ ∀ n, ¬ Path t n (l ++ [(a, v)])) ∧
    (∀ m k, Path (getChild t th a v p).1 m k → ¬ Live t m → (getChild t th a v p).2 = some m) ∧
    (∀ n, Path t n (l ++ [(a, v)]) → getChild t th a v p = (t, some n)) := by
  obtain ⟨I, _⟩ := h.inv
  have G := getChild_spec I th a v hp
  have hcomp : ∀ n, Path t n (l ++ [(a, v)]) → getChild t th a v p = (t, some n) := by
    intro n hn
    unfold getChild
    simp only [findChild_complete I hp hn]
  refine ⟨fun n hn => (getChild_some I th a v hp hn).1, fun hn => ⟨?_, ?_⟩, ?_, hcomp⟩
  · have hf : (getChild t th a v p).1.fails ≠ t.fails := by
      intro hf; obtain ⟨q, h1, _⟩ := G.ok hf; rw [hn] at h1; simp at h1
    unfold getChild createChild at hn hf
    simp only at hn hf
    split at hn
    · simp at hn
    · rename_i hc
      rw [hc] at hf
      simp only at hf
      have HF := haveFree_spec I th 1 (by have := I.npb; omega)
      cases hh : haveFree t th 1 with
      | mk t1 ok =>
        rw [hh] at HF hf
        cases ok with
        | false => exact (HF.2.2.2.1 rfl).2
        | true =>
          exfalso
          obtain ⟨e, _⟩ := HF.2.2.2.2 rfl
          apply hf
          simp only at e ⊢
          rw [← e]
          unfold newNode
          split
          · rfl
          · simp only; split <;> rfl
  · intro n hnp
    rw [hcomp n hnp] at hn
    simp at hn
  · intro m k hm hnl
    cases hr : (getChild t th a v p).2 with
    | some n =>
      have hs := getChild_some I th a v hp hr
      have hpre := G.new hs.2 m k hm hnl
      obtain ⟨x, hx⟩ := hpre
      rcases snoc_cases x with rfl | ⟨y, a', v', rfl⟩
      · simp at hx; subst hx
        rw [hs.1.inj G.inv hm]
      · rw [← List.append_assoc] at hx
        obtain ⟨hx1, _⟩ := List.append_inj' hx rfl
        rw [← hx1] at hp
        obtain ⟨m', hm'⟩ := hp.pre
        have := (G.ext.path hm').inj G.inv hm
        exact absurd (this ▸ hm'.live) hnl
    | none =>
      exfalso
      have : ∀ b i, (getChild t th a v p).1.node b i = t.node b i := by
        unfold getChild createChild at hr ⊢
        simp only at hr ⊢
        split
        · intros; rfl
        · rename_i hc
          rw [hc] at hr
          simp only at hr
          have HF := haveFree_spec I th 1 (by have := I.npb; omega)
          cases hh : haveFree t th 1 with
          | mk t1 ok =>
            rw [hh] at HF hr
            cases ok with
            | false => intro b i; simp only; rw [show t1.node = t.node from HF.2.2.1]
            | true =>
              exfalso
              obtain ⟨_, b, e1, e2⟩ := HF.2.2.2.2 rfl
              simp only at hr e1 e2
              have e3 : t1.npb = t.npb := HF.2.1.npb
              unfold newNode at hr
              rw [e1] at hr
              simp only [show ¬ (t1.idx b ≥ t1.npb) by omega, if_false] at hr
              simp at hr
      rcases hm.live with h | h
      · exact hnl (.inl h)
      · apply hnl
        cases m with
        | root => exact .inl rfl
        | cell b i => exact .inr (by simpa [Tree.get?, this] using h)

/-- C15, all requests (partial: only for requests during which no node block was refused, i.e. the tree is not full;
see `C15_full_tree_wrong_path` for what the code does then): the result stands for exactly the requested path,
every node that was created stands for a prefix of the requested path that no existing node stood for. -/
theorem C15_path_request_partial {t : Tree} (h : Reach t) {q : Req} (hok : q.ok t) (hb : q.batch.length ≤ t.npb)
    {want : PathL} (hw : Wanted t q want) (hf : (step t q).1.fails = t.fails) :
    Path (step t q).1 ((step t q).2.getD .root) want ∧
    (∀ n m, Path (step t q).1 n m → ¬ Live t n → m <+: want ∧ ∀ n', ¬ Path t n' m) := by
  have G := step_good h hok hb hw
  constructor
  · obtain ⟨q', h1, h2⟩ := G.ok hf
    simp only [Option.some.injEq] at h1
    rw [h1]; exact h2
  · intro n m hn hnl
    refine ⟨G.new hf n m hn hnl, fun n' hn' => ?_⟩
    have := (G.ext.path hn').inj G.inv hn
    exact hnl (this ▸ hn'.live)

/-- a request fails only if all node blocks are in use -/
theorem C15_failure_means_full {t : Tree} (h : Reach t) {q : Req} (hok : q.ok t) (hb : q.batch.length ≤ t.npb)
    {want : PathL} (hw : Wanted t q want) (hf : (step t q).1.fails ≠ t.fails) :
    (step t q).1.nextBlock = t.numBlocks := by
  have G := step_good h hok hb hw
  have h1 := G.ext.fails
  have h2 := G.full (by simp only at h1 ⊢; omega)
  have h3 := G.inv.nb
  have h4 := G.ext.numBlocks
  simp only at h2 h3 h4
  omega

/-- every valid request asks for some path -/
theorem C15_wanted_exists {t : Tree} (h : Reach t) {q : Req} (hok : q.ok t) : ∃ want, Wanted t q want := by
  obtain ⟨I, _⟩ := h.inv
  cases q with
  | getChild th a v p => obtain ⟨l, hl⟩ := Live.path I hok; exact ⟨_, .getChild hl⟩
  | getPath th a vs p => obtain ⟨l, hl⟩ := Live.path I hok; exact ⟨_, .getPath hl⟩
  | getPathNodes th ns p => obtain ⟨l, hl⟩ := Live.path I hok.1; exact ⟨_, .getPathNodes hl⟩
  | removeFirst th p a => obtain ⟨l, hl⟩ := Live.path I hok.1; exact ⟨_, .removeFirst hl⟩
  | replaceFirst th p a v => obtain ⟨l, hl⟩ := Live.path I hok.1; exact ⟨_, .replaceFirst hl⟩
  | replaceAll th p a vs => obtain ⟨l, hl⟩ := Live.path I hok.1; exact ⟨_, .replaceAll hl⟩

/-- states reachable from `t` by further requests -/
inductive Later : Tree → Tree → Prop where
  | refl {t : Tree} : Later t t
  | step {t t' : Tree} {q : Req} : Later t t' → q.ok t' → q.batch.length ≤ t'.npb → Later t (step t' q).1

theorem Later.props {t t' : Tree} (h : Reach t) (hl : Later t t') :
    Reach t' ∧ (∀ p l, Path t p l → Path t' p l) ∧ (∀ b i r, t.node b i = some r → t'.node b i = some r) ∧ t'.npb = t.npb := by
  induction hl with
  | refl => exact ⟨h, fun _ _ h => h, fun _ _ _ h => h, rfl⟩
  | @step t' q _ hok hb ih =>
    obtain ⟨h1, h2, h3, h4⟩ := ih
    have hs := C15_existing_nodes_unchanged h1 hok hb
    obtain ⟨w, hw⟩ := C15_wanted_exists h1 hok
    have := (step_good h1 hok hb hw).ext.npb
    exact ⟨.step h1 hok hb, fun p l hp => hs.2.1 p l (h2 p l hp), fun b i r hr => hs.2.2 b i r (h3 b i r hr), by
      simp only at this; rw [this, h4]⟩

/-- C15: whatever happened since, asking for a path that some node stands for returns that very node and creates
nothing (on any thread, even if the tree is full). -/
theorem C15_same_node_again {t t' : Tree} (h : Reach t) (hl : Later t t') {n : Ptr} {want : PathL} (hn : Path t n want)
    {q : Req} (hok : q.ok t') (hb : q.batch.length ≤ t'.npb) (hw : Wanted t' q want) :
    (step t' q).1 = t' ∧ (step t' q).2.getD .root = n := by
  obtain ⟨h1, h2, _⟩ := hl.props h
  have G := step_good h1 hok hb hw
  have e := G.same ⟨n, h2 _ _ hn⟩
  simp only at e
  refine ⟨e, ?_⟩
  obtain ⟨q', k1, k2⟩ := G.ok (by simp only; rw [e])
  simp only [Option.some.injEq] at k1
  rw [k1]
  simp only [e] at k2
  exact k2.inj h1.inv.1 (h2 _ _ hn)

/-- C15: two nodes never stand for the same path, and every node stands for exactly one path -/
theorem C15_paths_identify_nodes {t : Tree} (h : Reach t) :
    (∀ p q l, Path t p l → Path t q l → p = q) ∧ (∀ p, Live t p → ∃ l, Path t p l ∧ ∀ l', Path t p l' → l' = l) := by
  obtain ⟨I, _⟩ := h.inv
  refine ⟨fun p q l hp hq => hp.inj I hq, fun p hp => ?_⟩
  obtain ⟨l, hl⟩ := hp.path I
  exact ⟨l, hl, fun l' hl' => hl'.fun hl⟩

/-- C16, partial (histories in which no single path request has more values than fit in a node block, 256 by default;
see `C16_long_path_overflow`): different nodes have different ids. -/
theorem C16_ids_unique_partial {t : Tree} (h : Reach t) {b i b' i' : Nat} {r r' : NodeRec} (hr : t.node b i = some r)
    (hr' : t.node b' i' = some r') (hid : r.id = r'.id) : b = b' ∧ i = i' := by
  obtain ⟨I, _⟩ := h.inv
  have h1 := I.id _ _ _ hr
  have h2 := I.id _ _ _ hr'
  have a1 := (I.alloc b i).1 (by rw [hr]; rfl)
  have a2 := (I.alloc b' i').1 (by rw [hr']; rfl)
  have x1 := I.idx b a1.1
  have x2 := I.idx b' a2.1
  have hn := I.npb
  rw [h1, h2] at hid
  have e1 : (b * t.npb + i) / t.npb = b := by
    rw [Nat.mul_comm, Nat.mul_add_div (by omega), Nat.div_eq_of_lt (by omega)]; omega
  have e2 : (b' * t.npb + i') / t.npb = b' := by
    rw [Nat.mul_comm, Nat.mul_add_div (by omega), Nat.div_eq_of_lt (by omega)]; omega
  have : b = b' := by rw [← e1, hid, e2]
  subst this
  exact ⟨rfl, by omega⟩

/-- C16, partial: looking up a node's id returns that node, now and in every later state (and the id never changes). -/
theorem C16_lookup_partial {t t' : Tree} (h : Reach t) (hl : Later t t') {b i : Nat} {r : NodeRec} (hr : t.node b i = some r) :
    t'.node b i = some r ∧ t'.lookup r.id = some (.cell b i) := by
  obtain ⟨h1, _, h3, _⟩ := hl.props h
  have hr' := h3 _ _ _ hr
  refine ⟨hr', ?_⟩
  obtain ⟨I, _⟩ := h1.inv
  have a1 := (I.alloc b i).1 (by rw [hr']; rfl)
  have x1 := I.idx b a1.1
  have hn := I.npb
  have hnb := I.nb
  rw [I.id _ _ _ hr']
  unfold Tree.lookup
  have e1 : (b * t'.npb + i) / t'.npb = b := by
    rw [Nat.mul_comm, Nat.mul_add_div (by omega), Nat.div_eq_of_lt (by omega)]; omega
  have e2 : (b * t'.npb + i) % t'.npb = i := by
    rw [Nat.mul_comm, Nat.mul_add_mod, Nat.mod_eq_of_lt (by omega)]
  simp only [e1, e2]
  rw [if_neg]
  simp; omega

/-- C16, partial: looking up anything in an allocated block (or beyond the last block) returns a node with that id or null -/
theorem C16_lookup_sound_partial {t : Tree} (h : Reach t) (id : Nat) (p : Ptr) (hb : id / t.npb < t.nextBlock)
    (hl : t.lookup id = some p) : Live t p ∧ t.idOf p = id := by
  obtain ⟨I, _⟩ := h.inv
  unfold Tree.lookup at hl
  simp only at hl
  split at hl
  · simp at hl
  · rename_i hc
    simp at hc hl
    subst hl
    have := (I.alloc (id / t.npb) (id % t.npb)).2 ⟨hb, hc.2⟩
    obtain ⟨r, hr⟩ := Option.isSome_iff_exists.1 this
    refine ⟨.inr this, ?_⟩
    simp only [Tree.idOf, Tree.get?, hr, Option.map_some, Option.getD_some]
    rw [I.id _ _ _ hr, Nat.mul_comm]
    exact Nat.div_add_mod ..

/-! ### the hypotheses are met -/

/-- a small history on two threads: a child, a path under it, a removal -/
def exTree : Tree :=
  (step (step (step (init 16 4 fun _ => 0) (.getChild 0 20 (.ofInt 1) none)).1
    (.getPath 1 21 [.ofInt 2, .ofInt 3] (some (.cell 0 12)))).1 (.removeFirst 1 (some (.cell 1 1)) 20)).1

theorem exTree_reach : Reach exTree := by
  have h0 : Reach (init 16 4 fun _ => 0) := .init (by omega) (by omega)
  have h1 := Reach.step (q := .getChild 0 20 (.ofInt 1) none) h0 (.inl rfl) (by decide)
  have h2 := Reach.step (q := .getPath 1 21 [.ofInt 2, .ofInt 3] (some (.cell 0 12))) h1 (.inr (by decide)) (by decide)
  exact Reach.step (q := .removeFirst 1 (some (.cell 1 1)) 20) h2 ⟨.inr (by decide), by decide⟩ (by decide)

example : exTree.fails = 0 ∧ exTree.lookup 17 = some (.cell 1 1) ∧ exTree.lookup 19 = some (.cell 1 3) ∧
    exTree.attrOf (.cell 1 3) = 21 ∧ exTree.parentOf (.cell 1 2) = some .root := by decide

/-! ### violations -/

theorem createLoop_dead {t : Tree} {th a b : Nat} (vs : List Val) (p : Ptr) (hc : t.cur th = some b)
    (hi : t.idx b ≤ t.npb) (hv : t.npb < t.idx b + vs.length) : (createLoop t th a vs p).1.dead = true := by
  induction vs generalizing t p with
  | nil => simp at hv; omega
  | cons v vs ih =>
    simp only [List.length_cons] at hv
    unfold createLoop newNode
    rw [hc]
    simp only
    by_cases h : t.idx b ≥ t.npb
    · rw [if_pos h]
    · rw [if_neg h]
      simp only
      exact ih _ hc (by simp [BB.upd]; omega) (by simp [BB.upd]; omega)

/-- C16 is violated by the code: requesting one path of more values than a block has slots (for example
`cali_make_tree_entry`/`make_tree_entry(attr, n, data)` with 257 values) writes nodes beyond the end of the node block. -/
theorem C16_long_path_overflow (nb : Nat) (hnb : 2 ≤ nb) (g : Nat → Nat) (vs : List Val) (hv : 256 < vs.length) :
    (step (init 256 nb g) (.getPath 0 100 vs none)).1.dead = true := by
  cases vs with
  | nil => simp at hv
  | cons v vs =>
    have hf : findChild (init 256 nb g) .root 100 v = none := by
      unfold findChild
      rw [List.find?_eq_none]
      intro c hc
      have hc : c ∈ bootKids .root := hc
      simp only [bootKids, List.mem_cons, List.not_mem_nil, or_false] at hc
      rcases hc with rfl | rfl | rfl | rfl | rfl | rfl | rfl | rfl | rfl <;>
        simp [Tree.attrOf, Tree.get?, init, bootNode]
    have hp : findPrefix (init 256 nb g) 100 (v :: vs) .root = (.root, v :: vs) := by simp only [findPrefix, hf]
    simp only [step, getPath, Option.getD_none, hp, createPath]
    have hfree : haveFree (init 256 nb g) 0 (v :: vs).length =
        ({ (init 256 nb g) with nextBlock := 2, cur := BB.upd (init 256 nb g).cur 0 (some 1), idx := BB.upd (init 256 nb g).idx 1 0 }, true) := by
      unfold haveFree
      have h1 : needBlock (init 256 nb g) 0 (v :: vs).length = true := by
        simp only [List.length_cons] at hv
        simp [needBlock, init, BB.upd]; omega
      rw [h1]
      simp only [if_true]
      rw [if_neg (by simp [init]; omega)]
      rfl
    rw [hfree]
    simp only
    apply createLoop_dead (b := 1) (v :: vs) .root
    · simp [BB.upd]
    · simp [BB.upd]
    · simp only [BB.upd, if_true]; simp only [init]; omega

/-- C15 is violated by the code when the tree is full: a path request whose first node cannot be created continues at
the root and returns a node for a different path (here: asked for `[name, int]`, got the node of path `[int]`). -/
theorem C15_full_tree_wrong_path :
    let t := init 12 1 fun _ => 0
    let q : Req := .getPathNodes 0 [some (.cell 0 8), some (.cell 0 1)] none
    Reach t ∧ q.ok t ∧ (step t q).2 = some (.cell 0 1) ∧
    Wanted t q [(8, Val.ofString "cali.attribute.name"), (9, Val.ofType .int)] ∧
    Path (step t q).1 (.cell 0 1) [(9, Val.ofType .int)] := by
  refine ⟨.init (by omega) (by omega), ⟨.inl rfl, ?_⟩, by decide, ?_, ?_⟩
  · intro n hn
    simp at hn
    rcases hn with rfl | rfl
    · exact ⟨.inr (by decide), by decide⟩
    · exact ⟨.inr (by decide), by decide⟩
  · have := Wanted.getPathNodes (t := init 12 1 fun _ => 0) (th := 0) (ns := [some (.cell 0 8), some (.cell 0 1)])
      (p := none) (l := []) Path.root
    exact this
  · have := Path.cell (t := (step (init 12 1 fun _ => 0) (.getPathNodes 0 [some (.cell 0 8), some (.cell 0 1)] none)).1)
      (b := 0) (i := 1) (r := ⟨1, 9, Val.ofType .int, .root, 1⟩) (by decide) Path.root
    exact this

end Verif.MTree
