import Verif.Conc.Spec
/-!
# Invariant of the concurrent tree
-/
namespace Verif.Conc
open MTree (Ptr updP)

/-- the job of a program counter -/
def PC.job? : PC → Option Job
  | .find j | .walk j _ | .need j | .load j | .fetch j | .setup j _ | .slot j | .cons j _ _ | .par j _ | .cas j _ => some j
  | _ => none

/-- still searching (no node created in this request) -/
def PC.searching : PC → Bool
  | .find _ | .walk _ _ => true
  | _ => false

/-- search finished, before the first slot is taken -/
def PC.allocating : PC → Bool
  | .need _ | .load _ | .fetch _ | .setup _ _ => true
  | _ => false

/-- the node being appended -/
def PC.pend? : PC → Option Ptr
  | .par _ n | .cas _ n => some n
  | _ => none

/-- `n` lies in a block taken by `t` -/
def Owned (sh : Shared) (t : Nat) (n : Ptr) : Prop := ∃ b i, n = .cell b i ∧ b < sh.nextBlock ∧ sh.own b = t

/-- in the tree, by the ghost lists -/
def LiveG (sh : Shared) (p : Ptr) : Prop := p = .root ∨ ∃ q, p ∈ sh.kids q

/-- invariant of the shared data -/
structure ShInv (sh : Shared) : Prop where
  npb : 12 ≤ sh.npb
  nb : 1 ≤ sh.nextBlock
  alive : sh.dead = false
  chain : ∀ p, Chain sh.next (sh.head p) (sh.kids p)
  nodup : ∀ p, (sh.kids p).Nodup
  kid : ∀ p n, n ∈ sh.kids p → sh.parent n = some p ∧ (sh.cell n).isSome = true ∧ ∃ l, Path sh p l
  cellok : ∀ n c, sh.cell n = some c → ∃ b i, n = .cell b i ∧ c.id = b * sh.npb + i ∧ i < sh.npb ∧ i < sh.idx b ∧
    b < sh.numBlocks ∧ b < sh.nextBlock
  dup : ∀ p n n' c c', n ∈ sh.kids p → n' ∈ sh.kids p → sh.cell n = some c → sh.cell n' = some c' → c.attr = c'.attr →
    c.val = c'.val → ∀ t, Owned sh t n → Owned sh t n' → n = n'
  rootp : sh.parent .root = none

/-- a node `n` constructed by `t` in the last slot it took, with room for `k` more -/
structure Pend (sh : Shared) (th : Thread) (j : Job) (n : Ptr) : Prop where
  slot : ∃ b i, n = .cell b i ∧ th.cur = some b ∧ sh.idx b = i + 1 ∧ i + j.vs.length + 1 ≤ sh.npb
  cell : ∃ c, sh.cell n = some c ∧ c.attr = j.a ∧ c.val = j.v
  unlinked : ∀ q, n ∉ sh.kids q
  kids : sh.kids n = []

/-- invariant of a thread -/
structure ThInv (sh : Shared) (t : Nat) (th : Thread) : Prop where
  cur : ∀ b, th.cur = some b → sh.own b = t ∧ b < sh.nextBlock ∧ b < sh.numBlocks ∧ sh.idx b ≤ sh.npb
  kids0 : th.pc ≠ .idle → ∀ q, th.kids0 q <:+ sh.kids q
  job : ∀ j, th.pc.job? = some j → LiveG sh j.p ∧ j.a = th.ca ∧ th.cvs.length ≤ sh.npb ∧
    ∃ taken, th.cvs = taken ++ j.v :: j.vs ∧ (taken = [] → j.p = th.cp) ∧
      ∃ l, Path sh th.cp l ∧ Path sh j.p (l ++ taken.map fun v => (th.ca, v))
  walk : ∀ j c, th.pc = .walk j c → ∃ pre rest, sh.kids j.p = pre ++ rest ∧ Chain sh.next c rest ∧
    ∀ n ∈ pre, n ∈ th.kids0 j.p → sh.matches n j.a j.v = false
  noMatch : ∀ j, th.pc.job? = some j → th.pc.searching = false → ∀ n ∈ th.kids0 j.p, sh.matches n j.a j.v = false
  mineAll : th.pc.searching = true ∨ th.pc.allocating = true → ∀ q, ∀ n ∈ sh.kids q, Owned sh t n → n ∈ th.kids0 q
  mine : ∀ j, th.pc.job? = some j → ∀ n ∈ sh.kids j.p, Owned sh t n → n ∈ th.kids0 j.p
  setup : ∀ j b, th.pc = .setup j b → sh.own b = t ∧ b < sh.nextBlock ∧ b < sh.numBlocks ∧ th.cur ≠ some b ∧
    ∀ i, sh.cell (.cell b i) = none
  slot : ∀ j, th.pc = .slot j → ∃ b, th.cur = some b ∧ sh.idx b + j.vs.length + 1 ≤ sh.npb
  cons : ∀ j b i, th.pc = .cons j b i → th.cur = some b ∧ sh.idx b = i + 1 ∧ i + j.vs.length + 1 ≤ sh.npb ∧
    sh.cell (.cell b i) = none
  par : ∀ j n, th.pc = .par j n → Pend sh th j n ∧ sh.parent n = none
  cas : ∀ j n, th.pc = .cas j n → Pend sh th j n ∧ sh.parent n = some j.p
  done : ∀ r, th.pc = .done (some r) → LiveG sh r ∧
    ∃ l, Path sh th.cp l ∧ Path sh r (l ++ th.cvs.map fun v => (th.ca, v))

/-- the whole invariant -/
structure Inv (s : St) : Prop where
  sh : ShInv s.sh
  th : ∀ t, ThInv s.sh t (s.th t)
  all : ∀ n c, s.sh.cell n = some c → (∃ q, n ∈ s.sh.kids q) ∨ ∃ t, (s.th t).pc.pend? = some n

/-! ### What a step of another thread can do to the shared data, seen from thread `t` -/

/-- changes thread `t` tolerates -/
structure Frame (t : Nat) (sh sh' : Shared) : Prop where
  npb : sh'.npb = sh.npb
  numBlocks : sh'.numBlocks = sh.numBlocks
  nextBlock : sh.nextBlock ≤ sh'.nextBlock
  own : ∀ b, b < sh.nextBlock → sh'.own b = sh.own b
  idx : ∀ b, b < sh.nextBlock → sh.own b = t → sh'.idx b = sh.idx b
  cell : ∀ n c, sh.cell n = some c → sh'.cell n = some c
  cellOwn : ∀ n, Owned sh t n → sh'.cell n = sh.cell n
  parent : ∀ n p, sh.parent n = some p → (sh.cell n).isSome = true → sh'.parent n = some p
  parentOwn : ∀ n, Owned sh t n → sh'.parent n = sh.parent n
  next : ∀ n q, n ∈ sh.kids q → sh'.next n = sh.next n
  nextOwn : ∀ n, Owned sh t n → sh'.next n = sh.next n
  kids : ∀ q, sh.kids q <:+ sh'.kids q
  new : ∀ q n, n ∈ sh'.kids q → n ∈ sh.kids q ∨ ¬ Owned sh' t n
  kidsU : ∀ n, ¬ LiveG sh n → sh'.kids n = sh.kids n

theorem Chain.congr {next next' : Ptr → Option Ptr} {c : Option Ptr} {l : List Ptr} (h : Chain next c l)
    (he : ∀ n ∈ l, next' n = next n) : Chain next' c l := by
  induction h with
  | nil => exact .nil
  | cons h ih =>
    refine .cons ?_
    rw [he _ (by simp)]
    exact ih fun n hn => he n (by simp [hn])

theorem Chain.fun {next : Ptr → Option Ptr} {c : Option Ptr} {l l' : List Ptr} (h : Chain next c l)
    (h' : Chain next c l') : l = l' := by
  induction h generalizing l' with
  | nil => cases h'; rfl
  | cons h ih => cases h' with | cons h' => rw [ih h']

theorem Chain.none_iff {next : Ptr → Option Ptr} {c : Option Ptr} {l : List Ptr} (h : Chain next c l) :
    c = none ↔ l = [] := by
  cases h <;> simp

/-- the changes a path does not see -/
theorem Path.mono {sh sh' : Shared} (hc : ∀ n c, sh.cell n = some c → sh'.cell n = some c)
    (hp : ∀ n p, sh.parent n = some p → (sh.cell n).isSome = true → sh'.parent n = some p) {n : Ptr}
    {l : List (Nat × Val)} (h : Path sh n l) : Path sh' n l := by
  induction h with
  | root => exact .root
  | child h1 h2 _ ih => exact .child (hp _ _ h1 (by rw [h2]; rfl)) (hc _ _ h2) ih

theorem Frame.path {t : Nat} {sh sh' : Shared} (F : Frame t sh sh') {n : Ptr} {l : List (Nat × Val)}
    (h : Path sh n l) : Path sh' n l := h.mono F.cell F.parent

theorem ShInv.rootCell {sh : Shared} (I : ShInv sh) : sh.cell .root = none := by
  cases h : sh.cell .root with
  | none => rfl
  | some c => obtain ⟨b, i, h1, _⟩ := I.cellok _ _ h; simp at h1

theorem ShInv.livePath {sh : Shared} (I : ShInv sh) {p : Ptr} (h : LiveG sh p) : ∃ l, Path sh p l := by
  rcases h with rfl | ⟨q, hq⟩
  · exact ⟨[], .root⟩
  · obtain ⟨h1, h2, l, hl⟩ := I.kid _ _ hq
    obtain ⟨c, hc⟩ := Option.isSome_iff_exists.1 h2
    exact ⟨_, .child h1 hc hl⟩

theorem ShInv.pathCell {sh : Shared} {p : Ptr} {l : List (Nat × Val)} (h : Path sh p l) :
    p = .root ∨ (sh.cell p).isSome = true := by
  cases h with
  | root => exact .inl rfl
  | child _ hc _ => right; rw [hc]; rfl

theorem ShInv.linked_iff {sh : Shared} (I : ShInv sh) (p n : Ptr) : Linked sh p n ↔ n ∈ sh.kids p := by
  constructor
  · rintro ⟨l, hl, hn⟩
    rw [← hl.fun (I.chain p)]; exact hn
  · exact fun h => ⟨_, I.chain p, h⟩

theorem ShInv.live_iff {sh : Shared} (I : ShInv sh) (p : Ptr) : Live sh p ↔ LiveG sh p := by
  unfold Live LiveG
  simp only [I.linked_iff]

theorem matches_iff {sh : Shared} {n : Ptr} {a : Nat} {v : Val} :
    sh.matches n a v = true ↔ ∃ c, sh.cell n = some c ∧ c.attr = a ∧ c.val = v := by
  unfold Shared.matches
  cases sh.cell n with
  | none => simp
  | some c => simp [and_comm]

theorem Frame.owned {t : Nat} {sh sh' : Shared} (F : Frame t sh sh') {u : Nat} {n : Ptr} (h : Owned sh u n) :
    Owned sh' u n := by
  obtain ⟨b, i, h1, h2, h3⟩ := h
  exact ⟨b, i, h1, by have := F.nextBlock; omega, by rw [F.own b h2]; exact h3⟩

theorem Frame.live {t : Nat} {sh sh' : Shared} (F : Frame t sh sh') {n : Ptr} (h : LiveG sh n) : LiveG sh' n := by
  rcases h with rfl | ⟨q, hq⟩
  · exact .inl rfl
  · exact .inr ⟨q, (F.kids q).subset hq⟩

theorem Frame.matches {t : Nat} {sh sh' : Shared} (F : Frame t sh sh') {n : Ptr} {a : Nat} {v : Val}
    (hc : (sh.cell n).isSome = true) : sh'.matches n a v = sh.matches n a v := by
  obtain ⟨c, hc⟩ := Option.isSome_iff_exists.1 hc
  unfold Shared.matches
  rw [hc, F.cell _ _ hc]

theorem Pend.frame {t : Nat} {sh sh' : Shared} {th : Thread} {j : Job} {n : Ptr} (F : Frame t sh sh')
    (P : Pend sh th j n) (hcur : ∀ b, th.cur = some b → sh.own b = t ∧ b < sh.nextBlock) : Pend sh' th j n := by
  obtain ⟨b, i, h1, h2, h3, h4⟩ := P.slot
  obtain ⟨c1, c2⟩ := hcur b h2
  have ho : Owned sh t n := ⟨b, i, h1, c2, c1⟩
  refine ⟨⟨b, i, h1, h2, by rw [F.idx b c2 c1]; exact h3, by rw [F.npb]; exact h4⟩, ?_, ?_, ?_⟩
  · obtain ⟨c, hc⟩ := P.cell
    exact ⟨c, F.cell _ _ hc.1, hc.2⟩
  · intro q hq
    rcases F.new q n hq with h | h
    · exact P.unlinked q h
    · exact h (F.owned ho)
  · rw [F.kidsU n ?_]; exact P.kids
    rintro (rfl | ⟨q, hq⟩)
    · simp at h1
    · exact P.unlinked q hq

/-- the invariant of a thread survives the steps of the others -/
theorem ThInv.frame {t : Nat} {sh sh' : Shared} {th : Thread} (I : ShInv sh) (nd : ∀ q, (sh'.kids q).Nodup)
    (F : Frame t sh sh') (T : ThInv sh t th) : ThInv sh' t th := by
  have hcur : ∀ b, th.cur = some b → sh.own b = t ∧ b < sh.nextBlock := fun b hb =>
    ⟨(T.cur b hb).1, (T.cur b hb).2.1⟩
  have hkc : ∀ q n, n ∈ sh.kids q → (sh.cell n).isSome = true := fun q n hn => (I.kid q n hn).2.1
  have hni : ∀ {j : Job}, th.pc.job? = some j → th.pc ≠ .idle := by
    intro j hj e; rw [e] at hj; simp [PC.job?] at hj
  have hko : ∀ q n, n ∈ sh.kids q → Owned sh' t n → Owned sh t n := by
    intro q n hn ⟨b, i, h1, h2, h3⟩
    obtain ⟨c, hc⟩ := Option.isSome_iff_exists.1 (hkc q n hn)
    obtain ⟨b', i', k1, _, _, _, _, k2⟩ := I.cellok _ _ hc
    rw [h1] at k1; injection k1 with k1 k3
    subst k1
    exact ⟨b, i, h1, k2, by rw [← F.own b k2]; exact h3⟩
  refine ⟨?_, ?_, ?_, ?_, ?_, ?_, ?_, ?_, ?_, ?_, ?_, ?_, ?_⟩
  · intro b hb
    obtain ⟨h1, h2, h3, h4⟩ := T.cur b hb
    have := F.nextBlock
    exact ⟨by rw [F.own b h2]; exact h1, by omega, by rw [F.numBlocks]; exact h3,
      by rw [F.idx b h2 h1, F.npb]; exact h4⟩
  · intro hp q
    exact (T.kids0 hp q).trans (F.kids q)
  · intro j hj
    obtain ⟨h1, h2, h3, taken, h4, h7, l, h5, h6⟩ := T.job j hj
    exact ⟨F.live h1, h2, by rw [F.npb]; exact h3, taken, h4, h7, l, F.path h5, F.path h6⟩
  · intro j c hj
    obtain ⟨pre, rest, h1, h2, h3⟩ := T.walk j c hj
    obtain ⟨new, hn⟩ := F.kids j.p
    refine ⟨new ++ pre, rest, by rw [← hn, h1]; simp, ?_, ?_⟩
    · exact h2.congr fun n hn => F.next n j.p (by rw [h1]; simp [hn])
    · intro n hnn hk
      have hk' := (T.kids0 (by rw [hj]; simp) j.p).subset hk
      rw [F.matches (hkc _ _ hk')]
      rcases List.mem_append.1 hnn with hx | hx
      · have := nd j.p
        rw [← hn, List.nodup_append] at this
        exact absurd rfl (this.2.2 n hx n hk')
      · exact h3 n hx hk
  · intro j hj hs n hn
    rw [F.matches (hkc _ _ ((T.kids0 (hni hj) j.p).subset hn))]
    exact T.noMatch j hj hs n hn
  · intro hs q n hn ho
    rcases F.new q n hn with h | h
    · exact T.mineAll hs q n h (hko q n h ho)
    · exact absurd ho h
  · intro j hj n hn ho
    rcases F.new _ n hn with h | h
    · exact T.mine j hj n h (hko _ n h ho)
    · exact absurd ho h
  · intro j b hj
    obtain ⟨h1, h2, h3, h4, h5⟩ := T.setup j b hj
    have := F.nextBlock
    refine ⟨by rw [F.own b h2]; exact h1, by omega, by rw [F.numBlocks]; exact h3, h4, fun i => ?_⟩
    rw [F.cellOwn _ ⟨b, i, rfl, h2, h1⟩]; exact h5 i
  · intro j hj
    obtain ⟨b, h1, h2⟩ := T.slot j hj
    exact ⟨b, h1, by rw [F.idx b (hcur b h1).2 (hcur b h1).1, F.npb]; exact h2⟩
  · intro j b i hj
    obtain ⟨h1, h2, h3, h4⟩ := T.cons j b i hj
    have hb := hcur b h1
    exact ⟨h1, by rw [F.idx b hb.2 hb.1]; exact h2, by rw [F.npb]; exact h3,
      by rw [F.cellOwn _ ⟨b, i, rfl, hb.2, hb.1⟩]; exact h4⟩
  · intro j n hj
    obtain ⟨P, h⟩ := T.par j n hj
    obtain ⟨b, i, h1, h2, _⟩ := P.slot
    have hb := hcur b h2
    exact ⟨P.frame F hcur, by rw [F.parentOwn _ ⟨b, i, h1, hb.2, hb.1⟩]; exact h⟩
  · intro j n hj
    obtain ⟨P, h⟩ := T.cas j n hj
    obtain ⟨b, i, h1, h2, _⟩ := P.slot
    have hb := hcur b h2
    exact ⟨P.frame F hcur, by rw [F.parentOwn _ ⟨b, i, h1, hb.2, hb.1⟩]; exact h⟩
  · intro r hr
    obtain ⟨h1, l, h2, h3⟩ := T.done r hr
    exact ⟨F.live h1, l, F.path h2, F.path h3⟩

end Verif.Conc
