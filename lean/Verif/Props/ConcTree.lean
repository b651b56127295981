import Verif.Conc.Step
/-!
# C36, C16, C45: concurrent context tree requests
-/
namespace Verif.Conc
open MTree (Ptr updP)

/-- everything that stays when any thread takes any step -/
structure Grows (s s' : St) : Prop where
  npb : s'.sh.npb = s.sh.npb
  numBlocks : s'.sh.numBlocks = s.sh.numBlocks
  cell : ∀ n c, s.sh.cell n = some c → s'.sh.cell n = some c
  path : ∀ n l, Path s.sh n l → Path s'.sh n l
  next : ∀ q n, n ∈ s.sh.kids q → s'.sh.next n = s.sh.next n
  parent : ∀ q n, n ∈ s.sh.kids q → s'.sh.parent n = some q
  kids : ∀ q, s.sh.kids q <:+ s'.sh.kids q

theorem Frame.grows {t : Nat} {s s' : St} (I : ShInv s.sh) (F : Frame t s.sh s'.sh) : Grows s s' :=
  ⟨F.npb, F.numBlocks, F.cell, fun _ _ h => F.path h, fun q n h => F.next n q h,
    fun q n h => F.parent n q (I.kid q n h).1 (I.kid q n h).2.1, F.kids⟩

theorem Grows.refl {s : St} (I : ShInv s.sh) : Grows s s :=
  ⟨rfl, rfl, fun _ _ h => h, fun _ _ h => h, fun _ _ _ => rfl, fun q n h => (I.kid q n h).1, fun _ => List.suffix_refl _⟩

theorem Grows.trans {a b c : St} (h : Grows a b) (h' : Grows b c) : Grows a c :=
  ⟨h'.npb.trans h.npb, h'.numBlocks.trans h.numBlocks, fun n x hx => h'.cell n x (h.cell n x hx),
    fun n l hl => h'.path n l (h.path n l hl),
    fun q n hn => (h'.next q n ((h.kids q).subset hn)).trans (h.next q n hn),
    fun q n hn => h'.parent q n ((h.kids q).subset hn), fun q => (h.kids q).trans (h'.kids q)⟩

theorem Inv.grows_step {s : St} (h : Inv s) (t : Nat) (a : Act) (hok : ActOk s a) : Grows s (Conc.step s t a) := by
  have hok' : ∀ x vs p, a = .call x vs p → (s.th t).pc = .idle → LiveG s.sh p ∧ vs.length ≤ s.sh.npb := by
    rintro x vs p rfl _
    exact ⟨(h.sh.live_iff p).1 hok.1, hok.2⟩
  rcases act_ok h.sh (h.th t) a hok' with S | ⟨e1, e2⟩
  · exact (S.frame (t + 1) (by omega)).grows h.sh
  · have : Conc.step s t a = s := by
      unfold Conc.step
      simp only [e1, e2, upd_self]
    rw [this]; exact .refl h.sh

theorem Later.grows {s s' : St} (h : Reach s) (hl : Later s s') : Reach s' ∧ Grows s s' := by
  induction hl with
  | refl => exact ⟨h, .refl h.inv.sh⟩
  | step _ hok ih => exact ⟨.step ih.1 hok, ih.2.trans (ih.1.inv.grows_step _ _ hok)⟩

/-! ## C36 -/

/-- C36: in every reachable state - also in the middle of any number of concurrent insertions - the child list of every
node is a well-formed finite list without repetitions, and it contains exactly the nodes whose insertion under this node
has been completed: those that point to `p` as their parent and that no thread is still inserting. -/
theorem C36_children_list {s : St} (h : Reach s) (p : Ptr) :
    ∃ l, Chain s.sh.next (s.sh.head p) l ∧ l.Nodup ∧
      ∀ n, n ∈ l ↔ (s.sh.parent n = some p ∧ (s.sh.cell n).isSome = true ∧ ∀ t, ¬ Appending s t n) := by
  have I := h.inv
  refine ⟨_, I.sh.chain p, I.sh.nodup p, fun n => ⟨fun hn => ?_, ?_⟩⟩
  · obtain ⟨h1, h2, _⟩ := I.sh.kid p n hn
    refine ⟨h1, h2, fun t ⟨j, hj⟩ => ?_⟩
    exact ((I.th t).cas j n hj).1.unlinked p hn
  · rintro ⟨h1, h2, h3⟩
    obtain ⟨c, hc⟩ := Option.isSome_iff_exists.1 h2
    rcases I.all n c hc with ⟨q, hq⟩ | ⟨t, ht⟩
    · have := (I.sh.kid q n hq).1
      rw [h1] at this; cases this; exact hq
    · cases hpc : (s.th t).pc with
      | par j m =>
        rw [hpc] at ht; simp [PC.pend?] at ht; subst ht
        have := ((I.th t).par j m hpc).2
        rw [h1] at this; cases this
      | cas j m =>
        rw [hpc] at ht; simp [PC.pend?] at ht; subst ht
        exact absurd ⟨j, hpc⟩ (h3 t)
      | _ => rw [hpc] at ht; simp [PC.pend?] at ht

/-- C36: a completed insertion is never lost and never moved: whatever happens later, the old child list is the tail of
the new one. -/
theorem C36_never_lost {s s' : St} (h : Reach s) (hl : Later s s') (p : Ptr) {l : List Ptr}
    (hc : Chain s.sh.next (s.sh.head p) l) : ∃ newer, Chain s'.sh.next (s'.sh.head p) (newer ++ l) := by
  obtain ⟨h', G⟩ := hl.grows h
  rw [hc.fun (h.inv.sh.chain p)]
  obtain ⟨newer, hn⟩ := G.kids p
  exact ⟨newer, by rw [hn]; exact h'.inv.sh.chain p⟩

/-- C36: a reader that loaded `first_child` or `next_sibling` of a child some time ago and continues now, while others
insert, walks through exactly the nodes that followed at that time: it misses none and sees none twice. -/
theorem C36_reader {s s' : St} (h : Reach s) (hl : Later s s') (p : Ptr) {c : Option Ptr} {pre l : List Ptr}
    (hall : Chain s.sh.next (s.sh.head p) (pre ++ l)) (hc : Chain s.sh.next c l) : Chain s'.sh.next c l := by
  obtain ⟨h', G⟩ := hl.grows h
  have e := hall.fun (h.inv.sh.chain p)
  exact hc.congr fun n hn => G.next p n (by rw [← e]; simp [hn])

/-- C36: the step that completes the insertion of `n` under `p` puts `n` at the front of the list; every other step
leaves all child lists as they are. -/
theorem C36_insertion_point {s : St} (h : Reach s) {t : Nat} {a : Act} (hok : ActOk s a) (p : Ptr) {l l' : List Ptr}
    (hc : Chain s.sh.next (s.sh.head p) l) (hc' : Chain (step s t a).sh.next ((step s t a).sh.head p) l') :
    l' = l ∨ ∃ j n, (s.th t).pc = .cas j n ∧ j.p = p ∧ l' = n :: l := by
  have I := h.inv
  have I' := (Reach.step (t := t) h hok).inv
  rw [hc.fun (I.sh.chain p), hc'.fun (I'.sh.chain p)]
  have cas : ∀ j n sp, (s.th t).pc = .cas j n → (casStep s.sh (s.th t) j n sp).1.kids p = s.sh.kids p ∨
      ∃ j n, (s.th t).pc = .cas j n ∧ j.p = p ∧ (casStep s.sh (s.th t) j n sp).1.kids p = n :: s.sh.kids p := by
    intro j n sp hpc
    by_cases hp : j.p = p
    · by_cases hh : sp = false ∧ s.sh.head j.p = s.sh.next n
      · right
        refine ⟨j, n, hpc, hp, ?_⟩
        unfold casStep
        rw [if_pos hh]
        simp [updP, hp]
      · left
        unfold casStep
        rw [if_neg hh]
    · left
      unfold casStep
      split
      · simp [updP, Ne.symm hp]
      · rfl
  unfold step
  cases a with
  | call x vs q =>
    left
    simp only [act]
    split <;> rfl
  | ret =>
    left
    simp only [act]
    split <;> rfl
  | spur =>
    simp only [act]
    cases hpc : (s.th t).pc with
    | cas j n =>
      rcases cas j n true hpc with h | ⟨j', n', h1, h2, h3⟩
      · exact .inl h
      · rw [hpc] at h1; cases h1
        exact .inr ⟨j, n, rfl, h2, h3⟩
    | _ => exact .inl rfl
  | tick =>
    simp only [act, tick]
    cases hpc : (s.th t).pc with
    | cas j n =>
      rcases cas j n false hpc with h | ⟨j', n', h1, h2, h3⟩
      · exact .inl h
      · rw [hpc] at h1; cases h1
        exact .inr ⟨j, n, rfl, h2, h3⟩
    | walk j c =>
      left
      cases c with
      | none => rfl
      | some c => simp only; split <;> rfl
    | slot j => left; simp only; split <;> rfl
    | _ => left; simp only <;> first | rfl | (split <;> rfl)

/-- another thread does not touch the node a thread is inserting -/
theorem other_next {s : St} (I : Inv s) {t u : Nat} (hu : u ≠ t) {a : Act} (hok : ActOk s a) {j : Job} {n : Ptr}
    (hpc : (s.th t).pc = .cas j n) : (step s u a).sh.next n = s.sh.next n := by
  have hok' : ∀ x vs p, a = .call x vs p → (s.th u).pc = .idle → LiveG s.sh p ∧ vs.length ≤ s.sh.npb := by
    rintro x vs p rfl _
    exact ⟨(I.sh.live_iff p).1 hok.1, hok.2⟩
  obtain ⟨b, i, h1, h2, _⟩ := ((I.th t).cas j n hpc).1.slot
  obtain ⟨c1, c2, _⟩ := (I.th t).cur b h2
  rcases act_ok I.sh (I.th u) a hok' with S | ⟨e1, _⟩
  · exact (S.frame t (Ne.symm hu)).nextOwn n ⟨b, i, h1, c2, c1⟩
  · unfold step; simp only [e1]

/-- the other threads take any number of steps, thread `t` takes none -/
inductive Others (t : Nat) : St → St → Prop where
  | refl {s : St} : Others t s s
  | step {s s' : St} {u : Nat} {a : Act} (h : Others t s s') (hu : u ≠ t) (hok : ActOk s' a) : Others t s (step s' u a)

/-- C36: no livelock.  A thread inserts `n` under `p` and its compare-exchange has failed (leaving the state `s`).  If its
next compare-exchange fails again, and not spuriously, then some other thread has completed an insertion under the same
node in between: the list has become longer. -/
theorem C36_lock_free {s s' : St} (h : Reach s) {t : Nat} {j : Job} {n : Ptr} (hpc : (s.th t).pc = .cas j n)
    (hfail : s.sh.next n = s.sh.head j.p) (ho : Others t s s') (hagain : s'.sh.head j.p ≠ s'.sh.next n) {l l' : List Ptr}
    (hc : Chain s.sh.next (s.sh.head j.p) l) (hc' : Chain s'.sh.next (s'.sh.head j.p) l') :
    l.length < l'.length := by
  have key : Reach s' ∧ (s'.th t).pc = .cas j n ∧ s'.sh.next n = s.sh.next n ∧ s.sh.kids j.p <:+ s'.sh.kids j.p := by
    clear hagain hc hc'
    induction ho with
    | refl => exact ⟨h, hpc, rfl, List.suffix_refl _⟩
    | @step s'' u a _ hu hok ih =>
      obtain ⟨i1, i2, i3, i4⟩ := ih
      refine ⟨.step i1 hok, ?_, ?_, i4.trans ((i1.inv.grows_step u _ hok).kids j.p)⟩
      · unfold step
        show (BB.upd s''.th u _ t).pc = _
        rw [BB.upd, if_neg (Ne.symm hu)]; exact i2
      · rw [other_next i1.inv hu hok i2, i3]
  obtain ⟨k1, k2, k3, k4⟩ := key
  rw [hc.fun (h.inv.sh.chain _), hc'.fun (k1.inv.sh.chain _)]
  rcases Nat.lt_or_ge (s.sh.kids j.p).length (s'.sh.kids j.p).length with hlt | hge
  · exact hlt
  · exfalso
    have e := k4.eq_of_length_le hge
    apply hagain
    rw [k3, hfail]
    have c1 := h.inv.sh.chain j.p
    have c2 := k1.inv.sh.chain j.p
    rw [← e] at c2
    generalize s.sh.kids j.p = k at c1 c2
    generalize s.sh.head j.p = x at c1
    generalize s'.sh.head j.p = y at c2
    cases c1 <;> cases c2 <;> rfl

/-! ## C16 under concurrency -/

/-- C16, partial (requests of at most one block's worth of values, as in `ActOk`): whatever the interleaving, two nodes
never get the same id, no node is constructed outside of its block, and the index of a node never exceeds the fill count
of its block, so `node(id)` (`MetadataTree.h:98-109`) computes the slot of this very node - now and at any later time. -/
theorem C16_concurrent_partial {s s' : St} (h : Reach s) (hl : Later s s') :
    s'.sh.dead = false ∧
    (∀ n n' c c', s'.sh.cell n = some c → s'.sh.cell n' = some c' → c.id = c'.id → n = n') ∧
    (∀ n c, s.sh.cell n = some c → s'.sh.cell n = some c ∧
      c.id / s'.sh.npb < s'.sh.numBlocks ∧ c.id % s'.sh.npb < s'.sh.idx (c.id / s'.sh.npb) ∧
      n = .cell (c.id / s'.sh.npb) (c.id % s'.sh.npb)) := by
  obtain ⟨h', G⟩ := hl.grows h
  have I := h'.inv.sh
  have key : ∀ n c, s'.sh.cell n = some c → c.id / s'.sh.npb < s'.sh.numBlocks ∧
      c.id % s'.sh.npb < s'.sh.idx (c.id / s'.sh.npb) ∧ n = .cell (c.id / s'.sh.npb) (c.id % s'.sh.npb) := by
    intro n c hc
    obtain ⟨b, i, h1, h2, h3, h4, h5, h6⟩ := I.cellok n c hc
    have e1 : (b * s'.sh.npb + i) / s'.sh.npb = b := by
      rw [Nat.mul_comm, Nat.mul_add_div (by omega), Nat.div_eq_of_lt h3]; omega
    have e2 : (b * s'.sh.npb + i) % s'.sh.npb = i := by
      rw [Nat.mul_comm, Nat.mul_add_mod, Nat.mod_eq_of_lt h3]
    rw [h2, e1, e2]
    exact ⟨h5, h4, h1⟩
  refine ⟨I.alive, ?_, fun n c hc => ⟨G.cell n c hc, key n c (G.cell n c hc)⟩⟩
  intro n n' c c' hc hc' hid
  rw [(key n c hc).2.2, (key n' c' hc').2.2, hid]

/-! ## C45: concurrent requests -/

/-- paths are unique -/
theorem Path.fun {sh : Shared} {n : Ptr} {l l' : List (Nat × Val)} (hroot : sh.parent .root = none) (h : Path sh n l)
    (h' : Path sh n l') : l = l' := by
  induction h generalizing l' with
  | root =>
    cases h' with
    | root => rfl
    | child hp => rw [hroot] at hp; cases hp
  | child hp hc _ ih =>
    cases h' with
    | root => rw [hroot] at hp; cases hp
    | child hp' hc' h' =>
      rw [hp] at hp'; cases hp'
      rw [hc] at hc'; cases hc'
      rw [ih h']

/-- C45: whatever the other threads do, a request that returns a node returns one whose path is the path of the given
parent extended by exactly the requested pairs; the node is in the tree, and both paths stay like this forever. -/
theorem C45_result_path {s s' : St} (h : Reach s) {t : Nat} {r : Ptr} (hr : (s.th t).pc = .done (some r))
    (hl : Later s s') : Live s'.sh r ∧
    ∃ l, Path s'.sh (s.th t).cp l ∧ (∀ l', Path s'.sh (s.th t).cp l' → l' = l) ∧
      Path s'.sh r (l ++ (s.th t).cvs.map fun v => ((s.th t).ca, v)) := by
  obtain ⟨h', G⟩ := hl.grows h
  obtain ⟨h1, l, h2, h3⟩ := (h.inv.th t).done r hr
  refine ⟨(h'.inv.sh.live_iff r).2 ?_, l, G.path _ _ h2,
    fun l' hl' => hl'.fun h'.inv.sh.rootp (G.path _ _ h2), G.path _ _ h3⟩
  rcases h1 with rfl | ⟨q, hq⟩
  · exact .inl rfl
  · exact .inr ⟨q, (G.kids q).subset hq⟩

/-- thread `t` is executing the request it started in state `s0` -/
inductive During (t : Nat) (a : Nat) (vs : List Val) (p : Ptr) (s0 : St) : St → Prop where
  | call (hidle : (s0.th t).pc = .idle) (hok : ActOk s0 (.call a vs p)) : During t a vs p s0 (step s0 t (.call a vs p))
  | mine {s : St} {x : Act} (h : During t a vs p s0 s) (hx : x = .tick ∨ x = .spur) : During t a vs p s0 (step s t x)
  | other {s : St} {u : Nat} {x : Act} (h : During t a vs p s0 s) (hu : u ≠ t) (hok : ActOk s x) :
      During t a vs p s0 (step s u x)

/-- the instructions do not change the ghost record of the request -/
theorem tick_ghost (t : Nat) (sh : Shared) (th : Thread) : (tick t sh th).2.kids0 = th.kids0 ∧
    (tick t sh th).2.ca = th.ca ∧ (tick t sh th).2.cvs = th.cvs ∧ (tick t sh th).2.cp = th.cp := by
  unfold tick casStep
  split <;> first | exact ⟨rfl, rfl, rfl, rfl⟩ | (split <;> exact ⟨rfl, rfl, rfl, rfl⟩)

theorem During.props {t a : Nat} {vs : List Val} {p : Ptr} {s0 s : St} (h0 : Reach s0) (h : During t a vs p s0 s) :
    Reach s ∧ Later s0 s ∧ (s.th t).kids0 = s0.sh.kids ∧ (s.th t).ca = a ∧ (s.th t).cvs = vs ∧ (s.th t).cp = p := by
  induction h with
  | call hidle hok =>
    refine ⟨.step h0 hok, .step .refl hok, ?_⟩
    unfold step
    simp only [act, hidle, BB.upd, if_true, and_self]
  | @mine s x _ hx ih =>
    obtain ⟨i1, i2, i3, i4, i5, i6⟩ := ih
    have hok : ActOk s x := by rcases hx with rfl | rfl <;> trivial
    have e : (act t s.sh (s.th t) x).2.kids0 = (s.th t).kids0 ∧ (act t s.sh (s.th t) x).2.ca = (s.th t).ca ∧
        (act t s.sh (s.th t) x).2.cvs = (s.th t).cvs ∧ (act t s.sh (s.th t) x).2.cp = (s.th t).cp := by
      rcases hx with rfl | rfl
      · exact tick_ghost t _ _
      · unfold act casStep
        simp only
        split
        · split <;> exact ⟨rfl, rfl, rfl, rfl⟩
        · exact ⟨rfl, rfl, rfl, rfl⟩
    refine ⟨.step i1 hok, .step i2 hok, ?_⟩
    unfold step
    simp only [BB.upd, if_true]
    exact ⟨e.1.trans i3, e.2.1.trans i4, e.2.2.1.trans i5, e.2.2.2.trans i6⟩
  | @other s u x _ hu hok ih =>
    obtain ⟨i1, i2, i3, i4, i5, i6⟩ := ih
    refine ⟨.step i1 hok, .step i2 hok, ?_⟩
    unfold step
    simp only [BB.upd, if_neg (Ne.symm hu)]
    exact ⟨i3, i4, i5, i6⟩

/-- C45: a request inserts a node under `q` only if `q` had no child with this attribute and value when the request
started: an existing child is always found. -/
theorem C45_creates_only_missing {t a : Nat} {vs : List Val} {p : Ptr} {s0 s : St} (h0 : Reach s0)
    (h : During t a vs p s0 s) {j : Job} {n : Ptr} (hn : (s.th t).pc = .cas j n) :
    (∃ c, s.sh.cell n = some c ∧ c.attr = a ∧ c.val ∈ vs ∧ s.sh.parent n = some j.p ∧
      ∀ m d, Linked s0.sh j.p m → s0.sh.cell m = some d → ¬ (d.attr = c.attr ∧ d.val = c.val)) := by
  obtain ⟨h1, h2, h3, h4, h5, h6⟩ := h.props h0
  have I := h1.inv
  obtain ⟨P, hpar⟩ := (I.th t).cas j n hn
  obtain ⟨c, c1, c2, c3⟩ := P.cell
  obtain ⟨_, k2, _, taken, k4, _⟩ := (I.th t).job j (by rw [hn]; rfl)
  refine ⟨c, c1, by rw [c2, k2, h4], ?_, hpar, ?_⟩
  · rw [c3, ← h5, k4]; simp
  · rintro m d hm hd ⟨e1, e2⟩
    have := (I.th t).noMatch j (by rw [hn]; rfl) (by rw [hn]; rfl) m (by rw [h3]; exact (h0.inv.sh.linked_iff _ _).1 hm)
    have hd' := (h2.grows h0).2.cell m d hd
    rw [matches_iff.2 ⟨d, hd', by rw [e1, c2], by rw [e2, c3]⟩] at this
    cases this

/-- C45: if a child with the requested attribute and value exists when `get_child` starts, no node is inserted. -/
theorem C45_existing_child_found {t a : Nat} {v : Val} {p : Ptr} {s0 s : St} (h0 : Reach s0)
    (h : During t a [v] p s0 s) {m : Ptr} {d : Cell} (hm : Linked s0.sh p m) (hd : s0.sh.cell m = some d)
    (ha : d.attr = a) (hv : d.val = v) : ∀ j n, (s.th t).pc ≠ .cas j n := by
  intro j n hn
  obtain ⟨c, c1, c2, c3, c4, c5⟩ := C45_creates_only_missing h0 h hn
  obtain ⟨h1, h2, h3, h4, h5, h6⟩ := h.props h0
  obtain ⟨_, _, _, taken, k4, k7, l, k5, k6⟩ := (h1.inv.th t).job j (by rw [hn]; rfl)
  simp only [List.mem_singleton] at c3
  have ht : taken = [] := by
    rw [h5] at k4
    cases taken with
    | nil => rfl
    | cons x xs => simp at k4
  subst ht
  have hjp : j.p = p := (k7 rfl).trans h6
  exact c5 m d (by rw [hjp]; exact hm) hd ⟨by rw [ha, c2], by rw [hv, c3]⟩

/-- C45: one thread never creates the same child twice: two children of a node with the same attribute and value were
created by different threads (they lie in node blocks taken by different threads), so there are at most as many
copies of a child as there are threads. -/
theorem C45_one_copy_per_thread {s : St} (h : Reach s) {p n n' : Ptr} {c c' : Cell} (hn : Linked s.sh p n)
    (hn' : Linked s.sh p n') (hc : s.sh.cell n = some c) (hc' : s.sh.cell n' = some c') (ha : c.attr = c'.attr)
    (hv : c.val = c'.val) (hne : n ≠ n') :
    s.sh.own (c.id / s.sh.npb) ≠ s.sh.own (c'.id / s.sh.npb) := by
  have I := h.inv.sh
  intro e
  have own : ∀ m d, s.sh.cell m = some d → Owned s.sh (s.sh.own (d.id / s.sh.npb)) m := by
    intro m d hd
    obtain ⟨b, i, h1, h2, h3, h4, h5, h6⟩ := I.cellok m d hd
    have e1 : (b * s.sh.npb + i) / s.sh.npb = b := by
      rw [Nat.mul_comm, Nat.mul_add_div (by omega), Nat.div_eq_of_lt h3]; omega
    rw [h2, e1]
    exact ⟨b, i, h1, h6, rfl⟩
  exact hne (I.dup p n n' c c' ((I.linked_iff _ _).1 hn) ((I.linked_iff _ _).1 hn') hc hc' ha hv _ (own n c hc)
    (e ▸ own n' c' hc'))

/-! ### Executions -/

/-- run a schedule -/
def run (s : St) : List (Nat × Act) → St
  | [] => s
  | (t, a) :: l => run (step s t a) l

/-- a schedule whose requests are all for children of the root -/
def RootCalls (npb : Nat) (l : List (Nat × Act)) : Prop :=
  ∀ x ∈ l, ∀ a vs p, x.2 = .call a vs p → p = .root ∧ vs.length ≤ npb

theorem Later.trans {a b c : St} (h : Later a b) (h' : Later b c) : Later a c := by
  induction h' with
  | refl => exact h
  | step _ hok ih => exact .step ih hok

theorem run_later {s : St} (h : Reach s) (l : List (Nat × Act)) (hl : RootCalls s.sh.npb l) : Later s (run s l) := by
  induction l generalizing s with
  | nil => exact .refl
  | cons x l ih =>
    obtain ⟨t, a⟩ := x
    have hok : ActOk s a := by
      cases a with
      | call a vs p =>
        obtain ⟨h1, h2⟩ := hl (t, .call a vs p) (by simp) a vs p rfl
        exact ⟨.inl h1, h2⟩
      | _ => trivial
    refine (Later.step .refl hok).trans (ih (.step h hok) ?_)
    rw [(h.inv.grows_step t a hok).npb]
    exact fun y hy => hl y (by simp [hy])

/-- two threads search for the same child of the root at the same time, then both insert it; afterwards thread 0 hands out
its result -/
def raceSchedule : List (Nat × Act) :=
  [(0, .call 100 [Val.ofInt 7] .root), (1, .call 100 [Val.ofInt 7] .root)] ++
  List.replicate 11 (0, .tick) ++ List.replicate 11 (1, .tick) ++ List.replicate 6 (0, .tick) ++ List.replicate 9 (1, .tick)

/-- thread 0 asks again -/
def askAgain : List (Nat × Act) := [(0, .ret), (0, .call 100 [Val.ofInt 7] .root)] ++ List.replicate 2 (0, .tick)

/-- C45, violated: under a race the same request can return different nodes.  Thread 0 and thread 1 both ask for the same
child of the root; thread 0 gets slot 12 of block 0, thread 1 gets slot 0 of block 1, and when thread 0 asks once more
it gets thread 1's node: the node it got before is no longer found. -/
theorem C45_violation_race :
    let s1 := run (init 16 4 fun _ => 0) raceSchedule
    let s2 := run s1 askAgain
    Reach s1 ∧ Later s1 s2 ∧
    (s1.th 0).pc = .done (some (.cell 0 12)) ∧ (s1.th 1).pc = .done (some (.cell 1 0)) ∧
    (s2.th 0).pc = .done (some (.cell 1 0)) := by
  have hr0 : Reach (init 16 4 fun _ => 0) := .init (by omega) (by omega)
  have hr : ∀ l : List (Nat × Act), (∀ x ∈ l, x.2 = .tick ∨ x.2 = .ret ∨ x.2 = .call 100 [Val.ofInt 7] .root) →
      RootCalls 16 l := by
    intro l hl x hx a vs p e
    rcases hl x hx with h | h | h <;> rw [h] at e <;> cases e
    exact ⟨rfl, by simp⟩
  have h1 : Later (init 16 4 fun _ => 0) (run (init 16 4 fun _ => 0) raceSchedule) :=
    run_later hr0 _ (hr _ (by decide))
  have h2 : Reach (run (init 16 4 fun _ => 0) raceSchedule) := (h1.grows hr0).1
  have e : (run (init 16 4 fun _ => 0) raceSchedule).sh.npb = 16 := (h1.grows hr0).2.npb
  refine ⟨h2, run_later h2 _ (by rw [e]; exact hr _ (by decide)), ?_, ?_, ?_⟩ <;> decide +kernel

/-- C36, C16, C45 are not vacuous: in this execution two threads are inserting under the same node at the same time
(both at the compare-exchange), and thread 0's first compare-exchange has failed -/
theorem C36_example :
    let s := run (init 16 4 fun _ => 0)
      ([(0, .call 100 [Val.ofInt 7] .root), (1, .call 100 [Val.ofInt 8, Val.ofInt 9] .root)] ++
        List.replicate 15 (0, .tick) ++ List.replicate 18 (1, .tick) ++ [(0, .tick)])
    Reach s ∧ Appending s 0 (.cell 0 12) ∧ Appending s 1 (.cell 1 0) ∧ s.sh.head .root = some (.cell 0 11) ∧
    s.sh.next (.cell 0 12) = s.sh.head .root := by
  have hr0 : Reach (init 16 4 fun _ => 0) := .init (by omega) (by omega)
  refine ⟨((run_later hr0 _ ?_).grows hr0).1, ⟨⟨100, Val.ofInt 7, [], .root⟩, ?_⟩,
    ⟨⟨100, Val.ofInt 8, [Val.ofInt 9], .root⟩, ?_⟩, ?_, ?_⟩
  · intro x hx a vs p e
    have : ∀ x ∈ ([(0, .call 100 [Val.ofInt 7] .root), (1, .call 100 [Val.ofInt 8, Val.ofInt 9] .root)] ++
        List.replicate 15 (0, .tick) ++ List.replicate 18 (1, .tick) ++ [(0, .tick)] : List (Nat × Act)),
        x.2 = .tick ∨ x.2 = .call 100 [Val.ofInt 7] .root ∨ x.2 = .call 100 [Val.ofInt 8, Val.ofInt 9] .root := by decide
    rcases this x hx with h | h | h <;> rw [h] at e <;> cases e
    · exact ⟨rfl, by decide⟩
    · exact ⟨rfl, by decide⟩
  all_goals decide +kernel

end Verif.Conc
