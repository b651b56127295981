import Verif.Conc.Inv
/-!
# Every step preserves the invariant
-/
namespace Verif.Conc
open MTree (Ptr updP)

/-- what is to be shown for a step of thread `t` -/
structure StepOK (t : Nat) (sh : Shared) (th : Thread) (sh' : Shared) (th' : Thread) : Prop where
  shInv : ShInv sh'
  thInv : ThInv sh' t th'
  frame : ∀ u, u ≠ t → Frame u sh sh'
  all : ∀ n c, sh'.cell n = some c → (∃ q, n ∈ sh'.kids q) ∨ th'.pc.pend? = some n ∨
    ((sh.cell n).isSome = true ∧ th.pc.pend? ≠ some n)

theorem Frame.refl (t : Nat) (sh : Shared) : Frame t sh sh :=
  ⟨rfl, rfl, Nat.le_refl _, fun _ _ => rfl, fun _ _ _ => rfl, fun _ _ h => h, fun _ _ => rfl, fun _ _ h _ => h,
    fun _ _ => rfl, fun _ _ _ => rfl, fun _ _ => rfl, fun _ => List.suffix_refl _, fun _ _ h => .inl h, fun _ _ => rfl⟩

/-- a step that only changes the thread -/
theorem StepOK.local {t : Nat} {sh : Shared} {th th' : Thread} (I : ShInv sh) (T : ThInv sh t th')
    (hp : th.pc.pend? = none) : StepOK t sh th sh th' :=
  ⟨I, T, fun u _ => .refl u sh, fun n c hc => .inr (.inr ⟨by rw [hc]; rfl, by rw [hp]; simp⟩)⟩

/-- closes the fields of `ThInv` that speak about another program counter -/
macro "vac" : tactic =>
  `(tactic| (intros; first | (rename_i h; cases h; done) | (simp [PC.job?, PC.searching, PC.allocating] at *; done)))

variable {t : Nat} {sh : Shared} {th : Thread}

theorem find_ok (I : ShInv sh) (T : ThInv sh t th) {j : Job} (hpc : th.pc = .find j) :
    StepOK t sh th sh { th with pc := .walk j (sh.head j.p) } := by
  refine .local I ⟨T.cur, ?_, ?_, ?_, by vac, ?_, ?_, by vac, by vac, by vac, by vac, by vac, by vac⟩ (by rw [hpc]; rfl)
  · exact fun _ => T.kids0 (by rw [hpc]; simp)
  · intro j' hj'; cases hj'; exact T.job j (by rw [hpc]; rfl)
  · intro j' c' h; cases h
    exact ⟨[], sh.kids j.p, rfl, I.chain _, by simp⟩
  · intro _; exact T.mineAll (.inl (by rw [hpc]; rfl))
  · intro j' hj'; cases hj'; exact T.mine j (by rw [hpc]; rfl)

theorem walkNone_ok (I : ShInv sh) (T : ThInv sh t th) {j : Job} (hpc : th.pc = .walk j none) :
    StepOK t sh th sh { th with pc := .need j } := by
  refine .local I ⟨T.cur, ?_, ?_, by vac, ?_, ?_, ?_, by vac, by vac, by vac, by vac, by vac, by vac⟩ (by rw [hpc]; rfl)
  · exact fun _ => T.kids0 (by rw [hpc]; simp)
  · intro j' hj'; cases hj'; exact T.job j (by rw [hpc]; rfl)
  · intro j' hj' _ n hn; cases hj'
    obtain ⟨pre, rest, h1, h2, h3⟩ := T.walk j none hpc
    have := h2.none_iff.1 rfl
    subst this
    refine h3 n ?_ hn
    have := (T.kids0 (by rw [hpc]; simp) j.p).subset hn
    rw [h1] at this; simpa using this
  · intro _; exact T.mineAll (.inl (by rw [hpc]; rfl))
  · intro j' hj'; cases hj'; exact T.mine j (by rw [hpc]; rfl)

/-- the path below a child -/
theorem childPath (I : ShInv sh) {p c : Ptr} {a : Nat} {v : Val} {l : List (Nat × Val)} (hc : c ∈ sh.kids p)
    (hm : sh.matches c a v = true) (hl : Path sh p l) : Path sh c (l ++ [(a, v)]) := by
  obtain ⟨x, h1, rfl, rfl⟩ := matches_iff.1 hm
  exact .child (I.kid _ _ hc).1 h1 hl

theorem walkHit_ok (I : ShInv sh) (T : ThInv sh t th) {j : Job} {c : Ptr} (hpc : th.pc = .walk j (some c))
    (hm : sh.matches c j.a j.v = true) : StepOK t sh th sh { th with pc := j.after c .find } := by
  obtain ⟨pre, rest, h1, h2, h3⟩ := T.walk j _ hpc
  have hc : c ∈ sh.kids j.p := by cases h2; rw [h1]; simp
  obtain ⟨k1, k2, k3, taken, k4, k7, l, k5, k6⟩ := T.job j (by rw [hpc]; rfl)
  have hp := childPath I hc hm k6
  rw [k2] at hp
  have hl : LiveG sh c := .inr ⟨_, hc⟩
  have hma := T.mineAll (.inl (by rw [hpc]; rfl))
  unfold Job.after
  cases hv : j.vs with
  | nil =>
    refine .local I ⟨T.cur, ?_, by vac, by vac, by vac, ?_, by vac, by vac, by vac, by vac, by vac, by vac, ?_⟩
      (by rw [hpc]; rfl)
    · exact fun _ => T.kids0 (by rw [hpc]; simp)
    · rintro (h | h) <;> cases h
    · intro r hr
      cases hr
      refine ⟨hl, l, k5, ?_⟩
      simp only [k4, hv, List.map_append, List.map_cons, List.map_nil]
      rw [← List.append_assoc]; exact hp
  | cons v vs =>
    refine .local I ⟨T.cur, ?_, ?_, by vac, by vac, ?_, ?_, by vac, by vac, by vac, by vac, by vac, by vac⟩
      (by rw [hpc]; rfl)
    · exact fun _ => T.kids0 (by rw [hpc]; simp)
    · intro j' hj'; cases hj'
      refine ⟨hl, k2, k3, taken ++ [j.v], by simp [k4, hv], by simp, l, k5, ?_⟩
      simp only [List.map_append, List.map_cons, List.map_nil]
      rw [← List.append_assoc]; exact hp
    · exact fun _ => hma
    · intro j' _; exact hma _

theorem walkMiss_ok (I : ShInv sh) (T : ThInv sh t th) {j : Job} {c : Ptr} (hpc : th.pc = .walk j (some c))
    (hm : sh.matches c j.a j.v = false) : StepOK t sh th sh { th with pc := .walk j (sh.next c) } := by
  obtain ⟨pre, rest, h1, h2, h3⟩ := T.walk j _ hpc
  refine .local I ⟨T.cur, ?_, ?_, ?_, by vac, ?_, ?_, by vac, by vac, by vac, by vac, by vac, by vac⟩ (by rw [hpc]; rfl)
  · exact fun _ => T.kids0 (by rw [hpc]; simp)
  · intro j' hj'; cases hj'; exact T.job j (by rw [hpc]; rfl)
  · intro j' c' h; cases h
    cases h2 with
    | @cons _ rest' h2 =>
      refine ⟨pre ++ [c], rest', by simp [h1], h2, ?_⟩
      intro n hn hk
      simp only [List.mem_append, List.mem_singleton] at hn
      rcases hn with hn | rfl
      · exact h3 n hn hk
      · exact hm
  · intro _; exact T.mineAll (.inl (by rw [hpc]; rfl))
  · intro j' hj'; cases hj'; exact T.mine j (by rw [hpc]; rfl)

/-- the fields of the invariant between the search and the first slot -/
theorem ThInv.alloc (T : ThInv sh t th) {j : Job} {pc : PC} (hj : th.pc.job? = some j)
    (ha : th.pc.allocating = true) (hj' : pc.job? = some j) (ha' : pc.allocating = true)
    (hset : ∀ j b, pc = .setup j b → sh.own b = t ∧ b < sh.nextBlock ∧ b < sh.numBlocks ∧ th.cur ≠ some b ∧
      ∀ i, sh.cell (.cell b i) = none) : ThInv sh t { th with pc := pc } := by
  have hs : th.pc.searching = false := by
    revert ha; cases th.pc <;> simp [PC.allocating, PC.searching]
  have hni : th.pc ≠ .idle := by intro e; rw [e] at hj; simp [PC.job?] at hj
  refine ⟨T.cur, fun _ => T.kids0 hni, ?_, ?_, ?_, ?_, ?_, hset, ?_, ?_, ?_, ?_, ?_⟩
  · intro j2 h; rw [hj'] at h; cases h; exact T.job j hj
  · intro j2 c h; simp only at h; rw [h] at ha'; simp [PC.allocating] at ha'
  · intro j2 h _; rw [hj'] at h; cases h; exact T.noMatch j hj hs
  · exact fun _ => T.mineAll (.inr ha)
  · intro j2 h; rw [hj'] at h; cases h; exact T.mine j hj
  · intro j2 h; simp only at h; rw [h] at ha'; simp [PC.allocating] at ha'
  · intro j2 b i h; simp only at h; rw [h] at ha'; simp [PC.allocating] at ha'
  · intro j2 c h; simp only at h; rw [h] at ha'; simp [PC.allocating] at ha'
  · intro j2 c h; simp only at h; rw [h] at ha'; simp [PC.allocating] at ha'
  · intro r h; simp only at h; rw [h] at ha'; simp [PC.allocating] at ha'

theorem ThInv.doneNone (T : ThInv sh t th) {j : Job} (hj : th.pc.job? = some j) :
    ThInv sh t { th with pc := .done none } := by
  have hni : th.pc ≠ .idle := by intro e; rw [e] at hj; simp [PC.job?] at hj
  refine ⟨T.cur, fun _ => T.kids0 hni, by vac, by vac, by vac, ?_, by vac, by vac, by vac, by vac, by vac, by vac, by vac⟩
  rintro (h | h) <;> cases h

theorem ThInv.toSlot (T : ThInv sh t th) {j : Job} (hj : th.pc.job? = some j) (hs : th.pc.searching = false) (b : Nat)
    (hc : th.cur = some b) (hroom : sh.idx b + j.vs.length + 1 ≤ sh.npb) : ThInv sh t { th with pc := .slot j } := by
  have hni : th.pc ≠ .idle := by intro e; rw [e] at hj; simp [PC.job?] at hj
  refine ⟨T.cur, fun _ => T.kids0 hni, ?_, by vac, ?_, ?_, ?_, by vac, ?_, by vac, by vac, by vac, by vac⟩
  · intro j2 h; cases h; exact T.job j hj
  · intro j2 h _; cases h; exact T.noMatch j hj hs
  · rintro (h | h) <;> cases h
  · intro j2 h; cases h; exact T.mine j hj
  · intro j2 h; cases h; exact ⟨b, hc, hroom⟩

theorem need_ok (I : ShInv sh) (T : ThInv sh t th) {j : Job} (hpc : th.pc = .need j) :
    StepOK t sh th sh { th with pc := if needBlock sh th.cur (j.vs.length + 1) then .load j else .slot j } := by
  by_cases h : needBlock sh th.cur (j.vs.length + 1) = true
  · rw [if_pos h]
    exact .local I (T.alloc (j := j) (by rw [hpc]; rfl) (by rw [hpc]; rfl) rfl rfl (by vac)) (by rw [hpc]; rfl)
  · rw [if_neg h]
    unfold needBlock at h
    obtain ⟨b, hc, hb⟩ : ∃ b, th.cur = some b ∧ sh.idx b + (j.vs.length + 1) < sh.npb := by
      cases hc : th.cur with
      | none => simp [hc] at h
      | some b => simp [hc] at h; exact ⟨b, rfl, h⟩
    exact .local I (T.toSlot (by rw [hpc]; rfl) (by rw [hpc]; rfl) b hc (by omega)) (by rw [hpc]; rfl)

theorem load_ok (I : ShInv sh) (T : ThInv sh t th) {j : Job} (hpc : th.pc = .load j) :
    StepOK t sh th sh { th with pc := if sh.nextBlock ≥ sh.numBlocks then .done none else .fetch j } := by
  split
  · exact .local I (T.doneNone (j := j) (by rw [hpc]; rfl)) (by rw [hpc]; rfl)
  · exact .local I (T.alloc (j := j) (by rw [hpc]; rfl) (by rw [hpc]; rfl) rfl rfl (by vac)) (by rw [hpc]; rfl)

/-- `next_block++` -/
theorem fetch_ok (I : ShInv sh) (T : ThInv sh t th) {j : Job} (hpc : th.pc = .fetch j) :
    StepOK t sh th { sh with nextBlock := sh.nextBlock + 1, own := BB.upd sh.own sh.nextBlock t }
      { th with pc := if sh.nextBlock ≥ sh.numBlocks then .done none else .setup j sh.nextBlock } := by
  have hown : ∀ b, b < sh.nextBlock → BB.upd sh.own sh.nextBlock t b = sh.own b := by
    intro b hb; unfold BB.upd; rw [if_neg (by omega)]
  have F : ∀ u, Frame u sh { sh with nextBlock := sh.nextBlock + 1, own := BB.upd sh.own sh.nextBlock t } := fun u =>
    ⟨rfl, rfl, Nat.le_succ _, hown, fun _ _ _ => rfl, fun _ _ h => h, fun _ _ => rfl, fun _ _ h _ => h,
      fun _ _ => rfl, fun _ _ _ => rfl, fun _ _ => rfl, fun _ => List.suffix_refl _, fun _ _ h => .inl h, fun _ _ => rfl⟩
  have hko : ∀ u q n, n ∈ sh.kids q → Owned { sh with nextBlock := sh.nextBlock + 1, own := BB.upd sh.own sh.nextBlock t } u n →
      Owned sh u n := by
    intro u q n hn ⟨b, i, h1, h2, h3⟩
    obtain ⟨c, hc⟩ := Option.isSome_iff_exists.1 (I.kid q n hn).2.1
    obtain ⟨b', i', k1, _, _, _, _, k2⟩ := I.cellok _ _ hc
    rw [h1] at k1; injection k1 with k1 k3
    subst k1
    exact ⟨b, i, h1, k2, by rw [← hown b k2]; exact h3⟩
  have I' : ShInv { sh with nextBlock := sh.nextBlock + 1, own := BB.upd sh.own sh.nextBlock t } := by
    refine ⟨I.npb, Nat.le_succ_of_le I.nb, I.alive, I.chain, I.nodup, ?_, ?_, ?_, I.rootp⟩
    · intro p n hn
      obtain ⟨h1, h2, l, h3⟩ := I.kid p n hn
      exact ⟨h1, h2, l, (F 0).path h3⟩
    · intro n c hc
      obtain ⟨b, i, h1, h2, h3, h4, h5, h6⟩ := I.cellok n c hc
      exact ⟨b, i, h1, h2, h3, h4, h5, Nat.lt_succ_of_lt h6⟩
    · intro p n n' c c' h1 h2 h3 h4 h5 h6 u o1 o2
      exact I.dup p n n' c c' h1 h2 h3 h4 h5 h6 u (hko u p n h1 o1) (hko u p n' h2 o2)
  have T' := T.frame I I'.nodup (F t)
  refine ⟨I', ?_, fun u _ => F u, fun n c hc => .inr (.inr ⟨?_, by rw [hpc]; simp [PC.pend?]⟩)⟩
  · by_cases h : sh.nextBlock ≥ sh.numBlocks
    · rw [if_pos h]
      exact T'.doneNone (j := j) (by rw [hpc]; rfl)
    · rw [if_neg h]
      refine T'.alloc (j := j) (by rw [hpc]; rfl) (by rw [hpc]; rfl) rfl rfl ?_
      intro j2 b hb
      cases hb
      refine ⟨by simp [BB.upd], Nat.lt_succ_self _, by simp only; omega, ?_, ?_⟩
      · intro hc
        have := (T.cur _ hc).2.1
        omega
      · intro i
        cases hc : sh.cell (.cell sh.nextBlock i) with
        | none => rfl
        | some c =>
          obtain ⟨b', i', k1, _, _, _, _, k2⟩ := I.cellok _ _ hc
          injection k1 with k1 k3
          omega
  · rw [show sh.cell n = some c from hc]; rfl

theorem path_congr {sh sh' : Shared} {n : Ptr} {l : List (Nat × Val)} (h : Path sh n l)
    (hc : sh'.cell = sh.cell := by rfl) (hp : sh'.parent = sh.parent := by rfl) : Path sh' n l :=
  h.mono (fun n c h => by rw [hc]; exact h) (fun n p h _ => by rw [hp]; exact h)

/-- changing the fill count of an own block is invisible to the others -/
theorem idx_frame (b k : Nat) (hb : sh.own b = t) (u : Nat) (hu : u ≠ t) :
    Frame u sh { sh with idx := BB.upd sh.idx b k } := by
  refine ⟨rfl, rfl, Nat.le_refl _, fun _ _ => rfl, ?_, fun _ _ h => h, fun _ _ => rfl, fun _ _ h _ => h,
      fun _ _ => rfl, fun _ _ _ => rfl, fun _ _ => rfl, fun _ => List.suffix_refl _, fun _ _ h => .inl h, fun _ _ => rfl⟩
  intro b' _ h
  show BB.upd sh.idx b k b' = sh.idx b'
  unfold BB.upd
  rw [if_neg]
  rintro rfl
  exact hu (h.symm.trans hb)

theorem idx_sh (I : ShInv sh) (b k : Nat) (hk : ∀ i c, sh.cell (.cell b i) = some c → i < k) :
    ShInv { sh with idx := BB.upd sh.idx b k } := by
  refine ⟨I.npb, I.nb, I.alive, I.chain, I.nodup, ?_, ?_, I.dup, I.rootp⟩
  · intro p n hn
    obtain ⟨h1, h2, l, h3⟩ := I.kid p n hn
    exact ⟨h1, h2, l, path_congr h3⟩
  · intro n c hc
    obtain ⟨b', i, h1, h2, h3, h4, h5, h6⟩ := I.cellok n c hc
    refine ⟨b', i, h1, h2, h3, ?_, h5, h6⟩
    show i < BB.upd sh.idx b k b'
    unfold BB.upd
    split
    · rename_i e; subst e; subst h1; exact hk i c hc
    · exact h4

theorem setup_ok (I : ShInv sh) (T : ThInv sh t th) {j : Job} {b : Nat} (hpc : th.pc = .setup j b) :
    StepOK t sh th { sh with idx := BB.upd sh.idx b 0 } { th with cur := some b, pc := .slot j } := by
  obtain ⟨h1, h2, h3, h4, h5⟩ := T.setup j b hpc
  obtain ⟨k1, k2, k3, taken, k4, k7, l, k5, k6⟩ := T.job j (by rw [hpc]; rfl)
  refine ⟨idx_sh I b 0 (by intro i c hc; rw [h5 i] at hc; cases hc), ?_, idx_frame b 0 h1,
    fun n c hc => .inr (.inr ⟨?_, by rw [hpc]; simp [PC.pend?]⟩)⟩
  · refine ⟨?_, fun _ => T.kids0 (by rw [hpc]; simp), ?_, by vac, ?_, ?_, ?_, by vac, ?_, by vac, by vac, by vac, by vac⟩
    · intro b' hb'; cases hb'
      exact ⟨h1, h2, h3, by simp [BB.upd]⟩
    · intro j2 h; cases h
      exact ⟨k1, k2, k3, taken, k4, k7, l, path_congr k5, path_congr k6⟩
    · intro j2 h _; cases h; exact T.noMatch j (by rw [hpc]; rfl) (by rw [hpc]; rfl)
    · rintro (h | h) <;> cases h
    · intro j2 h; cases h; exact T.mine j (by rw [hpc]; rfl)
    · intro j2 h; cases h
      refine ⟨b, rfl, ?_⟩
      have : (BB.upd sh.idx b 0) b = 0 := by simp [BB.upd]
      simp only [this]
      have : th.cvs.length = taken.length + (j.vs.length + 1) := by rw [k4]; simp
      omega
  · rw [show sh.cell n = some c from hc]; rfl

theorem slot_ok (I : ShInv sh) (T : ThInv sh t th) {j : Job} {b : Nat} (hpc : th.pc = .slot j) (hc : th.cur = some b) :
    StepOK t sh th { sh with idx := BB.upd sh.idx b (sh.idx b + 1) } { th with pc := .cons j b (sh.idx b) } := by
  obtain ⟨b', h1, h2⟩ := T.slot j hpc
  rw [hc] at h1; cases h1
  obtain ⟨c1, c2, c3, c4⟩ := T.cur b hc
  obtain ⟨k1, k2, k3, taken, k4, k7, l, k5, k6⟩ := T.job j (by rw [hpc]; rfl)
  have hidx : ∀ i c, sh.cell (.cell b i) = some c → i < sh.idx b := by
    intro i c h
    obtain ⟨b', i', e1, _, _, e2, _⟩ := I.cellok _ _ h
    injection e1 with e1 e3; subst e1; subst e3; exact e2
  refine ⟨idx_sh I b _ (fun i c h => Nat.lt_succ_of_lt (hidx i c h)), ?_, idx_frame b _ c1,
    fun n c hc => .inr (.inr ⟨?_, by rw [hpc]; simp [PC.pend?]⟩)⟩
  · refine ⟨?_, fun _ => T.kids0 (by rw [hpc]; simp), ?_, by vac, ?_, ?_, ?_, by vac, by vac, ?_, by vac, by vac, by vac⟩
    · intro b' hb'
      have : b' = b := by
        have hb' : th.cur = some b' := hb'
        rw [hc] at hb'; cases hb'; rfl
      subst this
      refine ⟨c1, c2, c3, ?_⟩
      have : (BB.upd sh.idx b' (sh.idx b' + 1)) b' = sh.idx b' + 1 := by simp [BB.upd]
      simp only [this]; omega
    · intro j2 h; cases h
      exact ⟨k1, k2, k3, taken, k4, k7, l, path_congr k5, path_congr k6⟩
    · intro j2 h _; cases h; exact T.noMatch j (by rw [hpc]; rfl) (by rw [hpc]; rfl)
    · rintro (h | h) <;> cases h
    · intro j2 h; cases h; exact T.mine j (by rw [hpc]; rfl)
    · intro j2 b2 i2 h; cases h
      refine ⟨hc, by simp [BB.upd], h2, ?_⟩
      cases h : sh.cell (.cell b (sh.idx b)) with
      | none => rfl
      | some c => exact absurd (hidx _ c h) (Nat.lt_irrefl _)
  · rw [show sh.cell n = some c from hc]; rfl

/-- the state after constructing a node -/
def consSh (sh : Shared) (n : Ptr) (c : Cell) : Shared :=
  { sh with cell := updP sh.cell n (some c), parent := updP sh.parent n none, next := updP sh.next n none,
            head := updP sh.head n none }

theorem cons_ok (I : ShInv sh) (T : ThInv sh t th) {j : Job} {b i : Nat} (hpc : th.pc = .cons j b i) :
    StepOK t sh th (consSh sh (.cell b i) ⟨b * sh.npb + i, j.a, j.v⟩) { th with pc := .par j (.cell b i) } := by
  obtain ⟨h1, h2, h3, h4⟩ := T.cons j b i hpc
  obtain ⟨c1, c2, c3, c4⟩ := T.cur b h1
  obtain ⟨k1, k2, k3, taken, k4, k7, l, k5, k6⟩ := T.job j (by rw [hpc]; rfl)
  have hne : ∀ q n, n ∈ sh.kids q → n ≠ .cell b i := by
    rintro q n hn rfl
    have := (I.kid _ _ hn).2.1
    rw [h4] at this; cases this
  have hcn : ∀ n c, sh.cell n = some c → n ≠ .cell b i := by
    rintro n c hc rfl
    rw [h4] at hc; cases hc
  have hk : sh.kids (.cell b i) = [] := by
    cases hk : sh.kids (.cell b i) with
    | nil => rfl
    | cons n ns =>
      obtain ⟨_, _, l, hl⟩ := I.kid (.cell b i) n (by rw [hk]; simp)
      rcases ShInv.pathCell hl with h | h
      · cases h
      · rw [h4] at h; cases h
  have hcell : ∀ n c, sh.cell n = some c → (consSh sh (.cell b i) ⟨b * sh.npb + i, j.a, j.v⟩).cell n = some c := by
    intro n c hc
    show updP _ _ _ _ = _
    rw [updP, if_neg (hcn n c hc)]; exact hc
  have hpar : ∀ n p, sh.parent n = some p → (sh.cell n).isSome = true →
      (consSh sh (.cell b i) ⟨b * sh.npb + i, j.a, j.v⟩).parent n = some p := by
    intro n p hp hc
    obtain ⟨c, hc⟩ := Option.isSome_iff_exists.1 hc
    show updP _ _ _ _ = _
    rw [updP, if_neg (hcn n c hc)]; exact hp
  have hmono : ∀ {n l}, Path sh n l → Path (consSh sh (.cell b i) ⟨b * sh.npb + i, j.a, j.v⟩) n l :=
    fun h => h.mono hcell hpar
  have hnext : ∀ q n, n ∈ sh.kids q → (consSh sh (.cell b i) ⟨b * sh.npb + i, j.a, j.v⟩).next n = sh.next n := by
    intro q n hn
    show updP _ _ _ _ = _
    rw [updP, if_neg (hne q n hn)]
  have hcs : ∀ n c, (consSh sh (.cell b i) ⟨b * sh.npb + i, j.a, j.v⟩).cell n = some c →
      (n = .cell b i ∧ c = ⟨b * sh.npb + i, j.a, j.v⟩) ∨ (n ≠ .cell b i ∧ sh.cell n = some c) := by
    intro n c hc
    have hc : updP _ _ _ _ = _ := hc
    rw [updP] at hc
    split at hc
    · rename_i e; exact .inl ⟨e, by simpa using hc.symm⟩
    · rename_i e; exact .inr ⟨e, hc⟩
  have F : ∀ u, u ≠ t → Frame u sh (consSh sh (.cell b i) ⟨b * sh.npb + i, j.a, j.v⟩) := by
    intro u hu
    have hno : ∀ n, Owned sh u n → n ≠ .cell b i := by
      rintro n ⟨b', i', e1, e2, e3⟩ rfl
      injection e1 with e1 _; subst e1
      exact hu (e3.symm.trans c1)
    refine ⟨rfl, rfl, Nat.le_refl _, fun _ _ => rfl, fun _ _ _ => rfl, hcell, ?_, hpar, ?_, ?_, ?_,
      fun _ => List.suffix_refl _, fun _ _ h => .inl h, fun _ _ => rfl⟩
    · intro n hn; show updP _ _ _ _ = _; rw [updP, if_neg (hno n hn)]
    · intro n hn; show updP _ _ _ _ = _; rw [updP, if_neg (hno n hn)]
    · exact fun n q hn => hnext q n hn
    · intro n hn; show updP _ _ _ _ = _; rw [updP, if_neg (hno n hn)]
  have hmatch : ∀ q n a v, n ∈ sh.kids q → (consSh sh (.cell b i) ⟨b * sh.npb + i, j.a, j.v⟩).matches n a v = sh.matches n a v := by
    intro q n a v hn
    unfold Shared.matches consSh
    simp only [updP, if_neg (hne q n hn)]
  refine ⟨?_, ?_, F, ?_⟩
  · refine ⟨I.npb, I.nb, I.alive, ?_, I.nodup, ?_, ?_, ?_, ?_⟩
    · intro p
      show Chain _ (updP _ _ _ _) _
      by_cases hp : p = .cell b i
      · subst hp
        rw [updP, if_pos rfl]
        show Chain _ _ (sh.kids _)
        rw [hk]; exact .nil
      · rw [updP, if_neg hp]
        exact (I.chain p).congr fun n hn => hnext p n hn
    · intro p n hn
      obtain ⟨e1, e2, l, e3⟩ := I.kid p n hn
      refine ⟨hpar n p e1 e2, ?_, l, hmono e3⟩
      obtain ⟨c, hc⟩ := Option.isSome_iff_exists.1 e2
      rw [hcell n c hc]; rfl
    · intro n c hc
      rcases hcs n c hc with ⟨rfl, rfl⟩ | ⟨_, hc⟩
      · exact ⟨b, i, rfl, rfl, by show i < sh.npb; omega, by show i < sh.idx b; omega, c3, c2⟩
      · exact I.cellok n c hc
    · intro p n n' c c' m1 m2 e1 e2
      rcases hcs n c e1 with ⟨rfl, _⟩ | ⟨_, e1⟩
      · exact absurd rfl (hne p _ m1)
      · rcases hcs n' c' e2 with ⟨rfl, _⟩ | ⟨_, e2⟩
        · exact absurd rfl (hne p _ m2)
        · exact I.dup p n n' c c' m1 m2 e1 e2
    · show updP sh.parent (.cell b i) none .root = none
      rw [updP, if_neg (by simp)]; exact I.rootp
  · have hself : (consSh sh (.cell b i) ⟨b * sh.npb + i, j.a, j.v⟩).cell (.cell b i) = some ⟨b * sh.npb + i, j.a, j.v⟩ := by
      show updP _ _ _ _ = _
      simp [updP]
    refine ⟨T.cur, fun _ => T.kids0 (by rw [hpc]; simp), ?_, by vac, ?_, ?_, ?_, by vac, by vac, by vac, ?_, by vac, by vac⟩
    · intro j2 h; cases h
      exact ⟨k1, k2, k3, taken, k4, k7, l, hmono k5, hmono k6⟩
    · intro j2 h _ n hn; cases h
      have hn' := (T.kids0 (by rw [hpc]; simp) j.p).subset hn
      rw [hmatch _ n _ _ hn']
      exact T.noMatch j (by rw [hpc]; rfl) (by rw [hpc]; rfl) n hn
    · rintro (h | h) <;> cases h
    · intro j2 h; cases h; exact T.mine j (by rw [hpc]; rfl)
    · intro j2 n h; cases h
      refine ⟨⟨⟨b, i, rfl, h1, h2, h3⟩, ⟨_, hself, rfl, rfl⟩, fun q hq => hne q _ hq rfl, hk⟩, ?_⟩
      show updP _ _ _ _ = _
      simp [updP]
  · intro n c hc
    rcases hcs n c hc with ⟨rfl, _⟩ | ⟨_, hc⟩
    · exact .inr (.inl rfl)
    · exact .inr (.inr ⟨by rw [hc]; rfl, by rw [hpc]; simp [PC.pend?]⟩)

theorem par_ok (I : ShInv sh) (T : ThInv sh t th) {j : Job} {n : Ptr} (hpc : th.pc = .par j n) :
    StepOK t sh th { sh with parent := updP sh.parent n (some j.p) } { th with pc := .cas j n } := by
  obtain ⟨P, hpn⟩ := T.par j n hpc
  obtain ⟨b, i, h1, h2, h3, h4⟩ := P.slot
  obtain ⟨c1, c2, c3, c4⟩ := T.cur b h2
  obtain ⟨k1, k2, k3, taken, k4, k7, l, k5, k6⟩ := T.job j (by rw [hpc]; rfl)
  have hne : ∀ q m, m ∈ sh.kids q → m ≠ n := by
    rintro q m hm rfl; exact P.unlinked q hm
  have hpar : ∀ m p, sh.parent m = some p → (sh.cell m).isSome = true → updP sh.parent n (some j.p) m = some p := by
    intro m p hp _
    rw [updP, if_neg]; exact hp
    rintro rfl; rw [hpn] at hp; cases hp
  have hmono : ∀ {m l}, Path sh m l → Path { sh with parent := updP sh.parent n (some j.p) } m l :=
    fun h => Path.mono (sh := sh) (sh' := { sh with parent := updP sh.parent n (some j.p) }) (fun _ _ h => h) hpar h
  refine ⟨?_, ?_, ?_, ?_⟩
  · refine ⟨I.npb, I.nb, I.alive, I.chain, I.nodup, ?_, I.cellok, I.dup, by
      show updP sh.parent n (some j.p) .root = none
      rw [updP, if_neg (by rw [h1]; simp)]; exact I.rootp⟩
    intro p m hm
    obtain ⟨e1, e2, l, e3⟩ := I.kid p m hm
    exact ⟨hpar m p e1 e2, e2, l, hmono e3⟩
  · refine ⟨T.cur, fun _ => T.kids0 (by rw [hpc]; simp), ?_, by vac, ?_, ?_, ?_, by vac, by vac, by vac, by vac, ?_, by vac⟩
    · intro j2 h; cases h
      exact ⟨k1, k2, k3, taken, k4, k7, l, hmono k5, hmono k6⟩
    · intro j2 h _; cases h; exact T.noMatch j (by rw [hpc]; rfl) (by rw [hpc]; rfl)
    · rintro (h | h) <;> cases h
    · intro j2 h; cases h; exact T.mine j (by rw [hpc]; rfl)
    · intro j2 m h; cases h
      exact ⟨⟨P.slot, P.cell, P.unlinked, P.kids⟩, by simp [updP]⟩
  · intro u hu
    refine ⟨rfl, rfl, Nat.le_refl _, fun _ _ => rfl, fun _ _ _ => rfl, fun _ _ h => h, fun _ _ => rfl, hpar, ?_,
      fun _ _ _ => rfl, fun _ _ => rfl, fun _ => List.suffix_refl _, fun _ _ h => .inl h, fun _ _ => rfl⟩
    rintro m ⟨b', i', e1, e2, e3⟩
    show updP _ _ _ _ = _
    rw [updP, if_neg]
    rintro rfl
    rw [h1] at e1; injection e1 with e1 _; subst e1
    exact hu (e3.symm.trans c1)
  · intro m c hc
    by_cases hm : m = n
    · subst hm; exact .inr (.inl rfl)
    · exact .inr (.inr ⟨by rw [show sh.cell m = some c from hc]; rfl, by rw [hpc]; simp [PC.pend?]; exact fun h => hm h.symm⟩)

/-- a failed compare-exchange -/
theorem casFail_ok (I : ShInv sh) (T : ThInv sh t th) {j : Job} {n : Ptr} (hpc : th.pc = .cas j n) (x : Option Ptr) :
    StepOK t sh th { sh with next := updP sh.next n x } th := by
  obtain ⟨P, hpn⟩ := T.cas j n hpc
  obtain ⟨b, i, h1, h2, h3, h4⟩ := P.slot
  obtain ⟨c1, c2, c3, c4⟩ := T.cur b h2
  obtain ⟨k1, k2, k3, taken, k4, k7, l, k5, k6⟩ := T.job j (by rw [hpc]; rfl)
  have hnext : ∀ q m, m ∈ sh.kids q → updP sh.next n x m = sh.next m := by
    intro q m hm
    rw [updP, if_neg]
    rintro rfl; exact P.unlinked q hm
  refine ⟨?_, ?_, ?_, ?_⟩
  · refine ⟨I.npb, I.nb, I.alive, fun p => (I.chain p).congr fun m hm => hnext p m hm, I.nodup, ?_, I.cellok, I.dup, I.rootp⟩
    intro p m hm
    obtain ⟨e1, e2, l, e3⟩ := I.kid p m hm
    exact ⟨e1, e2, l, path_congr e3⟩
  · refine ⟨T.cur, fun _ => T.kids0 (by rw [hpc]; simp), ?_, ?_, T.noMatch, T.mineAll, T.mine, T.setup, T.slot, T.cons, ?_,
      ?_, ?_⟩
    · intro j2 h; rw [hpc] at h; cases h
      exact ⟨k1, k2, k3, taken, k4, k7, l, path_congr k5, path_congr k6⟩
    · intro j2 c h; rw [hpc] at h; cases h
    · intro j2 m h; rw [hpc] at h; cases h
    · intro j2 m h; rw [hpc] at h; cases h
      exact ⟨⟨P.slot, P.cell, P.unlinked, P.kids⟩, hpn⟩
    · intro r h; rw [hpc] at h; cases h
  · intro u hu
    refine ⟨rfl, rfl, Nat.le_refl _, fun _ _ => rfl, fun _ _ _ => rfl, fun _ _ h => h, fun _ _ => rfl, fun _ _ h _ => h,
      fun _ _ => rfl, fun m q hm => hnext q m hm, ?_, fun _ => List.suffix_refl _, fun _ _ h => .inl h, fun _ _ => rfl⟩
    rintro m ⟨b', i', e1, e2, e3⟩
    show updP _ _ _ _ = _
    rw [updP, if_neg]
    rintro rfl
    rw [h1] at e1; injection e1 with e1 _; subst e1
    exact hu (e3.symm.trans c1)
  · intro m c hc
    by_cases hm : m = n
    · subst hm; exact .inr (.inl (by rw [hpc]; rfl))
    · exact .inr (.inr ⟨by rw [show sh.cell m = some c from hc]; rfl, by rw [hpc]; simp [PC.pend?]; exact fun h => hm h.symm⟩)

/-- the state after linking `n` under `p` -/
def linkSh (sh : Shared) (p n : Ptr) : Shared :=
  { sh with head := updP sh.head p (some n), kids := updP sh.kids p (n :: sh.kids p) }

theorem casOk_ok (I : ShInv sh) (T : ThInv sh t th) {j : Job} {n : Ptr} (hpc : th.pc = .cas j n)
    (hh : sh.head j.p = sh.next n) : StepOK t sh th (linkSh sh j.p n) { th with pc := j.after n .slot } := by
  obtain ⟨P, hpn⟩ := T.cas j n hpc
  obtain ⟨b, i, h1, h2, h3, h4⟩ := P.slot
  obtain ⟨c1, c2, c3, c4⟩ := T.cur b h2
  obtain ⟨k1, k2, k3, taken, k4, k7, l, k5, k6⟩ := T.job j (by rw [hpc]; rfl)
  obtain ⟨x, x1, x2, x3⟩ := P.cell
  have hno : Owned sh t n := ⟨b, i, h1, c2, c1⟩
  have hnp : n ≠ j.p := by
    rintro rfl
    rcases k1 with h | ⟨q, hq⟩
    · rw [h1] at h; cases h
    · exact P.unlinked q hq
  have hkids : ∀ q, (linkSh sh j.p n).kids q = if q = j.p then n :: sh.kids j.p else sh.kids q := fun q => rfl
  have hsuf : ∀ q, sh.kids q <:+ (linkSh sh j.p n).kids q := by
    intro q; rw [hkids]; split
    · rename_i e; subst e; exact List.suffix_cons _ _
    · exact List.suffix_refl _
  have hmem : ∀ q m, m ∈ (linkSh sh j.p n).kids q ↔ (m ∈ sh.kids q ∨ (q = j.p ∧ m = n)) := by
    intro q m; rw [hkids]; split
    · rename_i e; subst e; simp [or_comm]
    · rename_i e; simp [e]
  have hpath : ∀ {m l}, Path sh m l → Path (linkSh sh j.p n) m l := fun h => path_congr h
  have hpn' : Path sh n (l ++ (taken.map fun v => (th.ca, v)) ++ [(th.ca, j.v)]) := by
    have := Path.child hpn x1 k6
    rw [x2, x3, k2] at this; exact this
  have hkl : ∀ m, LiveG sh m → LiveG (linkSh sh j.p n) m := by
    rintro m (rfl | ⟨q, hq⟩)
    · exact .inl rfl
    · exact .inr ⟨q, (hsuf q).subset hq⟩
  have hln : LiveG (linkSh sh j.p n) n := .inr ⟨j.p, (hmem _ _).2 (.inr ⟨rfl, rfl⟩)⟩
  have hnm := T.noMatch j (by rw [hpc]; rfl) (by rw [hpc]; rfl)
  have hmi := T.mine j (by rw [hpc]; rfl)
  refine ⟨?_, ?_, ?_, ?_⟩
  · refine ⟨I.npb, I.nb, I.alive, ?_, ?_, ?_, I.cellok, ?_, I.rootp⟩
    · intro p
      show Chain sh.next (updP _ _ _ _) _
      rw [hkids, updP]
      split
      · refine .cons ?_
        rw [← hh]; exact I.chain _
      · exact I.chain p
    · intro p; rw [hkids]; split
      · exact List.nodup_cons.2 ⟨P.unlinked _, I.nodup _⟩
      · exact I.nodup p
    · intro p m hm
      rcases (hmem _ _).1 hm with hm | ⟨rfl, rfl⟩
      · obtain ⟨e1, e2, l, e3⟩ := I.kid p m hm
        exact ⟨e1, e2, l, hpath e3⟩
      · exact ⟨hpn, by show (sh.cell m).isSome = true; rw [x1]; rfl, _, hpath k6⟩
    · -- duplicates
      have key : ∀ m c, m ∈ sh.kids j.p → sh.cell m = some c → c.attr = x.attr → c.val = x.val → ∀ u, Owned sh u m →
          Owned sh u n → False := by
        intro m c hm hc ha hv u o1 o2
        obtain ⟨b', i', e1, e2, e3⟩ := o2
        rw [h1] at e1; injection e1 with e1 _; subst e1
        have : u = t := by rw [← e3, c1]
        subst this
        have := hnm m (hmi m hm o1)
        have hm' : sh.matches m j.a j.v = true := matches_iff.2 ⟨c, hc, ha.trans x2, hv.trans x3⟩
        rw [this] at hm'; cases hm'
      intro p m m' c c' m1 m2 e1 e2 e3 e4 u o1 o2
      have f1 : sh.cell m = some c := e1
      have f2 : sh.cell m' = some c' := e2
      rcases (hmem _ _).1 m1 with n1 | ⟨rfl, rfl⟩
      · rcases (hmem _ _).1 m2 with n2 | ⟨rfl, rfl⟩
        · exact I.dup p m m' c c' n1 n2 f1 f2 e3 e4 u o1 o2
        · rw [x1] at f2; cases f2
          exact (key m c n1 f1 e3 e4 u o1 o2).elim
      · rcases (hmem _ _).1 m2 with n2 | ⟨_, rfl⟩
        · rw [x1] at f1; cases f1
          exact (key m' c' n2 f2 e3.symm e4.symm u o2 o1).elim
        · rfl
  · have hk0 : ∀ q, th.kids0 q <:+ (linkSh sh j.p n).kids q := fun q => (T.kids0 (by rw [hpc]; simp) q).trans (hsuf q)
    have hkn : (linkSh sh j.p n).kids n = [] := by rw [hkids, if_neg hnp]; exact P.kids
    unfold Job.after
    cases hv : j.vs with
    | nil =>
      refine ⟨T.cur, fun _ => hk0, by vac, by vac, by vac, ?_, by vac, by vac, by vac, by vac, by vac, by vac, ?_⟩
      · rintro (h | h) <;> cases h
      · intro r hr; cases hr
        refine ⟨hln, l, hpath k5, hpath ?_⟩
        simp only [k4, hv, List.map_append, List.map_cons, List.map_nil]
        rw [← List.append_assoc]; exact hpn'
    | cons v vs =>
      refine ⟨T.cur, fun _ => hk0, ?_, by vac, ?_, ?_, ?_, by vac, ?_, by vac, by vac, by vac, by vac⟩
      · intro j2 h; cases h
        refine ⟨hln, k2, k3, taken ++ [j.v], by simp [k4, hv], by simp, l, hpath k5, hpath ?_⟩
        simp only [List.map_append, List.map_cons, List.map_nil]
        rw [← List.append_assoc]; exact hpn'
      · intro j2 h _ m hm; cases h
        have := (hk0 n).subset hm
        rw [hkn] at this; cases this
      · rintro (h | h) <;> cases h
      · intro j2 h m hm; cases h
        have hm : m ∈ (linkSh sh j.p n).kids n := hm
        rw [hkn] at hm; cases hm
      · intro j2 h; cases h
        refine ⟨b, h2, ?_⟩
        show sh.idx b + vs.length + 1 ≤ sh.npb
        rw [hv, List.length_cons] at h4; omega
  · intro u hu
    refine ⟨rfl, rfl, Nat.le_refl _, fun _ _ => rfl, fun _ _ _ => rfl, fun _ _ h => h, fun _ _ => rfl, fun _ _ h _ => h,
      fun _ _ => rfl, fun _ _ _ => rfl, fun _ _ => rfl, hsuf, ?_, ?_⟩
    · intro q m hm
      rcases (hmem _ _).1 hm with hm | ⟨rfl, rfl⟩
      · exact .inl hm
      · right
        rintro ⟨b', i', e1, e2, e3⟩
        rw [h1] at e1; injection e1 with e1 _; subst e1
        exact hu (e3.symm.trans c1)
    · intro m hm
      rw [hkids, if_neg]
      rintro rfl; exact hm k1
  · intro m c hc
    by_cases hm : m = n
    · subst hm; exact .inl ⟨j.p, (hmem _ _).2 (.inr ⟨rfl, rfl⟩)⟩
    · exact .inr (.inr ⟨by rw [show sh.cell m = some c from hc]; rfl, by rw [hpc]; simp [PC.pend?]; exact fun h => hm h.symm⟩)

theorem casStep_ok (I : ShInv sh) (T : ThInv sh t th) {j : Job} {n : Ptr} (hpc : th.pc = .cas j n) (sp : Bool) :
    StepOK t sh th (casStep sh th j n sp).1 (casStep sh th j n sp).2 := by
  unfold casStep
  split
  · rename_i h; exact casOk_ok I T hpc h.2
  · exact casFail_ok I T hpc _

/-- nothing happens -/
theorem stay_ok (I : ShInv sh) (T : ThInv sh t th) (hp : th.pc.pend? = none) : StepOK t sh th sh th := .local I T hp

theorem tick_ok (I : ShInv sh) (T : ThInv sh t th) : StepOK t sh th (tick t sh th).1 (tick t sh th).2 := by
  unfold tick
  cases hpc : th.pc with
  | idle => exact stay_ok I T (by rw [hpc]; rfl)
  | find j => exact find_ok I T hpc
  | walk j c =>
    cases c with
    | none => exact walkNone_ok I T hpc
    | some c =>
      simp only
      cases hm : sh.matches c j.a j.v with
      | true => exact walkHit_ok I T hpc hm
      | false => exact walkMiss_ok I T hpc hm
  | need j => have := need_ok I T hpc; simp only; split at this <;> (rename_i h; first | rw [if_pos h] | rw [if_neg h]) <;> exact this
  | load j => have := load_ok I T hpc; simp only; split at this <;> (rename_i h; first | rw [if_pos h] | rw [if_neg h]) <;> exact this
  | fetch j =>
    have := fetch_ok I T hpc; simp only
    split at this <;> (rename_i h; first | rw [if_pos h] | rw [if_neg h]) <;> exact this
  | setup j b => exact setup_ok I T hpc
  | slot j =>
    obtain ⟨b, hb, _⟩ := T.slot j hpc
    simp only [hb]
    have := slot_ok I T hpc hb
    simp only [hb] at this
    exact this
  | cons j b i =>
    obtain ⟨_, _, h, _⟩ := T.cons j b i hpc
    simp only
    rw [if_neg (show ¬ i ≥ sh.npb by omega)]
    exact cons_ok I T hpc
  | par j n => exact par_ok I T hpc
  | cas j n => exact casStep_ok I T hpc false
  | done r => exact stay_ok I T (by rw [hpc]; rfl)

theorem call_ok (I : ShInv sh) (T : ThInv sh t th) (hpc : th.pc = .idle) (a : Nat) (vs : List Val) (p : Ptr)
    (hp : LiveG sh p) (hv : vs.length ≤ sh.npb) :
    StepOK t sh th sh { th with ca := a, cvs := vs, cp := p, kids0 := sh.kids,
                                pc := startPC a p vs } := by
  obtain ⟨l, hl⟩ := I.livePath hp
  cases vs with
  | nil =>
    simp only [startPC]
    refine .local I ⟨T.cur, fun _ _ => List.suffix_refl _, by vac, by vac, by vac, ?_, by vac, by vac, by vac, by vac, by vac,
      by vac, ?_⟩ (by rw [hpc]; rfl)
    · rintro (h | h) <;> cases h
    · intro r hr; cases hr
      exact ⟨hp, l, hl, by simpa using hl⟩
  | cons v vs =>
    simp only [startPC]
    refine .local I ⟨T.cur, fun _ _ => List.suffix_refl _, ?_, by vac, by vac, ?_, ?_, by vac, by vac, by vac, by vac,
      by vac, by vac⟩ (by rw [hpc]; rfl)
    · intro j h; cases h
      exact ⟨hp, rfl, hv, [], rfl, fun _ => rfl, l, hl, by simpa using hl⟩
    · exact fun _ q n hn _ => hn
    · exact fun j _ n hn _ => hn

theorem ret_ok (I : ShInv sh) (T : ThInv sh t th) {r : Option Ptr} (hpc : th.pc = .done r) :
    StepOK t sh th sh { th with pc := .idle } := by
  refine .local I ⟨T.cur, ?_, by vac, by vac, by vac, ?_, by vac, by vac, by vac, by vac, by vac, by vac, by vac⟩
    (by rw [hpc]; rfl)
  · intro h; exact absurd rfl h
  · rintro (h | h) <;> cases h

theorem act_ok (I : ShInv sh) (T : ThInv sh t th) (a : Act)
    (hok : ∀ x vs p, a = .call x vs p → th.pc = .idle → LiveG sh p ∧ vs.length ≤ sh.npb) :
    StepOK t sh th (act t sh th a).1 (act t sh th a).2 ∨
      ((act t sh th a).1 = sh ∧ (act t sh th a).2 = th) := by
  cases a with
  | call x vs p =>
    unfold act
    cases hpc : th.pc with
    | idle => obtain ⟨h1, h2⟩ := hok x vs p rfl hpc; exact .inl (call_ok I T hpc x vs p h1 h2)
    | _ => right; simp
  | tick => exact .inl (tick_ok I T)
  | spur =>
    unfold act
    cases hpc : th.pc with
    | cas j n => exact .inl (casStep_ok I T hpc true)
    | _ => right; simp
  | ret =>
    unfold act
    cases hpc : th.pc with
    | done r => exact .inl (ret_ok I T hpc)
    | _ => right; simp

theorem upd_self {α : Type} (f : Nat → α) (t : Nat) : BB.upd f t (f t) = f := by
  funext u; unfold BB.upd; split
  · rename_i h; rw [h]
  · rfl

/-- every step preserves the invariant -/
theorem Inv.step {s : St} (h : Inv s) (t : Nat) (a : Act) (hok : ActOk s a) : Inv (Conc.step s t a) := by
  have hok' : ∀ x vs p, a = .call x vs p → (s.th t).pc = .idle → LiveG s.sh p ∧ vs.length ≤ s.sh.npb := by
    rintro x vs p rfl _
    exact ⟨(h.sh.live_iff p).1 hok.1, hok.2⟩
  rcases act_ok h.sh (h.th t) a hok' with S | ⟨e1, e2⟩
  · unfold Conc.step
    refine ⟨S.shInv, fun u => ?_, ?_⟩
    · show ThInv _ u (BB.upd s.th t _ u)
      unfold BB.upd
      by_cases hu : u = t
      · rw [if_pos hu]; subst hu; exact S.thInv
      · rw [if_neg hu]; exact (h.th u).frame h.sh S.shInv.nodup (S.frame u hu)
    · intro n c hc
      have ht : BB.upd s.th t (act t s.sh (s.th t) a).2 t = (act t s.sh (s.th t) a).2 := by simp [BB.upd]
      rcases S.all n c hc with h1 | h1 | ⟨h1, h2⟩
      · exact .inl h1
      · exact .inr ⟨t, by simp only [ht]; exact h1⟩
      · obtain ⟨c', hc'⟩ := Option.isSome_iff_exists.1 h1
        rcases h.all n c' hc' with ⟨q, hq⟩ | ⟨u, hu⟩
        · left
          have hs : s.sh.kids q <:+ (act t s.sh (s.th t) a).1.kids q :=
            (S.frame (t + 1) (by omega)).kids q
          exact ⟨q, hs.subset hq⟩
        · right
          have : u ≠ t := by rintro rfl; exact h2 hu
          exact ⟨u, by simp only [BB.upd, if_neg this]; exact hu⟩
  · have : Conc.step s t a = s := by
      unfold Conc.step
      simp only [e1, e2, upd_self]
    rw [this]; exact h

/-- bootstrap children, link by link -/
theorem bootChain (p : Ptr) : Chain bootNext (bootHead p) (MTree.bootKids p) := by
  unfold bootHead
  cases p with
  | root => simp only [MTree.bootKids, List.head?]; repeat (first | exact .nil | refine .cons ?_)
  | cell b i =>
    by_cases h : (b = 0 ∧ i = 3) ∨ (b = 0 ∧ i = 7) ∨ (b = 0 ∧ i = 1)
    · rcases h with ⟨rfl, rfl⟩ | ⟨rfl, rfl⟩ | ⟨rfl, rfl⟩ <;> exact .cons .nil
    · have : MTree.bootKids (.cell b i) = [] := by
        unfold MTree.bootKids
        split <;> simp_all
      rw [this]; exact .nil

theorem bootPath (sh : Shared) (hc : sh.cell = bootCell) (hp : sh.parent = bootParent) (i : Nat)
    (h : i ∈ [3, 7, 1]) : ∃ l, Path sh (.cell 0 i) l := by
  simp only [List.mem_cons, List.not_mem_nil, or_false] at h
  rcases h with rfl | rfl | rfl <;>
    exact ⟨_, .child (p := .root) (by rw [hp]; rfl) (by rw [hc]; rfl) .root⟩

theorem bootKids_cases {p n : Ptr} (h : n ∈ MTree.bootKids p) :
    (p = .root ∧ n ∈ MTree.bootKids .root) ∨ (p = .cell 0 3 ∧ n = .cell 0 8) ∨ (p = .cell 0 7 ∧ n = .cell 0 9) ∨
      (p = .cell 0 1 ∧ n = .cell 0 10) := by
  unfold MTree.bootKids at h
  split at h <;> simp_all [MTree.bootKids]

theorem bootCell_cases {n : Ptr} {c : Cell} (h : bootCell n = some c) : ∃ i, n = .cell 0 i ∧ i < 12 ∧ c.id = i := by
  unfold bootCell at h
  split at h
  · rename_i i
    refine ⟨i, rfl, ?_⟩
    unfold MTree.bootNode at h
    split at h <;> simp_all <;> (subst h; rfl)
  · cases h

theorem bootKids_mem {p n : Ptr} (h : n ∈ MTree.bootKids p) : bootParent n = some p ∧ (bootCell n).isSome = true ∧
    (p = .root ∨ ∃ i ∈ [3, 7, 1], p = .cell 0 i) := by
  rcases bootKids_cases h with ⟨rfl, h⟩ | ⟨rfl, rfl⟩ | ⟨rfl, rfl⟩ | ⟨rfl, rfl⟩
  · simp only [MTree.bootKids, List.mem_cons, List.not_mem_nil, or_false] at h
    rcases h with rfl | rfl | rfl | rfl | rfl | rfl | rfl | rfl | rfl <;> exact ⟨rfl, rfl, .inl rfl⟩
  · exact ⟨rfl, rfl, .inr ⟨3, by simp, rfl⟩⟩
  · exact ⟨rfl, rfl, .inr ⟨7, by simp, rfl⟩⟩
  · exact ⟨rfl, rfl, .inr ⟨1, by simp, rfl⟩⟩

theorem bootKids_nodup (p : Ptr) : (MTree.bootKids p).Nodup := by
  unfold MTree.bootKids
  split <;> decide

theorem bootDup {p n n' : Ptr} {c c' : Cell} (h : n ∈ MTree.bootKids p) (h' : n' ∈ MTree.bootKids p)
    (hc : bootCell n = some c) (hc' : bootCell n' = some c') (hv : c.val = c'.val) : n = n' := by
  rcases bootKids_cases h with ⟨rfl, h⟩ | ⟨rfl, rfl⟩ | ⟨rfl, rfl⟩ | ⟨rfl, rfl⟩
  · simp only [MTree.bootKids, List.mem_cons, List.not_mem_nil, or_false] at h h'
    have key : ∀ n ∈ MTree.bootKids .root, ∀ n' ∈ MTree.bootKids .root,
        (bootCell n).map (·.val) = (bootCell n').map (·.val) → n = n' := by decide
    exact key n (by simpa [MTree.bootKids] using h) n' (by simpa [MTree.bootKids] using h') (by rw [hc, hc']; simp [hv])
  all_goals (simp [MTree.bootKids] at h'; exact h'.symm)

/-- the initial state satisfies the invariant -/
theorem Inv.init {npb numBlocks : Nat} {g : Nat → Nat} (hn : 12 ≤ npb) (hb : 1 ≤ numBlocks) :
    Inv (Conc.init npb numBlocks g) := by
  have hnpb : 12 ≤ min npb 256 := by omega
  refine ⟨⟨hnpb, Nat.le_refl 1, rfl, bootChain, bootKids_nodup, ?_, ?_, ?_, rfl⟩, fun t => ?_, ?_⟩
  · intro p n hn
    obtain ⟨h1, h2, h3⟩ := bootKids_mem hn
    refine ⟨h1, h2, ?_⟩
    rcases h3 with rfl | ⟨i, hi, rfl⟩
    · exact ⟨[], .root⟩
    · exact bootPath _ rfl rfl i hi
  · intro n c hc
    obtain ⟨i, rfl, h1, h2⟩ := bootCell_cases hc
    have e : (BB.upd g 0 12) 0 = 12 := by simp [BB.upd]
    refine ⟨0, i, rfl, by omega, by show i < min npb 256; omega, ?_, hb, Nat.lt_succ_self 0⟩
    show i < (BB.upd g 0 12) 0
    omega
  · intro p n n' c c' h1 h2 h3 h4 _ h6 _ _ _
    exact bootDup h1 h2 h3 h4 h6
  · refine ⟨?_, ?_, by vac, by vac, by vac, ?_, (fun _ h => by cases h), by vac, by vac, by vac, by vac, by vac, by vac⟩
    · intro b h
      have h : (if t = 0 then some 0 else none) = some b := h
      split at h
      · cases h
        rename_i ht
        have e : (BB.upd g 0 12) 0 = 12 := by simp [BB.upd]
        refine ⟨ht.symm, Nat.lt_succ_self 0, hb, ?_⟩
        show (BB.upd g 0 12) 0 ≤ min npb 256
        omega
      · cases h
    · intro h; exact absurd rfl h
    · rintro (h | h) <;> cases h
  · intro n c hc
    left
    obtain ⟨i, rfl, h1, _⟩ := bootCell_cases hc
    have : ∀ i, i < 12 → ∃ q ∈ [Ptr.root, .cell 0 3, .cell 0 7, .cell 0 1], Ptr.cell 0 i ∈ MTree.bootKids q := by decide
    obtain ⟨q, _, h⟩ := this i h1
    exact ⟨q, h⟩

/-- the invariant holds in every reachable state -/
theorem Reach.inv {s : St} (h : Reach s) : Inv s := by
  induction h with
  | init hn hb => exact .init hn hb
  | step _ hok ih => exact ih.step _ _ hok

end Verif.Conc
