import Verif.Runtime.AbsLemmas
/-!
# C09 – C14: annotations

Vocabulary (`Verif/Runtime/Spec.lean`): `RtReach s` reachable state; `OpenRegions s l p`, `OpenUnaligned s l p`: the context path
stored at location `l` (a thread, the process, a channel); `Query s th a`: result of `Caliper::get(a)` on thread `th`;
`NoLoss s s'`: nothing was dropped for lack of space between `s` and `s'`; `a.Valid t`: `a` is an existing user attribute.
-/
namespace Verif.RT
open MTree

theorem valid_run {s s' : State} {c : Abs} (h : StepRes s s' c) {a : Attr} (ha : a.Valid s.tree) : a.Valid s'.tree := ha.ext h.2.1

/-- C09: after any properly nested sequence of begin/end calls (interleaved with any calls on other contexts and attribute
kinds), the context path lists exactly the regions begun and not ended, and a query returns the innermost open value. -/
theorem C09_regions_form_a_stack {s : State} (h : RtReach s) {T : Nat → Prop} {l : Loc} {ops : List Op} {st st0 : PathL}
    (hn : Nested T l ops st) (ha : ∀ op ∈ ops, op.attr.Valid s.tree) (hT : ∀ th, T th → s.err th = false)
    (nl : NoLoss s (run s ops)) (h0 : OpenRegions s l st0) :
    (∀ p, OpenRegions (run s ops) l p ↔ p = st0 ++ st) ∧
    (∀ th, T th → (run s ops).err th = false) ∧ (run s ops).dead = false ∧
    (∀ th a, a.Valid s.tree → a.kind = .region → scopeLoc a th = some l →
      Query (run s ops) th a = some (innermost a.id (st0 ++ st))) := by
  obtain ⟨c, R⟩ := h.rel
  have S := run_sim R ha nl
  have R' := S.1
  obtain ⟨h1, h2⟩ := abs_nested s.active s.isActive (c := c) (fun th ht => by rw [← R.err]; exact hT th ht) hn
  have e0 := (R.regions l st0).1 h0
  rw [← e0] at h1
  refine ⟨fun p => by rw [R'.regions, h1], fun th ht => by rw [R'.err]; exact h2 th ht, R'.dead, ?_⟩
  intro th a hva hk hl
  rw [R'.query (hva.ext S.2.1), hl]
  simp [Ctx.get, hk, h1]

/-- C10: a balanced sequence of calls of a thread (in particular `begin a v` … `end a` with a balanced sequence in between)
leaves every context path and every query on every thread and channel as it was, and raises no error. -/
theorem C10_balanced_calls_restore {s : State} (h : RtReach s) {th : Nat} {ops : List Op} (hb : Balanced th ops)
    (ha : ∀ op ∈ ops, op.attr.Valid s.tree) (he : s.err th = false) (nl : NoLoss s (run s ops)) :
    (∀ l p, OpenRegions (run s ops) l p ↔ OpenRegions s l p) ∧
    (∀ l p, OpenUnaligned (run s ops) l p ↔ OpenUnaligned s l p) ∧
    (∀ th' a, a.Valid s.tree → Query (run s ops) th' a = Query s th' a) ∧
    (∀ ch a, a.Valid s.tree → QueryCh (run s ops) ch a = QueryCh s ch a) ∧ (run s ops).err = s.err := by
  obtain ⟨c, R⟩ := h.rel
  have S := run_sim R ha nl
  have R' := S.1
  obtain ⟨h1, h2⟩ := abs_balanced hb s.active s.isActive (c := c) (by rw [← R.err]; exact he)
  refine ⟨fun l p => by rw [R'.regions, R.regions, h1], fun l p => by rw [R'.unaligned, R.unaligned, h1], fun th' a hv => ?_,
    fun ch a hv => ?_, by rw [R'.err, R.err, h2]⟩
  · rw [R'.query (hv.ext S.2.1), R.query hv, h1]
  · rw [R'.queryCh (hv.ext S.2.1), R.queryCh hv, h1]

/-- the value an end call for `a` on thread `th` would end, in terms of the observable context: the innermost region if it is
of attribute `a`; the innermost unaligned value of `a`; the current value of an as-value attribute -/
def Endable (s : State) (l : Loc) (th : Nat) (a : Attr) (v : Val) : Prop :=
  match a.kind with
  | .region => ∃ p, OpenRegions s l (p ++ [(a.id, v)])
  | .unaligned => ∃ p q, OpenUnaligned s l (p ++ [(a.id, v)] ++ q) ∧ ∀ e ∈ q, e.1 ≠ a.id
  | .value => Query s th a = some (some v)

theorem endable_iff {s : State} {c : Abs} (R : RelS s c) {l : Loc} {th : Nat} {a : Attr} (ha : a.Valid s.tree)
    (hl : scopeLoc a th = some l) {v : Val} : Endable s l th a v ↔ (c.ctx l).endable a = some v := by
  unfold Endable Ctx.endable
  cases hk : a.kind with
  | value =>
    simp only
    rw [R.query ha, hl]
    simp [Ctx.get, hk]
  | unaligned =>
    simp only
    constructor
    · rintro ⟨p, q, h1, h2⟩
      rw [R.unaligned] at h1
      rw [← h1]
      exact innermost_split h2
    · intro h
      rcases inner_cases a.id (c.ctx l).unal with h1 | ⟨l₁, w, l₂, h1, h2⟩
      · rw [innermost_none h1] at h; simp at h
      · rw [h1, innermost_split h2] at h
        cases h
        exact ⟨l₁, l₂, by rw [R.unaligned, h1], h2⟩
  | region =>
    simp only
    constructor
    · rintro ⟨p, h1⟩
      rw [R.regions] at h1
      rw [← h1]; simp
    · intro h
      rcases snoc_cases (c.ctx l).region with h1 | ⟨l', x, w, h1⟩
      · rw [h1] at h; simp at h
      · rw [h1] at h
        simp at h
        obtain ⟨rfl, rfl⟩ := h
        exact ⟨l', by rw [R.regions, h1]⟩

/-- C11: an end call without a matching open value changes nothing except that it marks the thread: no context, no event. -/
theorem C11_mismatched_end {s : State} (h : RtReach s) {th : Nat} {a : Attr} {l : Loc} (ha : a.Valid s.tree)
    (he : s.err th = false) (hl : scopeLoc a th = some l) :
    ((∀ v, ¬ Endable s l th a v) → step s (.endR th a) = { s with err := BB.upd s.err th true }) ∧
    (∀ w, (∀ v, Endable s l th a v → v ≠ w) → step s (.endCheck th a w) = { s with err := BB.upd s.err th true }) := by
  obtain ⟨c, R⟩ := h.rel
  obtain ⟨m, e, h1, h2⟩ := load_sim R.inv (R.ctx l) ha
  constructor
  · intro hno
    have hx : e.node = none := by
      rcases h2 with h2 | ⟨v, h2, _⟩
      · exact h2.2
      · exact absurd ((endable_iff R ha hl).2 h2) (hno v)
    unfold step
    rw [if_neg (by simp [R.dead])]
    simp only [Bool.false_eq_true, if_false, endR, endCore, he, hl, h1]
    rw [if_pos (.inl hx)]
  · intro w hno
    have hx : e.node = none ∨ (some w).any (fun d => decide (d ≠ e.val)) = true := by
      rcases h2 with h2 | ⟨v, h2, _, h3, _⟩
      · exact .inl h2.2
      · right
        have := hno v ((endable_iff R ha hl).2 h2)
        simp [h3, Ne.symm this]
    unfold step
    rw [if_neg (by simp [R.dead])]
    simp only [Bool.false_eq_true, if_false, endCheck, endCore, he, hl, h1]
    rw [if_pos hx]

/-- the calls that have no channel argument -/
def Op.plain : Op → Bool
  | .begin .. | .endR .. | .endCheck .. | .set .. => true
  | _ => false

theorem step_err_mono (s : State) (op : Op) (th : Nat) (h : s.err th = true) : (step s op).err th = true := by
  have hput : ∀ (s : State) l r, (s.put l r).err = s.err := by
    intro s l r; obtain ⟨t, o⟩ := r; cases o <;> cases l <;> rfl
  have hend : ∀ th' a ck, (endCore s th' a ck).err th = true := by
    intro th' a ck
    unfold endCore
    split
    · exact h
    split
    · exact h
    split
    · exact h
    split
    · simp [BB.upd, h]
    · simp [hput, h]
  unfold step
  split
  · exact h
  cases op with
  | endR th' a => exact hend th' a none
  | endCheck th' a v => exact hend th' a (some v)
  | begin th' a v =>
    simp only [begin]
    split
    · exact h
    split <;> split <;> simp [hput, h]
  | set th' a v =>
    simp only [set]
    split
    · exact h
    split <;> simp [hput, h]
  | beginCh th' ch a v =>
    simp only [beginCh]
    split <;> simp [hput, h]
  | setCh th' ch a v => simp [setCh, hput, h]
  | endCh th' ch a =>
    simp only [endCh]
    split
    · exact h
    split
    · simp [BB.upd, h]
    · simp [hput, h]

/-- C11: the mark is permanent, and while it is set none of the thread's calls changes anything at all (context of any thread,
tree, events), whatever the other threads do in between. -/
theorem C11_frozen_forever (s : State) (ops : List Op) (th : Nat) (h : s.err th = true) :
    (run s ops).err th = true ∧ ∀ op, op.thread = th → op.plain = true → step (run s ops) op = run s ops := by
  have h1 : (run s ops).err th = true := by
    induction ops generalizing s with
    | nil => exact h
    | cons op ops ih => exact ih _ (step_err_mono s op th h)
  refine ⟨h1, fun op ht hp => ?_⟩
  generalize run s ops = s' at *
  unfold step
  split
  · rfl
  cases op <;> simp only [Op.plain, Bool.false_eq_true] at hp <;> simp only [Op.thread] at ht <;> subst ht <;>
    simp [begin, set, endR, endCheck, endCore, h1]

/-- C11: in particular a whole later sequence of calls of that thread has no effect. -/
theorem C11_no_effect (s : State) (ops : List Op) (th : Nat) (h : s.err th = true)
    (ho : ∀ op ∈ ops, op.thread = th ∧ op.plain = true) : run s ops = s := by
  induction ops with
  | nil => rfl
  | cons op ops ih =>
    have := (C11_frozen_forever s [] th h).2 op (ho op (by simp)).1 (ho op (by simp)).2
    simp only [run] at this ⊢
    rw [this]
    exact ih (fun o hm => ho o (by simp [hm]))

/-- C12: ending an unaligned attribute removes exactly its innermost open value; the other open unaligned values stay, in
order; regions and the other attributes' values are unchanged; the event carries the ended value. -/
theorem C12_unaligned_end {s : State} (h : RtReach s) {th : Nat} {a : Attr} {l : Loc} (ha : a.Valid s.tree)
    (he : s.err th = false) (hl : scopeLoc a th = some l) (hk : a.kind = .unaligned) {l₁ l₂ : PathL} {v : Val}
    (h0 : OpenUnaligned s l (l₁ ++ [(a.id, v)] ++ l₂)) (h2 : ∀ e ∈ l₂, e.1 ≠ a.id) (nl : NoLoss s (step s (.endR th a))) :
    (∀ p, OpenUnaligned (step s (.endR th a)) l p ↔ p = l₁ ++ l₂) ∧
    (∀ l' p, OpenRegions (step s (.endR th a)) l' p ↔ OpenRegions s l' p) ∧
    (∀ l' p, l' ≠ l → (OpenUnaligned (step s (.endR th a)) l' p ↔ OpenUnaligned s l' p)) ∧
    (∀ th' b, b.Valid s.tree → b.id ≠ a.id → Query (step s (.endR th a)) th' b = Query s th' b) ∧
    (step s (.endR th a)).err = s.err ∧
    (a.skipEvents = false → (step s (.endR th a)).log = s.log ++ s.active.map fun ch => ⟨.preEnd, ch, th, a.id, v⟩) := by
  obtain ⟨c, R⟩ := h.rel
  have S := step_sim R (op := .endR th a) ha nl
  have R' := S.1
  have e0 := (R.unaligned l _).1 h0
  have hen : (c.ctx l).endable a = some v := by
    simp only [Ctx.endable, hk]; rw [← e0]; exact innermost_split h2
  have hstep : c.step s.active s.isActive (.endR th a) = (c.emitAll s.active .preEnd th a v).put l ((c.ctx l).endR a) :=
    abs_endCore_ok _ (by rw [← R.err]; exact he) hl hen (.inl rfl)
  rw [hstep] at R'
  have hnew : (c.ctx l).endR a = { (c.ctx l) with unal := l₁ ++ l₂ } := by
    simp only [Ctx.endR, hk]; rw [← e0, eraseInner_split h2]
  rw [hnew] at R'
  refine ⟨fun p => by rw [R'.unaligned]; simp, fun l' p => ?_, fun l' p hne => ?_, fun th' b hb hid => ?_, ?_, fun hs => ?_⟩
  · rw [R'.regions, R.regions]
    by_cases e : l' = l
    · subst e; simp
    · rw [put_ctx_ne _ _ e]; simp
  · rw [R'.unaligned, R.unaligned, put_ctx_ne _ _ hne]; simp
  · rw [R'.query (hb.ext S.2.1), R.query hb]
    cases hlb : scopeLoc b th' with
    | none => rfl
    | some lb =>
      simp only [Option.bind_some]
      by_cases e : lb = l
      · subst e
        rw [put_ctx_eq]
        unfold Ctx.get
        cases b.kind with
        | value => rfl
        | region => rfl
        | unaligned =>
          simp only
          rw [← e0]
          unfold innermost
          congr 2
          simp only [List.reverse_append, List.find?_append, List.reverse_cons, List.reverse_nil, List.nil_append]
          congr 1
          rw [List.find?_cons_of_neg (by simpa using Ne.symm hid)]
          simp
      · rw [put_ctx_ne _ _ e]; simp
  · rw [R'.err, R.err]; simp
  · rw [R'.log, R.log]
    simp [Abs.put, Abs.emitAll, hs]

theorem innermost_append (b : Nat) (x y : PathL) : innermost b (x ++ y) = (innermost b y).or (innermost b x) := by
  unfold innermost
  rw [List.reverse_append, List.find?_append]
  cases List.find? (fun e => decide (e.1 = b)) y.reverse <;> simp

theorem innermost_set_ne {a b : Nat} (hab : b ≠ a) (l : PathL) (v : Val) :
    innermost b (eraseInner a l ++ [(a, v)]) = innermost b l := by
  have h1 : ∀ w, innermost b [(a, w)] = none := fun w => innermost_none (by simpa using Ne.symm hab)
  rcases inner_cases a l with h | ⟨l₁, w, l₂, rfl, h⟩
  · have : eraseInner a l = l := by
      unfold eraseInner
      rw [List.eraseP_of_forall_not]
      · simp
      · intro e he; simpa using h e (by simpa using he)
    rw [this, innermost_append, h1]; rfl
  · rw [eraseInner_split h]
    simp only [innermost_append, h1]
    simp

/-- C13: `set` makes queries for the attribute return the new value; all other attributes' queries and all other contexts are
unchanged; in the context path exactly the innermost previous value of the attribute is dropped. -/
theorem C13_set {s : State} (h : RtReach s) {th : Nat} {a : Attr} {l : Loc} (v : Val) (ha : a.Valid s.tree)
    (he : s.err th = false) (hl : scopeLoc a th = some l) (nl : NoLoss s (step s (.set th a v))) :
    (∀ th', scopeLoc a th' = some l → Query (step s (.set th a v)) th' a = some (some v)) ∧
    (∀ th' b, b.Valid s.tree → b.id ≠ a.id → Query (step s (.set th a v)) th' b = Query s th' b) ∧
    (∀ l' p, l' ≠ l ∨ a.kind ≠ .region → (OpenRegions (step s (.set th a v)) l' p ↔ OpenRegions s l' p)) ∧
    (∀ l' p, l' ≠ l ∨ a.kind ≠ .unaligned → (OpenUnaligned (step s (.set th a v)) l' p ↔ OpenUnaligned s l' p)) ∧
    (a.kind = .region → ∀ p q, OpenRegions s l p → (OpenRegions (step s (.set th a v)) l q ↔ q = eraseInner a.id p ++ [(a.id, v)])) ∧
    (a.kind = .unaligned → ∀ p q, OpenUnaligned s l p →
      (OpenUnaligned (step s (.set th a v)) l q ↔ q = eraseInner a.id p ++ [(a.id, v)])) := by
  obtain ⟨c, R⟩ := h.rel
  have S := step_sim R (op := .set th a v) ha nl
  have R' := S.1
  have hstep : c.step s.active s.isActive (.set th a v) = (c.emitAll s.active .preSet th a v).put l ((c.ctx l).set a v) := by
    simp only [Abs.step, hl]
    rw [← R.err, he]
    simp
  rw [hstep] at R'
  refine ⟨fun th' hl' => ?_, fun th' b hb hid => ?_, fun l' p hne => ?_, fun l' p hne => ?_, fun hk p q hp => ?_, fun hk p q hp => ?_⟩
  · rw [R'.query (ha.ext S.2.1), hl']
    simp only [Option.bind_some, put_ctx_eq]
    congr 1
    unfold Ctx.get Ctx.set
    cases a.kind <;> simp [updV, innermost]
  · rw [R'.query (hb.ext S.2.1), R.query hb]
    cases hlb : scopeLoc b th' with
    | none => rfl
    | some lb =>
      simp only [Option.bind_some]
      by_cases e : lb = l
      · subst e
        rw [put_ctx_eq]
        congr 1
        unfold Ctx.get Ctx.set
        cases a.kind <;> cases b.kind <;> simp [updV, hid, innermost_set_ne hid]
      · rw [put_ctx_ne _ _ e]; simp
  · rw [R'.regions, R.regions]
    by_cases e : l' = l
    · subst e
      rw [put_ctx_eq, set_region _ _ _ (by rcases hne with h | h; exact absurd rfl h; exact h)]
    · rw [put_ctx_ne _ _ e]; simp
  · rw [R'.unaligned, R.unaligned]
    by_cases e : l' = l
    · subst e
      rw [put_ctx_eq]
      have : a.kind ≠ .unaligned := by rcases hne with h | h; exact absurd rfl h; exact h
      have : ((c.ctx l').set a v).unal = (c.ctx l').unal := by unfold Ctx.set; cases hk : a.kind <;> simp_all
      rw [this]
    · rw [put_ctx_ne _ _ e]; simp
  · rw [R.regions] at hp
    rw [R'.regions, put_ctx_eq, hp]
    simp [Ctx.set, hk]
  · rw [R.unaligned] at hp
    rw [R'.unaligned, put_ctx_eq, hp]
    simp [Ctx.set, hk]

theorem set_set (c : Ctx) (a : Attr) (v w : Val) : (c.set a v).set a w = c.set a w := by
  unfold Ctx.set
  cases a.kind with
  | value => simp only; congr 1; funext j; simp only [updV]; split <;> rfl
  | unaligned => simp [eraseInner_snoc]
  | region => simp [eraseInner_snoc]

/-- C13: setting twice is the same as setting the last value. -/
theorem C13_set_twice {s : State} (h : RtReach s) {th : Nat} {a : Attr} (v w : Val) (ha : a.Valid s.tree)
    (nl1 : NoLoss s (run s [.set th a v, .set th a w])) (nl2 : NoLoss s (run s [.set th a w])) :
    (∀ l p, OpenRegions (run s [.set th a v, .set th a w]) l p ↔ OpenRegions (run s [.set th a w]) l p) ∧
    (∀ l p, OpenUnaligned (run s [.set th a v, .set th a w]) l p ↔ OpenUnaligned (run s [.set th a w]) l p) ∧
    (∀ th' b, b.Valid s.tree → Query (run s [.set th a v, .set th a w]) th' b = Query (run s [.set th a w]) th' b) := by
  obtain ⟨c, R⟩ := h.rel
  have S1 := run_sim R (ops := [.set th a v, .set th a w]) (by simp; exact ⟨ha, ha⟩) nl1
  have S2 := run_sim R (ops := [.set th a w]) (by simp; exact ha) nl2
  have key : (c.run s.active s.isActive [.set th a v, .set th a w]).ctx = (c.run s.active s.isActive [.set th a w]).ctx := by
    simp only [Abs.run, Abs.step]
    cases hE : c.err th with
    | true => simp [hE]
    | false =>
      cases hl : scopeLoc a th with
      | none => simp [hE]
      | some l =>
        simp only [hE, abs_put_err, abs_emitAll_err, put_ctx_eq, Bool.false_eq_true, if_false, abs_emitAll_ctx, set_set]
        funext l'
        by_cases e : l' = l
        · subst e; simp
        · simp [put_ctx_ne _ _ e]
  refine ⟨fun l p => ?_, fun l p => ?_, fun th' b hb => ?_⟩
  · rw [S1.1.regions, S2.1.regions, key]
  · rw [S1.1.unaligned, S2.1.unaligned, key]
  · rw [S1.1.query (hb.ext S1.2.1), S2.1.query (hb.ext S2.2.1), key]

/-- C14: any interleaving of calls that work on other contexts leaves a context alone: what thread `th` (or the process, or a
channel) has open and what queries report there is unchanged. -/
theorem C14_isolation {s : State} (h : RtReach s) {ops : List Op} (ha : ∀ op ∈ ops, op.attr.Valid s.tree)
    (nl : NoLoss s (run s ops)) {l : Loc} (hl : ∀ op ∈ ops, op.loc ≠ some l) :
    (∀ p, OpenRegions (run s ops) l p ↔ OpenRegions s l p) ∧ (∀ p, OpenUnaligned (run s ops) l p ↔ OpenUnaligned s l p) ∧
    (∀ th a, a.Valid s.tree → scopeLoc a th = some l → Query (run s ops) th a = Query s th a) ∧
    (∀ ch a, a.Valid s.tree → l = .channel ch → QueryCh (run s ops) ch a = QueryCh s ch a) := by
  obtain ⟨c, R⟩ := h.rel
  have S := run_sim R ha nl
  have key : (c.run s.active s.isActive ops).ctx l = c.ctx l := by
    clear S R nl ha
    generalize s.active = ac, s.isActive = ia at *
    induction ops generalizing c with
    | nil => rfl
    | cons op ops ih =>
      simp only [Abs.run]
      rw [ih (fun o ho => hl o (by simp [ho]))]
      exact abs_step_other _ _ _ _ (hl op (by simp))
  refine ⟨fun p => by rw [S.1.regions, R.regions, key], fun p => by rw [S.1.unaligned, R.unaligned, key], fun th a hv hs => ?_,
    fun ch a hv hc => ?_⟩
  · rw [S.1.query (hv.ext S.2.1), R.query hv, hs]; simp [key]
  · rw [S.1.queryCh (hv.ext S.2.1), R.queryCh hv, ← hc, key]

/-- C14: the blackboard of a context is not touched by calls that work on other contexts, in any state whatsoever (also when
calls fail for lack of space). -/
theorem C14_boards_untouched (s : State) (ops : List Op) {l : Loc} (h : ∀ op ∈ ops, op.loc ≠ some l) :
    (run s ops).board l = s.board l := run_board_other s ops h

/-- C14: calls for thread-scope attributes on other threads never change what a thread reports, and no thread's calls for
thread-scope attributes change what is reported for process-scope attributes. -/
theorem C14_threads {s : State} (h : RtReach s) {ops : List Op} (ha : ∀ op ∈ ops, op.attr.Valid s.tree)
    (nl : NoLoss s (run s ops)) (hthr : ∀ op ∈ ops, op.attr.prop &&& 60#32 = 20#32) (hpl : ∀ op ∈ ops, op.plain = true) {th : Nat}
    (hth : ∀ op ∈ ops, op.thread ≠ th) (a : Attr) (hv : a.Valid s.tree) : Query (run s ops) th a = Query s th a := by
  have hloc : ∀ op ∈ ops, op.loc = some (.thread op.thread) := by
    intro op ho
    have h1 : op.attr.scope = scopeThread := hthr op ho
    have h2 := hpl op ho
    cases op <;> simp only [Op.plain, Bool.false_eq_true] at h2 <;> simp only [Op.attr] at h1 <;> simp [Op.loc, scopeLoc, h1, Op.thread]
  cases hs : scopeLoc a th with
  | none => simp [Query, getEntry, hs]
  | some l =>
    refine (C14_isolation h ha nl (l := l) ?_).2.2.1 th a hv hs
    intro op ho
    rw [hloc op ho]
    intro e
    cases e
    unfold scopeLoc at hs
    split at hs
    · simp at hs; exact hth op ho hs.symm
    · split at hs <;> simp at hs

/-- C13, C14: how an attribute's values are kept and whose context they belong to is decided by the documented bits of its properties: as value
(1), unaligned (1024), thread scope (20) and process scope (12) in the mask 60. -/
theorem C14_properties (a : Attr) (th : Nat) :
    a.kind = KindOf a.prop ∧ (scopeLoc a th = some (.thread th) ↔ a.prop &&& 60#32 = 20#32) ∧
    (scopeLoc a th = some .process ↔ a.prop &&& 60#32 = 12#32) := by
  refine ⟨?_, ?_, ?_⟩
  · have h0 : a.asValue = a.prop.getLsbD 0 := by
      unfold Attr.asValue
      generalize a.prop = p
      by_cases h : p.getLsbD 0 = true
      · rw [h]; simp only [ne_eq, decide_eq_true_eq]
        intro e
        have h' : p[0] = true := by rw [← BitVec.getLsbD_eq_getElem]; exact h
        have := congrArg (fun x : BitVec 32 => x.getLsbD 0) e
        simp [h'] at this
      · simp only [Bool.not_eq_true] at h
        rw [h]
        simp only [ne_eq, decide_eq_false_iff_not, not_not]
        apply BitVec.eq_of_getLsbD_eq
        intro i hi
        rw [BitVec.getLsbD_and]
        by_cases h1 : i = 0
        · subst h1; rw [h]; simp
        · have : ∀ i < 32, i ≠ 0 → (1#32).getLsbD i = false := by decide
          rw [this i hi h1]; simp
    have h10 : a.unaligned = a.prop.getLsbD 10 := by
      unfold Attr.unaligned
      generalize a.prop = p
      by_cases h : p.getLsbD 10 = true
      · rw [h]; simp only [ne_eq, decide_eq_true_eq]
        intro e
        have h' : p[10] = true := by rw [← BitVec.getLsbD_eq_getElem]; exact h
        have := congrArg (fun x : BitVec 32 => x.getLsbD 10) e
        simp [h'] at this
      · simp only [Bool.not_eq_true] at h
        rw [h]
        simp only [ne_eq, decide_eq_false_iff_not, not_not]
        apply BitVec.eq_of_getLsbD_eq
        intro i hi
        rw [BitVec.getLsbD_and]
        by_cases h1 : i = 10
        · subst h1; rw [h]; simp
        · have : ∀ i < 32, i ≠ 10 → (1024#32).getLsbD i = false := by decide
          rw [this i hi h1]; simp
    unfold Attr.kind KindOf
    rw [h0, h10]
  · unfold scopeLoc Attr.scope scopeThread scopeProcess
    by_cases h : a.prop &&& 60#32 = 20#32
    · simp [h]
    · simp only [h, if_false, iff_false]
      split <;> simp
  · unfold scopeLoc Attr.scope scopeThread scopeProcess
    by_cases h : a.prop &&& 60#32 = 20#32
    · simp [h]
    · simp only [h, if_false]
      split <;> simp_all

/-- C14: process-scope values are reported on all threads: a value set or begun on one thread is what every thread reports. -/
theorem C14_process_values_shared {s : State} (h : RtReach s) {th : Nat} {a : Attr} (v : Val) (ha : a.Valid s.tree)
    (hp : a.prop &&& 60#32 = 12#32) (he : s.err th = false) :
    (∀ th₁ th₂, Query s th₁ a = Query s th₂ a) ∧
    (NoLoss s (step s (.set th a v)) → ∀ th', Query (step s (.set th a v)) th' a = some (some v)) ∧
    (NoLoss s (step s (.begin th a v)) → ∀ th', Query (step s (.begin th a v)) th' a = some (some v)) := by
  have hl : ∀ th, scopeLoc a th = some .process := by
    intro th; have hp : a.scope = scopeProcess := hp
    simp only [scopeLoc, hp]; rw [if_neg (by decide), if_pos trivial]
  refine ⟨fun t1 t2 => by simp [Query, getEntry, hl], fun nl th' => (C13_set h v ha he (hl th) nl).1 th' (hl th'), fun nl th' => ?_⟩
  obtain ⟨c, R⟩ := h.rel
  have S := step_sim R (op := .begin th a v) ha nl
  rw [S.1.query (ha.ext S.2.1), hl]
  have : c.step s.active s.isActive (.begin th a v) = ((c.emitAll s.active .preBegin th a v).put .process
      ((c.ctx .process).begin a v)).emitAll s.active .postBegin th a v := by
    simp only [Abs.step, hl]
    rw [← R.err, he]
    simp
  rw [this]
  simp only [abs_emitAll_ctx, Option.bind_some, put_ctx_eq]
  congr 1
  unfold Ctx.get Ctx.begin
  cases a.kind <;> simp [updV, innermost]

/-! ### a concrete history

A tree with four attributes: `a` and `b` are region attributes, `u` unaligned, `w` as-value, all of thread scope. -/

/-- start-up tree plus four attribute nodes (ids 12 to 15) -/
def exTree : Tree :=
  let t := MTree.init 64 4 (fun _ => 0)
  let t := (getChild t 0 8 (.ofInt 1) (some (.cell 0 1))).1
  let t := (getChild t 0 8 (.ofInt 2) (some (.cell 0 1))).1
  let t := (getChild t 0 8 (.ofInt 3) (some (.cell 0 1))).1
  (getChild t 0 8 (.ofInt 4) (some (.cell 0 1))).1

theorem exTree_reach : MTree.Reach exTree := by
  have h0 : MTree.Reach (MTree.init 64 4 (fun _ => 0)) := .init (by omega) (by omega)
  have h1 := MTree.Reach.step (q := .getChild 0 8 (.ofInt 1) (some (.cell 0 1))) h0 (.inr (by decide)) (by decide)
  have h2 := MTree.Reach.step (q := .getChild 0 8 (.ofInt 2) (some (.cell 0 1))) h1 (.inr (by decide)) (by decide)
  have h3 := MTree.Reach.step (q := .getChild 0 8 (.ofInt 3) (some (.cell 0 1))) h2 (.inr (by decide)) (by decide)
  exact MTree.Reach.step (q := .getChild 0 8 (.ofInt 4) (some (.cell 0 1))) h3 (.inr (by decide)) (by decide)

/-- region attribute, thread scope -/
def exA : Attr := ⟨.cell 0 12, 12, 20#32⟩
/-- region attribute, thread scope -/
def exB : Attr := ⟨.cell 0 13, 13, 20#32⟩
/-- unaligned attribute, thread scope -/
def exU : Attr := ⟨.cell 0 14, 14, 1044#32⟩
/-- as-value attribute, process scope -/
def exW : Attr := ⟨.cell 0 15, 15, 13#32⟩

theorem exValid : exA.Valid exTree ∧ exB.Valid exTree ∧ exU.Valid exTree ∧ exW.Valid exTree :=
  ⟨⟨.inr (by decide), by decide, by decide, by decide, by decide, by decide⟩,
   ⟨.inr (by decide), by decide, by decide, by decide, by decide, by decide⟩,
   ⟨.inr (by decide), by decide, by decide, by decide, by decide, by decide⟩,
   ⟨.inr (by decide), by decide, by decide, by decide, by decide, by decide⟩⟩

/-- initial state with one active channel -/
def exS : State := init exTree [7] (fun c => c == 7)

/-- calls of thread 3, interleaved with thread 5 -/
def exOps : List Op :=
  [.begin 3 exA (.ofInt 10), .begin 5 exA (.ofInt 11), .begin 3 exB (.ofInt 20), .set 3 exW (.ofInt 5), .endCheck 3 exB (.ofInt 20),
   .begin 3 exU (.ofInt 30)]

/-- `NoLoss` can be checked on the locations the calls work on -/
theorem noLoss_of (s : State) (ops : List Op) (ls : List Loc) (h1 : ∀ op ∈ ops, ∀ l ∈ op.loc, l ∈ ls)
    (h2 : (run s ops).tree.fails = s.tree.fails) (h3 : ∀ l ∈ ls, ((run s ops).board l).skipped = (s.board l).skipped) :
    NoLoss s (run s ops) := by
  refine ⟨h2, fun l => ?_⟩
  by_cases hl : l ∈ ls
  · exact h3 l hl
  · rw [run_board_other s ops (fun op ho e => hl (h1 op ho l (by rw [e]; rfl)))]

theorem exOps_valid : ∀ op ∈ exOps, op.attr.Valid exS.tree := by
  intro op ho
  have := exValid
  simp only [exOps, List.mem_cons, List.not_mem_nil, or_false] at ho
  rcases ho with rfl | rfl | rfl | rfl | rfl | rfl
  · exact this.1
  · exact this.1
  · exact this.2.1
  · exact this.2.2.2
  · exact this.2.1
  · exact this.2.2.1

/-- the hypotheses of `C09_regions_form_a_stack` are met by this history -/
example : RtReach exS ∧ (∀ op ∈ exOps, op.attr.Valid exS.tree) ∧ OpenRegions exS (.thread 3) [] ∧ NoLoss exS (run exS exOps) ∧
    Nested (· = 3) (.thread 3) exOps [(12, .ofInt 10)] := by
  refine ⟨.init exTree_reach _ _, exOps_valid, ⟨default, by decide, Path.root⟩,
    noLoss_of _ _ [.thread 3, .thread 5, .process] (by decide) (by decide) (by decide), ?_⟩
  have h1 : Nested (· = 3) (.thread 3) [.begin 3 exA (.ofInt 10)] [(12, .ofInt 10)] :=
    Nested.begin (a := exA) .nil rfl (by decide) (by decide)
  have h2 := Nested.other (op := .begin 5 exA (.ofInt 11)) h1 (.inl (by decide)) (by decide)
  have h3 := Nested.begin (th := 3) (a := exB) (v := .ofInt 20) h2 rfl (by decide) (by decide)
  have h4 := Nested.other (op := .set 3 exW (.ofInt 5)) h3 (.inl (by decide)) (by decide)
  have h5 := Nested.endCheck (th := 3) (a := exB) (v := .ofInt 20) (st := [(12, .ofInt 10)]) h4 rfl (by decide) (by decide)
  exact Nested.other (op := .begin 3 exU (.ofInt 30)) h5 (.inr (by decide)) (fun _ => rfl)

/-- a balanced sequence with region and unaligned attributes, without loss: `C10_balanced_calls_restore` applies -/
example : Balanced 3 [.begin 3 exA (.ofInt 1), .begin 3 exU (.ofInt 2), .begin 3 exA (.ofInt 1), .endR 3 exA, .endCheck 3 exU (.ofInt 2), .endR 3 exA] ∧
    NoLoss exS (run exS [.begin 3 exA (.ofInt 1), .begin 3 exU (.ofInt 2), .begin 3 exA (.ofInt 1), .endR 3 exA, .endCheck 3 exU (.ofInt 2), .endR 3 exA]) :=
  ⟨.wrap exA _ (by decide) (.wrapCheck exU _ (by decide) (.wrap exA _ (by decide) .nil)),
   noLoss_of _ _ [.thread 3] (by decide) (by decide) (by decide)⟩

/-- a mismatched end: `a` is open, `b` is not; the thread is marked and its later calls are ignored -/
example : Query (run exS [.begin 3 exA (.ofInt 1), .endR 3 exB, .endR 3 exA, .set 3 exW (.ofInt 1)]) 3 exA = some (some (.ofInt 1)) ∧
    (run exS [.begin 3 exA (.ofInt 1), .endR 3 exB, .endR 3 exA, .set 3 exW (.ofInt 1)]).log =
      [⟨.preBegin, 7, 3, 12, .ofInt 1⟩, ⟨.postBegin, 7, 3, 12, .ofInt 1⟩] ∧
    (run exS [.begin 3 exA (.ofInt 1), .endR 3 exB]).err 3 = true := by decide

/-- unaligned values ended out of order: `C12_unaligned_end` applies -/
example : OpenUnaligned (run exS [.begin 3 exU (.ofInt 1), .begin 3 ⟨.cell 0 15, 15, 1044#32⟩ (.ofInt 2)]) (.thread 3)
    ([] ++ [(exU.id, .ofInt 1)] ++ [(15, .ofInt 2)]) ∧
    NoLoss (run exS [.begin 3 exU (.ofInt 1), .begin 3 ⟨.cell 0 15, 15, 1044#32⟩ (.ofInt 2)])
      (run (run exS [.begin 3 exU (.ofInt 1), .begin 3 ⟨.cell 0 15, 15, 1044#32⟩ (.ofInt 2)]) [.endR 3 exU]) ∧
    Query (run exS [.begin 3 exU (.ofInt 1), .begin 3 ⟨.cell 0 15, 15, 1044#32⟩ (.ofInt 2), .endR 3 exU]) 3 ⟨.cell 0 15, 15, 1044#32⟩
      = some (some (.ofInt 2)) := by
  refine ⟨?_, noLoss_of _ _ [.thread 3] (by decide) (by decide) (by decide), by decide⟩
  obtain ⟨c, R⟩ := (RtReach.init exTree_reach [7] (fun c => c == 7)).rel
  have hv : ∀ op ∈ [Op.begin 3 exU (.ofInt 1), .begin 3 ⟨.cell 0 15, 15, 1044#32⟩ (.ofInt 2)], op.attr.Valid exS.tree := by
    intro op ho
    simp only [List.mem_cons, List.not_mem_nil, or_false] at ho
    rcases ho with rfl | rfl
    · exact exValid.2.2.1
    · exact exValid.2.2.2
  have S := run_sim (RelS.init (t := exTree) R.inv R.tdead [7] (fun c => c == 7)) hv
    (noLoss_of _ _ [.thread 3] (by decide) (by decide) (by decide))
  exact (S.1.unaligned (.thread 3) _).2 (by decide)

/-- `set` on a path attribute with an outer and an inner value -/
example : NoLoss (run exS [.begin 3 exA (.ofInt 1), .begin 3 exB (.ofInt 2)])
      (run (run exS [.begin 3 exA (.ofInt 1), .begin 3 exB (.ofInt 2)]) [.set 3 exA (.ofInt 9)]) ∧
    Query (run exS [.begin 3 exA (.ofInt 1), .begin 3 exB (.ofInt 2), .set 3 exA (.ofInt 9)]) 3 exB = some (some (.ofInt 2)) ∧
    Query (run exS [.begin 3 exA (.ofInt 1), .begin 3 exB (.ofInt 2), .set 3 exA (.ofInt 9)]) 3 exA = some (some (.ofInt 9)) :=
  ⟨noLoss_of _ _ [.thread 3] (by decide) (by decide) (by decide), by decide, by decide⟩

end Verif.RT
