import Verif.Serv.OmptHist
import Verif.Props.Runtime
/-!
# C107: OpenMP constructs as annotations
-/
namespace Verif.Serv.Ompt
open Verif RT MTree

theorem vals_nil {a : Nat} {l : PathL} (h : innermost a l = none) : vals a l = [] := by
  rw [innermost_vals] at h
  simpa using h

theorem query_thread {s : State} {c : Abs} (R : RelS s c) {a : Attr} {th : Nat} (ha : a.Valid s.tree)
    (hl : scopeLoc a th = some (.thread th)) : Query s th a = some ((c.ctx (.thread th)).get a) := by
  rw [R.query ha, hl]; rfl

theorem get_region {x : Ctx} {a : Attr} (h : a.kind = .region) : x.get a = (vals a.id x.region).getLast? := by
  simp [Ctx.get, h, innermost_vals]

/-- values of constructs of one kind -/
theorem vals_cons {A : Attrs} {cs : List Con} {a : Nat} {α : Type} (f : Con → Option α) (g : α → Val)
    (h : ∀ k ∈ cs, (k.entry A).1 = a → ∃ x, f k = some x ∧ (k.entry A).2 = g x) (h' : ∀ k ∈ cs, (k.entry A).1 ≠ a → f k = none) :
    vals a (cs.map (Con.entry A)) = (cs.filterMap f).map g := by
  induction cs with
  | nil => rfl
  | cons k cs ih =>
    have i := ih (fun k hk => h k (by simp [hk])) (fun k hk => h' k (by simp [hk]))
    by_cases hk : (k.entry A).1 = a
    · obtain ⟨x, h1, h2⟩ := h k (by simp) hk
      simp only [vals, List.map_cons, List.filter_cons, hk, decide_true, if_true, List.filterMap_cons, h1] at i ⊢
      rw [i, h2]
    · have := h' k (by simp) hk
      simp only [vals, List.map_cons, List.filter_cons, hk, decide_false, List.filterMap_cons, this] at i ⊢
      simpa using i

/-- C107: OpenMP constructs appear in the context of the thread that executes them.  In every history in which the constructs of a thread and
its region annotations nest properly, with any other threads doing anything at all in between, no callback freezes the thread; its region
stack is the stack of its open constructs and regions; each OpenMP attribute has the value of the innermost open construct of its kind; and
callbacks that come while Caliper is not available are counted and do nothing. -/
theorem C107_constructs_partial {A : Attrs} {s : OState} {th : Nat} (hr : RtReach s.rt) (M : Made A s.rt.tree) (hA : s.attrs = some A)
    (he : s.rt.err th = false) {r0 : PathL} (h0 : OpenRegions s.rt (.thread th) r0)
    (hq : ∀ a ∈ [A.region, A.sync, A.work, A.threadType, A.procId, A.threadId, A.numThreads], Query s.rt th a = some none)
    {h : List (Nat × Act)} {d : Doing} {n : Nat} (H : Hist A th h d n)
    (hv : ∀ x ∈ h, ∀ op, x.2 = .user op → op.attr.Valid s.rt.tree) (nl : NoLoss s.rt (runO s h).rt) :
    (runO s h).rt.err th = false ∧ (runO s h).rt.dead = false ∧
    (∀ p, OpenRegions (runO s h).rt (.thread th) p ↔ p = r0 ++ d.cons.map (Con.entry A)) ∧
    Reports A (runO s h).rt th d ∧ (runO s h).skipped = s.skipped + n := by
  obtain ⟨c0, R0⟩ := hr.rel
  have D := M.diff
  have kR := kindR M.nested.1 th
  have kS := kindR M.nested.2.1 th
  have kW := kindR M.nested.2.2 th
  have kT := kindU (.inl M.labels.1) th
  have kP := kindU (.inr M.labels.2.1) th
  have kD := kindU (.inr M.labels.2.2.1) th
  have kN := kindU (.inr M.labels.2.2.2) th
  have e0 := (R0.regions (.thread th) r0).1 h0
  have unalNil : ∀ a : Attr, a ∈ [A.region, A.sync, A.work, A.threadType, A.procId, A.threadId, A.numThreads] → a.kind = .unaligned →
      scopeLoc a th = some (.thread th) → vals a.id (c0.ctx (.thread th)).unal = [] := by
    intro a ha hk hl
    have := hq a ha
    rw [query_thread R0 (M.valid a ha) hl, get_unal hk] at this
    simpa using this
  have regNil : ∀ a : Attr, a ∈ [A.region, A.sync, A.work, A.threadType, A.procId, A.threadId, A.numThreads] → a.kind = .region →
      scopeLoc a th = some (.thread th) → vals a.id r0 = [] := by
    intro a ha hk hl
    have := hq a ha
    rw [query_thread R0 (M.valid a ha) hl, get_region hk, ← e0] at this
    simpa using this
  have g0 : Agree A r0 c0 th .idle :=
    ⟨by rw [← R0.err]; exact he, by rw [← e0]; simp [Doing.idle], unalNil _ (by simp) kT.1 kT.2, unalNil _ (by simp) kP.1 kP.2,
      unalNil _ (by simp) kD.1 kD.2, unalNil _ (by simp) kN.1 kN.2, by simp [Doing.idle]⟩
  obtain ⟨⟨c, S, g⟩, _, hs⟩ := hist_agree M hA H hv R0 g0 nl
  have R := S.rel
  have V : ∀ a ∈ [A.region, A.sync, A.work, A.threadType, A.procId, A.threadId, A.numThreads], a.Valid (runO s h).rt.tree :=
    fun a ha => (M.valid a ha).ext S.ext
  have hcon : ∀ a : Attr, a ∈ [A.region, A.sync, A.work, A.threadType, A.procId, A.threadId, A.numThreads] → a.kind = .region →
      scopeLoc a th = some (.thread th) →
      Query (runO s h).rt th a = some (vals a.id (d.cons.map (Con.entry A))).getLast? := by
    intro a ha hk hl
    rw [query_thread R (V a ha) hl, get_region hk, g.region, vals_append, regNil a ha hk hl]
    rfl
  refine ⟨by rw [R.err]; exact g.err, R.dead, fun p => by rw [R.regions, g.region], ⟨?_, ?_, ?_, ?_, ?_, ?_, ?_⟩, hs⟩
  · rw [hcon _ (by simp) kR.1 kR.2, vals_cons (fun | .parallel k => some k | _ => none) unsignedVal]
    · rw [List.getLast?_map]; rfl
    · intro k hk e
      cases k with
      | parallel n => exact ⟨n, rfl, rfl⟩
      | work t => exact absurd e.symm D.rw
      | sync t => exact absurd e.symm D.rs
      | user a v => exact absurd (by rw [show a.id = A.region.id from e]; simp [Attrs.has]) (g.user a v hk).2.2
    · intro k _ e
      cases k with
      | parallel n => exact absurd rfl e
      | _ => rfl
  · rw [hcon _ (by simp) kW.1 kW.2, vals_cons (fun | .work k => some k | _ => none) (fun t => .ofString (WorkName t))]
    · rw [List.getLast?_map]; rfl
    · intro k hk e
      cases k with
      | work n => exact ⟨n, rfl, rfl⟩
      | parallel t => exact absurd e D.rw
      | sync t => exact absurd e D.sw
      | user a v => exact absurd (by rw [show a.id = A.work.id from e]; simp [Attrs.has]) (g.user a v hk).2.2
    · intro k _ e
      cases k with
      | work n => exact absurd rfl e
      | _ => rfl
  · rw [hcon _ (by simp) kS.1 kS.2, vals_cons (fun | .sync k => some k | _ => none) (fun t => .ofString (SyncName t))]
    · rw [List.getLast?_map]; rfl
    · intro k hk e
      cases k with
      | sync n => exact ⟨n, rfl, rfl⟩
      | parallel t => exact absurd e D.rs
      | work t => exact absurd e.symm D.sw
      | user a v => exact absurd (by rw [show a.id = A.sync.id from e]; simp [Attrs.has]) (g.user a v hk).2.2
    · intro k _ e
      cases k with
      | sync n => exact absurd rfl e
      | _ => rfl
  · rw [query_thread R (V _ (by simp)) kT.2, get_unal kT.1, g.type]
    cases d.info <;> rfl
  · rw [query_thread R (V _ (by simp)) kP.2, get_unal kP.1, g.proc]
    generalize (d.info.bind fun x => if x.2.toInt < 0 then none else some (Val.ofInt x.2)) = o
    cases o <;> rfl
  · rw [query_thread R (V _ (by simp)) kD.2, get_unal kD.1, g.thread, List.getLast?_map]
  · rw [query_thread R (V _ (by simp)) kN.2, get_unal kN.1, g.team, List.getLast?_map]

/-- C107: a callback whose begin came while Caliper was not available, but whose end is seen, freezes the thread: the end of a parallel
region entered before Caliper was initialized.  From then on all annotations of that thread are ignored. -/
theorem C107_skipped_begin_violated {A : Attrs} {s : OState} {th : Nat} (hr : RtReach s.rt) (M : Made A s.rt.tree) (hA : s.attrs = some A)
    (he : s.rt.err th = false) (h0 : ∀ p v, ¬ OpenRegions s.rt (.thread th) (p ++ [(A.region.id, v)])) (k : BitVec 32) :
    (runO s [(th, .cb false (.parallelBegin k)), (th, .cb true .parallelEnd)]).rt = { s.rt with err := BB.upd s.rt.err th true } ∧
    (runO s [(th, .cb false (.parallelBegin k)), (th, .cb true .parallelEnd)]).skipped = s.skipped + 1 ∧
    ∀ ops : List Op, (∀ op ∈ ops, op.thread = th ∧ op.plain = true) →
      RT.run (runO s [(th, .cb false (.parallelBegin k)), (th, .cb true .parallelEnd)]).rt ops =
        (runO s [(th, .cb false (.parallelBegin k)), (th, .cb true .parallelEnd)]).rt := by
  have kR := kindR M.nested.1 th
  have e1 : (runO s [(th, .cb false (.parallelBegin k)), (th, .cb true .parallelEnd)]).rt = { s.rt with err := BB.upd s.rt.err th true } := by
    simp only [runO, List.foldl_cons, List.foldl_nil, act, hA, Option.getD_some, cb]
    refine (C11_mismatched_end hr (M.valid _ (by simp)) he kR.2).1 (fun v hE => ?_)
    unfold Endable at hE
    rw [kR.1] at hE
    obtain ⟨p, hp⟩ := hE
    exact h0 p v hp
  refine ⟨e1, by simp [runO, act], fun ops ho => ?_⟩
  rw [e1]
  exact C11_no_effect _ ops th (by simp [BB.upd]) (fun op hop => ho op hop)

/-! ### concrete histories -/

/-- start-up tree and seven attributes of the service (ids 12 to 18) and one of the program (19) -/
def exTree8 : Tree :=
  [1, 2, 3, 4, 5, 6, 7, 8].foldl (fun t i => (getChild t 0 8 (.ofInt i) (some (.cell 0 1))).1) (MTree.init 64 4 (fun _ => 0))

/-- the attributes of the service -/
def exAttrs : Attrs :=
  ⟨⟨.cell 0 12, 12, 20#32⟩, ⟨.cell 0 13, 13, 20#32⟩, ⟨.cell 0 14, 14, 20#32⟩, ⟨.cell 0 15, 15, 1044#32⟩, ⟨.cell 0 16, 16, 1108#32⟩,
   ⟨.cell 0 17, 17, 1108#32⟩, ⟨.cell 0 18, 18, 1108#32⟩⟩

/-- a region attribute of the program -/
def exUser : Attr := ⟨.cell 0 19, 19, 20#32⟩

theorem exTree8_reach : MTree.Reach exTree8 := by
  have h0 : MTree.Reach (MTree.init 64 4 (fun _ => 0)) := .init (by omega) (by omega)
  have st : ∀ (i : BitVec 32) {t}, MTree.Reach t → (Req.getChild 0 8 (.ofInt i) (some (.cell 0 1))).ok t → 0 ≤ t.npb →
      MTree.Reach (getChild t 0 8 (.ofInt i) (some (.cell 0 1))).1 := fun i t h ok hb =>
    MTree.Reach.step (q := .getChild 0 8 (.ofInt i) (some (.cell 0 1))) h ok hb
  have h1 := st 1 h0 (.inr (by decide)) (by decide)
  have h2 := st 2 h1 (.inr (by decide)) (by decide)
  have h3 := st 3 h2 (.inr (by decide)) (by decide)
  have h4 := st 4 h3 (.inr (by decide)) (by decide)
  have h5 := st 5 h4 (.inr (by decide)) (by decide)
  have h6 := st 6 h5 (.inr (by decide +kernel)) (by decide +kernel)
  have h7 := st 7 h6 (.inr (by decide +kernel)) (by decide +kernel)
  exact st 8 h7 (.inr (by decide +kernel)) (by decide +kernel)

theorem exMade : Made exAttrs exTree8 := by
  refine ⟨?_, by decide, by decide, by decide⟩
  intro a ha
  simp only [exAttrs, List.mem_cons, List.not_mem_nil, or_false] at ha
  rcases ha with rfl | rfl | rfl | rfl | rfl | rfl | rfl <;>
    exact ⟨.inr (by decide +kernel), by decide, by decide +kernel, by decide +kernel, by decide, by decide⟩

/-- one active channel with the service -/
def exO : OState := ⟨init exTree8 [7] (fun c => c == 7), some exAttrs, 0⟩

/-- thread 1 begins, works in a team of two with a region of the program inside a loop, and waits in a barrier; thread 0 opens the
parallel region; one callback is skipped -/
def exHist : List (Nat × Act) :=
  [(1, .cb true (.threadBegin 2 5)), (0, .cb true (.parallelBegin 2)), (1, .cb true (.implicitTask 1 2 1 2)), (1, .cb true (.work 1 1)),
   (1, .user (.begin 1 exUser (.ofInt 9))), (0, .cb false (.work 1 1)), (1, .cb true (.sync 3 1))]

/-- what thread 1 is doing then -/
def exDoing : Doing := ⟨[.work 1, .user exUser (.ofInt 9), .sync 3], some (2, 5), [(2, 1)]⟩

theorem exHist_ok : Hist exAttrs 1 exHist exDoing 1 := by
  have h1 := Hist.threadBegin (t := 2) (p := 5) (Hist.nil (A := exAttrs) (th := 1)) rfl
  have h2 := Hist.elsewhere (th' := 0) (c := .parallelBegin 2) h1 (by decide)
  have h3 := Hist.taskBegin (p := 2) (i := 1) (f := 2) h2 (by decide)
  have h4 := Hist.workBegin (t := 1) h3
  have h5 := Hist.userBegin (a := exUser) (v := .ofInt 9) h4 (by decide) (by decide) (by unfold Attrs.has; decide)
  have h6 := Hist.skipped (th' := 0) (c := .work 1 1) h5 (by intro _ _ _ _ e; cases e)
  exact Hist.syncBegin (t := 3) h6

/-- locations nobody touches lose nothing -/
theorem noLoss_cbs (s : OState) (h : List (Nat × Act)) (ops : List Op) (e : (runO s h).rt = RT.run s.rt ops) (ls : List Loc)
    (h1 : ∀ op ∈ ops, ∀ l ∈ op.loc, l ∈ ls) (h2 : (RT.run s.rt ops).tree.fails = s.rt.tree.fails)
    (h3 : ∀ l ∈ ls, ((RT.run s.rt ops).board l).skipped = (s.rt.board l).skipped) : NoLoss s.rt (runO s h).rt := by
  rw [e]; exact noLoss_of s.rt ops ls h1 h2 h3

theorem exHist_ops (s : State) : (runO ⟨s, some exAttrs, 0⟩ exHist).rt =
    RT.run s [.begin 1 exAttrs.procId (.ofInt 5), .begin 1 exAttrs.threadType (.ofString "worker"),
      .begin 0 exAttrs.region (vUint 2), .begin 1 exAttrs.numThreads (.ofInt 2), .begin 1 exAttrs.threadId (.ofInt 1),
      .begin 1 exAttrs.work (.ofString "loop"), .begin 1 exUser (.ofInt 9), .begin 1 exAttrs.sync (.ofString "barrier_explicit")] := by
  simp only [exHist, runO, List.foldl_cons, List.foldl_nil, act, Option.getD_some, cb, RT.run]
  rw [if_pos (show (0 : Int) ≤ (5 : BitVec 32).toInt by decide), if_neg (show ¬ ((2 : BitVec 32) &&& 1#32 ≠ 0) by decide),
    if_pos (show 1 = scopeBegin from rfl)]
  simp only [show typeName 2 = "worker" from rfl, show workName 1 = "loop" from rfl, show syncName 3 = "barrier_explicit" from rfl,
    scopeBegin, if_true]

/-- the hypotheses of `C107_constructs_partial` are met -/
example : RtReach exO.rt ∧ Made exAttrs exO.rt.tree ∧ exO.attrs = some exAttrs ∧ exO.rt.err 1 = false ∧
    OpenRegions exO.rt (.thread 1) [] ∧
    (∀ a ∈ [exAttrs.region, exAttrs.sync, exAttrs.work, exAttrs.threadType, exAttrs.procId, exAttrs.threadId, exAttrs.numThreads],
      Query exO.rt 1 a = some none) ∧ Hist exAttrs 1 exHist exDoing 1 ∧
    (∀ x ∈ exHist, ∀ op, x.2 = .user op → op.attr.Valid exO.rt.tree) ∧ NoLoss exO.rt (runO exO exHist).rt := by
  refine ⟨.init exTree8_reach _ _, exMade, rfl, rfl, ⟨default, by decide, Path.root⟩, by decide +kernel, exHist_ok, ?_, ?_⟩
  · intro x hx op e
    simp only [exHist, List.mem_cons, List.not_mem_nil, or_false] at hx
    rcases hx with rfl | rfl | rfl | rfl | rfl | rfl | rfl <;> simp at e
    subst e
    exact ⟨.inr (by decide +kernel), by decide, by decide +kernel, by decide +kernel, by decide, by decide⟩
  · refine noLoss_cbs _ _ [.begin 1 exAttrs.procId (.ofInt 5), .begin 1 exAttrs.threadType (.ofString "worker"),
      .begin 0 exAttrs.region (vUint 2), .begin 1 exAttrs.numThreads (.ofInt 2), .begin 1 exAttrs.threadId (.ofInt 1),
      .begin 1 exAttrs.work (.ofString "loop"), .begin 1 exUser (.ofInt 9), .begin 1 exAttrs.sync (.ofString "barrier_explicit")] (exHist_ops _)
      [.thread 0, .thread 1] (by decide) (by decide +kernel) (by decide +kernel)

/-- what queries report in that state -/
theorem C107_demo :
    Query (runO exO exHist).rt 1 exAttrs.work = some (some (.ofString "loop")) ∧
    Query (runO exO exHist).rt 1 exAttrs.sync = some (some (.ofString "barrier_explicit")) ∧
    Query (runO exO exHist).rt 1 exAttrs.region = some none ∧
    Query (runO exO exHist).rt 0 exAttrs.region = some (some (vUint 2)) ∧
    Query (runO exO exHist).rt 1 exAttrs.threadType = some (some (.ofString "worker")) ∧
    Query (runO exO exHist).rt 1 exAttrs.procId = some (some (.ofInt 5)) ∧
    Query (runO exO exHist).rt 1 exAttrs.threadId = some (some (.ofInt 1)) ∧
    Query (runO exO exHist).rt 1 exAttrs.numThreads = some (some (.ofInt 2)) := by
  refine ⟨?_, ?_, ?_, ?_, ?_, ?_, ?_, ?_⟩ <;> decide +kernel

/-- C107: a service that is registered while OpenMP threads wait in a barrier freezes them.  The attributes do not exist when the barrier
begins (the begin is dropped), they exist when it ends (the end has no begin): the history is properly nested, and yet all later annotations
of the thread are ignored. -/
theorem C107_late_registration_violated :
    ∃ (A : Attrs) (s : OState) (h : List (Nat × Act)), RtReach s.rt ∧ Made A s.rt.tree ∧ s.attrs = none ∧
      Hist A 1 h .idle 0 ∧ (runO s h).attrs = some A ∧ (runO s h).rt.err 1 = true ∧ Query (runO s h).rt 1 A.sync = some none ∧
      ∀ ops : List Op, (∀ op ∈ ops, op.thread = 1 ∧ op.plain = true) → RT.run (runO s h).rt ops = (runO s h).rt := by
  refine ⟨exAttrs, ⟨init exTree8 [7] (fun c => c == 7), none, 0⟩,
    [(1, .cb true (.sync 9 1)), (0, .register exAttrs), (1, .cb true (.sync 9 2))], .init exTree8_reach _ _, exMade, rfl, ?_, rfl,
    by decide +kernel, by decide +kernel, fun ops ho => C11_no_effect _ ops 1 (by decide +kernel) ho⟩
  have h1 := Hist.syncBegin (t := 9) (Hist.nil (A := exAttrs) (th := 1))
  have h2 := Hist.register (th' := 0) (B := exAttrs) h1
  exact Hist.syncEnd (t' := 9) (cs := []) (t := 9) h2

/-- the parts of the state that make up contexts, and whether annotations are effective -/
def sameContexts (s s' : State) : Prop :=
  s'.tree = s.tree ∧ s'.tbb = s.tbb ∧ s'.pbb = s.pbb ∧ s'.cbb = s.cbb ∧ s'.err = s.err ∧ s'.dead = s.dead

theorem sameContexts.trans {a b c : State} (h : sameContexts a b) (h' : sameContexts b c) : sameContexts a c := by
  obtain ⟨h1, h2, h3, h4, h5, h6⟩ := h
  obtain ⟨g1, g2, g3, g4, g5, g6⟩ := h'
  exact ⟨g1.trans h1, g2.trans h2, g3.trans h3, g4.trans h4, g5.trans h5, g6.trans h6⟩

theorem null_begin (s : State) (th : Nat) (v : Val) : sameContexts s (step s (.begin th nullAttr v)) := by
  have hs : scopeLoc nullAttr th = none := by simp [scopeLoc, nullAttr, Attr.scope, scopeThread, scopeProcess]
  simp only [RT.step, RT.begin, hs]
  by_cases h : s.dead = true
  · simp [h, sameContexts]
  · by_cases h2 : s.err th = true
    · simp [h, h2, sameContexts]
    · have he : ∀ (s : State) (k : EvKind), sameContexts s (s.emitAll k th nullAttr v) := by
        intro s k; unfold State.emitAll; split <;> exact ⟨rfl, rfl, rfl, rfl, rfl, rfl⟩
      rw [if_neg h, if_neg h2]
      split
      · exact he s _
      · exact (he s .preBegin).trans (he _ _)

theorem null_end (s : State) (th : Nat) : step s (.endR th nullAttr) = s := by
  have hs : scopeLoc nullAttr th = none := by simp [scopeLoc, nullAttr, Attr.scope, scopeThread, scopeProcess]
  simp only [RT.step, endR, endCore, hs]
  simp

theorem sameContexts.refl (s : State) : sameContexts s s := ⟨rfl, rfl, rfl, rfl, rfl, rfl⟩

/-- C107: before a channel with the service exists, callbacks change no thread's context and freeze no thread. -/
theorem C107_before_registration (s : OState) (h : s.attrs = none) (th : Nat) (avail : Bool) (c : Cb) :
    sameContexts s.rt (act s th (.cb avail c)).rt ∧ (act s th (.cb avail c)).attrs = none := by
  cases avail with
  | false =>
    cases c <;> simp only [act] <;> (try split) <;> exact ⟨sameContexts.refl _, h⟩
  | true =>
    refine ⟨?_, by simp [act, h]⟩
    simp only [act, h, Option.getD_none]
    cases c <;> simp only [cb, nullAttrs, null_end, ite_self] <;> (repeat' split) <;>
      first
      | exact sameContexts.refl _
      | exact null_begin ..
      | exact (null_begin ..).trans (null_begin ..)

end Verif.Serv.Ompt
