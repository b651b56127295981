import Verif.Serv.Compose
import Verif.Props.Runtime
import Mathlib.Data.List.Induction
/-!
# C51 Event-triggered snapshots, C52 Time values

Model: `Verif/Serv/Event.lean`; specification: `Verif/Serv/Spec.lean`.
-/
namespace Verif.Serv
open Verif RT Verif.Parse

variable (raw : BitVec 64 → List Byte)

/-- C51: without a branch filter, after any history, a begin, set or end event of a region leads to exactly one snapshot, with the
event's attribute and value as trigger info (and a region count for ends), if the attribute was selected and announced and the value
passes the region filter; otherwise it leads to none. -/
theorem C51_triggers (C : Cfg) (hb : hasFilters C.evt.branch = false) (th0 : Nat) (attrs : List AttrInfo)
    (h : List (BitVec 64 × COp)) (t : BitVec 64) (e : Event) :
    ∃ new, (State.run raw C (State.init C th0 attrs) (h ++ [(t, .event e)])).2 = (State.run raw C (State.init C th0 attrs) h).2 ++ new ∧
      (Announced C.evt attrs h e.attr ∧ Passes raw C.evt e.attr e.val →
        new.map (fun s => (s.th, s.sig, s.time.offset, (⟨s.info, s.count⟩ : Req))) = (wanted C.evt e).toList.map fun r => (e.th, false, t, r)) ∧
      (¬(Announced C.evt attrs h e.attr ∧ Passes raw C.evt e.attr e.val) → new = []) := by
  obtain ⟨-, h2⟩ := run_snoc (raw := raw) (C := C) (State.init C th0 attrs) h t (.event e)
  refine ⟨_, h2, ?_, ?_⟩
  · rw [← marked_iff (raw := raw) th0]
    intro hh
    obtain ⟨-, g, -⟩ := event_nobranch (raw := raw) hb (State.run raw C (State.init C th0 attrs) h).1.evt e
    have ho := fun i => (snapshot_spec C.incl (State.run raw C (State.init C th0 attrs) h).1.tim t e.th false i).1
    simp only [State.step, State.take, g hh]
    unfold wanted
    cases e.kind <;> simp [ho]
  · rw [← marked_iff (raw := raw) th0]
    intro hh
    obtain ⟨-, -, g⟩ := event_nobranch (raw := raw) hb (State.run raw C (State.init C th0 attrs) h).1.evt e
    simp only [State.step, g hh]

/-- region (attribute, value) takes part in branch filtering: it triggers snapshots and passes the region filter -/
def Relevant (C : Cfg) (s : State) (x : Nat × Val) : Prop := s.evt.marked x.1 = true ∧ Passes raw C.evt x.1 x.2

/-- region is a branch the user asked for -/
def Branch (C : Cfg) (s : State) (x : Nat × Val) : Prop := Relevant raw C s x ∧ C.evt.branch.pass (bytesOf raw x.2) = true

instance (C : Cfg) (s : State) (x : Nat × Val) : Decidable (Relevant raw C s x) := by unfold Relevant; infer_instance
instance (C : Cfg) (s : State) (x : Nat × Val) : Decidable (Branch raw C s x) := by unfold Branch; infer_instance

/-- one event with a branch filter, the stack being that of the open branches -/
theorem branch_event (C : Cfg) (hb : hasFilters C.evt.branch = true) (s0 : State) (s : EvtState) (hm : s.marked = s0.evt.marked)
    (st : List (Nat × Val)) (hs : s.stack = (st.filter fun x => decide (Branch raw C s0 x)).map Prod.snd) (ch th a : Nat) (v : Val) :
    ((s.event raw C.evt ⟨.preBegin, ch, th, a, v⟩).1.stack = ((st ++ [(a, v)]).filter fun x => decide (Branch raw C s0 x)).map Prod.snd ∧
      ((Relevant raw C s0 (a, v) ∧ ∃ x ∈ st ++ [(a, v)], Branch raw C s0 x) →
        (s.event raw C.evt ⟨.preBegin, ch, th, a, v⟩).2 = wanted C.evt ⟨.preBegin, ch, th, a, v⟩) ∧
      (¬(Relevant raw C s0 (a, v) ∧ ∃ x ∈ st ++ [(a, v)], Branch raw C s0 x) → (s.event raw C.evt ⟨.preBegin, ch, th, a, v⟩).2 = none)) ∧
    (∀ st', st = st' ++ [(a, v)] →
      (s.event raw C.evt ⟨.preEnd, ch, th, a, v⟩).1.stack = (st'.filter fun x => decide (Branch raw C s0 x)).map Prod.snd ∧
      ((Relevant raw C s0 (a, v) ∧ ∃ x ∈ st, Branch raw C s0 x) →
        (s.event raw C.evt ⟨.preEnd, ch, th, a, v⟩).2 = wanted C.evt ⟨.preEnd, ch, th, a, v⟩) ∧
      (¬(Relevant raw C s0 (a, v) ∧ ∃ x ∈ st, Branch raw C s0 x) → (s.event raw C.evt ⟨.preEnd, ch, th, a, v⟩).2 = none)) := by
  have hne : ∀ l : List (Nat × Val), ((l.filter fun x => decide (Branch raw C s0 x)).map Prod.snd = []) ↔ ¬∃ x ∈ l, Branch raw C s0 x := by
    intro l; simp [List.filter_eq_nil_iff]
  have hmk : s.marked a = s0.evt.marked a := by rw [hm]
  constructor
  · simp only [EvtState.event, wanted]
    unfold EvtState.enter
    by_cases h1 : s0.evt.marked a = true
    swap
    · have hnr : ¬Relevant raw C s0 (a, v) := fun h => h1 h.1
      have hnb : ¬Branch raw C s0 (a, v) := fun h => hnr h.1
      simp [hmk, h1, hnr, hnb, hs]
    by_cases h2 : Passes raw C.evt a v
    swap
    · have hnr : ¬Relevant raw C s0 (a, v) := fun h => h2 h.2
      have hnb : ¬Branch raw C s0 (a, v) := fun h => hnr h.1
      unfold Passes at h2
      simp only [Classical.not_imp] at h2
      have h3 := h2.2
      simp only [Bool.not_eq_true] at h3
      simp [hmk, h1, hnr, hnb, hs, h2.1, h3]
    have hr : Relevant raw C s0 (a, v) := ⟨h1, h2⟩
    have h3 : (C.evt.isStr a && !C.evt.region.pass (bytesOf raw v)) = false := by
      unfold Passes at h2
      cases hx : C.evt.isStr a
      · rfl
      · simp [h2 hx]
    rw [hmk, h1, h3, hb]
    simp only [Bool.not_true, Bool.false_eq_true, if_false, if_true]
    have hbr : Branch raw C s0 (a, v) ↔ C.evt.branch.pass (bytesOf raw v) = true := ⟨fun h => h.2, fun h => ⟨hr, h⟩⟩
    have hst : (if C.evt.branch.pass (bytesOf raw v) = true then s.stack ++ [v] else s.stack) =
        ((st ++ [(a, v)]).filter fun x => decide (Branch raw C s0 x)).map Prod.snd := by
      rw [List.filter_append, List.map_append, ← hs]
      by_cases hp : C.evt.branch.pass (bytesOf raw v) = true
      · simp [hp, hbr.2 hp]
      · have : ¬Branch raw C s0 (a, v) := fun h => hp h.2
        simp [hp, this]
    rw [hst]
    by_cases he : ∃ x ∈ st ++ [(a, v)], Branch raw C s0 x
    · rw [if_neg (fun h => (hne _).1 h he)]
      exact ⟨rfl, fun _ => rfl, fun h => absurd ⟨hr, he⟩ h⟩
    · rw [if_pos ((hne _).2 he)]
      exact ⟨rfl, fun h => absurd h.2 he, fun _ => rfl⟩
  · intro st' hst'
    simp only [EvtState.event, wanted]
    unfold EvtState.leave
    by_cases h1 : s0.evt.marked a = true
    swap
    · have hnr : ¬Relevant raw C s0 (a, v) := fun h => h1 h.1
      have hnb : ¬Branch raw C s0 (a, v) := fun h => hnr h.1
      simp [hmk, h1, hnr, hnb, hs, hst']
    by_cases h2 : Passes raw C.evt a v
    swap
    · have hnr : ¬Relevant raw C s0 (a, v) := fun h => h2 h.2
      have hnb : ¬Branch raw C s0 (a, v) := fun h => hnr h.1
      unfold Passes at h2
      simp only [Classical.not_imp] at h2
      have h3 := h2.2
      simp only [Bool.not_eq_true] at h3
      simp [hmk, h1, hnr, hnb, hs, h2.1, h3, hst']
    have hr : Relevant raw C s0 (a, v) := ⟨h1, h2⟩
    have h3 : (C.evt.isStr a && !C.evt.region.pass (bytesOf raw v)) = false := by
      unfold Passes at h2
      cases hx : C.evt.isStr a
      · rfl
      · simp [h2 hx]
    rw [hmk, h1, h3, hb]
    simp only [Bool.not_true, Bool.false_eq_true, if_false, if_true]
    by_cases he : ∃ x ∈ st, Branch raw C s0 x
    swap
    · have h0 : s.stack = [] := by rw [hs]; exact (hne _).2 he
      rw [if_pos h0]
      refine ⟨?_, fun h => absurd h.2 he, fun _ => rfl⟩
      rw [h0]
      refine ((hne _).2 ?_).symm
      rintro ⟨x, hx, hbx⟩
      exact he ⟨x, by rw [hst']; simp [hx], hbx⟩
    have h0 : s.stack ≠ [] := by rw [hs]; exact fun h => (hne _).1 h he
    rw [if_neg h0]
    by_cases hp : C.evt.branch.pass (bytesOf raw v) = true
    · have hbr : Branch raw C s0 (a, v) := ⟨hr, hp⟩
      have : s.stack = (st'.filter fun x => decide (Branch raw C s0 x)).map Prod.snd ++ [v] := by
        rw [hs, hst']; simp [hbr]
      rw [if_pos (by rw [this]; simp)]
      refine ⟨by simp only [this, List.dropLast_concat], fun _ => rfl, fun h => absurd ⟨hr, he⟩ h⟩
    · have hnb : ¬Branch raw C s0 (a, v) := fun h => hp h.2
      have : s.stack = (st'.filter fun x => decide (Branch raw C s0 x)).map Prod.snd := by rw [hs, hst']; simp [hnb]
      rw [if_neg]
      · exact ⟨this, fun _ => rfl, fun h => absurd ⟨hr, he⟩ h⟩
      · intro hl
        have hv : v ∈ s.stack := List.mem_of_getLast? hl
        rw [this] at hv
        obtain ⟨x, hx, rfl⟩ := List.mem_map.1 hv
        exact hp (of_decide_eq_true (List.mem_filter.1 hx).2).2

theorem step_evt (C : Cfg) (s : State) (t : BitVec 64) (e : Event) : (s.step raw C t (.event e)).1.evt = (s.evt.event raw C.evt e).1 := by
  simp only [State.step, State.take]; split <;> rfl

theorem run_marked_events (C : Cfg) {ch th : Nat} {h : List (BitVec 64 × COp)} {st : List (Nat × Val)} (hn : NestedEv ch th h st) (s : State) :
    (State.run raw C s h).1.evt.marked = s.evt.marked := by
  funext i
  rw [Bool.eq_iff_iff, run_marked]
  refine ⟨?_, Or.inl⟩
  rintro (h' | ⟨a, -, -, ⟨-, t, hm⟩ | ⟨t, hm⟩⟩)
  · exact h'
  all_goals
    exfalso
    induction hn with
    | nil => simp at hm
    | begin t a v _ ih => simp at hm; exact ih hm
    | end_ t a v _ ih => simp at hm; exact ih hm
    | post t a v _ ih => simp at hm; exact ih hm
    | snap t th' sig i _ ih => simp at hm; exact ih hm

/-- the stack holds the open branches -/
theorem branch_stack (C : Cfg) (hb : hasFilters C.evt.branch = true) {ch th : Nat} (s : State) (h0 : s.evt.stack = [])
    {h : List (BitVec 64 × COp)} {st : List (Nat × Val)} (hn : NestedEv ch th h st) :
    (State.run raw C s h).1.evt.stack = (st.filter fun x => decide (Branch raw C s x)).map Prod.snd := by
  induction hn with
  | nil => exact h0
  | @begin h st t a v hn ih =>
    rw [(run_snoc s h t _).1, step_evt]
    exact ((branch_event raw C hb s _ (run_marked_events raw C hn s) st ih ch th a v).1).1
  | @end_ h st t a v hn ih =>
    rw [(run_snoc s h t _).1, step_evt]
    exact ((branch_event raw C hb s _ (run_marked_events raw C hn s) _ ih ch th a v).2 st rfl).1
  | @post h st t a v hn ih =>
    rw [(run_snoc s h t _).1, step_evt]
    exact ih
  | @snap h st t th' sig i hn ih =>
    rw [(run_snoc s h t _).1]
    exact ih

/-- C51 (branch filter; partial: one thread with properly nested regions and no `set` calls, see the violations below): a region's begin
and end lead to a snapshot exactly if the region triggers snapshots at all and it or an enclosing open region is one of the branches
asked for. -/
theorem C51_branches_partial (C : Cfg) (hb : hasFilters C.evt.branch = true) {ch th : Nat} (s : State) (h0 : s.evt.stack = [])
    {h : List (BitVec 64 × COp)} {st : List (Nat × Val)} (hn : NestedEv ch th h st) (t : BitVec 64) (a : Nat) (v : Val) :
    ((Relevant raw C s (a, v) ∧ ∃ x ∈ st ++ [(a, v)], Branch raw C s x) ↔
      ∃ x, ((State.run raw C s h).1.step raw C t (.event ⟨.preBegin, ch, th, a, v⟩)).2 = [x] ∧ x.th = th ∧ x.count = false ∧
        (C.evt.info = true → x.info = some (.begin a v))) ∧
    (¬(Relevant raw C s (a, v) ∧ ∃ x ∈ st ++ [(a, v)], Branch raw C s x) →
      ((State.run raw C s h).1.step raw C t (.event ⟨.preBegin, ch, th, a, v⟩)).2 = []) ∧
    (∀ st', st = st' ++ [(a, v)] →
      ((Relevant raw C s (a, v) ∧ ∃ x ∈ st, Branch raw C s x) ↔
        ∃ x, ((State.run raw C s h).1.step raw C t (.event ⟨.preEnd, ch, th, a, v⟩)).2 = [x] ∧ x.th = th ∧ x.count = true ∧
          (C.evt.info = true → x.info = some (.end_ a v))) ∧
      (¬(Relevant raw C s (a, v) ∧ ∃ x ∈ st, Branch raw C s x) →
        ((State.run raw C s h).1.step raw C t (.event ⟨.preEnd, ch, th, a, v⟩)).2 = [])) := by
  have B := branch_event raw C hb s _ (run_marked_events raw C hn s) st (branch_stack raw C hb s h0 hn) ch th a v
  generalize (State.run raw C s h).1 = s1 at B ⊢
  obtain ⟨⟨-, b2, b3⟩, b4⟩ := B
  have e3 : ¬(Relevant raw C s (a, v) ∧ ∃ x ∈ st ++ [(a, v)], Branch raw C s x) → (s1.step raw C t (.event ⟨.preBegin, ch, th, a, v⟩)).2 = [] := by
    intro hh; simp only [State.step, b3 hh]
  refine ⟨⟨fun hh => ?_, fun ⟨x, hx, _⟩ => ?_⟩, e3, fun st' hst' => ?_⟩
  · simp only [State.step, State.take, b2 hh, wanted]
    exact ⟨_, rfl, rfl, rfl, fun hi => by simp [hi]⟩
  · by_contra hh; rw [e3 hh] at hx; simp at hx
  · obtain ⟨-, c2, c3⟩ := b4 st' hst'
    have f3 : ¬(Relevant raw C s (a, v) ∧ ∃ x ∈ st, Branch raw C s x) → (s1.step raw C t (.event ⟨.preEnd, ch, th, a, v⟩)).2 = [] := by
      intro hh; simp only [State.step, c3 hh]
    refine ⟨⟨fun hh => ?_, fun ⟨x, hx, _⟩ => ?_⟩, f3⟩
    · simp only [State.step, State.take, c2 hh, wanted]
      exact ⟨_, rfl, rfl, rfl, fun hi => by simp [hi]⟩
    · by_contra hh; rw [f3 hh] at hx; simp at hx

/-! ### branch filters: violations and examples -/

/-- include branch "main" -/
def exB : Cfg := ⟨⟨fun _ => true, [], 0, true, ⟨none, none⟩, ⟨some ⟨[], [Cali.str "main"], []⟩, none⟩⟩, true⟩
/-- two string attributes -/
def exAttrs : List AttrInfo := [⟨20, Cali.str "function", 0, false, false⟩, ⟨21, Cali.str "loop", 0, false, false⟩]
/-- region names -/
def exMain : Val := .str (Cali.str "main")
@[inherit_doc exMain]
def exX : Val := .str (Cali.str "x")

/-- C51 (violation): `set` opens a branch that nothing closes: after `set(function, "main")` and `set(function, "x")` no branch is current,
yet all regions trigger snapshots from then on. -/
theorem C51_violation_set :
    ((State.run (fun _ => []) exB (State.init exB 1 exAttrs)
        [(1, .event ⟨.preSet, 0, 1, 20, exMain⟩), (2, .event ⟨.preSet, 0, 1, 20, exX⟩), (3, .event ⟨.preBegin, 0, 1, 21, exX⟩)]).2.map
      fun s => (s.info, s.time.offset)) =
      [(some (.set 20 exMain), 1), (some (.set 20 exX), 2), (some (.begin 21 exX), 3)] := by decide +kernel

/-- C51 (violation): if two regions of the branch are not ended in reverse order (they may not be nested: different attributes), the
branch stays open for ever: nothing is open at time 5, but the next region triggers a snapshot. -/
theorem C51_violation_interleaved :
    ((State.run (fun _ => []) { exB with evt := { exB.evt with branch := ⟨some ⟨[Cali.str "m"], [], []⟩, none⟩ } } (State.init exB 1 exAttrs)
        [(1, .event ⟨.preBegin, 0, 1, 20, exMain⟩), (2, .event ⟨.preBegin, 0, 1, 21, .str (Cali.str "my")⟩), (3, .event ⟨.preEnd, 0, 1, 20, exMain⟩),
         (4, .event ⟨.preEnd, 0, 1, 21, .str (Cali.str "my")⟩), (5, .event ⟨.preBegin, 0, 1, 21, exX⟩)]).2.map
      fun s => (s.info, s.time.offset)).drop 4 = [(some (.begin 21 exX), 5)] := by decide +kernel

/-- C51 (violation): the open branches are shared by all threads: while thread 1 is in branch "main", regions of thread 2 outside of that branch
trigger snapshots. -/
theorem C51_violation_threads :
    ((State.run (fun _ => []) exB (State.init exB 1 exAttrs)
        [(1, .event ⟨.preBegin, 0, 1, 20, exMain⟩), (2, .event ⟨.preBegin, 0, 2, 21, exX⟩)]).2.map fun s => (s.th, s.info)) =
      [(1, some (.begin 20 exMain)), (2, some (.begin 21 exX))] ∧
    ((State.run (fun _ => []) exB (State.init exB 1 exAttrs) [(2, .event ⟨.preBegin, 0, 2, 21, exX⟩)]).2 = []) := by decide +kernel

/-- hypotheses of `C51_branches_partial`: a branch is open, and a region in it -/
example : hasFilters exB.evt.branch = true ∧ (State.init exB 1 exAttrs).evt.stack = [] ∧
    NestedEv 0 1 [(1, .event ⟨.preBegin, 0, 1, 20, exMain⟩), (2, .event ⟨.preBegin, 0, 1, 21, exX⟩)] [(20, exMain), (21, exX)] ∧
    Relevant (fun _ => []) exB (State.init exB 1 exAttrs) (21, exX) ∧ Branch (fun _ => []) exB (State.init exB 1 exAttrs) (20, exMain) ∧
    ¬Branch (fun _ => []) exB (State.init exB 1 exAttrs) (21, exX) :=
  ⟨by decide, by decide +kernel, .begin 2 21 exX (.begin 1 20 exMain .nil), by decide +kernel, by decide +kernel, by decide +kernel⟩

/-- hypotheses of `C51_triggers`: both cases occur -/
example : Announced exB.evt exAttrs [] 20 ∧ ¬Announced exB.evt exAttrs [] 22 ∧
    Announced exB.evt exAttrs [(1, .subscribe ⟨22, [], 0, false, true⟩)] 22 ∧ Passes (fun _ => []) exB.evt 20 exX := by
  refine ⟨⟨_, rfl, ⟨by decide, rfl, .inl rfl, by decide⟩, .inl ⟨rfl, .inl (List.mem_cons_self ..)⟩⟩, ?_,
    ⟨⟨22, [], 0, false, true⟩, rfl, ⟨by decide, rfl, .inl rfl, by decide⟩, .inr ⟨1, by simp⟩⟩, by decide⟩
  rintro ⟨a, h1, -, ⟨-, h2 | ⟨t, h2⟩⟩ | ⟨t, h2⟩⟩
  · simp only [exAttrs, List.mem_cons, List.not_mem_nil, or_false] at h2
    rcases h2 with rfl | rfl <;> simp at h1
  · simp at h2
  · simp at h2

/-! ### time values -/

/-- C52: in any history of a channel - any threads, events, filters, sampling signals - the durations recorded by a thread's snapshots
add up to the time from the start of the channel to the thread's last snapshot. -/
theorem C52_durations_add_up (C : Cfg) (th0 : Nat) (attrs : List AttrInfo) (h : List (Nat × COp)) (hc : Clock h) (th : Nat) :
    ((durations th (State.run raw C (State.init C th0 attrs) (machine h)).2).map BitVec.toNat).sum =
      (((stamps th (State.run raw C (State.init C th0 attrs) (machine h)).2).getLast?).getD 0).toNat := by
  have := run_prev (raw := raw) (C := C) h (State.init C th0 attrs) th hc (by rw [prevOf_init]; intro x _; exact Nat.zero_le _)
  rw [prevOf_init] at this
  exact this

/-- C52: every snapshot is stamped with the time it was taken, and, unless taken in a signal handler, has a duration. -/
theorem C52_stamped (C : Cfg) (s : State) (t : BitVec 64) (op : COp) :
    ∀ x ∈ (s.step raw C t op).2, x.time.offset = t ∧ (x.sig = false → x.time.duration.isSome = true) := by
  intro x hx
  rcases step_cases (raw := raw) (C := C) s t op with ⟨h1, -⟩ | ⟨th', sig, info, count, h1, h2⟩
  · rw [h1] at hx; simp at hx
  · rw [h2] at hx
    obtain rfl := List.mem_singleton.1 hx
    obtain ⟨g1, -, g3, -⟩ := snapshot_spec C.incl s.tim t th' sig info
    refine ⟨g1, fun hs => ?_⟩
    rcases g3 with ⟨g3, -⟩ | ⟨-, -, g3⟩
    · simp [g3]
    · simp only at hs; rw [hs] at g3; cases g3

/-- C52: the inclusive duration in an end snapshot is the time since the matching begin snapshot: the one after which the begin and end
snapshots of the same attribute on the same thread are balanced - whatever happened before, on other threads, and for other attributes. -/
theorem C52_inclusive (C : Cfg) (hi : C.incl = true) (th0 : Nat) (attrs : List AttrInfo) (h : List (BitVec 64 × COp))
    (p m q : List Snap) (b e : Snap) (a : Nat) (v w : Val)
    (hs : (State.run raw C (State.init C th0 attrs) h).2 = p ++ [b] ++ m ++ [e] ++ q)
    (hb : b.info = some (.begin a v) ∧ b.sig = false) (he : e.info = some (.end_ a w) ∧ e.sig = false) (hth : b.th = e.th)
    (hm : Bal (evs e.th a m)) : e.time.inclusive = some (e.time.offset - b.time.offset) := by
  have := run_end (raw := raw) hi h (State.init C th0 attrs) (p ++ [b] ++ m) q e a w (by rw [hs]; simp) he.2 he.1
  rw [this, evs_append, evs_append, pp_append, pp_append, pp_bal hm]
  simp [evs, hb.1, hb.2, hth, pp, pp1]

/-- C52: an end snapshot without a matching begin snapshot has no inclusive duration. -/
theorem C52_unmatched (C : Cfg) (hi : C.incl = true) (th0 : Nat) (attrs : List AttrInfo) (h : List (BitVec 64 × COp))
    (p q : List Snap) (e : Snap) (a : Nat) (w : Val)
    (hs : (State.run raw C (State.init C th0 attrs) h).2 = p ++ [e] ++ q)
    (he : e.info = some (.end_ a w) ∧ e.sig = false) (hd : Drained (evs e.th a p)) : e.time.inclusive = none := by
  have := run_end (raw := raw) hi h (State.init C th0 attrs) p q e a w (by rw [hs]; simp) he.2 he.1
  rw [this, stk_init, pp_drained hd]
  rfl

/-- C52: the two cases above cover all end snapshots: before an end, either there is a matching begin or no begin is open. -/
theorem C52_all_cases (w : List Ev) : Drained w ∨ ∃ p t m, w = p ++ [.b t] ++ m ∧ Bal m := by
  have key : ∀ (w : List Ev), ∃ d r, w = d ++ r ∧ Drained d ∧
      ∃ ps : List (BitVec 64 × List Ev), r = ps.flatMap (fun x => Ev.b x.1 :: x.2) ∧ ∀ x ∈ ps, Bal x.2 := by
    intro w
    induction w using List.reverseRecOn with
    | nil => exact ⟨[], [], rfl, .nil, [], rfl, by simp⟩
    | append_singleton w x ih =>
      obtain ⟨d, r, rfl, hd, ps, rfl, hp⟩ := ih
      cases x with
      | b t =>
        refine ⟨d, _, (List.append_assoc ..), hd, ps ++ [(t, [])], by simp, ?_⟩
        intro x hx
        rcases List.mem_append.1 hx with hx | hx
        · exact hp x hx
        · obtain rfl := List.mem_singleton.1 hx; exact .nil
      | e =>
        rcases List.eq_nil_or_concat ps with rfl | ⟨ps, y, rfl⟩
        · exact ⟨d ++ [.e], [], by simp, .surplus hd, [], rfl, by simp⟩
        · obtain ⟨t, m⟩ := y
          have hy : Bal m := hp (t, m) (by simp)
          rcases List.eq_nil_or_concat ps with rfl | ⟨ps, z, rfl⟩
          · exact ⟨d ++ (.b t :: (m ++ [.e])), [], by simp, .bal hd (.wrap t hy), [], rfl, by simp⟩
          · obtain ⟨u, n⟩ := z
            refine ⟨d, _, ?_, hd, ps ++ [(u, n ++ (Ev.b t :: (m ++ [Ev.e])))], rfl, ?_⟩
            · simp
            intro x hx
            rcases List.mem_append.1 hx with hx | hx
            · exact hp x (by simp [hx])
            · obtain rfl := List.mem_singleton.1 hx
              exact .append (hp (u, n) (by simp)) (.wrap t hy)
  obtain ⟨d, r, rfl, hd, ps, rfl, hp⟩ := key w
  rcases List.eq_nil_or_concat ps with rfl | ⟨ps, ⟨t, m⟩, rfl⟩
  · left; simpa using hd
  · right; exact ⟨d ++ ps.flatMap (fun x => Ev.b x.1 :: x.2), t, m, by simp, hp (t, m) (by simp)⟩

/-- C52: the number of reported stack errors is the number of end snapshots without a matching begin. -/
theorem C52_stack_errors (C : Cfg) (hi : C.incl = true) (th0 : Nat) (attrs : List AttrInfo) (h : List (BitVec 64 × COp)) :
    (State.run raw C (State.init C th0 attrs) h).1.tim.errors =
      ((State.run raw C (State.init C th0 attrs) h).2.filter fun s =>
        (match s.info with | some (.end_ _ _) => true | _ => false) && !s.sig && s.time.inclusive.isNone).length := by
  have key : ∀ s : State, (State.run raw C s h).1.tim.errors = s.tim.errors +
      ((State.run raw C s h).2.filter fun s =>
        (match s.info with | some (.end_ _ _) => true | _ => false) && !s.sig && s.time.inclusive.isNone).length := by
    induction h with
    | nil => intro s; rfl
    | cons x h ih =>
      obtain ⟨t, op⟩ := x
      intro s
      simp only [State.run]
      rw [ih, List.filter_append, List.length_append, ← Nat.add_assoc]
      congr 1
      rcases step_cases (raw := raw) (C := C) s t op with ⟨h1, h2 | ⟨th', h2⟩⟩ | ⟨th', sig, info, count, h1, h2⟩
      · rw [h1, h2]; rfl
      · rw [h1, h2]
        unfold TState.acquire
        cases s.tim.ti th' <;> rfl
      · rw [h1, h2]
        obtain ⟨-, -, -, -, g5, g6⟩ := snapshot_spec C.incl s.tim t th' sig info
        rw [g6, hi]
        rcases info with _ | ⟨x, v⟩ | ⟨x, v⟩ | ⟨x, v⟩ | _
        · simp
        · simp
        · simp
        · cases sig
          · simp only [List.filter_cons, ← hi, g5]
            simp only [hi]
            cases hl : (Option.map (fun x_1 => x_1.stacks x) (s.tim.ti th')).getD [] with
            | nil => simp
            | cons y ys => simp
          · simp
        · simp
  rw [key]
  simp [State.init, TState.acquire]

/-! ### from annotation calls to region times -/

theorem stack_length (E : EvtCfg) {ch th : Nat} {a : Attr} {ac : List Nat} {ia : Nat → Bool} (hc : ac.count ch = 1) (hs : a.skipEvents = false)
    (hk : a.kind = .region) (hl : scopeLoc a th = some (.thread th)) {ops : List RT.Op} {st : MTree.PathL}
    (hn : Nested (· = th) (.thread th) ops st) : ∀ (tm : List (Nat × RT.Op)) (c : Abs) (base : List (BitVec 64)), tm.map Prod.snd = ops → c.err th = false →
      (∀ op ∈ ops, op.attr.id = a.id → op.attr = a) → (∀ op ∈ ops, op.thread = th → op.loc ≠ some (.thread th) → op.attr.id ≠ a.id) →
      ∃ x, pp base (word raw E ch th a.id (absCallbacks ac ia c tm)) = base ++ x ∧
        x.length = (st.filter fun e => decide (e.1 = a.id ∧ Passes raw E a.id e.2)).length := by
  induction hn with
  | nil =>
    intro tm c base ht _ _ _
    obtain rfl := List.map_eq_nil_iff.1 ht
    exact ⟨[], by simp [absCallbacks, word, pp], rfl⟩
  | @begin ops st th' a' v hn hth hk' hl' ih =>
    subst hth
    intro tm c base ht he h1 h2
    obtain ⟨tm, y, rfl, ht', hy⟩ := List.map_eq_append_iff.1 ht
    obtain ⟨t, rfl⟩ : ∃ t, y = [(t, .begin th' a' v)] := by
      match y, hy with
      | [(t, o)], hy => simp at hy; exact ⟨t, by rw [hy]⟩
    obtain ⟨x, i1, i2⟩ := ih tm c base ht' he (fun o ho => h1 o (by simp [ho])) (fun o ho => h2 o (by simp [ho]))
    have herr := (abs_nested ac ia (T := (· = th')) (fun _ e => e ▸ he) hn).2 th' rfl
    rw [absCallbacks_append, word_append, pp_append, i1, ht']
    by_cases hid : a'.id = a.id
    · obtain rfl : a' = a := h1 (.begin th' a' v) (by simp) hid
      rw [word_begin E ch th' t ac ia _ a' v herr hs hc]
      by_cases hp : Passes raw E a'.id v
      · exact ⟨x ++ [BitVec.ofNat 64 t], by simp [hp, pp, pp1], by simp [hp, i2]⟩
      · exact ⟨x, by simp [hp, pp], by simp [hp, i2]⟩
    · rw [word_other E ch th' a.id t ac ia _ (.begin th' a' v) (fun h => hid h.2)]
      exact ⟨x, rfl, by simp [hid, i2]⟩
  | @endR ops st th' a' v hn hth hk' hl' ih =>
    subst hth
    intro tm c base ht he h1 h2
    obtain ⟨tm, y, rfl, ht', hy⟩ := List.map_eq_append_iff.1 ht
    obtain ⟨t, rfl⟩ : ∃ t, y = [(t, .endR th' a')] := by
      match y, hy with
      | [(t, o)], hy => simp at hy; exact ⟨t, by rw [hy]⟩
    obtain ⟨x, i1, i2⟩ := ih tm c base ht' he (fun o ho => h1 o (by simp [ho])) (fun o ho => h2 o (by simp [ho]))
    obtain ⟨hreg, herr⟩ := abs_nested ac ia (T := (· = th')) (fun _ e => e ▸ he) hn
    rw [absCallbacks_append, word_append, pp_append, i1, ht']
    by_cases hid : a'.id = a.id
    · obtain rfl : a' = a := h1 (.endR th' a') (by simp) hid
      have hend : ((c.run ac ia ops).ctx (.thread th')).endable a' = some v := by
        simp [Ctx.endable, hk, hreg]
      rw [(word_end E ch th' t ac ia _ a' v none (.endR th' a') rfl (herr th' rfl) hs hl hend (.inl rfl) hc).2]
      by_cases hp : Passes raw E a'.id v
      · rcases List.eq_nil_or_concat x with rfl | ⟨x, z, rfl⟩
        · simp [hp] at i2
        · exact ⟨x, by simp [hp, pp, pp1, ← List.append_assoc], by simp [hp] at i2; simpa using i2⟩
      · exact ⟨x, by simp [hp, pp], by simpa [hp] using i2⟩
    · rw [word_other E ch th' a.id t ac ia _ (.endR th' a') (fun h => hid h.2)]
      exact ⟨x, rfl, by simpa [hid] using i2⟩
  | @endCheck ops st th' a' v hn hth hk' hl' ih =>
    subst hth
    intro tm c base ht he h1 h2
    obtain ⟨tm, y, rfl, ht', hy⟩ := List.map_eq_append_iff.1 ht
    obtain ⟨t, rfl⟩ : ∃ t, y = [(t, .endCheck th' a' v)] := by
      match y, hy with
      | [(t, o)], hy => simp at hy; exact ⟨t, by rw [hy]⟩
    obtain ⟨x, i1, i2⟩ := ih tm c base ht' he (fun o ho => h1 o (by simp [ho])) (fun o ho => h2 o (by simp [ho]))
    obtain ⟨hreg, herr⟩ := abs_nested ac ia (T := (· = th')) (fun _ e => e ▸ he) hn
    rw [absCallbacks_append, word_append, pp_append, i1, ht']
    by_cases hid : a'.id = a.id
    · obtain rfl : a' = a := h1 (.endCheck th' a' v) (by simp) hid
      have hend : ((c.run ac ia ops).ctx (.thread th')).endable a' = some v := by
        simp [Ctx.endable, hk, hreg]
      rw [(word_end E ch th' t ac ia _ a' v (some v) (.endCheck th' a' v) rfl (herr th' rfl) hs hl hend (.inr rfl) hc).2]
      by_cases hp : Passes raw E a'.id v
      · rcases List.eq_nil_or_concat x with rfl | ⟨x, z, rfl⟩
        · simp [hp] at i2
        · exact ⟨x, by simp [hp, pp, pp1, ← List.append_assoc], by simp [hp] at i2; simpa using i2⟩
      · exact ⟨x, by simp [hp, pp], by simpa [hp] using i2⟩
    · rw [word_other E ch th' a.id t ac ia _ (.endCheck th' a' v) (fun h => hid h.2)]
      exact ⟨x, rfl, by simpa [hid] using i2⟩
  | @other ops st op hn hoth hend ih =>
    intro tm c base ht he h1 h2
    obtain ⟨tm, y, rfl, ht', hy⟩ := List.map_eq_append_iff.1 ht
    obtain ⟨t, rfl⟩ : ∃ t, y = [(t, op)] := by
      match y, hy with
      | [(t, o)], hy => simp at hy; exact ⟨t, by rw [hy]⟩
    obtain ⟨x, i1, i2⟩ := ih tm c base ht' he (fun o ho => h1 o (by simp [ho])) (fun o ho => h2 o (by simp [ho]))
    rw [absCallbacks_append, word_append, pp_append, i1]
    rw [word_other E ch th a.id t ac ia _ op]
    · exact ⟨x, rfl, i2⟩
    · rintro ⟨g1, g2⟩
      rcases hoth with g | g
      · exact h2 op (by simp) g1 g g2
      · exact g (by rw [h1 op (by simp) g2]; exact hk)

/-- C52 (partial: thread-scope region attributes; see `C52_violation_threads` for process-scope ones): if a thread begins a region, then makes
properly nested annotation calls, and ends the region, while other threads do whatever they want, the channel gets a snapshot for the end
with the region's value, and its inclusive duration is the time between the two calls.  The channel's services may be in any state before. -/
theorem C52_region_time_partial {s : RT.State} (hr : RtReach s) {ch th : Nat} {a : Attr} (v : Val) {mid : List (Nat × RT.Op)} {t0 t1 : Nat}
    (C : Cfg) (sv : State) (hinc : C.incl = true) (hinfo : C.evt.info = true) (hb : hasFilters C.evt.branch = false)
    (hm : sv.evt.marked a.id = true) (hp : Passes raw C.evt a.id v) (hact : s.active.count ch = 1)
    (hk : a.kind = .region) (hsc : a.scope = scopeThread) (hs : a.skipEvents = false) (he : s.err th = false)
    (hn : Nested (· = th) (.thread th) (mid.map Prod.snd) [])
    (hh : ∀ op ∈ mid, op.2.attr.id = a.id → op.2.attr = a) (hcha : ∀ op ∈ mid, op.2.thread = th → op.2.loc ≠ some (.thread th) → op.2.attr.id ≠ a.id)
    (ha : a.Valid s.tree) (hma : ∀ op ∈ mid, op.2.attr.Valid s.tree)
    (nl : NoLoss s (RT.run s (((t0, .begin th a v) :: (mid ++ [(t1, .endR th a)])).map Prod.snd))) :
    ∃ p e, (State.run raw C sv (machine (onChannel ch (callbacks s ((t0, .begin th a v) :: (mid ++ [(t1, .endR th a)])))))).2 = p ++ [e] ∧
      e.th = th ∧ e.info = some (.end_ a.id v) ∧ e.count = true ∧ e.time.offset = BitVec.ofNat 64 t1 ∧
      e.time.inclusive = some (BitVec.ofNat 64 t1 - BitVec.ofNat 64 t0) := by
  obtain ⟨c, R⟩ := hr.rel
  have hl : scopeLoc a th = some (.thread th) := by simp [scopeLoc, hsc]
  have hec : c.err th = false := by rw [← R.err]; exact he
  rw [callbacks_eq R _ (by
    intro op ho
    simp only [List.mem_cons, List.mem_append, List.not_mem_nil, or_false] at ho
    rcases ho with rfl | ho | rfl
    · exact ha
    · exact hma op ho
    · exact ha) nl]
  generalize s.active = ac at *
  generalize s.isActive = ia at *
  have e1 : absCallbacks ac ia c ((t0, .begin th a v) :: (mid ++ [(t1, .endR th a)])) =
      absCallbacks ac ia c ((t0, .begin th a v) :: mid) ++ absCallbacks ac ia (c.run ac ia (.begin th a v :: mid.map Prod.snd)) [(t1, .endR th a)] := by
    rw [← List.cons_append, absCallbacks_append]; rfl
  -- the context before the end
  have hn1 : Nested (· = th) (.thread th) [.begin th a v] [(a.id, v)] := Nested.begin (ops := []) .nil rfl hk hl
  have hreg : ((c.run ac ia (.begin th a v :: mid.map Prod.snd)).ctx (.thread th)).region = (c.ctx (.thread th)).region ++ [(a.id, v)] ∧
      (c.run ac ia (.begin th a v :: mid.map Prod.snd)).err th = false := by
    obtain ⟨g1, g2⟩ := abs_nested ac ia (T := (· = th)) (c := c) (fun _ e => e ▸ hec) hn1
    obtain ⟨g3, g4⟩ := abs_nested ac ia (T := (· = th)) (c := c.run ac ia [.begin th a v]) (fun _ e => e ▸ g2 th rfl) hn
    have : c.run ac ia (.begin th a v :: mid.map Prod.snd) = (c.run ac ia [.begin th a v]).run ac ia (mid.map Prod.snd) := rfl
    rw [this]
    exact ⟨by rw [g3, g1]; simp, g4 th rfl⟩
  have hendb : ((c.run ac ia (.begin th a v :: mid.map Prod.snd)).ctx (.thread th)).endable a = some v := by
    simp [Ctx.endable, hk, hreg.1]
  obtain ⟨w1, -⟩ := word_end (raw := raw) C.evt ch th t1 ac ia _ a v none (.endR th a) rfl hreg.2 hs hl hendb (.inl rfl) hact
  have hch : onChannel ch (absCallbacks ac ia (c.run ac ia (.begin th a v :: mid.map Prod.snd)) [(t1, .endR th a)]) =
      [(t1, .event ⟨.preEnd, ch, th, a.id, v⟩)] := by
    rw [w1]
    have : ∀ l : List Nat, ((l.map fun x => (⟨.preEnd, x, th, a.id, v⟩ : Event)).map fun e => (t1, e)).filter (fun x => decide (x.2.ch = ch)) =
        List.replicate (l.count ch) (t1, ⟨.preEnd, ch, th, a.id, v⟩) := by
      intro l
      induction l with
      | nil => rfl
      | cons y l ih =>
        simp only [List.map_cons, List.filter_cons]
        by_cases hy : y = ch
        · subst hy; simp only [decide_true, if_true, ih, List.count_cons_self, List.replicate_succ]
        · simp only [hy, decide_false, Bool.false_eq_true, if_false, ih, List.count_cons_of_ne hy]
    unfold onChannel
    rw [this, hact]
    rfl
  rw [e1]
  have hoc : ∀ x y, machine (onChannel ch (x ++ y)) = machine (onChannel ch x) ++ machine (onChannel ch y) := by
    intro x y; simp [machine, onChannel]
  rw [hoc, hch]
  have hmach : machine [(t1, .event ⟨.preEnd, ch, th, a.id, v⟩)] = [(BitVec.ofNat 64 t1, .event ⟨.preEnd, ch, th, a.id, v⟩)] := rfl
  rw [hmach, (run_snoc sv _ _ _).2]
  -- the open time stamps before the end
  have hstk := run_stk (raw := raw) hinc sv (machine (onChannel ch (absCallbacks ac ia c ((t0, .begin th a v) :: mid)))) th a.id
  rw [word_run hb hinfo ch th a.id _ sv hm] at hstk
  have e2 : absCallbacks ac ia c ((t0, .begin th a v) :: mid) =
      absCallbacks ac ia c [(t0, .begin th a v)] ++ absCallbacks ac ia (c.run ac ia [.begin th a v]) mid := by
    have := absCallbacks_append ac ia [(t0, .begin th a v)] mid c
    exact this
  obtain ⟨x, hx1, hx2⟩ := stack_length raw C.evt (ia := ia) hact hs hk hl hn mid (c.run ac ia [.begin th a v])
    (stk sv th a.id ++ [BitVec.ofNat 64 t0]) rfl ((abs_nested ac ia (T := (· = th)) (c := c) (fun _ e => e ▸ hec) hn1).2 th rfl)
    (by intro o ho; obtain ⟨y, hy, rfl⟩ := List.mem_map.1 ho; exact hh y hy)
    (by intro o ho; obtain ⟨y, hy, rfl⟩ := List.mem_map.1 ho; exact hcha y hy)
  obtain rfl : x = [] := by simpa using hx2
  rw [e2, word_append, pp_append, word_begin C.evt ch th t0 ac ia c a v hec hs hact, if_pos hp] at hstk
  have hstk2 : stk (State.run raw C sv (machine (onChannel ch (absCallbacks ac ia c ((t0, .begin th a v) :: mid))))).1 th a.id =
      stk sv th a.id ++ [BitVec.ofNat 64 t0] := by
    rw [e2, hstk]
    simpa [pp, pp1] using hx1
  have hmk : (State.run raw C sv (machine (onChannel ch (absCallbacks ac ia c ((t0, .begin th a v) :: mid))))).1.evt = sv.evt := by
    have : ∀ (l : List (Nat × Event)) (q : State), (State.run raw C q (machine (onChannel ch l))).1.evt = q.evt := by
      intro l
      induction l with
      | nil => intro q; rfl
      | cons z l ih =>
        obtain ⟨t, e⟩ := z
        intro q
        by_cases hz : e.ch = ch
        · have : machine (onChannel ch ((t, e) :: l)) = (BitVec.ofNat 64 t, .event e) :: machine (onChannel ch l) := by simp [machine, onChannel, hz]
          rw [this]
          simp only [State.run]
          rw [ih, event_step hb]
        · have : machine (onChannel ch ((t, e) :: l)) = machine (onChannel ch l) := by simp [machine, onChannel, hz]
          rw [this, ih]
    exact this _ _
  generalize (State.run raw C sv (machine (onChannel ch (absCallbacks ac ia c ((t0, .begin th a v) :: mid))))).1 = s1 at hstk2 hmk ⊢
  obtain ⟨-, g, -⟩ := event_nobranch (raw := raw) hb s1.evt ⟨.preEnd, ch, th, a.id, v⟩
  obtain ⟨g1, -, -, -, g5, -⟩ := snapshot_spec C.incl s1.tim (BitVec.ofNat 64 t1) th false (some (.end_ a.id v))
  refine ⟨(State.run raw C sv (machine (onChannel ch (absCallbacks ac ia c ((t0, .begin th a v) :: mid))))).2, ⟨th, false, some (.end_ a.id v), true, (s1.tim.snapshot C.incl (BitVec.ofNat 64 t1) th false (some (.end_ a.id v))).2⟩, ?_, rfl, rfl, rfl, g1, ?_⟩
  · congr 1
    simp only [State.step, State.take]
    rw [g ⟨by rw [hmk]; exact hm, hp⟩]
    simp [wanted, hinfo]
  · rw [g5]
    simp only [stk] at hstk2
    simp [hinc, hstk2]

/-- inclusive times on, no filters -/
def exT : Cfg := ⟨⟨fun _ => false, [], 0, true, ⟨none, none⟩, ⟨none, none⟩⟩, true⟩
/-- a region, with a nested one of the same attribute, and another thread at work -/
def exMid : List (Nat × RT.Op) :=
  [(20, .begin 3 exA (.ofInt 6)), (25, .begin 5 exA (.ofInt 7)), (30, .endR 3 exA), (35, .endR 5 exA)]
/-- the channel's state: the attribute is announced -/
def exSv : State := State.init exT 3 [⟨12, [], 0, false, false⟩]

/-- hypotheses of `C52_region_time_partial` -/
example : RtReach exS ∧ exT.incl = true ∧ exT.evt.info = true ∧ hasFilters exT.evt.branch = false ∧ exSv.evt.marked exA.id = true ∧
    Passes (fun _ => []) exT.evt exA.id (.ofInt 5) ∧ exS.active.count 7 = 1 ∧ exA.kind = .region ∧ exA.scope = scopeThread ∧
    exA.skipEvents = false ∧ exS.err 3 = false ∧ Nested (· = 3) (.thread 3) (exMid.map Prod.snd) [] ∧
    (∀ op ∈ exMid, op.2.attr.id = exA.id → op.2.attr = exA) ∧
    (∀ op ∈ exMid, op.2.thread = 3 → op.2.loc ≠ some (.thread 3) → op.2.attr.id ≠ exA.id) ∧
    exA.Valid exS.tree ∧ (∀ op ∈ exMid, op.2.attr.Valid exS.tree) ∧
    NoLoss exS (RT.run exS (((10, .begin 3 exA (.ofInt 5)) :: (exMid ++ [(50, .endR 3 exA)])).map Prod.snd)) := by
  refine ⟨.init exTree_reach _ _, rfl, rfl, rfl, by decide +kernel, by decide, by decide, by decide, by decide, by decide, by decide, ?_, ?_, ?_,
    exValid.1, ?_, ?_⟩
  · have h1 : Nested (· = 3) (.thread 3) [.begin 3 exA (.ofInt 6)] [(12, .ofInt 6)] := Nested.begin (a := exA) (ops := []) .nil rfl (by decide) (by decide)
    have h2 := Nested.other (op := .begin 5 exA (.ofInt 7)) h1 (.inl (by decide)) (by decide)
    have h3 : Nested (· = 3) (.thread 3) _ [] := Nested.endR (a := exA) (th := 3) (v := .ofInt 6) h2 rfl (by decide) (by decide)
    exact Nested.other (op := .endR 5 exA) h3 (.inl (by decide)) (by decide)
  · intro op ho _
    simp only [exMid, List.mem_cons, List.not_mem_nil, or_false] at ho
    rcases ho with rfl | rfl | rfl | rfl <;> rfl
  · intro op ho ht hl
    simp only [exMid, List.mem_cons, List.not_mem_nil, or_false] at ho
    rcases ho with rfl | rfl | rfl | rfl <;> first | exact absurd (by decide) hl | exact absurd ht (by decide)
  · intro op ho
    simp only [exMid, List.mem_cons, List.not_mem_nil, or_false] at ho
    rcases ho with rfl | rfl | rfl | rfl <;> exact exValid.1
  · exact noLoss_of exS _ [.thread 3, .thread 5] (by decide +kernel) (by decide +kernel) (by decide +kernel)

/-- what the channel records there: the outer region took 40, the inner one 10 -/
example : ((State.run (fun _ => []) exT exSv (machine (onChannel 7 (callbacks exS ((10, .begin 3 exA (.ofInt 5)) :: (exMid ++ [(50, .endR 3 exA)])))))).2.map
      fun s => (s.th, s.info, s.time.inclusive)) =
    [(3, some (.begin 12 (.ofInt 5)), none), (3, some (.begin 12 (.ofInt 6)), none), (5, some (.begin 12 (.ofInt 7)), none),
     (3, some (.end_ 12 (.ofInt 6)), some 10), (5, some (.end_ 12 (.ofInt 7)), some 10), (3, some (.end_ 12 (.ofInt 5)), some 40)] := by
  decide +kernel

/-- a region attribute shared by the whole process -/
def exProc : Attr := ⟨.cell 0 15, 15, 12#32⟩

/-- C52 (violation): time stamps are kept per thread although process-scope regions are shared.  Thread 1 begins region 1 at 10, thread 2
begins region 2 (inside) at 20, thread 1 ends it at 30 and thread 2 ends region 1 at 50: region 2 is reported with 20 instead of 10, and
region 1 with 30 instead of 40. -/
theorem C52_violation_threads :
    ((State.run (fun _ => []) exT (State.init exT 1 [⟨15, [], 0, false, false⟩]) (machine (onChannel 7 (callbacks exS
        [(10, .begin 1 exProc (.ofInt 1)), (20, .begin 2 exProc (.ofInt 2)), (30, .endR 1 exProc), (50, .endR 2 exProc)])))).2.map
      fun s => (s.info, s.time.inclusive)) =
    [(some (.begin 15 (.ofInt 1)), none), (some (.begin 15 (.ofInt 2)), none),
     (some (.end_ 15 (.ofInt 2)), some 20), (some (.end_ 15 (.ofInt 1)), some 30)] ∧
    ((State.run (fun _ => []) exT (State.init exT 1 [⟨15, [], 0, false, false⟩]) (machine (onChannel 7 (callbacks exS
        [(10, .begin 1 exProc (.ofInt 1)), (30, .endR 2 exProc)])))).2.map fun s => (s.info, s.time.inclusive)) =
    [(some (.begin 15 (.ofInt 1)), none), (some (.end_ 15 (.ofInt 1)), none)] := by decide +kernel

/-- hypotheses of `C52_inclusive`, `C52_unmatched` and `C52_durations_add_up` -/
example : Clock [(10, .event ⟨.preBegin, 0, 1, 12, .ofInt 5⟩), (30, .event ⟨.preEnd, 0, 1, 12, .ofInt 5⟩), (31, .event ⟨.preEnd, 0, 1, 12, .ofInt 5⟩)] ∧
    ∃ b e f, (State.run (fun _ => []) exT exSv
      [(10, .event ⟨.preBegin, 0, 1, 12, .ofInt 5⟩), (30, .event ⟨.preEnd, 0, 1, 12, .ofInt 5⟩), (31, .event ⟨.preEnd, 0, 1, 12, .ofInt 5⟩)]).2 =
        [] ++ [b] ++ [] ++ [e] ++ [f] ∧ (b.info = some (.begin 12 (.ofInt 5)) ∧ b.sig = false) ∧ (e.info = some (.end_ 12 (.ofInt 5)) ∧ e.sig = false) ∧
      b.th = e.th ∧ Bal (evs e.th 12 []) ∧ Drained (evs f.th 12 [b, e]) ∧ e.time.inclusive = some 20 ∧ f.time.inclusive = none ∧
      f.time.duration = some 1 := by
  refine ⟨⟨by simp, by simp⟩, ⟨1, false, some (.begin 12 (.ofInt 5)), false, ⟨10, some 10, none⟩⟩,
    ⟨1, false, some (.end_ 12 (.ofInt 5)), true, ⟨30, some 20, some 20⟩⟩,
    ⟨1, false, some (.end_ 12 (.ofInt 5)), true, ⟨31, some 1, none⟩⟩, by decide +kernel, ⟨rfl, rfl⟩, ⟨rfl, rfl⟩, rfl, .nil, ?_, rfl, rfl, rfl⟩
  exact Drained.bal .nil (Bal.wrap 10 .nil)

end Verif.Serv
