import Verif.Serv.Spec
import Verif.Runtime.AbsLemmas
namespace Verif.Serv
open Verif RT Verif.Parse

variable {raw : BitVec 64 → List Byte} {C : Cfg}

theorem run_append (s : State) (h g : List (BitVec 64 × COp)) :
    (State.run raw C s (h ++ g)).1 = (State.run raw C (State.run raw C s h).1 g).1 ∧
    (State.run raw C s (h ++ g)).2 = (State.run raw C s h).2 ++ (State.run raw C (State.run raw C s h).1 g).2 := by
  induction h generalizing s with
  | nil => exact ⟨rfl, rfl⟩
  | cons x h ih =>
    obtain ⟨t, op⟩ := x
    simp only [List.cons_append, State.run]
    exact ⟨(ih _).1, by rw [(ih _).2, List.append_assoc]⟩

theorem run_snoc (s : State) (h : List (BitVec 64 × COp)) (t : BitVec 64) (op : COp) :
    (State.run raw C s (h ++ [(t, op)])).1 = ((State.run raw C s h).1.step raw C t op).1 ∧
    (State.run raw C s (h ++ [(t, op)])).2 = (State.run raw C s h).2 ++ ((State.run raw C s h).1.step raw C t op).2 := by
  obtain ⟨h1, h2⟩ := run_append (raw := raw) (C := C) s h [(t, op)]
  rw [h1, h2]
  simp [State.run]

/-! ### event service -/

theorem check_iff (E : EvtCfg) (a : AttrInfo) : E.check a = true ↔ Selected E a := by
  unfold EvtCfg.check Selected
  by_cases h1 : a.id < 12
  · simp [h1]; omega
  cases h2 : a.skip
  · by_cases h3 : E.names = []
    · simp [h1, h3]; omega
    · have : 0 < E.names.length := List.length_pos_iff.2 h3
      simp [h1, h3, this]; intros; omega
  · simp [h1]

theorem step_marked (s : State) (t : BitVec 64) (op : COp) (i : Nat) :
    (s.step raw C t op).1.evt.marked i = true ↔ s.evt.marked i = true ∨
      ∃ a : AttrInfo, a.id = i ∧ Selected C.evt a ∧ ((a.subs = false ∧ op = .create a) ∨ op = .subscribe a) := by
  have mk : ∀ (e : EvtState) (a : AttrInfo), (e.mark C.evt a).marked i = true ↔ e.marked i = true ∨ (a.id = i ∧ Selected C.evt a) := by
    intro e a
    unfold EvtState.mark
    rw [← check_iff]
    split
    · rename_i hc
      by_cases hi : i = a.id
      · simp [hi, hc]
      · simp [hi, Ne.symm hi]
    · rename_i hc; simp [hc]
  cases op with
  | create a =>
    simp only [State.step, EvtState.create]
    split
    · rename_i hs
      constructor
      · exact Or.inl
      · rintro (h | ⟨b, -, -, ⟨h1, h2⟩ | h2⟩)
        · exact h
        · injection h2 with h2; subst h2; simp [hs] at h1
        · cases h2
    · rename_i hs
      rw [mk]
      refine or_congr_right ⟨fun ⟨h1, h2⟩ => ⟨a, h1, h2, .inl ⟨by simpa using hs, rfl⟩⟩, ?_⟩
      rintro ⟨b, h1, h2, ⟨-, h3⟩ | h3⟩
      · injection h3 with h3; subst h3; exact ⟨h1, h2⟩
      · cases h3
  | subscribe a =>
    simp only [State.step, EvtState.subscribe]
    rw [mk]
    refine or_congr_right ⟨fun ⟨h1, h2⟩ => ⟨a, h1, h2, .inr rfl⟩, ?_⟩
    rintro ⟨b, h1, h2, ⟨-, h3⟩ | h3⟩
    · cases h3
    · injection h3 with h3; subst h3; exact ⟨h1, h2⟩
  | event e =>
    have : (s.step raw C t (.event e)).1.evt.marked = s.evt.marked := by
      have he : ∀ a v, (s.evt.enter raw C.evt a v).1.marked = s.evt.marked := by
        intro a v; unfold EvtState.enter
        split; · rfl
        split; · rfl
        split
        · by_cases hh : (if C.evt.branch.pass (bytesOf raw v) = true then s.evt.stack ++ [v] else s.evt.stack) = []
          · simp only [hh, if_true]
          · simp only [hh, if_false]
        · rfl
      have hl : ∀ a v, (s.evt.leave raw C.evt a v).1.marked = s.evt.marked := by
        intro a v; unfold EvtState.leave
        split; · rfl
        split; · rfl
        split
        · split; · rfl
          split <;> rfl
        · rfl
      have hev : (s.evt.event raw C.evt e).1.marked = s.evt.marked := by
        unfold EvtState.event
        split
        · exact he _ _
        · exact he _ _
        · exact hl _ _
        · rfl
      simp only [State.step, State.take]
      split <;> simp [hev]
    rw [this]; simp
  | attach th => simp [State.step]
  | snap th sig info => simp [State.step, State.take]

theorem run_marked (s : State) (h : List (BitVec 64 × COp)) (i : Nat) :
    (State.run raw C s h).1.evt.marked i = true ↔ s.evt.marked i = true ∨
      ∃ a : AttrInfo, a.id = i ∧ Selected C.evt a ∧ ((a.subs = false ∧ ∃ t, (t, COp.create a) ∈ h) ∨ ∃ t, (t, COp.subscribe a) ∈ h) := by
  induction h generalizing s with
  | nil => simp [State.run]
  | cons x h ih =>
    obtain ⟨t, op⟩ := x
    simp only [State.run]
    rw [ih, step_marked, or_assoc]
    refine or_congr_right ?_
    constructor
    · rintro (⟨a, h1, h2, ⟨h3, rfl⟩ | rfl⟩ | ⟨a, h1, h2, ⟨h3, t', h4⟩ | ⟨t', h4⟩⟩)
      · exact ⟨a, h1, h2, .inl ⟨h3, t, by simp⟩⟩
      · exact ⟨a, h1, h2, .inr ⟨t, by simp⟩⟩
      · exact ⟨a, h1, h2, .inl ⟨h3, t', by simp [h4]⟩⟩
      · exact ⟨a, h1, h2, .inr ⟨t', by simp [h4]⟩⟩
    · rintro ⟨a, h1, h2, ⟨h3, t', h4⟩ | ⟨t', h4⟩⟩
      · rcases List.mem_cons.1 h4 with h4 | h4
        · injection h4 with _ h4; exact .inl ⟨a, h1, h2, .inl ⟨h3, h4.symm⟩⟩
        · exact .inr ⟨a, h1, h2, .inl ⟨h3, t', h4⟩⟩
      · rcases List.mem_cons.1 h4 with h4 | h4
        · injection h4 with _ h4; exact .inl ⟨a, h1, h2, .inr h4.symm⟩
        · exact .inr ⟨a, h1, h2, .inr ⟨t', h4⟩⟩

theorem init_marked (th0 : Nat) (attrs : List AttrInfo) (i : Nat) :
    (State.init C th0 attrs).evt.marked i = true ↔ ∃ a ∈ attrs, a.id = i ∧ Selected C.evt a ∧ a.subs = false := by
  have key : ∀ (l : List AttrInfo) (e : EvtState), (l.foldl (fun s a => s.create C.evt a) e).marked i = true ↔
      e.marked i = true ∨ ∃ a ∈ l, a.id = i ∧ Selected C.evt a ∧ a.subs = false := by
    intro l
    induction l with
    | nil => simp
    | cons a l ih =>
      intro e
      rw [List.foldl_cons, ih]
      have : (e.create C.evt a).marked i = true ↔ e.marked i = true ∨ (a.id = i ∧ Selected C.evt a ∧ a.subs = false) := by
        unfold EvtState.create EvtState.mark
        rw [← check_iff]
        split
        · rename_i hs; simp [hs]
        · rename_i hs
          split
          · rename_i hc
            by_cases hi : i = a.id
            · simp [hi, hc]; exact .inr (by simpa using hs)
            · simp [hi, Ne.symm hi]
          · rename_i hc; simp [hc]
      rw [this]
      simp only [List.mem_cons, exists_eq_or_imp, or_assoc]
  unfold State.init
  simp only [key]
  simp

theorem marked_iff (th0 : Nat) (attrs : List AttrInfo) (h : List (BitVec 64 × COp)) (i : Nat) :
    (State.run raw C (State.init C th0 attrs) h).1.evt.marked i = true ↔ Announced C.evt attrs h i := by
  rw [run_marked, init_marked]
  unfold Announced
  constructor
  · rintro (⟨a, h0, h1, h2, h3⟩ | ⟨a, h1, h2, ⟨h3, h4⟩ | h4⟩)
    · exact ⟨a, h1, h2, .inl ⟨h3, .inl h0⟩⟩
    · exact ⟨a, h1, h2, .inl ⟨h3, .inr h4⟩⟩
    · exact ⟨a, h1, h2, .inr h4⟩
  · rintro ⟨a, h1, h2, ⟨h3, h4 | h4⟩ | h4⟩
    · exact .inl ⟨a, h4, h1, h2, h3⟩
    · exact .inr ⟨a, h1, h2, .inl ⟨h3, h4⟩⟩
    · exact .inr ⟨a, h1, h2, .inr h4⟩

/-- without branch filter -/
theorem event_nobranch (hb : hasFilters C.evt.branch = false) (s : EvtState) (e : Event) :
    (s.event raw C.evt e).1 = s ∧
    ((s.marked e.attr = true ∧ Passes raw C.evt e.attr e.val) → (s.event raw C.evt e).2 = wanted C.evt e) ∧
    (¬(s.marked e.attr = true ∧ Passes raw C.evt e.attr e.val) → (s.event raw C.evt e).2 = none) := by
  have h1 : ∃ b, s.enter raw C.evt e.attr e.val = (s, b) ∧ s.leave raw C.evt e.attr e.val = (s, b) ∧
      (b = true ↔ s.marked e.attr = true ∧ Passes raw C.evt e.attr e.val) := by
    unfold EvtState.enter EvtState.leave Passes
    cases s.marked e.attr <;> cases C.evt.isStr e.attr <;> cases C.evt.region.pass (bytesOf raw e.val) <;> simp [hb]
  obtain ⟨b, h1, h2, h3⟩ := h1
  rw [← h3]
  unfold EvtState.event wanted
  rw [h1, h2]
  cases e.kind <;> cases b <;> simp

/-! ### timer service -/

/-- time stamp of the last snapshot of a thread -/
def prevOf (s : State) (th : Nat) : BitVec 64 := ((s.tim.ti th).map (·.prev)).getD 0

/-- open begin time stamps -/
def stk (s : State) (th a : Nat) : List (BitVec 64) := ((s.tim.ti th).map (·.stacks a)).getD []

/-- effect of a begin or end on the open time stamps -/
def pp1 (l : List (BitVec 64)) : Ev → List (BitVec 64)
  | .b t => l ++ [t]
  | .e => l.dropLast

/-- effect of a sequence -/
def pp (l : List (BitVec 64)) (w : List Ev) : List (BitVec 64) := w.foldl pp1 l

theorem pp_append (l : List (BitVec 64)) (v w : List Ev) : pp l (v ++ w) = pp (pp l v) w := List.foldl_append

theorem pp_bal {w : List Ev} (h : Bal w) : ∀ l, pp l w = l := by
  induction h with
  | nil => intro l; rfl
  | wrap t _ ih =>
    intro l
    show pp (l ++ [t]) (_ ++ [.e]) = l
    rw [pp_append, ih]
    simp [pp, pp1]
  | append _ _ ih1 ih2 => intro l; rw [pp_append, ih1, ih2]

theorem pp_drained {w : List Ev} (h : Drained w) : pp [] w = [] := by
  induction h with
  | nil => rfl
  | bal _ hb ih => rw [pp_append, ih, pp_bal hb]
  | surplus _ ih => rw [pp_append, ih]; rfl

theorem evs_append (th a : Nat) (x y : List Snap) : evs th a (x ++ y) = evs th a x ++ evs th a y := by
  induction x with
  | nil => rfl
  | cons s x ih =>
    simp only [List.cons_append, evs, ih]
    by_cases h : s.th = th ∧ s.sig = false
    · rw [if_pos h, if_pos h]
      split
      · split <;> rfl
      · split <;> rfl
      · rfl
    · rw [if_neg h, if_neg h]

/-- the effect of a snapshot on the timer service -/
theorem snapshot_spec (incl : Bool) (s : TState) (now : BitVec 64) (th : Nat) (sig : Bool) (info : Option Trig) :
    (s.snapshot incl now th sig info).2.offset = now ∧
    (∀ th', th' ≠ th → (s.snapshot incl now th sig info).1.ti th' = s.ti th') ∧
    ((s.snapshot incl now th sig info).2.duration = some (now - ((s.ti th).map (·.prev)).getD 0) ∧
        (∃ i, (s.snapshot incl now th sig info).1.ti th = some i ∧ i.prev = now) ∨
      (s.snapshot incl now th sig info).2.duration = none ∧ (s.snapshot incl now th sig info).1 = s ∧ sig = true) ∧
    (∀ a, ((((s.snapshot incl now th sig info).1.ti th).map (·.stacks a)).getD [] : List (BitVec 64)) =
      (match info with
        | some (.begin x _) => if incl = true ∧ sig = false ∧ x = a then ((s.ti th).map (·.stacks a)).getD [] ++ [now] else ((s.ti th).map (·.stacks a)).getD []
        | some (.end_ x _) => if incl = true ∧ sig = false ∧ x = a then (((s.ti th).map (·.stacks a)).getD []).dropLast else ((s.ti th).map (·.stacks a)).getD []
        | _ => ((s.ti th).map (·.stacks a)).getD [])) ∧
    (s.snapshot incl now th sig info).2.inclusive =
      (match info with
        | some (.end_ x _) => if incl = true ∧ sig = false then ((((s.ti th).map (·.stacks x)).getD []).getLast?).map (now - ·) else none
        | _ => none) ∧
    (s.snapshot incl now th sig info).1.errors = s.errors +
      (match info with
        | some (.end_ x _) => if incl = true ∧ sig = false ∧ ((s.ti th).map (·.stacks x)).getD [] = [] then 1 else 0
        | _ => 0) := by
  unfold TState.snapshot TState.acquire
  cases hi : s.ti th with
  | none =>
    cases sig with
    | true => 
      simp [hi]
      rcases info with _ | ⟨_ | _ | _ | _⟩ <;> simp
    | false =>
      cases incl <;> rcases info with _ | ⟨x, v⟩ | ⟨x, v⟩ | ⟨x, v⟩ | _ <;> simp +contextual [BB.upd, TInfo.new] <;> intro a <;> split <;> first | (simp_all; done) | (rename_i h; simp [Ne.symm h])
  | some i =>
    cases sig with
    | true => cases incl <;> rcases info with _ | ⟨x, v⟩ | ⟨x, v⟩ | ⟨x, v⟩ | _ <;> simp +contextual [BB.upd]
    | false =>
      cases incl
      · rcases info with _ | ⟨x, v⟩ | ⟨x, v⟩ | ⟨x, v⟩ | _ <;> simp +contextual [BB.upd]
      · rcases info with _ | ⟨x, v⟩ | ⟨x, v⟩ | ⟨x, v⟩ | _
        · simp +contextual [BB.upd]
        · simp +contextual [BB.upd]
          intro a; by_cases h : a = x
          · simp [h]
          · simp [h, Ne.symm h]
        · simp +contextual [BB.upd]
        · cases hl : (i.stacks x).getLast? with
          | none =>
            have h0 : i.stacks x = [] := List.getLast?_eq_none_iff.1 hl
            simp +contextual [BB.upd, hl, h0]
          | some t =>
            have h0 : i.stacks x ≠ [] := by intro h; simp [h] at hl
            simp +contextual [BB.upd, hl, h0]
            intro a; by_cases h : a = x
            · simp [h]
            · simp [h, Ne.symm h]
        · simp +contextual [BB.upd]

theorem step_cases (s : State) (t : BitVec 64) (op : COp) :
    ((s.step raw C t op).2 = [] ∧ ((s.step raw C t op).1.tim = s.tim ∨ ∃ th, (s.step raw C t op).1.tim = (s.tim.acquire th false).1)) ∨
    ∃ th sig info count, (s.step raw C t op).1.tim = (s.tim.snapshot C.incl t th sig info).1 ∧
      (s.step raw C t op).2 = [⟨th, sig, info, count, (s.tim.snapshot C.incl t th sig info).2⟩] := by
  cases op with
  | event e =>
    simp only [State.step, State.take]
    split
    · exact .inl ⟨rfl, .inl rfl⟩
    · rename_i r _; exact .inr ⟨e.th, false, r.info, r.count, rfl, rfl⟩
  | create a => exact .inl ⟨rfl, .inl rfl⟩
  | subscribe a => exact .inl ⟨rfl, .inl rfl⟩
  | attach th => exact .inl ⟨rfl, .inr ⟨th, rfl⟩⟩
  | snap th sig info => exact .inr ⟨th, sig, info, false, rfl, rfl⟩

theorem acquire_same (s : TState) (th' th a : Nat) :
    (((s.acquire th' false).1.ti th).map (·.prev)).getD 0 = ((s.ti th).map (·.prev)).getD 0 ∧
    (((s.acquire th' false).1.ti th).map (·.stacks a)).getD [] = ((s.ti th).map (·.stacks a)).getD [] := by
  unfold TState.acquire
  cases h : s.ti th' with
  | some i => simp
  | none =>
    by_cases e : th = th'
    · subst e; simp [BB.upd, h, TInfo.new]
    · simp [BB.upd, e]

/-- effect of a step on the open time stamps -/
theorem step_stk (hi : C.incl = true) (s : State) (t : BitVec 64) (op : COp) (th a : Nat) :
    stk (s.step raw C t op).1 th a = pp (stk s th a) (evs th a (s.step raw C t op).2) := by
  rcases step_cases (raw := raw) (C := C) s t op with ⟨h1, h2 | ⟨th', h2⟩⟩ | ⟨th', sig, info, count, h1, h2⟩
  · rw [h1]; unfold stk; rw [h2]; rfl
  · rw [h1]; unfold stk; rw [h2, (acquire_same s.tim th' th a).2]; rfl
  · rw [h2]
    unfold stk
    rw [h1]
    obtain ⟨g1, g2, -, g4, -⟩ := snapshot_spec C.incl s.tim t th' sig info
    by_cases e : th' = th
    · subst e
      rw [g4, hi]
      cases sig
      · rcases info with _ | ⟨x, v⟩ | ⟨x, v⟩ | ⟨x, v⟩ | _ <;> simp [evs, pp, pp1]
        · split <;> simp [pp, pp1, g1, ← hi]
        · split <;> simp [pp, pp1]
      · rcases info with _ | ⟨x, v⟩ | ⟨x, v⟩ | ⟨x, v⟩ | _ <;> simp [evs, pp]
    · rw [g2 th (Ne.symm e)]
      simp [evs, e, pp]

theorem run_stk (hi : C.incl = true) (s : State) (h : List (BitVec 64 × COp)) (th a : Nat) :
    stk (State.run raw C s h).1 th a = pp (stk s th a) (evs th a (State.run raw C s h).2) := by
  induction h generalizing s with
  | nil => rfl
  | cons x h ih =>
    obtain ⟨t, op⟩ := x
    simp only [State.run]
    rw [ih, step_stk hi, evs_append, pp_append]

theorem stk_init (th0 : Nat) (attrs : List AttrInfo) (th a : Nat) : stk (State.init C th0 attrs) th a = [] := by
  unfold stk State.init
  simp only
  rw [(acquire_same _ th0 th a).2]
  rfl

/-- what an end snapshot of a history records -/
theorem run_end (hi : C.incl = true) (h : List (BitVec 64 × COp)) : ∀ (s : State) (p q : List Snap) (e : Snap) (a : Nat) (v : Val),
    (State.run raw C s h).2 = p ++ e :: q → e.sig = false → e.info = some (.end_ a v) →
    e.time.inclusive = (pp (stk s e.th a) (evs e.th a p)).getLast?.map (e.time.offset - ·) := by
  induction h with
  | nil => intro s p q e a v he; simp [State.run] at he
  | cons x h ih =>
    obtain ⟨t, op⟩ := x
    intro s p q e a v he hs hin
    simp only [State.run] at he
    have hst := step_stk (raw := raw) hi s t op e.th a
    rcases step_cases (raw := raw) (C := C) s t op with ⟨h1, -⟩ | ⟨th', sig, info, count, h1, h2⟩
    · rw [h1, List.nil_append] at he
      rw [ih _ p q e a v he hs hin, hst, h1]; rfl
    · rw [h2] at he
      cases p with
      | nil =>
        simp only [List.nil_append, List.singleton_append, List.cons.injEq] at he
        obtain ⟨rfl, -⟩ := he
        simp only at hs hin
        subst hs hin
        obtain ⟨g1, -, -, -, g5, -⟩ := snapshot_spec C.incl s.tim t th' false (some (.end_ a v))
        simp only [evs, pp, List.foldl_nil]
        rw [g5, g1, hi]
        simp [stk]
      | cons y p =>
        simp only [List.cons_append, List.nil_append, List.cons.injEq] at he
        obtain ⟨rfl, he⟩ := he
        have := ih _ p q e a v he hs hin
        rw [this, hst, h2, ← pp_append, ← evs_append]
        rfl

/-- effect of a step on the previous time stamp -/
theorem step_prev (s : State) (t : BitVec 64) (op : COp) (th : Nat) :
    (durations th (s.step raw C t op).2 = [] ∧ stamps th (s.step raw C t op).2 = [] ∧ prevOf (s.step raw C t op).1 th = prevOf s th) ∨
    (durations th (s.step raw C t op).2 = [t - prevOf s th] ∧ stamps th (s.step raw C t op).2 = [t] ∧ prevOf (s.step raw C t op).1 th = t) := by
  rcases step_cases (raw := raw) (C := C) s t op with ⟨h1, h2 | ⟨th', h2⟩⟩ | ⟨th', sig, info, count, h1, h2⟩
  · left; rw [h1]; unfold prevOf; rw [h2]; exact ⟨rfl, rfl, rfl⟩
  · left; rw [h1]; unfold prevOf; rw [h2]; exact ⟨rfl, rfl, (acquire_same s.tim th' th 0).1⟩
  · rw [h2]
    obtain ⟨g1, g2, g3, -⟩ := snapshot_spec C.incl s.tim t th' sig info
    by_cases e : th' = th
    · subst e
      rcases g3 with ⟨g3, i, g4, g5⟩ | ⟨g3, g4, -⟩
      · right
        refine ⟨by simp [durations, g3, prevOf], by simp [stamps, g3, g1], ?_⟩
        unfold prevOf; rw [h1, g4]; simp [g5]
      · left
        refine ⟨by simp [durations, g3], by simp [stamps, g3], ?_⟩
        unfold prevOf; rw [h1, g4]
    · left
      refine ⟨by simp [durations, e], by simp [stamps, e], ?_⟩
      unfold prevOf; rw [h1, g2 th (Ne.symm e)]

theorem durations_append (th : Nat) (x y : List Snap) : durations th (x ++ y) = durations th x ++ durations th y := by simp [durations]
theorem stamps_append (th : Nat) (x y : List Snap) : stamps th (x ++ y) = stamps th x ++ stamps th y := by simp [stamps]

theorem run_prev (h : List (Nat × COp)) : ∀ (s : State) (th : Nat), Clock h → (∀ x ∈ h, (prevOf s th).toNat ≤ x.1) →
    ((durations th (State.run raw C s (machine h)).2).map BitVec.toNat).sum + (prevOf s th).toNat =
      (((stamps th (State.run raw C s (machine h)).2).getLast?).getD (prevOf s th)).toNat := by
  induction h with
  | nil => intro s th _ _; simp [machine, State.run, durations, stamps]
  | cons x h ih =>
    obtain ⟨t, op⟩ := x
    intro s th hc hp
    have hc' : Clock h := ⟨(List.pairwise_cons.1 hc.1).2, fun y hy => hc.2 y (by simp [hy])⟩
    have hle : ∀ y ∈ h, t ≤ y.1 := fun y hy => (List.pairwise_cons.1 hc.1).1 y.1 (List.mem_map_of_mem hy)
    have ht : t < 2 ^ 64 := hc.2 (t, op) (by simp)
    have htn : (BitVec.ofNat 64 t).toNat = t := by rw [BitVec.toNat_ofNat]; exact Nat.mod_eq_of_lt ht
    have hpt : (prevOf s th).toNat ≤ t := hp (t, op) (by simp)
    simp only [machine, List.map_cons, State.run]
    change _ = (((stamps th (((s.step raw C (BitVec.ofNat 64 t) op).2) ++ (State.run raw C (s.step raw C (BitVec.ofNat 64 t) op).1 (machine h)).2)).getLast?).getD _).toNat
    rw [durations_append, stamps_append]
    change (List.map _ (durations th (s.step raw C (BitVec.ofNat 64 t) op).2 ++ durations th (State.run raw C (s.step raw C (BitVec.ofNat 64 t) op).1 (machine h)).2)).sum + _ = _
    rcases step_prev (raw := raw) (C := C) s (BitVec.ofNat 64 t) op th with ⟨h1, h2, h3⟩ | ⟨h1, h2, h3⟩
    · have := ih (s.step raw C (BitVec.ofNat 64 t) op).1 th hc' (by rw [h3]; exact fun y hy => hp y (by simp [hy]))
      rw [h1, h2, List.nil_append, List.nil_append]
      rw [h3] at this
      exact this
    · have := ih (s.step raw C (BitVec.ofNat 64 t) op).1 th hc' (by rw [h3, htn]; exact hle)
      rw [h1, h2]
      rw [h3, htn] at this
      have hsub : (BitVec.ofNat 64 t - prevOf s th).toNat = t - (prevOf s th).toNat := by
        rw [BitVec.toNat_sub_of_le (by rw [BitVec.le_def, htn]; exact hpt), htn]
      simp only [List.cons_append, List.nil_append, List.map_cons, List.sum_cons, hsub]
      have e : ([BitVec.ofNat 64 t] ++ stamps th (State.run raw C (s.step raw C (BitVec.ofNat 64 t) op).1 (machine h)).2).getLast?.getD (prevOf s th) =
          (stamps th (State.run raw C (s.step raw C (BitVec.ofNat 64 t) op).1 (machine h)).2).getLast?.getD (BitVec.ofNat 64 t) := by
        rw [List.getLast?_append]
        cases (stamps th (State.run raw C (s.step raw C (BitVec.ofNat 64 t) op).1 (machine h)).2).getLast? <;> simp
      simp only [List.cons_append, List.nil_append] at e
      rw [e, ← this]
      omega

theorem prevOf_init (th0 : Nat) (attrs : List AttrInfo) (th : Nat) : prevOf (State.init C th0 attrs) th = 0 := by
  unfold prevOf State.init
  simp only
  rw [(acquire_same _ th0 th 0).1]
  rfl

end Verif.Serv
