import Verif.Prof.Lemmas
/-!
# Lemmas for region profiles: the snapshots of one call
-/
namespace Verif.Prof
open Verif RT MTree Capi Serv

variable {raw : BitVec 64 → List Byte} {C : Serv.Cfg}

theorem filter_ch (ac : List Nat) (ch : Nat) (k : EvKind) (th a : Nat) (v : Verif.Val) :
    ((ac.map fun x => (⟨k, x, th, a, v⟩ : Event)).filter fun e => decide (e.ch = ch)) = List.replicate (ac.count ch) ⟨k, ch, th, a, v⟩ := by
  induction ac with
  | nil => rfl
  | cons x ac ih =>
    by_cases h : x = ch
    · subst h; simp [List.count_cons_self, List.replicate_succ, ih]
    · simp [h, List.count_cons_of_ne h, ih]

theorem callbacks_abs {s : RT.State} {c : Abs} (R : RelS s c) {op : RT.Op} (ha : op.attr.Valid s.tree) (nl : NoLoss s (RT.step s op)) (ch : Nat) :
    callbacks ch s op = ((c.step s.active s.isActive op).log.drop c.log.length).filter fun e => decide (e.ch = ch) := by
  obtain ⟨R1, -⟩ := step_sim R ha nl
  unfold callbacks
  rw [R1.log, R.log]

/-- events of other threads -/
theorem run_other (hb : hasFilters C.evt.branch = false) (t : BitVec 64) (th : Nat) (es : List Event) (h : ∀ e ∈ es, e.th ≠ th) (v : Serv.State) :
    (Serv.State.run raw C v (es.map fun e => (t, .event e))).1.evt = v.evt ∧
    prevOf (Serv.State.run raw C v (es.map fun e => (t, .event e))).1 th = prevOf v th ∧
    ∀ sn ∈ (Serv.State.run raw C v (es.map fun e => (t, .event e))).2, sn.th ≠ th := by
  induction es generalizing v with
  | nil => exact ⟨rfl, rfl, by simp [Serv.State.run]⟩
  | cons e es ih =>
    simp only [List.map_cons, Serv.State.run]
    obtain ⟨i1, i2, i3⟩ := ih (fun e he => h e (by simp [he])) (v.step raw C t (.event e)).1
    have hth := h e (by simp)
    have h1 : prevOf (v.step raw C t (.event e)).1 th = prevOf v th ∧ ∀ sn ∈ (v.step raw C t (.event e)).2, sn.th ≠ th := by
      simp only [Serv.State.step, Serv.State.take]
      split
      · exact ⟨rfl, by simp⟩
      · rename_i r _
        constructor
        · unfold prevOf
          have := (snapshot_spec C.incl v.tim t e.th false r.info).2.1 th (Ne.symm hth)
          rw [this]
        · intro sn hs
          rw [List.mem_singleton] at hs
          subst hs; exact hth
    refine ⟨i1.trans (event_step hb v t e), i2.trans h1.1, ?_⟩
    intro sn hs
    rcases List.mem_append.1 hs with hs | hs
    · exact h1.2 sn hs
    · exact i3 sn hs

/-- an event that triggers a snapshot -/
theorem event_one (hb : hasFilters C.evt.branch = false) (hinfo : C.evt.info = false) (v : Serv.State) (t : BitVec 64) (e : Event)
    (hm : v.evt.marked e.attr = true) (hp : Passes raw C.evt e.attr e.val) (hk : e.kind = .preBegin ∨ e.kind = .preEnd) :
    (v.step raw C t (.event e)).1.evt = v.evt ∧ prevOf (v.step raw C t (.event e)).1 e.th = t ∧
    (v.step raw C t (.event e)).2 = [⟨e.th, false, none, decide (e.kind = .preEnd), ⟨t, some (t - prevOf v e.th), none⟩⟩] := by
  refine ⟨event_step hb v t e, ?_⟩
  have g := (event_nobranch (raw := raw) hb v.evt e).2.1 ⟨hm, hp⟩
  have hw : wanted C.evt e = some ⟨none, decide (e.kind = .preEnd)⟩ := by
    unfold wanted
    rcases hk with hk | hk <;> rw [hk] <;> simp [hinfo]
  rw [hw] at g
  simp only [Serv.State.step, g, Serv.State.take]
  obtain ⟨s1, -, s3, -, s5, -⟩ := snapshot_spec C.incl v.tim t e.th false none
  rcases s3 with ⟨s3, i, s4, s6⟩ | ⟨-, -, s3⟩
  · constructor
    · unfold prevOf
      rw [s4]; simp [s6]
    · congr 2
      have hpv : prevOf v e.th = ((v.tim.ti e.th).map (·.prev)).getD 0 := rfl
      rw [hpv]
      generalize (v.tim.snapshot C.incl t e.th false none).2 = r at *
      obtain ⟨a, b, c⟩ := r
      simp only at s1 s3 s5
      subst s1 s3 s5
      rfl
  · simp at s3

theorem event_post (v : Serv.State) (t : BitVec 64) (e : Event) (hk : e.kind = .postBegin) : v.step raw C t (.event e) = (v, []) := by
  simp [Serv.State.step, EvtState.event, hk]

/-- a begin call -/
theorem begin_call (hb : hasFilters C.evt.branch = false) (hinfo : C.evt.info = false) {s : RT.State} {c : Abs} (R : RelS s c) {th : Nat} {a : Attr}
    {x : Verif.Val} (ha : a.Valid s.tree) (nl : NoLoss s (RT.step s (.begin th a x))) {ch : Nat} (hch : s.active.count ch = 1)
    (he : c.err th = false) (hs : a.skipEvents = false) (v : Serv.State) (t : BitVec 64) (hm : v.evt.marked a.id = true)
    (hp : Passes raw C.evt a.id x) :
    let r := Serv.State.run raw C v ((callbacks ch s (.begin th a x)).map fun e => (t, .event e))
    r.1.evt = v.evt ∧ prevOf r.1 th = t ∧ r.2 = [⟨th, false, none, false, ⟨t, some (t - prevOf v th), none⟩⟩] := by
  have hcb : callbacks ch s (.begin th a x) = [⟨.preBegin, ch, th, a.id, x⟩, ⟨.postBegin, ch, th, a.id, x⟩] := by
    rw [callbacks_abs R (op := .begin th a x) ha nl]
    have : (c.step s.active s.isActive (.begin th a x)).log =
        c.log ++ ((s.active.map fun y => ⟨.preBegin, y, th, a.id, x⟩) ++ (s.active.map fun y => ⟨.postBegin, y, th, a.id, x⟩)) := by
      simp only [Abs.step, he, Bool.false_eq_true, if_false]
      rw [emitAll_log]
      split
      · rw [emitAll_log]; simp [hs]
      · rw [put_log, emitAll_log]; simp [hs]
    rw [this, List.drop_left, List.filter_append, filter_ch, filter_ch, hch]
    rfl
  rw [hcb]
  simp only [List.map_cons, List.map_nil, Serv.State.run]
  obtain ⟨e1, e2, e3⟩ := event_one hb hinfo v t ⟨.preBegin, ch, th, a.id, x⟩ hm hp (.inl rfl)
  rw [event_post _ t ⟨.postBegin, ch, th, a.id, x⟩ rfl, e3]
  exact ⟨e1, e2, by simp⟩

/-- an end call for the innermost region -/
theorem end_call (hb : hasFilters C.evt.branch = false) (hinfo : C.evt.info = false) {s : RT.State} {c : Abs} (R : RelS s c) {th : Nat} {a : Attr}
    {x : Verif.Val} {op : RT.Op} {ck : Option Verif.Val} (ha : op.attr.Valid s.tree) (nl : NoLoss s (RT.step s op))
    (hop : c.step s.active s.isActive op = c.endCore s.active th a ck) {ch : Nat} (hch : s.active.count ch = 1)
    (he : c.err th = false) (hs : a.skipEvents = false) {l : Loc} (hl : scopeLoc a th = some l) (hv : (c.ctx l).endable a = some x)
    (hck : ck = none ∨ ck = some x) (v : Serv.State) (t : BitVec 64) (hm : v.evt.marked a.id = true) (hp : Passes raw C.evt a.id x) :
    let r := Serv.State.run raw C v ((callbacks ch s op).map fun e => (t, .event e))
    r.1.evt = v.evt ∧ prevOf r.1 th = t ∧ r.2 = [⟨th, false, none, true, ⟨t, some (t - prevOf v th), none⟩⟩] := by
  have hcb : callbacks ch s op = [⟨.preEnd, ch, th, a.id, x⟩] := by
    rw [callbacks_abs R (op := op) ha nl, hop]
    unfold Abs.endCore
    simp only [he, Bool.false_eq_true, if_false, hl, hv]
    rw [if_pos hck]
    simp only [Abs.endAt, put_log, emitAll_log, hs, Bool.false_eq_true, if_false, List.drop_left]
    rw [filter_ch, hch]; rfl
  rw [hcb]
  simp only [List.map_cons, List.map_nil, Serv.State.run]
  obtain ⟨e1, e2, e3⟩ := event_one hb hinfo v t ⟨.preEnd, ch, th, a.id, x⟩ hm hp (.inr rfl)
  rw [e3]
  exact ⟨e1, e2, by simp⟩

end Verif.Prof
