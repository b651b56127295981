import Verif.Serv.Lemmas
namespace Verif.Serv
open Verif RT Verif.Parse

variable {raw : BitVec 64 → List Byte} {C : Cfg}

instance (E : EvtCfg) (a : Nat) (v : Val) : Decidable (Passes raw E a v) := by unfold Passes; infer_instance

/-- the begin and end callbacks that matter for attribute `a` on thread `th` -/
def word (raw : BitVec 64 → List Byte) (E : EvtCfg) (ch th a : Nat) : List (Nat × Event) → List Ev
  | [] => []
  | (t, e) :: r =>
    if e.ch = ch ∧ e.th = th ∧ e.attr = a ∧ Passes raw E e.attr e.val then
      match e.kind with
      | .preBegin => .b (BitVec.ofNat 64 t) :: word raw E ch th a r
      | .preEnd => .e :: word raw E ch th a r
      | _ => word raw E ch th a r
    else word raw E ch th a r

theorem word_append (E : EvtCfg) (ch th a : Nat) (x y : List (Nat × Event)) :
    word raw E ch th a (x ++ y) = word raw E ch th a x ++ word raw E ch th a y := by
  induction x with
  | nil => rfl
  | cons z x ih =>
    obtain ⟨t, e⟩ := z
    simp only [List.cons_append, word, ih]
    by_cases h : e.ch = ch ∧ e.th = th ∧ e.attr = a ∧ Passes raw E e.attr e.val
    · rw [if_pos h, if_pos h]; cases e.kind <;> rfl
    · rw [if_neg h, if_neg h]

theorem word_none (E : EvtCfg) (ch th a : Nat) (l : List (Nat × Event)) (h : ∀ x ∈ l, ¬(x.2.th = th ∧ x.2.attr = a)) :
    word raw E ch th a l = [] := by
  induction l with
  | nil => rfl
  | cons z l ih =>
    obtain ⟨t, e⟩ := z
    simp only [word]
    rw [if_neg, ih (fun x hx => h x (by simp [hx]))]
    rintro ⟨-, h1, h2, -⟩
    exact h (t, e) (by simp) ⟨h1, h2⟩

theorem event_step (hb : hasFilters C.evt.branch = false) (s : State) (t : BitVec 64) (e : Event) :
    (s.step raw C t (.event e)).1.evt = s.evt := by
  obtain ⟨h1, -⟩ := event_nobranch (raw := raw) hb s.evt e
  simp only [State.step, State.take]
  split
  · exact h1
  · exact h1

theorem word_run (hb : hasFilters C.evt.branch = false) (hinfo : C.evt.info = true) (ch th a : Nat) (l : List (Nat × Event)) :
    ∀ s : State, s.evt.marked a = true →
      evs th a (State.run raw C s (machine (onChannel ch l))).2 = word raw C.evt ch th a l := by
  induction l with
  | nil => intro s _; rfl
  | cons z l ih =>
    obtain ⟨t, e⟩ := z
    intro s hm
    by_cases hch : e.ch = ch
    swap
    · have : onChannel ch ((t, e) :: l) = onChannel ch l := by simp [onChannel, hch]
      rw [this, ih s hm]
      simp [word, hch]
    have : onChannel ch ((t, e) :: l) = (t, .event e) :: onChannel ch l := by simp [onChannel, hch]
    rw [this]
    simp only [machine, List.map_cons, State.run]
    have hm' : (s.step raw C (BitVec.ofNat 64 t) (.event e)).1.evt.marked a = true := by rw [event_step hb]; exact hm
    have ih' := ih _ hm'
    simp only [machine] at ih'
    rw [evs_append, ih']
    obtain ⟨-, g2, g3⟩ := event_nobranch (raw := raw) hb s.evt e
    simp only [State.step, State.take, word]
    by_cases hth : e.th = th
    swap
    · rw [if_neg (by tauto)]
      split
      · rfl
      · simp [evs, hth]
    by_cases hat : e.attr = a
    swap
    · rw [if_neg (by tauto)]
      by_cases hw : s.evt.marked e.attr = true ∧ Passes raw C.evt e.attr e.val
      · rw [g2 hw]
        unfold wanted
        cases e.kind <;> simp [evs, hinfo, hat]
      · rw [g3 hw]; rfl
    by_cases hp : Passes raw C.evt e.attr e.val
    swap
    · rw [if_neg (by tauto), g3 (by tauto)]; rfl
    · rw [if_pos ⟨hch, hth, hat, hp⟩, g2 ⟨by rw [hat]; exact hm, hp⟩]
      unfold wanted
      have ho : ∀ i, (s.tim.snapshot C.incl (BitVec.ofNat 64 t) th false i).2.offset = BitVec.ofNat 64 t :=
        fun i => (snapshot_spec C.incl s.tim (BitVec.ofNat 64 t) th false i).1
      cases e.kind <;> simp [evs, hinfo, hth, hat, ho]

/-! ### annotation calls -/

/-- the callbacks of the abstract runtime -/
def absCallbacks (ac : List Nat) (ia : Nat → Bool) : Abs → List (Nat × RT.Op) → List (Nat × Event)
  | _, [] => []
  | c, (t, op) :: r => ((c.step ac ia op).log.drop c.log.length).map (fun e => (t, e)) ++ absCallbacks ac ia (c.step ac ia op) r

theorem absCallbacks_append (ac ia) (x y : List (Nat × RT.Op)) : ∀ c : Abs,
    absCallbacks ac ia c (x ++ y) = absCallbacks ac ia c x ++ absCallbacks ac ia (c.run ac ia (x.map Prod.snd)) y := by
  induction x with
  | nil => intro c; rfl
  | cons z x ih =>
    obtain ⟨t, op⟩ := z
    intro c
    simp only [List.cons_append, absCallbacks, ih, List.append_assoc, List.map_cons, Abs.run]

theorem callbacks_eq {s : RT.State} {c : Abs} (R : RelS s c) (ops : List (Nat × RT.Op)) (ha : ∀ op ∈ ops, op.2.attr.Valid s.tree)
    (nl : NoLoss s (RT.run s (ops.map Prod.snd))) : callbacks s ops = absCallbacks s.active s.isActive c ops := by
  induction ops generalizing s c with
  | nil => rfl
  | cons z ops ih =>
    obtain ⟨t, op⟩ := z
    simp only [List.map_cons, RT.run] at nl
    obtain ⟨n1, n2⟩ := nl.split (step_le s op) (run_le _ _)
    obtain ⟨R1, x1, a1, a2⟩ := step_sim R (ha (t, op) (by simp)) n1
    have := ih R1 (fun o ho => (ha o (by simp [ho])).ext x1) n2
    simp only [callbacks, absCallbacks]
    rw [this, a1, a2, R1.log, R.log]

theorem emitAll_log (c : Abs) (ac k th a v) : (c.emitAll ac k th a v).log = c.log ++ (if a.skipEvents then [] else ac.map fun ch => ⟨k, ch, th, a.id, v⟩) := by
  unfold Abs.emitAll; split <;> simp
theorem emitOne_log (c : Abs) (ia ch k th a v) :
    (c.emitOne ia ch k th a v).log = c.log ++ (if !a.skipEvents && ia ch then [⟨k, ch, th, a.id, v⟩] else []) := by
  unfold Abs.emitOne; split <;> simp
theorem put_log (c : Abs) (l x) : (c.put l x).log = c.log := rfl

/-- a call's callbacks are for its thread and attribute -/
theorem step_log (ac ia) (c : Abs) (op : RT.Op) :
    ∃ new, (c.step ac ia op).log = c.log ++ new ∧ ∀ e ∈ new, e.th = op.thread ∧ e.attr = op.attr.id := by
  have all : ∀ (k : EvKind) (th : Nat) (a : Attr) (v : Val), ∀ e ∈ (if a.skipEvents then [] else ac.map fun ch => (⟨k, ch, th, a.id, v⟩ : Event)),
      e.th = th ∧ e.attr = a.id := by
    intro k th a v e he
    split at he
    · simp at he
    · obtain ⟨ch, -, rfl⟩ := List.mem_map.1 he; exact ⟨rfl, rfl⟩
  have one : ∀ (ch : Nat) (k : EvKind) (th : Nat) (a : Attr) (v : Val), ∀ e ∈ (if !a.skipEvents && ia ch then [(⟨k, ch, th, a.id, v⟩ : Event)] else []),
      e.th = th ∧ e.attr = a.id := by
    intro ch k th a v e he
    split at he
    · obtain rfl := List.mem_singleton.1 he; exact ⟨rfl, rfl⟩
    · simp at he
  have two : ∀ {x y : List Event} {th a : Nat}, (∀ e ∈ x, e.th = th ∧ e.attr = a) → (∀ e ∈ y, e.th = th ∧ e.attr = a) → ∀ e ∈ x ++ y, e.th = th ∧ e.attr = a := by
    intro x y th a h1 h2 e he
    rcases List.mem_append.1 he with he | he
    · exact h1 e he
    · exact h2 e he
  have endc : ∀ th a ck, ∃ new, (c.endCore ac th a ck).log = c.log ++ new ∧ ∀ e ∈ new, e.th = th ∧ e.attr = a.id := by
    intro th a ck
    unfold Abs.endCore
    split
    · exact ⟨[], by simp, by simp⟩
    split
    · exact ⟨[], by simp, by simp⟩
    split
    · exact ⟨[], by simp, by simp⟩
    rename_i v _
    split
    · exact ⟨_, by simp only [Abs.endAt, put_log, emitAll_log], all .preEnd th a v⟩
    · exact ⟨[], by simp, by simp⟩
  cases op with
  | begin th a v =>
    simp only [Abs.step]
    split
    · exact ⟨[], by simp, by simp⟩
    refine ⟨(if a.skipEvents then [] else ac.map fun ch => ⟨.preBegin, ch, th, a.id, v⟩) ++ (if a.skipEvents then [] else ac.map fun ch => ⟨.postBegin, ch, th, a.id, v⟩), ?_,
      two (all _ _ _ _) (all _ _ _ _)⟩
    rw [emitAll_log]
    split
    · rw [emitAll_log, List.append_assoc]
    · rw [put_log, emitAll_log, List.append_assoc]
  | set th a v =>
    simp only [Abs.step]
    split
    · exact ⟨[], by simp, by simp⟩
    refine ⟨_, ?_, all .preSet th a v⟩
    split
    · rw [emitAll_log]
    · rw [put_log, emitAll_log]
  | endR th a => exact endc th a none
  | endCheck th a v => exact endc th a (some v)
  | beginCh th ch a v =>
    exact ⟨_, by simp only [Abs.step]; rw [emitOne_log, put_log, emitOne_log, List.append_assoc], two (one ch .preBegin th a v) (one ch .postBegin th a v)⟩
  | setCh th ch a v => exact ⟨_, by simp only [Abs.step]; rw [put_log, emitOne_log], one ch .preSet th a v⟩
  | endCh th ch a =>
    simp only [Abs.step]
    split
    · exact ⟨[], by simp, by simp⟩
    · rename_i v _; exact ⟨_, by simp only [Abs.endAt, put_log, emitOne_log], one ch .preEnd th a v⟩

theorem word_map (E : EvtCfg) (ch th a t : Nat) (k : EvKind) (v : Val) (ac : List Nat) (hc : ac.count ch = 1) :
    word raw E ch th a ((ac.map fun c => (⟨k, c, th, a, v⟩ : Event)).map fun e => (t, e)) =
      if Passes raw E a v then (match k with | .preBegin => [.b (BitVec.ofNat 64 t)] | .preEnd => [.e] | _ => []) else [] := by
  have h0 : ∀ l : List Nat, l.count ch = 0 → word raw E ch th a ((l.map fun c => (⟨k, c, th, a, v⟩ : Event)).map fun e => (t, e)) = [] := by
    intro l
    induction l with
    | nil => intro _; rfl
    | cons x l ih =>
      intro h
      have hx : x ≠ ch := by rintro rfl; simp at h
      rw [List.count_cons_of_ne hx] at h
      simp only [List.map_cons, word]
      rw [if_neg (by tauto)]
      exact ih h
  induction ac with
  | nil => simp at hc
  | cons x l ih =>
    by_cases hx : x = ch
    · subst hx
      rw [List.count_cons_self] at hc
      simp only [List.map_cons, word]
      rw [h0 l (by omega)]
      by_cases hp : Passes raw E a v <;> simp [hp] <;> cases k <;> rfl
    · rw [List.count_cons_of_ne hx] at hc
      simp only [List.map_cons, word]
      rw [if_neg (by tauto)]
      exact ih hc

/-- callbacks of one call -/
theorem absCallbacks_one (ac ia) (c : Abs) (t : Nat) (op : RT.Op) :
    absCallbacks ac ia c [(t, op)] = ((c.step ac ia op).log.drop c.log.length).map fun e => (t, e) := by
  simp [absCallbacks]

theorem word_other (E : EvtCfg) (ch th a t : Nat) (ac ia) (c : Abs) (op : RT.Op) (h : ¬(op.thread = th ∧ op.attr.id = a)) :
    word raw E ch th a (absCallbacks ac ia c [(t, op)]) = [] := by
  rw [absCallbacks_one]
  obtain ⟨new, h1, h2⟩ := step_log ac ia c op
  rw [h1, List.drop_left]
  refine word_none _ _ _ _ _ ?_
  intro x hx
  obtain ⟨e, he, rfl⟩ := List.mem_map.1 hx
  rw [(h2 e he).1, (h2 e he).2]; exact h

theorem word_begin (E : EvtCfg) (ch th t : Nat) (ac ia) (c : Abs) (a : Attr) (v : Val) (he : c.err th = false) (hs : a.skipEvents = false)
    (hc : ac.count ch = 1) :
    word raw E ch th a.id (absCallbacks ac ia c [(t, .begin th a v)]) = if Passes raw E a.id v then [.b (BitVec.ofNat 64 t)] else [] := by
  rw [absCallbacks_one]
  have : (c.step ac ia (.begin th a v)).log = c.log ++ ((ac.map fun x => ⟨.preBegin, x, th, a.id, v⟩) ++ (ac.map fun x => ⟨.postBegin, x, th, a.id, v⟩)) := by
    simp only [Abs.step, he, Bool.false_eq_true, if_false]
    rw [emitAll_log]
    split
    · rw [emitAll_log]; simp [hs]
    · rw [put_log, emitAll_log]; simp [hs]
  rw [this, List.drop_left, List.map_append, word_append, word_map _ _ _ _ _ _ _ _ hc, word_map _ _ _ _ _ _ _ _ hc]
  by_cases hp : Passes raw E a.id v <;> simp [hp]

theorem word_end (E : EvtCfg) (ch th t : Nat) (ac ia) (c : Abs) (a : Attr) (v : Val) (ck : Option Val) (op : RT.Op)
    (hop : c.step ac ia op = c.endCore ac th a ck) (he : c.err th = false) (hs : a.skipEvents = false) {l : Loc} (hl : scopeLoc a th = some l)
    (hv : (c.ctx l).endable a = some v) (hck : ck = none ∨ ck = some v) (hc : ac.count ch = 1) :
    absCallbacks ac ia c [(t, op)] = (ac.map fun x => (⟨.preEnd, x, th, a.id, v⟩ : Event)).map (fun e => (t, e)) ∧
    word raw E ch th a.id (absCallbacks ac ia c [(t, op)]) = if Passes raw E a.id v then [.e] else [] := by
  have h1 : absCallbacks ac ia c [(t, op)] = (ac.map fun x => (⟨.preEnd, x, th, a.id, v⟩ : Event)).map (fun e => (t, e)) := by
    rw [absCallbacks_one, hop]
    unfold Abs.endCore
    simp only [he, Bool.false_eq_true, if_false, hl, hv]
    rw [if_pos hck]
    simp only [Abs.endAt, put_log, emitAll_log, hs, Bool.false_eq_true, if_false, List.drop_left]
  exact ⟨h1, by rw [h1, word_map _ _ _ _ _ _ _ _ hc]⟩

end Verif.Serv
