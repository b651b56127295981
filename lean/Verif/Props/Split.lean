import Verif.Runtime.Split
import Verif.Runtime.GlobalsLemmas
import Verif.Props.Runtime
/-!
# C47 — `end` calls of several threads on a shared context
-/
namespace Verif.RT
open MTree

theorem set_other {bb bb' : Board} {p : BB.Spec Entry} (h : BB.Rel bb p) {k j : Nat} (hk : k ≠ invId) (hj : j ≠ invId) (hjk : j ≠ k)
    {e : Entry} {i : Bool} (hs : BB.set bb k e i = some bb') : BB.get bb' j = BB.get bb j := by
  obtain ⟨b, h1, h2⟩ := bb_set h hk e i
  rw [h1] at hs; cases hs
  rw [bb_get h2 hj, bb_get h hj]
  congr 2
  unfold BB.Spec.put
  split
  · simp [hjk]
  · split
    · simp [hjk]
    · rfl

theorem del_other {bb bb' : Board} {p : BB.Spec Entry} (h : BB.Rel bb p) {k j : Nat} (hk : k ≠ invId) (hj : j ≠ invId) (hjk : j ≠ k)
    (hs : BB.del bb k = some bb') : BB.get bb' j = BB.get bb j := by
  obtain ⟨b, h1, h2⟩ := bb_del h hk
  rw [h1] at hs; cases hs
  rw [bb_get h2 hj, bb_get h hj, erase_m]
  simp [hjk]

theorem handleBegin_other {t : Tree} {th : Nat} {a : Attr} {v : Val} {bb bb' : Board} {p : BB.Spec Entry} (h : BB.Rel bb p)
    (ha : bbKey a ≠ invId) {j : Nat} (hj : j ≠ invId) (hjk : j ≠ bbKey a) (hb : (handleBegin t th a v bb).2 = some bb') :
    BB.get bb' j = BB.get bb j := by
  unfold handleBegin at hb
  unfold bbKey at ha hjk
  by_cases hav : a.asValue
  · rw [if_pos hav] at ha hjk hb; exact set_other h ha hj hjk hb
  · rw [if_neg hav] at ha hjk hb
    cases hg : BB.get bb (refKey a) with
    | none => rw [hg] at hb; cases hb
    | some cur =>
      rw [hg] at hb
      simp only at hb
      cases hc : getChild t th a.id v cur.node with
      | mk t1 o =>
        rw [hc] at hb
        cases o with
        | none => cases hb
        | some n => exact set_other h ha hj hjk hb

theorem handleSet_other {t : Tree} {th : Nat} {a : Attr} {v : Val} {bb bb' : Board} {p : BB.Spec Entry} (h : BB.Rel bb p)
    (ha : bbKey a ≠ invId) {j : Nat} (hj : j ≠ invId) (hjk : j ≠ bbKey a) (hb : (handleSet t th a v bb).2 = some bb') :
    BB.get bb' j = BB.get bb j := by
  unfold handleSet at hb
  unfold bbKey at ha hjk
  by_cases hav : a.asValue
  · rw [if_pos hav] at ha hjk hb; exact set_other h ha hj hjk hb
  · rw [if_neg hav] at ha hjk hb
    cases hg : BB.get bb (refKey a) with
    | none => rw [hg] at hb; cases hb
    | some cur =>
      rw [hg] at hb
      simp only at hb
      cases hc : replaceFirst t th cur.node a.id v with
      | mk t1 o =>
        rw [hc] at hb
        cases o with
        | none => cases hb
        | some n => exact set_other h ha hj hjk hb

theorem handleEnd_other {t : Tree} {th : Nat} {a : Attr} {m e : Entry} {bb bb' : Board} {p : BB.Spec Entry} (h : BB.Rel bb p)
    {k : Nat} (hk : k ≠ invId) {j : Nat} (hj : j ≠ invId) (hjk : j ≠ k) (hb : (handleEnd t th a m e k bb).2 = some bb') :
    BB.get bb' j = BB.get bb j := by
  unfold handleEnd at hb
  by_cases hav : a.asValue
  · rw [if_pos hav] at hb; exact del_other h hk hj hjk hb
  · rw [if_neg hav] at hb
    cases hn : m.node with
    | none => rw [hn] at hb; cases hb
    | some n =>
      rw [hn] at hb
      simp only at hb
      by_cases hr : t.parentOf n = some .root
      · rw [if_pos hr] at hb; exact del_other h hk hj hjk hb
      · rw [if_neg hr] at hb
        cases hc : (if some n ≠ e.node then removeFirst t th (some n) a.id else (t, t.parentOf n)) with
        | mk t1 o =>
          rw [hc] at hb
          cases o with
          | none => cases hb
          | some n => exact set_other h hk hj hjk hb

theorem put_get {s : State} {l l' : Loc} {r : Tree × Option Board} {k j : Nat} (hne : ¬ (l = l' ∧ k = j))
    (h : ∀ bb', r.2 = some bb' → j ≠ k → BB.get bb' j = BB.get (s.board l) j) :
    BB.get ((s.put l r).board l') j = BB.get (s.board l') j := by
  obtain ⟨t, o⟩ := r
  cases o with
  | none => cases l' <;> rfl
  | some bb' =>
    by_cases e : l = l'
    · subst e
      have eb : (s.put l (t, some bb')).board l = bb' := by cases l <;> simp [State.put, State.board, BB.upd]
      rw [eb]
      exact h bb' rfl (fun e => hne ⟨rfl, e.symm⟩)
    · have e' : ¬ l' = l := fun h => e h.symm
      have eb : (s.put l (t, some bb')).board l' = s.board l' := by
        cases l <;> cases l' <;> simp_all [State.put, State.board, BB.upd]
      rw [eb]

@[simp] theorem emitAll_board' (s : State) (k th a v) (l : Loc) : (s.emitAll k th a v).board l = s.board l := by
  unfold State.emitAll; split <;> (cases l <;> rfl)
@[simp] theorem emitOne_board' (s : State) (ch k th a v) (l : Loc) : (s.emitOne ch k th a v).board l = s.board l := by
  unfold State.emitOne; split <;> (cases l <;> rfl)
@[simp] theorem emitAll_tree' (s : State) (k th a v) : (s.emitAll k th a v).tree = s.tree := by
  unfold State.emitAll; split <;> rfl
@[simp] theorem emitOne_tree' (s : State) (ch k th a v) : (s.emitOne ch k th a v).tree = s.tree := by
  unfold State.emitOne; split <;> rfl
@[simp] theorem emitAll_err' (s : State) (k th a v) : (s.emitAll k th a v).err = s.err := by
  unfold State.emitAll; split <;> rfl
@[simp] theorem emitOne_err' (s : State) (ch k th a v) : (s.emitOne ch k th a v).err = s.err := by
  unfold State.emitOne; split <;> rfl
@[simp] theorem put_err' (s : State) (l r) : (s.put l r).err = s.err := by
  obtain ⟨t, o⟩ := r; cases o <;> cases l <;> rfl

/-- a call changes no other slot -/
theorem step_get_other {s : State} {c : Abs} (R : RelS s c) {op : Op} (ha : op.attr.Valid s.tree) {l : Loc} {j : Nat}
    (hj : j ≠ invId) (hne : ¬ (op.loc = some l ∧ bbKey op.attr = j)) :
    BB.get ((step s op).board l) j = BB.get (s.board l) j := by
  have hk := bbKey_inv ha.2.2.2.2.2
  have rel : ∀ l, ∃ p, BB.Rel (s.board l) p := fun l => by obtain ⟨p, h, _⟩ := R.ctx l; exact ⟨p, h⟩
  have hcore : ∀ th a ck, a.Valid s.tree → ¬ (scopeLoc a th = some l ∧ bbKey a = j) →
      BB.get ((endCore s th a ck).board l) j = BB.get (s.board l) j := by
    intro th a ck ha hne
    unfold endCore
    split
    · rfl
    · split
      · rfl
      · rename_i l' hl
        split
        · cases l <;> rfl
        · split
          · cases l <;> rfl
          · obtain ⟨p, hp⟩ := rel l'
            rw [put_get (l := l') (k := bbKey a) (fun e => hne ⟨by rw [hl, e.1], e.2⟩)]
            · simp
            · intro bb' hb hjk
              simp only [emitAll_board', emitAll_tree'] at hb ⊢
              exact handleEnd_other hp (bbKey_inv ha.2.2.2.2.2) hj hjk hb
  unfold step
  rw [R.dead]
  simp only [Bool.false_eq_true, if_false]
  cases op with
  | begin th a v =>
    simp only [Op.loc, Op.attr] at hne ha hk
    show BB.get ((begin s th a v).board l) j = _
    unfold begin
    split
    · rfl
    · have : ∀ s1 : State, BB.get ((if s1.dead then s1 else s1.emitAll .postBegin th a v).board l) j = BB.get (s1.board l) j := by
        intro s1; split <;> simp
      simp only
      rw [this]
      split
      · simp
      · rename_i l' hl
        obtain ⟨p, hp⟩ := rel l'
        rw [put_get (l := l') (k := bbKey a) (fun e => hne ⟨by rw [hl, e.1], e.2⟩)]
        · simp
        · intro bb' hb hjk
          simp only [emitAll_board', emitAll_tree'] at hb ⊢
          exact handleBegin_other hp hk hj hjk hb
  | endR th a => exact hcore th a none ha hne
  | endCheck th a v => exact hcore th a (some v) ha hne
  | set th a v =>
    simp only [Op.loc, Op.attr] at hne ha hk
    show BB.get ((set s th a v).board l) j = _
    unfold set
    split
    · rfl
    · split
      · simp
      · rename_i l' hl
        obtain ⟨p, hp⟩ := rel l'
        rw [put_get (l := l') (k := bbKey a) (fun e => hne ⟨by rw [hl, e.1], e.2⟩)]
        · simp
        · intro bb' hb hjk
          simp only [emitAll_board', emitAll_tree'] at hb ⊢
          exact handleSet_other hp hk hj hjk hb
  | beginCh th ch a v =>
    simp only [Op.loc, Op.attr] at hne ha hk
    show BB.get ((beginCh s th ch a v).board l) j = _
    unfold beginCh
    have : ∀ s1 : State, BB.get ((if s1.dead then s1 else s1.emitOne ch .postBegin th a v).board l) j = BB.get (s1.board l) j := by
      intro s1; split <;> simp
    simp only
    rw [this]
    obtain ⟨p, hp⟩ := rel (.channel ch)
    rw [put_get (l := .channel ch) (k := bbKey a) (fun e => hne ⟨by rw [e.1], e.2⟩)]
    · simp
    · intro bb' hb hjk
      simp only [emitOne_board', emitOne_tree'] at hb ⊢
      exact handleBegin_other hp hk hj hjk hb
  | endCh th ch a =>
    simp only [Op.loc, Op.attr] at hne ha hk
    show BB.get ((endCh s th ch a).board l) j = _
    unfold endCh
    split
    · cases l <;> rfl
    · split
      · cases l <;> rfl
      · obtain ⟨p, hp⟩ := rel (.channel ch)
        rw [put_get (l := .channel ch) (k := bbKey a) (fun e => hne ⟨by rw [e.1], e.2⟩)]
        · simp
        · intro bb' hb hjk
          simp only [emitOne_board', emitOne_tree'] at hb ⊢
          exact handleEnd_other hp (bbKey_inv ha.2.2.2.2.2) hj hjk hb
  | setCh th ch a v =>
    simp only [Op.loc, Op.attr] at hne ha hk
    show BB.get ((setCh s th ch a v).board l) j = _
    unfold setCh
    obtain ⟨p, hp⟩ := rel (.channel ch)
    rw [put_get (l := .channel ch) (k := bbKey a) (fun e => hne ⟨by rw [e.1], e.2⟩)]
    · simp
    · intro bb' hb hjk
      simp only [emitOne_board', emitOne_tree'] at hb ⊢
      exact handleSet_other hp hk hj hjk hb

/-- a call marks no other thread -/
theorem step_err_other {s : State} {op : Op} {th : Nat} (h : op.thread ≠ th) : (step s op).err th = s.err th := by
  have hcore : ∀ t a ck, t ≠ th → (endCore s t a ck).err th = s.err th := by
    intro t a ck ht
    unfold endCore
    split
    · rfl
    · split
      · rfl
      · split
        · rfl
        · split
          · simp [BB.upd, Ne.symm ht]
          · simp
  unfold step
  split
  · rfl
  · cases op with
    | begin t a v =>
      show (begin s t a v).err th = _
      unfold begin
      split
      · rfl
      · simp only; split <;> split <;> simp
    | endR t a => exact hcore t a none h
    | endCheck t a v => exact hcore t a (some v) h
    | set t a v =>
      show (set s t a v).err th = _
      unfold set
      split
      · rfl
      · simp only; split <;> simp
    | beginCh t ch a v =>
      show (beginCh s t ch a v).err th = _
      unfold beginCh
      simp only; split <;> simp
    | endCh t ch a =>
      show (endCh s t ch a).err th = _
      simp only [Op.thread] at h
      unfold endCh
      split
      · rfl
      · split
        · simp [BB.upd, Ne.symm h]
        · simp
    | setCh t ch a v =>
      show (setCh s t ch a v).err th = _
      unfold setCh
      simp

/-- reading a slot gives the same result in a later tree -/
theorem loadCurrent_ext {t t' : Tree} (I : Inv t) (x : Ext t t') {bb bb' : Board} {c : Ctx} (h : CtxRel t bb c) {a : Attr}
    (ha : a.Valid t) (hg : BB.get bb' (bbKey a) = BB.get bb (bbKey a)) :
    loadCurrent t' a (bbKey a) bb' = loadCurrent t a (bbKey a) bb := by
  have hk := bbKey_inv ha.2.2.2.2.2
  obtain ⟨p, h1, h2, h3, h4⟩ := h
  unfold loadCurrent
  rw [hg, bb_get h1 hk, Option.map_some, Option.map_some]
  have key : (p.m (bbKey a)).getD default = default ∨ ∃ n v l, (p.m (bbKey a)).getD default = ⟨some n, v⟩ ∧ Path t n l := by
    by_cases e1 : bbKey a = 1
    · rw [e1]
      obtain ⟨_, h2⟩ := h2
      cases hm : p.m 1 with
      | none => exact .inl rfl
      | some e => rw [hm] at h2; obtain ⟨_, n, rfl, hp⟩ := h2; exact .inr ⟨n, _, _, rfl, hp⟩
    · by_cases e2 : bbKey a = 2
      · rw [e2]
        obtain ⟨_, h3⟩ := h3
        cases hm : p.m 2 with
        | none => exact .inl rfl
        | some e => rw [hm] at h3; obtain ⟨_, n, rfl, hp⟩ := h3; exact .inr ⟨n, _, _, rfl, hp⟩
      · have h4 := h4 _ e1 e2 hk
        cases hm : p.m (bbKey a) with
        | none => exact .inl rfl
        | some e =>
          rw [hm] at h4
          cases hc : c.vals (bbKey a) with
          | none => rw [hc] at h4; exact absurd h4 id
          | some v =>
            rw [hc] at h4
            obtain ⟨n, rfl, hl, _⟩ := h4
            obtain ⟨l, hl⟩ := Live.path I hl
            exact .inr ⟨n, v, l, rfl, hl⟩
  rcases key with e | ⟨n, v, l, e, hp⟩
  · rw [e]; rfl
  · rw [e]
    have hid := x.idOf hp.live
    have e1 := entry_get_ext x (v := v) hp a.id hid I
    have e2 : (⟨some n, v⟩ : Entry).attribute t' = (⟨some n, v⟩ : Entry).attribute t := by
      simp [Entry.attribute, x.attrOf hp.live, hid]
    simp only [e1, e2]

/-! ### simulation -/

/-- the two parts make up the call -/
def PendOk (s : State) (th : Nat) (p : Pend) : Prop :=
  p.call.op.thread = th ∧ p.call.op.attr.Valid s.tree ∧ p.call.op.loc = some p.loc ∧
  loadCurrent s.tree p.call.op.attr (bbKey p.call.op.attr) (s.board p.loc) = some (p.merged, p.entry) ∧
  p.entry.node ≠ none ∧
  match p.call with
  | .endR _ _ => s.err th = false
  | .endCheck _ _ v => s.err th = false ∧ v = p.entry.val
  | .endCh _ _ _ => True

theorem second_eq {s : State} (hd : s.dead = false) {th : Nat} {p : Pend} (h : PendOk s th p) (f : Nat → Option Pend) :
    (endSecond ⟨s, f⟩ th p).s = step s p.call.op := by
  obtain ⟨c, l, m, e⟩ := p
  obtain ⟨h1, h2, h3, h4, h5, h6⟩ := h
  simp only at h1 h2 h3 h4 h5 h6
  unfold step endSecond
  rw [hd]
  simp only [Bool.false_eq_true, if_false]
  cases c with
  | endR t a =>
    simp only [EndCall.op, Op.thread, Op.attr, Op.loc] at h1 h2 h3 h4
    subst h1
    simp only [EndCall.op, endR, endCore, h6, Bool.false_eq_true, if_false, h3, h4]
    rw [if_neg (by simpa using h5)]
  | endCheck t a v =>
    simp only [EndCall.op, Op.thread, Op.attr, Op.loc] at h1 h2 h3 h4
    subst h1
    obtain ⟨h6, h7⟩ := h6
    simp only [EndCall.op, endCheck, endCore, h6, Bool.false_eq_true, if_false, h3, h4]
    rw [if_neg (by simp [h5, h7])]
  | endCh t ch a =>
    simp only [EndCall.op, Op.thread, Op.attr, Op.loc, Option.some.injEq] at h1 h2 h3 h4
    subst h1 h3
    simp only [EndCall.op, endCh, h4]
    rw [if_neg h5]

theorem PendOk.step {s : State} {c : Abs} (R : RelS s c) {op : Op} (ha : op.attr.Valid s.tree) (nl : NoLoss s (step s op))
    {th : Nat} {p : Pend} (h : PendOk s th p) (hth : op.thread ≠ th)
    (hne : ¬ (op.loc = some p.loc ∧ bbKey op.attr = bbKey p.call.op.attr)) : PendOk (RT.step s op) th p := by
  obtain ⟨h1, h2, h3, h4, h5, h6⟩ := h
  obtain ⟨R', x, _⟩ := step_sim R ha nl
  refine ⟨h1, h2.ext x, h3, ?_, h5, ?_⟩
  · rw [loadCurrent_ext R.inv x (R.ctx p.loc) h2 (step_get_other R ha (bbKey_inv h2.2.2.2.2.2) hne)]
    exact h4
  · rw [step_err_other hth]; exact h6

/-- the first part either finishes the call or leaves it pending -/
theorem first_cases {s : State} {c : Abs} (R : RelS s c) {x : EndCall} (ha : x.op.attr.Valid s.tree) (f : Nat → Option Pend) :
    (endFirst ⟨s, f⟩ x = ⟨step s x.op, f⟩ ∧ (step s x.op = s ∨ step s x.op = { s with err := BB.upd s.err x.op.thread true })) ∨
    ∃ p, endFirst ⟨s, f⟩ x = ⟨s, BB.upd f x.op.thread (some p)⟩ ∧ p.call = x ∧ PendOk s x.op.thread p := by
  have hd := R.dead
  cases x with
  | endR th a =>
    simp only [EndCall.op, Op.attr, Op.thread] at ha ⊢
    by_cases he : s.err th = true
    · left
      have : step s (.endR th a) = s := by simp [step, hd, endR, endCore, he]
      exact ⟨by simp [endFirst, he, this], .inl this⟩
    · have he : s.err th = false := by simpa using he
      cases hl : scopeLoc a th with
      | none =>
        left
        have : step s (.endR th a) = s := by simp [step, hd, endR, endCore, he, hl]
        exact ⟨by simp [endFirst, he, hl, this], .inl this⟩
      | some l =>
        obtain ⟨m, e, h1, _⟩ := load_sim R.inv (R.ctx l) ha
        by_cases hn : e.node = none
        · left
          have : step s (.endR th a) = { s with err := BB.upd s.err th true } := by
            simp [step, hd, endR, endCore, he, hl, h1, hn]
          exact ⟨by simp [endFirst, he, hl, endLoad, h1, hn, this], .inr this⟩
        · right
          exact ⟨⟨.endR th a, l, m, e⟩, by simp [endFirst, he, hl, endLoad, h1, hn], rfl,
            rfl, ha, hl, h1, hn, he⟩
  | endCheck th a v =>
    simp only [EndCall.op, Op.attr, Op.thread] at ha ⊢
    by_cases he : s.err th = true
    · left
      have : step s (.endCheck th a v) = s := by simp [step, hd, endCheck, endCore, he]
      exact ⟨by simp [endFirst, he, this], .inl this⟩
    · have he : s.err th = false := by simpa using he
      cases hl : scopeLoc a th with
      | none =>
        left
        have : step s (.endCheck th a v) = s := by simp [step, hd, endCheck, endCore, he, hl]
        exact ⟨by simp [endFirst, he, hl, this], .inl this⟩
      | some l =>
        obtain ⟨m, e, h1, _⟩ := load_sim R.inv (R.ctx l) ha
        by_cases hn : e.node = none ∨ v ≠ e.val
        · left
          have : step s (.endCheck th a v) = { s with err := BB.upd s.err th true } := by
            simp [step, hd, endCheck, endCore, he, hl, h1]
            rcases hn with h | h <;> simp [h]
          exact ⟨by simp [endFirst, he, hl, endLoad, h1, this]; rcases hn with h | h <;> simp [h], .inr this⟩
        · right
          have hn1 : e.node ≠ none := fun h => hn (.inl h)
          have hn2 : v = e.val := by
            by_cases h : v = e.val
            · exact h
            · exact absurd (.inr h) hn
          exact ⟨⟨.endCheck th a v, l, m, e⟩, by simp [endFirst, he, hl, endLoad, h1, hn1, hn2], rfl,
            rfl, ha, hl, h1, hn1, he, hn2⟩
  | endCh th ch a =>
    simp only [EndCall.op, Op.attr, Op.thread] at ha ⊢
    obtain ⟨m, e, h1, _⟩ := load_sim R.inv (R.ctx (.channel ch)) ha
    by_cases hn : e.node = none
    · left
      have : step s (.endCh th ch a) = { s with err := BB.upd s.err th true } := by
        simp [step, hd, endCh, h1, hn]
      exact ⟨by simp [endFirst, endLoad, h1, hn, this], .inr this⟩
    · right
      exact ⟨⟨.endCh th ch a, .channel ch, m, e⟩, by simp [endFirst, endLoad, h1, hn], rfl,
        rfl, ha, rfl, h1, hn, trivial⟩

/-- the pending calls of a thread -/
def FState.pending (f : FState) (th : Nat) : List Op := ((f.pend th).map fun p => p.call.op).toList

theorem callsOf_append (th : Nat) (xs : List Act) (x : Act) :
    callsOf th (xs ++ [x]) = callsOf th xs ++ (x.starts.toList.filter fun op => decide (op.thread = th)) := by
  unfold callsOf
  rw [List.filterMap_append, List.filter_append]
  cases h : x.starts with
  | none => simp [h]
  | some y => simp [h]

/-- **C47 (partial).**  Take any execution of any number of threads with `end` calls split into their critical
sections, starting from a reachable state, in which no thread changes the slot of a shared context while another thread is
inside an `end` on this slot.  Then the runtime is in exactly the state that a history of atomic calls `ops` leads to, where
`ops` consists of the same calls, in the same order for each thread (an `end` still in progress not being counted):
all results about call-atomic histories apply.  Missing: changes during an `end`; there the property is false
(`C47_violation_lost_begin`). -/
theorem C47_ends_atomic_partial {s0 : State} (h0 : RtReach s0) {acts : List Act} {f : FState} (h : FQuiet s0 acts f) :
    ∃ ops, f.s = run s0 ops ∧ RtReach f.s ∧ ∀ th, callsOf th acts = (ops.filter fun op => decide (op.thread = th)) ++ f.pending th := by
  suffices ∃ ops, f.s = run s0 ops ∧ RtReach f.s ∧
      (∀ th, callsOf th acts = (ops.filter fun op => decide (op.thread = th)) ++ f.pending th) ∧
      (∀ th p, f.pend th = some p → PendOk f.s th p) by
    obtain ⟨ops, a, b, c, _⟩ := this; exact ⟨ops, a, b, c⟩
  induction h with
  | nil => exact ⟨[], rfl, h0, fun th => by simp [callsOf, FState.pending], fun th p h => by cases h⟩
  | @step acts f x hx hok ha hq nl ih =>
    obtain ⟨ops, i1, i2, i3, i4⟩ := ih
    obtain ⟨c, R⟩ := i2.rel
    obtain ⟨s, pend⟩ := f
    simp only at i1 i2 i4 R
    cases x with
    | call op =>
      simp only [fstep] at nl ⊢
      refine ⟨ops ++ [op], by rw [run_append, ← i1]; rfl, .call i2 ha nl, fun th => ?_, fun th p hp => ?_⟩
      · rw [callsOf_append, i3 th, List.filter_append]
        by_cases e : op.thread = th
        · have : pend th = none := by rw [← e]; exact hok.2
          simp [FState.pending, this, Act.starts]
        · simp [Act.starts, e, FState.pending]
      · refine PendOk.step R ha nl (i4 th p hp) ?_ (hq th p hp (fun e => by cases e))
        intro e
        have := hok.2
        simp only [e] at this hp
        rw [this] at hp; cases hp
    | first e =>
      have ha' : e.op.attr.Valid s.tree := ha
      have hok' : pend e.op.thread = none := hok
      rcases first_cases R ha' pend with ⟨h1, h2⟩ | ⟨p, h1, h2, h3⟩
      · simp only [fstep, h1] at nl ⊢
        refine ⟨ops ++ [e.op], by rw [run_append, ← i1]; rfl, .call i2 ha' nl, fun th => ?_, fun th p hp => ?_⟩
        · rw [callsOf_append, i3 th, List.filter_append]
          by_cases ee : e.op.thread = th
          · have : pend th = none := by rw [← ee]; exact hok'
            simp [FState.pending, this, Act.starts]
          · simp [Act.starts, ee, FState.pending]
        · have hth : e.op.thread ≠ th := by
            intro ee
            rw [ee] at hok'
            rw [hok'] at hp; cases hp
          obtain ⟨k1, k2, k3, k4, k5, k6⟩ := i4 th p hp
          rcases h2 with h2 | h2
          · rw [h2]; exact ⟨k1, k2, k3, k4, k5, k6⟩
          · rw [h2]
            refine ⟨k1, k2, k3, ?_, k5, ?_⟩
            · have : ({ s with err := BB.upd s.err e.op.thread true } : State).board p.loc = s.board p.loc := by
                cases p.loc <;> rfl
              rw [this]; exact k4
            · have : ({ s with err := BB.upd s.err e.op.thread true } : State).err th = s.err th := by
                simp [BB.upd, Ne.symm hth]
              rw [this]; exact k6
      · simp only [fstep, h1] at nl ⊢
        refine ⟨ops, i1, i2, fun th => ?_, fun th q hp => ?_⟩
        · rw [callsOf_append, i3 th]
          by_cases ee : e.op.thread = th
          · have : pend th = none := by rw [← ee]; exact hok'
            simp [FState.pending, this, Act.starts, ee, h2, BB.upd]
          · simp [Act.starts, ee, FState.pending, BB.upd, Ne.symm ee]
        · by_cases ee : th = e.op.thread
          · subst ee
            simp [BB.upd] at hp
            subst hp; exact h3
          · simp [BB.upd, ee] at hp
            exact i4 th q hp
    | second t =>
      cases ht : pend t with
      | none => exact absurd ht hok
      | some p =>
        have hp := i4 t p ht
        have e : (endSecond ⟨s, pend⟩ t p).s = step s p.call.op := second_eq R.dead hp pend
        have e2 : (endSecond ⟨s, pend⟩ t p).pend = BB.upd pend t none := rfl
        have e3 : fstep ⟨s, pend⟩ (.second t) = endSecond ⟨s, pend⟩ t p := by simp [fstep, ht]
        rw [e3] at nl ⊢
        rw [e] at nl ⊢
        rw [e2]
        obtain ⟨k1, k2, k3, k4⟩ := hp
        refine ⟨ops ++ [p.call.op], by rw [run_append, ← i1]; rfl, .call i2 k2 nl, fun th => ?_, fun th q hq' => ?_⟩
        · rw [callsOf_append, i3 th, List.filter_append]
          by_cases ee : t = th
          · subst ee
            simp [FState.pending, ht, Act.starts, k1, e2, BB.upd]
          · simp [Act.starts, FState.pending, e2, BB.upd, Ne.symm ee, k1, ee]
        · by_cases ee : th = t
          · subst ee; simp [BB.upd] at hq'
          · simp [BB.upd, ee] at hq'
            refine PendOk.step R k2 nl (i4 th q hq') (by rw [k1]; exact Ne.symm ee) ?_
            intro hh
            exact hq th q hq' (fun h => by cases h; exact ee rfl)
              ⟨p, ht, by simpa [k3] using hh.1, hh.2⟩

/-! ### violation -/

/-- region attribute, process scope -/
def exP : Attr := ⟨.cell 0 12, 12, 12#32⟩
/-- another one -/
def exQ : Attr := ⟨.cell 0 13, 13, 12#32⟩

/-- thread 0 begins and ends `exP`; thread 1 begins `exQ` while thread 0 is inside its `end` -/
def exRace : List Act :=
  [.call (.begin 0 exP (.ofInt 1)), .first (.endR 0 exP), .call (.begin 1 exQ (.ofInt 2)), .second 0]

/-- state after a schedule -/
def frun (f : FState) : List Act → FState
  | [] => f
  | x :: xs => frun (fstep f x) xs

theorem exec_run {s0 : State} {acts rest : List Act} {f : FState} (h : FExec s0 acts f)
    (hr : ∀ pre x post, rest = pre ++ x :: post → x.ok (frun f pre) ∧ x.attrOk (frun f pre) ∧
      NoLoss (frun f pre).s (frun f (pre ++ [x])).s) : FExec s0 (acts ++ rest) (frun f rest) := by
  induction rest generalizing acts f with
  | nil => simpa [frun] using h
  | cons x rest ih =>
    obtain ⟨h1, h2, h3⟩ := hr [] x rest rfl
    have := ih (.step h h1 h2 h3) (fun pre y post e => by
      have := hr (x :: pre) y post (by rw [e]; rfl)
      exact this)
    simpa [frun] using this

theorem quiet_run {s0 : State} {acts rest : List Act} {f : FState} (h : FQuiet s0 acts f)
    (hr : ∀ pre x post, rest = pre ++ x :: post → x.ok (frun f pre) ∧ x.attrOk (frun f pre) ∧
      NoLoss (frun f pre).s (frun f (pre ++ [x])).s ∧
      ∀ th p, (frun f pre).pend th = some p → x ≠ .second th → ¬ x.changes (frun f pre) p.loc (bbKey p.call.op.attr)) :
    FQuiet s0 (acts ++ rest) (frun f rest) := by
  induction rest generalizing acts f with
  | nil => simpa [frun] using h
  | cons x rest ih =>
    obtain ⟨h1, h2, h3, h4⟩ := hr [] x rest rfl
    have := ih (.step h h1 h2 h4 h3) (fun pre y post e => by
      have := hr (x :: pre) y post (by rw [e]; rfl)
      exact this)
    simpa [frun] using this

/-- splitting a list of length four -/
theorem split4 {α : Type} {a b c d x : α} {pre post : List α} (h : [a, b, c, d] = pre ++ x :: post) :
    (pre = [] ∧ x = a) ∨ (pre = [a] ∧ x = b) ∨ (pre = [a, b] ∧ x = c) ∨ (pre = [a, b, c] ∧ x = d) := by
  match pre with
  | [] => simp at h; exact .inl ⟨rfl, h.1.symm⟩
  | [p] => simp at h; obtain ⟨rfl, rfl, _⟩ := h; exact .inr (.inl ⟨rfl, rfl⟩)
  | [p, q] => simp at h; obtain ⟨rfl, rfl, rfl, _⟩ := h; exact .inr (.inr (.inl ⟨rfl, rfl⟩))
  | [p, q, r] => simp at h; obtain ⟨rfl, rfl, rfl, rfl, _⟩ := h; exact .inr (.inr (.inr ⟨rfl, rfl⟩))
  | p :: q :: r :: s :: t => simp at h

theorem exPQ_valid {s : State} (h : Ext exTree s.tree) : exP.Valid s.tree ∧ exQ.Valid s.tree := by
  have a : exP.Valid exTree := ⟨.inr (by decide), by decide, by decide, by decide, by decide, by decide⟩
  have b : exQ.Valid exTree := ⟨.inr (by decide), by decide, by decide, by decide, by decide, by decide⟩
  exact ⟨a.ext h, b.ext h⟩

/-- `ops` is an interleaving of `A` (thread 0) and `B` (thread 1) -/
def Merge (A B ops : List Op) : Prop :=
  (A = ops.filter fun op => decide (op.thread = 0)) ∧ (B = ops.filter fun op => decide (op.thread = 1)) ∧
  ∀ op ∈ ops, op.thread = 0 ∨ op.thread = 1

theorem Merge.nilB {A ops : List Op} (h : Merge A [] ops) : ops = A := by
  obtain ⟨h1, h2, h3⟩ := h
  rw [h1]
  symm
  apply List.filter_eq_self.2
  intro op ho
  rcases h3 op ho with e | e
  · simp [e]
  · have : op ∈ ops.filter fun op => decide (op.thread = 1) := by simp [ho, e]
    rw [← h2] at this; cases this

theorem Merge.nilA {B ops : List Op} (h : Merge [] B ops) : ops = B := by
  obtain ⟨h1, h2, h3⟩ := h
  rw [h2]
  symm
  apply List.filter_eq_self.2
  intro op ho
  rcases h3 op ho with e | e
  · have : op ∈ ops.filter fun op => decide (op.thread = 0) := by simp [ho, e]
    rw [← h1] at this; cases this
  · simp [e]

theorem Merge.cons {a b : Op} {A B ops : List Op} (h : Merge (a :: A) (b :: B) ops) :
    (∃ r, ops = a :: r ∧ Merge A (b :: B) r) ∨ ∃ r, ops = b :: r ∧ Merge (a :: A) B r := by
  obtain ⟨h1, h2, h3⟩ := h
  cases ops with
  | nil => cases h1
  | cons x r =>
    rcases h3 x (by simp) with e | e
    · left
      simp [e] at h1 h2
      exact ⟨r, by rw [h1.1], h1.2, h2, fun o ho => h3 o (by simp [ho])⟩
    · right
      simp [e] at h1 h2
      exact ⟨r, by rw [h2.1], h1, h2.2, fun o ho => h3 o (by simp [ho])⟩

theorem Merge.three {a b c : Op} {ops : List Op} (h : Merge [a, b] [c] ops) : ops = [a, b, c] ∨ ops = [a, c, b] ∨ ops = [c, a, b] := by
  rcases h.cons with ⟨r, e, h1⟩ | ⟨r, e, h1⟩
  · rcases h1.cons with ⟨r', e', h2⟩ | ⟨r', e', h2⟩
    · left; rw [e, e', h2.nilA]
    · right; left; rw [e, e', h2.nilB]
  · right; right; rw [e, h1.nilB]

theorem exRace_exec : FExec exS exRace (frun ⟨exS, fun _ => none⟩ exRace) := by
  have := exec_run (rest := exRace) (FExec.nil (s0 := exS)) ?_
  · simpa using this
  · intro pre x post e
    rcases split4 e with ⟨rfl, rfl⟩ | ⟨rfl, rfl⟩ | ⟨rfl, rfl⟩ | ⟨rfl, rfl⟩
    · refine ⟨⟨by decide, rfl⟩, (exPQ_valid (Ext.refl _)).1, by decide +kernel, fun l => ?_⟩
      cases l
      · rfl
      · decide +kernel
      · rfl
    · refine ⟨rfl, ⟨.inr (by decide +kernel), by decide, by decide +kernel, by decide +kernel, by decide, by decide⟩, by decide +kernel, fun l => ?_⟩
      cases l
      · rfl
      · decide +kernel
      · rfl
    · refine ⟨⟨by decide, rfl⟩, ⟨.inr (by decide +kernel), by decide, by decide +kernel, by decide +kernel, by decide, by decide⟩, by decide +kernel, fun l => ?_⟩
      cases l
      · rfl
      · decide +kernel
      · rfl
    · refine ⟨?_, trivial, by decide +kernel, fun l => ?_⟩
      · show ¬ (_ = none)
        rw [← Option.not_isSome_iff_eq_none]
        decide +kernel
      · cases l
        · rfl
        · decide +kernel
        · rfl

/-- **C47, violation.**  Thread 0 begins and ends the process-scope region `exP`; thread 1 begins the process-scope region
`exQ` while thread 0 is between the two critical sections of its `end`.  Thread 0 then restores what it read before:
thread 1's region is lost.  Nobody has ended it, no error is flagged, `get` finds no value for it - and no
order of the three calls executed one at a time gives this result. -/
theorem C47_violation_lost_begin :
    ∃ f, FExec exS exRace f ∧ (∀ th, f.pending th = []) ∧ f.s.err 0 = false ∧ f.s.err 1 = false ∧ f.s.dead = false ∧
      Query f.s 1 exQ = some none ∧
      ∀ ops, (∀ th, callsOf th exRace = ops.filter fun op => decide (op.thread = th)) →
        Query (run exS ops) 1 exQ = some (some (.ofInt 2)) ∨ (run exS ops).err 0 = true := by
  refine ⟨frun ⟨exS, fun _ => none⟩ exRace, ?_, ?_, by decide +kernel, by decide +kernel, by decide +kernel, by decide +kernel, ?_⟩
  · exact exRace_exec
  · intro th
    cases th with
    | zero => decide +kernel
    | succ k => rfl
  · intro ops h
    have h0 : Merge [.begin 0 exP (.ofInt 1), .endR 0 exP] [.begin 1 exQ (.ofInt 2)] ops := by
      refine ⟨h 0, h 1, fun op ho => ?_⟩
      match e : op.thread with
      | 0 => exact .inl rfl
      | 1 => exact .inr rfl
      | k + 2 =>
        have := h (k + 2)
        have hm : op ∈ ops.filter fun op => decide (op.thread = k + 2) := by simp [ho, e]
        rw [← this] at hm
        cases hm
    rcases h0.three with rfl | rfl | rfl
    · exact .inl (by decide +kernel)
    · exact .inr (by decide +kernel)
    · exact .inl (by decide +kernel)

/-- … and when thread 1 ends its region, it is marked as erroneous: all its later annotations are ignored -/
theorem C47_violation_frozen :
    ∃ f, FExec exS (exRace ++ [.first (.endR 1 exQ)]) f ∧ f.s.err 1 = true := by
  have h := exRace_exec
  refine ⟨_, .step h rfl ⟨.inr (by decide +kernel), by decide, by decide +kernel, by decide +kernel, by decide, by decide⟩ ⟨by decide +kernel, fun l => ?_⟩, by decide +kernel⟩
  cases l
  · rfl
  · decide +kernel
  · rfl

/-- the hypotheses of `C47_ends_atomic_partial` are met by an execution in which thread 1 changes another slot of the
process context, and its own context, while thread 0 is inside its `end` -/
example : RtReach exS ∧ ∃ f, FQuiet exS [.call (.begin 0 exP (.ofInt 1)), .first (.endR 0 exP), .call (.set 1 exW (.ofInt 2)), .second 0] f := by
  refine ⟨.init exTree_reach _ _, _, quiet_run (FQuiet.nil (s0 := exS)) ?_⟩
  intro pre x post e
  rcases split4 e with ⟨rfl, rfl⟩ | ⟨rfl, rfl⟩ | ⟨rfl, rfl⟩ | ⟨rfl, rfl⟩
  · refine ⟨⟨by decide, rfl⟩, (exPQ_valid (Ext.refl _)).1, ⟨by decide +kernel, fun l => ?_⟩, fun th p h => by cases h⟩
    cases l
    · rfl
    · decide +kernel
    · rfl
  · refine ⟨rfl, ⟨.inr (by decide +kernel), by decide, by decide +kernel, by decide +kernel, by decide, by decide⟩,
      ⟨by decide +kernel, fun l => ?_⟩, fun th p h => by cases h⟩
    cases l
    · rfl
    · decide +kernel
    · rfl
  · refine ⟨⟨by decide, rfl⟩, ⟨.inr (by decide +kernel), by decide, by decide +kernel, by decide +kernel, by decide, by decide⟩,
      ⟨by decide +kernel, fun l => ?_⟩, fun th p h _ => ?_⟩
    · cases l
      · rfl
      · decide +kernel
      · rfl
    · cases th with
      | zero =>
        have hc : ((frun ⟨exS, fun _ => none⟩ [.call (.begin 0 exP (.ofInt 1)), .first (.endR 0 exP)]).pend 0).map
            (fun p => bbKey p.call.op.attr) = some 1 := by decide +kernel
        rw [h] at hc
        simp only [Option.map_some, Option.some.injEq] at hc
        rintro ⟨_, h2⟩
        rw [hc] at h2
        exact absurd h2 (by decide)
      | succ k => cases h
  · refine ⟨?_, trivial, ⟨by decide +kernel, fun l => ?_⟩, fun th p h hne => ?_⟩
    · show ¬ (_ = none)
      rw [← Option.not_isSome_iff_eq_none]
      decide +kernel
    · cases l
      · rfl
      · decide +kernel
      · rfl
    · cases th with
      | zero => exact absurd rfl hne
      | succ k => cases h

end Verif.RT
