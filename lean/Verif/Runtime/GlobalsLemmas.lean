import Verif.Runtime.GlobalsSpec
import Verif.Runtime.AbsLemmas
import Verif.Blackboard.Visible
namespace Verif.RT
open MTree AttrReg

/-! ### every entry on the blackboard is visible -/

/-- all entries are visible -/
abbrev VT (bb : Board) : Prop := BB.VInv bb fun _ => true

theorem visStep_true (p : BB.Spec Entry) (op : BB.Op Entry) (h : ∀ b, op.incl? = some b → b = true) :
    p.visStep (fun _ => true) op = fun _ => true := by
  cases op with
  | get k => rfl
  | del k => rfl
  | set k v b =>
    have := h b rfl
    subst this
    simp only [BB.Spec.visStep]; split
    · funext j; simp
    · rfl
  | exchange k v b =>
    have := h b rfl
    subst this
    simp only [BB.Spec.visStep]; split
    · funext j; simp
    · rfl

theorem set_vis {bb bb' : Board} {p : BB.Spec Entry} (hr : BB.Rel bb p) (hv : VT bb) {k : Nat} (hk : k ≠ invId) {e : Entry}
    (h : BB.set bb k e true = some bb') : VT bb' := by
  have := hv.step hr (op := .set k e true) (s' := bb') (o := default) hk (by simp [BB.step, h]) (fun _ _ _ _ _ _ _ _ _ _ _ => rfl)
  rwa [visStep_true] at this
  intro b hb; simpa [BB.Op.incl?] using hb.symm

theorem del_vis {bb bb' : Board} {p : BB.Spec Entry} (hr : BB.Rel bb p) (hv : VT bb) {k : Nat} (hk : k ≠ invId)
    (h : BB.del bb k = some bb') : VT bb' := by
  have := hv.step hr (op := .del k) (s' := bb') (o := default) hk (by simp [BB.step, h]) (fun _ _ _ _ _ _ _ _ _ _ _ => rfl)
  rwa [visStep_true] at this
  intro b hb; simp [BB.Op.incl?] at hb

theorem refKey_inv (a : Attr) : refKey a ≠ invId := keyInv (refKey_cases a)

theorem bbKey_inv {a : Attr} (h : a.id ≠ invId) : bbKey a ≠ invId := by
  unfold bbKey; split
  · exact h
  · exact refKey_inv a

theorem handleBegin_vis {t : Tree} {th : Nat} {a : Attr} {v : Val} {bb : Board} {p : BB.Spec Entry} (hr : BB.Rel bb p) (hv : VT bb)
    (hid : a.id ≠ invId) (hh : a.hidden = false) {bb' : Board} (h : (handleBegin t th a v bb).2 = some bb') : VT bb' := by
  unfold handleBegin at h
  rw [hh] at h
  split at h
  · exact set_vis hr hv hid h
  · split at h
    · simp at h
    · split at h
      · simp at h
      · exact set_vis hr hv (refKey_inv a) h

theorem handleSet_vis {t : Tree} {th : Nat} {a : Attr} {v : Val} {bb : Board} {p : BB.Spec Entry} (hr : BB.Rel bb p) (hv : VT bb)
    (hid : a.id ≠ invId) (hh : a.hidden = false) {bb' : Board} (h : (handleSet t th a v bb).2 = some bb') : VT bb' := by
  unfold handleSet at h
  rw [hh] at h
  split at h
  · exact set_vis hr hv hid h
  · split at h
    · simp at h
    · split at h
      · simp at h
      · exact set_vis hr hv (refKey_inv a) h

theorem handleEnd_vis {t : Tree} {th : Nat} {a : Attr} {m e : Entry} {key : Nat} {bb : Board} {p : BB.Spec Entry} (hr : BB.Rel bb p)
    (hv : VT bb) (hk : key ≠ invId) (hh : a.hidden = false) {bb' : Board} (h : (handleEnd t th a m e key bb).2 = some bb') : VT bb' := by
  unfold handleEnd at h
  rw [hh] at h
  split at h
  · exact del_vis hr hv hk h
  · split at h
    · simp at h
    · dsimp only at h
      split at h
      · exact del_vis hr hv hk h
      · generalize (if m.node ≠ e.node then _ else _) = y at h
        obtain ⟨t', q⟩ := y
        cases q with
        | none => simp at h
        | some q => exact set_vis hr hv hk h

theorem put_vis {s : State} {l : Loc} {r : Tree × Option Board} (hv : ∀ l, VT (s.board l)) (h : ∀ bb', r.2 = some bb' → VT bb')
    (l' : Loc) : VT ((s.put l r).board l') := by
  obtain ⟨t, o⟩ := r
  cases o with
  | none =>
    have : (s.put l (t, none)).board l' = s.board l' := by cases l' <;> rfl
    rw [this]; exact hv l'
  | some bb =>
    by_cases e : l' = l
    · subst e
      have eb : (s.put l' (t, some bb)).board l' = bb := by cases l' <;> simp [State.put, State.board, BB.upd]
      rw [eb]; exact h bb rfl
    · have eb : (s.put l (t, some bb)).board l' = s.board l' := by
        cases l <;> cases l' <;> simp_all [State.put, State.board, BB.upd]
      rw [eb]; exact hv l'

theorem endCore_vis {s : State} {c : Abs} (R : RelS s c) (hv : ∀ l, VT (s.board l)) (th : Nat) {a : Attr} (ck : Option Val)
    (hid : a.id ≠ invId) (hh : a.hidden = false) (l' : Loc) : VT ((endCore s th a ck).board l') := by
  unfold endCore
  split
  · exact hv l'
  · split
    · exact hv l'
    · rename_i l _
      split
      · have : ({ s with dead := true } : State).board l' = s.board l' := by cases l' <;> rfl
        rw [this]; exact hv l'
      · split
        · have : ({ s with err := BB.upd s.err th true } : State).board l' = s.board l' := by cases l' <;> rfl
          rw [this]; exact hv l'
        · dsimp only
          obtain ⟨p, hp, _⟩ := (R.ctx l).ex
          apply put_vis
          · intro l; rw [emitAll_board]; exact hv l
          · intro bb' h
            rw [emitAll_board] at h
            exact handleEnd_vis hp (hv l) (bbKey_inv hid) hh h

theorem step_vis {s : State} {c : Abs} (R : RelS s c) {op : Op} (ha : op.attr.Valid s.tree) (hh : op.attr.hidden = false)
    (hv : ∀ l, VT (s.board l)) (l' : Loc) : VT ((step s op).board l') := by
  unfold step
  rw [R.dead, if_neg (by simp)]
  have hid := ha.2.2.2.2.2
  cases op with
  | begin th a v =>
    simp only [Op.attr] at hh hid
    simp only [begin]
    split
    · exact hv l'
    · have fin : ∀ s1 : State, (∀ l', VT (s1.board l')) →
          VT ((if s1.dead = true then s1 else s1.emitAll .postBegin th a v).board l') := by
        intro s1 key
        split
        · exact key l'
        · rw [emitAll_board]; exact key l'
      cases hs : scopeLoc a th with
      | none =>
        apply fin
        intro l; rw [emitAll_board]; exact hv l
      | some l =>
        apply fin
        obtain ⟨p, hp, _⟩ := (R.ctx l).ex
        apply put_vis
        · intro l; rw [emitAll_board]; exact hv l
        · intro bb' h
          rw [emitAll_board] at h
          exact handleBegin_vis hp (hv l) hid hh h
  | set th a v =>
    simp only [Op.attr] at hh hid
    simp only [set]
    split
    · exact hv l'
    · split
      · rw [emitAll_board]; exact hv l'
      · rename_i l _
        obtain ⟨p, hp, _⟩ := (R.ctx l).ex
        apply put_vis
        · intro l; rw [emitAll_board]; exact hv l
        · intro bb' h
          rw [emitAll_board] at h
          exact handleSet_vis hp (hv l) hid hh h
  | endR th a => exact endCore_vis R hv th _ hid hh l'
  | endCheck th a v => exact endCore_vis R hv th _ hid hh l'
  | beginCh th ch a v =>
    simp only [Op.attr] at hh hid
    simp only [beginCh]
    have key : ∀ l', VT (((s.emitOne ch .preBegin th a v).put (.channel ch)
              (handleBegin (s.emitOne ch .preBegin th a v).tree th a v ((s.emitOne ch .preBegin th a v).board (.channel ch)))).board l') := by
      intro l'
      obtain ⟨p, hp, _⟩ := (R.ctx (.channel ch)).ex
      apply put_vis
      · intro l; rw [emitOne_board]; exact hv l
      · intro bb' h
        rw [emitOne_board] at h
        exact handleBegin_vis hp (hv _) hid hh h
    split
    · exact key l'
    · rw [emitOne_board]; exact key l'
  | setCh th ch a v =>
    simp only [Op.attr] at hh hid
    simp only [setCh]
    obtain ⟨p, hp, _⟩ := (R.ctx (.channel ch)).ex
    apply put_vis
    · intro l; rw [emitOne_board]; exact hv l
    · intro bb' h
      rw [emitOne_board] at h
      exact handleSet_vis hp (hv _) hid hh h
  | endCh th ch a =>
    simp only [Op.attr] at hh hid
    simp only [endCh]
    split
    · have : ({ s with dead := true } : State).board l' = s.board l' := by cases l' <;> rfl
      rw [this]; exact hv l'
    · split
      · have : ({ s with err := BB.upd s.err th true } : State).board l' = s.board l' := by cases l' <;> rfl
        rw [this]; exact hv l'
      · obtain ⟨p, hp, _⟩ := (R.ctx (.channel ch)).ex
        apply put_vis
        · intro l; rw [emitOne_board]; exact hv l
        · intro bb' h
          rw [emitOne_board] at h
          exact handleEnd_vis hp (hv _) (bbKey_inv hid) hh h

theorem RtReachV.toReach {s : State} (h : RtReachV s) : RtReach s := by
  induction h with
  | init h ac ia => exact .init h ac ia
  | call h ha hh nl ih => exact .call ih ha nl
  | tree h hq hb ih => exact .tree ih hq hb
  | channels h ac ia ih => exact .channels ih ac ia

theorem RtReachV.vis {s : State} (h : RtReachV s) : ∀ l, VT (s.board l) := by
  induction h with
  | init h ac ia => intro l; cases l <;> exact BB.VInv.init _
  | call h ha hh nl ih =>
    obtain ⟨c, R⟩ := h.toReach.rel
    exact step_vis R ha hh ih
  | tree h hq hb ih => intro l; have := ih l; cases l <;> exact this
  | channels h ac ia ih => intro l; have := ih l; cases l <;> exact this

end Verif.RT
