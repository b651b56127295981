import Verif.Channel.ControllerSpec
import Verif.Props.Channel
/-!
# C93: channel controllers
-/
namespace Verif.Chan
open RT

/-- the condition of `Proper` for one call -/
def ProperOp (p : Spec) : Op → Prop
  | .activate c | .deactivate c | .delete c => p.alive c = true
  | _ => True

theorem proper_snoc : ∀ (ops : List Op) (p : Spec) (op : Op), Proper p ops → ProperOp (ops.foldl Spec.step p) op → Proper p (ops ++ [op])
  | [], _, op, _, h => by cases op <;> exact ⟨h, trivial⟩
  | x :: ops, p, op, h, h' => ⟨h.1, proper_snoc ops (p.step x) op h.2 h'⟩

theorem spec_snoc (ops : List Op) (op : Op) : spec (ops ++ [op]) = (spec ops).step op := by
  unfold spec; rw [List.foldl_append]; rfl

theorem calive_lt (ops : List Op) (c : Nat) (h : (spec ops).alive c = true) : c < (spec ops).n := by
  have R := rel_run exTree ops
  rw [← R.next]
  exact R.bound c ((R.alive c).2 h)

/-- what holds after every allowed history -/
structure CInv (s : CS) (st : Nat → Status) : Prop where
  proper : Proper Spec.init s.hist
  some_ : ∀ k c, s.own k = some c → (spec s.hist).alive c = true ∧ s.cb c = some k ∧ st k ≠ .nothing ∧ ((spec s.hist).on c = true ↔ st k = .running)
  none_ : ∀ k, s.own k = none → st k = .nothing
  back : ∀ c k, s.cb c = some k → c < (spec s.hist).n ∧ ((spec s.hist).alive c = true → s.own k = some c)

theorem cinv_init : CInv CS.init (fun _ => .nothing) :=
  ⟨trivial, (fun _ _ h => nomatch h), (fun _ _ => rfl), (fun _ _ h => nomatch h)⟩

theorem on_lt {s : CS} {st : Nat → Status} (I : CInv s st) (c : Nat) (h : (spec s.hist).on c = true) : c < (spec s.hist).n :=
  calive_lt _ c (on_alive I.proper c h)

theorem cinv_call {s : CS} {st : Nat → Status} (I : CInv s st) {k c : Nat} (h : s.own k = some c) (b : Bool) :
    CInv (s.call (if b then .activate c else .deactivate c)) (BB.upd st k (if b then .running else .stopped)) := by
  have hc := I.some_ k c h
  have hal : ∀ x, (spec (s.call (if b then .activate c else .deactivate c)).hist).alive x = (spec s.hist).alive x := by
    intro x; simp only [CS.call, spec_snoc]; cases b <;> rfl
  have hn : (spec (s.call (if b then .activate c else .deactivate c)).hist).n = (spec s.hist).n := by
    simp only [CS.call, spec_snoc]; cases b <;> rfl
  have hon : ∀ x, (spec (s.call (if b then .activate c else .deactivate c)).hist).on x = if x = c then b else (spec s.hist).on x := by
    intro x; simp only [CS.call, spec_snoc]; cases b <;> rfl
  refine ⟨proper_snoc _ _ _ I.proper (by cases b <;> exact hc.1), ?_, ?_, ?_⟩
  · intro k' c' h'
    have h'' := I.some_ k' c' h'
    rw [hal, hon]
    refine ⟨h''.1, h''.2.1, ?_⟩
    simp only [BB.upd]
    by_cases e : k' = k
    · subst e
      have : c' = c := Option.some.inj (h'.symm.trans h)
      subst this
      cases b <;> simp
    · have : c' ≠ c := by
        rintro rfl
        exact e (Option.some.inj (h''.2.1.symm.trans hc.2.1))
      rw [if_neg e, if_neg this]
      exact h''.2.2
  · intro k' h'
    simp only [BB.upd]
    by_cases e : k' = k
    · subst e; exact absurd (h'.symm.trans h) (by simp)
    · rw [if_neg e]; exact I.none_ k' h'
  · intro x k' h'
    rw [hal, hn]
    exact I.back x k' h'

theorem cinv_delete {s : CS} {st : Nat → Status} (I : CInv s st) {k c : Nat} (h : s.own k = some c) :
    CInv (s.delete c) (BB.upd st k .nothing) := by
  have hc := I.some_ k c h
  have e : s.delete c = { s.call (.delete c) with own := BB.upd s.own k none } := by
    unfold CS.delete finishCb
    rw [show (s.call (.delete c)).cb c = some k from hc.2.1]
    rfl
  rw [e]
  refine ⟨proper_snoc _ _ _ I.proper hc.1, ?_, ?_, ?_⟩
  · intro k' c' h'
    simp only [BB.upd] at h'
    by_cases ek : k' = k
    · rw [if_pos ek] at h'; cases h'
    · rw [if_neg ek] at h'
      have h'' := I.some_ k' c' h'
      have ec : c' ≠ c := by
        rintro rfl
        exact ek (Option.some.inj (h''.2.1.symm.trans hc.2.1))
      simp only [CS.call, spec_snoc, Spec.step, BB.upd, if_neg ek, if_neg ec]
      exact h''
  · intro k' h'
    simp only [BB.upd] at h' ⊢
    by_cases ek : k' = k
    · rw [if_pos ek]
    · rw [if_neg ek] at h' ⊢; exact I.none_ k' h'
  · intro x k' h'
    have hb := I.back x k' h'
    simp only [CS.call, spec_snoc, Spec.step, BB.upd]
    refine ⟨hb.1, ?_⟩
    intro ha
    by_cases ex : x = c
    · rw [if_pos ex] at ha; cases ha
    · rw [if_neg ex] at ha
      have := hb.2 ha
      rw [if_neg, this]
      rintro rfl
      exact ex (Option.some.inj (this.symm.trans h))

theorem cinv_create {t : MTree.Tree} {s : CS} {st : Nat → Status} (I : CInv s st) {k : Nat} (h : s.own k = none) :
    CInv { s.call .create with own := BB.upd s.own k (some (s.rt t).next), cb := BB.upd s.cb (s.rt t).next (some k) } (BB.upd st k .stopped) := by
  have hn : (s.rt t).next = (spec s.hist).n := (rel_run t s.hist).next
  rw [hn]
  refine ⟨proper_snoc _ _ _ I.proper trivial, ?_, ?_, ?_⟩
  · intro k' c' h'
    simp only [CS.call, spec_snoc, Spec.step, BB.upd] at h' ⊢
    by_cases ek : k' = k
    · rw [if_pos ek] at h'
      have : c' = (spec s.hist).n := (Option.some.inj h').symm
      subst this
      rw [if_pos rfl, if_pos rfl, if_pos ek, ek]
      refine ⟨rfl, rfl, by simp, ?_⟩
      constructor
      · intro ho
        exact absurd (on_lt I _ ho) (by omega)
      · intro h; cases h
    · rw [if_neg ek] at h'
      have h'' := I.some_ k' c' h'
      have ec : c' ≠ (spec s.hist).n := by
        have := calive_lt _ _ h''.1
        omega
      rw [if_neg ek, if_neg ec, if_neg ec]
      exact h''
  · intro k' h'
    simp only [BB.upd] at h' ⊢
    by_cases ek : k' = k
    · rw [if_pos ek] at h'; cases h'
    · rw [if_neg ek] at h' ⊢; exact I.none_ k' h'
  · intro x k' h'
    simp only [CS.call, spec_snoc, Spec.step, BB.upd] at h' ⊢
    by_cases ex : x = (spec s.hist).n
    · rw [if_pos ex] at h'
      have : k' = k := (Option.some.inj h').symm
      rw [if_pos this, ex]
      exact ⟨by omega, fun _ => rfl⟩
    · rw [if_neg ex] at h'
      rw [if_neg ex]
      have hb := I.back x k' h'
      refine ⟨by omega, fun ha => ?_⟩
      have := hb.2 ha
      rw [if_neg, this]
      rintro rfl
      exact absurd (this.symm.trans h) (by simp)

theorem finishCb_fold : ∀ (l : List Nat) (s : CS), (l.foldl finishCb s).hist = s.hist ∧ (l.foldl finishCb s).cb = s.cb ∧
    (l.foldl finishCb s).released = s.released ∧ (l.foldl finishCb s).wrote = s.wrote ∧
    ∀ k, (l.foldl finishCb s).own k = if ∃ c ∈ l, s.cb c = some k then none else s.own k
  | [], s => ⟨rfl, rfl, rfl, rfl, fun k => by simp⟩
  | c :: l, s => by
    obtain ⟨h1, h2, h3, h4, h5⟩ := finishCb_fold l (finishCb s c)
    have e : (finishCb s c).hist = s.hist ∧ (finishCb s c).cb = s.cb ∧ (finishCb s c).released = s.released ∧ (finishCb s c).wrote = s.wrote ∧
        ∀ k, (finishCb s c).own k = if s.cb c = some k then none else s.own k := by
      unfold finishCb
      cases hc : s.cb c with
      | none => simp
      | some k' =>
        refine ⟨rfl, rfl, rfl, rfl, fun k => ?_⟩
        simp only [BB.upd, Option.some.injEq]
        by_cases hk : k = k'
        · rw [if_pos hk, if_pos hk.symm]
        · rw [if_neg hk, if_neg (Ne.symm hk)]
    refine ⟨h1.trans e.1, h2.trans e.2.1, h3.trans e.2.2.1, h4.trans e.2.2.2.1, fun k => ?_⟩
    rw [List.foldl_cons, h5 k, e.2.1, e.2.2.2.2 k]
    by_cases ha : s.cb c = some k
    · rw [if_pos ha, if_pos (⟨c, by simp, ha⟩ : ∃ c_1 ∈ c :: l, s.cb c_1 = some k)]
      split <;> rfl
    · rw [if_neg ha]
      by_cases hb : ∃ c ∈ l, s.cb c = some k
      · rw [if_pos hb, if_pos]
        obtain ⟨x, hx, hy⟩ := hb
        exact ⟨x, by simp [hx], hy⟩
      · rw [if_neg hb, if_neg]
        rintro ⟨x, hx, hy⟩
        rcases List.mem_cons.1 hx with rfl | hx
        · exact ha hy
        · exact hb ⟨x, hx, hy⟩

theorem cinv_release {t : MTree.Tree} {s : CS} {st : Nat → Status} (I : CInv s st) (hr : s.released = false) :
    CInv (s.release t) (fun _ => .nothing) := by
  obtain ⟨h1, h2, _, _, h5⟩ := finishCb_fold (s.rt t).all (s.call .finalize)
  have hall : ∀ k, ((s.rt t).all.foldl finishCb (s.call .finalize)).own k = none := by
    intro k
    rw [h5]
    split
    · rfl
    · rename_i hne
      cases ho : (s.call .finalize).own k with
      | none => rfl
      | some c =>
        exfalso
        have hc := I.some_ k c ho
        exact hne ⟨c, ((rel_run t s.hist).alive c).2 hc.1, hc.2.1⟩
  have eh : (s.release t).hist = s.hist ++ [.finalize] := by
    unfold CS.release; rw [hr]; exact h1
  have eo : ∀ k, (s.release t).own k = none := by
    intro k; unfold CS.release; rw [hr]; exact hall k
  have ec : (s.release t).cb = s.cb := by
    unfold CS.release; rw [hr]; exact h2
  refine ⟨?_, ?_, ?_, ?_⟩
  · rw [eh]; exact proper_snoc _ _ _ I.proper trivial
  · intro k c h; rw [eo] at h; cases h
  · intro k _; rfl
  · intro c k h
    rw [ec] at h
    rw [eh, spec_snoc]
    exact ⟨(I.back c k h).1, fun h => nomatch h⟩

theorem cinv_step {t : MTree.Tree} {s : CS} {st : Nat → Status} (I : CInv s st) (hrel : s.released = true → ∀ k, s.own k = none) (op : COp) (h : Allowed t s op) :
    ∃ s', s.step t op = some s' ∧ CInv s' (Status.next st op) ∧ (s'.released = true → ∀ k, s'.own k = none) := by
  have updSelf : ∀ k, st k = .nothing → BB.upd st k .nothing = st := by
    intro k hk; funext x; simp only [BB.upd]; split <;> simp_all
  have hcall : ∀ (x : Op), (s.call x).released = s.released ∧ (s.call x).own = s.own := fun _ => ⟨rfl, rfl⟩
  have relOf : ∀ {k c}, s.own k = some c → s.released = false := by
    intro k c h
    cases hr : s.released with
    | false => rfl
    | true => rw [hrel hr k] at h; cases h
  have delRel : ∀ {k c}, s.own k = some c → (s.delete c).released = false := by
    intro k c h
    have := (finishCb_fold [c] (s.call (.delete c))).2.2.1
    exact this.trans (relOf h)
  cases op with
  | start k =>
    cases ho : s.own k with
    | some c =>
      refine ⟨s.call (.activate c), ?_, cinv_call I ho true, fun hr => ?_⟩
      · simp [CS.step, CS.start, CS.create, ho, CS.activate]
      · exact hrel hr
    | none =>
      have hr : s.released = false := by
        cases hr : s.released with
        | false => rfl
        | true => exact absurd ho (h hr)
      have I' := cinv_create (t := t) I ho
      have ho' : ({ s.call .create with own := BB.upd s.own k (some (s.rt t).next), cb := BB.upd s.cb (s.rt t).next (some k) } : CS).own k = some (s.rt t).next := by
        simp [BB.upd]
      have I2 := cinv_call I' ho' true
      refine ⟨CS.call { s.call .create with own := BB.upd s.own k (some (s.rt t).next), cb := BB.upd s.cb (s.rt t).next (some k) } (.activate (s.rt t).next), ?_, ?_, fun hx => ?_⟩
      · simp only [CS.step, CS.start, CS.create, ho, hr, Bool.false_eq_true, if_false, Option.map_some, CS.activate]
        simp [BB.upd]
      · have : BB.upd (BB.upd st k .stopped) k .running = BB.upd st k .running := by
          funext x; simp only [BB.upd]; split <;> rfl
        simp only [if_true] at I2
        rw [this] at I2
        exact I2
      · have : s.released = true := hx
        rw [hr] at this; cases this
  | stop k =>
    cases ho : s.own k with
    | some c =>
      refine ⟨s.call (.deactivate c), by simp [CS.step, CS.stop, ho], ?_, fun hr => hrel hr⟩
      have := cinv_call I ho false
      simp only [Status.next, if_neg (I.some_ k c ho).2.2.1]
      exact this
    | none =>
      refine ⟨s, by simp [CS.step, CS.stop, ho], ?_, hrel⟩
      simp only [Status.next, if_pos (I.none_ k ho), updSelf k (I.none_ k ho)]
      exact I
  | deactivate k =>
    cases ho : s.own k with
    | some c =>
      refine ⟨s.call (.deactivate c), by simp [CS.step, CS.stop, ho], ?_, fun hr => hrel hr⟩
      have := cinv_call I ho false
      simp only [Status.next, if_neg (I.some_ k c ho).2.2.1]
      exact this
    | none =>
      refine ⟨s, by simp [CS.step, CS.stop, ho], ?_, hrel⟩
      simp only [Status.next, if_pos (I.none_ k ho), updSelf k (I.none_ k ho)]
      exact I
  | activate k =>
    cases ho : s.own k with
    | some c =>
      refine ⟨s.call (.activate c), by simp [CS.step, CS.activate, ho], ?_, fun hr => hrel hr⟩
      have := cinv_call I ho true
      simp only [Status.next, if_neg (I.some_ k c ho).2.2.1]
      exact this
    | none =>
      refine ⟨s, by simp [CS.step, CS.activate, ho], ?_, hrel⟩
      simp only [Status.next, if_pos (I.none_ k ho), updSelf k (I.none_ k ho)]
      exact I
  | flush k =>
    refine ⟨s.flush k, rfl, ?_, ?_⟩
    · unfold CS.flush; split
      · exact ⟨I.proper, I.some_, I.none_, I.back⟩
      · exact I
    · unfold CS.flush; split <;> exact hrel
  | hold k => exact ⟨_, rfl, ⟨I.proper, I.some_, I.none_, I.back⟩, hrel⟩
  | connect k => exact ⟨_, rfl, ⟨I.proper, I.some_, I.none_, I.back⟩, hrel⟩
  | delete k =>
    cases ho : s.own k with
    | some c =>
      refine ⟨s.delete c, by simp [CS.step, ho], cinv_delete I ho, fun hr => ?_⟩
      rw [delRel ho] at hr; cases hr
    | none =>
      refine ⟨s, by simp [CS.step, ho], ?_, hrel⟩
      simp only [Status.next, updSelf k (I.none_ k ho)]
      exact I
  | destroy k =>
    cases ho : s.own k with
    | some c =>
      refine ⟨s.delete c, ?_, cinv_delete I ho, fun hr => ?_⟩
      · have : (s.late c && !s.held c) = false := by
          cases hl : s.late c with
          | false => rfl
          | true => rw [h c ho hl]; rfl
        simp [CS.step, CS.destroy, ho, this]
      · rw [delRel ho] at hr; cases hr
    | none =>
      refine ⟨s, by simp [CS.step, CS.destroy, ho], ?_, hrel⟩
      simp only [Status.next, updSelf k (I.none_ k ho)]
      exact I
  | release =>
    cases hr : s.released with
    | false =>
      have I' := cinv_release (t := t) I hr
      refine ⟨_, rfl, I', fun _ k => ?_⟩
      cases ho : (s.release t).own k with
      | none => rfl
      | some c => exact absurd rfl (I'.some_ k c ho).2.2.1
    | true =>
      have e : s.release t = s := by unfold CS.release; rw [hr]; rfl
      refine ⟨s, by simp [CS.step, e], ?_, hrel⟩
      have : st = fun _ => .nothing := funext fun k => I.none_ k (hrel hr k)
      simp only [Status.next]
      rw [← this]; exact I
  | other op =>
    refine ⟨s.call op, rfl, ?_, hrel⟩
    obtain ⟨hr, hop⟩ := h
    have key : (∀ c, (∃ k, s.own k = some c) → (spec (s.call op).hist).alive c = (spec s.hist).alive c ∧ (spec (s.call op).hist).on c = (spec s.hist).on c) →
        (spec s.hist).n ≤ (spec (s.call op).hist).n →
        (∀ c, c < (spec s.hist).n → (spec (s.call op).hist).alive c = true → (spec s.hist).alive c = true) → ProperOp (spec s.hist) op → CInv (s.call op) st := by
      intro a1 a2 a3 a4
      refine ⟨proper_snoc _ _ _ I.proper a4, ?_, I.none_, ?_⟩
      · intro k c hk
        have := a1 c ⟨k, hk⟩
        rw [this.1, this.2]
        exact I.some_ k c hk
      · intro c k hk
        have hb := I.back c k hk
        exact ⟨by omega, fun ha => hb.2 (a3 c hb.1 ha)⟩
    simp only [Status.next]
    cases op with
    | create =>
      refine key ?_ ?_ ?_ trivial
      · rintro c ⟨k, hk⟩
        have := calive_lt _ _ (I.some_ k c hk).1
        simp only [CS.call, spec_snoc, Spec.step, BB.upd]
        rw [if_neg (by omega)]
        first | trivial | exact ⟨rfl, rfl⟩ | exact ⟨trivial, trivial⟩
      · simp only [CS.call, spec_snoc, Spec.step]; omega
      · intro c hc
        simp only [CS.call, spec_snoc, Spec.step, BB.upd]
        rw [if_neg (by omega)]
        exact id
    | activate c =>
      refine key ?_ ?_ ?_ hop.1
      · rintro c' ⟨k, hk⟩
        have : c' ≠ c := by rintro rfl; exact hop.2 k hk
        simp only [CS.call, spec_snoc, Spec.step, BB.upd, if_neg this]
        first | trivial | exact ⟨rfl, rfl⟩ | exact ⟨trivial, trivial⟩
      · simp only [CS.call, spec_snoc, Spec.step]; omega
      · intro c' _; simp only [CS.call, spec_snoc, Spec.step]; exact id
    | deactivate c =>
      refine key ?_ ?_ ?_ hop.1
      · rintro c' ⟨k, hk⟩
        have : c' ≠ c := by rintro rfl; exact hop.2 k hk
        simp only [CS.call, spec_snoc, Spec.step, BB.upd, if_neg this]
        first | trivial | exact ⟨rfl, rfl⟩ | exact ⟨trivial, trivial⟩
      · simp only [CS.call, spec_snoc, Spec.step]; omega
      · intro c' _; simp only [CS.call, spec_snoc, Spec.step]; exact id
    | delete c =>
      refine key ?_ ?_ ?_ hop.1
      · rintro c' ⟨k, hk⟩
        have : c' ≠ c := by rintro rfl; exact hop.2 k hk
        simp only [CS.call, spec_snoc, Spec.step, BB.upd, if_neg this]
        first | trivial | exact ⟨rfl, rfl⟩ | exact ⟨trivial, trivial⟩
      · simp only [CS.call, spec_snoc, Spec.step]; omega
      · intro c' _
        simp only [CS.call, spec_snoc, Spec.step, BB.upd]
        split
        · intro h; cases h
        · exact id
    | finalize => exact absurd hop id
    | releaseThread =>
      refine key ?_ ?_ ?_ trivial
      · rintro c' _; simp only [CS.call, spec_snoc, Spec.step]; first | trivial | exact ⟨rfl, rfl⟩ | exact ⟨trivial, trivial⟩
      · simp only [CS.call, spec_snoc, Spec.step]; omega
      · intro c' _; simp only [CS.call, spec_snoc, Spec.step]; exact id
    | ann x =>
      refine key ?_ ?_ ?_ trivial
      · rintro c' _; simp only [CS.call, spec_snoc, Spec.step]; first | trivial | exact ⟨rfl, rfl⟩ | exact ⟨trivial, trivial⟩
      · simp only [CS.call, spec_snoc, Spec.step]; omega
      · intro c' _; simp only [CS.call, spec_snoc, Spec.step]; exact id

theorem cinv_run {t : MTree.Tree} : ∀ (ops : List COp) (s : CS) (st : Nat → Status), CInv s st → (s.released = true → ∀ k, s.own k = none) → AllowedAll t s ops →
    ∃ s', s.runC t ops = some s' ∧ CInv s' (ops.foldl Status.next st) ∧ (s'.released = true → ∀ k, s'.own k = none)
  | [], s, st, I, hr, _ => ⟨s, rfl, I, hr⟩
  | op :: ops, s, st, I, hr, h => by
    obtain ⟨s1, e, I1, hr1⟩ := cinv_step I hr op h.1
    obtain ⟨s2, e2, h2⟩ := cinv_run ops s1 _ I1 hr1 (h.2 s1 e)
    exact ⟨s2, by simp [CS.runC, e, e2], h2⟩

/-- the state after an allowed history -/
theorem cinv_of {t : MTree.Tree} {ops : List COp} (h : AllowedAll t CS.init ops) : ∃ s, CS.init.runC t ops = some s ∧ CInv s (status ops) :=
  let ⟨s, e, I, _⟩ := cinv_run ops CS.init _ cinv_init (fun h => nomatch h) h
  ⟨s, e, I⟩

/-- **C93** After every allowed history of calls, for every controller: it has a channel exactly if it was started and the channel was not
destroyed, deleted or released since; `is_active` says whether the last of start and stop was a start.  Different controllers have different channels,
and the channel exists in the runtime. -/
theorem C93_status_partial (t : MTree.Tree) (ops : List COp) (h : AllowedAll t CS.init ops) :
    ∃ s, CS.init.runC t ops = some s ∧
      (∀ k, (s.isInstantiated k = true ↔ status ops k ≠ .nothing) ∧ (s.isActive t k = true ↔ status ops k = .running)) ∧
      (∀ k c, s.own k = some c → c ∈ (s.rt t).all ∧ ∀ k', s.own k' = some c → k' = k) := by
  obtain ⟨s, e, I⟩ := cinv_of h
  refine ⟨s, e, fun k => ?_, fun k c hk => ?_⟩
  · cases ho : s.own k with
    | none =>
      have := I.none_ k ho
      simp [CS.isInstantiated, CS.isActive, ho, this]
    | some c =>
      have hc := I.some_ k c ho
      refine ⟨by simp [CS.isInstantiated, ho, hc.2.2.1], ?_⟩
      simp only [CS.isActive, ho]
      rw [show (s.rt t).rt.isActive c = _ from C44_is_active t s.hist I.proper c hc.1]
      exact hc.2.2.2
  · have hc := I.some_ k c hk
    refine ⟨((rel_run t s.hist).alive c).2 hc.1, fun k' hk' => ?_⟩
    exact Option.some.inj ((I.some_ k' c hk').2.1.symm.trans hc.2.1)

/-- **C93** What a running channel records: after every allowed history, an accepted `begin` invokes one pre-begin and one post-begin callback on the channel of
every controller that is running, and none on the channel of a stopped one. -/
theorem C93_events_partial (t : MTree.Tree) (ops : List COp) (h : AllowedAll t CS.init ops) (th : Nat) (a : Attr) (v : Val) :
    ∃ s, CS.init.runC t ops = some s ∧
      ((s.rt t).rt.err th = false → (Chan.step (s.rt t) (.ann (.begin th a v))).rt.dead = false → a.skipEvents = false →
        ∃ new, (Chan.step (s.rt t) (.ann (.begin th a v))).rt.log = (s.rt t).rt.log ++ new ∧
          ∀ k c, s.own k = some c → ∀ kind, new.count ⟨kind, c, th, a.id, v⟩ = if status ops k = .running ∧ (kind = .preBegin ∨ kind = .postBegin) then 1 else 0) := by
  obtain ⟨s, e, I⟩ := cinv_of h
  refine ⟨s, e, fun he hd hs => ?_⟩
  obtain ⟨new, hn, hx⟩ := C40_begin t s.hist th a v he hd
  refine ⟨new, hn, fun k c hk kind => ?_⟩
  have hc := I.some_ k c hk
  have hd : Due (spec s.hist).on a th v [.preBegin, .postBegin] ⟨kind, c, th, a.id, v⟩ ↔ (status ops k = .running ∧ (kind = .preBegin ∨ kind = .postBegin)) := by
    simp [Due, hs, hc.2.2.2]
  split
  · rename_i h1
    exact (hx _).1 (hd.2 h1)
  · rename_i h1
    exact (hx _).2 (fun h => h1 (hd.1 h))

/-- **C93** `flush` writes the controller's channel if it has one, and nothing else -/
theorem C93_flush_partial (t : MTree.Tree) (ops : List COp) (h : AllowedAll t CS.init ops) (k : Nat) :
    ∃ s s', CS.init.runC t ops = some s ∧ CS.init.runC t (ops ++ [.flush k]) = some s' ∧ s'.own = s.own ∧ s'.hist = s.hist ∧
      ((status ops k = .nothing ∧ s'.wrote = s.wrote) ∨ ∃ c, s.own k = some c ∧ s'.wrote = s.wrote ++ [c]) := by
  obtain ⟨s, e, I⟩ := cinv_of h
  have run_app : ∀ (l : List COp) (x s1 : CS) (op : COp), x.runC t l = some s1 → x.runC t (l ++ [op]) = s1.step t op := by
    intro l
    induction l with
    | nil => intro x s1 op hx; cases hx; simp only [List.nil_append, CS.runC]; cases x.step t op <;> rfl
    | cons o l ih =>
      intro x s1 op hx
      simp only [CS.runC, List.cons_append] at hx ⊢
      cases hs : x.step t o with
      | none => rw [hs] at hx; cases hx
      | some y => rw [hs] at hx; exact ih y s1 op hx
  refine ⟨s, s.flush k, e, (run_app ops CS.init s _ e).trans rfl, ?_⟩
  unfold CS.flush
  cases ho : s.own k with
  | none => exact ⟨rfl, rfl, .inl ⟨I.none_ k ho, rfl⟩⟩
  | some c => exact ⟨rfl, rfl, .inr ⟨c, rfl, rfl⟩⟩

/-- **C93** A start of a controller without a channel makes a channel that did not exist before, and no history leaves a channel of a destroyed controller in the
runtime -/
theorem C93_fresh_partial (t : MTree.Tree) (ops : List COp) (h : AllowedAll t CS.init ops) :
    ∃ s, CS.init.runC t ops = some s ∧
      (∀ k s', s.own k = none → s.start t k = some s' → ∃ c, s'.own k = some c ∧ c ∉ (s.rt t).all ∧ (∀ x ∈ (s.rt t).all, x < c) ∧ s.cb c = none) ∧
      (∀ k s', s.destroy k = some s' → s'.own k = none ∧ ∀ c, s.own k = some c → c ∉ (s'.rt t).all) := by
  obtain ⟨s, e, I⟩ := cinv_of h
  have R := rel_run t s.hist
  refine ⟨s, e, fun k s' ho hs => ?_, fun k s' hs => ?_⟩
  · simp only [CS.start, CS.create, ho] at hs
    split at hs
    · cases hs
    · simp only [Option.map_some, Option.some.injEq] at hs
      refine ⟨(s.rt t).next, ?_, fun hm => ?_, R.bound, ?_⟩
      · rw [← hs]; simp [CS.activate, BB.upd, CS.call]
      · exact absurd (R.bound _ hm) (Nat.lt_irrefl _)
      · cases hc : s.cb (s.rt t).next with
        | none => rfl
        | some x =>
          have := (I.back _ _ hc).1
          rw [show (s.rt t).next = _ from R.next] at this
          omega
  · cases ho : s.own k with
    | none =>
      simp only [CS.destroy, ho, Option.some.injEq] at hs
      subst hs
      exact ⟨ho, fun c h => nomatch h⟩
    | some c =>
      simp only [CS.destroy, ho] at hs
      split at hs
      · cases hs
      · simp only [Option.some.injEq] at hs
        subst hs
        have I' := cinv_delete I ho
        refine ⟨?_, fun c' hc' hm => ?_⟩
        · cases h' : (s.delete c).own k with
          | none => rfl
          | some x => exact absurd (by simp [BB.upd]) (I'.some_ k x h').2.2.1
        · have := ((rel_run t (s.delete c).hist).alive c').1 hm
          have e1 : (s.delete c).hist = s.hist ++ [.delete c] := (finishCb_fold [c] (s.call (.delete c))).1
          rw [e1, spec_snoc] at this
          have ec : c' = c := (Option.some.inj hc').symm
          subst ec
          simp [Spec.step, BB.upd] at this

/-! ## examples -/

/-- a check for the calls used in the example -/
private def check (s : CS) : COp → Bool
  | .start _ => !s.released
  | .destroy k => match s.own k with | some c => !s.late c || s.held c | none => true
  | .other .create => !s.released
  | .other (.ann _) => !s.released
  | .other _ => false
  | _ => true

private def checkAll (t : MTree.Tree) : CS → List COp → Bool
  | _, [] => true
  | s, op :: ops => check s op && match s.step t op with | some s' => checkAll t s' ops | none => true

private theorem check_ok (t : MTree.Tree) : ∀ (ops : List COp) (s : CS), checkAll t s ops = true → AllowedAll t s ops
  | [], _, _ => trivial
  | op :: ops, s, h => by
    simp only [checkAll, Bool.and_eq_true] at h
    refine ⟨?_, fun s' hs => check_ok t ops s' ?_⟩
    · have h := h.1
      cases op with
      | start k => intro hr; simp [check, hr] at h
      | destroy k =>
        intro c hc hl
        simpa [check, hc, hl] using h
      | other op => cases op <;> simp_all [check, Allowed]
      | _ => trivial
    · have := h.2
      rw [hs] at this
      exact this

/-- two controllers, one stopped, deleted and restarted, the other destroyed; a channel of the program itself -/
def ctlEx : List COp := [.start 0, .other .create, .start 1, .flush 0, .stop 0, .connect 1, .hold 1, .destroy 1, .delete 0, .start 0]

theorem C93_example : AllowedAll exTree CS.init ctlEx ∧ status ctlEx 0 = .running ∧ status ctlEx 1 = .nothing ∧
    (CS.init.runC exTree ctlEx).map (fun s => (s.own 0, s.wrote, (s.rt exTree).all)) = some (some 3, [0], [1, 3]) :=
  ⟨check_ok _ _ _ (by decide +kernel), by decide +kernel, by decide +kernel, by decide +kernel⟩

/-- **C93** violated: a controller started after the runtime was released uses a null pointer -/
theorem C93_violation_after_release (t : MTree.Tree) : CS.init.runC t [.start 0, .release, .start 0] = none := rfl

/-- **C93** violated: destroying a controller reads freed memory if the program connected a function to the channel's finish event after the start -/
theorem C93_violation_late_callback (t : MTree.Tree) : CS.init.runC t [.start 0, .connect 0, .destroy 0] = none := rfl

end Verif.Chan
