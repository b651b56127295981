import Verif.Runtime.AbsLemmas
/-!
# `end` is two critical sections

`Caliper::end`, `end_with_value_check` and the channel-specific `end` read the current entry under the blackboard lock,
release it, run the callbacks, and update the blackboard under the lock again with what they read before
(`/repo/src/caliper/Caliper.cpp:994-1023`, `1041-1068`, `1134-1155`).  Here these calls are two steps; all other calls change
shared blackboards in a single critical section (`Caliper.cpp:968-971`, `1092-1096`, `1118-1121`, `1168-1170`) and are one step.
Simplification: the `pre_end` callbacks run in the second step (their order relative to callbacks of *other*
threads is not modelled).
-/
namespace Verif.RT
open MTree

/-- the three kinds of `end` calls -/
inductive EndCall where
  | endR (th : Nat) (a : Attr)
  | endCheck (th : Nat) (a : Attr) (v : Val)
  | endCh (th ch : Nat) (a : Attr)

/-- the same call as one step -/
def EndCall.op : EndCall → Op
  | .endR th a => .endR th a
  | .endCheck th a v => .endCheck th a v
  | .endCh th ch a => .endCh th ch a

/-- an `end` between its two critical sections: the call, the context it works on, and what it read -/
structure Pend where
  call : EndCall
  loc : Loc
  merged : Entry
  entry : Entry

/-- runtime state with the unfinished `end` of every thread -/
structure FState where
  s : State
  pend : Nat → Option Pend

/-- `load_current_entry` under the lock, and the checks that follow (`Caliper.cpp:996-1007`, `1043-1054`, `1137-1145`) -/
def endLoad (f : FState) (c : EndCall) (l : Loc) (th : Nat) (a : Attr) (ck : Option Val) : FState :=
  match loadCurrent f.s.tree a (bbKey a) (f.s.board l) with
  | none => { f with s := { f.s with dead := true } }
  | some (merged, entry) =>
    if entry.node = none ∨ ck.any (fun d => decide (d ≠ entry.val)) then { f with s := { f.s with err := BB.upd f.s.err th true } }
    else { f with pend := BB.upd f.pend th (some ⟨c, l, merged, entry⟩) }

/-- first part of an `end` call (`Caliper.cpp:982-1007`, `1026-1054`, `1128-1145`) -/
def endFirst (f : FState) (c : EndCall) : FState :=
  match c with
  | .endR th a => if f.s.err th then f else match scopeLoc a th with
    | none => f
    | some l => endLoad f c l th a none
  | .endCheck th a v => if f.s.err th then f else match scopeLoc a th with
    | none => f
    | some l => endLoad f c l th a (some v)
  | .endCh th ch a => endLoad f c (.channel ch) th a none

/-- second part: callbacks and `handle_end` with the values read before (`Caliper.cpp:1009-1023`, `1056-1068`, `1147-1155`) -/
def endSecond (f : FState) (th : Nat) (p : Pend) : FState :=
  let s := match p.call with
    | .endR _ a | .endCheck _ a _ =>
      let s := f.s.emitAll .preEnd th a p.entry.val
      s.put p.loc (handleEnd s.tree th a p.merged p.entry (bbKey a) (s.board p.loc))
    | .endCh _ ch a =>
      let s := f.s.emitOne ch .preEnd th a p.entry.val
      s.put p.loc (handleEnd s.tree th a p.merged p.entry (bbKey a) (s.board p.loc))
  { s := s, pend := BB.upd f.pend th none }

/-- what a thread does next -/
inductive Act where
  /-- a call other than `end` -/
  | call (op : Op)
  /-- the first critical section of an `end` -/
  | first (c : EndCall)
  /-- the second critical section of the `end` thread `th` is in -/
  | second (th : Nat)

/-- one step -/
def fstep (f : FState) : Act → FState
  | .call op => { f with s := step f.s op }
  | .first c => endFirst f c
  | .second th =>
    match f.pend th with
    | none => f
    | some p => endSecond f th p

/-- a thread starts a call only when it is not inside another one; ends go through `first` and `second` -/
def Act.ok (f : FState) : Act → Prop
  | .call op => op.isEnd = false ∧ f.pend op.thread = none
  | .first c => f.pend c.op.thread = none
  | .second th => f.pend th ≠ none

/-- the call this step starts -/
def Act.starts : Act → Option Op
  | .call op => some op
  | .first c => some c.op
  | .second _ => none

/-- the attribute named by the call -/
def Act.attrOk (f : FState) : Act → Prop
  | .call op => op.attr.Valid f.s.tree
  | .first c => c.op.attr.Valid f.s.tree
  | .second _ => True

/-- the step changes slot `key` of the shared context `l` -/
def Act.changes (f : FState) (l : Loc) (key : Nat) : Act → Prop
  | .call op => op.loc = some l ∧ bbKey op.attr = key
  | .first _ => False
  | .second th => ∃ p, f.pend th = some p ∧ p.loc = l ∧ bbKey p.call.op.attr = key

/-- all executions of any number of threads in which no annotation is dropped for lack of space -/
inductive FExec (s0 : State) : List Act → FState → Prop where
  | nil : FExec s0 [] ⟨s0, fun _ => none⟩
  | step {acts : List Act} {f : FState} {x : Act} (h : FExec s0 acts f) (hok : x.ok f) (ha : x.attrOk f) (nl : NoLoss f.s (fstep f x).s) :
      FExec s0 (acts ++ [x]) (fstep f x)

/-- … and in which, while a thread is inside an `end`, no other thread changes the slot of the context this `end` works on -/
inductive FQuiet (s0 : State) : List Act → FState → Prop where
  | nil : FQuiet s0 [] ⟨s0, fun _ => none⟩
  | step {acts : List Act} {f : FState} {x : Act} (h : FQuiet s0 acts f) (hok : x.ok f) (ha : x.attrOk f)
      (hq : ∀ th p, f.pend th = some p → x ≠ .second th → ¬ x.changes f p.loc (bbKey p.call.op.attr))
      (nl : NoLoss f.s (fstep f x).s) : FQuiet s0 (acts ++ [x]) (fstep f x)

theorem FQuiet.exec {s0 : State} {acts : List Act} {f : FState} (h : FQuiet s0 acts f) : FExec s0 acts f := by
  induction h with
  | nil => exact .nil
  | step _ hok ha _ nl ih => exact .step ih hok ha nl

/-- the calls of thread `th` in a schedule, in order -/
def callsOf (th : Nat) (acts : List Act) : List Op := (acts.filterMap Act.starts).filter fun op => decide (op.thread = th)

/-! ### lemmas -/

theorem findUp_ext {t t' : Tree} (x : Ext t t') (a : Nat) {nd : Ptr} {l : PathL} (hn : Path t nd l) (fuel : Nat) :
    findUp t' a fuel (some nd) = findUp t a fuel (some nd) := by
  induction fuel generalizing nd l with
  | zero => rfl
  | succ fuel ih =>
    simp only [findUp, x.attrOf hn.live]
    split
    · cases hn with
      | root =>
        have e1 : t'.parentOf .root = none := by simp [Tree.parentOf, Tree.get?]
        have e2 : t.parentOf .root = none := by simp [Tree.parentOf, Tree.get?]
        rw [e1, e2]; cases fuel <;> rfl
      | @cell b i r l h1 h2 =>
        have e1 : t'.parentOf (.cell b i) = some r.parent := by simp [Tree.parentOf, Tree.get?, x.node _ _ _ h1]
        have e2 : t.parentOf (.cell b i) = some r.parent := by simp [Tree.parentOf, Tree.get?, h1]
        rw [e1, e2]; exact ih h2
    · rfl

theorem entry_get_ext {t t' : Tree} (x : Ext t t') {n : Ptr} {v : Val} {l : PathL} (hn : Path t n l) (a : Nat)
    (hid : t'.idOf n = t.idOf n) (I : Inv t) : (⟨some n, v⟩ : Entry).get t' a = (⟨some n, v⟩ : Entry).get t a := by
  have hf : t'.fuelOf (some n) = t.fuelOf (some n) := by simp [Tree.fuelOf, x.rankOf hn.live]
  unfold Entry.get
  simp only [hid, x.attrOf hn.live, hf, findUp_ext x a hn]
  split
  · rfl
  · split
    · have : ∀ m, findUp t a (t.fuelOf (some n)) (some n) = some m → t'.valOf m = t.valOf m := by
        intro m hm
        by_cases ha : a = invId
        · -- `findUp` only returns live nodes
          have live : ∀ fuel (nd : Ptr) (l : PathL), Path t nd l → findUp t a fuel (some nd) = some m → Live t m := by
            intro fuel
            induction fuel with
            | zero => intro nd l _ h; cases h
            | succ fuel ih =>
              intro nd l hp h
              simp only [findUp] at h
              split at h
              · cases hp with
                | root =>
                  have e2 : t.parentOf .root = none := by simp [Tree.parentOf, Tree.get?]
                  rw [e2] at h; cases fuel <;> cases h
                | @cell b i r l h1 h2 =>
                  have e2 : t.parentOf (.cell b i) = some r.parent := by simp [Tree.parentOf, Tree.get?, h1]
                  rw [e2] at h; exact ih _ _ h2 h
              · cases h; exact hp.live
          exact x.valOf (live _ _ _ hn hm)
        · have hr := hn.rank I
          have hfu : t.fuelOf (some n) = l.length + 3 := by simp [Tree.fuelOf, hr]
          rcases findUp_spec I ha hn (fuel := t.fuelOf (some n)) (by rw [hfu]; omega) with ⟨k1, _⟩ | ⟨_, _, _, q, _, _, k3, k4⟩
          · rw [k1] at hm; cases hm
          · rw [k3] at hm; cases hm; exact x.valOf k4.live
      cases hm : findUp t a (t.fuelOf (some n)) (some n) with
      | none => rfl
      | some m => simp [Entry.ofNode, this m hm]
    · rfl

end Verif.RT
