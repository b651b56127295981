import Mathlib.Data.List.Nodup
import Mathlib.Tactic.Tauto
/-!
# Shared annotation objects

Model of the reference counting of `Loop` and `Annotation` handles (`/repo/src/caliper/Annotation.cpp:53-113`, `117-245`,
`/repo/include/caliper/Annotation.h:51-77`) as a small-step machine for any number of threads: every access to one of the atomic
counters is a step.  A handle is a `Loop`, `Annotation` or `Guard` object; which thread owns it does not matter, but no handle is
destroyed or assigned while a member function runs on it.
-/
namespace Verif.Annot.Ref

/-- which class -/
inductive Cls where
  | loop | ann
  deriving DecidableEq

/-- `Loop::Impl`/`Annotation::Impl`: the counters; ghosts: how often `Caliper::end(loop_attr)` was called for it, how often it was deleted -/
structure Impl where
  ref : Int
  level : Int
  ended : Nat
  freed : Nat

/-- where a thread is -/
inductive Pc where
  | idle
  /-- in `Loop::end()` (of a handle, or called by the last destructor), before `if (pI->level > 0)` (`Annotation.cpp:109`) -/
  | chk (h : Option Nat) (i : Nat)
  /-- before `Caliper().end(loop_attr)` (`Annotation.cpp:110`) -/
  | call (h : Option Nat) (i : Nat)
  /-- before `--(pI->level)` (`Annotation.cpp:111`) -/
  | dec (h : Option Nat) (i : Nat)
  /-- before `delete pI` (`Annotation.cpp:98`) -/
  | del (i : Nat)
  /-- in `Annotation::Impl::detach()`, before `if (m_refcount == 0)` (`Annotation.cpp:205`); with the target and source handles and
  the source's `Impl` if called by `operator=` -/
  | test (i : Nat) (k : Option (Nat × Nat × Nat))
  deriving DecidableEq

/-- handles with the `Impl` they point to, allocated `Impl`s, threads; ghost: whether a deleted `Impl` was accessed -/
structure State where
  hs : List (Nat × Nat)
  next : Nat
  heap : Nat → Impl
  pc : Nat → Pc
  uaf : Bool

/-- function update -/
def upd {β : Type} (f : Nat → β) (k : Nat) (x : β) : Nat → β := fun j => if j = k then x else f j

/-- change an `Impl`, noting an access after deletion -/
def State.mod (s : State) (i : Nat) (f : Impl → Impl) : State :=
  { s with heap := upd s.heap i (f (s.heap i)), uaf := s.uaf || decide (0 < (s.heap i).freed) }

/-- thread `t` goes to `p` -/
def State.goto (s : State) (t : Nat) (p : Pc) : State := { s with pc := upd s.pc t p }

/-- number of handles of an `Impl` -/
def State.count (s : State) (i : Nat) : Nat := (s.hs.filter fun e => e.2 = i).length

/-- a member function is running on the handle -/
def Pc.uses (p : Pc) (h : Nat) : Prop :=
  match p with
  | .chk h' _ | .call h' _ | .dec h' _ => h' = some h
  | .test _ (some (_, g, _)) => g = h
  | _ => False

/-- the handle is being assigned to -/
def Pc.assigns (p : Pc) (h : Nat) : Prop :=
  match p with
  | .test _ (some (h', _, _)) => h' = h
  | _ => False

/-- the thread is in `Loop::end()` for the `Impl` -/
def Pc.inEnd (p : Pc) (i : Nat) : Prop :=
  match p with
  | .chk _ j | .call _ j | .dec _ j => j = i
  | _ => False

/-- the thread has given up a reference to the `Impl` and may still delete it -/
def Pc.closing (p : Pc) (i : Nat) : Prop :=
  match p with
  | .chk none j | .call none j | .dec none j | .del j | .test j _ => j = i
  | _ => False

/-- what a program does besides constructing, copying and destroying handles -/
structure Rules where
  /-- assign one `Loop` to another (the implicit `operator=`) -/
  assignLoop : Bool
  /-- call `Loop::end()` on copies of a loop in several threads at a time -/
  overlapEnd : Bool
  /-- destroy copies of an annotation (or guards) in several threads at a time -/
  overlapDetach : Bool

/-- drop the handle, decrement the counter (`--pI->refcount`, `Annotation.cpp:96`; `--m_refcount`, `Annotation.cpp:203`) -/
def State.release (s : State) (h i : Nat) : State :=
  { s with hs := s.hs.erase (h, i) }.mod i fun m => { m with ref := m.ref - 1 }

/-- attach: a new handle, increment the counter (`Annotation.cpp:91`, `195-199`) -/
def State.attach (s : State) (g i : Nat) : State :=
  { s with hs := (g, i) :: s.hs }.mod i fun m => { m with ref := m.ref + 1 }

/-- one step of thread `t` -/
inductive Step (c : Cls) (R : Rules) : State → State → Prop where
  /-- constructor (`Annotation.cpp:58`, `83-87`; `127-143`, `222-226`) -/
  | new {s : State} (t h : Nat) : s.pc t = .idle → (∀ i, (h, i) ∉ s.hs) → (∀ u, ¬ (s.pc u).assigns h) →
      Step c R s { s with hs := (h, s.next) :: s.hs, next := s.next + 1, heap := upd s.heap s.next ⟨1, 1, 0, 0⟩ }
  /-- copy constructor (`Annotation.cpp:89-92`, `233-234`), `Guard(Annotation&)` (`Annotation.cpp:212-213`) -/
  | copy {s : State} (t h g i : Nat) : s.pc t = .idle → (h, i) ∈ s.hs → (∀ j, (g, j) ∉ s.hs) → (∀ u, ¬ (s.pc u).assigns g) →
      Step c R s (s.attach g i)
  /-- destructor `~Loop` (`Annotation.cpp:94-100`): the decrement and the test are one atomic operation -/
  | dropLoop {s : State} (t h i : Nat) : c = .loop → s.pc t = .idle → (h, i) ∈ s.hs → (∀ u, ¬ (s.pc u).uses h) →
      Step c R s ((s.release h i).goto t (if (s.heap i).ref - 1 = 0 then .chk none i else .idle))
  /-- destructor of an `Annotation` or `Guard` (`Annotation.cpp:215-219`, `228-231`): first half of `detach` -/
  | dropAnn {s : State} (t h i : Nat) : c = .ann → s.pc t = .idle → (h, i) ∈ s.hs → (∀ u, ¬ (s.pc u).uses h) →
      (R.overlapDetach = false → ∀ u, ¬ (s.pc u).closing i) → Step c R s ((s.release h i).goto t (.test i none))
  /-- `Annotation::operator=` between handles of different objects (`Annotation.cpp:236-245`): `detach` and then attach -/
  | assignAnn {s : State} (t h i g j : Nat) : c = .ann → s.pc t = .idle → (h, i) ∈ s.hs → (g, j) ∈ s.hs → i ≠ j → (∀ u, ¬ (s.pc u).uses h) →
      (R.overlapDetach = false → ∀ u, ¬ (s.pc u).closing i) → Step c R s ((s.release h i).goto t (.test i (some (h, g, j))))
  /-- second half of `detach` (`Annotation.cpp:205-206`); then the attach of `operator=` -/
  | test {s : State} (t i : Nat) (k : Option (Nat × Nat × Nat)) : s.pc t = .test i k →
      Step c R s (
        let s := s.mod i fun m => if m.ref = 0 then { m with freed := m.freed + 1 } else m
        let s := match k with
          | none => s
          | some (h, _, j) => s.attach h j
        s.goto t .idle)
  /-- implicit assignment of a `Loop` (`Annotation.h:51-77` declares no `operator=`): the pointer is copied -/
  | assignLoop {s : State} (t h i g j : Nat) : c = .loop → R.assignLoop = true → s.pc t = .idle → (h, i) ∈ s.hs → (g, j) ∈ s.hs →
      (∀ u, ¬ (s.pc u).uses h) → Step c R s { s with hs := (h, j) :: s.hs.erase (h, i) }
  /-- call of `Loop::end()` -/
  | callEnd {s : State} (t h i : Nat) : c = .loop → s.pc t = .idle → (h, i) ∈ s.hs → (R.overlapEnd = false → ∀ u, ¬ (s.pc u).inEnd i) →
      Step c R s (s.goto t (.chk (some h) i))
  /-- `if (pI->level > 0)` -/
  | chk {s : State} (t i : Nat) (o : Option Nat) : s.pc t = .chk o i →
      Step c R s ((s.mod i id).goto t (if (s.heap i).level > 0 then .call o i else if o = none then .del i else .idle))
  /-- `Caliper().end(loop_attr)` -/
  | call {s : State} (t i : Nat) (o : Option Nat) : s.pc t = .call o i →
      Step c R s { s with heap := upd s.heap i { (s.heap i) with ended := (s.heap i).ended + 1 }, pc := upd s.pc t (.dec o i) }
  /-- `--(pI->level)` -/
  | dec {s : State} (t i : Nat) (o : Option Nat) : s.pc t = .dec o i →
      Step c R s ((s.mod i fun m => { m with level := m.level - 1 }).goto t (if o = none then .del i else .idle))
  /-- `delete pI` -/
  | del {s : State} (t i : Nat) : s.pc t = .del i → Step c R s ((s.mod i fun m => { m with freed := m.freed + 1 }).goto t .idle)

/-- nothing constructed yet -/
def init : State := ⟨[], 0, fun _ => ⟨0, 0, 0, 0⟩, fun _ => .idle, false⟩

/-- all schedules -/
inductive Reach (c : Cls) (R : Rules) : State → Prop where
  | init : Reach c R init
  | step {s s'} : Reach c R s → Step c R s s' → Reach c R s'

end Verif.Annot.Ref
