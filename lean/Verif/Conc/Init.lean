import Verif.Blackboard.Model
/-!
# First use of Caliper by several threads

Small-step model of `Caliper::instance()` (`/repo/src/caliper/Caliper.cpp:1463-1508`): any number of threads, one step
per access to shared data.  A global data object is identified by the number of objects created before it.
Simplifications: the contents of the objects are left out; `release` and the static destructors are not modelled
(`s_init_lock` never becomes 2).
-/
namespace Verif.Conc.Init

/-- shared data: `s_init_lock` (1 before initialisation, `Caliper.cpp:484`), `s_init_mutex`, `gObj.g_ptr`; *ghost*: number of
global data objects created -/
structure Shared where
  initLock : Nat
  mutex : Option Nat
  g : Option Nat
  created : Nat
  deriving DecidableEq

/-- program counter in `instance()` -/
inductive PC where
  /-- not in `instance()` -/
  | idle
  /-- about to read `s_init_lock` (line 1468) -/
  | read
  /-- about to read `gObj.g_ptr` and `tObj.t_ptr` (1469-1470) -/
  | fast
  /-- about to lock `s_init_mutex` (1476) -/
  | lock
  /-- about to clear the pointers (1480-1481) -/
  | clear
  /-- about to test `g_ptr` (1483) -/
  | test
  /-- about to create the objects and publish `g_ptr` (1484-1487) -/
  | create
  /-- about to set `s_init_lock = 0` (1492) with `gPtr = g` -/
  | publish (g : Nat)
  /-- about to release the mutex (1497) -/
  | unlock (g : Nat)
  /-- about to register the thread if `tPtr` is null (1499-1505) -/
  | reg (g t : Option Nat)
  /-- `instance()` returns (`gPtr`, the global object the thread data is registered with) -/
  | done (g t : Option Nat)
  deriving DecidableEq

/-- a thread: `tObj.t_ptr` (the global object its thread data is registered with) and the program counter -/
structure Thread where
  t : Option Nat
  pc : PC
  deriving DecidableEq

/-- global state -/
structure St where
  sh : Shared
  th : Nat → Thread

/-- one instruction of thread `i` -/
def tick (i : Nat) (sh : Shared) (th : Thread) : Shared × Thread :=
  match th.pc with
  | .idle => (sh, { th with pc := .read })
  | .read => if sh.initLock = 0 then (sh, { th with pc := .fast }) else (sh, { th with pc := .lock })
  | .fast => (sh, { th with pc := .reg sh.g th.t })
  | .lock => if sh.mutex = none then ({ sh with mutex := some i }, { th with pc := .clear }) else (sh, th)
  | .clear => ({ sh with g := none }, { th with t := none, pc := .test })
  | .test =>
    match sh.g with
    | none => (sh, { th with pc := .create })
    | some _ => (sh, { th with pc := .unlock 0 })
  | .create => ({ sh with g := some sh.created, created := sh.created + 1 }, { th with t := some sh.created, pc := .publish sh.created })
  | .publish g => ({ sh with initLock := 0 }, { th with pc := .unlock g })
  | .unlock g => ({ sh with mutex := none }, { th with pc := .reg (some g) th.t })
  | .reg g t =>
    match t with
    | some _ => (sh, { th with pc := .done g t })
    | none => (sh, { th with t := g, pc := .done g g })
  | .done _ _ => (sh, { th with pc := .idle })

/-- a step of thread `i` -/
def step (s : St) (i : Nat) : St :=
  let r := tick i s.sh (s.th i)
  ⟨r.1, BB.upd s.th i r.2⟩

/-- program start -/
def init : St := ⟨⟨1, none, none, 0⟩, fun _ => ⟨none, .idle⟩⟩

/-- all executions -/
inductive Reach : St → Prop where
  | init : Reach init
  | step {s : St} (h : Reach s) (i : Nat) : Reach (step s i)

/-- thread `i` is inside the first initialisation -/
def Initialising (s : St) (i : Nat) : Prop :=
  (s.th i).pc = .lock ∨ (s.th i).pc = .clear ∨ (s.th i).pc = .test ∨ (s.th i).pc = .create ∨ ∃ g, (s.th i).pc = .publish g

/-- the executions in which nobody else enters `instance()` until the first call has initialised Caliper -/
inductive ReachSeq : St → Prop where
  | init : ReachSeq init
  | step {s : St} (h : ReachSeq s) (i : Nat)
      (hseq : ∀ j, j ≠ i → Initialising s j ∨ (s.th j).pc = .read → (s.th i).pc = .idle → s.sh.initLock ≠ 0 → False) :
      ReachSeq (step s i)

end Verif.Conc.Init
