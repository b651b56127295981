import Verif.Cali.Text

/-! # The pthread service

`src/services/pthread/PthreadService.cpp`.  The operating system's side (which threads there are, which routine each was started with) is written with the service's side (the wrapper, its arguments on the
heap, the two attributes on the thread's blackboard); a run is any list of actions of any threads, so all schedules are covered.  A function and its argument are numbers. -/

namespace Verif.Pthread

/-- `struct wrapper_args` (PthreadService.cpp 31–34): the user's start function and its argument -/
structure Args where
  fn : Nat
  arg : Nat
deriving DecidableEq

/-- what the operating system was told to run: the user's function, or `thread_wrapper` with a pointer to the arguments (PthreadService.cpp 57–63) -/
inductive Routine where
  | user (a : Args)
  | wrapper (p : Nat)
deriving DecidableEq

/-- a thread: not created, created and not yet running, running, ended -/
inductive Phase where
  | fresh
  | created (r : Routine)
  | running (r : Routine)
  | ended
deriving DecidableEq

/-- `pthread.is_master` and `pthread.id` on a thread's blackboard -/
abbrev Tag := Option Bool × Option Nat

/-- the state: the threads, the `wrapper_args` allocated so far (`none`: deleted), `is_wrapped` (PthreadService.cpp 69), whether `Caliper c` is still usable, the blackboards, the calls of user functions with the
blackboard each saw, the results of the threads, and whether a deleted object was read or deleted again -/
structure St where
  ph : Nat → Phase
  heap : List (Option Args)
  wrapped : Bool
  alive : Bool
  bb : Nat → Tag
  calls : List (Nat × Args × Tag)
  rets : List (Nat × Nat)
  crash : Bool

/-- what can happen: a thread `k` is created (`ok`: the original `pthread_create` succeeds), begins to run, returns from its start function, calls `pthread_exit` or is cancelled; the service is initialised for a
channel on thread `k`; Caliper is finalized -/
inductive Act where
  | create (k : Nat) (a : Args) (ok : Bool)
  | start (k : Nat)
  | ret (k : Nat) (v : Nat)
  | exit (k : Nat) (v : Nat)
  | init (k : Nat)
  | finalize
deriving DecidableEq

/-- at the beginning only the main thread (0) runs -/
def begin : St :=
  { ph := fun k => if k = 0 then .running (.user ⟨0, 0⟩) else .fresh, heap := [], wrapped := false, alive := true, bb := fun _ => (none, none), calls := [], rets := [], crash := false }

/-- one entry of a table replaced -/
def upd {α : Type} (f : Nat → α) (k : Nat) (v : α) : Nat → α := fun j => if j = k then v else f j

/-- `pthread_create` (PthreadService.cpp 57–63): with the wrapper in place a `wrapper_args` is allocated and the original function is called with `thread_wrapper`; the object stays when the call fails -/
def create (s : St) (k : Nat) (a : Args) (ok : Bool) : St :=
  if s.ph k = .fresh then
    if s.wrapped then
      { s with heap := s.heap ++ [some a], ph := if ok then upd s.ph k (.created (.wrapper s.heap.length)) else s.ph }
    else
      { s with ph := if ok then upd s.ph k (.created (.user a)) else s.ph }
  else s

/-- a thread begins: `thread_wrapper` sets the two attributes if Caliper is still there and calls the user's function (PthreadService.cpp 39–51) -/
def start (self : Nat → Nat) (s : St) (k : Nat) : St :=
  match s.ph k with
  | .created (.user a) => { s with ph := upd s.ph k (.running (.user a)), calls := s.calls ++ [(k, a, s.bb k)] }
  | .created (.wrapper p) =>
    let bb := if s.alive then upd s.bb k (some false, some (self k)) else s.bb
    match s.heap[p]? with
    | some (some a) => { s with bb := bb, ph := upd s.ph k (.running (.wrapper p)), calls := s.calls ++ [(k, a, bb k)] }
    | _ => { s with crash := true }
  | _ => s

/-- the user's function returns: `thread_wrapper` deletes the arguments and returns the result (PthreadService.cpp 50–53) -/
def ret (s : St) (k v : Nat) : St :=
  match s.ph k with
  | .running (.user _) => { s with ph := upd s.ph k .ended, rets := s.rets ++ [(k, v)] }
  | .running (.wrapper p) =>
    match s.heap[p]? with
    | some (some _) => { s with heap := s.heap.set p none, ph := upd s.ph k .ended, rets := s.rets ++ [(k, v)] }
    | _ => { s with crash := true }
  | _ => s

/-- the thread leaves with `pthread_exit` or is cancelled: the rest of `thread_wrapper` is not run (PthreadService.cpp 50–53) -/
def exit (s : St) (k v : Nat) : St :=
  match s.ph k with
  | .running _ => { s with ph := upd s.ph k .ended, rets := s.rets ++ [(k, v)] }
  | _ => s

/-- `post_init_cb` (PthreadService.cpp 65–87): the first time, the function is wrapped and the calling thread is tagged as the master.  The subscription to the attribute's events is left out. -/
def init (self : Nat → Nat) (s : St) (k : Nat) : St :=
  match s.ph k with
  | .running _ => if s.wrapped then s else { s with wrapped := true, bb := upd s.bb k (some true, some (self k)) }
  | _ => s

/-- one action -/
def step (self : Nat → Nat) (s : St) : Act → St
  | .create k a ok => create s k a ok
  | .start k => start self s k
  | .ret k v => ret s k v
  | .exit k v => exit s k v
  | .init k => init self s k
  | .finalize => { s with alive := false }

/-- any history -/
def run (self : Nat → Nat) (s : St) (as : List Act) : St := as.foldl (step self) s

end Verif.Pthread
