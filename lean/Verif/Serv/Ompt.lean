import Verif.Runtime.Model
/-!
# The OMPT service

Model of the callbacks of `/repo/src/services/ompt/OmptService.cpp`: an OpenMP runtime calls them on the thread that does the work, and they
turn OpenMP constructs into annotations.  The attributes are global variables that `register_ompt_service` fills in when a channel with
the service is created; an OpenMP runtime may call the callbacks before that (with `CALI_USE_OMPT` set).

Not modelled: the OMPT entry points and callback table (`:22-56`, `:216-254`, `:337-357`), the end of the tool in `pre_finish_cb`, and the
event subscriptions of `post_init_cb` (`:263-269`), which other services read.
-/
namespace Verif.Serv.Ompt
open Verif RT MTree

/-- the global attributes (`OmptService.cpp:58-65`); `omp.state` is created but not used -/
structure Attrs where
  region : Attr
  sync : Attr
  work : Attr
  threadType : Attr
  procId : Attr
  threadId : Attr
  numThreads : Attr

/-- a default-constructed `Attribute`: `id()` and `properties()` of a null node (`Attribute.h`, `Attribute.cpp`); the node is not read -/
def nullAttr : Attr := ⟨.root, invId, 0#32⟩

/-- the global attributes before any channel has the service -/
def nullAttrs : Attrs := ⟨nullAttr, nullAttr, nullAttr, nullAttr, nullAttr, nullAttr, nullAttr⟩

/-- callbacks and their arguments that are used: thread type and the processor the runtime reports (`api.get_proc_id`); team size; scope
endpoint, team size, index in the team and flags of an implicit task; kind and scope endpoint of a work or sync region -/
inductive Cb where
  | threadBegin (type : Nat) (proc : BitVec 32)
  | threadEnd
  | parallelBegin (nthreads : BitVec 32)
  | parallelEnd
  | implicitTask (endpoint : Nat) (par index flags : BitVec 32)
  | work (wstype : Int) (endpoint : Nat)
  | sync (kind : Int) (endpoint : Nat)

/-- `ompt_scope_begin`, `ompt_scope_end` (`omp-tools.h`) -/
def scopeBegin : Nat := 1
@[inherit_doc scopeBegin]
def scopeEnd : Nat := 2

/-- the `switch` of `cb_thread_begin` (`OmptService.cpp:85-98`) with the numbers of `ompt_thread_t` -/
def typeName (type : Nat) : String :=
  if type = 1 then "initial" else if type = 2 then "worker" else if type = 3 then "other" else "unknown"

/-- the table of `cb_work` (`OmptService.cpp:164-171`) -/
def workTable : List String :=
  ["UNKNOWN", "loop", "sections", "single_executor", "single_other", "workshare", "distribute", "taskloop", "scope"]

/-- `name` in `cb_work` (`OmptService.cpp:168-171`) -/
def workName (t : Int) : String := if t > 0 ∧ t ≤ 8 then workTable.getD t.toNat "UNKNOWN" else "UNKNOWN"

/-- the table of `cb_sync_region` (`OmptService.cpp:189-193`) -/
def syncTable : List String :=
  ["UNKNOWN", "barrier", "barrier_implicit", "barrier_explicit", "barrier_implementation", "taskwait", "taskgroup", "reduction",
   "barrier_implicit_workshare", "barrier_implicit_parallel", "barrier_teams"]

/-- `name` in `cb_sync_region` (`OmptService.cpp:195-198`) -/
def syncName (k : Int) : String := if k > 0 ∧ k ≤ 10 then syncTable.getD k.toNat "UNKNOWN" else "UNKNOWN"

/-- `cali_make_variant_from_uint` of a 32-bit value -/
def vUint (n : BitVec 32) : Val := ⟨.uint, .inr (n.zeroExtend 64)⟩

/-- `!c.get(attr).empty()` (`Entry.h:67`) -/
def hasValue (s : State) (th : Nat) (a : Attr) : Bool := ((getEntry s th a).getD default).node.isSome

/-- a callback when Caliper is available (`OmptService.cpp:73-214`) -/
def cb (A : Attrs) (s : State) (th : Nat) : Cb → State
  | .threadBegin type proc =>
    let s := if 0 ≤ proc.toInt then step s (.begin th A.procId (.ofInt proc)) else s
    step s (.begin th A.threadType (.ofString (typeName type)))
  | .threadEnd =>
    let s := if hasValue s th A.threadType then step s (.endR th A.threadType) else s
    if hasValue s th A.procId then step s (.endR th A.procId) else s
  | .parallelBegin n => step s (.begin th A.region (vUint n))
  | .parallelEnd => step s (.endR th A.region)
  | .implicitTask ep par index flags =>
    if flags &&& 1#32 ≠ 0 then s
    else if ep = scopeBegin then step (step s (.begin th A.numThreads (.ofInt par))) (.begin th A.threadId (.ofInt index))
    else step (step s (.endR th A.threadId)) (.endR th A.numThreads)
  | .work t ep =>
    if ep = scopeBegin then step s (.begin th A.work (.ofString (workName t)))
    else if ep = scopeEnd then step s (.endR th A.work)
    else s
  | .sync k ep =>
    if ep = scopeBegin then step s (.begin th A.sync (.ofString (syncName k)))
    else if ep = scopeEnd then step s (.endR th A.sync)
    else s

/-- the runtime, the global attributes (`none`: not created yet) and `num_skipped` (`OmptService.cpp:67`) -/
structure OState where
  rt : State
  attrs : Option Attrs
  skipped : Nat

/-- what happens on a thread: a callback, another annotation call, or the registration of the service for a channel -/
inductive Act where
  | cb (avail : Bool) (c : Cb)
  | user (op : Op)
  | register (A : Attrs)

/-- one step.  `avail`: `Caliper c;` yields a usable object (Caliper is initialized and the thread is not in a Caliper call,
`OmptService.cpp:75-80`); `cb_implicit_task` looks at the flags first (`:145-155`).  Registration creates the attributes once
(`OmptService.cpp:323-331`). -/
def act (s : OState) (th : Nat) : Act → OState
  | .cb true c => { s with rt := cb (s.attrs.getD nullAttrs) s.rt th c }
  | .cb false (.implicitTask _ _ _ flags) => if flags &&& 1#32 ≠ 0 then s else { s with skipped := s.skipped + 1 }
  | .cb false _ => { s with skipped := s.skipped + 1 }
  | .user op => { s with rt := step s.rt op }
  | .register A => { s with attrs := some (s.attrs.getD A) }

/-- a history: which thread does what -/
def runO (s : OState) (h : List (Nat × Act)) : OState := h.foldl (fun s x => act s x.1 x.2) s

end Verif.Serv.Ompt
