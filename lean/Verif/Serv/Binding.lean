import Verif.Tree.Model
import Verif.Serv.Event
/-!
# Bindings to third-party annotation interfaces

Model of `/repo/src/caliper/AnnotationBinding.{h,cpp}` for one channel, of the ranges of
`/repo/src/services/rocprofiler/RocTX.cpp` and of the string handles of `/repo/src/services/vtune/VTuneBindings.cpp`.

Simplifications: the marker nodes of attributes are a set of attribute ids; the callbacks are atomic; log messages and error
counters are left out.  The callback `create_attr_evt` runs after the new attribute can be used by other threads
(`Caliper.cpp:719-746`), so it is an event of its own.
-/
namespace Verif.Bind
open Verif Verif.Parse Verif.Serv

/-- what the binding reads from an attribute -/
structure BAttr where
  id : Nat
  name : List Byte
  nested : Bool
  skip : Bool
  subs : Bool
  deriving DecidableEq

/-- configuration (`AnnotationBinding.cpp:128-152`); no filter if the filter text cannot be read -/
structure BCfg where
  names : List (List Byte)
  filter : RegionFilter
  raw : BitVec 64 → List Byte

/-- the filter part of `begin_cb` and `end_cb` (`AnnotationBinding.cpp:112-113`, `122-123`): `m_filter` is only set if there are
filters (`147-149`) -/
def BCfg.pass (C : BCfg) (v : Val) : Bool := !hasFilters C.filter || C.filter.pass (bytesOf C.raw v)

/-- `check_attribute` (`AnnotationBinding.cpp:88-106`) -/
def BCfg.check (C : BCfg) (a : BAttr) : Bool :=
  if a.skip then false
  else if C.names = [] then a.nested
  else C.names.contains a.name

/-- what happens in a channel: a `create_attr_evt` (or an attribute found at start-up, `AnnotationBinding.cpp:163-172`), a
`subscribe_attribute` event, and begin and end events of threads -/
inductive BOp where
  | announce (a : BAttr)
  | subscribe (a : BAttr)
  | begin (th a : Nat) (v : Val)
  | end_ (th a : Nat) (v : Val)
  deriving DecidableEq

/-- calls of the third-party binding -/
inductive Call where
  | onBegin (th a : Nat) (v : Val)
  | onEnd (th a : Nat) (v : Val)
  deriving DecidableEq, Repr

/-- the callbacks (`AnnotationBinding.h:147-164`) -/
def step (C : BCfg) (marked : List Nat) : BOp → List Nat × List Call
  | .announce a => if a.subs then (marked, []) else (if C.check a then a.id :: marked else marked, [])
  | .subscribe a => (if C.check a then a.id :: marked else marked, [])
  | .begin th a v => (marked, if marked.contains a && C.pass v then [.onBegin th a v] else [])
  | .end_ th a v => (marked, if marked.contains a && C.pass v then [.onEnd th a v] else [])

/-- all callbacks of a history -/
def run (C : BCfg) : List Nat → List BOp → List Nat × List Call
  | m, [] => (m, [])
  | m, o :: os =>
    match step C m o with
    | (m, c) => match run C m os with
      | (m, c') => (m, c ++ c')

/-- the calls made during a history -/
def calls (C : BCfg) (h : List BOp) : List Call := (run C [] h).2

/-! ## RocTX -/

/-- calls of the RocTX library -/
inductive Act where
  | push (th : Nat) (v : Val)
  | pop (th : Nat)
  | start (id : Nat) (v : Val)
  | stop (id : Nat)
  deriving DecidableEq, Repr

/-- `m_range_map`, and the next id `roctxRangeStart` returns (the library gives new ids) -/
structure RState where
  ranges : Nat → List Nat
  next : Nat

/-- `on_begin` and `on_end` (`RocTX.cpp:36-90`); `nested` tells nested attributes -/
def rocStep (nested : Nat → Bool) (s : RState) : Call → RState × List Act
  | .onBegin th a v =>
    if nested a then (s, [.push th v])
    else (⟨fun b => if b = a then s.next :: s.ranges b else s.ranges b, s.next + 1⟩, [.start s.next v])
  | .onEnd th a _ =>
    if nested a then (s, [.pop th])
    else match s.ranges a with
      | [] => (s, [])
      | i :: is => (⟨fun b => if b = a then is else s.ranges b, s.next⟩, [.stop i])

/-- the library calls for a sequence of binding calls -/
def rocRun (nested : Nat → Bool) : RState → List Call → List Act
  | _, [] => []
  | s, c :: cs => match rocStep nested s c with
    | (s, l) => l ++ rocRun nested s cs

/-! ## VTune -/

/-- `get_itt_string` (`VTuneBindings.cpp:46-63`) for a sequence of task names, each given by the address and the contents of the
string: the names of the handles used; `m` holds the handles by address -/
def ittNames (m : List (Nat × List Byte)) : List (Nat × List Byte) → List (List Byte)
  | [] => []
  | (p, t) :: r =>
    match m.lookup p with
    | some n => n :: ittNames m r
    | none => t :: ittNames ((p, t) :: m) r

end Verif.Bind
