import Verif.Capi.Calls

/-! # The kokkostime service

Model of `src/services/kokkos/KokkosTime.cpp` and `KokkosProfilingSymbols.cpp`: the Kokkos runtime calls the `kokkosp_…` functions on the thread that starts
a kernel; each channel with the service turns them into annotations with two `Annotation` objects (`src/caliper/Annotation.cpp:122-196`).
The annotations are calls of the process-wide Caliper runtime, as in `Capi/Calls`.

Not modelled: the memory callbacks of kokkoslookup, `kokkosp_parse_args` and `kokkosp_finalize_library` (they use a ConfigManager, C64). The
attribute an `Annotation` object remembers is the one of that name (C17), so that the object itself only remembers whether it has one. -/

namespace Verif.Serv.Kokkos
open Verif Verif.CApi Verif.AttrReg

/-- the five pairs of callbacks (`KokkosTime.cpp:75-107`) -/
inductive Kernel where
  | pfor | reduce | scan | fence | user
deriving DecidableEq, Repr

/-- the second argument of `pushRegion` (`KokkosTime.cpp:77-106`) -/
def Kernel.type : Kernel → List Byte
  | .pfor => nm "kokkos.parallel_for"
  | .reduce => nm "kokkos.parallel_reduce"
  | .scan => nm "kokkos.parallel_scan"
  | .fence => nm "kokkos.fence"
  | .user => nm "kokkos.user_region"

/-- the names of the two annotations (`KokkosTime.cpp:53-54`) -/
def kt : Name := nm "kernel_type"
@[inherit_doc kt]
def rg : Name := nm "region"

/-- an instance of the service: not deleted yet, and whether its annotations have been used -/
structure Inst where
  alive : Bool
  started : Bool
deriving DecidableEq, Repr

/-- `Annotation::begin` for strings (`Annotation.cpp:147-155`, `174-192`): the attribute is made if there is none; a value of another type
than the attribute's is not begun -/
def annBegin (cfg : Config) (s : St) (th : Nat) (n : Name) (prop : BitVec 32) (v : List Byte) : St :=
  let s := call cfg s th (.create n .string prop)
  if s.typeOf n = some (Val.ofType .string) then call cfg s th (.begin n (.string v)) else s

/-- `KokkosTime::pushRegion` (`KokkosTime.cpp:59-63`); `CALI_ATTR_SKIP_EVENTS` = 64 -/
def push (cfg : Config) (th : Nat) (type name : List Byte) (s : St) : St := annBegin cfg (annBegin cfg s th kt 64 type) th rg 0 name

/-- `KokkosTime::popRegion` (`KokkosTime.cpp:65-69`) -/
def pop (cfg : Config) (th : Nat) (s : St) : St := call cfg (call cfg s th (.end_ rg)) th (.end_ kt)

/-- Caliper and the instances whose callbacks are connected, oldest first; callbacks are never disconnected (`callback.hpp:21`) -/
structure KSt where
  st : St
  insts : List Inst

/-- what happens: a Kokkos kernel or region begins or ends, the program annotates, a channel with the service is created or finished -/
inductive Act where
  | kbegin (k : Kernel) (name : List Byte)
  | kend (k : Kernel)
  | prog (c : Call)
  | register
  | finish (i : Nat)
deriving DecidableEq, Repr

/-- one step (`KokkosTime.cpp:71-112`, `callback.hpp:25-30`); `none`: a deleted instance is used -/
def act (cfg : Config) (s : KSt) (th : Nat) : Act → Option KSt
  | .kbegin k name =>
    if s.insts.all Inst.alive then
      some ⟨s.insts.foldl (fun t _ => push cfg th k.type name t) s.st, s.insts.map fun i => { i with started := true }⟩
    else none
  | .kend _ =>
    if s.insts.all Inst.alive then some { s with st := s.insts.foldl (fun t i => if i.started then pop cfg th t else t) s.st } else none
  | .prog c => some { s with st := call cfg s.st th c }
  | .register => some { s with insts := s.insts ++ [⟨true, false⟩] }
  | .finish i => some { s with insts := s.insts.modify i fun x => { x with alive := false } }

/-- a history (`KokkosTime.cpp:71-112`) -/
def run (cfg : Config) (s : KSt) : List (Nat × Act) → Option KSt
  | [] => some s
  | (th, a) :: h => match act cfg s th a with | none => none | some t => run cfg t h

end Verif.Serv.Kokkos
