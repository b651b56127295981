import Verif.Serv.Kokkos
import Verif.Capi.CallsSpec

/-! # What is open on a thread, from the Kokkos calls and the program's region calls alone -/

namespace Verif.Serv.Kokkos
open Verif Verif.CApi Verif.AttrReg

/-- something open: a Kokkos kernel or region, or a region of the program -/
inductive Frame where
  | kernel (k : Kernel) (name : List Byte)
  | region (name : List Byte)
deriving DecidableEq, Repr

/-- its name -/
def Frame.name : Frame → List Byte
  | .kernel _ n => n
  | .region n => n

/-- the kind of kernel -/
def Frame.type : Frame → Option (List Byte)
  | .kernel k _ => some k.type
  | .region _ => none

/-- what is open on each thread (innermost last) after one more call; `none`: an end that does not fit, or a call of another kind -/
def nestStep (F : Nat → List Frame) (th : Nat) : Act → Option (Nat → List Frame)
  | .kbegin k name => some fun t => if t = th then F th ++ [.kernel k name] else F t
  | .prog (.beginRegion .region v) => some fun t => if t = th then F th ++ [.region v] else F t
  | .kend k =>
    match (F th).getLast? with
    | some (.kernel k' _) => if k' = k then some fun t => if t = th then (F th).dropLast else F t else none
    | _ => none
  | .prog (.endRegion .region v) =>
    if (F th).getLast? = some (.region v) then some fun t => if t = th then (F th).dropLast else F t else none
  | _ => none

/-- after a history -/
def nest (F : Nat → List Frame) : List (Nat × Act) → Option (Nat → List Frame)
  | [] => some F
  | (th, a) :: h => (nestStep F th a).bind fun G => nest G h

/-- what the frame is in the context: a kernel appears with its kind and name, once for each of `n` channels with the service -/
def Frame.shown (n : Nat) : Frame → Vals
  | .kernel k name => (List.replicate n [(kt, Val.str k.type), (rg, Val.str name)]).flatten
  | .region v => [(rg, Val.str v)]

/-- the calls the `n` channels and the program make -/
def calls (n : Nat) (th : Nat) : Act → List (Nat × Call)
  | .kbegin k name => (List.replicate n
      [(th, Call.create kt .string 64), (th, Call.begin kt (.string k.type)), (th, Call.create rg .string 0), (th, Call.begin rg (.string name))]).flatten
  | .kend _ => (List.replicate n [(th, Call.end_ rg), (th, Call.end_ kt)]).flatten
  | .prog c => [(th, c)]
  | _ => []

/-- of a history -/
def allCalls (n : Nat) (h : List (Nat × Act)) : List (Nat × Call) := h.flatMap fun x => calls n x.1 x.2

end Verif.Serv.Kokkos
