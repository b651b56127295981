import Verif.Serv.Binding

/-! # The nvtx binding

Model of `src/services/nvtx/Nvtx.cpp` with `cycle_colors` on (its default), from the calls of the binding (C101, `Bind.Call`) on. The messages are the values; the locks
make each call atomic. Not modelled: the colours by attribute (`cycle_colors` off), the nodes that keep the texts of values that are not strings. -/

namespace Verif.Nvtx
open Verif Verif.Bind

abbrev Text := List Byte

/-- `s_colors` (Nvtx.cpp:183-185) -/
def colors : List (BitVec 32) :=
  [0x0000cc00, 0x000000cc, 0x00cccc00, 0x00cc00cc, 0x0000cccc, 0x00cc0000, 0x00cccccc, 0x00008800, 0x00000088, 0x00888800,
   0x00880088, 0x00008888, 0x00880000, 0x00888888]

/-- calls of the NVTX library: `nvtxRangePushEx`, `nvtxRangePop`, `nvtxDomainCreateA` (and the handle it returns), `nvtxDomainRangePushEx`, `nvtxDomainRangePop`;
a colour `none` is read outside of the table -/
inductive Act where
  | push (th : Nat) (color : Option (BitVec 32)) (v : Val)
  | pop (th : Nat)
  | create (h : Nat) (name : Text)
  | dpush (th h : Nat) (color : Option (BitVec 32)) (v : Val)
  | dpop (th h : Nat)
deriving DecidableEq, Repr

/-- `m_color_id`, `m_color_map`, `m_domain_map` (Nvtx.cpp:31-39) and the handle of the next new domain -/
structure NSt where
  colorId : BitVec 32
  colorMap : List (Text × Option (BitVec 32))
  doms : List (Nat × Nat)
  next : Nat
deriving DecidableEq, Repr

/-- at the start -/
def NSt.new : NSt := ⟨0, [], [], 0⟩

/-- `s_colors[i % s_num_colors]` for an `int` `i` (Nvtx.cpp:65): the remainder has the sign of `i` -/
def tableAt (i : BitVec 32) : Option (BitVec 32) :=
  let k := i.toInt.tmod 14
  if 0 ≤ k then colors[k.toNat]? else none

/-- `get_value_color` (Nvtx.cpp:55-72) -/
def valueColor (txt : Val → Text) (s : NSt) (v : Val) : Option (BitVec 32) × NSt :=
  match s.colorMap.lookup (txt v) with
  | some c => (c, s)
  | none =>
    let c := tableAt s.colorId
    (c, { s with colorId := s.colorId + 1, colorMap := (txt v, c) :: s.colorMap })

/-- `on_begin` and `on_end` (Nvtx.cpp:111-180) -/
def step (nested : Nat → Bool) (name : Nat → Text) (txt : Val → Text) (s : NSt) : Call → NSt × List Act
  | .onBegin th a v =>
    let r := valueColor txt s v
    if nested a then (r.2, [.push th r.1 v])
    else
      match r.2.doms.lookup a with
      | some h => (r.2, [.dpush th h r.1 v])
      | none => ({ r.2 with doms := (a, r.2.next) :: r.2.doms, next := r.2.next + 1 }, [.create r.2.next (name a), .dpush th r.2.next r.1 v])
  | .onEnd th a _ =>
    if nested a then (s, [.pop th])
    else
      match s.doms.lookup a with
      | some h => (s, [.dpop th h])
      | none => (s, [])

/-- the library calls for a history of binding calls -/
def run (nested : Nat → Bool) (name : Nat → Text) (txt : Val → Text) : NSt → List Call → NSt × List Act
  | s, [] => (s, [])
  | s, c :: cs =>
    let r := step nested name txt s c
    let q := run nested name txt r.1 cs
    (q.1, r.2 ++ q.2)

end Verif.Nvtx
