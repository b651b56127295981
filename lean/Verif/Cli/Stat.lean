import Verif.Cali.Text

/-! # `cali-stat` (`src/tools/cali-stat/cali-stat.cpp`)

The tool reads the `.cali` files given to it one after the other with one metadata database (the reader is C25, C27) and calls the processor
for each node record and for each snapshot record, in the order of the files. Here the stream of these calls is the input. A node comes with its
attribute, whether that has a string (or blob) type, and the text of its value; a reference in a record comes with the path of its node from the
node up. Simplifications: the counters are `int` in the code and unbounded here; the layout of the tables is left out, the numbers printed are the
result. -/

namespace Verif.Stat
open Verif.Cali

abbrev Str := List Byte

/-- an entry of a record -/
inductive Ent where
  | imm
  | ref (path : List (Nat × Str))
  | none
deriving DecidableEq

/-- what the reader hands over (cali-stat.cpp:216-233) -/
inductive Item where
  | node (attr : Nat) (isText : Bool) (data : Str)
  | snap (entries : List Ent)
deriving DecidableEq

/-- `CaliStreamStat::S` (cali-stat.cpp:109-125) -/
structure S where
  snapshots : Nat
  nodes : Nat
  max : Nat
  min : Nat
  nref : Nat
  nval : Nat
  ntot : Nat
  attrRefs : Nat
  sizeNodes : Nat
  sizeSnapshots : Nat
deriving DecidableEq, Repr

/-- `CaliStreamStat()` (cali-stat.cpp:147); `n_min_snapshot` begins with the largest `int` -/
def S.new : S := ⟨0, 0, 0, 2 ^ 31 - 1, 0, 0, 0, 0, 0, 0⟩

/-- `CaliStreamStat::process_node` (cali-stat.cpp:180-188) -/
def S.node (s : S) (isText : Bool) (data : Str) : S :=
  { s with nodes := s.nodes + 1, sizeNodes := s.sizeNodes + (3 * 8 + if isText then data.length else 8) }

/-- the loop of `process_rec` (cali-stat.cpp:199-207): `imm`, `ref`, `ref_attr` -/
def countEnts : List Ent → Nat × Nat × Nat
  | [] => (0, 0, 0)
  | .imm :: es => let (i, r, a) := countEnts es; (i + 1, r, a)
  | .ref p :: es => let (i, r, a) := countEnts es; (i, r + 1, a + p.length)
  | .none :: es => countEnts es

/-- `CaliStreamStat::process_rec` (cali-stat.cpp:190-219) -/
def S.rec' (s : S) (es : List Ent) : S :=
  let (imm, ref, refAttr) := countEnts es
  { s with snapshots := s.snapshots + 1, nref := s.nref + ref, nval := s.nval + imm, ntot := s.ntot + (ref + 2 * imm),
           min := Nat.min s.min (ref + 2 * imm), max := Nat.max s.max (ref + 2 * imm),
           attrRefs := s.attrRefs + (refAttr + imm), sizeSnapshots := s.sizeSnapshots + ref * 8 }

/-- `ReuseStat::S::ReuseInfo` (cali-stat.cpp:45-48): number of nodes, the values with their counts -/
structure Info where
  nodes : Nat
  data : List (Str × Nat)
deriving DecidableEq, Repr

/-- `++data[text]` on a `std::map` (cali-stat.cpp:91, 103) -/
def incr (k : Str) : List (Str × Nat) → List (Str × Nat)
  | [] => [(k, 1)]
  | (k', n) :: l => if k' = k then (k', n + 1) :: l else (k', n) :: incr k l

/-- `std::map<cali_id_t, ReuseInfo>` (cali-stat.cpp:50) -/
abbrev Reuse := Nat → Option Info

/-- `ReuseStat::process_node` (cali-stat.cpp:78-93) -/
def Reuse.node (m : Reuse) (attr : Nat) (data : Str) : Reuse := fun a =>
  if a = attr then
    match m attr with
    | none => some ⟨1, incr data []⟩
    | some i => some ⟨i.nodes + 1, incr data i.data⟩
  else m a

/-- one node on the path of a reference (cali-stat.cpp:99-104) -/
def Reuse.use (m : Reuse) (x : Nat × Str) : Reuse := fun a =>
  if a = x.1 then (m x.1).map fun i => { i with data := incr x.2 i.data } else m a

/-- `ReuseStat::process_rec` (cali-stat.cpp:95-105) -/
def Reuse.rec' (m : Reuse) (es : List Ent) : Reuse :=
  es.foldl (fun m e => match e with | .ref p => p.foldl Reuse.use m | _ => m) m

/-- `Processor` (cali-stat.cpp:210-233) over the stream -/
def process (st : S × Reuse) : Item → S × Reuse
  | .node a t d => (st.1.node t d, st.2.node a d)
  | .snap es => (st.1.rec' es, st.2.rec' es)

/-- all inputs (`main`, cali-stat.cpp:306-316) -/
def processAll (items : List Item) : S × Reuse := items.foldl process (S.new, fun _ => none)

/-- the numbers printed (`print_results`, cali-stat.cpp:149-178); the last two tables only with a snapshot. Averages are left out: they are
quotients of the other numbers. -/
structure Printed where
  records : Nat × Nat × Nat
  elements : Nat × Nat × Nat × Nat
  size : Nat × Nat × Nat
  perSnapshot : Option (Nat × Nat)
  attrRefs : Option Nat
deriving DecidableEq, Repr

/-- `CaliStreamStat::print_results` (cali-stat.cpp:149-178) -/
def S.print (s : S) : Printed where
  records := (s.snapshots + s.nodes, s.nodes, s.snapshots)
  elements := (s.ntot + 4 * s.nodes, 4 * s.nodes, s.nref, 2 * s.nval)
  size := (s.sizeNodes + s.sizeSnapshots, s.sizeNodes, s.sizeSnapshots)
  perSnapshot := if s.snapshots < 1 then none else some (s.min, s.max)
  attrRefs := if s.snapshots < 1 then none else some s.attrRefs

/-- a row of the reuse table (`ReuseStat::print_results`, cali-stat.cpp:59-76): number of nodes, elements, uses -/
def Info.row (i : Info) : Nat × Nat × Nat := (i.nodes, i.data.length, (i.data.map Prod.snd).sum)

end Verif.Stat
