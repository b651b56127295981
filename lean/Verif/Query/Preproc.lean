import Verif.Query.Select
/-!
# LET: computed values

Model of `/repo/src/reader/Preprocessor.cpp`.

Simplified: the metadata database is the list of its attributes (name, id, type, nested flag; other properties are not used here);
`meta` gives the (attribute, value) pairs of an attribute's own node and its parents; the arguments of an operator are already converted
(`std::stod`); floating-point operations are parameters.
-/
namespace Verif.Query.Pre
open Verif Verif.Cali Verif.Query

abbrev Str := List Byte

/-- floating-point operations on bit patterns -/
structure POps extends FOps where
  mul : U64 → U64 → U64
  fdiv : U64 → U64 → U64
  sub : U64 → U64 → U64
  fmod : U64 → U64 → U64
  /-- `std::fabs(x) > 0.0` -/
  nonzero : U64 → Bool
  /-- `static_cast<int>(x)` -/
  toI32 : U64 → BitVec 32
  /-- `static_cast<uint64_t>(fabs(x))` -/
  absU : U64 → U64

/-- an attribute -/
structure PAttr where
  id : Nat
  name : Str
  ty : AttrType
  nested : Bool
  deriving DecidableEq

/-- the metadata database -/
structure PDB where
  attrs : List PAttr
  next : Nat

/-- `get_attribute(name)` (`CaliperMetadataDB.cpp:603-606`) -/
def PDB.attr (D : PDB) (n : Str) : Option PAttr := D.attrs.find? fun a => decide (a.name = n)

/-- `get_attribute(id)` -/
def PDB.byId (D : PDB) (i : Nat) : Option PAttr := D.attrs.find? fun a => decide (a.id = i)

/-- `get_attribute(id).is_nested()` -/
def PDB.isNested (D : PDB) (i : Nat) : Bool := ((D.byId i).map PAttr.nested).getD false

/-- `create_attribute` (`CaliperMetadataDB.cpp:363-408`): an existing attribute keeps its type and properties -/
def PDB.create (D : PDB) (n : Str) (t : AttrType) (nested : Bool) : PDB × PAttr :=
  match D.attr n with
  | some a => (D, a)
  | none => ({ attrs := D.attrs ++ [⟨D.next, n, t, nested⟩], next := D.next + 1 }, ⟨D.next, n, t, nested⟩)

/-- first value of attribute `a` among (attribute, value) pairs -/
def findVal (l : List (Nat × Val)) (a : Nat) : Val := ((l.find? fun x => decide (x.1 = a)).map Prod.snd).getD .inv

/-- `Entry::value(attr_id)` (`Entry.cpp:31-41`).  For an immediate entry the walk over the parents goes through the attribute's own
metadata. -/
def entryValue (meta_ : Nat → List (Nat × Val)) (a : Nat) : QEnt → Val
  | .ref p => findVal p a
  | .imm b v => if b = a then v else findVal (meta_ b) a

/-- the loop in `get_value` (`Preprocessor.cpp:39-45`) -/
def firstValue (meta_ : Nat → List (Nat × Val)) (a : Nat) : List QEnt → Val
  | [] => .inv
  | e :: es => if entryValue meta_ a e ≠ .inv then entryValue meta_ a e else firstValue meta_ a es

/-- `get_value` (`Preprocessor.cpp:27-46`): the attribute is looked up until it is found -/
def getValue (meta_ : Nat → List (Nat × Val)) (D : PDB) (n : Str) (cache : Option PAttr) (rec : List QEnt) : Option PAttr × Val :=
  let c := match cache with
    | some a => some a
    | none => D.attr n
  match c with
  | none => (none, .inv)
  | some a => (some a, firstValue meta_ a.id rec)

/-- the operators and their arguments (`Preprocessor.cpp:337-350`) -/
inductive LOp where
  | ratio (num den : Str) (scale : U64)
  | scale (tgt : Str) (s : U64)
  | truncate (tgt : Str) (f : U64)
  | first (tgts : List Str)
  | sum (tgts : List Str)
  | leafPath
  | leaf (tgt : Str)

/-- `QuerySpec::PreprocessSpec` -/
structure LetDef where
  target : Str
  op : LOp
  cond : Cond

/-- state of a kernel: `m_res_attr` and the target attributes looked up so far -/
structure KState where
  res : Option PAttr
  tgts : List (Option PAttr)

/-- number of target attributes of a kernel -/
def LOp.names : LOp → List Str
  | .ratio n d _ => [n, d]
  | .scale t _ => [t]
  | .truncate t _ => [t]
  | .first ts => ts
  | .sum ts => ts
  | .leafPath => []
  | .leaf t => [t]

/-- a new kernel -/
def KState.new (op : LOp) : KState := ⟨none, List.replicate op.names.length none⟩

/-- `if (!m_res_attr) m_res_attr = db.create_attribute(...)` and `rec.push_back(Entry(m_res_attr, v))` -/
def emit (D : PDB) (k : KState) (target : Str) (t : AttrType) (v : Val) (rec : List QEnt) : PDB × KState × List QEnt :=
  match k.res with
  | some a => (D, k, rec ++ [.imm a.id v])
  | none =>
    let x := D.create target t false
    (x.1, { k with res := some x.2 }, rec ++ [.imm x.2.id v])

/-- `FirstKernel::process`, the loop (`Preprocessor.cpp:220-235`): the caches, and the first value found with its attribute -/
def firstLoop (meta_ : Nat → List (Nat × Val)) (D : PDB) (rec : List QEnt) : List Str → List (Option PAttr) → List (Option PAttr) × Option (PAttr × Val)
  | n :: ns, c :: cs =>
    match getValue meta_ D n c rec with
    | (some a, v) =>
      if v = .inv then
        let r := firstLoop meta_ D rec ns cs
        (some a :: r.1, r.2)
      else (some a :: cs, some (a, v))
    | (none, _) =>
      let r := firstLoop meta_ D rec ns cs
      (none :: r.1, r.2)
  | _, cs => (cs, none)

/-- `SumKernel::process`, the loop (`Preprocessor.cpp:263-270`) -/
def sumLoop (O : POps) (meta_ : Nat → List (Nat × Val)) (D : PDB) (rec : List QEnt) : List Str → List (Option PAttr) → Val → List (Option PAttr) × Val
  | n :: ns, c :: cs, s =>
    let g := getValue meta_ D n c rec
    let r := sumLoop O meta_ D rec ns cs (if g.2 = .inv then s else addVal O.toFOps s g.2)
    (g.1 :: r.1, r.2)
  | _, cs, s => (cs, s)

/-- `SumKernel::process`, after the loop (`Preprocessor.cpp:272-280`) -/
def sumEnd (D : PDB) (k : KState) (target : Str) (r : List (Option PAttr) × Val) (rec : List QEnt) : PDB × KState × List QEnt :=
  if r.2 = .inv then (D, { k with tgts := r.1 }, rec)
  else emit D { k with tgts := r.1 } target r.2.ty r.2 rec

/-- `TruncateKernel`: type of the result (`Preprocessor.cpp:174-177`) -/
def truncTy (t : AttrType) : AttrType := if t = .int ∨ t = .uint then t else .double

/-- `TruncateKernel`: the result (`Preprocessor.cpp:182-190`) -/
def truncVal (O : POps) (t : AttrType) (f : U64) (v : Val) : Val :=
  let x := O.ofVal v
  let r := O.sub x (O.fmod x f)
  if truncTy t = .int then .int ((O.toI32 r).signExtend 64)
  else if truncTy t = .uint then .uint (O.absU r)
  else .double r

/-- `get_path_entry(db, e).value()` (`CaliperMetadataAccessInterface.cpp:38-51`): the innermost value of a nested attribute -/
def pathValue (D : PDB) : QEnt → Option Val
  | .ref p => (p.find? fun x => D.isNested x.1).map Prod.snd
  | .imm _ _ => none

/-- `e.get(attr).value()` (`Entry.cpp:43-58`), `none` if the entry is empty -/
def getEntry (a : Nat) : QEnt → Option Val
  | .ref p => (p.find? fun x => decide (x.1 = a)).map Prod.snd
  | .imm b v => if b = a then some v else none

/-- `LeafKernel::process`, the loop (`Preprocessor.cpp:316-322`) -/
def leafLoop (get : QEnt → Option Val) (t : AttrType) : List QEnt → Option Val
  | [] => none
  | e :: es =>
    match get e with
    | some v => if v.ty = t then some v else leafLoop get t es
    | none => leafLoop get t es

/-- `LeafKernel::process` after the attributes were found -/
def leafRun (D : PDB) (k : KState) (res : PAttr) (get : QEnt → Option Val) (rec : List QEnt) : PDB × KState × List QEnt :=
  match leafLoop get res.ty rec with
  | some v => (D, { k with res := some res }, rec ++ [.imm res.id v])
  | none => (D, { k with res := some res }, rec)

/-- `Kernel::process` -/
def process (O : POps) (meta_ : Nat → List (Nat × Val)) (L : LetDef) (D : PDB) (k : KState) (rec : List QEnt) : PDB × KState × List QEnt :=
  match L.op, k.tgts with
  | .ratio n d s, [cn, cd] =>
    -- ScaledRatioKernel (`Preprocessor.cpp:78-100`)
    let gn := getValue meta_ D n cn rec
    let gd := getValue meta_ D d cd rec
    let k := { k with tgts := [gn.1, gd.1] }
    if gn.2 = .inv ∨ gd.2 = .inv then (D, k, rec)
    else if !O.nonzero (O.ofVal gd.2) then (D, k, rec)
    else emit D k L.target .double (.double (O.mul s (O.fdiv (O.ofVal gn.2) (O.ofVal gd.2)))) rec
  | .scale t s, [c] =>
    -- ScaleKernel (`Preprocessor.cpp:127-139`)
    let g := getValue meta_ D t c rec
    let k := { k with tgts := [g.1] }
    if g.2 = .inv then (D, k, rec)
    else emit D k L.target .double (.double (O.mul s (O.ofVal g.2))) rec
  | .truncate t f, [c] =>
    -- TruncateKernel (`Preprocessor.cpp:167-193`)
    match getValue meta_ D t c rec with
    | (some a, v) =>
      let k := { k with tgts := [some a] }
      if v = .inv then (D, k, rec)
      else emit D k L.target (truncTy a.ty) (truncVal O a.ty f v) rec
    | (none, _) => (D, k, rec)
  | .first ts, cs =>
    -- FirstKernel (`Preprocessor.cpp:218-236`)
    match firstLoop meta_ D rec ts cs with
    | (cs, some (a, v)) => emit D { k with tgts := cs } L.target a.ty v rec
    | (cs, none) => (D, { k with tgts := cs }, rec)
  | .sum ts, cs =>
    -- SumKernel (`Preprocessor.cpp:259-280`)
    sumEnd D k L.target (sumLoop O meta_ D rec ts cs .inv) rec
  | .leafPath, _ =>
    -- LeafKernel without argument (`Preprocessor.cpp:296-323`)
    match k.res with
    | some a => leafRun D k a (pathValue D) rec
    | none =>
      let x := D.create L.target .string false
      leafRun x.1 k x.2 (pathValue x.1) rec
  | .leaf t, [c] =>
    -- LeafKernel with an argument; `m_tgt_attr` is looked up while there is no result attribute
    match k.res with
    | some a =>
      match c with
      | some ta => leafRun D k a (getEntry ta.id) rec
      | none => (D, k, rec)
    | none =>
      match D.attr t with
      | none => (D, { k with tgts := [none] }, rec)
      | some ta =>
        let x := D.create L.target ta.ty false
        leafRun x.1 { k with tgts := [some ta] } x.2 (getEntry ta.id) rec
  | _, _ => (D, k, rec)

/-- the environment of conditions -/
def PDB.sel (D : PDB) (dcmp : U64 → U64 → Int) (F : DblFmt) : SelEnv := ⟨fun n => (D.attr n).map fun a => (a.id, a.ty), dcmp, F⟩

variable (O : POps) (meta_ : Nat → List (Nat × Val)) (dcmp : U64 → U64 → Int) (F : DblFmt)

/-- `Preprocessor::process` (`Preprocessor.cpp:380-389`) -/
def preprocess : List (LetDef × KState) → PDB → List QEnt → PDB × List (LetDef × KState) × List QEnt
  | [], D, rec => (D, [], rec)
  | (L, k) :: ks, D, rec =>
    if (D.sel dcmp F).pass [L.cond] rec then
      let x := process O meta_ L D k rec
      let r := preprocess ks x.1 x.2.2
      (r.1, (L, x.2.1) :: r.2.1, r.2.2)
    else
      let r := preprocess ks D rec
      (r.1, (L, k) :: r.2.1, r.2.2)

/-- `PreprocessorImpl::configure` (`Preprocessor.cpp:366-378`) -/
def configure (Ls : List LetDef) : List (LetDef × KState) := Ls.map fun L => (L, KState.new L.op)

/-- what happens while a query runs: attributes are created (by readers or other parts of the query), records are processed -/
inductive PStep where
  | create (n : Str) (t : AttrType) (nested : Bool)
  | record (r : List QEnt)

/-- one step; the output records -/
def pstep (s : PDB × List (LetDef × KState)) : PStep → (PDB × List (LetDef × KState)) × List (List QEnt)
  | .create n t b => (((s.1.create n t b).1, s.2), [])
  | .record r =>
    let x := preprocess O meta_ dcmp F s.2 s.1 r
    ((x.1, x.2.1), [x.2.2])

/-- a history -/
def prun : PDB × List (LetDef × KState) → List PStep → (PDB × List (LetDef × KState)) × List (List QEnt)
  | s, [] => (s, [])
  | s, p :: ps =>
    let x := pstep O meta_ dcmp F s p
    let y := prun x.1 ps
    (y.1, x.2 ++ y.2)

end Verif.Query.Pre
