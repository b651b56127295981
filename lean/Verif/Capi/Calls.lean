import Verif.Attr.Model
/-!
# The C annotation interface

Model of the annotation, attribute and look-up calls of `/repo/src/caliper/cali.cpp` (lines 53-119, 330-590) on top of the runtime
(`Verif/Runtime`), including the creation of the attributes in the context tree.

Simplifications: a call is atomic (C17 and C47 are about interleavings inside calls); `create_attribute` callbacks are left out; string
arguments are given without their terminating NUL; `double` arguments are bit patterns; `cali_set` (raw data) and the calls with metadata
arguments are left out.  A call with an attribute id is made with the id that `cali_find_attribute` returns for a name: every
valid id is one of these, and the theorem `C104_ids` shows that they never change.
-/
namespace Verif.CApi
open Verif.MTree Verif.RT Verif.AttrReg

/-- context tree, blackboards and the attribute map; the attributes of the region calls (`api.cpp:54-60`) -/
structure St where
  rt : RT.State
  map : Name → Option (Option Ptr)
  region : Option Ptr
  phase : Option Ptr
  comm : Option Ptr

/-- an `Attribute` object: `id()` and `properties()` of a null attribute are `CALI_INV_ID` and `CALI_ATTR_DEFAULT`
(`Attribute.h:46`, `Attribute.cpp:45-52`) -/
def handle (t : Tree) : Option Ptr → Attr
  | none => ⟨.root, invId, 0⟩
  | some p => ⟨p, t.idOf p, attrProp t p⟩

/-- `Caliper::create_attribute(name, type, prop)` (`Caliper.cpp:668-748`), without metadata -/
def createAttribute (cfg : Config) (s : St) (th : Nat) (n : Name) (ty : AttrType) (prop : BitVec 32) : St × Option Ptr :=
  match s.map n with
  | some a => (s, a)
  | none =>
    match getChild s.rt.tree th propAttr (Val.ofInt (finalProp cfg s.rt.tree ⟨n, ty, prop, []⟩ (typeNode ty))) (typeNode ty) with
    | (t, a) =>
      match getChild t th nameAttr (Val.str n) a with
      | (t, b) => ({ s with rt := { s.rt with tree := t }, map := updN s.map n (some (makeAttribute t b)) }, makeAttribute t b)

/-- `Caliper::get_attribute(name)` (`Caliper.cpp:750-757`) -/
def St.byName (s : St) (n : Name) : Option Ptr := (s.map n).getD none

/-- `Caliper::get_attribute(id)` (`Caliper.cpp:760-764`) -/
def St.byId (s : St) (id : Nat) : Option Ptr := makeAttribute s.rt.tree (s.rt.tree.lookup id)

/-- `cali_find_attribute` (`cali.cpp:94-99`) -/
def St.find (s : St) (n : Name) : Nat := (handle s.rt.tree (s.byName n)).id

/-- the attribute a call with `cali_find_attribute(n)` as argument works on -/
def St.arg (s : St) (n : Name) : Attr := handle s.rt.tree (s.byId (s.find n))

/-- the value arguments of the calls -/
inductive CArg where
  | yes
  | int (i : BitVec 32)
  | double (d : BitVec 64)
  | string (s : List Byte)
  | uint (u : BitVec 64)
  deriving DecidableEq, Repr

/-- the `Variant` made of an argument: `Variant(true)`, `Variant(val)`, `Variant(CALI_TYPE_STRING, val, strlen(val))` -/
def CArg.val : CArg → Val
  | .yes => Val.ofBool true
  | .int i => Val.ofInt i
  | .double d => ⟨.double, .inr d⟩
  | .string s => Val.str s
  | .uint u => ⟨.uint, .inr u⟩

/-- the type the by-name calls create an attribute with -/
def CArg.ty : CArg → AttrType
  | .yes => .bool
  | .int _ => .int
  | .double _ => .double
  | .string _ => .string
  | .uint _ => .uint

/-- `cali_set_global_string_byname` counts the NUL (`cali.cpp:579`) -/
def CArg.globalVal : CArg → Val
  | .string s => Val.str (s ++ [0])
  | x => x.val

/-- the three kinds of region calls -/
inductive RegionKind where
  | region | phase | comm
  deriving DecidableEq, Repr

/-- C calls -/
inductive Call where
  /-- `cali_create_attribute` (`cali.cpp:53-58`) -/
  | create (n : Name) (ty : AttrType) (prop : BitVec 32)
  /-- `cali_begin`, `cali_begin_double`, `cali_begin_int`, `cali_begin_string` (`cali.cpp:406-412`, `430-452`) -/
  | begin (n : Name) (x : CArg)
  /-- `cali_set_double`, `cali_set_int`, `cali_set_string` (`cali.cpp:454-476`) -/
  | set (n : Name) (x : CArg)
  /-- `cali_end` (`cali.cpp:414-420`) -/
  | end_ (n : Name)
  /-- `cali_begin_byname`, `cali_begin_double_byname`, … (`cali.cpp:482-512`) -/
  | beginName (n : Name) (x : CArg)
  /-- `cali_set_double_byname`, … (`cali.cpp:514-536`) -/
  | setName (n : Name) (x : CArg)
  /-- `cali_end_byname` (`cali.cpp:538-544`) -/
  | endName (n : Name)
  /-- `cali_set_global_double_byname`, … (`cali.cpp:549-590`) -/
  | setGlobal (n : Name) (x : CArg)
  /-- `cali_begin_region`, `cali_begin_phase`, `cali_begin_comm_region` (`cali.cpp:370-404`) -/
  | beginRegion (k : RegionKind) (name : List Byte)
  /-- `cali_end_region`, `cali_end_phase`, `cali_end_comm_region` -/
  | endRegion (k : RegionKind) (name : List Byte)
  deriving DecidableEq, Repr

/-- the attribute of a region call -/
def St.regionPtr (s : St) : RegionKind → Option Ptr
  | .region => s.region
  | .phase => s.phase
  | .comm => s.comm

/-- a call of the runtime -/
def St.op (s : St) (o : Op) : St := { s with rt := RT.step s.rt o }

/-- one C call of thread `th` -/
def call (cfg : Config) (s : St) (th : Nat) : Call → St
  | .create n ty prop => (createAttribute cfg s th n ty prop).1
  | .begin n x => s.op (.begin th (s.arg n) x.val)
  | .set n x => s.op (.set th (s.arg n) x.val)
  | .end_ n => s.op (.endR th (s.arg n))
  | .beginName n x =>
    match createAttribute cfg s th n x.ty 0 with
    | (s, a) => s.op (.begin th (handle s.rt.tree a) x.val)
  | .setName n x =>
    match createAttribute cfg s th n x.ty 1024 with
    | (s, a) => s.op (.set th (handle s.rt.tree a) x.val)
  | .endName n => s.op (.endR th (handle s.rt.tree (s.byName n)))
  | .setGlobal n x =>
    match createAttribute cfg s th n x.ty (512 ||| 1024 ||| 64) with
    | (s, a) => s.op (.set th (handle s.rt.tree a) x.globalVal)
  | .beginRegion k v => s.op (.begin th (handle s.rt.tree (s.regionPtr k)) (Val.str v))
  | .endRegion k v => s.op (.endCheck th (handle s.rt.tree (s.regionPtr k)) (Val.str v))

/-- a program: calls of any threads -/
def runCalls (cfg : Config) (s : St) : List (Nat × Call) → St
  | [] => s
  | (th, c) :: cs => runCalls cfg (call cfg s th c) cs

/-- ASCII names -/
def nm (s : String) : Name := s.toList.map fun c => BitVec.ofNat 8 c.toNat

/-- `init_api_attributes` (`api.cpp:54-60`); `CALI_ATTR_NESTED` = 256, levels 4 and 1 = 0x40000 and 0x10000 -/
def initApi (cfg : Config) (s : St) (th : Nat) : St :=
  let s := (createAttribute cfg s th (nm "loop") .string 256).1
  let (s, a) := createAttribute cfg s th (nm "region") .string 256
  let s := { s with region := a }
  let (s, a) := createAttribute cfg s th (nm "phase") .string (256 ||| 0x40000)
  let s := { s with phase := a }
  let (s, a) := createAttribute cfg s th (nm "comm.region") .string (256 ||| 0x10000)
  { s with comm := a }

/-- the process after initialisation.  Simplified: of the attributes created by the initialisation, only those of
`init_api_attributes`; services are not part of this model -/
def start (cfg : Config) (npb nb : Nat) (garbage : Nat → Nat) (active : List Nat) (isActive : Nat → Bool) : St :=
  initApi cfg ⟨RT.init (MTree.init npb nb garbage) active isActive, (AttrReg.init (MTree.init npb nb garbage)).map, none, none, none⟩ 0

/-! ## what a program can ask -/

/-- `cali_get(cali_find_attribute(n))` (`cali.cpp:330-338`): `some none` is the empty variant, `none` does not return -/
def St.get (s : St) (th : Nat) (n : Name) : Option (Option Val) :=
  (getEntry s.rt th (s.arg n)).map fun e => e.node.map fun _ => e.val

/-- `cali_attribute_type(cali_find_attribute(n))` (`cali.cpp:101-105`): the value of the type node, if any -/
def St.typeOf (s : St) (n : Name) : Option Val := (s.byId (s.find n)).bind (attrType s.rt.tree)

/-- `cali_attribute_properties(cali_find_attribute(n))` (`cali.cpp:107-111`) -/
def St.propOf (s : St) (n : Name) : BitVec 32 := (s.arg n).prop

/-- the search of `get_path_node` (`Caliper.cpp:1238-1240`) -/
def nestedUp (t : Tree) : Nat → Option Ptr → Option Ptr
  | 0, _ => none
  | _, none => none
  | fuel + 1, some nd =>
    if (handle t (makeAttribute t (t.lookup (t.attrOf nd)))).prop &&& 256 ≠ 0 then some nd
    else nestedUp t fuel (t.parentOf nd)

/-- `Caliper::get_path_node` (`Caliper.cpp:1223-1243`); `none`: the call does not return -/
def pathNode (s : RT.State) (th : Nat) : Option Entry :=
  match BB.get (s.board (.thread th)) regionKey with
  | none => none
  | some e =>
    match (if e.node = none then BB.get (s.board .process) regionKey else some e) with
    | none => none
    | some e =>
      match nestedUp s.tree (s.tree.fuelOf e.node) e.node with
      | some nd => some (Entry.ofNode s.tree nd)
      | none => some e

/-- `cali_get_current_region_or` (`cali.cpp:351-364`) -/
def St.currentRegion (s : St) (th : Nat) (alt : List Byte) : Option (List Byte) :=
  (pathNode s.rt th).map fun e =>
    if e.node = none then alt
    else match e.val with
      | ⟨.string, .inl b⟩ => b
      | _ => alt

end Verif.CApi
