import Verif.Capi.Calls
import Verif.Attr.Presets
/-!
# Specification of the C annotation interface, in terms of attribute names

An attribute is what the first call for its name says.  A context (of a thread or of the process) is a list of open regions and a list of
open unaligned values, both oldest first, and a current value for each as-value attribute; all by name.
-/
namespace Verif.CApi
open Verif.RT Verif.AttrReg

/-- a list of named values, oldest first -/
abbrev Vals := List (Name × Val)

/-- type and properties of an attribute -/
structure Ann where
  ty : AttrType
  prop : BitVec 32

/-- a context -/
structure NCtx where
  region : Vals
  unal : Vals
  vals : Name → Option Val

/-- the attributes, the contexts, and the threads frozen by a nesting error -/
structure Spec where
  attrs : Name → Option Ann
  ctx : Loc → NCtx
  err : Nat → Bool

/-- the value used last and still open -/
def latest (n : Name) (l : Vals) : Option Val := (l.reverse.lookup n)

/-- close the value of `n` opened last -/
def dropLatest (n : Name) : Vals → Vals
  | [] => []
  | e :: l => if e.1 = n ∧ ∀ x ∈ l, x.1 ≠ n then l else e :: dropLatest n l

/-- properties: as-value, unaligned, nested -/
def Ann.asValue (a : Ann) : Prop := a.prop &&& 1 ≠ 0
@[inherit_doc Ann.asValue]
def Ann.unaligned (a : Ann) : Prop := a.prop &&& 1024 ≠ 0
@[inherit_doc Ann.asValue]
def Ann.nested (a : Ann) : Prop := a.prop &&& 256 ≠ 0

instance (a : Ann) : Decidable a.asValue := by unfold Ann.asValue; infer_instance
instance (a : Ann) : Decidable a.unaligned := by unfold Ann.unaligned; infer_instance
instance (a : Ann) : Decidable a.nested := by unfold Ann.nested; infer_instance

/-- the context an attribute's values are kept in: by scope, thread 20 or process 12 -/
def Ann.loc (a : Ann) (th : Nat) : Option Loc :=
  if a.prop &&& 60 = 20 then some (.thread th) else if a.prop &&& 60 = 12 then some .process else none

/-- open a value -/
def NCtx.begin (c : NCtx) (n : Name) (a : Ann) (v : Val) : NCtx :=
  if a.asValue then { c with vals := fun m => if m = n then some v else c.vals m }
  else if a.unaligned then { c with unal := c.unal ++ [(n, v)] }
  else { c with region := c.region ++ [(n, v)] }

/-- replace the value opened last -/
def NCtx.set (c : NCtx) (n : Name) (a : Ann) (v : Val) : NCtx :=
  if a.asValue then { c with vals := fun m => if m = n then some v else c.vals m }
  else if a.unaligned then { c with unal := dropLatest n c.unal ++ [(n, v)] }
  else { c with region := dropLatest n c.region ++ [(n, v)] }

/-- the value an end call closes: of the regions only the innermost one -/
def NCtx.closes (c : NCtx) (n : Name) (a : Ann) : Option Val :=
  if a.asValue then c.vals n
  else if a.unaligned then latest n c.unal
  else match c.region.getLast? with
    | some e => if e.1 = n then some e.2 else none
    | none => none

/-- close it -/
def NCtx.close (c : NCtx) (n : Name) (a : Ann) : NCtx :=
  if a.asValue then { c with vals := fun m => if m = n then none else c.vals m }
  else if a.unaligned then { c with unal := dropLatest n c.unal }
  else { c with region := c.region.dropLast }

/-- the current value -/
def NCtx.get (c : NCtx) (n : Name) (a : Ann) : Option Val :=
  if a.asValue then c.vals n else if a.unaligned then latest n c.unal else latest n c.region

/-- store a context -/
def Spec.put (S : Spec) (l : Loc) (x : NCtx) : Spec := { S with ctx := fun l' => if l' = l then x else S.ctx l' }

/-- the properties an attribute gets if it is created with property word `prop` -/
def newProp (cfg : Config) (n : Name) (prop : BitVec 32) : BitVec 32 := Presets.withScope cfg.defScope ((cfg.preset n).getD prop)

/-- mention an attribute: the first time counts -/
def Spec.mention (cfg : Config) (S : Spec) (n : Name) (ty : AttrType) (prop : BitVec 32) : Spec :=
  match S.attrs n with
  | some _ => S
  | none => { S with attrs := fun m => if m = n then some ⟨ty, newProp cfg n prop⟩ else S.attrs m }

/-- begin: without effect for unknown attributes and frozen threads -/
def Spec.begin (S : Spec) (th : Nat) (n : Name) (v : Val) : Spec :=
  match S.attrs n with
  | none => S
  | some a => match a.loc th with
    | none => S
    | some l => if S.err th then S else S.put l ((S.ctx l).begin n a v)

/-- set -/
def Spec.set (S : Spec) (th : Nat) (n : Name) (v : Val) : Spec :=
  match S.attrs n with
  | none => S
  | some a => match a.loc th with
    | none => S
    | some l => if S.err th then S else S.put l ((S.ctx l).set n a v)

/-- end, maybe of a certain value only: an end call that does not fit freezes the thread -/
def Spec.end_ (S : Spec) (th : Nat) (n : Name) (expect : Option Val) : Spec :=
  match S.attrs n with
  | none => S
  | some a => match a.loc th with
    | none => S
    | some l =>
      if S.err th then S
      else match (S.ctx l).closes n a with
        | none => { S with err := fun t => if t = th then true else S.err t }
        | some v =>
          if expect = none ∨ expect = some v then S.put l ((S.ctx l).close n a)
          else { S with err := fun t => if t = th then true else S.err t }

/-- the names of the region attributes -/
def RegionKind.name : RegionKind → Name
  | .region => nm "region"
  | .phase => nm "phase"
  | .comm => nm "comm.region"

/-- the value given with a call: `true`, a 32-bit integer, a double (bits), a text, an unsigned integer -/
def CArg.means : CArg → Val
  | .yes => ⟨.bool, .inr 1⟩
  | .int i => ⟨.int, .inr (i.signExtend 64)⟩
  | .double d => ⟨.double, .inr d⟩
  | .string s => ⟨.string, .inl s⟩
  | .uint u => ⟨.uint, .inr u⟩

/-- what the calls mean -/
def Spec.call (cfg : Config) (S : Spec) (th : Nat) : Call → Spec
  | .create n ty prop => S.mention cfg n ty prop
  | .begin n x => S.begin th n x.means
  | .set n x => S.set th n x.means
  | .end_ n => S.end_ th n none
  | .beginName n x => (S.mention cfg n x.means.ty 0).begin th n x.means
  | .setName n x => (S.mention cfg n x.means.ty 1024).set th n x.means
  | .endName n => S.end_ th n none
  | .setGlobal n x => (S.mention cfg n x.means.ty (512 + 1024 + 64)).set th n
      (match x with | .string s => Val.str (s ++ [0]) | x => x.means)
  | .beginRegion k v => S.begin th k.name (Val.str v)
  | .endRegion k v => S.end_ th k.name (some (Val.str v))

/-- programs -/
def Spec.run (cfg : Config) (S : Spec) : List (Nat × Call) → Spec
  | [] => S
  | (th, c) :: cs => Spec.run cfg (S.call cfg th c) cs

/-- at the start: the attributes `loop`, `region`, `phase` and `comm.region`, nothing open -/
def Spec.init (cfg : Config) : Spec :=
  (((((⟨fun _ => none, fun _ => ⟨[], [], fun _ => none⟩, fun _ => false⟩ : Spec).mention cfg (nm "loop") .string 256).mention
    cfg (nm "region") .string 256).mention cfg (nm "phase") .string (256 + 0x40000)).mention cfg (nm "comm.region") .string (256 + 0x10000))

/-- the value of an attribute as thread `th` sees it -/
def Spec.get (S : Spec) (th : Nat) (n : Name) : Option Val :=
  (S.attrs n).bind fun a => (a.loc th).bind fun l => (S.ctx l).get n a

/-- the three attributes which describe attributes -/
def Builtin (n : Name) : Prop := n = nm "cali.attribute.name" ∨ n = nm "cali.attribute.type" ∨ n = nm "cali.attribute.prop"

/-- the name a call is about -/
def Call.name : Call → Name
  | .create n _ _ | .begin n _ | .set n _ | .end_ n | .beginName n _ | .setName n _ | .endName n | .setGlobal n _ => n
  | .beginRegion k _ | .endRegion k _ => k.name

/-- the innermost nested region in a list of open regions -/
def Spec.innerNested (S : Spec) (l : Vals) : Option Val :=
  (l.reverse.find? fun e => match S.attrs e.1 with | some a => decide a.nested | none => false).map Prod.snd

/-- the current region of thread `th` as documented (`cali.h:313-321`): the innermost open region of the thread, then of the process;
`alt` if there is none or if it is not a string -/
def Spec.region (S : Spec) (th : Nat) (alt : List Byte) : List Byte :=
  match (S.innerNested (S.ctx (.thread th)).region).or (S.innerNested (S.ctx .process).region) with
  | some ⟨.string, .inl b⟩ => b
  | _ => alt

end Verif.CApi
