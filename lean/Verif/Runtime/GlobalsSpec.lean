import Verif.Runtime.Globals
/-!
# Specification of `get_globals`
-/
namespace Verif.RT
open MTree AttrReg

/-- as `RtReach`, with calls for attributes that are not hidden only -/
inductive RtReachV : State → Prop where
  | init {t : Tree} (h : MTree.Reach t) (active : List Nat) (isActive : Nat → Bool) : RtReachV (init t active isActive)
  | call {s : State} {op : Op} (h : RtReachV s) (ha : op.attr.Valid s.tree) (hh : op.attr.hidden = false)
      (nl : NoLoss s (step s op)) : RtReachV (step s op)
  | tree {s : State} {q : MTree.Req} (h : RtReachV s) (hq : q.ok s.tree) (hb : q.batch.length ≤ s.tree.npb) :
      RtReachV { s with tree := (MTree.step s.tree q).1 }
  | channels {s : State} (h : RtReachV s) (active : List Nat) (isActive : Nat → Bool) :
      RtReachV { s with active := active, isActive := isActive }

/-- `id` is the id of an attribute whose properties contain the global flag -/
def IsGlobal (t : Tree) (id : Nat) : Prop :=
  ∃ p, Live t p ∧ p ≠ .root ∧ t.idOf p = id ∧ t.attrOf p = nameAttr ∧ attrProp t p &&& 512#32 ≠ 0#32

/-- at location `l`, the as-value attribute with id `k` has the value `v`: that is what its blackboard entry says -/
def CurrentValue (s : State) (l : Loc) (k : Nat) (v : Val) : Prop :=
  k ≠ regionKey ∧ k ≠ unalignedKey ∧ k ≠ invId ∧ ∃ e, BB.get (s.board l) k = some e ∧ e.node.isSome = true ∧ e.val = v

open Classical in
/-- the global part of a path, in order -/
noncomputable def globalPart (t : Tree) (p : PathL) : PathL := p.filter fun x => decide (IsGlobal t x.1)

/-- The entries `es`, read in tree `t'`, are exactly the globals of location `l` in state `s`: one immediate entry for each global
as-value attribute that has a value, and, if there are any, one path holding the global values among the open regions and the
open unaligned values, each in the order in which they were opened. -/
def ExactGlobals (s : State) (l : Loc) (t' : Tree) (es : List Entry) : Prop :=
  ∃ (imm : List Entry) (ref : List Entry), es = imm ++ ref ∧
    -- one immediate entry per global as-value attribute
    (imm.map (Entry.attribute t')).Nodup ∧
    (∀ k v, (∃ e ∈ imm, e.attribute t' = k ∧ e.val = v ∧ e.isReference t' = false) ↔ CurrentValue s l k v ∧ IsGlobal s.tree k) ∧
    (∀ e ∈ imm, e.isReference t' = false) ∧
    -- the path
    ∃ R U G, OpenRegions s l R ∧ OpenUnaligned s l U ∧
      (G = globalPart s.tree U ++ globalPart s.tree R ∨ G = globalPart s.tree R ++ globalPart s.tree U) ∧
      (G = [] → ref = []) ∧ (G ≠ [] → ∃ n, ref = [Entry.ofNode t' n] ∧ Path t' n G)

end Verif.RT
