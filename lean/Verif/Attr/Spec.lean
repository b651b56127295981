import Verif.Attr.Model
import Verif.Tree.Spec
namespace Verif.AttrReg
open MTree RT

/-- the contents an attribute created for request `r` must have: type, metadata, properties, name -/
def typePath (ty : AttrType) : PathL := if ty = .inv then [] else [(typeAttr, Val.ofType ty)]
/-- properties an attribute created for `r` must have: the preset wins over the request; global means process scope and
unaligned; default scope if no scope is given; aggregatable if the metadata says so -/
def wantProp (cfg : Config) (r : Req) : BitVec 32 :=
  if (cfg.aggId, (⟨.bool, .inr 1⟩ : Val)) ∈ r.metas then normProp cfg r ||| pAgg else normProp cfg r
@[inherit_doc typePath]
def attrPath (cfg : Config) (r : Req) : PathL :=
  typePath r.ty ++ r.metas ++ [(propAttr, Val.ofInt (wantProp cfg r))] ++ [(nameAttr, Val.str r.name)]

/-- reachable states: any interleaving of the steps of `create_attribute` calls of any threads with any requests, and of any
other requests to the context tree.  `class.aggregatable` is not the built-in type attribute. -/
inductive Reach (cfg : Config) : State → Prop where
  | init {npb nb : Nat} {g : Nat → Nat} : 12 ≤ npb → 1 ≤ nb → cfg.aggId ≠ typeAttr → Reach cfg (init (MTree.init npb nb g))
  | step {s : State} (th : Nat) (r : Req) : Reach cfg s → Reach cfg (stepThread cfg s th r)
  | tree {s : State} {q : MTree.Req} : Reach cfg s → q.ok s.tree → q.batch.length ≤ s.tree.npb →
      Reach cfg { s with tree := (MTree.step s.tree q).1 }

end Verif.AttrReg
