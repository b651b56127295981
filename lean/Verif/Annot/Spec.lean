import Verif.Annot.Model
import Verif.Runtime.Spec
/-!
# Specification for programs with annotation objects
-/
namespace Verif.Annot
open MTree RT

/-- `"region"` -/
def regionName : Name := [114#8, 101#8, 103#8, 105#8, 111#8, 110#8]
/-- `"loop"` -/
def loopName : Name := [108#8, 111#8, 111#8, 112#8]

/-- what is assumed about the attributes: a name belongs to one attribute (`idOf`), `types` is the type each name is used with, and `val` marks
the names of attributes that may be as-value; nobody has configured other properties for the attributes created here -/
structure EnvOk (E : Env) (idOf : Name → Nat) (types : Name → AttrType) (val : Name → Bool) : Prop where
  inj : ∀ n m, idOf n = idOf m → n = m
  make : ∀ n ty opt, (E.make n ty opt).id = idOf n
  plain : ∀ n ty opt, opt &&& 1#32 = 0 → (E.make n ty opt).kind ≠ .value
  region : E.region.id = idOf regionName ∧ E.region.kind ≠ .value
  loop : E.loop.id = idOf loopName ∧ E.loop.kind ≠ .value
  iter : ∀ n, types (iterPrefix ++ n) = .int ∧ val (iterPrefix ++ n) = true

/-- the attributes that exist already fit -/
def DbOk (idOf : Name → Nat) (types : Name → AttrType) (val : Name → Bool) (db : DB) : Prop :=
  ∀ n h, db n = some h → h.attr.id = idOf n ∧ h.ty = types n ∧ (val n = false → h.attr.kind ≠ .value)

/-- the type of an argument of `begin` or `set` -/
def Data.ty : Data → AttrType
  | .int _ => .int
  | .val v => v.ty

/-- Well-formed programs, given the names of the loops and annotation objects in scope and of the attributes of the enclosing blocks:
every object is declared before use, every annotation is given values of its attribute's type, and no block for an as-value attribute
(such as a loop iteration) and no `set` guard lies inside another block for the same attribute. -/
def Ok (types : Name → AttrType) (val : Name → Bool) : (loops anns op : List Name) → Prog → Prop
  | _, _, _, .skip => True
  | ls, as, op, .seq p q => Ok types val ls as op p ∧ Ok types val ls as op q
  | ls, as, op, .region _ p => Ok types val ls as (regionName :: op) p
  | ls, as, op, .loop n p => Ok types val (n :: ls) as (loopName :: op) p
  | ls, as, op, .loopEnd n p q => Ok types val (n :: ls) as (loopName :: op) p ∧ Ok types val (n :: ls) as op q
  | ls, as, op, .iter k _ p => ∃ n, ls[k]? = some n ∧ iterPrefix ++ n ∉ op ∧ Ok types val ls as ((iterPrefix ++ n) :: op) p
  | ls, as, op, .declAnn n opt _ p => (val n = true ∨ opt &&& 1#32 = 0) ∧ Ok types val ls (n :: as) op p
  | ls, as, op, .annot k d p | ls, as, op, .guard k d p =>
    ∃ n, as[k]? = some n ∧ d.ty = types n ∧ d.ty ≠ .inv ∧ (val n = true → n ∉ op) ∧ Ok types val ls as (n :: op) p
  | ls, as, op, .guardSet k d p =>
    ∃ n, as[k]? = some n ∧ d.ty = types n ∧ d.ty ≠ .inv ∧ n ∉ op ∧ Ok types val ls as (n :: op) p

/-- the attributes that must not have a value when the program starts: those of loop iterations, of as-value annotations and of `set` guards -/
def fresh (val : Name → Bool) : (loops anns : List Name) → Prog → List Name
  | _, _, .skip => []
  | ls, as, .seq p q => fresh val ls as p ++ fresh val ls as q
  | ls, as, .region _ p => fresh val ls as p
  | ls, as, .loop n p => fresh val (n :: ls) as p
  | ls, as, .loopEnd n p q => fresh val (n :: ls) as p ++ fresh val (n :: ls) as q
  | ls, as, .iter k _ p => (ls[k]?).toList.map (iterPrefix ++ ·) ++ fresh val ls as p
  | ls, as, .declAnn n _ _ p => fresh val ls (n :: as) p
  | ls, as, .annot k _ p | ls, as, .guard k _ p => (as[k]?).toList.filter val ++ fresh val ls as p
  | ls, as, .guardSet k _ p => (as[k]?).toList ++ fresh val ls as p

/-- Points during the execution of a program: `pre` are the calls made so far, `stk` the values of the enclosing blocks, outermost
first. -/
inductive At (E : Env) (th : Nat) : Prog → St → List Op → List (Attr × Val) → Prop where
  | start {p s} : At E th p s [] []
  | finish {p s} : At E th p s (exec E th p s).2 []
  | seqL {p q s pre stk} : At E th p s pre stk → At E th (.seq p q) s pre stk
  | seqR {p q s pre stk} : At E th q (exec E th p s).1 pre stk → At E th (.seq p q) s ((exec E th p s).2 ++ pre) stk
  | region {n p s pre stk} : At E th p s pre stk →
      At E th (.region n p) s (.begin th E.region (.str n) :: pre) ((E.region, .str n) :: stk)
  | loop {n p s pre stk db l o} : LoopImpl.ctor E th s.db n = (db, l, o) → At E th p ⟨db, s.anns, l :: s.loops⟩ pre stk →
      At E th (.loop n p) s (o ++ pre) ((E.loop, .str n) :: stk)
  | loopEnd {n p q s pre stk db l o} : LoopImpl.ctor E th s.db n = (db, l, o) → At E th p ⟨db, s.anns, l :: s.loops⟩ pre stk →
      At E th (.loopEnd n p q) s (o ++ pre) ((E.loop, .str n) :: stk)
  | iter {k i p s pre stk l} : s.loops[k]? = some l → At E th p s pre stk →
      At E th (.iter k i p) s (.begin th l.iter (Val.ofInt i) :: pre) ((l.iter, Val.ofInt i) :: stk)
  | declAnn {n opt m p s pre stk} : At E th p { s with anns := AnnImpl.ctor s.db n opt m :: s.anns } pre stk →
      At E th (.declAnn n opt m p) s pre stk
  | annot {k d p s pre stk a a' db h v} : s.anns[k]? = some a → a.begin E th s.db d = (db, a', [.begin th h v]) →
      At E th p ⟨db, s.anns.set k a', s.loops⟩ pre stk → At E th (.annot k d p) s (.begin th h v :: pre) ((h, v) :: stk)
  | guard {k d p s pre stk a a' db h v} : s.anns[k]? = some a → a.begin E th s.db d = (db, a', [.begin th h v]) →
      At E th p ⟨db, s.anns.set k a', s.loops⟩ pre stk → At E th (.guard k d p) s (.begin th h v :: pre) ((h, v) :: stk)
  | guardSet {k d p s pre stk a a' db h v} : s.anns[k]? = some a → a.set E th s.db d = (db, a', [.set th h v]) →
      At E th p ⟨db, s.anns.set k a', s.loops⟩ pre stk → At E th (.guardSet k d p) s (.set th h v :: pre) ((h, v) :: stk)

/-- the part of the block stack that belongs to a context and kind of attribute -/
def stackOf (th : Nat) (l : Loc) (k : Kind) (stk : List (Attr × Val)) : PathL :=
  (stk.filter fun e => decide (e.1.kind = k ∧ scopeLoc e.1 th = some l)).map fun e => (e.1.id, e.2)

end Verif.Annot
