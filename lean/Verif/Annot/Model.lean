import Verif.Runtime.Model
/-!
# C++ annotation objects

Model of `/repo/src/caliper/Annotation.cpp`: `Function`, `ScopeAnnotation`, `Loop`, `Loop::Iteration`, `Annotation` and
`Annotation::Guard`, as functions from object states to the runtime calls (`RT.Op`, see `Verif/Runtime`) they make, and block-structured
programs that use these objects as local variables.

Simplifications: attribute creation is a look-up in a registry (`create_attribute` and `get_attribute` are the subject of
`Verif/Attr`) and the attribute nodes are taken to exist in the context tree from the start; one thread; the copies of `Loop` and `Annotation`
handles are the subject of `Verif/Annot/Ref`.
-/
namespace Verif.Annot
open MTree RT

/-- names -/
abbrev Name := List Byte

/-- an attribute handle: what `Attribute` reads from the attribute node, with `Attribute::type()` -/
structure Handle where
  attr : Attr
  ty : AttrType

/-- the process: `region_attr`, `loop_attr` (`api.cpp:56-57`), the attribute that `create_attribute(name, type, opt)` makes if there is
none of that name, and `static_cast<double>(int)` (as bit pattern) -/
structure Env where
  region : Attr
  loop : Attr
  make : Name → AttrType → BitVec 32 → Attr
  toDouble : BitVec 32 → BitVec 64

/-- the attributes by name -/
abbrev DB := Name → Option Handle

/-- `create_attribute(name, type, opt)` (`Caliper.cpp:668-748`): an existing attribute of that name wins -/
def create (E : Env) (db : DB) (n : Name) (ty : AttrType) (opt : BitVec 32) : DB × Handle :=
  match db n with
  | some h => (db, h)
  | none =>
    let h : Handle := ⟨E.make n ty opt, ty⟩
    (fun m => if m = n then some h else db m, h)

/-- `"iteration#"` -/
def iterPrefix : Name := [105#8, 116#8, 101#8, 114#8, 97#8, 116#8, 105#8, 111#8, 110#8, 35#8]

/-- `Loop::Impl` (`Annotation.cpp:53-71`) -/
structure LoopImpl where
  iter : Attr
  level : Int
  ref : Int

/-- `Loop::Loop(name)` (`Annotation.cpp:58-70`, `83-87`); `CALI_ATTR_ASVALUE` = 1 -/
def LoopImpl.ctor (E : Env) (th : Nat) (db : DB) (n : Name) : DB × LoopImpl × List Op :=
  let (db, h) := create E db (iterPrefix ++ n) .int 1#32
  (db, ⟨h.attr, 1, 1⟩, [.begin th E.loop (.str n)])

/-- `Loop::end()` (`Annotation.cpp:107-113`) -/
def LoopImpl.end_ (E : Env) (th : Nat) (l : LoopImpl) : LoopImpl × List Op :=
  if l.level > 0 then ({ l with level := l.level - 1 }, [.endR th E.loop]) else (l, [])

/-- `Loop::~Loop()` (`Annotation.cpp:94-100`) -/
def LoopImpl.dtor (E : Env) (th : Nat) (l : LoopImpl) : LoopImpl × List Op :=
  let l := { l with ref := l.ref - 1 }
  if l.ref = 0 then l.end_ E th else (l, [])

/-- `Annotation::Impl` (`Annotation.cpp:117-208`): the cached attribute, name and properties -/
structure AnnImpl where
  node : Option Handle
  name : Name
  opt : BitVec 32

/-- the constructors (`Annotation.cpp:127-143`, `222-226`); the one with metadata looks the attribute up at once -/
def AnnImpl.ctor (db : DB) (n : Name) (opt : BitVec 32) (metas : Bool) : AnnImpl :=
  ⟨if metas then db n else none, n, opt⟩

/-- `Impl::get_attribute(type)` (`Annotation.cpp:174-193`) -/
def AnnImpl.getAttribute (E : Env) (db : DB) (a : AnnImpl) (ty : AttrType) : DB × AnnImpl × Handle :=
  match a.node with
  | some h => (db, a, h)
  | none =>
    let (db, h) := create E db a.name ty a.opt
    (db, { a with node := some h }, h)

/-- an argument of `begin` or `set`: an `int`, or anything that becomes a `Variant` directly -/
inductive Data where
  | int (i : BitVec 32)
  | val (v : Val)

/-- the `int` overloads of `begin` and `set` (`Annotation.cpp:254-265`, `280-291`): conversion to `double` or `uint` if the attribute is
known and of that type -/
def AnnImpl.value (E : Env) (a : AnnImpl) : Data → Val
  | .val v => v
  | .int i =>
    match a.node with
    | some h =>
      if h.ty = .double then ⟨.double, .inr (E.toDouble i)⟩
      else if h.ty = .uint then ⟨.uint, .inr (i.signExtend 64)⟩
      else Val.ofInt i
    | none => Val.ofInt i

/-- `Impl::begin(data)` (`Annotation.cpp:147-154`) after the overload (`Annotation.cpp:249-276`) -/
def AnnImpl.begin (E : Env) (th : Nat) (db : DB) (a : AnnImpl) (d : Data) : DB × AnnImpl × List Op :=
  let v := a.value E d
  let (db, a, h) := a.getAttribute E db v.ty
  (db, a, if h.ty = v.ty ∧ h.ty ≠ .inv then [.begin th h.attr v] else [])

/-- `Impl::set(data)` (`Annotation.cpp:156-163`) after the overload (`Annotation.cpp:280-312`) -/
def AnnImpl.set (E : Env) (th : Nat) (db : DB) (a : AnnImpl) (d : Data) : DB × AnnImpl × List Op :=
  let v := a.value E d
  let (db, a, h) := a.getAttribute E db v.ty
  (db, a, if h.ty = v.ty ∧ h.ty ≠ .inv then [.set th h.attr v] else [])

/-- `Impl::end()` (`Annotation.cpp:165-172`); also all that `Guard::~Guard()` does to the runtime (`Annotation.cpp:215-219`) -/
def AnnImpl.end_ (th : Nat) (a : AnnImpl) : List Op :=
  match a.node with
  | some h => [.endR th h.attr]
  | none => []

/-- programs with annotation objects as local variables; `k` counts the enclosing declarations from the innermost one -/
inductive Prog where
  | skip
  | seq (p q : Prog)
  /-- `{ Function f(name); p }` or `{ ScopeAnnotation s(name); p }` -/
  | region (name : Name) (p : Prog)
  /-- `{ Loop l(name); p }` -/
  | loop (name : Name) (p : Prog)
  /-- `{ Loop l(name); p; l.end(); q }` -/
  | loopEnd (name : Name) (p q : Prog)
  /-- `{ Loop::Iteration it(l_k.iteration(i)); p }` -/
  | iter (k : Nat) (i : BitVec 32) (p : Prog)
  /-- `{ Annotation a(name, opt); p }`; `metas`: with the constructor that takes a metadata list -/
  | declAnn (name : Name) (opt : BitVec 32) (metas : Bool) (p : Prog)
  /-- `a_k.begin(d); p; a_k.end();` -/
  | annot (k : Nat) (d : Data) (p : Prog)
  /-- `{ Annotation::Guard g(a_k.begin(d)); p }` -/
  | guard (k : Nat) (d : Data) (p : Prog)
  /-- `{ Annotation::Guard g(a_k.set(d)); p }` -/
  | guardSet (k : Nat) (d : Data) (p : Prog)

/-- attributes by name, and the objects in scope, innermost first -/
structure St where
  db : DB
  anns : List AnnImpl
  loops : List LoopImpl

/-- the runtime calls a program makes on thread `th` -/
def exec (E : Env) (th : Nat) : Prog → St → St × List Op
  | .skip, s => (s, [])
  | .seq p q, s =>
    let (s, o1) := exec E th p s
    let (s, o2) := exec E th q s
    (s, o1 ++ o2)
  | .region n p, s =>
    -- Function / ScopeAnnotation constructor and destructor (Annotation.cpp:29-49)
    let (s, o) := exec E th p s
    (s, .begin th E.region (.str n) :: (o ++ [.endR th E.region]))
  | .loop n p, s =>
    let (db, l, o1) := LoopImpl.ctor E th s.db n
    let (s, o2) := exec E th p { s with db := db, loops := l :: s.loops }
    match s.loops with
    | [] => (s, o1 ++ o2)
    | l :: ls => ({ s with loops := ls }, o1 ++ o2 ++ (l.dtor E th).2)
  | .loopEnd n p q, s =>
    let (db, l, o1) := LoopImpl.ctor E th s.db n
    let (s, o2) := exec E th p { s with db := db, loops := l :: s.loops }
    match s.loops with
    | [] => (s, o1 ++ o2)
    | l :: ls =>
      let (l, o3) := l.end_ E th
      let (s, o4) := exec E th q { s with loops := l :: ls }
      match s.loops with
      | [] => (s, o1 ++ o2 ++ o3 ++ o4)
      | l :: ls => ({ s with loops := ls }, o1 ++ o2 ++ o3 ++ o4 ++ (l.dtor E th).2)
  | .iter k i p, s =>
    -- Loop::Iteration constructor and destructor (Annotation.cpp:73-81)
    match s.loops[k]? with
    | none => (s, [])
    | some l =>
      let (s, o) := exec E th p s
      (s, .begin th l.iter (Val.ofInt i) :: (o ++ [.endR th l.iter]))
  | .declAnn n opt metas p, s =>
    let (s, o) := exec E th p { s with anns := AnnImpl.ctor s.db n opt metas :: s.anns }
    ({ s with anns := s.anns.tail }, o)
  | .annot k d p, s | .guard k d p, s =>
    match s.anns[k]? with
    | none => (s, [])
    | some a =>
      let (db, a, o1) := a.begin E th s.db d
      let (s, o2) := exec E th p { s with db := db, anns := s.anns.set k a }
      (s, o1 ++ o2 ++ ((s.anns[k]?).map (AnnImpl.end_ th)).getD [])
  | .guardSet k d p, s =>
    match s.anns[k]? with
    | none => (s, [])
    | some a =>
      let (db, a, o1) := a.set E th s.db d
      let (s, o2) := exec E th p { s with db := db, anns := s.anns.set k a }
      (s, o1 ++ o2 ++ ((s.anns[k]?).map (AnnImpl.end_ th)).getD [])

end Verif.Annot
