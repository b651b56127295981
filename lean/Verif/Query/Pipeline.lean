import Verif.Query.Preproc
/-!
# The query pipeline

Model of `QueryProcessor` (`/repo/src/reader/QueryProcessor.cpp`): the records go through the LET definitions (`Verif/Query/Preproc`), the WHERE
filter (`Verif/Query/Select`) and the aggregator (`Verif/Query/Agg`), while the metadata database grows - because the reader meets new
attributes, because LET creates its result attributes, because the aggregation kernels create theirs.  Here the aggregator's attributes
are names, resolved and cached at the time the code does (`Aggregator.cpp:41-108`, `1003-1028`).

Simplified: the kernels `count`, `sum`, `min`, `max`, their inclusive versions, and `avg`; their attributes are looked up (or created) in the
order of the kernels before the kernels run on a record, not in between; the two attribute managers of `AvgKernel` share the cached target attribute.
-/
namespace Verif.Query.Pipe
open Verif Verif.Cali Verif.Query Verif.Query.Pre

/-- the kernels that reduce values -/
inductive Red where
  | sum | min | max
  deriving DecidableEq

/-- an aggregation operator with its arguments (`QuerySpec::AggregationOp`) -/
inductive AggOp where
  | count
  | red (k : Red) (n : Str) (incl : Bool)
  | avg (n : Str)
  deriving DecidableEq

/-- a query (`QuerySpec.h`); `selectAll`, `selectNested`, `keys` are what `configure` makes of GROUP BY (`Aggregator.cpp:952-967`) -/
structure QSpec where
  lets : List LetDef
  conds : List Cond
  selectAll : Bool
  selectNested : Bool
  keys : List Str
  doAgg : Bool
  aggs : List AggOp

/-- prefix of the result attribute (`Aggregator.cpp:262`, `374`, `429`, `474`) -/
def AggOp.drvPfx : AggOp → Str
  | .red .sum _ i => if i then str "inclusive#" else str "sum#"
  | .red .min _ i => if i then str "imin#" else str "min#"
  | .red .max _ i => if i then str "imax#" else str "max#"
  | .avg _ => str "avg.sum#"
  | .count => []

/-- the target attribute -/
def AggOp.tgt : AggOp → Str
  | .red _ n _ => n
  | .avg n => n
  | .count => []

/-- name of the derived attribute -/
def AggOp.drvName (op : AggOp) : Str := op.drvPfx ++ op.tgt

/-- name of the count attribute (`Aggregator.cpp:153`, `476`) -/
def AggOp.cntName : AggOp → Str
  | .avg n => str "avg.count#" ++ n
  | _ => str "count"

/-- name of the average attribute (`Aggregator.cpp:475`) -/
def AggOp.avgName (op : AggOp) : Str := str "avg#" ++ op.tgt

/-- a kernel configuration: the operator and the attributes found or created so far (`CustomAttributeManager`,
`AggregationAttributeManager`, `Aggregator.cpp:41-91`) -/
structure KMgr where
  op : AggOp
  tgt : Option PAttr := none
  drv : Option PAttr := none
  avg : Option PAttr := none
  cnt : Option PAttr := none

/-- `CustomAttributeManager::get` (`Aggregator.cpp:58-63`), and the creation in `derived_attr` -/
def cget (D : PDB) (c : Option PAttr) (n : Str) (t : AttrType) : PDB × PAttr :=
  match c with
  | some a => (D, a)
  | none => D.create n t false

/-- `AggregationAttributeManager::target_attr` (`Aggregator.cpp:81-86`) -/
def target (D : PDB) (c : Option PAttr) (n : Str) : Option PAttr :=
  match c with
  | some a => some a
  | none => D.attr n

/-- the attributes `aggregate` looks up (`Aggregator.cpp:93-96`, `162`, `492-496`) -/
def KMgr.touch (D : PDB) (m : KMgr) : PDB × KMgr :=
  match m.op with
  | .count =>
    let x := cget D m.cnt m.op.cntName .uint
    (x.1, { m with cnt := some x.2 })
  | .red _ _ _ =>
    match target D m.tgt m.op.tgt with
    | none => (D, m)
    | some a =>
      let x := cget D m.drv m.op.drvName a.ty
      (x.1, { m with tgt := some a, drv := some x.2 })
  | .avg _ =>
    match target D m.tgt m.op.tgt with
    | none => (D, m)
    | some a =>
      let x := cget D m.drv m.op.drvName a.ty
      let y := cget x.1 m.cnt m.op.cntName .uint
      (y.1, { m with tgt := some a, drv := some x.2, cnt := some y.2 })

/-- all kernels -/
def touchAll : PDB → List KMgr → PDB × List KMgr
  | D, [] => (D, [])
  | D, m :: ms =>
    let x := m.touch D
    let y := touchAll x.1 ms
    (y.1, x.2 :: y.2)

/-- id of an attribute that may not be known: `Attribute().id()` is `CALI_INV_ID` -/
def idOr (a : Option PAttr) : Nat := (a.map PAttr.id).getD invN

/-- the kernel with attribute ids -/
def mkCfg (op : AggOp) (tgt drv avg cnt : Nat) : KCfg :=
  match op with
  | .count => .count cnt
  | .red .sum _ i => .sum tgt drv i
  | .red .min _ i => .min tgt drv i
  | .red .max _ i => .max tgt drv i
  | .avg _ => .avg tgt drv avg cnt

/-- the kernel as it runs -/
def KMgr.cfg (m : KMgr) : KCfg := mkCfg m.op (idOr m.tgt) (idOr m.drv) (idOr m.avg) (idOr m.cnt)

/-- the attributes `append_result` looks up (`Aggregator.cpp:175-180`, `281-285`, `517-524`) -/
def KMgr.touchRes (D : PDB) (m : KMgr) (s : KSt) : PDB × KMgr :=
  match m.op with
  | .count => if s.count = 0 then (D, m) else m.touch D
  | .red _ _ _ => if s.val = .inv then (D, m) else m.touch D
  | .avg _ =>
    if s.count = 0 then (D, m)
    else match target D m.tgt m.op.tgt with
      | none => (D, m)
      | some a =>
        let x := cget D m.avg m.op.avgName a.ty
        ({ m with tgt := some a, avg := some x.2 } : KMgr).touch x.1

/-- `update_key_attributes` (`Aggregator.cpp:1003-1016`): remaining key strings, found attributes -/
def updKeys (D : PDB) (strs : List Str) (attrs : List PAttr) : List Str × List PAttr :=
  (strs.filter fun n => (D.attr n).isNone, attrs ++ strs.filterMap D.attr)

/-- `is_key` (`Aggregator.cpp:1018-1028`) -/
def isKeyOf (meta_ : Nat → List (Nat × Val)) (attrs : List PAttr) (i : Nat) : Bool :=
  attrs.any fun a => decide (a.id = i) || decide (findVal (meta_ i) a.id ≠ .inv)

/-- the parts of the pipeline that stay fixed -/
structure Env where
  O : POps
  meta_ : Nat → List (Nat × Val)
  dcmp : U64 → U64 → Int
  F : DblFmt
  hash : List KEnt → Nat

/-- the state of a query -/
structure QP where
  db : PDB
  lets : List (LetDef × KState)
  strs : List Str
  attrs : List PAttr
  ks : List KMgr
  agg : QAgg
  out : List (List QEnt)

/-- `QueryProcessorImpl` constructor (`QueryProcessor.cpp:40-47`) -/
def QP.init (q : QSpec) (D : PDB) : QP := ⟨D, configure q.lets, q.keys, [], q.aggs.map fun op => { op := op }, QAgg.init, []⟩

/-- configuration of the aggregator for one record -/
def aggCfg (E : Env) (q : QSpec) (Dn Dk : PDB) (attrs : List PAttr) (ks : List KMgr) : QCfg :=
  ⟨q.selectAll, q.selectNested, isKeyOf E.meta_ attrs, Dn.isNested, ks.map KMgr.cfg, fun i => (Dk.byId i).isSome, E.hash⟩

/-- `aggregator.add` (`Aggregator.cpp:1066-1144`) -/
def aggAdd (E : Env) (q : QSpec) (s : QP) (rec : List QEnt) : QP :=
  let u := updKeys s.db s.strs s.attrs
  let t := touchAll s.db s.ks
  { s with db := t.1, strs := u.1, attrs := u.2, ks := t.2, agg := s.agg.process E.O.toFOps (aggCfg E q s.db t.1 u.2 t.2) rec }

/-- `QueryProcessor::process_record` (`QueryProcessor.cpp:24-32`, `53-56`) -/
def QP.record (E : Env) (q : QSpec) (s : QP) (r : List QEnt) : QP :=
  let x := preprocess E.O E.meta_ E.dcmp E.F s.lets s.db r
  let s := { s with db := x.1, lets := x.2.1 }
  if (x.1.sel E.dcmp E.F).pass q.conds x.2.2 then
    if q.doAgg then aggAdd E q s x.2.2 else { s with out := s.out ++ [x.2.2] }
  else s

/-- reader and query processor -/
def QP.step (E : Env) (q : QSpec) (s : QP) : PStep → QP
  | .create n t b => { s with db := (s.db.create n t b).1 }
  | .record r => s.record E q r

/-- a run -/
def QP.run (E : Env) (q : QSpec) (s : QP) (ps : List PStep) : QP := ps.foldl (QP.step E q) s

/-- `append_result` of the kernels of a group, in order -/
def flushKernels (O : FOps) : PDB → List KMgr → List KSt → PDB × List KMgr × List QEnt
  | D, m :: ms, s :: ss =>
    let x := m.touchRes D s
    let y := flushKernels O x.1 ms ss
    (y.1, x.2 :: y.2.1, x.2.cfg.result O s ++ y.2.2)
  | D, ms, _ => (D, ms, [])

/-- `flush` of the aggregator (`Aggregator.cpp:1150-1162`) -/
def flushEntries (O : FOps) : PDB → List KMgr → List QEntry → PDB × List (List QEnt)
  | D, _, [] => (D, [])
  | D, ms, e :: es =>
    let x := flushKernels O D ms e.kernels
    let y := flushEntries O x.1 x.2.1 es
    (y.1, (e.key.map KEnt.toQ ++ x.2.2) :: y.2)

/-- `QueryProcessor::flush` (`QueryProcessor.cpp:34-38`): the database afterwards and all records the formatter got -/
def QP.flush (E : Env) (s : QP) : PDB × List (List QEnt) :=
  let x := flushEntries E.O.toFOps s.db s.ks (s.agg.entries.drop 1)
  (x.1, s.out ++ x.2)

/-- a whole query: attribute definitions and records as the reader meets them, then flush -/
def query (E : Env) (q : QSpec) (D : PDB) (ps : List PStep) : PDB × List (List QEnt) := ((QP.init q D).run E q ps).flush E

end Verif.Query.Pipe
