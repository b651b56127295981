import Verif.Query.Pipeline
import Verif.Query.PreprocSpec
import Verif.Query.AggSpec
/-!
# What a query should report

Everything is stated with one metadata database, the one at the end of the query: LET, WHERE, GROUP BY and AGGREGATE mean what they would
mean if all attributes had been known from the beginning.
-/
namespace Verif.Query.Pipe
open Verif Verif.Cali Verif.Query Verif.Query.Pre

/-- (internal: as `AggOp.meaning`, with the names of the model) the kernel of an operator: its attributes have the documented names -/
def AggOp.cfg (D : PDB) (op : AggOp) : KCfg :=
  mkCfg op (idOr (D.attr op.tgt)) (idOr (D.attr op.drvName)) (idOr (D.attr op.avgName)) (idOr (D.attr op.cntName))

/-- id of the attribute named `n` -/
def idIn (D : PDB) (n : Str) : Nat := match D.attr n with
  | some a => a.id
  | none => invN

/-- what an operator computes, and the names of its result attributes -/
def AggOp.meaning (D : PDB) : AggOp → KCfg
  | .count => .count (idIn D (str "count"))
  | .red .sum n false => .sum (idIn D n) (idIn D (str "sum#" ++ n)) false
  | .red .sum n true => .sum (idIn D n) (idIn D (str "inclusive#" ++ n)) true
  | .red .min n false => .min (idIn D n) (idIn D (str "min#" ++ n)) false
  | .red .min n true => .min (idIn D n) (idIn D (str "imin#" ++ n)) true
  | .red .max n false => .max (idIn D n) (idIn D (str "max#" ++ n)) false
  | .red .max n true => .max (idIn D n) (idIn D (str "imax#" ++ n)) true
  | .avg n => .avg (idIn D n) (idIn D (str "avg.sum#" ++ n)) (idIn D (str "avg#" ++ n)) (idIn D (str "avg.count#" ++ n))

/-- names and types of the attributes an operator creates, for a target attribute of type `t` -/
def AggOp.created (t : AttrType) : AggOp → List (Str × AttrType)
  | .count => [(str "count", .uint)]
  | .red .sum n i => [((if i then str "inclusive#" else str "sum#") ++ n, t)]
  | .red .min n i => [((if i then str "imin#" else str "min#") ++ n, t)]
  | .red .max n i => [((if i then str "imax#" else str "max#") ++ n, t)]
  | .avg n => [(str "avg.sum#" ++ n, t), (str "avg#" ++ n, t), (str "avg.count#" ++ n, .uint)]

/-- the attributes a query may create (`D`: the final database): never nested; named as a LET target, or a result of an aggregation operator,
with the type of the operator's target attribute -/
def QSpec.Result (q : QSpec) (D : PDB) (a : PAttr) : Prop :=
  a.nested = false ∧ ((∃ L ∈ q.lets, a.name = L.target) ∨
    ∃ op ∈ q.aggs, ∃ t, (a.name, a.ty) ∈ op.created t ∧ (op ≠ .count → ∃ x, D.attr op.tgt = some x ∧ x.ty = t))

/-- the groups and results of the query: an attribute is a key if it is named in GROUP BY, or has a metadata attribute that is -/
def QSpec.meaning (E : Env) (q : QSpec) (D : PDB) : QCfg where
  selectAll := q.selectAll
  selectNested := q.selectNested
  isKey := fun i => decide (∃ n ∈ q.keys, ∃ a ∈ D.attr n, a.id = i ∨ findVal (E.meta_ i) a.id ≠ .inv)
  nested := D.isNested
  kernels := q.aggs.map (AggOp.meaning D)
  known := fun i => (D.byId i).isSome
  hash := E.hash

/-- (internal: as `QSpec.meaning`, with the names of the model) the groups of the query: an attribute is a key if it is named in GROUP BY, or has a metadata attribute that is -/
def QSpec.cfg (E : Env) (q : QSpec) (D : PDB) : QCfg where
  selectAll := q.selectAll
  selectNested := q.selectNested
  isKey := fun i => decide (∃ n ∈ q.keys, ∃ a ∈ D.attr n, a.id = i ∨ findVal (E.meta_ i) a.id ≠ .inv)
  nested := D.isNested
  kernels := q.aggs.map (AggOp.cfg D)
  known := fun i => (D.byId i).isSome
  hash := E.hash

/-- the records the reader meets -/
def recordsOf (ps : List PStep) : List (List QEnt) :=
  ps.filterMap fun p => match p with
    | .record r => some r
    | .create .. => none

/-- every attribute of the record is known -/
def IdsOk (D : PDB) (r : List QEnt) : Prop := .ref [] ∉ r ∧ ∀ x ∈ pairs r, x.1 < D.next

/-- the record has a value for attribute `n` -/
def HasAttr (D : PDB) (n : Str) (r : List QEnt) : Prop := ∃ a v, D.attr n = some a ∧ (a.id, v) ∈ pairs r

/-- the attributes with intermediate results of an operator -/
def AggOp.derived (op : AggOp) : List Str :=
  match op with
  | .count => []
  | .red .sum n i => [(if i then str "inclusive#" else str "sum#") ++ n]
  | .red .min n i => [(if i then str "imin#" else str "min#") ++ n]
  | .red .max n i => [(if i then str "imax#" else str "max#") ++ n]
  | .avg n => [str "avg.sum#" ++ n, str "avg.count#" ++ n]

theorem AggOp.derived_eq (op : AggOp) : op.derived = match op with
    | .count => []
    | .red .. => [op.drvName]
    | .avg _ => [op.drvName, op.cntName] := by
  cases op with
  | count => rfl
  | red k n i => cases k <;> cases i <;> rfl
  | avg n => rfl

theorem AggOp.meaning_eq (D : PDB) (op : AggOp) : op.meaning D = op.cfg D := by
  have h : ∀ n, idIn D n = idOr (D.attr n) := by
    intro n
    unfold idIn idOr
    cases D.attr n <;> rfl
  cases op with
  | count => simp only [meaning, h]; rfl
  | red k n i => cases k <;> cases i <;> simp only [meaning, h] <;> rfl
  | avg n => simp only [meaning, h]; rfl

theorem QSpec.meaning_eq (E : Env) (q : QSpec) (D : PDB) : q.meaning E D = q.cfg E D := by
  unfold QSpec.meaning QSpec.cfg
  have : (AggOp.meaning D : AggOp → KCfg) = AggOp.cfg D := by funext op; exact AggOp.meaning_eq D op
  rw [this]

/-- intermediate results for a target attribute are used only where the target attribute is known -/
def DerivedOk (q : QSpec) (D : PDB) (r : List QEnt) : Prop :=
  ∀ op ∈ q.aggs, ∀ n ∈ op.derived, HasAttr D n r → ∃ a, D.attr op.tgt = some a

/-- A well-formed input: records use attributes defined before, without empty entries; the operands of LET are not metadata of other
attributes (C57); intermediate results come with their target attribute. -/
def InputOk (E : Env) (q : QSpec) : QP → List PStep → Prop
  | _, [] => True
  | s, .create n t b :: ps => InputOk E q (s.step E q (.create n t b)) ps
  | s, .record r :: ps =>
    let x := preprocess E.O E.meta_ E.dcmp E.F s.lets s.db r
    IdsOk s.db r ∧ MetaFree E.meta_ x.1 q.lets ∧ DerivedOk q x.1 x.2.2 ∧ InputOk E q (s.step E q (.record r)) ps

/-- metadata of an attribute uses attributes that were there before it -/
def MetaOk (E : Env) (D : PDB) : Prop := ∀ b, ∀ x ∈ E.meta_ b, x.1 < D.next ∨ x.1 ≤ b

end Verif.Query.Pipe
