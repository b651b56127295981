import Verif.Query.Agg
/-!
# Region profiles

Model of `/repo/src/reader/{Flat,Nested}{Exclusive,Inclusive}RegionProfile.cpp`: the classes behind
`RegionProfile::exclusive_region_times` / `inclusive_region_times` (`/repo/src/caliper/RegionProfile.cpp:38-80`, which multiply
the results with a constant; that is left out) and behind the region totals of the Python and loop reports.

A context tree node is the list of (attribute, value) pairs from the node up to the root, without the root node
(whose attribute is `CALI_INV_ID`: all the loops stop there).  Arithmetic on `double` is a parameter: the theorems hold for any
addition.  `std::map` is a list of pairs with distinct keys (the order of the keys is not modelled).
-/
namespace Verif.Query.Prof
open Verif Verif.Cali Verif.Query

/-- What a profile object works with: `double` addition, `Variant::to_double`, `Variant::to_string`, `db.get_attribute(id).is_nested()`,
and the ids of `metric_attr` and `region_attr` (`CALI_INV_ID` for an invalid attribute:
`FlatExclusiveRegionProfile.cpp:53-63` and the same lines in the other files) -/
structure Cfg (M : Type) where
  add : M → M → M
  zero : M
  toD : Val → M
  str : Val → List Byte
  nested : Nat → Bool
  metric : Nat
  region : Nat

/-- data members (`FlatExclusiveRegionProfile.cpp:14-19`, same in the other files) -/
structure St (M : Type) where
  prof : List (List Byte × M)
  totalReg : M
  total : M

variable {M : Type}

/-- `reg_profile[k] += v` on a `std::map<std::string, double>`: a new element starts at 0 -/
def addTo (C : Cfg M) : List (List Byte × M) → List Byte → M → List (List Byte × M)
  | [], k, v => [(k, C.add C.zero v)]
  | (k', x) :: r, k, v => if k' = k then (k', C.add x v) :: r else (k', x) :: addTo C r k v

/-- `db.get_attribute(id).is_nested()`; an invalid attribute is not nested -/
def Cfg.isNested (C : Cfg M) (a : Nat) : Bool := decide (a ≠ invN) && C.nested a

/-- `is_target_reg` (e.g. `FlatInclusiveRegionProfile.cpp:46`) -/
def Cfg.target (C : Cfg M) (a : Nat) : Bool := if C.region = invN then C.isNested a else decide (C.region = a)

/-- `Entry::is_reference` (`Entry.h`): there is a node and it is not an attribute node -/
def isRef : QEnt → Bool
  | .ref [] => false
  | .ref _ => true
  | .imm _ _ => false

/-- the nodes from a reference entry's node up to the root -/
def nodesOf : QEnt → List (Nat × Val)
  | .ref p => p
  | .imm _ _ => []

/-- the metric value of a record: the first entry with the metric attribute (`FlatExclusiveRegionProfile.cpp:25-32`) -/
def Cfg.metricOf (C : Cfg M) (rec : List QEnt) : Option M :=
  (rec.find? fun e => decide (e.attr = C.metric)).map fun e => C.toD e.value

/-- `FlatExclusiveRegionProfile::process_record` (`FlatExclusiveRegionProfile.cpp:21-50`) -/
def flatExcl (C : Cfg M) (s : St M) (rec : List QEnt) : St M :=
  match C.metricOf rec with
  | none => s
  | some val =>
    let s := { s with total := C.add s.total val }
    match rec.find? (fun e => if C.region = invN then C.isNested e.attr else decide (e.attr = C.region)) with
    | none => s
    | some e => { s with totalReg := C.add s.totalReg val, prof := addTo C s.prof (C.str e.value) val }

/-- the inner loop of `FlatInclusiveRegionProfile::process_record` (`FlatInclusiveRegionProfile.cpp:44-52`): map and `have_reg_entry` -/
def flatInclNodes (C : Cfg M) (val : M) : List (Nat × Val) → List (List Byte × M) × Bool → List (List Byte × M) × Bool
  | [], acc => acc
  | (a, v) :: up, (p, have_) =>
    if C.target a then flatInclNodes C val up (addTo C p (C.str v) val, true) else flatInclNodes C val up (p, have_)

/-- `FlatInclusiveRegionProfile::process_record` (`FlatInclusiveRegionProfile.cpp:21-57`) -/
def flatIncl (C : Cfg M) (s : St M) (rec : List QEnt) : St M :=
  match C.metricOf rec with
  | none => s
  | some val =>
    let s := { s with total := C.add s.total val }
    let r := rec.foldl (fun acc e => if isRef e then flatInclNodes C val (nodesOf e) acc else acc) (s.prof, false)
    { s with prof := r.1, totalReg := if r.2 then C.add s.totalReg val else s.totalReg }

/-- `path.append(path.empty() ? "" : "/").append(name)` (`NestedExclusiveRegionProfile.cpp:31`) -/
def appendPath (path name : List Byte) : List Byte := path ++ (if path = [] then [] else [ch '/']) ++ name

/-- `get_path` (`NestedExclusiveRegionProfile.cpp:16-34`) -/
def getPath (C : Cfg M) : List (Nat × Val) → List Byte
  | [] => []
  | (a, v) :: up => if C.target a then appendPath (getPath C up) (C.str v) else getPath C up

/-- the loop of `NestedExclusiveRegionProfile::process_record` (`NestedExclusiveRegionProfile.cpp:63-75`): the entry it stops at -/
def Cfg.firstTarget (C : Cfg M) (rec : List QEnt) : Option QEnt := rec.find? fun e => isRef e && C.target e.attr

/-- `NestedExclusiveRegionProfile::process_record` (`NestedExclusiveRegionProfile.cpp:46-76`) -/
def nestExcl (C : Cfg M) (s : St M) (rec : List QEnt) : St M :=
  match C.metricOf rec with
  | none => s
  | some val =>
    let s := { s with total := C.add s.total val }
    match C.firstTarget rec with
    | none => s
    | some e => { s with totalReg := C.add s.totalReg val, prof := addTo C s.prof (getPath C (nodesOf e)) val }

/-- `recursive_update` (`NestedInclusiveRegionProfile.cpp:16-42`): map and returned path -/
def recUpdate (C : Cfg M) (val : M) (prof : List (List Byte × M)) : List (Nat × Val) → List (List Byte × M) × List Byte
  | [] => (prof, [])
  | (a, v) :: up =>
    let r := recUpdate C val prof up
    if C.target a then
      let path := appendPath r.2 (C.str v)
      (addTo C r.1 path val, path)
    else r

/-- the loop of `NestedInclusiveRegionProfile::process_record` (`NestedInclusiveRegionProfile.cpp:72-80`): map and `pathstr` -/
def nestInclLoop (C : Cfg M) (val : M) : List QEnt → List (List Byte × M) → List Byte → List (List Byte × M) × List Byte
  | [], prof, path => (prof, path)
  | e :: es, prof, path =>
    if isRef e then
      let r := recUpdate C val prof (nodesOf e)
      if r.2 = [] then nestInclLoop C val es r.1 r.2 else r
    else nestInclLoop C val es prof path

/-- `NestedInclusiveRegionProfile::process_record` (`NestedInclusiveRegionProfile.cpp:54-84`) -/
def nestIncl (C : Cfg M) (s : St M) (rec : List QEnt) : St M :=
  match C.metricOf rec with
  | none => s
  | some val =>
    let s := { s with total := C.add s.total val }
    let r := nestInclLoop C val rec s.prof []
    { s with prof := r.1, totalReg := if r.2 = [] then s.totalReg else C.add s.totalReg val }

/-- the constructors (`FlatExclusiveRegionProfile.cpp:53-63`): the metric and region attributes are looked up by name
(`db.get_attribute(name)`, an invalid attribute if there is none); an empty region name is not looked up -/
def Cfg.make (C : Cfg M) (lookup : List Byte → Option Nat) (metricName regionName : List Byte) : Cfg M :=
  { C with metric := (lookup metricName).getD invN,
           region := if regionName = [] then invN else (lookup regionName).getD invN }

/-- a new profile object (`double total = 0.0`, …) -/
def St.init (C : Cfg M) : St M := ⟨[], C.zero, C.zero⟩

/-- a stream of records through a profile object; `result()` returns its members -/
def run (C : Cfg M) (f : Cfg M → St M → List QEnt → St M) (recs : List (List QEnt)) : St M := recs.foldl (f C) (St.init C)

/-- `std::map::find` on the result -/
def find (p : List (List Byte × M)) (k : List Byte) : Option M := (p.find? fun x => decide (x.1 = k)).map (·.2)

end Verif.Query.Prof
