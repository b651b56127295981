import Verif.Cali.RoundTrip
/-!
# The Python reader

Model of `/repo/python/caliper-reader/caliperreader/{caliperstreamreader,metadatadb,caliperreader}.py`: reading a `.cali` file
into a list of dictionaries.

A raised exception (`ReaderError`, `KeyError`, `IndexError`, `TypeError`, `ValueError`, `StopIteration`, …) aborts the reading and
is the outcome `none`.  Simplifications: text is a list of bytes (a `.cali` file written by the library is ASCII); carriage
returns, which the library never writes, are not treated as line ends; a negative id raises; the dictionary each node caches
(`Node.record`, `Node.attribute_ob`) is recomputed, and a parent is an id, not an object: both agree as long as a file does not
define an id a second time after it was used (C26).
-/
namespace Verif.Py
open Verif Verif.Cali

/-- `Node.data` (`metadatadb.py:11-22`): a text read from the file, or one of the tuples of `MetadataDB.types`
(`metadatadb.py:233-244`) -/
inductive Data where
  | text (s : List Byte)
  | pair (k : Nat) (s : List Byte)
  deriving DecidableEq, Repr

/-- `Node` (`metadatadb.py:6-23`): attribute id, data, parent -/
structure PNode where
  attr : Nat
  data : Data
  parent : Option Nat
  deriving DecidableEq, Repr

/-- value of a record's dictionary: one datum or a list -/
inductive PVal where
  | one (d : Data)
  | many (ds : List Data)
  deriving DecidableEq, Repr

/-- `dict.__setitem__`: keeps the position of an existing key -/
def dset {α β : Type} [DecidableEq α] (d : List (α × β)) (k : α) (v : β) : List (α × β) :=
  match d with
  | [] => [(k, v)]
  | (a, b) :: l => if a = k then (a, v) :: l else (a, b) :: dset l k v

/-- `dict.update` -/
def dupdate {α β : Type} [DecidableEq α] (d e : List (α × β)) : List (α × β) := e.foldl (fun d p => dset d p.1 p.2) d

/-- a record as delivered to the user -/
abbrev Dict := List (Data × PVal)

/-- `MetadataDB` (`metadatadb.py:228-292`): nodes by id, `attributes` (name to attribute, given by its node id) and
`attributes_by_id` (name and properties) -/
structure PyDB where
  nodes : List (Nat × PNode)
  names : List (Data × Nat)
  attrs : List (Nat × (Data × Int))
  deriving DecidableEq, Repr

/-- `CaliperStreamReader` with the records collected by `CaliperReader._add_record` (`caliperstreamreader.py:20-22`,
`caliperreader.py:24-29`) -/
structure PyState where
  db : PyDB
  globals : Dict
  records : List Dict
  deriving DecidableEq, Repr

/-! ## one line -/

/-- characters `str.strip()` removes, among the ASCII ones -/
def pySpace (c : Byte) : Bool := c = 32 ∨ (9 ≤ c.toNat ∧ c.toNat ≤ 13) ∨ (28 ≤ c.toNat ∧ c.toNat ≤ 31)

/-- `str.strip()` -/
def strip (s : List Byte) : List Byte := ((s.dropWhile pySpace).reverse.dropWhile pySpace).reverse

/-- the key-list dictionary of a line -/
abbrev RawRec := List (List Byte × List (List Byte))

/-- `result[entry[0]] = entry[1:]` (`caliperstreamreader.py:142-143`); `entry` is never empty there -/
def put (r : RawRec) : List (List Byte) → RawRec
  | [] => r
  | k :: vs => dset r k vs

/-- the loop of `_read_cali_record` (`caliperstreamreader.py:127-157`) -/
def scan : List Byte → RawRec → List (List Byte) → List Byte → Option RawRec
  | [], r, e, s => if s = [] then some r else some (put r (e ++ [s]))
  | c :: cs, r, e, s =>
    if c = ch '\\' then
      match cs with
      | [] => none
      | x :: cs' => scan cs' r e (s ++ [if x = ch 'n' then ch '\n' else x])
    else if c = ch ',' then scan cs (put r (e ++ [s])) [] []
    else if c = ch '=' then scan cs r (e ++ [s]) []
    else scan cs r e (s ++ [c])

/-- `_read_cali_record` (`caliperstreamreader.py:108-159`) -/
def readRecord (line : List Byte) : Option RawRec := scan (strip line) [] [] []

/-- `int(str)`: optional sign and decimal digits.  Simplification: underscores and surrounding blanks raise -/
def pyInt (s : List Byte) : Option Int :=
  let (neg, d) := sign s
  let (v, k) := digitsVal 10 d 0 0
  if k = 0 ∨ k ≠ d.length then none else some (if neg then -(v : Int) else v)

/-- `int(str)` used as an id -/
def pyNat (s : List Byte) : Option Nat :=
  match pyInt s with
  | some (.ofNat n) => some n
  | _ => none

/-! ## the metadata database -/

/-- `MetadataDB.types` (`metadatadb.py:233-244`) -/
def pyTypes (k : Nat) : Data := .pair k (type2string k)

/-- `MetadataDB.__init__` (`metadatadb.py:231-279`) -/
def PyDB.init : PyDB where
  nodes :=
    [(0, ⟨9, pyTypes 1, none⟩), (1, ⟨9, pyTypes 2, none⟩), (2, ⟨9, pyTypes 3, none⟩), (3, ⟨9, pyTypes 4, none⟩),
     (4, ⟨9, pyTypes 5, none⟩), (5, ⟨9, pyTypes 6, none⟩), (6, ⟨9, pyTypes 7, none⟩), (7, ⟨9, pyTypes 8, none⟩),
     (8, ⟨8, .text (str "cali.attribute.name"), some 3⟩), (9, ⟨8, .text (str "cali.attribute.type"), some 7⟩),
     (10, ⟨8, .text (str "cali.attribute.prop"), some 1⟩), (11, ⟨9, pyTypes 9, none⟩)]
  names := [(.text (str "cali.attribute.name"), 8), (.text (str "cali.attribute.type"), 9), (.text (str "cali.attribute.prop"), 10)]
  attrs := [(8, .text (str "cali.attribute.name"), 0), (9, .text (str "cali.attribute.type"), 0),
    (10, .text (str "cali.attribute.prop"), 0)]

/-- `Node.get` (`metadatadb.py:31-48`) by attribute id: the outer `none` stands for an endless loop on cyclic nodes -/
def PyDB.get (db : PyDB) (a : Nat) : Nat → Option Nat → Option (Option Data)
  | _, none => some none
  | 0, some _ => none
  | fuel + 1, some i =>
    match lookup i db.nodes with
    | none => some none     -- not reached: parents are nodes
    | some n => if n.attr = a then some (some n.data) else db.get a fuel n.parent

/-- `Node.get` on a node -/
def PyDB.getNode (db : PyDB) (a : Nat) (i : Nat) : Option (Option Data) := db.get a (db.nodes.length + 1) (some i)

/-- `Attribute.__init__` (`metadatadb.py:123-127`): the properties; a node without parent raises -/
def PyDB.mkProp (db : PyDB) (n : PNode) : Option Int :=
  match n.parent with
  | none => none
  | some p =>
    match db.getNode 10 p with
    | none => none
    | some none => some 0
    | some (some (.text t)) => pyInt t
    | some (some (.pair _ _)) => none

/-- `(self.prop & (1 << k)) != 0` (`metadatadb.py:156-193`), Python integers being unbounded two's complement numbers -/
def hasBit (prop : Int) (k : Nat) : Bool := (prop / 2 ^ k) % 2 ≠ 0

/-- `MetadataDB.import_node` (`metadatadb.py:281-292`) -/
def PyDB.importNode (db : PyDB) (id attr : Nat) (data : List Byte) (parent : Nat) : Option PyDB :=
  let n : PNode := ⟨attr, .text data, none⟩
  let nodes := dset db.nodes id n
  let n : PNode := if (lookup parent nodes).isSome then { n with parent := some parent } else n
  let nodes := dset nodes id n
  let db := { db with nodes := nodes }
  if attr = 8 then
    match db.mkProp n with
    | none => none
    | some p => some { db with names := dset db.names n.data id, attrs := dset db.attrs id (n.data, p) }
  else some db

/-- `Node.attribute()` (`metadatadb.py:50-56`): name and properties of the attribute object -/
def PyDB.attribute (db : PyDB) (a : Nat) : Option (Data × Int) :=
  match lookup a db.nodes with
  | none => none
  | some n => (db.mkProp n).map fun p => (n.data, p)

/-- the key `'path'` -/
def pathKey : Data := .text (str "path")

/-- the new value under an attribute's name (`metadatadb.py:88-95`) -/
def addVal : Option PVal → Data → PVal
  | none, x => .one x
  | some (.many l), x => .many (l ++ [x])
  | some (.one v), x => .many [v, x]

/-- the new list under `'path'` (`metadatadb.py:97-98`); a value that is not a list raises `TypeError` -/
def addPath : Option PVal → Data → Option PVal
  | none, x => some (.many [x])
  | some (.many l), x => some (.many (l ++ [x]))
  | some (.one _), _ => none

/-- `Node._expand` (`metadatadb.py:83-98`) -/
def PyDB.expandOne (db : PyDB) (d : Dict) (n : PNode) : Option Dict :=
  match db.attribute n.attr with
  | none => none
  | some (key, prop) =>
    if hasBit prop 7 then some d
    else
      let d := dset d key (addVal (lookup key d) n.data)
      if hasBit prop 8 then (addPath (lookup pathKey d) n.data).map (dset d pathKey)
      else some d

/-- the list of nodes of `Node._recursive_expand` (`metadatadb.py:67-81`), root first -/
def PyDB.chain (db : PyDB) : Nat → Option Nat → Option (List PNode)
  | _, none => some []
  | 0, some _ => none
  | fuel + 1, some i =>
    match lookup i db.nodes with
    | none => none
    | some n => (db.chain fuel n.parent).map (· ++ [n])

/-- `expandOne` over a list of nodes -/
def PyDB.expandAll (db : PyDB) : Dict → List PNode → Option Dict
  | d, [] => some d
  | d, n :: ns => match db.expandOne d n with
    | none => none
    | some d => db.expandAll d ns

/-- `Node.expand()` (`metadatadb.py:58-81`) -/
def PyDB.expand (db : PyDB) (i : Nat) : Option Dict :=
  match db.chain (db.nodes.length + 1) (some i) with
  | none => none
  | some ns => db.expandAll [] ns

/-! ## records -/

/-- `_process_node_record` (`caliperstreamreader.py:83-89`) -/
def PyDB.processNode (db : PyDB) (r : RawRec) : Option PyDB := do
  let parent ← match lookup (str "parent") r with
    | some ps => (do pyNat (← ps.head?))
    | none => some invN
  let id ← pyNat (← (← lookup (str "id") r).head?)
  let attr ← pyNat (← (← lookup (str "attr") r).head?)
  let data ← ((lookup (str "data") r).getD [[]]).head?
  db.importNode id attr data parent

/-- the references of `_expand_record` (`caliperstreamreader.py:95-97`) -/
def PyDB.expandRefs (db : PyDB) : Dict → List (List Byte) → Option Dict
  | d, [] => some d
  | d, r :: rs => match pyNat r with
    | none => none
    | some i => match lookup i db.nodes with
      | none => none
      | some _ => match db.expand i with
        | none => none
        | some e => db.expandRefs (dupdate d e) rs

/-- the immediate entries of `_expand_record` (`caliperstreamreader.py:99-103`) -/
def PyDB.expandImms (db : PyDB) : Dict → List (List Byte × List Byte) → Option Dict
  | d, [] => some d
  | d, (a, v) :: es => match pyNat a with
    | none => none
    | some i => match lookup i db.attrs with
      | none => none
      | some (name, prop) => db.expandImms (if hasBit prop 7 then d else dset d name (.one (.text v))) es

/-- `_expand_record` (`caliperstreamreader.py:92-105`) -/
def PyDB.expandRecord (db : PyDB) (r : RawRec) : Option Dict :=
  match db.expandRefs [] ((lookup (str "ref") r).getD []) with
  | none => none
  | some d =>
    match lookup (str "attr") r, lookup (str "data") r with
    | some as, some vs => db.expandImms d (as.zip vs)
    | _, _ => some d

/-- `_process` (`caliperstreamreader.py:67-80`); `want`: a callback for the records was given -/
def PyState.process (want : Bool) (st : PyState) (line : List Byte) : Option PyState :=
  match readRecord line with
  | none => none
  | some r =>
    match lookup (str "__rec") r with
    | none => none
    | some ks => match ks.head? with
      | none => none
      | some kind =>
        if kind = str "node" then (st.db.processNode r).map fun db => { st with db := db }
        else if kind = str "ctx" ∧ want then
          (st.db.expandRecord r).map fun d => { st with records := st.records ++ [d] }
        else if kind = str "globals" then (st.db.expandRecord r).map fun d => { st with globals := d }
        else some st

/-- `for line in f: self._process(line, …)` (`caliperstreamreader.py:40-46`) -/
def PyState.lines (want : Bool) : PyState → List (List Byte) → Option PyState
  | st, [] => some st
  | st, l :: ls => match st.process want l with
    | none => none
    | some st => PyState.lines want st ls

/-- a new reader -/
def PyState.init : PyState := ⟨.init, [], []⟩

/-- `CaliperStreamReader.read` (`caliperstreamreader.py:25-46`).  The line ends, which Python keeps, are removed by `strip`
anyway -/
def pyRead (want : Bool) (file : List Byte) : Option PyState := PyState.init.lines want (splitLines file [])

/-- `read_caliper_contents` (`caliperreader.py:73-91`): records and globals -/
def readContents (file : List Byte) : Option (List Dict × Dict) := (pyRead true file).map fun s => (s.records, s.globals)

/-- `read_caliper_globals` (`caliperreader.py:94-111`) -/
def readGlobals (file : List Byte) : Option Dict := (pyRead false file).map (·.globals)

/-- `Attribute.attribute_type()` (`metadatadb.py:151-154`): element 1 of the tuple, or of the text -/
def PyDB.attrType (db : PyDB) (a : Nat) : Option (List Byte) :=
  match db.getNode 9 a with
  | some (some (.pair _ s)) => some s
  | some (some (.text t)) => t[1]?.map ([·])
  | _ => none

end Verif.Py
