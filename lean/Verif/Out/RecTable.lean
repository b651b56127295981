import Verif.Query.Pad

/-! # Printing one record as a table

Model of `src/reader/SnapshotTableFormatter.cpp`, which prints the global values above tables and trees. What is read from the attribute and the value of a node or
entry — the name, whether the type is a number (double, int, uint), the value's text — is given. -/

namespace Verif.RecTable
open Verif Verif.Cali Verif.Query.Fmt

abbrev Str := List Byte

/-- `EntryInfo` (SnapshotTableFormatter.cpp:15-19) -/
structure Item where
  key : Str
  val : Str
  right : Bool
deriving DecidableEq, Repr

/-- an entry of a record: a reference to a node, given by the nodes from there up to (not including) the root, or an immediate value; an empty entry is `ref []` -/
inductive Ent where
  | ref (path : List Item)
  | imm (i : Item)
deriving DecidableEq, Repr

/-- `RecordInfo` (SnapshotTableFormatter.cpp:21-24, 43) -/
structure Info where
  entries : List Item
  maxKey : Nat
  maxRight : Nat
deriving DecidableEq, Repr

/-- `RecordInfo::add` (SnapshotTableFormatter.cpp:26-41) -/
def Info.add (s : Info) (i : Item) : Info :=
  { entries := s.entries ++ [i], maxKey := max s.maxKey i.key.length, maxRight := if i.right then max s.maxRight i.val.length else s.maxRight }

/-- one turn of the loop in `unpack_record` (SnapshotTableFormatter.cpp:50-57) -/
def Info.ent (s : Info) : Ent → Info
  | .ref p => p.foldl Info.add s
  | .imm i => s.add i

/-- `unpack_record` (SnapshotTableFormatter.cpp:46-60) -/
def unpack (l : List Ent) : Info := l.foldl Info.ent ⟨[], 0, 0⟩

/-- one turn of the loop in `write_record_data` (SnapshotTableFormatter.cpp:72-82), without the newline -/
def line (s : Info) (e : Item) : Str :=
  let kw := min s.maxKey 24
  padRight (clampStr e.key kw) kw ++ str ": " ++ if e.right then padLeft e.val s.maxRight else clampStr e.val 52

/-- the loop: `count` tells whether this is the first turn -/
def writeLoop (s : Info) : Nat → List Item → Str
  | _, [] => []
  | count, e :: l => (if count > 0 then str "\n" else []) ++ line s e ++ writeLoop s (count + 1) l

/-- `format_record_as_table` (SnapshotTableFormatter.cpp:62-104) -/
def format (l : List Ent) : Str := writeLoop (unpack l) 0 (unpack l).entries ++ str "\n"

end Verif.RecTable
