/-!
# Blackboard

Model of `/repo/src/caliper/Blackboard.h` and `/repo/src/caliper/Blackboard.cpp`: an open-addressing
hash table with linear probing, backward-shift deletion and two levels of occupancy bitmaps.

Entries are an arbitrary type `V` with a default element standing for `Entry()`.  Keys (`cali_id_t`)
are natural numbers; the all-ones id marks a free slot.  A loop that would run forever is the explicit
outcome `none`.  Simplification: counters (`num_entries`, ...; `ucount` is a 32-bit `int` in the code)
are unbounded naturals.
-/
namespace Verif

/-- `CALI_INV_ID` (`/repo/include/caliper/common/cali_types.h:23`) -/
def invId : Nat := 18446744073709551615

namespace BB

/-- `Nmax` (`Blackboard.h:22`) -/
def Nmax : Nat := 1021

/-- `class Blackboard` (`Blackboard.h:24-44`); slot `i` of `hashtable` is `(key i, val i)` -/
structure State (V : Type) where
  key : Nat → Nat
  val : Nat → V
  toc : Nat → BitVec 32
  toctoc : BitVec 32
  num : Nat
  maxNum : Nat
  skipped : Nat
  ucount : Nat

variable {V : Type} [Inhabited V]

/-- function update (array store) -/
def upd {β : Type} (f : Nat → β) (i : Nat) (x : β) : Nat → β := fun j => if j = i then x else f j

/-- constructor (`Blackboard.h:70-78`) -/
def init : State V :=
  { key := fun _ => invId, val := fun _ => default, toc := fun _ => 0, toctoc := 0,
    num := 0, maxNum := 0, skipped := 0, ucount := 0 }

/-- `while (hashtable[I].key != key && hashtable[I].key != CALI_INV_ID) I = (I + 1) % Nmax`
(`Blackboard.h:50-51`); `fuel` = number of slots still to look at before the loop has come full circle -/
def findLoop (keys : Nat → Nat) (k : Nat) : Nat → Nat → Option Nat
  | 0, _ => none
  | fuel + 1, i => if keys i ≠ k ∧ keys i ≠ invId then findLoop keys k fuel ((i + 1) % Nmax) else some i

/-- `find_existing_entry` (`Blackboard.h:46-54`) -/
def findExisting (s : State V) (k : Nat) : Option Nat := findLoop s.key k Nmax (k % Nmax)

/-- `find_free_slot` (`Blackboard.h:56-64`): the same loop that stops at free slots only -/
def findFree (s : State V) (k : Nat) : Option Nat := findLoop s.key invId Nmax (k % Nmax)

/-- `add` (`Blackboard.cpp:41-60`) -/
def add (s : State V) (k : Nat) (v : V) (incl : Bool) : Option (State V) :=
  (findFree s k).map fun i =>
    if s.num + (Nmax / 10 + 10) > Nmax then { s with skipped := s.skipped + 1 }
    else
      let s := { s with key := upd s.key i k, val := upd s.val i v }
      let s := if incl then
          { s with toc := upd s.toc (i / 32) (s.toc (i / 32) ||| (1#32 <<< (i % 32))),
                   toctoc := s.toctoc ||| (1#32 <<< (i / 32)) }
        else s
      { s with num := s.num + 1, maxNum := max (s.num + 1) s.maxNum }

/-- `get` (`Blackboard.h:80-88`) -/
def get (s : State V) (k : Nat) : Option V :=
  (findExisting s k).map fun i => if s.key i ≠ k then default else s.val i

/-- `set` (`Blackboard.cpp:62-72`) -/
def set (s : State V) (k : Nat) (v : V) (incl : Bool) : Option (State V) :=
  (findExisting s k).bind fun i =>
    (if s.key i = k then some { s with val := upd s.val i v } else add s k v incl).map fun s =>
      { s with ucount := s.ucount + 1 }

/-- the condition of the backward shift (`Blackboard.cpp:88`) -/
def shiftCond (I j k : Nat) : Bool := (j > I && (k ≤ I || k > j)) || (j < I && (k ≤ I && k > j))

/-- the loop of `del` (`Blackboard.cpp:83-92`): hole `I`, cursor `j` -/
def delLoop : Nat → (Nat → Nat) → (Nat → V) → Nat → Nat → Option ((Nat → Nat) × (Nat → V) × Nat)
  | 0, _, _, _, _ => none
  | fuel + 1, key, val, I, j =>
    let j := (j + 1) % Nmax
    if key j = invId then some (key, val, I)
    else
      let k := key j % Nmax
      if shiftCond I j k then delLoop fuel (upd key I (key j)) (upd val I (val j)) j j
      else delLoop fuel key val I j

/-- `del` (`Blackboard.cpp:74-104`) -/
def del (s : State V) (k : Nat) : Option (State V) :=
  (findExisting s k).bind fun i =>
    if s.key i ≠ k then some s
    else
      (delLoop Nmax s.key s.val i i).map fun (key, val, I) =>
        let toc := upd s.toc (I / 32) (s.toc (I / 32) &&& ~~~(1#32 <<< (I % 32)))
        { s with
          key := upd key I invId, val := upd val I default,
          num := s.num - 1, ucount := s.ucount + 1,
          toc := toc,
          toctoc := if toc (I / 32) = 0 then s.toctoc &&& ~~~(1#32 <<< (I / 32)) else s.toctoc }

/-- `exchange` (`Blackboard.cpp:106-120`): new state and returned entry -/
def exchange (s : State V) (k : Nat) (v : V) (incl : Bool) : Option (State V × V) :=
  (findExisting s k).bind fun i =>
    if s.key i = k then
      some ({ s with val := upd s.val i v, ucount := s.ucount + 1 }, s.val i)
    else (add s k v incl).map fun s => ({ s with ucount := s.ucount + 1 }, default)

/-- index of the lowest set bit: `first_high_bit(x) - 1`, i.e. `ffs(x) - 1` (`Blackboard.cpp:32-35`), for `x ≠ 0` -/
def lowBit (x : BitVec 32) : Nat := ((List.range 32).find? (fun i => x.getLsbD i)).getD 32

/-- `while (tmp) { j = first_high_bit(tmp) - 1; tmp &= ~(1 << j); ... }` (`Blackboard.cpp:126-128`, `131-133`):
the bit indices visited, in order. There are at most 32 rounds, one per bit. -/
def bitLoop : Nat → BitVec 32 → List Nat
  | 0, _ => []
  | fuel + 1, x => if x = 0 then [] else lowBit x :: bitLoop fuel (x &&& ~~~(1#32 <<< lowBit x))

/-- `snapshot` (`Blackboard.cpp:122-138`): the slots visited, in order -/
def snapshotSlots (s : State V) : List Nat :=
  (bitLoop 32 s.toctoc).flatMap fun i => (bitLoop 32 (s.toc i)).map fun j => i * 32 + j

/-- `snapshot` (`Blackboard.cpp:122-138`): the entries appended to the record, in order -/
def snapshot (s : State V) : List V := (snapshotSlots s).map s.val

/-- the public operations -/
inductive Op (V : Type) where
  | get (k : Nat)
  | set (k : Nat) (v : V) (incl : Bool)
  | del (k : Nat)
  | exchange (k : Nat) (v : V) (incl : Bool)

/-- one operation; output is what the call returns (`default` for `void`) -/
def step (s : State V) : Op V → Option (State V × V)
  | .get k => (get s k).map fun v => (s, v)
  | .set k v incl => (set s k v incl).map fun s => (s, default)
  | .del k => (del s k).map fun s => (s, default)
  | .exchange k v incl => exchange s k v incl

/-- run a history; outputs in order; `none` = some call never returns -/
def run (s : State V) : List (Op V) → Option (State V × List V)
  | [] => some (s, [])
  | op :: ops => (step s op).bind fun (s, o) => (run s ops).map fun (s, os) => (s, o :: os)

end BB
end Verif
