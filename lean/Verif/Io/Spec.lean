import Verif.Io.Model
import Mathlib.Data.List.Infix
/-!
# Specification of the io service

Independent of the mount tree, the file registry and the callback arrays: which mount a file is on, which file a descriptor refers to, and what is to be recorded for a call.
-/
namespace Verif.Io
open Verif

/-- the mount a file is on: the longest mount point of the table that is a prefix of its path -/
structure Governs (table : List (Path × Str)) (p : Path) (m : Path) (fs : Str) : Prop where
  listed : (m, fs) ∈ table
  above : m <+: p
  longest : ∀ x ∈ table, x.1 <+: p → x.1.length ≤ m.length

/-- what is to be recorded for a file, a pipe or something else -/
inductive Place (table : List (Path × Str)) : Target → Where → Prop where
  | file (p m : Path) (fs : Str) (h : Governs table p m fs) : Place table (.file p) ⟨some fs, some m⟩
  | pipe (name : Str) : Place table (.pipe name) ⟨none, some [name]⟩
  | other : Place table .other ⟨none, none⟩

/-- A table of mounts whose directories are themselves below listed mounts, one level at a time: each entry is the root, or its directory is the root or
an earlier entry; no entry is listed twice, or has the name of the directory it is in -/
structure Tidy (table : List (Path × Str)) : Prop where
  step : ∀ a x b, table = a ++ x :: b → x.1 ≠ [] →
    (x.1.dropLast = [] ∨ x.1.dropLast ∈ a.map Prod.fst) ∧ x.1 ∉ a.map Prod.fst ∧ x.1.dropLast.getLast? ≠ x.1.getLast?

/-- a path that is below a mount other than the root, and not itself a mount point -/
def Below (table : List (Path × Str)) (p : Path) : Prop := p ∉ table.map Prod.fst ∧ ∃ x ∈ table, x.1 ≠ [] ∧ x.1 <+: p

/-- the program's files: what each descriptor refers to -/
abbrev Fds := Nat → Option Target

/-- the effect of a call on the descriptors -/
def Fds.after (f : Fds) : Step → Fds
  | .opn _ fd t => fun i => if (i : Int) = fd then some t else f i
  | .close fd | .fclose fd => fun i => if i = fd then none else f i
  | .unseen fd t => fun i => if i = fd then some t else f i
  | _ => f

/-- the regions and byte counts of one call, for the channels `cs` -/
def callEvents (cs : List Nat) (k : Kind) (w : Where) (bytes : Nat) : List Ev :=
  cs.map (fun c => Ev.begin c k w) ++ cs.flatMap fun c => (if bytes = 0 then [] else [Ev.snap c k bytes]) ++ [Ev.fin c]

/-- what is to be recorded in a history: channels that have the io service, descriptors, history, records -/
inductive Expect (table : List (Path × Str)) : List Nat → Fds → List Step → List Ev → Prop where
  | nil (cs f) : Expect table cs f [] []
  /-- a further channel -/
  | init (cs f c l e) (h : Expect table (cs ++ [c]) f l e) : Expect table cs f (.init c :: l) e
  /-- `open`: a metadata operation on the mount of the file -/
  | opn (cs) (f : Fds) (p fd t w l e) (hw : Place table (.file p) w) (h : Expect table cs (f.after (.opn p fd t)) l e) :
      Expect table cs f (.opn p fd t :: l) (callEvents cs .metadata w 0 ++ e)
  | close (cs) (f : Fds) (fd t w l e) (ht : f fd = some t) (hw : Place table t w) (h : Expect table cs (f.after (.close fd)) l e) :
      Expect table cs f (.close fd :: l) (callEvents cs .metadata w 0 ++ e)
  | fclose (cs) (f : Fds) (fd t w l e) (ht : f fd = some t) (hw : Place table t w) (h : Expect table cs (f.after (.fclose fd)) l e) :
      Expect table cs f (.fclose fd :: l) (callEvents cs .metadata w 0 ++ e)
  /-- `read`, `write`: a negative result is an error, no bytes -/
  | rw (cs) (f : Fds) (k fd ret t w l e) (hk : k = .read ∨ k = .write) (ht : f fd = some t) (hw : Place table t w) (h : Expect table cs f l e) :
      Expect table cs f (.rw k fd ret :: l) (callEvents cs k w ret.toNat ++ e)
  | frw (cs) (f : Fds) (k fd size ret t w l e) (hk : k = .read ∨ k = .write) (ht : f fd = some t) (hw : Place table t w) (h : Expect table cs f l e) :
      Expect table cs f (.frw k fd size ret :: l) (callEvents cs k w (ret * size) ++ e)
  | unseen (cs) (f : Fds) (fd t l e) (h : Expect table cs (f.after (.unseen fd t)) l e) : Expect table cs f (.unseen fd t :: l) e

/-- the descriptors when the first channel starts -/
def stdFds (O : Sys) : Fds := fun i => O.std[i]?

/-- a file that the service attributes rightly: nothing, a pipe, or a file below a mount other than the root -/
def Target.Good (table : List (Path × Str)) : Target → Prop
  | .file p => Below table p
  | _ => True

/-- calls the service records rightly -/
def Step.Good (table : List (Path × Str)) : Step → Prop
  | .init _ => True
  | .finalize _ => False
  | .opn p _ t => Below table p ∧ t.Good table
  | .rw _ _ ret => 0 ≤ ret ∧ ret < 2 ^ 63
  | .unseen _ _ => False
  | _ => True

end Verif.Io
