import Verif.Blackboard.Model
/-!
# The io service

Model of `/repo/src/services/io/IOService.cpp` and of the library below it, `/repo/src/services/io/CurIOus/src` (`curious.c`, `wrappers.c`, `callbacks.c`,
`dynamic_array.c`, `file_registry.c`, `mount_tree.c`).

A step is the start or end of a channel with the io service, or an I/O call of the program together with what the operating system returned.  Calls are taken one at
a time.

Simplified: paths are lists of components (what `strtok(path, "/")` gives; `[]` is "/"); a path passed to a call is given as the absolute path it resolves to;
`/proc/mounts` is the list of its mount points and file system types; each channel registers its six callbacks together, so that the six arrays of callbacks are one list;
only `open`, `close`, `read`, `write`, `fopen`, `fclose`, `fread`, `fwrite` are modelled, the other wrappers are of the same forms; channels are active; buffers for
paths are long enough.
-/
namespace Verif.Io
open Verif

/-- strings -/
abbrev Str := List Nat
/-- components of a path -/
abbrev Path := List Str

/-! ## Dynamic arrays -/

/-- `append_to_curious_dynamic_array` (`dynamic_array.c:31-49`) -/
def append {α : Type} (l : List α) (x : α) : List α := l ++ [x]

/-- `remove_from_curious_dynamic_array` (`dynamic_array.c:51-85`); the number of elements is `last_el + 1` -/
def remove {α : Type} (l : List α) (index num : Nat) : List α :=
  let last : Int := l.length - 1
  if (index : Int) > last then l
  else if (num : Int) > last - index then l
  else if num = 0 then l
  else
    let tail := (last - num - index).toNat
    (l.take index ++ (l.drop (index + num)).take tail ++ l.drop (index + tail)).take (l.length - num)

/-- `set_in_curious_dynamic_array` (`dynamic_array.c:87-119`) -/
def setAt {α : Type} (l : List α) (x filler : α) (i : Nat) : List α :=
  let l := l ++ List.replicate (i - l.length) filler
  if i < l.length then l.set i x else l ++ [x]

/-! ## Mounts -/

/-- a node of the mount tree below the root: the names of its ancestors and itself, and the mount point and file system type stored in it -/
structure Node where
  key : Path
  full : Path
  fs : Str
  deriving DecidableEq, Repr

/-- the mount tree: the file system type stored in the root, and the other nodes in the order of their insertion -/
structure Mounts where
  rootFs : Str := []
  nodes : List Node := []
  deriving DecidableEq, Repr

/-- a node with these names -/
def Mounts.has (m : Mounts) (k : Path) : Bool := m.nodes.any fun n => decide (n.key = k)

/-- the loop of `get_mount` (`mount_tree.c:84-119`): the names of the node found, and the last component looked at -/
def getMountL (m : Mounts) (cur : Path) (name : Option Str) : Path → Path × Option Str
  | [] => ([], name)
  | c :: cs => if m.has (cur ++ [c]) then getMountL m (cur ++ [c]) (some c) cs else (cur, some c)

/-- `get_mount` (`mount_tree.c:84-119`) -/
def getMount (m : Mounts) (p : Path) : Path × Option Str := getMountL m [] none p

/-- `add_mount` (`mount_tree.c:121-152`) -/
def addMount (m : Mounts) (x : Path × Str) : Mounts :=
  if x.1 = [] then (if m.rootFs ≠ [] then { m with rootFs := x.2 } else m)
  else
    let g := getMount m x.1
    match g.2 with
    | none => m
    | some name => if g.1.getLast? = some name then m else { m with nodes := m.nodes ++ [⟨g.1 ++ [name], x.1, x.2⟩] }

/-- `curious_init_mount_tree` (`mount_tree.c:34-60`) -/
def initMounts (table : List (Path × Str)) : Mounts := table.foldl addMount {}

/-- the mount point and file system of an operation; `none` is a null pointer -/
structure Where where
  fs : Option Str
  mount : Option Path
  deriving DecidableEq, Repr

/-- `curious_get_filesystem` (`mount_tree.c:154-184`) -/
def getFilesystem (m : Mounts) (p : Path) : Where :=
  let k := (getMount m p).1
  if k = [] then ⟨some m.rootFs, some []⟩
  else match m.nodes.find? (fun n => decide (n.key = k)) with
    | some n => ⟨some n.fs, some n.full⟩
    | none => ⟨some m.rootFs, some []⟩

/-! ## File registry -/

/-- what a file descriptor refers to: a file, a pipe (with its name), or something else (a socket, ...) -/
inductive Target where
  | file (p : Path)
  | pipe (name : Str)
  | other
  deriving DecidableEq, Repr

/-- `curious_register_file_by_fd`, `curious_register_file` (`file_registry.c:38-122`): what is recorded for a descriptor that refers to `t` -/
def record (m : Mounts) : Target → Where
  | .file p => getFilesystem m p
  | .pipe name => ⟨none, some [name]⟩
  | .other => ⟨none, none⟩

/-- `curious_register_file_by_fd` (`file_registry.c:38-75`); `fd` is negative if the call failed -/
def register (m : Mounts) (files : List Where) (fd : Int) (t : Target) : List Where :=
  if fd < 0 then files
  else if fd.toNat < files.length then files.set fd.toNat (record m t) else setAt files (record m t) ⟨none, none⟩ fd.toNat

/-- `curious_deregister_file` (`file_registry.c:124-137`): the mount point stays -/
def deregister (files : List Where) (fd : Nat) : List Where :=
  match files[fd]? with
  | some w => files.set fd { w with fs := none }
  | none => files

/-- the record of a descriptor, as the wrappers use it (`wrappers.c:227-235` and so on) -/
def lookup (files : List Where) (fd : Nat) : Where := (files[fd]?).getD ⟨none, none⟩

/-! ## Callbacks and wrappers -/

/-- `io.region` -/
inductive Kind where
  | read | write | metadata
  deriving DecidableEq, Repr

/-- what happens in Caliper: a channel's callback opens the regions `io.mount.point`, `io.filesystem` and `io.region`, or closes them; a snapshot with `io.bytes.read` or
`io.bytes.written` is pushed to the channel -/
inductive Ev where
  | begin (c : Nat) (k : Kind) (w : Where)
  | snap (c : Nat) (k : Kind) (n : Nat)
  | fin (c : Nat)
  deriving DecidableEq, Repr

/-- the operating system: `/proc/mounts`, and what the standard descriptors refer to -/
structure Sys where
  mounts : List (Path × Str)
  std : List Target
  deriving DecidableEq, Repr

/-- state of the library and the service: `active` and `wrapped` are `active_insts` and `wrapped_apis` (`curious.c:9-11`), `insts` the registered callbacks
(`callbacks.c:7`), each with its channel; `dead`: the channels whose data have been deleted; `bad`: a callback has used deleted data -/
structure St where
  active : Nat := 0
  wrapped : Bool := false
  enabled : Bool := false
  mounts : Mounts := {}
  files : List Where := []
  insts : List Nat := []
  dead : List Nat := []
  bad : Bool := false
  out : List Ev := []

/-- `curious_call_callbacks` (`callbacks.c:76-90`) with `handle_io` (`IOService.cpp:92-122`), before the call -/
def pre (s : St) (k : Kind) (w : Where) : St :=
  { s with out := s.out ++ s.insts.map (fun c => .begin c k w), bad := s.bad || s.insts.any (fun c => decide (c ∈ s.dead)) }

/-- the same, after the call; `n`: the number of bytes as `size_t` -/
def post (s : St) (k : Kind) (n : Nat) : St :=
  { s with
    out := s.out ++ s.insts.flatMap (fun c => (if k ≠ .metadata ∧ n > 0 then [.snap c k n] else []) ++ [.fin c])
    bad := s.bad || s.insts.any (fun c => decide (c ∈ s.dead)) }

/-- `curious_deregister_callbacks` (`callbacks.c:48-74`): the loop over one array; `j` is the position, `block` the length of the block found so far -/
def deregCb (c : Nat) : Nat → Nat → Nat → List Nat → List Nat
  | 0, _, block, l => if block > 0 then remove l (l.length - block) block else l
  | fuel + 1, j, block, l =>
    match l[j]? with
    | none => if block > 0 then remove l (l.length - block) block else l
    | some d =>
      if d = c then deregCb c fuel (j + 1) (block + 1) l
      else if block > 0 then deregCb c fuel (j + 1) 0 (remove l (j - block) block)
      else deregCb c fuel (j + 1) 0 l

/-- steps -/
inductive Step where
  /-- a channel with the io service is made (`init_curious_in_channel`) or finishes (`finalize_curious_in_channel`) -/
  | init (c : Nat)
  | finalize (c : Nat)
  /-- `open`, `fopen`: of the file with path `p`; the result refers to `t` -/
  | opn (p : Path) (fd : Int) (t : Target)
  | close (fd : Nat)
  | fclose (fd : Nat)
  /-- `read`, `write` with the return value -/
  | rw (k : Kind) (fd : Nat) (ret : Int)
  /-- `fread`, `fwrite` with the element size and the return value -/
  | frw (k : Kind) (fd : Nat) (size ret : Nat)
  /-- the descriptor now refers to something else, by a function that is not wrapped (`dup2`, `socket`, `pipe`, ...) -/
  | unseen (fd : Nat) (t : Target)
  deriving DecidableEq, Repr

/-- `curious_init` and the registration of the callbacks (`curious.c:13-32`, `IOService.cpp:124-170`) -/
def initStep (O : Sys) (s : St) (c : Nat) : St :=
  let s := if s.active = 0 then
      let m := initMounts O.mounts
      { s with mounts := m, files := (O.std.zipIdx).foldl (fun f x => register m f x.2 x.1) [], insts := [] }
    else s
  let s := { s with active := s.active + 1 }
  let s := if s.wrapped then s else { s with wrapped := true, enabled := true }
  { s with insts := append s.insts c }

/-- `curious_finalize` and the deletion of the channel's data (`curious.c:34-47`, `IOService.cpp:172-184`) -/
def finalizeStep (s : St) (c : Nat) : St :=
  let s := { s with active := s.active - 1 }
  let s := if s.active = 0 then { s with insts := [], enabled := false, files := [], mounts := {} } else { s with insts := deregCb c s.insts.length 0 0 s.insts }
  { s with dead := c :: s.dead }

/-- one step; wrappers: `wrappers.c:216-375`, `706-735`, `814-853`, `1411-1503` -/
def step (O : Sys) (s : St) : Step → St
  | .init c => initStep O s c
  | .finalize c => finalizeStep s c
  | .opn p fd t =>
    if s.enabled then
      let s := pre s .metadata (getFilesystem s.mounts p)
      post { s with files := register s.mounts s.files fd t } .metadata 0
    else s
  | .close fd => if s.enabled then post (pre s .metadata (lookup s.files fd)) .metadata 0 else s
  | .fclose fd =>
    if s.enabled then
      let w := lookup s.files fd
      post (pre { s with files := deregister s.files fd } .metadata w) .metadata 0
    else s
  | .rw k fd ret => if s.enabled then post (pre s k (lookup s.files fd)) k (Int.toNat (ret % 2 ^ 64)) else s
  | .frw k fd size ret => if s.enabled then post (pre s k (lookup s.files fd)) k (ret * size) else s
  | .unseen _ _ => s

/-- a run -/
def run (O : Sys) (s : St) (l : List Step) : St := l.foldl (step O) s

end Verif.Io
