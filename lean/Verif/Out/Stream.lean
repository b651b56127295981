import Verif.Cali.Text
import Mathlib.Logic.Function.Basic
/-!
# Output streams

Model of `/repo/src/common/OutputStream.cpp`.

Simplified: the file system is a function from names to contents, with a fixed set of names that can be opened (directories are made by
`check_and_create_directory` or not; that is part of "can be opened"); a text is written completely; buffers are flushed (as they are when the program
ends); one stream object is the only writer of its file.  Names are given already expanded (see C72).
-/
namespace Verif.Out
open Verif Verif.Cali

abbrev Str := List Byte

/-- the outside: files, standard output, standard error, streams given by the user -/
structure World where
  file : Str → Option Str
  stdout : Str
  stderr : Str
  user : Nat → Str

/-- `StreamType` (`OutputStream.h:27`) -/
inductive SType where
  | none | stdout | stderr | file | user (i : Nat)
  deriving DecidableEq

/-- `Mode` (`OutputStream.h:29`) -/
inductive Mode where
  | truncate | append
  deriving DecidableEq

/-- `OutputStreamImpl` (`OutputStream.cpp:91-104`); `fs` is the open file -/
structure Impl where
  type : SType
  mode : Mode
  init : Bool
  filename : Str
  fs : Option Str

/-- default constructor (`OutputStream.cpp:155`) -/
def Impl.new : Impl := ⟨.none, .truncate, false, [], none⟩

/-- `reset` (`OutputStream.cpp:146-153`) -/
def Impl.reset (s : Impl) : Impl := { s with fs := none, filename := [], type := .none, init := false }

variable (canOpen : Str → Bool)

/-- `init` (`OutputStream.cpp:106-125`) -/
def Impl.initS (s : Impl) (W : World) : Impl × World :=
  if s.init then (s, W)
  else
    let s := { s with init := true }
    if s.type = .file then
      if canOpen s.filename then
        ({ s with fs := some s.filename },
          { W with file := fun f => if f = s.filename then some (if s.mode = .append then (W.file f).getD [] else []) else W.file f })
      else ({ s with type := .none }, W)
    else (s, W)

/-- writing to `fs`: nothing happens if it is not open -/
def writeFs (fs : Option Str) (t : Str) (W : World) : World :=
  match fs with
  | none => W
  | some n => { W with file := fun f => if f = n then some ((W.file f).getD [] ++ t) else W.file f }

/-- `*os.stream() << t` (`OutputStream.cpp:127-144`) -/
def Impl.write (s : Impl) (W : World) (t : Str) : Impl × World :=
  let (s, W) := s.initS canOpen W
  (s, match s.type with
    | .none => writeFs s.fs t W
    | .stdout => { W with stdout := W.stdout ++ t }
    | .stderr => { W with stderr := W.stderr ++ t }
    | .file => writeFs s.fs t W
    | .user i => { W with user := fun j => if j = i then W.user j ++ t else W.user j })

/-- calls -/
inductive Op where
  | setMode (m : Mode)
  | setStream (t : SType)
  | setFile (name : Str)
  | write (t : Str)

/-- one call (`OutputStream.cpp:186-216`) -/
def step (x : Impl × World) : Op → Impl × World
  | .setMode m => ({ x.1 with mode := m }, x.2)
  | .setStream t => ({ x.1.reset with type := t }, x.2)
  | .setFile n => ({ x.1.reset with filename := n, type := .file }, x.2)
  | .write t => x.1.write canOpen x.2 t

def run (x : Impl × World) (ops : List Op) : Impl × World := ops.foldl (step canOpen) x

/-! ## Several threads that use the stream for the first time -/

/-- where a thread is in `stream()` and the writing after it: before the test in `init` (`OutputStream.cpp:108`), waiting for the lock (`111`), before
setting the flag (`113`), before opening (`117`), before writing, done -/
inductive PC where
  | check | lock | flag | opn | write | done
  deriving DecidableEq

/-- shared state: the flag, the lock, the file stream, the file; and the threads -/
structure TS where
  init : Bool
  locked : Bool
  isOpen : Bool
  bad : Bool
  content : Str
  pc : Nat → PC

/-- one step of a thread (for a file opened with `Mode::Truncate`).  Opening an open `std::ofstream` sets its fail bit; writing to a stream that is not
open or failed has no effect on the file; opening clears the error bits. -/
inductive TStep (text : Nat → Str) : TS → TS → Prop where
  | checkInit {s : TS} (i : Nat) : s.pc i = .check → s.init = true → TStep text s { s with pc := Function.update s.pc i .write }
  | checkNot {s : TS} (i : Nat) : s.pc i = .check → s.init = false → TStep text s { s with pc := Function.update s.pc i .lock }
  | lock {s : TS} (i : Nat) : s.pc i = .lock → s.locked = false → TStep text s { s with locked := true, pc := Function.update s.pc i .flag }
  | flag {s : TS} (i : Nat) : s.pc i = .flag → TStep text s { s with init := true, pc := Function.update s.pc i .opn }
  | openNew {s : TS} (i : Nat) : s.pc i = .opn → s.isOpen = false →
      TStep text s { s with isOpen := true, bad := false, content := [], locked := false, pc := Function.update s.pc i .write }
  | openAgain {s : TS} (i : Nat) : s.pc i = .opn → s.isOpen = true →
      TStep text s { s with bad := true, locked := false, pc := Function.update s.pc i .write }
  | write {s : TS} (i : Nat) : s.pc i = .write → s.isOpen = true → s.bad = false →
      TStep text s { s with content := s.content ++ text i, pc := Function.update s.pc i .done }
  | writeLost {s : TS} (i : Nat) : s.pc i = .write → (s.isOpen = false ∨ s.bad = true) →
      TStep text s { s with bad := true, pc := Function.update s.pc i .done }

/-- runs -/
inductive TRun (text : Nat → Str) : TS → TS → Prop where
  | refl (s : TS) : TRun text s s
  | step {s t u : TS} : TRun text s t → TStep text t u → TRun text s u

end Verif.Out
