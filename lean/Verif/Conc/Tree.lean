import Verif.Tree.Model
/-!
# Concurrent context tree requests, step by step

Small-step model of `get_child` and `get_path(attr, n, data, parent)` (`/repo/src/caliper/MetadataTree.cpp:96-235`,
`324-337`) with the node block allocation and the lock-free child list
(`/repo/include/caliper/common/lockfree-tree.hpp:54-95`).  Any number of threads run any number of requests; every
access to data that other threads can access is one step, and the steps of the threads interleave arbitrarily.

Simplifications: the memory is sequentially consistent (the release / relaxed orders of the code are not modelled); the
memory pools never fail; string copies are values; `get_child` (one value, `create_child`) and `get_path`
(`create_path`) execute the same steps here.  The fields marked *ghost* are never read by the program: they record what
happened, for the statements.
-/
namespace Verif.Conc
open MTree (Ptr updP)

/-- contents of a constructed node (`Node.h:23-36`) -/
structure Cell where
  id : Nat
  attr : Nat
  val : Val
  deriving DecidableEq, Repr

/-- data shared by all threads: `GlobalData` (`MetadataTree.h:30-50`) and the links of the nodes
(`lockfree-tree.hpp:54-60`).  `dead`: a node was constructed beyond the end of its chunk.
*Ghost*: `kids p`, the children linked under `p`, newest first; `own b`, the thread that took block `b`. -/
structure Shared where
  npb : Nat
  numBlocks : Nat
  nextBlock : Nat
  idx : Nat → Nat
  cell : Ptr → Option Cell
  parent : Ptr → Option Ptr
  next : Ptr → Option Ptr
  head : Ptr → Option Ptr
  dead : Bool
  kids : Ptr → List Ptr
  own : Nat → Nat

/-- what remains to be done in a request: find or create a child `(a, v)` of `p`, below it `(a, v')` for the `v'`
in `vs` (loop variables of `MetadataTree.cpp:218-229`, `161-183`) -/
structure Job where
  a : Nat
  v : Val
  vs : List Val
  p : Ptr
  deriving DecidableEq

/-- program counter of a thread, with its local variables -/
inductive PC where
  /-- outside of the tree code -/
  | idle
  /-- about to load `parent->first_child()` (`Node.h:54`, `MetadataTree.cpp:331`) -/
  | find (j : Job)
  /-- in the search loop, looking at child `c` (`Node.h:54-57`, `MetadataTree.cpp:331-333`) -/
  | walk (j : Job) (c : Option Ptr)
  /-- about to check the thread's node block (`MetadataTree.cpp:100`) -/
  | need (j : Job)
  /-- about to load `next_block` (`MetadataTree.cpp:101`) -/
  | load (j : Job)
  /-- about to execute `next_block++` (`MetadataTree.cpp:111`) -/
  | fetch (j : Job)
  /-- about to set up block `b` (`MetadataTree.cpp:116-121`) -/
  | setup (j : Job) (b : Nat)
  /-- about to take a slot, `m_nodeblock->index++` (`MetadataTree.cpp:174`, `202`) -/
  | slot (j : Job)
  /-- about to construct a node in slot `i` of block `b` (`MetadataTree.cpp:176-177`, `205-206`) -/
  | cons (j : Job) (b i : Nat)
  /-- about to set the parent link of node `n` (`lockfree-tree.hpp:91`) -/
  | par (j : Job) (n : Ptr)
  /-- about to execute the compare-exchange for node `n` (`lockfree-tree.hpp:93`) -/
  | cas (j : Job) (n : Ptr)
  /-- the request returns `r` -/
  | done (r : Option Ptr)
  deriving DecidableEq

/-- a thread: its current node block (`m_nodeblock`, `MetadataTree.h:55`) and its program counter.
*Ghost*: the request being executed (`ca`, `cvs`, `cp`) and the children of every node when it started (`kids0`). -/
structure Thread where
  cur : Option Nat
  pc : PC
  ca : Nat
  cvs : List Val
  cp : Ptr
  kids0 : Ptr → List Ptr

/-- global state -/
structure St where
  sh : Shared
  th : Nat → Thread

/-- one thread's next step: start a request, execute the next instruction, execute a compare-exchange that fails
spuriously, hand the result to the caller -/
inductive Act where
  | call (a : Nat) (vs : List Val) (p : Ptr)
  | tick
  | spur
  | ret
  deriving DecidableEq

/-- `node->equals(attr, data)` (`Node.h:43`) -/
def Shared.matches (sh : Shared) (c : Ptr) (a : Nat) (v : Val) : Bool :=
  match sh.cell c with
  | some x => decide (x.val = v) && decide (x.attr = a)
  | none => false

/-- continue below node `n` (`MetadataTree.cpp:221-228`, `182`), or return it -/
def Job.after (j : Job) (n : Ptr) (k : Job → PC) : PC :=
  match j.vs with
  | [] => .done (some n)
  | v :: vs => k ⟨j.a, v, vs, n⟩

/-- `!m_nodeblock || m_nodeblock->index + n >= nodes_per_block` (`MetadataTree.cpp:100`) -/
def needBlock (sh : Shared) (cur : Option Nat) (n : Nat) : Bool :=
  match cur with
  | none => true
  | some b => decide (sh.idx b + n ≥ sh.npb)

/-- the compare-exchange (`lockfree-tree.hpp:93`): `expected` is `next` of the new node; on failure it receives the
current head -/
def casStep (sh : Shared) (th : Thread) (j : Job) (n : Ptr) (spurious : Bool) : Shared × Thread :=
  if spurious = false ∧ sh.head j.p = sh.next n then
    ({ sh with head := updP sh.head j.p (some n), kids := updP sh.kids j.p (n :: sh.kids j.p) },
     { th with pc := j.after n .slot })
  else
    ({ sh with next := updP sh.next n (sh.head j.p) }, th)

/-- execute the next instruction of thread `t` -/
def tick (t : Nat) (sh : Shared) (th : Thread) : Shared × Thread :=
  match th.pc with
  | .idle => (sh, th)
  | .find j => (sh, { th with pc := .walk j (sh.head j.p) })
  | .walk j none => (sh, { th with pc := .need j })
  | .walk j (some c) =>
    if sh.matches c j.a j.v then (sh, { th with pc := j.after c .find })
    else (sh, { th with pc := .walk j (sh.next c) })
  | .need j =>
    if needBlock sh th.cur (j.vs.length + 1) then (sh, { th with pc := .load j })
    else (sh, { th with pc := .slot j })
  | .load j =>
    if sh.nextBlock ≥ sh.numBlocks then (sh, { th with pc := .done none }) else (sh, { th with pc := .fetch j })
  | .fetch j =>
    ({ sh with nextBlock := sh.nextBlock + 1, own := BB.upd sh.own sh.nextBlock t },
     if sh.nextBlock ≥ sh.numBlocks then { th with pc := .done none } else { th with pc := .setup j sh.nextBlock })
  | .setup j b => ({ sh with idx := BB.upd sh.idx b 0 }, { th with cur := some b, pc := .slot j })
  | .slot j =>
    match th.cur with
    | none => ({ sh with dead := true }, { th with pc := .done none })
    | some b => ({ sh with idx := BB.upd sh.idx b (sh.idx b + 1) }, { th with pc := .cons j b (sh.idx b) })
  | .cons j b i =>
    if i ≥ sh.npb then ({ sh with dead := true }, { th with pc := .done none })
    else
      ({ sh with cell := updP sh.cell (.cell b i) (some ⟨b * sh.npb + i, j.a, j.v⟩),
                 parent := updP sh.parent (.cell b i) none, next := updP sh.next (.cell b i) none,
                 head := updP sh.head (.cell b i) none },
       { th with pc := .par j (.cell b i) })
  | .par j n => ({ sh with parent := updP sh.parent n (some j.p) }, { th with pc := .cas j n })
  | .cas j n => casStep sh th j n false
  | .done _ => (sh, th)

/-- first instruction of a request; an empty request returns the parent (`MetadataTree.cpp:218`, `234`) -/
def startPC (a : Nat) (p : Ptr) : List Val → PC
  | [] => .done (some p)
  | v :: vs => .find ⟨a, v, vs, p⟩

/-- thread `t` takes step `act` -/
def act (t : Nat) (sh : Shared) (th : Thread) : Act → Shared × Thread
  | .call a vs p =>
    match th.pc with
    | .idle =>
      (sh, { th with ca := a, cvs := vs, cp := p, kids0 := sh.kids,
                     pc := startPC a p vs })
    | _ => (sh, th)
  | .tick => tick t sh th
  | .spur => match th.pc with | .cas j n => casStep sh th j n true | _ => (sh, th)
  | .ret => match th.pc with | .done _ => (sh, { th with pc := .idle }) | _ => (sh, th)

/-- thread `t` takes step `a` in the global state -/
def step (s : St) (t : Nat) (a : Act) : St :=
  let r := act t s.sh (s.th t) a
  ⟨r.1, BB.upd s.th t r.2⟩

/-- links of the bootstrap children: position in the list `bootKids` of the parent -/
def bootNext : Ptr → Option Ptr
  | .cell 0 11 => some (.cell 0 7) | .cell 0 7 => some (.cell 0 6) | .cell 0 6 => some (.cell 0 5)
  | .cell 0 5 => some (.cell 0 4) | .cell 0 4 => some (.cell 0 3) | .cell 0 3 => some (.cell 0 2)
  | .cell 0 2 => some (.cell 0 1) | .cell 0 1 => some (.cell 0 0) | _ => none

/-- contents of the bootstrap nodes -/
def bootCell : Ptr → Option Cell
  | .cell 0 i => (MTree.bootNode i).map fun r => ⟨r.id, r.attr, r.val⟩
  | _ => none

/-- parents of the bootstrap nodes -/
def bootParent : Ptr → Option Ptr
  | .cell 0 i => (MTree.bootNode i).map (·.parent)
  | _ => none

/-- first children of the bootstrap nodes and the root -/
def bootHead (p : Ptr) : Option Ptr := (MTree.bootKids p).head?

/-- the tree after its initialisation by thread 0 (`MetadataTree.cpp:21-88`); `node_blocks` is not initialised by the
code, `garbage` are the initial `index` fields -/
def initShared (npb numBlocks : Nat) (garbage : Nat → Nat) : Shared :=
  { npb := min npb 256, numBlocks := numBlocks, nextBlock := 1, idx := BB.upd garbage 0 12, cell := bootCell,
    parent := bootParent, next := bootNext, head := bootHead, dead := false, kids := MTree.bootKids, own := fun _ => 0 }

/-- initial state: no requests, only thread 0 has a node block -/
def init (npb numBlocks : Nat) (garbage : Nat → Nat) : St :=
  ⟨initShared npb numBlocks garbage,
   fun t => ⟨if t = 0 then some 0 else none, .idle, 0, [], .root, fun _ => []⟩⟩

end Verif.Conc
