import Verif.Serv.Ompt
import Verif.Runtime.Spec
/-!
# Specification of the OMPT service: what an OpenMP thread is doing

Independent of the callbacks: the constructs a thread is in, as OpenMP and the program open and close them.
-/
namespace Verif.Serv.Ompt
open Verif RT

/-- constructs a thread can be in; a user region is a region annotation of the program -/
inductive Con where
  | parallel (n : BitVec 32)
  | work (t : Int)
  | sync (k : Int)
  | user (a : Attr) (v : Val)

/-- what a thread is doing: open constructs (outermost first), what OpenMP said when the thread began, and its implicit tasks
(team size and index, outermost first) -/
structure Doing where
  cons : List Con
  info : Option (Nat × BitVec 32)
  tasks : List (BitVec 32 × BitVec 32)

/-- nothing -/
def Doing.idle : Doing := ⟨[], none, []⟩

/-- names of the work constructs of OpenMP 5.2 (table of `ompt_work_t`) -/
def WorkName : Int → String
  | 1 => "loop" | 2 => "sections" | 3 => "single_executor" | 4 => "single_other" | 5 => "workshare" | 6 => "distribute"
  | 7 => "taskloop" | 8 => "scope" | _ => "UNKNOWN"

/-- names of the synchronization constructs of OpenMP 5.2 (table of `ompt_sync_region_t`) -/
def SyncName : Int → String
  | 1 => "barrier" | 2 => "barrier_implicit" | 3 => "barrier_explicit" | 4 => "barrier_implementation" | 5 => "taskwait"
  | 6 => "taskgroup" | 7 => "reduction" | 8 => "barrier_implicit_workshare" | 9 => "barrier_implicit_parallel"
  | 10 => "barrier_teams" | _ => "UNKNOWN"

/-- names of the thread types -/
def TypeName : Nat → String
  | 1 => "initial" | 2 => "worker" | 3 => "other" | _ => "unknown"

/-- attributes made by the service: existing, with different ids, and with the properties thread scope; unaligned where they do not nest with
regions; without events where they only label -/
structure Made (A : Attrs) (t : MTree.Tree) : Prop where
  valid : ∀ a ∈ [A.region, A.sync, A.work, A.threadType, A.procId, A.threadId, A.numThreads], a.Valid t
  distinct : ([A.region, A.sync, A.work, A.threadType, A.procId, A.threadId, A.numThreads].map Attr.id).Nodup
  nested : A.region.prop = 20#32 ∧ A.sync.prop = 20#32 ∧ A.work.prop = 20#32
  labels : A.threadType.prop = 1044#32 ∧ A.procId.prop = 1108#32 ∧ A.threadId.prop = 1108#32 ∧ A.numThreads.prop = 1108#32

/-- an attribute of the service -/
def Attrs.has (A : Attrs) (id : Nat) : Prop :=
  id ∈ [A.region, A.sync, A.work, A.threadType, A.procId, A.threadId, A.numThreads].map Attr.id

/-- `Hist A th h d n`: a history of all threads in which what thread `th` does is properly nested; at its end `th` is doing `d`, and `n`
callbacks of any thread had no effect because Caliper was not available. -/
inductive Hist (A : Attrs) (th : Nat) : List (Nat × Act) → Doing → Nat → Prop where
  | nil : Hist A th [] .idle 0
  /-- another thread does anything at all -/
  | elsewhere {h d n th' c} : Hist A th h d n → th' ≠ th → Hist A th (h ++ [(th', .cb true c)]) d n
  | elsewhereUser {h d n th' op} : Hist A th h d n → th' ≠ th → op.thread = th' → Hist A th (h ++ [(th', .user op)]) d n
  /-- another channel with the service is created -/
  | register {h d n th' B} : Hist A th h d n → Hist A th (h ++ [(th', .register B)]) d n
  /-- a callback comes while Caliper is not available -/
  | skipped {h d n th' c} : Hist A th h d n → (∀ ep p i f, c = .implicitTask ep p i f → f.getLsbD 0 = false) →
      Hist A th (h ++ [(th', .cb false c)]) d (n + 1)
  | skippedInitial {h d n th' ep p i f} : Hist A th h d n → f.getLsbD 0 = true →
      Hist A th (h ++ [(th', .cb false (.implicitTask ep p i f))]) d n
  /-- the OpenMP thread begins and ends -/
  | threadBegin {h d n t p} : Hist A th h d n → d.info = none →
      Hist A th (h ++ [(th, .cb true (.threadBegin t p))]) { d with info := some (t, p) } n
  | threadEnd {h d n} : Hist A th h d n → Hist A th (h ++ [(th, .cb true .threadEnd)]) { d with info := none } n
  /-- constructs -/
  | parallelBegin {h d n k} : Hist A th h d n →
      Hist A th (h ++ [(th, .cb true (.parallelBegin k))]) { d with cons := d.cons ++ [.parallel k] } n
  | parallelEnd {h cs i ts n k} : Hist A th h ⟨cs ++ [.parallel k], i, ts⟩ n →
      Hist A th (h ++ [(th, .cb true .parallelEnd)]) ⟨cs, i, ts⟩ n
  | workBegin {h d n t} : Hist A th h d n → Hist A th (h ++ [(th, .cb true (.work t 1))]) { d with cons := d.cons ++ [.work t] } n
  | workEnd {h cs i ts n t t'} : Hist A th h ⟨cs ++ [.work t], i, ts⟩ n → Hist A th (h ++ [(th, .cb true (.work t' 2))]) ⟨cs, i, ts⟩ n
  | syncBegin {h d n t} : Hist A th h d n → Hist A th (h ++ [(th, .cb true (.sync t 1))]) { d with cons := d.cons ++ [.sync t] } n
  | syncEnd {h cs i ts n t t'} : Hist A th h ⟨cs ++ [.sync t], i, ts⟩ n → Hist A th (h ++ [(th, .cb true (.sync t' 2))]) ⟨cs, i, ts⟩ n
  /-- begin and end at once -/
  | workPoint {h d n t} : Hist A th h d n → Hist A th (h ++ [(th, .cb true (.work t 3))]) d n
  | syncPoint {h d n t} : Hist A th h d n → Hist A th (h ++ [(th, .cb true (.sync t 3))]) d n
  /-- implicit tasks; the initial task of a thread does not count -/
  | taskBegin {h d n p i f} : Hist A th h d n → f.getLsbD 0 = false →
      Hist A th (h ++ [(th, .cb true (.implicitTask 1 p i f))]) { d with tasks := d.tasks ++ [(p, i)] } n
  | taskEnd {h cs inf ts n x p i f} : Hist A th h ⟨cs, inf, ts ++ [x]⟩ n → f.getLsbD 0 = false →
      Hist A th (h ++ [(th, .cb true (.implicitTask 2 p i f))]) ⟨cs, inf, ts⟩ n
  | initialTask {h d n ep p i f} : Hist A th h d n → f.getLsbD 0 = true →
      Hist A th (h ++ [(th, .cb true (.implicitTask ep p i f))]) d n
  /-- region annotations of the program -/
  | userBegin {h d n a v} : Hist A th h d n → a.kind = .region → scopeLoc a th = some (.thread th) → ¬ A.has a.id →
      Hist A th (h ++ [(th, .user (.begin th a v))]) { d with cons := d.cons ++ [.user a v] } n
  | userEnd {h cs i ts n a v} : Hist A th h ⟨cs ++ [.user a v], i, ts⟩ n →
      Hist A th (h ++ [(th, .user (.endR th a))]) ⟨cs, i, ts⟩ n
  | userEndCheck {h cs i ts n a v} : Hist A th h ⟨cs ++ [.user a v], i, ts⟩ n →
      Hist A th (h ++ [(th, .user (.endCheck th a v))]) ⟨cs, i, ts⟩ n
  /-- other annotations of the program: as-value, of another scope, or begun or set unaligned values -/
  | userOther {h d n op} : Hist A th h d n → op.thread = th → op.isEnd = false → ¬ A.has op.attr.id →
      (op.loc ≠ some (.thread th) ∨ op.attr.kind ≠ .region) → Hist A th (h ++ [(th, .user op)]) d n

/-- an unsigned number as a value -/
def unsignedVal (k : BitVec 32) : Val := ⟨.uint, .inr (BitVec.ofNat 64 k.toNat)⟩

/-- the region a construct is recorded as -/
def Con.entry (A : Attrs) : Con → Nat × Val
  | .parallel k => (A.region.id, unsignedVal k)
  | .work t => (A.work.id, .ofString (WorkName t))
  | .sync k => (A.sync.id, .ofString (SyncName k))
  | .user a v => (a.id, v)

/-- the team size of the innermost parallel region -/
def Doing.team (d : Doing) : Option (BitVec 32) := (d.cons.filterMap fun | .parallel k => some k | _ => none).getLast?
/-- the innermost work construct -/
def Doing.work (d : Doing) : Option Int := (d.cons.filterMap fun | .work k => some k | _ => none).getLast?
/-- the innermost sync construct -/
def Doing.sync (d : Doing) : Option Int := (d.cons.filterMap fun | .sync k => some k | _ => none).getLast?

/-- what queries on the thread report -/
structure Reports (A : Attrs) (s : State) (th : Nat) (d : Doing) : Prop where
  parallel : Query s th A.region = some (d.team.map unsignedVal)
  work : Query s th A.work = some (d.work.map fun t => .ofString (WorkName t))
  sync : Query s th A.sync = some (d.sync.map fun t => .ofString (SyncName t))
  type : Query s th A.threadType = some (d.info.map fun x => .ofString (TypeName x.1))
  /-- no processor number if OpenMP does not know it (a negative number) -/
  proc : Query s th A.procId = some (d.info.bind fun x => if x.2.toInt < 0 then none else some (.ofInt x.2))
  thread : Query s th A.threadId = some (d.tasks.getLast?.map fun x => .ofInt x.2)
  team : Query s th A.numThreads = some (d.tasks.getLast?.map fun x => .ofInt x.1)


theorem vUint_eq (k : BitVec 32) : vUint k = unsignedVal k := by
  have : BitVec.zeroExtend 64 k = BitVec.ofNat 64 k.toNat := by apply BitVec.eq_of_toNat_eq; simp
  unfold vUint unsignedVal
  rw [this]

end Verif.Serv.Ompt
