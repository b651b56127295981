import Verif.Snapshot.Compressed
/-!
# The trace service

Model of `/repo/src/services/trace/Trace.cpp`, `/repo/src/services/trace/TraceBufferChunk.{h,cpp}` and of `Entry::pack`, `Entry::unpack`
(`/repo/src/common/Entry.cpp:53-77`).

Simplified: nodes are represented by their ids, with a function that tells attribute nodes from others; callbacks are atomic (in the code
snapshots that other threads take while their buffer is flushed or cleared are dropped); memory allocation succeeds; a thread's buffer
pointer, kept on its blackboard, is looked up by thread number; a thread does nothing after its release.  Log messages are left out.
-/
namespace Verif.Serv.Trace
open Verif Verif.CSR

/-- a snapshot record -/
abbrev Record := List SEntry

variable (isAttr : U64 → Bool)

/-- `Entry::pack` (`Entry.cpp:53-60`); packing an empty entry dereferences a null pointer in the code (excluded by `Ok` records) -/
def pack : SEntry → List Byte
  | .empty => []
  | .ref id => vlenc id
  | .imm id v => vlenc id ++ variantPack v

/-- `Entry::unpack` (`Entry.cpp:62-77`); `none`: read past the end -/
def unpack (buf : List Byte) : Option (SEntry × Nat) := do
  let (id, p) ← vldec buf
  if isAttr id then do
    let (v, q, _) ← variantUnpack (buf.drop p)
    some (.imm id v, p + q)
  else some (.ref id, p)

/-- `class TraceBufferChunk` (`TraceBufferChunk.h:15-30`) without `m_next`; `m_pos` is the length of `data` -/
structure Chunk where
  size : Nat
  data : List Byte
  nrec : Nat

/-- `TraceBufferChunk::fits` (`TraceBufferChunk.cpp:91-100`) -/
def Chunk.fits (c : Chunk) (r : Record) : Bool := decide (c.data.length + (10 + r.length * 30) < c.size)

/-- `TraceBufferChunk::save_snapshot` (`TraceBufferChunk.cpp:78-89`) -/
def Chunk.save (c : Chunk) (r : Record) : Chunk :=
  if r = [] then c
  else { c with data := c.data ++ (vlenc (BitVec.ofNat 64 r.length) ++ r.flatMap pack), nrec := c.nrec + 1 }

/-- entries of a record (`TraceBufferChunk.cpp:59-60`) -/
def decEntries : Nat → List Byte → Option (Record × List Byte)
  | 0, buf => some ([], buf)
  | n + 1, buf => do
    let (e, p) ← unpack isAttr buf
    let (r, rest) ← decEntries n (buf.drop p)
    some (e :: r, rest)

/-- the loop over the records in `TraceBufferChunk::flush` (`TraceBufferChunk.cpp:50-64`) -/
def decRecords : Nat → List Byte → Option (List Record)
  | 0, _ => some []
  | n + 1, buf => do
    let (k, p) ← vldec buf
    let (r, rest) ← decEntries isAttr k.toNat (buf.drop p)
    let rs ← decRecords n rest
    some (r :: rs)

/-- `TraceBufferChunk::flush` (`TraceBufferChunk.cpp:40-76`): this chunk, then the next ones -/
def flushChunks : List Chunk → Option (List Record)
  | [] => some []
  | c :: cs => do
    let a ← decRecords isAttr c.nrec c.data
    let b ← flushChunks cs
    some (a ++ b)

/-- `TraceBuffer` (`Trace.cpp:33-53`); `chunks` is the `m_next` chain -/
structure Buf where
  th : Nat
  chunks : List Chunk
  stopped : Bool
  retired : Bool

/-- `BufferPolicy` (`Trace.cpp:31`) -/
inductive Policy where
  | flush
  | grow
  | stop
  deriving DecidableEq

/-- `class Trace` (`Trace.cpp:55-72`); `overrun`: data was written past the end of a chunk -/
structure State where
  policy : Policy
  bufsize : Nat
  bufs : List Buf
  dropped : Nat
  overrun : Bool

/-- a new chunk (`TraceBufferChunk.h:31`) -/
def Chunk.new (size : Nat) : Chunk := ⟨size, [], 0⟩

/-- `acquire_tbuf` (`Trace.cpp:74-98`): new buffers are put at the front of the list -/
def State.acquire (s : State) (th : Nat) (canAlloc : Bool) : State :=
  if s.bufs.any (fun b => b.th = th) then s
  else if canAlloc then { s with bufs := ⟨th, [.new s.bufsize], false, false⟩ :: s.bufs }
  else s

/-- apply `f` to the thread's buffer -/
def State.upd (s : State) (th : Nat) (f : Buf → Buf) : State := { s with bufs := s.bufs.map fun b => if b.th = th then f b else b }

/-- `flush_cb` (`Trace.cpp:153-176`): all records, buffer by buffer; the buffers are not stopped any more -/
def State.flush (s : State) : State × Option (List Record) :=
  ({ s with bufs := s.bufs.map fun b => { b with stopped := false } }, flushChunks isAttr (s.bufs.flatMap fun b => b.chunks))

/-- save a record in the first chunk of the thread's buffer -/
def State.save (s : State) (th : Nat) (r : Record) : State :=
  let s' := s.upd th fun b => match b.chunks with | [] => b | c :: cs => { b with chunks := c.save r :: cs }
  { s' with overrun := s'.overrun || s'.bufs.any fun b => b.chunks.any fun c => decide (c.data.length > c.size) }

/-- `process_snapshot_cb` with `handle_overflow` (`Trace.cpp:100-151`); the output is what the flush policy writes (`flush_and_write` lets the
output services call `flush_cb`) -/
def State.process (s : State) (th : Nat) (sig : Bool) (r : Record) : State × List (Option (List Record)) :=
  let s := s.acquire th (!sig)
  match s.bufs.find? (fun b => b.th = th) with
  | none => ({ s with dropped := s.dropped + 1 }, [])
  | some b =>
    if b.stopped then ({ s with dropped := s.dropped + 1 }, [])
    else if (b.chunks.head?.map fun c => c.fits r).getD false then (s.save th r, [])
    else
      match s.policy with
      | .stop => (s.upd th (fun b => { b with stopped := true }), [])
      | .grow => ((s.upd th fun b => { b with chunks := .new s.bufsize :: b.chunks }).save th r, [])
      | .flush => ((s.flush isAttr).1.save th r, [(s.flush isAttr).2])

/-- `clear_cb` (`Trace.cpp:178-232`): chunks are reset (`TraceBufferChunk::reset`, `TraceBufferChunk.cpp:29-38`), the buffers of ended threads
deleted -/
def State.clear (s : State) : State :=
  { s with bufs := (s.bufs.filter fun b => !b.retired).map fun b =>
      { b with chunks := match b.chunks with | [] => [] | c :: _ => [⟨c.size, [], 0⟩], stopped := false } }

/-- what happens: thread creation (`create_thread_cb`, `Trace.cpp:247-251`), thread end (`release_thread_cb`, `Trace.cpp:253-262`), a snapshot
(maybe in a signal handler), a flush, a clear -/
inductive Op where
  | attach (th : Nat)
  | release (th : Nat)
  | snap (th : Nat) (sig : Bool) (r : Record)
  | flush
  | clear

/-- one step, with the output of flushes -/
def State.step (s : State) : Op → State × List (Option (List Record))
  | .attach th => (s.acquire th true, [])
  | .release th => (s.upd th (fun b => { b with retired := true }), [])
  | .snap th sig r => s.process isAttr th sig r
  | .flush => ((s.flush isAttr).1, [(s.flush isAttr).2])
  | .clear => (s.clear, [])

/-- a history -/
def State.run (s : State) : List Op → State × List (Option (List Record))
  | [] => (s, [])
  | op :: h =>
    let x := s.step isAttr op
    let y := State.run x.1 h
    (y.1, x.2 ++ y.2)

/-- the service on a new channel, created by thread `th` (`Trace.cpp:301-326`) -/
def State.init (p : Policy) (bufsize th : Nat) : State := State.acquire ⟨p, bufsize, [], 0, false⟩ th true

end Verif.Serv.Trace
