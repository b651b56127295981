import Verif.Cali.DB
/-!
# The `.cali` writer

Model of `CaliWriter` (`/repo/src/reader/CaliWriter.cpp:71-170`).  Simplification: a writer is used by one thread at a time
(the code takes one lock for the set of written nodes and another one for the stream).
-/
namespace Verif.Cali
open Verif

/-- The metadata the writer reads (`CaliperMetadataAccessInterface::node`): nodes by id.  `rank` is ghost: it bounds the
recursion of `recursive_write_node`, which would not terminate on cyclic metadata. -/
structure Src where
  node : Nat → Option Nd
  rank : Nat → Nat

/-- a line of the stream -/
inductive WLine where
  | node (id : Nat) (n : Nd)
  | record (k : Kind) (refs : List Nat) (imms : List (Nat × Val))
  deriving DecidableEq, Repr

/-- `CaliWriterImpl` (`CaliWriter.cpp:71-80`): what was written to the stream, and `m_written_nodes`; `m_num_written` is the
number of lines -/
structure WState where
  lines : List WLine
  written : List Nat
  deriving DecidableEq, Repr

/-- a new writer -/
def WState.init : WState := ⟨[], []⟩

/-- `recursive_write_node` (`CaliWriter.cpp:82-121`) -/
def writeNode (S : Src) : Nat → WState → Nat → WState
  | 0, w, _ => w
  | fuel + 1, w, id =>
    if id < 11 then w
    else if id ∈ w.written then w
    else
      match S.node id with
      | none => w
      | some n =>
        let w := writeNode S fuel w n.attr
        let w := match n.parent with
          | some p => writeNode S fuel w p
          | none => w
        ⟨w.lines ++ [.node id n], w.written ++ [id]⟩

/-- `Entry::is_immediate()` / `is_reference()` in the source (`Entry.h:85-87`) -/
def Src.isImm (S : Src) (i : Nat) : Bool := match S.node i with
  | some n => decide (n.attr = 8)
  | none => false

/-- the node ids of the reference entries of a record (`CaliWriter.cpp:136-139`) -/
def Src.refsOf (S : Src) (es : List DEnt) : List Nat :=
  es.filterMap fun e => match e.node with
    | some i => if S.isImm i then none else some i
    | none => none

/-- attribute id and value of the immediate entries of a record (`CaliWriter.cpp:140-143`) -/
def Src.immsOf (S : Src) (es : List DEnt) : List (Nat × Val) :=
  es.filterMap fun e => match e.node with
    | some i => if S.isImm i then some (i, e.val) else none
    | none => none

/-- the loop of `write_entrylist` (`CaliWriter.cpp:135-144`): nodes needed by the entries -/
def writeDeps (S : Src) (w : WState) (es : List DEnt) : WState :=
  es.foldl (fun w e => match e.node with
    | some i => writeNode S (S.rank i + 1) w i
    | none => w) w

/-- `write_entrylist` (`CaliWriter.cpp:123-156`) -/
def writeRec (S : Src) (w : WState) (k : Kind) (es : List DEnt) : WState :=
  let w := writeDeps S w es
  ⟨w.lines ++ [.record k (S.refsOf es) (S.immsOf es)], w.written⟩

/-- a sequence of `write_snapshot` / `write_globals` calls -/
def writeAll (S : Src) (w : WState) : List (Kind × List DEnt) → WState
  | [] => w
  | (k, es) :: rest => writeAll S (writeRec S w k es) rest

/-- the text of a line (`CaliWriter.cpp:24-67`) -/
def WLine.text (F : DblFmt) : WLine → List Byte
  | .node id n => nodeLine (BitVec.ofNat 64 id) (BitVec.ofNat 64 n.attr) (n.data.writeCali F) (n.parent.map (BitVec.ofNat 64 ·))
  | .record k refs imms => recLine k (refs.map (BitVec.ofNat 64 ·)) (imms.map fun e => (BitVec.ofNat 64 e.1, e.2.writeCali F))

/-- the file produced by a sequence of writer calls -/
def caliFile (F : DblFmt) (S : Src) (calls : List (Kind × List DEnt)) : List Byte :=
  fileText ((writeAll S .init calls).lines.map (WLine.text F))

/-! ## each node once, before its first use -/

/-- ids of the node lines -/
def nodeIds (ls : List WLine) : List Nat := ls.filterMap fun l => match l with
  | .node id _ => some id
  | _ => none

/-- ids a line refers to -/
def WLine.uses : WLine → List Nat
  | .node _ n => n.attr :: n.parent.toList
  | .record _ refs imms => refs ++ imms.map (·.1)

/-- every id used is built in (`< 11`) or defined earlier -/
def Defined (pre : List WLine) (l : WLine) : Prop := ∀ i ∈ l.uses, i < 11 ∨ i ∈ nodeIds pre

/-- metadata as a running program or a reader provides it: nodes from 11 on refer to existing nodes of smaller rank -/
structure Src.Acyclic (S : Src) : Prop where
  attr : ∀ i n, S.node i = some n → 11 ≤ i → n.attr < 11 ∨ (S.node n.attr).isSome ∧ S.rank n.attr < S.rank i
  parent : ∀ i n p, S.node i = some n → 11 ≤ i → n.parent = some p → p < 11 ∨ (S.node p).isSome ∧ S.rank p < S.rank i

/-- invariant of the writer -/
structure WInv (S : Src) (w : WState) : Prop where
  ids : nodeIds w.lines = w.written
  nodup : w.written.Nodup
  lines : ∀ id n, WLine.node id n ∈ w.lines → S.node id = some n ∧ 11 ≤ id
  defd : ∀ pre l post, w.lines = pre ++ l :: post → Defined pre l

theorem WInv.init (S : Src) : WInv S .init :=
  ⟨rfl, List.nodup_nil, by simp [WState.init], by simp [WState.init]⟩

theorem nodeIds_append (a b : List WLine) : nodeIds (a ++ b) = nodeIds a ++ nodeIds b := by simp [nodeIds]

theorem Defined.mono {pre pre' : List WLine} {l : WLine} (h : Defined pre l) (hs : ∀ i ∈ nodeIds pre, i ∈ nodeIds pre') :
    Defined pre' l := fun i hi => (h i hi).imp id (hs i)

theorem snoc_split {α : Type} {l : List α} {x : α} {pre post : List α} {y : α} (h : l ++ [x] = pre ++ y :: post) :
    (l = pre ∧ x = y ∧ post = []) ∨ ∃ post', l = pre ++ y :: post' := by
  rcases List.append_eq_append_iff.1 h with ⟨m, e1, e2⟩ | ⟨m, e1, e2⟩
  · cases m with
    | nil =>
      simp at e1 e2
      exact .inl ⟨e1.symm, e2.1, e2.2⟩
    | cons z zs =>
      simp at e2
  · cases m with
    | nil =>
      simp at e1 e2
      exact .inl ⟨e1, e2.1.symm, e2.2⟩
    | cons z zs =>
      obtain ⟨rfl, e3⟩ := List.cons.inj e2
      exact .inr ⟨zs, e1⟩

/-- one call of `recursive_write_node` -/
theorem writeNode_spec (S : Src) (hS : S.Acyclic) (fuel : Nat) : ∀ (w : WState) (id : Nat), WInv S w → S.rank id < fuel →
    id < 11 ∨ (S.node id).isSome →
    WInv S (writeNode S fuel w id) ∧ (id < 11 ∨ id ∈ (writeNode S fuel w id).written) ∧
    ∃ ns : List (Nat × Nd), (writeNode S fuel w id).lines = w.lines ++ ns.map (fun p => .node p.1 p.2) ∧
      (writeNode S fuel w id).written = w.written ++ ns.map (·.1) ∧ ∀ p ∈ ns, S.rank p.1 ≤ S.rank id := by
  induction fuel with
  | zero => intro w id _ h; omega
  | succ fuel ih =>
    intro w id hw hr hid
    simp only [writeNode]
    split
    · rename_i h; exact ⟨hw, .inl h, [], by simp, by simp, by simp⟩
    · rename_i h11
      split
      · rename_i h; exact ⟨hw, .inr h, [], by simp, by simp, by simp⟩
      · rename_i hnw
        cases hn : S.node id with
        | none => rcases hid with h | h; · omega
                  · simp [hn] at h
        | some n =>
          simp only
          have ha := hS.attr id n hn (by omega)
          -- the attribute
          obtain ⟨w1, ns1, i1, d1, e1, f1, r1⟩ : ∃ w1 ns1, WInv S w1 ∧ (n.attr < 11 ∨ n.attr ∈ w1.written) ∧
              (w1.lines = w.lines ++ List.map (fun p : Nat × Nd => WLine.node p.1 p.2) ns1) ∧
              w1.written = w.written ++ ns1.map (·.1) ∧ (∀ p ∈ ns1, S.rank p.1 < S.rank id) ∧ w1 = writeNode S fuel w n.attr := by
            rcases ha with ha | ⟨ha, hrk⟩
            · refine ⟨w, [], hw, .inl ha, by simp, by simp, by simp, ?_⟩
              cases fuel with
              | zero => rfl
              | succ k => simp [writeNode, ha]
            · obtain ⟨a, b, ns, c, d, e⟩ := ih w n.attr hw (by omega) (.inr ha)
              exact ⟨_, ns, a, b, c, d, fun p hp => Nat.lt_of_le_of_lt (e p hp) hrk, rfl⟩
          rw [← r1.2]
          -- the parent
          obtain ⟨w2, ns2, i2, d2, e2, f2, r2⟩ : ∃ w2 ns2, WInv S w2 ∧ (∀ p, n.parent = some p → p < 11 ∨ p ∈ w2.written) ∧
              (w2.lines = w1.lines ++ List.map (fun p : Nat × Nd => WLine.node p.1 p.2) ns2) ∧
              w2.written = w1.written ++ ns2.map (·.1) ∧ (∀ p ∈ ns2, S.rank p.1 < S.rank id) ∧
              w2 = (match n.parent with | some p => writeNode S fuel w1 p | none => w1) := by
            cases hp : n.parent with
            | none => exact ⟨w1, [], i1, by simp, by simp, by simp, by simp, rfl⟩
            | some p =>
              rcases hS.parent id n p hn (by omega) hp with hb | ⟨hb, hrk⟩
              · refine ⟨w1, [], i1, by simp [hb], by simp, by simp, by simp, ?_⟩
                cases fuel with
                | zero => rfl
                | succ k => simp [writeNode, hb]
              · obtain ⟨a, b, ns, c, d, e⟩ := ih w1 p i1 (by omega) (.inr hb)
                exact ⟨_, ns, a, by simpa using b, c, d, fun q hq => Nat.lt_of_le_of_lt (e q hq) hrk, rfl⟩
          rw [← r2.2]
          have hfresh : id ∉ w2.written := by
            rw [f2, f1]
            simp only [List.mem_append, List.mem_map, not_or]
            refine ⟨⟨hnw, ?_⟩, ?_⟩
            · rintro ⟨p, hp, rfl⟩; exact Nat.lt_irrefl _ (r1.1 p hp)
            · rintro ⟨p, hp, rfl⟩; exact Nat.lt_irrefl _ (r2.1 p hp)
          refine ⟨⟨?_, ?_, ?_, ?_⟩, .inr (by simp), ns1 ++ ns2 ++ [(id, n)], ?_, ?_, ?_⟩
          · simp only [nodeIds_append, i2.ids]; rfl
          · exact List.nodup_append.2 ⟨i2.nodup, by simp, by
              intro a hm b hb; simp at hb; subst hb; intro e; subst e; exact hfresh hm⟩
          · intro id' n' hm
            simp only [List.mem_append, List.mem_singleton] at hm
            rcases hm with hm | hm
            · exact i2.lines id' n' hm
            · simp only [WLine.node.injEq] at hm
              obtain ⟨rfl, rfl⟩ := hm
              exact ⟨hn, by omega⟩
          · intro pre l post he
            rcases snoc_split he with ⟨rfl, rfl, rfl⟩ | ⟨post', he⟩
            · intro i hi
              rw [i2.ids]
              simp only [WLine.uses, List.mem_cons, Option.mem_toList] at hi
              rcases hi with rfl | hi
              · rcases d1 with h | h
                · exact .inl h
                · right; rw [f2]; exact List.mem_append_left _ h
              · exact d2 i hi
            · exact i2.defd pre l post' he
          · simp [e2, e1]
          · simp [f2, f1]
          · intro p hp
            simp only [List.mem_append, List.mem_singleton] at hp
            rcases hp with (hp | hp) | rfl
            · exact Nat.le_of_lt (r1.1 p hp)
            · exact Nat.le_of_lt (r2.1 p hp)
            · exact Nat.le_refl _

/-- entries refer to existing nodes -/
def Src.Has (S : Src) (es : List DEnt) : Prop := ∀ e ∈ es, ∀ i, e.node = some i → (S.node i).isSome

theorem writeDeps_spec (S : Src) (hS : S.Acyclic) (es : List DEnt) : ∀ (w : WState), WInv S w → S.Has es →
    WInv S (writeDeps S w es) ∧ (∀ e ∈ es, ∀ i, e.node = some i → i < 11 ∨ i ∈ (writeDeps S w es).written) ∧
    ∃ ns : List (Nat × Nd), (writeDeps S w es).lines = w.lines ++ ns.map (fun p => .node p.1 p.2) ∧
      (writeDeps S w es).written = w.written ++ ns.map (·.1) := by
  induction es with
  | nil => intro w hw _; exact ⟨hw, by simp, [], by simp [writeDeps], by simp [writeDeps]⟩
  | cons e es ih =>
    intro w hw hh
    have hes : S.Has es := fun e he => hh e (List.mem_cons_of_mem _ he)
    cases hn : e.node with
    | none =>
      have : writeDeps S w (e :: es) = writeDeps S w es := by simp [writeDeps, hn]
      rw [this]
      obtain ⟨a, b, ns, c, d⟩ := ih w hw hes
      refine ⟨a, ?_, ns, c, d⟩
      intro e' he' i hi
      rcases List.mem_cons.1 he' with rfl | he'
      · rw [hn] at hi; cases hi
      · exact b e' he' i hi
    | some i =>
      have : writeDeps S w (e :: es) = writeDeps S (writeNode S (S.rank i + 1) w i) es := by simp [writeDeps, hn]
      rw [this]
      obtain ⟨a1, b1, ns1, c1, d1, _⟩ := writeNode_spec S hS (S.rank i + 1) w i hw (by omega) (.inr (hh e (by simp) i hn))
      obtain ⟨a, b, ns, c, d⟩ := ih _ a1 hes
      refine ⟨a, ?_, ns1 ++ ns, by simp [c, c1], by simp [d, d1]⟩
      intro e' he' j hj
      rcases List.mem_cons.1 he' with rfl | he'
      · rw [hn] at hj; cases hj
        rcases b1 with h | h
        · exact .inl h
        · right; rw [d]; exact List.mem_append_left _ h
      · exact b e' he' j hj

theorem mem_refsOf {S : Src} {es : List DEnt} {i : Nat} (h : i ∈ S.refsOf es) : ∃ e ∈ es, e.node = some i ∧ S.isImm i = false := by
  simp only [Src.refsOf, List.mem_filterMap] at h
  obtain ⟨e, he, h⟩ := h
  refine ⟨e, he, ?_⟩
  cases hn : e.node with
  | none => rw [hn] at h; cases h
  | some j =>
    rw [hn] at h
    simp only [] at h
    split at h
    · cases h
    · cases h; rename_i hf; exact ⟨rfl, by simpa using hf⟩

theorem mem_immsOf {S : Src} {es : List DEnt} {i : Nat} {v : Val} (h : (i, v) ∈ S.immsOf es) :
    ∃ e ∈ es, e.node = some i ∧ e.val = v ∧ S.isImm i = true := by
  simp only [Src.immsOf, List.mem_filterMap] at h
  obtain ⟨e, he, h⟩ := h
  refine ⟨e, he, ?_⟩
  cases hn : e.node with
  | none => rw [hn] at h; cases h
  | some j =>
    rw [hn] at h
    simp only [] at h
    split at h
    · cases h; exact ⟨rfl, rfl, by assumption⟩
    · cases h

theorem writeRec_spec (S : Src) (hS : S.Acyclic) (w : WState) (k : Kind) (es : List DEnt) (hw : WInv S w) (hh : S.Has es) :
    WInv S (writeRec S w k es) ∧ ∃ ns : List (Nat × Nd), (writeRec S w k es).lines =
      w.lines ++ ns.map (fun p => .node p.1 p.2) ++ [.record k (S.refsOf es) (S.immsOf es)] := by
  obtain ⟨a, b, ns, c, d⟩ := writeDeps_spec S hS es w hw hh
  refine ⟨⟨?_, a.nodup, ?_, ?_⟩, ns, by simp [writeRec, c]⟩
  · simp only [writeRec, nodeIds_append, a.ids]; simp [nodeIds]
  · intro id n hm
    simp only [writeRec, List.mem_append, List.mem_singleton] at hm
    rcases hm with hm | hm
    · exact a.lines id n hm
    · cases hm
  · intro pre l post he
    simp only [writeRec] at he
    rcases snoc_split he with ⟨rfl, rfl, rfl⟩ | ⟨post', he⟩
    · intro i hi
      rw [a.ids]
      simp only [WLine.uses, List.mem_append, List.mem_map] at hi
      rcases hi with hi | ⟨⟨j, v⟩, hi, rfl⟩
      · obtain ⟨e, he, hn, _⟩ := mem_refsOf hi
        exact b e he i hn
      · obtain ⟨e, he, hn, _⟩ := mem_immsOf hi
        exact b e he j hn
    · exact a.defd pre l post' he

/-- records among the lines -/
def recsOf (ls : List WLine) : List (Kind × List Nat × List (Nat × Val)) := ls.filterMap fun l => match l with
  | .record k r i => some (k, r, i)
  | _ => none

theorem recsOf_append (a b : List WLine) : recsOf (a ++ b) = recsOf a ++ recsOf b := by simp [recsOf]

theorem recsOf_nodes (ns : List (Nat × Nd)) : recsOf (ns.map fun p => .node p.1 p.2) = [] := by
  simp [recsOf]

theorem writeAll_spec (S : Src) (hS : S.Acyclic) (calls : List (Kind × List DEnt)) : ∀ (w : WState), WInv S w →
    (∀ c ∈ calls, S.Has c.2) →
    WInv S (writeAll S w calls) ∧ recsOf (writeAll S w calls).lines =
      recsOf w.lines ++ calls.map fun c => (c.1, S.refsOf c.2, S.immsOf c.2) := by
  induction calls with
  | nil => intro w hw _; exact ⟨hw, by simp [writeAll]⟩
  | cons c calls ih =>
    intro w hw hh
    obtain ⟨k, es⟩ := c
    simp only [writeAll]
    obtain ⟨a, ns, e⟩ := writeRec_spec S hS w k es hw (hh (k, es) (by simp))
    obtain ⟨b, d⟩ := ih _ a fun c hc => hh c (List.mem_cons_of_mem _ hc)
    refine ⟨b, ?_⟩
    rw [d, e]
    simp only [recsOf_append, recsOf_nodes]
    simp [recsOf]

end Verif.Cali
