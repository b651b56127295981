import Verif.Snapshot.Buffers
/-!
# C20, C21, C22: packed snapshot records, node buffers, snapshot buffers
-/
namespace Verif
open Verif.CSR Verif.Buf

/-! ## C20 -/

/-- what a reader obtains from a packed record: `cali_unpack_snapshot` parses the bytes and visits the entries -/
def CSR.readBack (bytes : List Byte) : Option (List SEntry × Nat) := do
  let (v, k) ← View.parse bytes
  let es ← v.unpack
  some (es, k)

/-- C20 (any entries, any buffer): appending never accesses memory outside the given buffer, and the reported
`needed_len` is the header plus the encoded size of all entries. -/
theorem C20_append_in_bounds (L : Nat) (es : List SEntry) :
    ∃ r, (Rec.init L).append es = some r ∧ r.buffer.length = L ∧ r.size ≤ L ∧
      r.neededLen = 2 + ((refs es).flatMap vlenc).length
        + ((imms es).flatMap fun e => vlenc e.1 ++ variantPack e.2).length := by
  obtain ⟨r, h1, _, h3, h4⟩ := Safe.loop es (Rec.init L) [] [] ⟨by simp [Rec.init], by simp [Rec.init], .inr (by simp [Rec.init])⟩
  refine ⟨r, h1, by simp [h3, Rec.init], ?_, ?_⟩
  · unfold Rec.size; have : r.buffer.length = L := by simp [h3, Rec.init]
    omega
  · simpa [encNodes, encImm, Rec.init] using h4

theorem decIds_take {buf : List Byte} : ∀ {n pos : Nat} {vs : List U64} {p : Nat}, decIds buf n pos = some (vs, p) →
    vs.length = n ∧ ∀ m, ∃ q, decIds buf (min m n) pos = some (vs.take m, q)
  | 0, pos, vs, p, h => by
    simp only [decIds, Option.some.injEq, Prod.mk.injEq] at h
    obtain ⟨rfl, rfl⟩ := h
    exact ⟨rfl, fun m => ⟨pos, by simp [decIds]⟩⟩
  | n + 1, pos, vs, p, h => by
    simp only [decIds, Option.bind_eq_bind, Option.bind_eq_some_iff] at h
    obtain ⟨⟨v, k⟩, h1, ⟨ws, p'⟩, h2, h3⟩ := h
    simp only [Option.some.injEq, Prod.mk.injEq] at h3
    obtain ⟨rfl, rfl⟩ := h3
    obtain ⟨l, t⟩ := decIds_take h2
    refine ⟨by simp [l], fun m => ?_⟩
    cases m with
    | zero => exact ⟨pos, by simp [decIds]⟩
    | succ m =>
      obtain ⟨q, hq⟩ := t m
      refine ⟨q, ?_⟩
      rw [show min (m + 1) (n + 1) = min m n + 1 by omega]
      simp [decIds, h1, hq]

theorem decImms_take {buf : List Byte} : ∀ {n pos : Nat} {vs : List (U64 × CVar)} {p : Nat}, decImms buf n pos = some (vs, p) →
    vs.length = n ∧ ∀ m, ∃ q, decImms buf (min m n) pos = some (vs.take m, q)
  | 0, pos, vs, p, h => by
    simp only [decImms, Option.some.injEq, Prod.mk.injEq] at h
    obtain ⟨rfl, rfl⟩ := h
    exact ⟨rfl, fun m => ⟨pos, by simp [decImms]⟩⟩
  | n + 1, pos, vs, p, h => by
    simp only [decImms, Option.bind_eq_bind, Option.bind_eq_some_iff] at h
    obtain ⟨⟨v, k⟩, h1, ⟨w, j, o⟩, h1', ⟨ws, p'⟩, h2, h3⟩ := h
    simp only [Option.some.injEq, Prod.mk.injEq] at h3
    obtain ⟨rfl, rfl⟩ := h3
    obtain ⟨l, t⟩ := decImms_take h2
    refine ⟨by simp [l], fun m => ?_⟩
    cases m with
    | zero => exact ⟨pos, by simp [decImms]⟩
    | succ m =>
      obtain ⟨q, hq⟩ := t m
      refine ⟨q, ?_⟩
      rw [show min (m + 1) (n + 1) = min m n + 1 by omega]
      simp [decImms, h1, h1', hq]

/-- C20 (partial reading): reading at most `n` references or `n` immediates of a readable record yields the first `n` of each kind. -/
theorem C20_unpack_some (v : View) (es : List SEntry) (h : v.toEntryList = some es) (n : Nat) :
    v.unpackNodes n = some ((refs es).take n) ∧ v.unpackImm n = some ((imms es).take n) := by
  simp only [View.toEntryList, Option.bind_eq_bind, Option.bind_eq_some_iff] at h
  obtain ⟨⟨ns, p⟩, h1, ⟨is, q⟩, h2, h3⟩ := h
  simp only [Option.some.injEq] at h3
  subst h3
  have e1 : refs (ns.map SEntry.ref ++ is.map fun e => SEntry.imm e.1 e.2) = ns := by
    have a : ∀ l : List U64, refs (l.map SEntry.ref ++ is.map fun e => SEntry.imm e.1 e.2) = l ++ refs (is.map fun e => SEntry.imm e.1 e.2) := by
      intro l; induction l with
      | nil => rfl
      | cons x l ih => simpa [refs] using ih
    have b : refs (is.map fun e => SEntry.imm e.1 e.2) = [] := by
      clear h2 a; induction is with
      | nil => rfl
      | cons x l ih => simpa [refs] using ih
    rw [a, b, List.append_nil]
  have e2 : imms (ns.map SEntry.ref ++ is.map fun e => SEntry.imm e.1 e.2) = is := by
    have b : ∀ l : List (U64 × CVar), imms (l.map fun e => SEntry.imm e.1 e.2) = l := by
      intro l; induction l with
      | nil => rfl
      | cons x l ih => simpa [imms] using ih
    have a : ∀ l : List U64, imms (l.map SEntry.ref ++ is.map fun e => SEntry.imm e.1 e.2) = is := by
      intro l; induction l with
      | nil => exact b is
      | cons x l ih => simpa [imms] using ih
    exact a ns
  rw [e1, e2]
  obtain ⟨q1, h4⟩ := (decIds_take h1).2 n
  obtain ⟨q2, h5⟩ := (decImms_take h2).2 n
  exact ⟨by simp [View.unpackNodes, h4], by simp [View.unpackImm, h5]⟩

/-- C20 for records with at most four reference entries (one block), any number of immediates, any buffer of at
least two bytes: what is read back - from the bytes followed by anything, or from the record's own view - are the
accepted references followed by the accepted immediates, in order; exactly `skipped` entries are missing; nothing is
missing when everything fits (`needed_len` ≤ buffer and at most 127 entries of each kind).
Missing: more than four references, where the claim is false (`C20_violated_many_refs`). -/
theorem C20_roundtrip_partial (L : Nat) (hL : 2 ≤ L) (es : List SEntry) (h4 : (refs es).length ≤ 4)
    (hv : ∀ e ∈ imms es, ValidVar e.2) :
    ∃ r ns is, (Rec.init L).append es = some r ∧
      ns.Sublist (refs es) ∧ is.Sublist (imms es) ∧
      r.skipped + ns.length + is.length = (refs es).length + (imms es).length ∧
      (∀ tail, readBack (r.bytes ++ tail) = some (ns.map .ref ++ is.map (fun e => .imm e.1 e.2), r.bytes.length)) ∧
      r.view.toEntryList = some (ns.map .ref ++ is.map (fun e => .imm e.1 e.2)) ∧
      r.view.unpack = some (ns.map .ref ++ is.map (fun e => .imm e.1 e.2)) ∧
      (r.neededLen ≤ L → (refs es).length < 128 → (imms es).length < 128 →
        ns = refs es ∧ is = imms es ∧ r.skipped = 0) := by
  obtain ⟨r, hr, hp⟩ := Prog.loop (L := L) es (Rec.init L) [] [] [] [] (Prog.init L hL) (.inl ⟨rfl, by simpa using h4⟩)
  simp only [List.nil_append] at hp
  obtain ⟨hl, hn, ns, is, hg, hs1, hs2, hk, hf⟩ := hp
  have hv' : ∀ e ∈ is, ValidVar e.2 := fun e he => hv e (hs2.subset he)
  have main : ∀ tail, readBack (r.bytes ++ tail) = some (ns.map .ref ++ is.map (fun e => .imm e.1 e.2), r.bytes.length) := by
    intro tail
    have hb := hg.bytes
    obtain ⟨p1, p2, p3⟩ := parse_enc ns is hg.lt1 hg.lt2 hv' tail (r.bytes ++ tail) (by rw [hb])
    unfold readBack
    rw [p1]
    simp only [Option.bind_eq_bind, Option.bind_some, unpack_eq_toEntryList]
    unfold View.toEntryList
    simp only [p2, p3, Option.bind_eq_bind, Option.bind_some]
    have : r.bytes.length = 2 + (encNodes ns).length + (encImm is).length := by
      rw [hb]; simp only [List.length_append, List.length_cons, List.length_nil]; omega
    rw [this]
  have hview : r.view.toEntryList = some (ns.map .ref ++ is.map (fun e => .imm e.1 e.2)) := by
    obtain ⟨rest, hb⟩ := hg.buf
    obtain ⟨_, p2, p3⟩ := parse_enc ns is hg.lt1 hg.lt2 hv' rest r.buffer hb
    unfold View.toEntryList Rec.view
    simp only [hg.nn, hg.ni, hg.pos, p2, p3, Option.bind_eq_bind, Option.bind_some]
  refine ⟨r, ns, is, hr, hs1, hs2, hk, main, hview, ?_, ?_⟩
  · rw [unpack_eq_toEntryList, hview]
  · intro a b c
    rw [hn] at a
    obtain ⟨rfl, rfl⟩ := hf a b c
    exact ⟨rfl, rfl, by omega⟩

/-- immediates only, in any number of separate `append` calls: accepted ones are read back in order -/
theorem C20_imm_calls (L : Nat) (hL : 2 ≤ L) (calls : List (List (U64 × CVar)))
    (hv : ∀ e ∈ calls.flatten, ValidVar e.2) :
    ∃ r is, calls.foldlM (fun r c => r.appendImm c) (Rec.init L) = some r ∧ is.Sublist calls.flatten ∧
      r.skipped + is.length = calls.flatten.length ∧
      (∀ tail, readBack (r.bytes ++ tail) = some (is.map (fun e => .imm e.1 e.2), r.bytes.length)) ∧
      (r.neededLen ≤ L → calls.flatten.length < 128 → is = calls.flatten) := by
  have key : ∀ (calls : List (List (U64 × CVar))) (r : Rec) (iS : List (U64 × CVar)), Prog r L [] iS →
      ∃ r', calls.foldlM (fun r c => r.appendImm c) r = some r' ∧ Prog r' L [] (iS ++ calls.flatten) := by
    intro calls
    induction calls with
    | nil => intro r iS h; exact ⟨r, rfl, by simpa using h⟩
    | cons c cs ih =>
      intro r iS h
      obtain ⟨r1, h1, p1⟩ := Prog.immAll _ c rfl h
      obtain ⟨r2, h2, p2⟩ := ih r1 _ p1
      exact ⟨r2, by simp [List.foldlM_cons, h1, h2], by simpa using p2⟩
  obtain ⟨r, hr, hp⟩ := key calls _ _ (Prog.init L hL)
  simp only [List.nil_append] at hp
  obtain ⟨hl, hn, ns, is, hg, hs1, hs2, hk, hf⟩ := hp
  have : ns = [] := by simpa using hs1
  subst this
  have hv' : ∀ e ∈ is, ValidVar e.2 := fun e he => hv e (hs2.subset he)
  refine ⟨r, is, hr, hs2, by simpa using hk, ?_, ?_⟩
  · intro tail
    have hb := hg.bytes
    obtain ⟨p1, p2, p3⟩ := parse_enc [] is hg.lt1 hg.lt2 hv' tail (r.bytes ++ tail) (by rw [hb])
    unfold readBack
    rw [p1]
    simp only [Option.bind_eq_bind, Option.bind_some, unpack_eq_toEntryList]
    unfold View.toEntryList
    simp only [p2, p3, Option.bind_eq_bind, Option.bind_some]
    have : r.bytes.length = 2 + (encNodes []).length + (encImm is).length := by
      rw [hb]; simp only [List.length_append, List.length_cons, List.length_nil]; omega
    rw [this]
    simp
  · intro a b
    rw [hn] at a
    exact (hf a (by simp) b).2

/-- C20 is false for more than four references: five references that fit into the buffer, none reported skipped, are
not read back. -/
theorem C20_violated_many_refs :
    ∃ (L : Nat) (es : List SEntry) (r : Rec), (Rec.init L).append es = some r ∧ r.skipped = 0 ∧ r.neededLen ≤ L ∧
      (refs es).length = 5 ∧ imms es = [] ∧
      ∀ k, readBack r.bytes ≠ some (es, k) := by
  let es : List SEntry := [.ref 1, .ref 2, .ref 3, .ref 4, .ref 5]
  have hf : vlenc 1#64 = [1] ∧ vlenc 2#64 = [2] ∧ vlenc 3#64 = [3] ∧ vlenc 4#64 = [4] ∧ vlenc 5#64 = [5] := by
    refine ⟨?_, ?_, ?_, ?_, ?_⟩ <;> (rw [vlenc]; simp)
  obtain ⟨f1, f2, f3, f4, f5⟩ := hf
  refine ⟨16, es, ⟨[5, 5, 2, 3, 4, 0, 0, 0, 0, 0, 0, 0, 0, 0, 0, 0], 5, 0, 6, 1, 7, 0⟩, ?_, rfl, by decide, rfl, rfl, ?_⟩
  · have g4 : encNodes [1, 2, 3, 4] = [1, 2, 3, 4] := by
      simp only [encNodes, List.flatMap_cons, List.flatMap_nil]
      rw [show (1 : U64) = 1#64 from rfl, show (2 : U64) = 2#64 from rfl, show (3 : U64) = 3#64 from rfl,
        show (4 : U64) = 4#64 from rfl, f1, f2, f3, f4]; rfl
    have g5 : encNodes [5] = [5] := by
      simp only [encNodes, List.flatMap_cons, List.flatMap_nil]
      rw [show (5 : U64) = 5#64 from rfl, f5]; rfl
    have b1 : (Rec.init 16).appendNodeBlock [1, 2, 3, 4] =
        some ⟨[4, 1, 2, 3, 4, 0, 0, 0, 0, 0, 0, 0, 0, 0, 0, 0], 4, 0, 5, 1, 6, 0⟩ := by
      unfold Rec.appendNodeBlock
      rw [g4]
      decide +kernel
    have b2 : Rec.appendNodeBlock ⟨[4, 1, 2, 3, 4, 0, 0, 0, 0, 0, 0, 0, 0, 0, 0, 0], 4, 0, 5, 1, 6, 0⟩ [5] =
        some ⟨[5, 5, 2, 3, 4, 0, 0, 0, 0, 0, 0, 0, 0, 0, 0, 0], 5, 0, 6, 1, 7, 0⟩ := by
      unfold Rec.appendNodeBlock
      rw [g5]
      decide +kernel
    have c1 : (Rec.init 16).appendNodes [1, 2, 3, 4] =
        some ⟨[4, 1, 2, 3, 4, 0, 0, 0, 0, 0, 0, 0, 0, 0, 0, 0], 4, 0, 5, 1, 6, 0⟩ := by
      rw [Rec.appendNodes, dif_neg (by simp)]
      simp only [blocksize, List.take_succ_cons, List.take_zero, List.drop_succ_cons, List.drop_zero, b1,
        Option.bind_eq_bind, Option.bind_some]
      rw [Rec.appendNodes]; simp
    have c2 : Rec.appendNodes ⟨[4, 1, 2, 3, 4, 0, 0, 0, 0, 0, 0, 0, 0, 0, 0, 0], 4, 0, 5, 1, 6, 0⟩ [5] =
        some ⟨[5, 5, 2, 3, 4, 0, 0, 0, 0, 0, 0, 0, 0, 0, 0, 0], 5, 0, 6, 1, 7, 0⟩ := by
      rw [Rec.appendNodes, dif_neg (by simp)]
      simp only [blocksize, List.take_succ_cons, List.take_nil, List.drop_succ_cons, List.drop_nil, b2,
        Option.bind_eq_bind, Option.bind_some]
      rw [Rec.appendNodes]; simp
    simp only [es, Rec.append, Rec.appendLoop, List.nil_append, List.cons_append, List.length_cons, List.length_nil,
      blocksize, Nat.zero_add, Nat.reduceAdd, Nat.reduceEqDiff, if_true, if_false, c1, c2, Option.bind_eq_bind, Option.bind_some]
    rw [Rec.appendImm]; simp
  · intro k h
    have : readBack (Rec.bytes ⟨[5, 5, 2, 3, 4, 0, 0, 0, 0, 0, 0, 0, 0, 0, 0, 0], 5, 0, 6, 1, 7, 0⟩) =
      some ([.ref 5, .ref 2, .ref 3, .ref 4, .ref 0], 7) := by decide +kernel
    rw [this] at h
    simp only [es, Option.some.injEq, Prod.mk.injEq, List.cons.injEq, SEntry.ref.injEq] at h
    exact absurd h.1.1 (by decide)

/-- non-vacuity: a record with two references and two immediates of different types -/
example : (refs [.imm 7 (CVar.ofInt64 5), .ref 3, .empty, .ref 300, .imm 9 (CVar.ofBool true)]).length ≤ 4 ∧
    ∀ e ∈ imms [.imm 7 (CVar.ofInt64 5), .ref 3, .empty, .ref 300, .imm 9 (CVar.ofBool true)], ValidVar e.2 := by
  refine ⟨by decide, ?_⟩
  intro e he
  simp [imms] at he
  rcases he with rfl | rfl <;> (unfold ValidVar; decide)

/-! ## C21 -/

/-- C21: after appending any node records, `for_each` visits exactly these, in order; and no append writes outside
the reserved memory - whatever the initial memory and the contents of newly allocated memory. -/
theorem C21_roundtrip (g : Nat → Byte) (mem0 : List Byte) (ns : List NodeInfo)
    (hn : ∀ n ∈ ns, n.id.toNat < 2 ^ 63 ∧ n.data.length < 2 ^ 32) :
    ∃ b, ns.foldlM (fun b n => b.appendNode g n) (GBuf.init mem0) = some b ∧ b.count = ns.length ∧ b.nodes = some ns := by
  have key : ∀ (ns : List NodeInfo) (b : GBuf) (pre : List NodeInfo), Holds b (pre.map packNode) →
      ∃ b', ns.foldlM (fun b n => b.appendNode g n) b = some b' ∧ Holds b' ((pre ++ ns).map packNode) := by
    intro ns
    induction ns with
    | nil => intro b pre h; exact ⟨b, rfl, by simpa using h⟩
    | cons n ns ih =>
      intro b pre h
      obtain ⟨b1, mem, h1, hc1, hp1, hm, hh⟩ := holds_append h g (b.pos + maxPackedSize n) (packNode n)
        (by have := (packNode_length n).2; omega)
      have ha : b.appendNode g n = some ⟨b1.count + 1, b1.pos + (packNode n).length, mem⟩ := by
        unfold GBuf.appendNode
        simp only [h1, hm, Option.bind_eq_bind, Option.bind_some]
      obtain ⟨b', hb', hh'⟩ := ih ⟨b1.count + 1, b1.pos + (packNode n).length, mem⟩ (pre ++ [n]) (by simpa using hh)
      refine ⟨b', ?_, by simpa using hh'⟩
      rw [List.foldlM_cons, ha]
      exact hb'
  obtain ⟨b, hb, hp, hbs, hc⟩ := key ns (GBuf.init mem0) [] ⟨by simp [GBuf.init], by simp [GBuf.init, GBuf.bytes], rfl⟩
  simp only [List.nil_append, List.length_map] at hbs hc
  refine ⟨b, hb, hc, ?_⟩
  unfold GBuf.nodes
  rw [hc]
  refine forEach_nodes ns (fun n h => ⟨(hn n h).1, by have := (hn n h).2; omega⟩) b.mem b.pos [] (b.mem.drop b.pos) ?_ ?_
  · rw [List.nil_append, ← hbs]; unfold GBuf.bytes; simp
  · rw [← hbs]; unfold GBuf.bytes; simp; omega

/-- C21: the same holds after the bytes were transferred into another buffer with `import` (e.g. over MPI). -/
theorem C21_import (g : Nat → Byte) (b0 : GBuf) (h0 : b0.pos ≤ b0.mem.length) (ns : List NodeInfo)
    (hn : ∀ n ∈ ns, n.id.toNat < 2 ^ 63 ∧ n.data.length < 2 ^ 32) (b : GBuf)
    (hb : ns.foldlM (fun b n => b.appendNode g n) (GBuf.init []) = some b) :
    ∃ b', b0.importBytes g b.bytes b.count = some b' ∧ b'.nodes = some ns := by
  have key : ∀ (ns : List NodeInfo) (b : GBuf) (pre : List NodeInfo), Holds b (pre.map packNode) →
      ∃ b', ns.foldlM (fun b n => b.appendNode g n) b = some b' ∧ Holds b' ((pre ++ ns).map packNode) := by
    intro ns
    induction ns with
    | nil => intro b pre h; exact ⟨b, rfl, by simpa using h⟩
    | cons n ns ih =>
      intro b pre h
      obtain ⟨b1, mem, h1, hc1, hp1, hm, hh⟩ := holds_append h g (b.pos + maxPackedSize n) (packNode n)
        (by have := (packNode_length n).2; omega)
      have ha : b.appendNode g n = some ⟨b1.count + 1, b1.pos + (packNode n).length, mem⟩ := by
        unfold GBuf.appendNode
        simp only [h1, hm, Option.bind_eq_bind, Option.bind_some]
      obtain ⟨b', hb', hh'⟩ := ih ⟨b1.count + 1, b1.pos + (packNode n).length, mem⟩ (pre ++ [n]) (by simpa using hh)
      refine ⟨b', ?_, by simpa using hh'⟩
      rw [List.foldlM_cons, ha]
      exact hb'
  obtain ⟨b2, hb2, hp, hbs, hc⟩ := key ns (GBuf.init []) [] ⟨by simp [GBuf.init], by simp [GBuf.init, GBuf.bytes], rfl⟩
  rw [hb] at hb2
  simp only [Option.some.injEq] at hb2; subst hb2
  simp only [List.nil_append, List.length_map] at hbs hc
  obtain ⟨b1, e1, _, e3, e4, _⟩ := reserve_spec g b0 b.bytes.length h0
  obtain ⟨mem, hm, hml⟩ := writeAt_some b1.mem b.bytes 0 (by omega)
  refine ⟨⟨b.count, b.bytes.length, mem⟩, ?_, ?_⟩
  · unfold GBuf.importBytes
    simp only [e1, hm, Option.bind_eq_bind, Option.bind_some]
  · unfold GBuf.nodes
    simp only [hc]
    refine forEach_nodes ns (fun n h => ⟨(hn n h).1, by have := (hn n h).2; omega⟩) mem b.bytes.length [] (mem.drop b.bytes.length) ?_ ?_
    · unfold writeAt at hm
      rw [if_pos (by omega)] at hm
      simp only [Option.some.injEq] at hm
      rw [← hbs, ← hm]; simp
    · rw [← hbs]; simp

/-- non-vacuity: a root node and a child with a string value -/
example : ∀ n ∈ ([⟨300, 8, invId, .string, [102, 111]⟩, ⟨301, 300, 300, .int, [1, 0, 0, 0, 0, 0, 0, 0]⟩] : List NodeInfo),
    n.id.toNat < 2 ^ 63 ∧ n.data.length < 2 ^ 32 := by
  intro n hn
  simp at hn
  rcases hn with rfl | rfl <;> decide

/-! ## C22 -/

/-- the entries a reader gets from all records of a snapshot buffer (`for_each` with `to_entrylist`) -/
def Buf.readAll (b : GBuf) : Option (List (List SEntry)) := do
  let vs ← b.views
  vs.mapM View.toEntryList

/-- Records built from entry lists, as `aggregate_over_mpi.cpp:62` does. -/
def Buf.buildRecs (L : Nat) (ess : List (List SEntry)) : Option (List Rec) := ess.mapM fun es => (Rec.init L).append es

/-- C22: `for_each` visits the appended records in order and each unpacks to the entries its own record holds; also
after a transfer with `import`.  (Which entries a record holds is C20; the hypothesis on the number of references is
the one of `C20_roundtrip_partial`.) -/
theorem C22_roundtrip (g : Nat → Byte) (mem0 : List Byte) (L : Nat) (hL : 2 ≤ L) (ess : List (List SEntry))
    (h4 : ∀ es ∈ ess, (refs es).length ≤ 4 ∧ ∀ e ∈ imms es, ValidVar e.2) :
    ∃ rs b lists, buildRecs L ess = some rs ∧ rs.foldlM (fun b r => b.appendRec g r) (GBuf.init mem0) = some b ∧
      rs.mapM (fun r => r.view.toEntryList) = some lists ∧ readAll b = some lists ∧ lists.length = ess.length ∧
      (∀ b0 : GBuf, b0.pos ≤ b0.mem.length →
        ∃ b', b0.importBytes g b.bytes b.count = some b' ∧ readAll b' = some lists) := by
  -- every record is well formed
  have recs : ∀ (ess : List (List SEntry)), (∀ es ∈ ess, (refs es).length ≤ 4 ∧ ∀ e ∈ imms es, ValidVar e.2) →
      ∃ (rs : List Rec) (cs : List (List U64 × List (U64 × CVar))), buildRecs L ess = some rs ∧
        List.Forall₂ IsRec (rs.map Rec.bytes) cs ∧ cs.length = ess.length ∧ rs.length = ess.length ∧
        (∀ r ∈ rs, r.size ≤ r.buffer.length) ∧
        rs.mapM (fun r => r.view.toEntryList) = some (cs.map fun c => c.1.map SEntry.ref ++ c.2.map fun e => SEntry.imm e.1 e.2) := by
    intro ess
    induction ess with
    | nil => intro _; exact ⟨[], [], rfl, .nil, rfl, rfl, by simp, rfl⟩
    | cons es ess ih =>
      intro h
      obtain ⟨rs, cs, e1, e2, e3, e4, e5, e6⟩ := ih fun x hx => h x (List.mem_cons_of_mem _ hx)
      obtain ⟨ha, hvv⟩ := h es (by simp)
      obtain ⟨r, hr, hp⟩ := Prog.loop (L := L) es (Rec.init L) [] [] [] [] (Prog.init L hL) (.inl ⟨rfl, by simpa using ha⟩)
      simp only [List.nil_append] at hp
      obtain ⟨hl, hn, ns, is, hg, hs1, hs2, hk, hf⟩ := hp
      have hv' : ∀ e ∈ is, ValidVar e.2 := fun e he => hvv e (hs2.subset he)
      refine ⟨r :: rs, (ns, is) :: cs, ?_, ?_, by simp [e3], by simp [e4], ?_, ?_⟩
      · unfold buildRecs at e1 ⊢
        rw [List.mapM_cons]
        unfold Rec.append
        rw [hr]
        simp only [Option.bind_eq_bind, Option.bind_some]
        unfold Rec.append at e1
        rw [e1]; rfl
      · exact List.Forall₂.cons ⟨hg.bytes, hg.lt1, hg.lt2, hv'⟩ e2
      · intro x hx
        simp only [List.mem_cons] at hx
        rcases hx with rfl | hx
        · unfold Rec.size; omega
        · exact e5 x hx
      · have hview : r.view.toEntryList = some (ns.map .ref ++ is.map (fun e => .imm e.1 e.2)) := by
          obtain ⟨rest, hb⟩ := hg.buf
          obtain ⟨_, p2, p3⟩ := parse_enc ns is hg.lt1 hg.lt2 hv' rest r.buffer hb
          unfold View.toEntryList Rec.view
          simp only [hg.nn, hg.ni, hg.pos, p2, p3, Option.bind_eq_bind, Option.bind_some]
        rw [List.mapM_cons, hview]
        simp only [Option.bind_eq_bind, Option.bind_some, e6]
        rfl
  obtain ⟨rs, cs, e1, e2, e3, e4, e5, e6⟩ := recs ess h4
  have key : ∀ (rs : List Rec), (∀ r ∈ rs, r.size ≤ r.buffer.length) → ∀ (b : GBuf) (pre : List (List Byte)), Holds b pre →
      ∃ b', rs.foldlM (fun b r => b.appendRec g r) b = some b' ∧ Holds b' (pre ++ rs.map Rec.bytes) := by
    intro rs
    induction rs with
    | nil => intro _ b pre h; exact ⟨b, rfl, by simpa using h⟩
    | cons r rs ih =>
      intro hs b pre h
      have hsz := hs r (by simp)
      have hlen : r.bytes.length = r.size := by unfold Rec.bytes; simp; omega
      obtain ⟨b1, mem, h1, hc1, hp1, hm, hh⟩ := holds_append h g (b.pos + r.size) r.bytes (by omega)
      have ha : b.appendRec g r = some ⟨b1.count + 1, b1.pos + r.bytes.length, mem⟩ := by
        unfold GBuf.appendRec
        have : readAt r.buffer 0 r.size = some r.bytes := by
          unfold readAt Rec.bytes; rw [if_pos (by omega)]; simp
        simp only [h1, this, hm, Option.bind_eq_bind, Option.bind_some, hlen]
      obtain ⟨b', hb', hh'⟩ := ih (fun x hx => hs x (List.mem_cons_of_mem _ hx)) ⟨b1.count + 1, b1.pos + r.bytes.length, mem⟩ (pre ++ [r.bytes]) hh
      refine ⟨b', ?_, by simpa using hh'⟩
      rw [List.foldlM_cons, ha]
      exact hb'
  obtain ⟨b, hb, hp, hbs, hc⟩ := key rs e5 (GBuf.init mem0) [] ⟨by simp [GBuf.init], by simp [GBuf.init, GBuf.bytes], rfl⟩
  simp only [List.nil_append, List.length_map] at hbs hc
  refine ⟨rs, b, _, e1, hb, e6, ?_, by simp [e3], ?_⟩
  · obtain ⟨vs, hv1, hv2⟩ := forEach_recs cs _ e2 b.mem b.pos [] (b.mem.drop b.pos)
      (by rw [List.nil_append, ← hbs]; unfold GBuf.bytes; simp) (by rw [← hbs]; unfold GBuf.bytes; simp; omega)
    unfold readAll GBuf.views
    rw [hc, e4, ← e3]
    simp only [List.length_nil] at hv1
    simp only [hv1, Option.bind_eq_bind, Option.bind_some, hv2]
  · intro b0 h0
    obtain ⟨b1, f1, _, f3, f4, _⟩ := reserve_spec g b0 b.bytes.length h0
    obtain ⟨mem, hm, hml⟩ := writeAt_some b1.mem b.bytes 0 (by omega)
    refine ⟨⟨b.count, b.bytes.length, mem⟩, ?_, ?_⟩
    · unfold GBuf.importBytes
      simp only [f1, hm, Option.bind_eq_bind, Option.bind_some]
    · have hmem : mem = [] ++ (rs.map Rec.bytes).flatten ++ mem.drop b.bytes.length := by
        unfold writeAt at hm
        rw [if_pos (by omega)] at hm
        simp only [Option.some.injEq] at hm
        rw [← hbs, ← hm]; simp
      obtain ⟨vs, hv1, hv2⟩ := forEach_recs cs _ e2 mem b.bytes.length [] (mem.drop b.bytes.length) hmem (by rw [← hbs]; simp)
      unfold readAll GBuf.views
      simp only [hc, e4, ← e3]
      simp only [List.length_nil] at hv1
      simp only [hv1, Option.bind_eq_bind, Option.bind_some, hv2]

/-- non-vacuity: two records, one of them empty -/
example : ∀ es ∈ ([[.ref 12, .imm 40 (CVar.ofUInt 7)], []] : List (List SEntry)),
    (refs es).length ≤ 4 ∧ ∀ e ∈ imms es, ValidVar e.2 := by
  intro es hes
  simp at hes
  rcases hes with rfl | rfl
  · refine ⟨by decide, ?_⟩
    intro e he
    simp [imms] at he
    subst he; unfold ValidVar; decide
  · exact ⟨by decide, by simp [imms]⟩

end Verif
