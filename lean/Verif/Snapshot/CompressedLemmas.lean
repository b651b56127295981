import Verif.Snapshot.Compressed
import Verif.Vlenc.Lemmas
import Verif.Variant.Lemmas
import Mathlib.Data.List.Sublists
namespace Verif.CSR
open Verif

/-- values whose type code is one of the known types (every variant the API produces) -/
def ValidVar (v : CVar) : Prop := (v.ts &&& 0xFF#64).toNat ≤ maxType

theorem variantUnpack_pack (v : CVar) (rest : List Byte) (h : ValidVar v) :
    variantUnpack (variantPack v ++ rest) = some (v, (variantPack v).length, true) := by
  unfold variantUnpack variantPack
  rw [List.append_assoc, vldec_vlenc_append]
  have : ¬ (v.ts &&& 0xFF#64).toNat > maxType := by unfold ValidVar at h; omega
  simp only [Option.bind_eq_bind, Option.bind_some, this, if_false, List.drop_left, vldec_vlenc_append,
    List.length_append]

theorem decIds_enc (ns : List U64) : ∀ (A R : List Byte),
    decIds (A ++ encNodes ns ++ R) ns.length A.length = some (ns, A.length + (encNodes ns).length) := by
  induction ns with
  | nil => intro A R; simp [decIds, encNodes]
  | cons x ns ih =>
    intro A R
    have e : A ++ encNodes (x :: ns) ++ R = A ++ (vlenc x ++ (encNodes ns ++ R)) := by simp [encNodes]
    have h := ih (A ++ vlenc x) R
    rw [List.length_append] at h
    simp only [List.length_cons, decIds]
    rw [e, List.drop_left, vldec_vlenc_append]
    simp only [Option.bind_eq_bind, Option.bind_some]
    rw [show A ++ (vlenc x ++ (encNodes ns ++ R)) = A ++ vlenc x ++ encNodes ns ++ R by simp, h]
    simp [encNodes]
    omega

theorem decImms_enc (is : List (U64 × CVar)) : ∀ (A R : List Byte), (∀ e ∈ is, ValidVar e.2) →
    decImms (A ++ encImm is ++ R) is.length A.length = some (is, A.length + (encImm is).length) := by
  induction is with
  | nil => intro A R _; simp [decImms, encImm]
  | cons x is ih =>
    intro A R hv
    obtain ⟨a, v⟩ := x
    have e : A ++ encImm ((a, v) :: is) ++ R = A ++ (vlenc a ++ (variantPack v ++ (encImm is ++ R))) := by
      simp [encImm]
    have h := ih (A ++ vlenc a ++ variantPack v) R (fun e he => hv e (List.mem_cons_of_mem _ he))
    simp only [List.length_append] at h
    simp only [List.length_cons, decImms]
    rw [e, List.drop_left, vldec_vlenc_append]
    simp only [Option.bind_eq_bind, Option.bind_some]
    rw [← List.length_append, ← List.append_assoc A, List.drop_left, variantUnpack_pack v _ (hv (a, v) (by simp))]
    simp only [Option.bind_some]
    rw [List.length_append, show A ++ vlenc a ++ (variantPack v ++ (encImm is ++ R)) = A ++ vlenc a ++ variantPack v ++ encImm is ++ R by simp, h]
    simp [encImm]
    omega

/-- a record whose buffer holds exactly the node ids `ns` and the immediates `is` -/
structure Good (r : Rec) (ns : List U64) (is : List (U64 × CVar)) : Prop where
  buf : ∃ rest, r.buffer = [BitVec.ofNat 8 ns.length] ++ encNodes ns ++ ([BitVec.ofNat 8 is.length] ++ encImm is) ++ rest
  nn : r.numNodes = ns.length
  ni : r.numImm = is.length
  pos : r.immPos = 1 + (encNodes ns).length
  len : r.immLen = 1 + (encImm is).length
  lt1 : ns.length < 128
  lt2 : is.length < 128

theorem Good.init (L : Nat) (h : 2 ≤ L) : Good (Rec.init L) [] [] := by
  refine ⟨⟨List.replicate (L - 2) 0, ?_⟩, rfl, rfl, rfl, rfl, by simp, by simp⟩
  obtain ⟨k, rfl⟩ : ∃ k, L = k + 2 := ⟨L - 2, by omega⟩
  simp [Rec.init, encNodes, encImm, List.replicate_succ]

theorem incrAt_append (a c : List Byte) (b : Byte) (n : Nat) :
    incrAt (a ++ [b] ++ c) a.length n = some (a ++ [b + BitVec.ofNat 8 n] ++ c) := by
  unfold incrAt
  have : (a ++ [b] ++ c)[a.length]? = some b := by simp
  rw [this]
  simp only [Option.bind_eq_bind, Option.bind_some]
  exact writeAt_append a [b] c _ rfl

theorem ofNat8_add (a b : Nat) : BitVec.ofNat 8 a + BitVec.ofNat 8 b = BitVec.ofNat 8 (a + b) :=
  (BitVec.ofNat_add a b).symm

theorem Good.node {r : Rec} {is : List (U64 × CVar)} (h : Good r [] is) (ids : List U64)
    (hc : r.numNodes + ids.length < 128 ∧ r.immPos + r.immLen + (encNodes ids).length ≤ r.buffer.length) :
    ∃ r', r.appendNodeBlock ids = some r' ∧ Good r' ids is ∧ r'.skipped = r.skipped ∧
      r'.neededLen = r.neededLen + (encNodes ids).length ∧ r'.buffer.length = r.buffer.length := by
  obtain ⟨⟨rest, hb⟩, hnn, hni, hpos, hlen, h1, h2⟩ := h
  have hp1 : r.immPos = ([BitVec.ofNat 8 0] : List Byte).length := by simp [hpos, encNodes]
  have hl1 : r.immLen = ([BitVec.ofNat 8 is.length] ++ encImm is : List Byte).length := by simp [hlen]; omega
  have hb' : r.buffer = [BitVec.ofNat 8 0] ++ ([BitVec.ofNat 8 is.length] ++ encImm is) ++ rest := by
    rw [hb]; simp [encNodes]
  have hrl : (encNodes ids).length ≤ rest.length := by
    have := hc.2
    rw [hb', hp1, hl1] at this
    simp only [List.length_append] at this
    omega
  obtain ⟨X, hX, hm⟩ := saveMemmove_append [BitVec.ofNat 8 0] ([BitVec.ofNat 8 is.length] ++ encImm is) rest
    (encNodes ids).length hrl
  have hm' : saveMemmove r.buffer (r.immPos + (encNodes ids).length) r.immPos r.immLen =
      some ([BitVec.ofNat 8 0] ++ X ++ ([BitVec.ofNat 8 is.length] ++ encImm is) ++ rest.drop (encNodes ids).length) := by
    rw [hp1, hl1, hb']; exact hm
  unfold Rec.appendNodeBlock
  simp only []
  rw [if_pos hc, hm']
  simp only [Option.bind_eq_bind, Option.bind_some]
  have hw := writeAt_append [BitVec.ofNat 8 0] X (([BitVec.ofNat 8 is.length] ++ encImm is) ++ rest.drop (encNodes ids).length)
    (encNodes ids) hX
  rw [← List.append_assoc] at hw
  rw [show ([BitVec.ofNat 8 0] : List Byte).length = 1 from rfl] at hw
  rw [hw]
  simp only [Option.bind_some]
  have hi := incrAt_append [] (encNodes ids ++ (([BitVec.ofNat 8 is.length] ++ encImm is) ++ rest.drop (encNodes ids).length))
    (BitVec.ofNat 8 0) ids.length
  rw [show [BitVec.ofNat 8 0] ++ encNodes ids ++ ([BitVec.ofNat 8 is.length] ++ encImm is ++ rest.drop (encNodes ids).length) =
    [] ++ [BitVec.ofNat 8 0] ++ (encNodes ids ++ (([BitVec.ofNat 8 is.length] ++ encImm is) ++ rest.drop (encNodes ids).length)) by simp]
  rw [show ([] : List Byte).length = 0 from rfl] at hi
  rw [hi]
  simp only [Option.bind_some]
  refine ⟨_, rfl, ⟨⟨rest.drop (encNodes ids).length, ?_⟩, ?_, hni, ?_, hlen, ?_, h2⟩, rfl, rfl, ?_⟩
  · simp
  · simp only [hnn]; simp
  · simp only [hp1]; simp
  · simp only [hnn] at hc; simpa using hc.1
  · simp only [hb', List.length_append, List.length_drop]
    simp only [List.length_cons, List.length_nil]
    omega

theorem Good.imm {r : Rec} {ns : List U64} {is : List (U64 × CVar)} (h : Good r ns is) (es : List (U64 × CVar))
    (hc : r.numImm + es.length < 128 ∧ r.immPos + r.immLen + (encImm es).length ≤ r.buffer.length) :
    ∃ r', r.appendImmBlock es = some r' ∧ Good r' ns (is ++ es) ∧ r'.skipped = r.skipped ∧
      r'.neededLen = r.neededLen + (encImm es).length ∧ r'.buffer.length = r.buffer.length := by
  obtain ⟨⟨rest, hb⟩, hnn, hni, hpos, hlen, h1, h2⟩ := h
  have hp1 : r.immPos = ([BitVec.ofNat 8 ns.length] ++ encNodes ns : List Byte).length := by simp [hpos]; omega
  have hl1 : r.immPos + r.immLen = ([BitVec.ofNat 8 ns.length] ++ encNodes ns ++ ([BitVec.ofNat 8 is.length] ++ encImm is) : List Byte).length := by
    rw [hlen, hp1]; simp; omega
  have hrl : (encImm es).length ≤ rest.length := by
    have := hc.2
    rw [hl1, hb] at this
    simp only [List.length_append] at this
    omega
  have hsplit : rest = rest.take (encImm es).length ++ rest.drop (encImm es).length := by simp
  have hw := writeAt_append ([BitVec.ofNat 8 ns.length] ++ encNodes ns ++ ([BitVec.ofNat 8 is.length] ++ encImm is))
    (rest.take (encImm es).length) (rest.drop (encImm es).length) (encImm es) (by simp; omega)
  rw [List.append_assoc, ← hsplit] at hw
  unfold Rec.appendImmBlock
  simp only []
  rw [if_pos hc, hl1]
  conv => enter [1, r', 1, 1]; rw [hb]
  rw [hw]
  simp only [Option.bind_eq_bind, Option.bind_some]
  have hi := incrAt_append ([BitVec.ofNat 8 ns.length] ++ encNodes ns)
    (encImm is ++ (encImm es ++ rest.drop (encImm es).length)) (BitVec.ofNat 8 is.length) es.length
  rw [hp1]
  rw [show [BitVec.ofNat 8 ns.length] ++ encNodes ns ++ ([BitVec.ofNat 8 is.length] ++ encImm is) ++ encImm es ++ rest.drop (encImm es).length
    = ([BitVec.ofNat 8 ns.length] ++ encNodes ns) ++ [BitVec.ofNat 8 is.length] ++ (encImm is ++ (encImm es ++ rest.drop (encImm es).length)) by simp]
  rw [hi]
  simp only [Option.bind_some]
  refine ⟨_, rfl, ⟨⟨rest.drop (encImm es).length, ?_⟩, hnn, ?_, ?_, ?_, h1, ?_⟩, rfl, rfl, ?_⟩
  · simp only [ofNat8_add, List.length_append]
    simp [encImm]
  · simp only [hni, List.length_append]
  · simp; omega
  · simp only [hlen, encImm]; simp; omega
  · simp only [hni] at hc; simpa using hc.1
  · simp only [hb, List.length_append, List.length_drop]
    simp only [List.length_cons, List.length_nil]
    omega

/-- progress invariant of a sequence of appends with at most one node block -/
structure Prog (r : Rec) (L : Nat) (ns : List U64) (is : List (U64 × CVar)) : Prop where
  len : r.buffer.length = L
  needed : r.neededLen = 2 + (encNodes ns).length + (encImm is).length
  ex : ∃ ns' is', Good r ns' is' ∧ ns'.Sublist ns ∧ is'.Sublist is ∧
    r.skipped + ns'.length + is'.length = ns.length + is.length ∧
    (2 + (encNodes ns).length + (encImm is).length ≤ L → ns.length < 128 → is.length < 128 → ns' = ns ∧ is' = is)

theorem Prog.init (L : Nat) (h : 2 ≤ L) : Prog (Rec.init L) L [] [] :=
  ⟨by simp [Rec.init], rfl, [], [], Good.init L h, .slnil, .slnil, rfl, fun _ _ _ => ⟨rfl, rfl⟩⟩

theorem Prog.node {r : Rec} {L : Nat} {is : List (U64 × CVar)} (h : Prog r L [] is) (ids : List U64) :
    ∃ r', r.appendNodeBlock ids = some r' ∧ Prog r' L ids is := by
  obtain ⟨hl, hn, ns', is', hg, hs1, hs2, hk, hf⟩ := h
  have : ns' = [] := by simpa using hs1
  subst this
  by_cases hc : r.numNodes + ids.length < 128 ∧ r.immPos + r.immLen + (encNodes ids).length ≤ r.buffer.length
  · obtain ⟨r', hr, hg', hsk, hnl, hbl⟩ := hg.node ids hc
    refine ⟨r', hr, by omega, ?_, ids, is', hg', .refl _, hs2, ?_, ?_⟩
    · rw [hnl, hn]; simp [encNodes]; omega
    · rw [hsk]; simp at hk; omega
    · intro a b c
      refine ⟨rfl, (hf ?_ (by simp) c).2⟩
      simp [encNodes] at a ⊢; omega
  · refine ⟨{ r with skipped := r.skipped + ids.length, neededLen := r.neededLen + (encNodes ids).length }, by unfold Rec.appendNodeBlock; simp only []; rw [if_neg hc], hl, ?_, [], is', ?_, by simp, hs2, ?_, ?_⟩
    · simp only [hn]; simp [encNodes]; omega
    · exact ⟨hg.buf, hg.nn, hg.ni, hg.pos, hg.len, hg.lt1, hg.lt2⟩
    · simp only [List.length_nil] at hk ⊢; omega
    · intro a b c
      obtain ⟨_, rfl⟩ := hf (by simp [encNodes] at a ⊢; omega) (by simp) c
      exfalso
      apply hc
      rw [hg.nn, hg.pos, hg.len, hl]
      simp [encNodes] at a ⊢
      exact ⟨b, by omega⟩

theorem Prog.imm {r : Rec} {L : Nat} {ns : List U64} {is : List (U64 × CVar)} (h : Prog r L ns is) (es : List (U64 × CVar)) :
    ∃ r', r.appendImmBlock es = some r' ∧ Prog r' L ns (is ++ es) := by
  obtain ⟨hl, hn, ns', is', hg, hs1, hs2, hk, hf⟩ := h
  by_cases hc : r.numImm + es.length < 128 ∧ r.immPos + r.immLen + (encImm es).length ≤ r.buffer.length
  · obtain ⟨r', hr, hg', hsk, hnl, hbl⟩ := hg.imm es hc
    refine ⟨r', hr, by omega, ?_, ns', is' ++ es, hg', hs1, hs2.append (.refl _), ?_, ?_⟩
    · rw [hnl, hn]; simp [encImm]; omega
    · rw [hsk]; simp; omega
    · intro a b c
      obtain ⟨rfl, rfl⟩ := hf (by simp [encImm] at a ⊢; omega) b (by simp at c; omega)
      exact ⟨rfl, rfl⟩
  · refine ⟨{ r with skipped := r.skipped + es.length, neededLen := r.neededLen + (encImm es).length }, by unfold Rec.appendImmBlock; simp only []; rw [if_neg hc], hl, ?_, ns', is', ?_, hs1, ?_, ?_, ?_⟩
    · simp only [hn]; simp [encImm]; omega
    · exact ⟨hg.buf, hg.nn, hg.ni, hg.pos, hg.len, hg.lt1, hg.lt2⟩
    · exact hs2.trans (List.sublist_append_left _ _)
    · simp only [List.length_append]; omega
    · intro a b c
      obtain ⟨rfl, rfl⟩ := hf (by simp [encImm] at a ⊢; omega) b (by simp at c; omega)
      exfalso
      apply hc
      rw [hg.ni, hg.pos, hg.len, hl]
      simp [encImm] at a c ⊢
      exact ⟨c, by omega⟩

theorem Prog.immAll {L : Nat} {ns : List U64} (n : Nat) : ∀ {r : Rec} {is : List (U64 × CVar)} (es : List (U64 × CVar)), es.length = n →
    Prog r L ns is → ∃ r', r.appendImm es = some r' ∧ Prog r' L ns (is ++ es) := by
  induction n using Nat.strongRecOn with
  | _ n ih =>
    intro r is es hn h
    rw [Rec.appendImm]
    by_cases h0 : es = []
    · subst h0; exact ⟨r, by simp, by simpa using h⟩
    · rw [dif_neg h0]
      have : 0 < es.length := List.length_pos_iff.2 h0
      obtain ⟨r1, hr1, hp1⟩ := h.imm (es.take blocksize)
      obtain ⟨r2, hr2, hp2⟩ := ih (es.drop blocksize).length (by simp [blocksize]; omega) (es.drop blocksize) rfl hp1
      refine ⟨r2, by simp [hr1, hr2], ?_⟩
      simpa using hp2

theorem Prog.nodeAll {r : Rec} {L : Nat} {is : List (U64 × CVar)} (h : Prog r L [] is) (ids : List U64)
    (hl : ids.length ≤ 4) : ∃ r', r.appendNodes ids = some r' ∧ Prog r' L ids is := by
  rw [Rec.appendNodes]
  by_cases h0 : ids = []
  · subst h0; exact ⟨r, by simp, h⟩
  · rw [dif_neg h0]
    obtain ⟨r', hr, hp⟩ := h.node ids
    have e1 : ids.take blocksize = ids := List.take_of_length_le hl
    have e2 : ids.drop blocksize = [] := List.drop_of_length_le hl
    refine ⟨r', ?_, hp⟩
    rw [e1, e2, hr]
    simp [Rec.appendNodes]

/-- node ids of the reference entries, in order -/
def refs : List SEntry → List U64
  | [] => []
  | .ref i :: es => i :: refs es
  | _ :: es => refs es

/-- (attribute, value) pairs of the immediate entries, in order -/
def imms : List SEntry → List (U64 × CVar)
  | [] => []
  | .imm a v :: es => (a, v) :: imms es
  | _ :: es => imms es

theorem Prog.loop {L : Nat} (es : List SEntry) : ∀ (r : Rec) (nS : List U64) (iS : List (U64 × CVar)) (nodes : List U64) (im : List (U64 × CVar)),
    Prog r L nS iS → (nS = [] ∧ nodes.length + (refs es).length ≤ 4 ∨ nodes = [] ∧ refs es = []) →
    ∃ r', r.appendLoop nodes im es = some r' ∧ Prog r' L (nS ++ nodes ++ refs es) (iS ++ im ++ imms es) := by
  induction es with
  | nil =>
    intro r nS iS nodes im h hc
    simp only [Rec.appendLoop, refs, imms, List.append_nil]
    rcases hc with ⟨rfl, hl⟩ | ⟨rfl, _⟩
    · obtain ⟨r1, hr1, hp1⟩ := h.nodeAll nodes (by simpa [refs] using hl)
      obtain ⟨r2, hr2, hp2⟩ := Prog.immAll _ im rfl hp1
      exact ⟨r2, by simp [hr1, hr2], by simpa using hp2⟩
    · obtain ⟨r2, hr2, hp2⟩ := Prog.immAll _ im rfl h
      refine ⟨r2, ?_, by simpa using hp2⟩
      rw [Rec.appendNodes]; simp [hr2]
  | cons e es ih =>
    intro r nS iS nodes im h hc
    cases e with
    | empty =>
      simp only [Rec.appendLoop, refs, imms] at hc ⊢
      exact ih r nS iS nodes im h hc
    | ref id =>
      simp only [Rec.appendLoop, refs, imms] at hc ⊢
      rcases hc with ⟨rfl, hl⟩ | ⟨_, h0⟩
      swap
      · simp at h0
      simp only [List.length_cons] at hl
      by_cases hb : (nodes ++ [id]).length = blocksize
      · rw [if_pos hb]
        obtain ⟨r1, hr1, hp1⟩ := h.nodeAll (nodes ++ [id]) (by simp [blocksize] at hb ⊢; omega)
        have : refs es = [] := by
          simp [blocksize] at hb
          exact List.eq_nil_of_length_eq_zero (by omega)
        obtain ⟨r2, hr2, hp2⟩ := ih r1 _ iS [] im hp1 (.inr ⟨rfl, this⟩)
        refine ⟨r2, by simp [hr1, hr2], ?_⟩
        simpa using hp2
      · rw [if_neg hb]
        obtain ⟨r2, hr2, hp2⟩ := ih r _ iS (nodes ++ [id]) im h (.inl ⟨rfl, by simp; omega⟩)
        refine ⟨r2, hr2, ?_⟩
        simpa using hp2
    | imm a v =>
      simp only [Rec.appendLoop, refs, imms] at hc ⊢
      by_cases hb : (im ++ [(a, v)]).length = blocksize
      · rw [if_pos hb]
        obtain ⟨r1, hr1, hp1⟩ := Prog.immAll _ (im ++ [(a, v)]) rfl h
        obtain ⟨r2, hr2, hp2⟩ := ih r1 nS _ nodes [] hp1 hc
        refine ⟨r2, by simp [hr1, hr2], ?_⟩
        simpa using hp2
      · rw [if_neg hb]
        obtain ⟨r2, hr2, hp2⟩ := ih r nS iS nodes (im ++ [(a, v)]) h hc
        refine ⟨r2, hr2, ?_⟩
        simpa using hp2

theorem Good.bytes {r : Rec} {ns : List U64} {is : List (U64 × CVar)} (h : Good r ns is) :
    r.bytes = [BitVec.ofNat 8 ns.length] ++ encNodes ns ++ ([BitVec.ofNat 8 is.length] ++ encImm is) := by
  obtain ⟨⟨rest, hb⟩, hnn, hni, hpos, hlen, h1, h2⟩ := h
  unfold Rec.bytes Rec.size
  have e : r.immPos + r.immLen = ([BitVec.ofNat 8 ns.length] ++ encNodes ns ++ ([BitVec.ofNat 8 is.length] ++ encImm is)).length := by
    rw [hpos, hlen]; simp only [List.length_append, List.length_cons, List.length_nil]
  rw [e, hb]
  rw [List.take_append_of_le_length (by omega), List.take_of_length_le]
  simp only [List.length_append]; omega

theorem parse_enc (ns : List U64) (is : List (U64 × CVar)) (h1 : ns.length < 128) (h2 : is.length < 128)
    (hv : ∀ e ∈ is, ValidVar e.2) (R buf : List Byte)
    (hb : buf = [BitVec.ofNat 8 ns.length] ++ encNodes ns ++ ([BitVec.ofNat 8 is.length] ++ encImm is) ++ R) :
    View.parse buf = some (⟨buf, ns.length, is.length, 1 + (encNodes ns).length, 1 + (encImm is).length⟩,
      2 + (encNodes ns).length + (encImm is).length) ∧
    decIds buf ns.length 1 = some (ns, 1 + (encNodes ns).length) ∧
    decImms buf is.length (1 + (encNodes ns).length + 1) = some (is, 2 + (encNodes ns).length + (encImm is).length) := by
  have d1 : decIds buf ns.length 1 = some (ns, 1 + (encNodes ns).length) := by
    have := decIds_enc ns [BitVec.ofNat 8 ns.length] ([BitVec.ofNat 8 is.length] ++ encImm is ++ R)
    rw [hb]
    simpa using this
  have d2 : decImms buf is.length (1 + (encNodes ns).length + 1) = some (is, 2 + (encNodes ns).length + (encImm is).length) := by
    have := decImms_enc is ([BitVec.ofNat 8 ns.length] ++ encNodes ns ++ [BitVec.ofNat 8 is.length]) R hv
    rw [hb]
    simp only [List.length_append, List.length_cons, List.length_nil, Nat.zero_add] at this
    rw [show [BitVec.ofNat 8 ns.length] ++ encNodes ns ++ ([BitVec.ofNat 8 is.length] ++ encImm is) ++ R =
      [BitVec.ofNat 8 ns.length] ++ encNodes ns ++ [BitVec.ofNat 8 is.length] ++ encImm is ++ R by simp, this]
    congr 2; omega
  refine ⟨?_, d1, d2⟩
  have g0 : buf[0]? = some (BitVec.ofNat 8 ns.length) := by rw [hb]; simp
  have g1 : buf[1 + (encNodes ns).length]? = some (BitVec.ofNat 8 is.length) := by
    rw [hb, List.append_assoc, List.getElem?_append_right (by simp; omega)]
    simp [Nat.add_comm]
    rfl
  have t1 : (BitVec.ofNat 8 ns.length).toNat = ns.length := by simp; omega
  have t2 : (BitVec.ofNat 8 is.length).toNat = is.length := by simp; omega
  unfold View.parse
  rw [g0]
  simp only [Option.bind_eq_bind, Option.bind_some, t1]
  rw [d1]
  simp only [Option.bind_some, g1, t2]
  rw [d2]
  simp only [Option.bind_some, Option.some.injEq, Prod.mk.injEq, View.mk.injEq, true_and, and_true]
  omega

/-! ### `unpack` visits what `to_entrylist` returns -/

theorem unpackLoop_imm (v : View) : ∀ (k i pos : Nat), i + k = v.numImm → (0 < i → True) →
    v.unpackLoop k (v.numNodes + i) pos =
      (decImms v.buffer k (if i = 0 then v.immPos + 1 else (if v.numNodes + i = 0 then 1 else pos))).map
        (fun x => x.1.map fun e => .imm e.1 e.2) := by
  intro k
  induction k with
  | zero => intro i pos _ _; simp [View.unpackLoop, decImms]
  | succ k ih =>
    intro i pos hi _
    have hlt : v.numNodes + i < v.numNodes + v.numImm := by omega
    simp only [View.unpackLoop, if_pos hlt, View.unpackNext, decImms]
    rw [if_neg (show ¬ v.numNodes + i < v.numNodes by omega)]
    have e : (if v.numNodes + i = v.numNodes then v.immPos + 1 else if v.numNodes + i = 0 then 1 else pos)
        = (if i = 0 then v.immPos + 1 else (if v.numNodes + i = 0 then 1 else pos)) := by
      by_cases h : i = 0 <;> simp [h]
    rw [e]
    generalize (if i = 0 then v.immPos + 1 else (if v.numNodes + i = 0 then 1 else pos)) = P
    cases h1 : vldec (v.buffer.drop P) with
    | none => simp
    | some x =>
      obtain ⟨a, p⟩ := x
      simp only [Option.bind_eq_bind, Option.bind_some]
      cases h2 : variantUnpack (v.buffer.drop (P + p)) with
      | none => simp
      | some y =>
        obtain ⟨b, q, ok⟩ := y
        simp only [Option.bind_some]
        have := ih (i + 1) (P + p + q) (by omega) (by simp)
        rw [← Nat.add_assoc] at this
        rw [this]
        simp only [Nat.succ_ne_zero, if_false, Nat.add_eq_zero_iff, and_false]
        cases decImms v.buffer k (P + p + q) <;> simp

theorem unpackLoop_node (v : View) : ∀ (k n pos : Nat), n + k = v.numNodes →
    v.unpackLoop (k + v.numImm) n pos =
      (do
        let (ns, _) ← decIds v.buffer k (if n = 0 then 1 else pos)
        let (is, _) ← decImms v.buffer v.numImm (v.immPos + 1)
        some (ns.map .ref ++ is.map fun e => .imm e.1 e.2)) := by
  intro k
  induction k with
  | zero =>
    intro n pos hn
    have := unpackLoop_imm v v.numImm 0 pos (by omega) (by simp)
    simp only [Nat.add_zero, if_true] at this
    have hn' : n = v.numNodes := by omega
    subst hn'
    simp only [Nat.zero_add, this, decIds]
    cases decImms v.buffer v.numImm (v.immPos + 1) <;> simp
  | succ k ih =>
    intro n pos hn
    rw [show k + 1 + v.numImm = (k + v.numImm) + 1 by omega]
    simp only [View.unpackLoop, if_pos (show n < v.numNodes + v.numImm by omega), View.unpackNext, decIds,
      if_pos (show n < v.numNodes by omega)]
    generalize (if n = 0 then 1 else pos) = P
    cases h1 : vldec (v.buffer.drop P) with
    | none => simp
    | some x =>
      obtain ⟨a, p⟩ := x
      simp only [Option.bind_eq_bind, Option.bind_some]
      rw [ih (n + 1) (P + p) (by omega)]
      simp only [Nat.succ_ne_zero, if_false]
      cases decIds v.buffer k (P + p) with
      | none => simp
      | some y =>
        simp only [Option.bind_eq_bind, Option.bind_some]
        cases decImms v.buffer v.numImm (v.immPos + 1) <;> simp

theorem unpack_eq_toEntryList (v : View) : v.unpack = v.toEntryList := by
  unfold View.unpack View.toEntryList
  have := unpackLoop_node v v.numNodes 0 1 (by omega)
  simpa using this

/-! ### no out-of-bounds access, for any sequence of appends -/

/-- bounds invariant -/
def Safe (r : Rec) : Prop := 1 ≤ r.immPos ∧ 1 ≤ r.immLen ∧ (r.immPos + r.immLen ≤ r.buffer.length ∨ r.immPos = 1 ∧ r.immLen = 1)

theorem Safe.node {r : Rec} (h : Safe r) (ids : List U64) : ∃ r', r.appendNodeBlock ids = some r' ∧ Safe r' ∧
    r'.buffer.length = r.buffer.length ∧ r'.neededLen = r.neededLen + (encNodes ids).length := by
  unfold Rec.appendNodeBlock
  simp only []
  by_cases hc : r.numNodes + ids.length < 128 ∧ r.immPos + r.immLen + (encNodes ids).length ≤ r.buffer.length
  · rw [if_pos hc]
    obtain ⟨b1, e1, l1⟩ := saveMemmove_some r.buffer (r.immPos + (encNodes ids).length) r.immPos r.immLen (by omega) (by omega)
    obtain ⟨b2, e2, l2⟩ := writeAt_some b1 (encNodes ids) 1 (by unfold Safe at h; omega)
    have hb : ∃ x, b2[0]? = some x := ⟨b2[0]'(by unfold Safe at h; omega), by simp⟩
    obtain ⟨x, hx⟩ := hb
    obtain ⟨b3, e3, l3⟩ := writeAt_some b2 [x + BitVec.ofNat 8 ids.length] 0 (by unfold Safe at h; simp; omega)
    rw [e1]
    simp only [Option.bind_eq_bind, Option.bind_some, e2, incrAt, hx, e3]
    refine ⟨_, rfl, ?_, by simp; omega, rfl⟩
    unfold Safe at h ⊢
    simp only
    omega
  · rw [if_neg hc]
    exact ⟨_, rfl, h, rfl, rfl⟩

theorem Safe.imm {r : Rec} (h : Safe r) (es : List (U64 × CVar)) : ∃ r', r.appendImmBlock es = some r' ∧ Safe r' ∧
    r'.buffer.length = r.buffer.length ∧ r'.neededLen = r.neededLen + (encImm es).length := by
  unfold Rec.appendImmBlock
  simp only []
  by_cases hc : r.numImm + es.length < 128 ∧ r.immPos + r.immLen + (encImm es).length ≤ r.buffer.length
  · rw [if_pos hc]
    obtain ⟨b2, e2, l2⟩ := writeAt_some r.buffer (encImm es) (r.immPos + r.immLen) (by omega)
    have hb : ∃ x, b2[r.immPos]? = some x := ⟨b2[r.immPos]'(by unfold Safe at h; omega), by simp⟩
    obtain ⟨x, hx⟩ := hb
    obtain ⟨b3, e3, l3⟩ := writeAt_some b2 [x + BitVec.ofNat 8 es.length] r.immPos (by unfold Safe at h; simp; omega)
    rw [e2]
    simp only [Option.bind_eq_bind, Option.bind_some, incrAt, hx, e3]
    refine ⟨_, rfl, ?_, by simp; omega, rfl⟩
    unfold Safe at h ⊢
    simp only
    omega
  · rw [if_neg hc]
    exact ⟨_, rfl, h, rfl, rfl⟩

theorem Safe.nodeAll (n : Nat) : ∀ {r : Rec} (ids : List U64), ids.length = n → Safe r →
    ∃ r', r.appendNodes ids = some r' ∧ Safe r' ∧ r'.buffer.length = r.buffer.length ∧ r'.neededLen = r.neededLen + (encNodes ids).length := by
  induction n using Nat.strongRecOn with
  | _ n ih =>
    intro r ids hn h
    rw [Rec.appendNodes]
    by_cases h0 : ids = []
    · subst h0; exact ⟨r, by simp, h, rfl, by simp [encNodes]⟩
    · rw [dif_neg h0]
      have : 0 < ids.length := List.length_pos_iff.2 h0
      obtain ⟨r1, hr1, hp1, hl1, hn1⟩ := h.node (ids.take blocksize)
      obtain ⟨r2, hr2, hp2, hl2, hn2⟩ := ih (ids.drop blocksize).length (by simp [blocksize]; omega) (ids.drop blocksize) rfl hp1
      refine ⟨r2, by simp [hr1, hr2], hp2, by omega, ?_⟩
      have : encNodes ids = encNodes (ids.take blocksize) ++ encNodes (ids.drop blocksize) := by
        unfold encNodes; rw [← List.flatMap_append, List.take_append_drop]
      rw [this, List.length_append]; omega

theorem Safe.immAll (n : Nat) : ∀ {r : Rec} (es : List (U64 × CVar)), es.length = n → Safe r →
    ∃ r', r.appendImm es = some r' ∧ Safe r' ∧ r'.buffer.length = r.buffer.length ∧ r'.neededLen = r.neededLen + (encImm es).length := by
  induction n using Nat.strongRecOn with
  | _ n ih =>
    intro r es hn h
    rw [Rec.appendImm]
    by_cases h0 : es = []
    · subst h0; exact ⟨r, by simp, h, rfl, by simp [encImm]⟩
    · rw [dif_neg h0]
      have : 0 < es.length := List.length_pos_iff.2 h0
      obtain ⟨r1, hr1, hp1, hl1, hn1⟩ := h.imm (es.take blocksize)
      obtain ⟨r2, hr2, hp2, hl2, hn2⟩ := ih (es.drop blocksize).length (by simp [blocksize]; omega) (es.drop blocksize) rfl hp1
      refine ⟨r2, by simp [hr1, hr2], hp2, by omega, ?_⟩
      have : encImm es = encImm (es.take blocksize) ++ encImm (es.drop blocksize) := by
        unfold encImm; rw [← List.flatMap_append, List.take_append_drop]
      rw [this, List.length_append]; omega

theorem encNodes_append (a b : List U64) : encNodes (a ++ b) = encNodes a ++ encNodes b := by simp [encNodes]
theorem encImm_append (a b : List (U64 × CVar)) : encImm (a ++ b) = encImm a ++ encImm b := by simp [encImm]

theorem Safe.loop (es : List SEntry) : ∀ (r : Rec) (nodes : List U64) (im : List (U64 × CVar)), Safe r →
    ∃ r', r.appendLoop nodes im es = some r' ∧ Safe r' ∧ r'.buffer.length = r.buffer.length ∧
      r'.neededLen = r.neededLen + (encNodes (nodes ++ refs es)).length + (encImm (im ++ imms es)).length := by
  induction es with
  | nil =>
    intro r nodes im h
    obtain ⟨r1, h1, s1, l1, n1⟩ := Safe.nodeAll _ nodes rfl h
    obtain ⟨r2, h2, s2, l2, n2⟩ := Safe.immAll _ im rfl s1
    exact ⟨r2, by simp [Rec.appendLoop, h1, h2], s2, by omega, by simp [refs, imms]; omega⟩
  | cons e es ih =>
    intro r nodes im h
    cases e with
    | empty => simp only [Rec.appendLoop, refs, imms]; exact ih r nodes im h
    | ref id =>
      simp only [Rec.appendLoop, refs, imms]
      split
      · obtain ⟨r1, h1, s1, l1, n1⟩ := Safe.nodeAll _ (nodes ++ [id]) rfl h
        obtain ⟨r2, h2, s2, l2, n2⟩ := ih r1 [] im s1
        refine ⟨r2, by simp [h1, h2], s2, by omega, ?_⟩
        rw [n2, n1, List.nil_append, show nodes ++ id :: refs es = (nodes ++ [id]) ++ refs es by simp,
          encNodes_append (nodes ++ [id]), List.length_append (as := encNodes (nodes ++ [id]))]
        omega
      · obtain ⟨r2, h2, s2, l2, n2⟩ := ih r (nodes ++ [id]) im h
        exact ⟨r2, h2, s2, l2, by rw [n2]; simp⟩
    | imm a v =>
      simp only [Rec.appendLoop, refs, imms]
      split
      · obtain ⟨r1, h1, s1, l1, n1⟩ := Safe.immAll _ (im ++ [(a, v)]) rfl h
        obtain ⟨r2, h2, s2, l2, n2⟩ := ih r1 nodes [] s1
        refine ⟨r2, by simp [h1, h2], s2, by omega, ?_⟩
        rw [n2, n1, List.nil_append, show im ++ (a, v) :: imms es = (im ++ [(a, v)]) ++ imms es by simp,
          encImm_append (im ++ [(a, v)]), List.length_append (as := encImm (im ++ [(a, v)]))]
        omega
      · obtain ⟨r2, h2, s2, l2, n2⟩ := ih r nodes (im ++ [(a, v)]) h
        exact ⟨r2, h2, s2, l2, by rw [n2]; simp⟩

end Verif.CSR
