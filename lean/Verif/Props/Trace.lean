import Verif.Serv.TraceInv
/-!
# C55: the trace holds every snapshot since the last clear

`recs th h`: the non-empty snapshots thread `th` took in the history `h` after the last clear, in order.
-/
namespace Verif
open Verif.CSR Verif.Serv.Trace

variable {isAttr : U64 → Bool}

/-- total space for the records of a thread -/
def C55Space (rs : List Record) : Nat := (rs.map space).sum

theorem C55Space_snoc (rs : List Record) (r : Record) : C55Space (rs ++ [r]) = C55Space rs + space r := by simp [C55Space]

theorem C55Space_flatten_le {rss : List (List Record)} {rs : List Record} (h : rs ∈ rss) : C55Space rs ≤ C55Space rss.reverse.flatten := by
  induction rss with
  | nil => cases h
  | cons a l ih =>
    simp only [List.reverse_cons, List.flatten_append, List.flatten_cons, List.flatten_nil, List.append_nil, C55Space, List.map_append,
      List.sum_append]
    rcases List.mem_cons.1 h with rfl | h
    · omega
    · have := ih h
      simp only [C55Space] at this
      omega

theorem recs_snap (th : Nat) (h : List Op) (sig : Bool) (r : Record) :
    recs th (h ++ [.snap th sig r]) = if r = [] then recs th h else recs th h ++ [r] := by
  rw [recs_snoc]
  by_cases hr : r = [] <;> simp [recsStep, hr]

/-- buffers of the grow policy -/
structure GBuf (isAttr : U64 → Bool) (size : Nat) (h : List Op) (b : Buf) : Prop where
  run : b.stopped = false
  le : ∀ c ∈ b.chunks, c.data.length ≤ c.size
  ex : ∃ rss, List.Forall₂ (Holds isAttr size) b.chunks rss ∧ rss ≠ [] ∧ rss.reverse.flatten = recs b.th h ∧
    (rss.length ≤ 1 ∨ size ≤ C55Space (recs b.th h) + 10)

theorem Serv.Trace.Holds.save' {size : Nat} {c : Chunk} {rs : List Record} (h : Holds isAttr size c rs) {r : Record} (hr : RecOk isAttr r) :
    Holds isAttr size (c.save r) (if r = [] then rs else rs ++ [r]) := by
  by_cases hne : r = []
  · rw [if_pos hne]; subst hne; exact h
  · rw [if_neg hne]; exact h.save hr hne

theorem save_data {c : Chunk} {r : Record} (hr : RecOk isAttr r) :
    (c.save r).data.length ≤ c.data.length + space r ∧ (c.save r).size = c.size := by
  unfold Chunk.save
  split
  · exact ⟨by simp, rfl⟩
  · have := (enc_length hr).2
    exact ⟨by simp only [List.length_append] at this ⊢; simp only [enc, List.length_append] at this; omega, rfl⟩

theorem GBuf.saved {size : Nat} {h : List Op} {b : Buf} {c : Chunk} {cs : List Chunk} {rs : List Record} {rss : List (List Record)} {sig : Bool}
    {r : Record} (hr : RecOk isAttr r) (hrun : b.stopped = false) (hb : b.chunks = c :: cs) (h1 : Holds isAttr size c rs)
    (h2 : List.Forall₂ (Holds isAttr size) cs rss) (h3 : (rs :: rss).reverse.flatten = recs b.th h)
    (h4 : rss = [] ∨ size ≤ C55Space (recs b.th h) + space r) (h5 : ∀ c ∈ b.chunks, c.data.length ≤ c.size)
    (h6 : c.data.length + space r ≤ size) : GBuf isAttr size (h ++ [.snap b.th sig r]) (saveBuf r b) := by
  have e : saveBuf r b = { b with chunks := c.save r :: cs } := by unfold saveBuf; rw [hb]
  rw [e]
  refine ⟨hrun, ?_, (if r = [] then rs else rs ++ [r]) :: rss, .cons (h1.save' hr) h2, by simp, ?_, ?_⟩
  · intro c' hc'
    rcases List.mem_cons.1 hc' with rfl | hc'
    · obtain ⟨d1, d2⟩ := save_data (c := c) hr
      rw [d2, h1.size]; omega
    · exact h5 c' (by rw [hb]; exact List.mem_cons_of_mem _ hc')
  · simp only [recs_snap]
    split
    · exact h3
    · rw [← h3]; simp
  · rcases h4 with rfl | h4
    · left; simp
    · right
      simp only [recs_snap]
      split
      · next he => subst he; simp only [space, List.length_nil] at h4; omega
      · rw [C55Space_snoc]; omega

theorem gbuf_inv (m size : Nat) (H : List Op) (hsize : 10 + 30 * m < size) : IsInv isAttr m .grow size H (GBuf isAttr size) where
  new h th hr := ⟨rfl, by simp [Chunk.new], [[]], .cons (.new size) .nil, by simp, by simp [hr], .inl (by simp)⟩
  attach h b th hb := ⟨hb.run, hb.le, by rw [recs_snoc]; exact hb.ex⟩
  release h b th x hb := ⟨hb.run, hb.le, by rw [recs_snoc]; exact hb.ex⟩
  flush h b hb := ⟨rfl, hb.le, by rw [recs_snoc]; exact hb.ex⟩
  clear h b hb := by
    obtain ⟨rss, h1, h2, -⟩ := hb.ex
    generalize hcs : b.chunks = chunks at h1
    cases h1 with
    | nil => exact absurd rfl h2
    | @cons c rs cs rss' h1 _ =>
      have e : clearBuf b = { b with chunks := [.new size], stopped := false } := by
        simp only [clearBuf, hcs, Chunk.new, h1.size]
      rw [e]
      exact ⟨rfl, by simp [Chunk.new], [[]], .cons (.new size) .nil, by simp, by simp [recs_snoc, recsStep], .inl (by simp)⟩
  other h b th sig r hne hb := ⟨hb.run, hb.le, by rw [recs_snoc]; simp only [recsStep, hne, false_and, if_false]; exact hb.ex⟩
  drop h b sig r hb hs := by rw [hb.run] at hs; cases hs
  save h b sig r _ hr hm hb hrun hf := by
    obtain ⟨rss, h1, h2, h3, h4⟩ := hb.ex
    generalize hcs : b.chunks = chunks at h1
    cases h1 with
    | nil => exact absurd rfl h2
    | @cons c rs cs rss' h1 h1' =>
      have hfit : c.data.length + (10 + r.length * 30) < c.size := by
        simpa [fitsBuf, hcs, Chunk.fits] using hf
      refine GBuf.saved hr hrun hcs h1 h1' h3 ?_ hb.le (by rw [h1.size] at hfit; simp only [space]; omega)
      rcases h4 with h4 | h4
      · left; cases rss' with
        | nil => rfl
        | cons _ _ => simp at h4
      · right; simp only [space]; omega
  over h b sig r _ hr hm hb hrun hf := by
    refine ⟨by decide, ?_⟩
    obtain ⟨rss, h1, h2, h3, h4⟩ := hb.ex
    generalize hcs : b.chunks = chunks at h1
    cases h1 with
    | nil => exact absurd rfl h2
    | @cons c rs cs rss' h1 h1' =>
      have hfit : c.size ≤ c.data.length + (10 + r.length * 30) := by
        simpa [fitsBuf, hcs, Chunk.fits] using hf
      have hle := h1.le
      have hsp : C55Space rs ≤ C55Space (recs b.th h) := by rw [← h3]; exact C55Space_flatten_le (by simp)
      refine GBuf.saved (b := { b with chunks := .new size :: b.chunks }) (rss := rs :: rss') hr hrun rfl (.new size)
        (by rw [hcs]; exact .cons h1 h1') (by simpa using h3) (.inr ?_) ?_ ?_
      · simp only [C55Space, space] at *
        rw [h1.size] at hfit
        omega
      · intro c' hc'
        rcases List.mem_cons.1 hc' with rfl | hc'
        · simp [Chunk.new]
        · exact hb.le c' hc'
      · simp only [Chunk.new, List.length_nil, space]; omega
  le h b hb := hb.le

/-- The output of a flush after a history: the records of some threads one after the other, including all threads with records. -/
structure C55Out (isAttr : U64 → Bool) (s : State) (h : List Op) (out : Nat → List Record) (ths : List Nat) : Prop where
  eq : (s.flush isAttr).2 = some (ths.flatMap out)
  nodup : ths.Nodup
  cover : ∀ th, recs th h ≠ [] → th ∈ ths

/-- choose outputs by thread -/
theorem C55_out {th0 : Nat} {p : Policy} {size : Nat} {P : List Op → Buf → Prop} {h : List Op} {s : State} (I : Inv th0 p size P h s)
    (Q : Nat → List Record → Prop) (hQ : ∀ b, P h b → ∃ o, flushChunks isAttr b.chunks = some o ∧ Q b.th o) (hQ0 : ∀ th, recs th h = [] → Q th []) :
    ∃ ths out, C55Out isAttr s h out ths ∧ ∀ th, Q th (out th) := by
  classical
  refine ⟨s.bufs.map Buf.th, fun th => ((s.bufs.find? (fun b => b.th = th)).bind fun b => flushChunks isAttr b.chunks).getD [],
    ⟨?_, I.base.nodup, I.base.recs⟩, ?_⟩
  · rw [List.flatMap_map]
    refine flush_out _ _ ?_
    intro b hb
    have hf : s.bufs.find? (fun b' => b'.th = b.th) = some b := by
      cases hf : s.bufs.find? (fun b' => b'.th = b.th) with
      | none =>
        have := List.find?_eq_none.1 hf b hb
        simp at this
      | some b' =>
        have h1 := List.mem_of_find?_eq_some hf
        have h2 : b'.th = b.th := by simpa using List.find?_some hf
        rw [List.inj_on_of_nodup_map I.base.nodup h1 hb h2]
    obtain ⟨o, ho, -⟩ := hQ b (I.all b hb)
    rw [hf]; simp [ho]
  · intro th
    simp only
    cases hf : s.bufs.find? (fun b' => b'.th = th) with
    | none =>
      refine hQ0 th ?_
      by_cases hr : recs th h = []
      · exact hr
      · obtain ⟨b, hb, hbt⟩ := List.mem_map.1 (I.base.recs th hr)
        have := List.find?_eq_none.1 hf b hb
        simp [hbt] at this
    | some b =>
      have h1 := List.mem_of_find?_eq_some hf
      have h2 : b.th = th := by simpa using List.find?_some hf
      obtain ⟨o, ho, hq⟩ := hQ b (I.all b h1)
      simp only [Option.bind_some, ho, Option.getD_some]
      rwa [h2] at hq

/-- **C55, grow policy.**  If every record fits into an empty buffer, a flush at any time writes exactly the snapshots since the last clear:
all records of a thread, in pieces that are each in the order in which the snapshots were taken (the last piece first), and in one piece when
they need less than the buffer size.  No snapshot is counted as dropped and no memory outside of the buffers is written.

Missing: the order of the pieces (`C55_violation_order`), the other policies when buffers are full, and too small buffer sizes. -/
theorem C55_grow_partial {th0 m size : Nat} (hsize : 10 + 30 * m < size) {h : List Op} (hv : Valid isAttr th0 m h) :
    let s := (State.run isAttr (State.init .grow size th0) h).1
    s.dropped = 0 ∧ s.overrun = false ∧
    ∃ ths out, C55Out isAttr s h out ths ∧ ∀ th, ∃ pieces : List (List Record),
      pieces.flatten = recs th h ∧ out th = pieces.reverse.flatten ∧
      (C55Space (recs th h) + 10 < size → out th = recs th h) := by
  intro s
  obtain ⟨I, -, hd⟩ := inv_run (gbuf_inv (isAttr := isAttr) m size h hsize) hv (List.prefix_refl _)
  refine ⟨hd fun _ _ hb => hb.run, I.overrun, ?_⟩
  refine C55_out I (fun th o => ∃ pieces : List (List Record), pieces.flatten = recs th h ∧ o = pieces.reverse.flatten ∧
    (C55Space (recs th h) + 10 < size → o = recs th h)) ?_ ?_
  · intro b hb
    obtain ⟨rss, h1, h2, h3, h4⟩ := hb.ex
    refine ⟨_, flushChunks_holds h1, rss.reverse, h3, by simp, ?_⟩
    intro hlt
    rcases h4 with h4 | h4
    · rw [← h3]
      rcases rss with _ | ⟨a, _ | ⟨b, l⟩⟩
      · rfl
      · simp
      · simp at h4
    · omega
  · intro th hth
    exact ⟨[], by simp [hth], by simp, by simp [hth]⟩

/-- **C55, grow policy, as a multiset.**  What a flush writes is a rearrangement of the snapshots since the last clear: nothing is lost and
nothing is duplicated. -/
theorem C55_grow_multiset {th0 m size : Nat} (hsize : 10 + 30 * m < size) {h : List Op} (hv : Valid isAttr th0 m h) :
    ∃ ths out, C55Out isAttr (State.run isAttr (State.init .grow size th0) h).1 h out ths ∧ ∀ th, (out th).Perm (recs th h) := by
  obtain ⟨-, -, ths, out, h1, h2⟩ := C55_grow_partial hsize hv
  refine ⟨ths, out, h1, fun th => ?_⟩
  obtain ⟨pieces, e1, e2, -⟩ := h2 th
  rw [← e1, e2]
  exact (List.reverse_perm pieces).flatten

/-- buffers of the stop policy -/
structure SBuf (isAttr : U64 → Bool) (m size : Nat) (h : List Op) (b : Buf) : Prop where
  ex : ∃ c rs, b.chunks = [c] ∧ Holds isAttr size c rs ∧ c.data.length ≤ size ∧ rs.Sublist (recs b.th h) ∧
    ((rs = recs b.th h ∧ b.stopped = false) ∨ size ≤ C55Space rs + (10 + 30 * m)) ∧
    (flushed h = false → rs <+: recs b.th h ∧ (b.stopped = false → rs = recs b.th h))

theorem sbuf_inv (m size : Nat) (H : List Op) : IsInv isAttr m .stop size H (SBuf isAttr m size) where
  new h th hr := ⟨.new size, [], rfl, .new size, by simp [Chunk.new], by simp, .inl ⟨hr.symm, rfl⟩, fun _ => ⟨by simp, fun _ => hr.symm⟩⟩
  attach h b th hb := ⟨by rw [recs_snoc, flushed_snoc]; exact hb.ex⟩
  release h b th x hb := ⟨by rw [recs_snoc, flushed_snoc]; exact hb.ex⟩
  flush h b hb := by
    obtain ⟨c, rs, h1, h2, h3, h4, h5, h6⟩ := hb.ex
    refine ⟨c, rs, h1, h2, h3, by rw [recs_snoc]; exact h4, ?_, ?_⟩
    · rw [recs_snoc]; exact h5.imp (fun x => ⟨x.1, rfl⟩) id
    · intro hf; rw [flushed_snoc] at hf; cases hf
  clear h b hb := by
    obtain ⟨c, rs, h1, h2, -⟩ := hb.ex
    have e : clearBuf b = { b with chunks := [.new size], stopped := false } := by
      simp only [clearBuf, h1, Chunk.new, h2.size]
    rw [e]
    have hr : recs b.th (h ++ [.clear]) = [] := by rw [recs_snoc]; rfl
    exact ⟨.new size, [], rfl, .new size, by simp [Chunk.new], by simp, .inl ⟨hr.symm, rfl⟩, fun _ => ⟨by simp, fun _ => hr.symm⟩⟩
  other h b th sig r hne hb := ⟨by
    rw [recs_snoc, flushed_snoc]; simp only [recsStep, hne, false_and, if_false]; exact hb.ex⟩
  drop h b sig r hb hs := by
    obtain ⟨c, rs, h1, h2, h3, h4, h5, h6⟩ := hb.ex
    have hsub : (recs b.th h) <+: recs b.th (h ++ [.snap b.th sig r]) := by
      rw [recs_snap]; split
      · exact List.prefix_refl _
      · exact List.prefix_append _ _
    refine ⟨c, rs, h1, h2, h3, h4.trans hsub.sublist, ?_, ?_⟩
    · rcases h5 with ⟨-, h5⟩ | h5
      · rw [hs] at h5; cases h5
      · exact .inr h5
    · intro hf
      rw [flushed_snoc] at hf
      exact ⟨(h6 hf).1.trans hsub, by intro hh; rw [hs] at hh; cases hh⟩
  save h b sig r _ hr hm hb hrun hf := by
    obtain ⟨c, rs, h1, h2, h3, h4, h5, h6⟩ := hb.ex
    have hfit : c.data.length + (10 + r.length * 30) < c.size := by
      simpa [fitsBuf, h1, Chunk.fits] using hf
    have e : saveBuf r b = { b with chunks := [c.save r] } := by unfold saveBuf; rw [h1]
    rw [e]
    obtain ⟨d1, d2⟩ := save_data (c := c) hr
    refine ⟨c.save r, if r = [] then rs else rs ++ [r], rfl, h2.save' hr, ?_, ?_, ?_, ?_⟩
    · rw [h2.size] at hfit; simp only [space] at d1; omega
    · show List.Sublist _ (recs b.th _)
      rw [recs_snap]; split
      · exact h4
      · exact h4.append (List.Sublist.refl _)
    · show (_ = recs b.th _ ∧ _) ∨ _
      rw [recs_snap]
      rcases h5 with ⟨h5, -⟩ | h5
      · left; rw [h5]; exact ⟨rfl, hrun⟩
      · right
        split
        · exact h5
        · rw [C55Space_snoc]; omega
    · intro hfl
      rw [flushed_snoc] at hfl
      have := (h6 hfl).2 hrun
      show _ <+: recs b.th _ ∧ (_ → _ = recs b.th _)
      rw [recs_snap, this]
      exact ⟨List.prefix_refl _, fun _ => rfl⟩
  over h b sig r _ hr hm hb hrun hf := by
    refine ⟨by decide, ?_⟩
    obtain ⟨c, rs, h1, h2, h3, h4, h5, h6⟩ := hb.ex
    have hfit : c.size ≤ c.data.length + (10 + r.length * 30) := by
      simpa [fitsBuf, h1, Chunk.fits] using hf
    have hsub : (recs b.th h) <+: recs b.th (h ++ [.snap b.th sig r]) := by
      rw [recs_snap]; split
      · exact List.prefix_refl _
      · exact List.prefix_append _ _
    refine ⟨c, rs, h1, h2, h3, h4.trans hsub.sublist, .inr ?_, ?_⟩
    · have := h2.le
      rw [h2.size] at hfit
      simp only [C55Space]
      have : 30 * r.length ≤ 30 * m := Nat.mul_le_mul_left _ hm
      omega
    · intro hfl
      rw [flushed_snoc] at hfl
      exact ⟨(h6 hfl).1.trans hsub, by intro hh; cases hh⟩
  le h b hb := by
    obtain ⟨c, rs, h1, h2, h3, -⟩ := hb.ex
    intro c' hc'
    rw [h1, List.mem_singleton] at hc'
    subst hc'; rw [h2.size]; exact h3

/-- **C55, stop policy.**  For every buffer size, a flush at any time writes, for each thread, snapshots since the last clear in the order in
which they were taken: all of them, unless the buffer is full up to the size of one record; and the first ones, if there was no other flush
since the last clear.  No memory outside of the buffers is written.

Missing: the dropped snapshots are not counted right (`C55_violation_dropcount`). -/
theorem C55_stop_partial {th0 m size : Nat} {h : List Op} (hv : Valid isAttr th0 m h) :
    let s := (State.run isAttr (State.init .stop size th0) h).1
    s.overrun = false ∧
    ∃ ths out, C55Out isAttr s h out ths ∧ ∀ th, (out th).Sublist (recs th h) ∧
      (out th = recs th h ∨ size ≤ C55Space (out th) + (10 + 30 * m)) ∧
      (flushed h = false → out th <+: recs th h) := by
  intro s
  obtain ⟨I, -, -⟩ := inv_run (sbuf_inv (isAttr := isAttr) m size h) hv (List.prefix_refl _)
  refine ⟨I.overrun, ?_⟩
  refine C55_out I (fun th o => o.Sublist (recs th h) ∧ (o = recs th h ∨ size ≤ C55Space o + (10 + 30 * m)) ∧
    (flushed h = false → o <+: recs th h)) ?_ ?_
  · intro b hb
    obtain ⟨c, rs, h1, h2, h3, h4, h5, h6⟩ := hb.ex
    refine ⟨rs, ?_, h4, h5.imp (fun x => x.1) id, fun hf => (h6 hf).1⟩
    rw [h1]
    simpa using flushChunks_holds (.cons h2 .nil)
  · intro th hth
    rw [hth]
    exact ⟨List.Sublist.refl _, .inl rfl, fun _ => List.prefix_refl _⟩

/-- At every moment of the history the records since the last clear fit into the buffers. -/
def C55Fits (size : Nat) (h : List Op) : Prop :=
  ∀ h' th sig r, h' ++ [.snap th sig r] <+: h → C55Space (recs th h') + space r < size

/-- buffers that never overflow -/
structure FBuf (isAttr : U64 → Bool) (size : Nat) (H : List Op) (h : List Op) (b : Buf) : Prop where
  run : b.stopped = false
  ex : ∃ c, b.chunks = [c] ∧ (h <+: H → Holds isAttr size c (recs b.th h)) ∧ c.data.length ≤ c.size ∧ c.size = size

theorem fbuf_inv (m size : Nat) (p : Policy) {H : List Op} (hfits : C55Fits size H) :
    IsInv isAttr m p size H (FBuf isAttr size H) where
  new h th hr := ⟨rfl, .new size, rfl, fun _ => by rw [hr]; exact .new size, by simp [Chunk.new], rfl⟩
  attach h b th hb := by
    obtain ⟨c, h1, h2, h3⟩ := hb.ex
    exact ⟨hb.run, c, h1, fun hh => by rw [recs_snoc]; exact h2 ((List.prefix_append _ _).trans hh), h3⟩
  release h b th x hb := by
    obtain ⟨c, h1, h2, h3⟩ := hb.ex
    exact ⟨hb.run, c, h1, fun hh => by rw [recs_snoc]; exact h2 ((List.prefix_append _ _).trans hh), h3⟩
  flush h b hb := by
    obtain ⟨c, h1, h2, h3⟩ := hb.ex
    exact ⟨rfl, c, h1, fun hh => by rw [recs_snoc]; exact h2 ((List.prefix_append _ _).trans hh), h3⟩
  clear h b hb := by
    obtain ⟨c, h1, h2, h3, h4⟩ := hb.ex
    have e : clearBuf b = { b with chunks := [.new size], stopped := false } := by
      simp only [clearBuf, h1, Chunk.new, h4]
    rw [e]
    exact ⟨rfl, .new size, rfl, fun _ => by rw [recs_snoc]; exact .new size, by simp [Chunk.new], rfl⟩
  other h b th sig r hne hb := by
    obtain ⟨c, h1, h2, h3⟩ := hb.ex
    exact ⟨hb.run, c, h1, fun hh => by
      rw [recs_snoc]; simp only [recsStep, hne, false_and, if_false]; exact h2 ((List.prefix_append _ _).trans hh), h3⟩
  drop h b sig r hb hs := by rw [hb.run] at hs; cases hs
  save h b sig r hv hr hm hb hrun hf := by
    obtain ⟨c, h1, h2, h3, h4⟩ := hb.ex
    have hfit : c.data.length + (10 + r.length * 30) < c.size := by
      simpa [fitsBuf, h1, Chunk.fits] using hf
    have e : saveBuf r b = { b with chunks := [c.save r] } := by unfold saveBuf; rw [h1]
    rw [e]
    obtain ⟨d1, d2⟩ := save_data (c := c) hr
    refine ⟨hb.run, c.save r, rfl, ?_, by rw [d2]; simp only [space] at d1; omega, by rw [d2, h4]⟩
    intro hh
    show Holds isAttr size _ (recs b.th _)
    rw [recs_snap]
    exact (h2 ((List.prefix_append _ _).trans hh)).save' hr
  over h b sig r hv hr hm hb hrun hf := by
    obtain ⟨c, h1, h2, h3, h4⟩ := hb.ex
    have hfit : c.size ≤ c.data.length + (10 + r.length * 30) := by
      simpa [fitsBuf, h1, Chunk.fits] using hf
    have hpre := hv
    have h5 := hfits h b.th sig r hpre
    have h6 := (h2 ((List.prefix_append _ _).trans hpre)).le
    simp only [space, C55Space] at h5
    rw [h4] at hfit
    have h7 : c.data.length + (10 + 30 * r.length) < size := Nat.lt_of_le_of_lt (Nat.add_le_add_right h6 _) h5
    omega
  le h b hb := by
    obtain ⟨c, h1, h2, h3, -⟩ := hb.ex
    intro c' hc'
    rw [h1, List.mem_singleton] at hc'
    subst hc'; exact h3

/-- **C55, all policies.**  If the records since the last clear always fit into the buffers, a flush writes for each thread exactly its snapshots
since the last clear, in order, nothing is written without an explicit flush, no snapshot is dropped and no other memory is written. -/
theorem C55_fits {th0 m size : Nat} (p : Policy) {h : List Op} (hv : Valid isAttr th0 m h) (hfits : C55Fits size h) :
    let s := (State.run isAttr (State.init p size th0) h).1
    s.dropped = 0 ∧ s.overrun = false ∧ (∃ ths, C55Out isAttr s h (fun th => recs th h) ths) ∧
    ∀ o ∈ (State.run isAttr (State.init p size th0) h).2, ∃ h' t, h = h' ++ .flush :: t ∧
      o = (State.flush isAttr (State.run isAttr (State.init p size th0) h').1).2 := by
  intro s
  obtain ⟨I, ho, hd⟩ := inv_run (fbuf_inv (isAttr := isAttr) m size p hfits) hv (List.prefix_refl _)
  refine ⟨hd fun _ _ hb => hb.run, I.overrun, ?_, ho⟩
  obtain ⟨ths, out, h1, h2⟩ := C55_out I (fun th o => o = recs th h) (by
    intro b hb
    obtain ⟨c, e1, e2, -⟩ := hb.ex
    refine ⟨recs b.th h, ?_, rfl⟩
    rw [e1]
    simpa using flushChunks_holds (.cons (e2 (List.prefix_refl _)) .nil)) (fun th hth => hth.symm)
  obtain rfl : out = fun th => recs th h := funext h2
  exact ⟨ths, h1⟩

/-! ## Hypotheses are met -/

/-- nodes below 50 are attributes -/
def c55Attr : U64 → Bool := fun id => decide (id.toNat < 50)

def c55a : Record := [.ref 100]
def c55b : Record := [.ref 101]
def c55v : Record := [.ref 102, .imm 5 ⟨5#64, 42#64⟩, .ref 103]

def c55h : List Op :=
  [.attach 1, .snap 0 false c55a, .snap 1 false c55v, .flush, .snap 1 true c55b, .snap 0 false c55v, .release 1, .snap 0 false c55a]

theorem c55h_valid : Valid c55Attr 0 3 c55h := by
  have h1 := Valid.attach (isAttr := c55Attr) (th0 := 0) (m := 3) 1 .nil (by simp)
  have h2 := h1.snap 0 false c55a (by simp) (by simp) (by simp [RecOk, EntryOk, c55a, c55Attr]) (by decide)
  have h3 := h2.snap 1 false c55v (by simp) (by simp) (by simp [RecOk, EntryOk, c55v, c55Attr, maxType]) (by decide)
  have h4 := h3.flush
  have h5 := h4.snap 1 true c55b (by simp) (fun _ => .inr (.inl (by simp))) (by simp [RecOk, EntryOk, c55b, c55Attr]) (by decide)
  have h6 := h5.snap 0 false c55v (by simp) (by simp) (by simp [RecOk, EntryOk, c55v, c55Attr, maxType]) (by decide)
  have h7 := h6.release 1 (by simp)
  exact h7.snap 0 false c55a (by simp) (by simp) (by simp [RecOk, EntryOk, c55a, c55Attr]) (by decide)

example : recs 0 c55h = [c55a, c55v, c55a] ∧ recs 1 c55h = [c55v, c55b] ∧ flushed c55h = true ∧ 10 + 30 * 3 < 102 := by decide

/-- pieces are needed here -/
example : (State.flush c55Attr (State.run c55Attr (State.init .grow 102 0) c55h).1).2 = some [c55v, c55b, c55v, c55a, c55a] := by decide +kernel

theorem c55h_fits : C55Fits 1000 c55h := by
  intro h' th sig r hp
  have : C55Space (recs th h') ≤ C55Space (recs th h') := Nat.le_refl _
  have hlen : h'.length < 8 := by have := hp.length_le; simp [c55h] at this; omega
  obtain ⟨t, ht⟩ := hp
  have e : h' = c55h.take h'.length ∧ c55h[h'.length]? = some (.snap th sig r) := by
    rw [← ht]; simp
  obtain ⟨e1, e2⟩ := e
  generalize h'.length = n at *
  subst e1
  have hn : n = 0 ∨ n = 1 ∨ n = 2 ∨ n = 3 ∨ n = 4 ∨ n = 5 ∨ n = 6 ∨ n = 7 := by omega
  rcases hn with rfl | rfl | rfl | rfl | rfl | rfl | rfl | rfl <;>
    simp only [c55h, List.getElem?_cons_zero, List.getElem?_cons_succ, Option.some.injEq, Op.snap.injEq, reduceCtorEq] at e2 <;>
    obtain ⟨rfl, rfl, rfl⟩ := e2 <;> decide

/-! ## Violations -/

/-- one buffer with one chunk -/
def c55One (p : Policy) (size : Nat) (data : List Byte) (n : Nat) (ov : Bool) : State :=
  ⟨p, size, [⟨0, [⟨size, data, n⟩], false, false⟩], 0, ov⟩

/-- `n` snapshots -/
def c55Snaps (r : Record) (n : Nat) : List Op := List.replicate n (.snap 0 false r)

theorem c55_fill (p : Policy) (size n : Nat) (hn : ∀ k < n, 2 * k + 40 < size) :
    (State.run c55Attr (State.init p size 0) (c55Snaps c55a n)).1 =
      c55One p size ((List.replicate n c55a).flatMap enc) n false := by
  induction n with
  | zero => rfl
  | succ n ih =>
    have e : c55Snaps c55a (n + 1) = c55Snaps c55a n ++ [.snap 0 false c55a] := by simp [c55Snaps, List.replicate_succ']
    have hl : ((List.replicate n c55a).flatMap enc).length = 2 * n := by
      have h2 : (enc c55a).length = 2 := by decide +kernel
      clear ih hn e
      induction n with
      | zero => rfl
      | succ n ih => rw [List.replicate_succ, List.flatMap_cons, List.length_append, ih, h2]; omega
    rw [e, (run_snoc _ _ _).1, ih fun k hk => hn k (by omega)]
    have hfit := hn n (by omega)
    have hc : (Chunk.mk size ((List.replicate n c55a).flatMap enc) n).fits c55a = true := by
      simp only [Chunk.fits, hl, decide_eq_true_eq]
      show 2 * n + (10 + 1 * 30) < size
      omega
    have hs : (Chunk.mk size ((List.replicate n c55a).flatMap enc) n).save c55a =
        ⟨size, (List.replicate (n + 1) c55a).flatMap enc, n + 1⟩ := by
      rw [List.replicate_succ', List.flatMap_append, List.flatMap_singleton]
      rfl
    have hl1 : ((List.replicate (n + 1) c55a).flatMap enc).length = 2 * n + 2 := by
      have h2 : (enc c55a).length = 2 := by decide +kernel
      rw [List.replicate_succ', List.flatMap_append, List.length_append, hl, List.flatMap_singleton, h2]
    simp [c55One, State.step, State.process, State.acquire, hc, State.save, State.upd, hs, hl1]
    omega

theorem c55_full (p : Policy) (size : Nat) (h : 40 < size) (r : Record) (hr : r.length = 1) : ∃ n, 0 < n ∧ 
    (State.run c55Attr (State.init p size 0) (c55Snaps c55a n)).1 = c55One p size ((List.replicate n c55a).flatMap enc) n false ∧
    (Chunk.mk size ((List.replicate n c55a).flatMap enc) n).fits r = false := by
  refine ⟨(size - 39) / 2, by omega, c55_fill p size _ (fun k hk => by omega), ?_⟩
  have hl : ∀ n, ((List.replicate n c55a).flatMap enc).length = 2 * n := by
    intro n
    have h2 : (enc c55a).length = 2 := by decide +kernel
    induction n with
    | zero => rfl
    | succ n ih => rw [List.replicate_succ, List.flatMap_cons, List.length_append, ih, h2]; omega
  simp only [Chunk.fits, hl, hr, decide_eq_false_iff_not]
  omega

/-- **Violation (order).**  With the grow policy and any buffer size, when a buffer is full the newest snapshots are written before the older
ones. -/
theorem C55_violation_order (size : Nat) (h : 40 < size) : ∃ n, 0 < n ∧
    (State.flush c55Attr (State.run c55Attr (State.init .grow size 0) (c55Snaps c55a n ++ [.snap 0 false c55b])).1).2 =
      some (c55b :: List.replicate n c55a) := by
  obtain ⟨n, h0, h1, h2⟩ := c55_full .grow size h c55b rfl
  refine ⟨n, h0, ?_⟩
  rw [(run_snoc _ _ _).1, h1]
  have hfl : decRecords c55Attr n ((List.replicate n c55a).flatMap enc) = some (List.replicate n c55a) := by
    have := decRecords_enc (isAttr := c55Attr) (List.replicate n c55a) (by
      intro r hr; rw [List.eq_of_mem_replicate hr]; simp [RecOk, EntryOk, c55a, c55Attr])
    simpa using this
  have hb : decRecords c55Attr 1 (vlenc 1#64 ++ vlenc 101#64) = some [c55b] := by decide +kernel
  have hs : (Chunk.new size).save c55b = ⟨size, vlenc 1#64 ++ vlenc 101#64, 1⟩ := by simp [Chunk.save, Chunk.new, c55b, pack]
  simp [c55One, State.step, State.process, State.acquire, h2, State.save, State.upd, State.flush, flushChunks, hfl, hs, hb]

/-- **Violation (flush policy).**  The buffer is not cleared when it is written because it is full: the next snapshots are written past its end,
for any buffer size; and the old snapshots are written again. -/
theorem C55_violation_flush_policy :
    (∀ size, ∃ n, (State.run c55Attr (State.init .flush size 0) (c55Snaps c55a n)).1.overrun = true) ∧
    (State.run c55Attr (State.init .flush 42 0) [.snap 0 false c55a, .snap 0 false c55b, .flush]).2 =
      [some [c55a], some [c55a, c55b]] := by
  refine ⟨?_, by decide +kernel⟩
  intro size
  -- every snapshot adds two bytes, whether it fits or not
  have key : ∀ n, ∃ data ov, (State.run c55Attr (State.init .flush size 0) (c55Snaps c55a n)).1 = c55One .flush size data n ov ∧
      data.length = 2 * n ∧ (0 < n → size < 2 * n → ov = true) := by
    intro n
    induction n with
    | zero => exact ⟨[], false, rfl, rfl, by omega⟩
    | succ n ih =>
      obtain ⟨data, ov, h1, h2, h3⟩ := ih
      have e : c55Snaps c55a (n + 1) = c55Snaps c55a n ++ [.snap 0 false c55a] := by simp [c55Snaps, List.replicate_succ']
      refine ⟨data ++ enc c55a, ov || decide (size < 2 * n + 2), ?_, ?_, ?_⟩
      · rw [e, (run_snoc _ _ _).1, h1]
        have hs : (Chunk.mk size data n).save c55a = ⟨size, data ++ enc c55a, n + 1⟩ := rfl
        have hl : (enc c55a).length = 2 := by decide +kernel
        by_cases hf : (Chunk.mk size data n).fits c55a = true
        · simp [c55One, State.step, State.process, State.acquire, hf, State.save, State.upd, hs, h2, hl]
        · simp [c55One, State.step, State.process, State.acquire, hf, State.save, State.upd, hs, h2, hl, State.flush]
      · have hl : (enc c55a).length = 2 := by decide +kernel
        rw [List.length_append, h2, hl]; omega
      · intro _ hlt
        simp only [Bool.or_eq_true, decide_eq_true_eq]
        right; omega
  obtain ⟨data, ov, h1, -, h3⟩ := key (size + 1)
  exact ⟨size + 1, by rw [h1]; exact h3 (by omega) (by omega)⟩

/-- **Violation (size).**  A buffer size of 0 (also the value of an unreadable size) makes the grow policy write past the end of a buffer with
every non-empty snapshot. -/
theorem C55_violation_size (r : Record) (hr : RecOk isAttr r) (hne : r ≠ []) :
    (State.run isAttr (State.init .grow 0 0) [.snap 0 false r]).1.overrun = true := by
  have h1 := (enc_length hr).1
  have hd : ((Chunk.new 0).save r).data.length = (enc r).length ∧ ((Chunk.new 0).save r).size = 0 := by
    simp [Chunk.save, hne, Chunk.new, enc]
  have hlt : 0 < ((Chunk.new 0).save r).data.length := by omega
  have hf : (Chunk.new 0).fits r = false := by simp [Chunk.fits, Chunk.new]
  simp only [State.run, State.init, State.step, State.process, State.acquire]
  simp [hf, State.save, State.upd, hd.2, hlt]

/-- **Violation (dropped snapshots).**  With the stop policy the snapshot that does not fit is not counted as dropped; a flush makes the buffer
accept snapshots again, so there can be a gap in the trace without any dropped snapshot in the report. -/
theorem C55_violation_dropcount :
    let h : List Op := [.snap 0 false c55a, .snap 0 false c55v, .flush, .snap 0 false c55b]
    Valid c55Attr 0 3 h ∧ recs 0 h = [c55a, c55v, c55b] ∧
    (State.run c55Attr (State.init .stop 75 0) h).1.dropped = 0 ∧
    (State.flush c55Attr (State.run c55Attr (State.init .stop 75 0) h).1).2 = some [c55a, c55b] := by
  refine ⟨?_, by decide +kernel, by decide +kernel, by decide +kernel⟩
  have h2 := (Valid.nil (isAttr := c55Attr) (th0 := 0) (m := 3)).snap 0 false c55a (by simp) (by simp)
    (by simp [RecOk, EntryOk, c55a, c55Attr]) (by decide)
  have h3 := h2.snap 0 false c55v (by simp) (by simp) (by simp [RecOk, EntryOk, c55v, c55Attr, maxType]) (by decide)
  exact h3.flush.snap 0 false c55b (by simp) (by simp) (by simp [RecOk, EntryOk, c55b, c55Attr]) (by decide)

end Verif
