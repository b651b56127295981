import Verif.Serv.TraceSpec
import Verif.Props.Variant
import Mathlib.Data.List.Forall2
/-!
# Trace chunks: what is saved is what is flushed
-/
namespace Verif.Serv.Trace
open Verif Verif.CSR

variable {isAttr : U64 → Bool}

/-- encoding of a record -/
def enc (r : Record) : List Byte := vlenc (BitVec.ofNat 64 r.length) ++ r.flatMap pack

theorem pack_length {e : SEntry} (h : EntryOk isAttr e) : 1 ≤ (pack e).length ∧ (pack e).length ≤ 30 := by
  cases e with
  | empty => exact h.elim
  | ref id => exact ⟨vlenc_length_pos id, by have := vlenc_length_le id; simp only [pack]; omega⟩
  | imm id v =>
    have h1 := vlenc_length_le id
    have h2 := (C02_pack_roundtrip v [] h.2).2
    have h3 := vlenc_length_pos id
    simp only [pack, List.length_append]
    omega

theorem enc_length {r : Record} (h : RecOk isAttr r) : 1 ≤ (enc r).length ∧ (enc r).length ≤ space r := by
  have h1 := vlenc_length_le (BitVec.ofNat 64 r.length)
  have h2 := vlenc_length_pos (BitVec.ofNat 64 r.length)
  have h3 : ∀ r : Record, (∀ e ∈ r, EntryOk isAttr e) → (r.flatMap pack).length ≤ 30 * r.length := by
    intro r
    induction r with
    | nil => intro _; simp
    | cons e r ih =>
      intro h
      have := (pack_length (h e (by simp))).2
      have := ih fun x hx => h x (by simp [hx])
      simp only [List.flatMap_cons, List.length_append, List.length_cons]
      omega
  have := h3 r h.1
  simp only [enc, space, List.length_append]
  omega

theorem unpack_pack {e : SEntry} (h : EntryOk isAttr e) (rest : List Byte) : unpack isAttr (pack e ++ rest) = some (e, (pack e).length) := by
  cases e with
  | empty => exact h.elim
  | ref id =>
    have h' : isAttr id = false := h
    simp only [unpack, pack, vldec_vlenc_append, Option.bind_eq_bind, Option.bind_some, h', Bool.false_eq_true, if_false]
  | imm id v =>
    simp only [unpack, pack, List.append_assoc, vldec_vlenc_append, Option.bind_eq_bind, Option.bind_some, h.1, if_true, List.drop_left]
    rw [(C02_pack_roundtrip v rest h.2).1]
    simp

theorem decEntries_enc (r : Record) (h : ∀ e ∈ r, EntryOk isAttr e) (rest : List Byte) :
    decEntries isAttr r.length (r.flatMap pack ++ rest) = some (r, rest) := by
  induction r with
  | nil => rfl
  | cons e r ih =>
    simp only [List.length_cons, decEntries, List.flatMap_cons, List.append_assoc, unpack_pack (h e (by simp)), Option.bind_eq_bind,
      Option.bind_some, List.drop_left, ih fun x hx => h x (by simp [hx])]

theorem decRecords_enc (rs : List Record) (h : ∀ r ∈ rs, RecOk isAttr r) : decRecords isAttr rs.length (rs.flatMap enc) = some rs := by
  induction rs with
  | nil => rfl
  | cons r rs ih =>
    have hr := h r (by simp)
    have hl : (BitVec.ofNat 64 r.length).toNat = r.length := by
      rw [BitVec.toNat_ofNat]; exact Nat.mod_eq_of_lt hr.2
    rw [List.flatMap_cons, List.length_cons, decRecords, enc, List.append_assoc, vldec_vlenc_append]
    simp only [Option.bind_eq_bind, Option.bind_some, hl, List.drop_left]
    rw [decEntries_enc r hr.1]
    simp only [Option.bind_some, ih fun x hx => h x (by simp [hx])]

/-- a chunk holds these records -/
structure Holds (isAttr : U64 → Bool) (size : Nat) (c : Chunk) (rs : List Record) : Prop where
  size : c.size = size
  data : c.data = rs.flatMap enc
  nrec : c.nrec = rs.length
  ok : ∀ r ∈ rs, RecOk isAttr r
  le : c.data.length ≤ (rs.map space).sum

theorem Holds.new (size : Nat) : Holds isAttr size (.new size) [] := ⟨rfl, rfl, rfl, by simp, by simp [Chunk.new]⟩

theorem Holds.save {size : Nat} {c : Chunk} {rs : List Record} (h : Holds isAttr size c rs) {r : Record} (hr : RecOk isAttr r) (hne : r ≠ []) :
    Holds isAttr size (c.save r) (rs ++ [r]) := by
  have hd : (c.save r).data = c.data ++ enc r := by simp only [Chunk.save, if_neg hne, enc]
  refine ⟨?_, ?_, ?_, ?_, ?_⟩
  · simp only [Chunk.save, if_neg hne, h.size]
  · rw [hd, h.data]; simp
  · simp only [Chunk.save, if_neg hne, h.nrec]; simp
  · intro x hx
    rcases List.mem_append.1 hx with hx | hx
    · exact h.ok x hx
    · obtain rfl := List.mem_singleton.1 hx; exact hr
  · have := (enc_length hr).2
    have := h.le
    rw [hd]
    simp only [List.length_append, List.map_append, List.map_cons, List.map_nil, List.sum_append, List.sum_cons, List.sum_nil]
    omega

theorem flushChunks_holds {size : Nat} {cs : List Chunk} {rss : List (List Record)} (h : List.Forall₂ (Holds isAttr size) cs rss) :
    flushChunks isAttr cs = some rss.flatten := by
  induction h with
  | nil => rfl
  | cons h1 _ ih =>
    simp only [flushChunks, h1.data, h1.nrec, decRecords_enc _ h1.ok, ih, Option.bind_eq_bind, Option.bind_some, List.flatten_cons]

theorem flushChunks_append (cs ds : List Chunk) (a b : List Record) (h1 : flushChunks isAttr cs = some a) (h2 : flushChunks isAttr ds = some b) :
    flushChunks isAttr (cs ++ ds) = some (a ++ b) := by
  induction cs generalizing a with
  | nil => simp only [flushChunks, Option.some.injEq] at h1; subst h1; exact h2
  | cons c cs ih =>
    simp only [flushChunks, Option.bind_eq_bind] at h1
    cases hd : decRecords isAttr c.nrec c.data with
    | none => rw [hd] at h1; simp at h1
    | some x =>
      cases hf : flushChunks isAttr cs with
      | none => rw [hd, hf] at h1; simp at h1
      | some y =>
        rw [hd, hf] at h1
        simp only [Option.bind_some, Option.some.injEq] at h1
        subst h1
        simp only [List.cons_append, flushChunks, Option.bind_eq_bind, hd, ih y hf, Option.bind_some, List.append_assoc]

theorem run_snoc (s : State) (h : List Op) (op : Op) :
    (State.run isAttr s (h ++ [op])).1 = ((State.run isAttr s h).1.step isAttr op).1 ∧
    (State.run isAttr s (h ++ [op])).2 = (State.run isAttr s h).2 ++ ((State.run isAttr s h).1.step isAttr op).2 := by
  induction h generalizing s with
  | nil => simp [State.run]
  | cons x h ih => simp only [List.cons_append, State.run, ih, List.append_assoc, and_self]

theorem recs_snoc (th : Nat) (h : List Op) (op : Op) : recs th (h ++ [op]) = recsStep th (recs th h) op := by simp [recs]
theorem flushed_snoc (h : List Op) (op : Op) : flushed (h ++ [op]) = flushedStep (flushed h) op := by simp [flushed]

/-- facts on the list of buffers that hold for all policies -/
structure Base (th0 : Nat) (h : List Op) (s : State) : Prop where
  nodup : (s.bufs.map Buf.th).Nodup
  known : ∀ th, Known th0 h th → Op.release th ∉ h → th ∈ s.bufs.map Buf.th
  recs : ∀ th, recs th h ≠ [] → th ∈ s.bufs.map Buf.th
  retired : ∀ b ∈ s.bufs, b.retired = true → Op.release b.th ∈ h

theorem ths_upd (s : State) (th : Nat) (f : Buf → Buf) (hf : ∀ b, (f b).th = b.th) : (s.upd th f).bufs.map Buf.th = s.bufs.map Buf.th := by
  simp only [State.upd, List.map_map]
  refine List.map_congr_left fun b _ => ?_
  simp only [Function.comp]
  split
  · exact hf b
  · rfl

theorem acquire_ths (s : State) (th : Nat) (ca : Bool) :
    (th ∈ s.bufs.map Buf.th ∧ s.acquire th ca = s) ∨
    (th ∉ s.bufs.map Buf.th ∧ ca = false ∧ s.acquire th ca = s) ∨
    (th ∉ s.bufs.map Buf.th ∧ ca = true ∧ s.acquire th ca = { s with bufs := ⟨th, [.new s.bufsize], false, false⟩ :: s.bufs }) := by
  unfold State.acquire
  by_cases h : th ∈ s.bufs.map Buf.th
  · left
    refine ⟨h, if_pos ?_⟩
    obtain ⟨b, hb, rfl⟩ := List.mem_map.1 h
    exact List.any_eq_true.2 ⟨b, hb, by simp⟩
  · right
    have : ¬(s.bufs.any (fun b => b.th = th)) = true := by
      intro hh
      obtain ⟨b, hb, e⟩ := List.any_eq_true.1 hh
      simp only [decide_eq_true_eq] at e
      exact h (e ▸ List.mem_map_of_mem hb)
    rw [if_neg this]
    cases ca
    · exact .inl ⟨h, rfl, by simp⟩
    · exact .inr ⟨h, rfl, by simp⟩

theorem save_ths (s : State) (th : Nat) (r : Record) : (s.save th r).bufs.map Buf.th = s.bufs.map Buf.th := by
  simp only [State.save]
  apply ths_upd
  intro b
  cases b.chunks <;> rfl

theorem flush_ths (s : State) : (s.flush isAttr).1.bufs.map Buf.th = s.bufs.map Buf.th := by
  simp [State.flush, Function.comp_def]

theorem process_ths (s : State) (th : Nat) (sig : Bool) (r : Record) :
    (s.process isAttr th sig r).1.bufs.map Buf.th = (s.acquire th (!sig)).bufs.map Buf.th := by
  unfold State.process
  simp only
  split
  · rfl
  · split
    · rfl
    · split
      · exact save_ths _ _ _
      · split
        · exact ths_upd _ _ _ fun _ => rfl
        · rw [save_ths]; exact ths_upd _ _ _ fun _ => rfl
        · rw [save_ths]; exact flush_ths _

theorem upd_retired (s : State) (th : Nat) (f : Buf → Buf) (hf : ∀ b, (f b).retired = b.retired ∧ (f b).th = b.th) {b : Buf}
    (hb : b ∈ (s.upd th f).bufs) (hr : b.retired = true) : ∃ b' ∈ s.bufs, b'.th = b.th ∧ b'.retired = true := by
  simp only [State.upd, List.mem_map] at hb
  obtain ⟨b', hb', rfl⟩ := hb
  refine ⟨b', hb', ?_⟩
  by_cases h : b'.th = th
  · rw [if_pos h] at hr ⊢; exact ⟨(hf b').2.symm, by rw [← (hf b').1]; exact hr⟩
  · rw [if_neg h] at hr ⊢; exact ⟨rfl, hr⟩

theorem save_retired (s : State) (th : Nat) (r : Record) {b : Buf} (hb : b ∈ (s.save th r).bufs) (hr : b.retired = true) :
    ∃ b' ∈ s.bufs, b'.th = b.th ∧ b'.retired = true := by
  simp only [State.save] at hb
  refine upd_retired s th _ ?_ hb hr
  intro b
  cases b.chunks <;> exact ⟨rfl, rfl⟩

theorem process_retired (s : State) (th : Nat) (sig : Bool) (r : Record) {b : Buf} (hb : b ∈ (s.process isAttr th sig r).1.bufs)
    (hr : b.retired = true) : ∃ b' ∈ s.bufs, b'.th = b.th ∧ b'.retired = true := by
  have hacq : ∀ x ∈ (s.acquire th (!sig)).bufs, x.retired = true → x ∈ s.bufs := by
    intro x hx hxr
    rcases acquire_ths s th (!sig) with ⟨-, e⟩ | ⟨-, -, e⟩ | ⟨-, -, e⟩
    · rw [e] at hx; exact hx
    · rw [e] at hx; exact hx
    · rw [e] at hx
      rcases List.mem_cons.1 hx with rfl | hx
      · cases hxr
      · exact hx
  have lift : (∃ b' ∈ (s.acquire th (!sig)).bufs, b'.th = b.th ∧ b'.retired = true) → ∃ b' ∈ s.bufs, b'.th = b.th ∧ b'.retired = true :=
    fun ⟨b', h1, h2, h3⟩ => ⟨b', hacq b' h1 h3, h2, h3⟩
  unfold State.process at hb
  simp only at hb
  split at hb
  · exact lift ⟨b, hb, rfl, hr⟩
  · split at hb
    · exact lift ⟨b, hb, rfl, hr⟩
    · split at hb
      · exact lift (save_retired _ _ _ hb hr)
      · split at hb
        · exact lift (upd_retired (s.acquire th (!sig)) th (fun b => { b with stopped := true }) (fun _ => ⟨rfl, rfl⟩) hb hr)
        · obtain ⟨b', h1, h2, h3⟩ := save_retired _ _ _ hb hr
          obtain ⟨b'', g1, g2, g3⟩ := upd_retired (s.acquire th (!sig)) th
            (fun b => { b with chunks := .new (s.acquire th (!sig)).bufsize :: b.chunks }) (fun _ => ⟨rfl, rfl⟩) h1 h3
          exact lift ⟨b'', g1, g2.trans h2, g3⟩
        · obtain ⟨b', h1, h2, h3⟩ := save_retired _ _ _ hb hr
          simp only [State.flush, List.mem_map] at h1
          obtain ⟨b'', g1, rfl⟩ := h1
          exact lift ⟨b'', g1, h2, h3⟩

theorem Base.init (p : Policy) (size th0 : Nat) : Base th0 [] (State.init p size th0) := by
  refine ⟨by simp [State.init, State.acquire], ?_, ?_, ?_⟩
  · rintro th (rfl | h | ⟨r, h⟩) -
    · simp [State.init, State.acquire]
    · simp at h
    · simp at h
  · intro th h; exact absurd rfl h
  · intro b hb hr
    simp only [State.init, State.acquire, List.any_nil, Bool.false_eq_true, if_false, if_true, List.mem_singleton] at hb
    subst hb; cases hr

theorem acquire_mem (s : State) (th : Nat) {ca : Bool} (h : th ∈ s.bufs.map Buf.th ∨ ca = true) :
    th ∈ (s.acquire th ca).bufs.map Buf.th ∧ (∀ t ∈ s.bufs.map Buf.th, t ∈ (s.acquire th ca).bufs.map Buf.th) ∧
      ((s.bufs.map Buf.th).Nodup → ((s.acquire th ca).bufs.map Buf.th).Nodup) := by
  rcases acquire_ths s th ca with ⟨h1, e⟩ | ⟨h1, h2, e⟩ | ⟨h1, h2, e⟩
  · rw [e]; exact ⟨h1, fun t ht => ht, id⟩
  · rcases h with h | h
    · exact absurd h h1
    · rw [h2] at h; cases h
  · rw [e]
    exact ⟨by simp, fun t ht => List.mem_cons_of_mem _ ht, fun nd => List.nodup_cons.2 ⟨h1, nd⟩⟩

theorem Base.step {th0 m : Nat} {h : List Op} {s : State} (B : Base th0 h s) {op : Op} (hv : Valid isAttr th0 m (h ++ [op])) :
    Base th0 (h ++ [op]) (s.step isAttr op).1 := by
  generalize hg : h ++ [op] = g at hv
  cases hv with
  | nil => simp at hg
  | @attach h' th hv hr =>
    obtain ⟨rfl, hop⟩ := List.append_inj' hg rfl
    simp only [List.cons.injEq, and_true] at hop
    subst hop
    obtain ⟨a1, a2, a3⟩ := acquire_mem s th (ca := true) (.inr rfl)
    refine ⟨a3 B.nodup, ?_, ?_, ?_⟩
    · intro t ht hrel
      simp only [List.mem_append, List.mem_singleton, not_or] at hrel
      rcases ht with ht | ht | ⟨r, ht⟩
      · exact a2 t (B.known t (.inl ht) hrel.1)
      · simp only [List.mem_append, List.mem_singleton, Op.attach.injEq] at ht
        rcases ht with ht | rfl
        · exact a2 t (B.known t (.inr (.inl ht)) hrel.1)
        · exact a1
      · simp only [List.mem_append, List.mem_singleton, reduceCtorEq, or_false] at ht
        exact a2 t (B.known t (.inr (.inr ⟨r, ht⟩)) hrel.1)
    · intro t ht
      rw [recs_snoc] at ht
      exact a2 t (B.recs t ht)
    · intro b hb hbr
      simp only [List.mem_append]
      left
      simp only [State.step] at hb
      rcases acquire_ths s th true with ⟨-, e⟩ | ⟨-, -, e⟩ | ⟨-, -, e⟩
      · rw [e] at hb; exact B.retired b hb hbr
      · rw [e] at hb; exact B.retired b hb hbr
      · rw [e] at hb
        rcases List.mem_cons.1 hb with rfl | hb
        · cases hbr
        · exact B.retired b hb hbr
  | @release h' th hv hr =>
    obtain ⟨rfl, hop⟩ := List.append_inj' hg rfl
    simp only [List.cons.injEq, and_true] at hop
    subst hop
    have e : (s.upd th (fun b => { b with retired := true })).bufs.map Buf.th = s.bufs.map Buf.th := ths_upd _ _ _ fun _ => rfl
    refine ⟨by simp only [State.step]; rw [e]; exact B.nodup, ?_, ?_, ?_⟩
    · intro t ht hrel
      simp only [List.mem_append, List.mem_singleton, not_or] at hrel
      simp only [State.step]; rw [e]
      refine B.known t ?_ hrel.1
      rcases ht with ht | ht | ⟨r, ht⟩
      · exact .inl ht
      · simp only [List.mem_append, List.mem_singleton, reduceCtorEq, or_false] at ht
        exact .inr (.inl ht)
      · simp only [List.mem_append, List.mem_singleton, reduceCtorEq, or_false] at ht
        exact .inr (.inr ⟨r, ht⟩)
    · intro t ht
      rw [recs_snoc] at ht
      simp only [State.step]; rw [e]
      exact B.recs t ht
    · intro b hb hbr
      simp only [State.step, State.upd, List.mem_map] at hb
      obtain ⟨b', hb', rfl⟩ := hb
      by_cases h : b'.th = th
      · rw [if_pos h]; simp [h]
      · rw [if_neg h] at hbr ⊢
        simp [B.retired b' hb' hbr]
  | @snap h' th sig r hv hr hk hrok hm =>
    obtain ⟨rfl, hop⟩ := List.append_inj' hg rfl
    simp only [List.cons.injEq, and_true] at hop
    subst hop
    have hkn : th ∈ s.bufs.map Buf.th ∨ (!sig) = true := by
      cases sig with
      | false => exact .inr rfl
      | true => exact .inl (B.known th (hk rfl) hr)
    obtain ⟨a1, a2, a3⟩ := acquire_mem s th hkn
    refine ⟨by simp only [State.step]; rw [process_ths]; exact a3 B.nodup, ?_, ?_, ?_⟩
    · intro t ht hrel
      simp only [List.mem_append, List.mem_singleton, not_or] at hrel
      simp only [State.step]; rw [process_ths]
      rcases ht with ht | ht | ⟨r', ht⟩
      · exact a2 t (B.known t (.inl ht) hrel.1)
      · simp only [List.mem_append, List.mem_singleton, reduceCtorEq, or_false] at ht
        exact a2 t (B.known t (.inr (.inl ht)) hrel.1)
      · simp only [List.mem_append, List.mem_singleton, Op.snap.injEq] at ht
        rcases ht with ht | ⟨rfl, -⟩
        · exact a2 t (B.known t (.inr (.inr ⟨r', ht⟩)) hrel.1)
        · exact a1
    · intro t ht
      simp only [State.step]; rw [process_ths]
      rw [recs_snoc] at ht
      by_cases h : th = t
      · subst h; exact a1
      · simp only [recsStep, h, false_and, if_false] at ht
        exact a2 t (B.recs t ht)
    · intro b hb hbr
      obtain ⟨b', g1, g2, g3⟩ := process_retired s th sig r hb hbr
      have := B.retired b' g1 g3
      rw [g2] at this
      simp [this]
  | @flush h' hv =>
    obtain ⟨rfl, hop⟩ := List.append_inj' hg rfl
    simp only [List.cons.injEq, and_true] at hop
    subst hop
    refine ⟨by simp only [State.step]; rw [flush_ths]; exact B.nodup, ?_, ?_, ?_⟩
    · intro t ht hrel
      simp only [List.mem_append, List.mem_singleton, not_or] at hrel
      simp only [State.step]; rw [flush_ths]
      refine B.known t ?_ hrel.1
      rcases ht with ht | ht | ⟨r, ht⟩
      · exact .inl ht
      · simp only [List.mem_append, List.mem_singleton, reduceCtorEq, or_false] at ht
        exact .inr (.inl ht)
      · simp only [List.mem_append, List.mem_singleton, reduceCtorEq, or_false] at ht
        exact .inr (.inr ⟨r, ht⟩)
    · intro t ht
      rw [recs_snoc] at ht
      simp only [State.step]; rw [flush_ths]
      exact B.recs t ht
    · intro b hb hbr
      simp only [State.step, State.flush, List.mem_map] at hb
      obtain ⟨b', hb', rfl⟩ := hb
      simp [B.retired b' hb' hbr]
  | @clear h' hv =>
    obtain ⟨rfl, hop⟩ := List.append_inj' hg rfl
    simp only [List.cons.injEq, and_true] at hop
    subst hop
    have e : s.clear.bufs.map Buf.th = (s.bufs.filter fun b => !b.retired).map Buf.th := by simp [State.clear, Function.comp_def]
    refine ⟨?_, ?_, ?_, ?_⟩
    · simp only [State.step]; rw [e]
      exact B.nodup.sublist ((List.filter_sublist).map _)
    · intro t ht hrel
      simp only [List.mem_append, List.mem_singleton, not_or] at hrel
      have hk : Known th0 h t := by
        rcases ht with ht | ht | ⟨r, ht⟩
        · exact .inl ht
        · simp only [List.mem_append, List.mem_singleton, reduceCtorEq, or_false] at ht
          exact .inr (.inl ht)
        · simp only [List.mem_append, List.mem_singleton, reduceCtorEq, or_false] at ht
          exact .inr (.inr ⟨r, ht⟩)
      simp only [State.step]; rw [e]
      obtain ⟨b, hb, rfl⟩ := List.mem_map.1 (B.known t hk hrel.1)
      refine List.mem_map_of_mem (List.mem_filter.2 ⟨hb, ?_⟩)
      cases hbr : b.retired with
      | false => rfl
      | true => exact absurd (B.retired b hb hbr) hrel.1
    · intro t ht
      rw [recs_snoc] at ht
      exact absurd rfl ht
    · intro b hb hbr
      simp only [State.step, State.clear, List.mem_map] at hb
      obtain ⟨b', hb', rfl⟩ := hb
      have := (List.mem_filter.1 hb').2
      simp only at hbr
      rw [hbr] at this
      cases this

end Verif.Serv.Trace
