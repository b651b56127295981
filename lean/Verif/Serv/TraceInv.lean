import Verif.Serv.TraceLemmas
import Mathlib.Data.List.Nodup
import Mathlib.Data.List.Induction
/-!
# Invariants of trace buffers
-/
namespace Verif.Serv.Trace
open Verif Verif.CSR

variable {isAttr : U64 → Bool}

/-- `save` on one buffer -/
def saveBuf (r : Record) (b : Buf) : Buf := match b.chunks with | [] => b | c :: cs => { b with chunks := c.save r :: cs }

/-- `clear` on one buffer -/
def clearBuf (b : Buf) : Buf :=
  { b with chunks := match b.chunks with | [] => [] | c :: _ => [⟨c.size, [], 0⟩], stopped := false }

/-- overflow handling on one buffer -/
def overBuf (p : Policy) (size : Nat) (r : Record) (b : Buf) : Buf :=
  match p with
  | .stop => { b with stopped := true }
  | .grow => saveBuf r { b with chunks := .new size :: b.chunks }
  | .flush => b

def fitsBuf (r : Record) (b : Buf) : Bool := (b.chunks.head?.map fun c => c.fits r).getD false

theorem saveBuf_th (r : Record) (b : Buf) : (saveBuf r b).th = b.th := by unfold saveBuf; cases b.chunks <;> rfl

/-- what a property of single buffers must satisfy to be an invariant -/
structure IsInv (isAttr : U64 → Bool) (m : Nat) (p : Policy) (size : Nat) (H : List Op) (P : List Op → Buf → Prop) : Prop where
  new : ∀ h th, recs th h = [] → P h ⟨th, [.new size], false, false⟩
  attach : ∀ h b th, P h b → P (h ++ [.attach th]) b
  release : ∀ h b th x, P h b → P (h ++ [.release th]) { b with retired := x }
  flush : ∀ h b, P h b → P (h ++ [.flush]) { b with stopped := false }
  clear : ∀ h b, P h b → P (h ++ [.clear]) (clearBuf b)
  other : ∀ h b th sig r, th ≠ b.th → P h b → P (h ++ [.snap th sig r]) b
  drop : ∀ h b sig r, P h b → b.stopped = true → P (h ++ [.snap b.th sig r]) b
  save : ∀ h b sig r, h ++ [.snap b.th sig r] <+: H → RecOk isAttr r → r.length ≤ m → P h b → b.stopped = false →
    fitsBuf r b = true → P (h ++ [.snap b.th sig r]) (saveBuf r b)
  over : ∀ h b sig r, h ++ [.snap b.th sig r] <+: H → RecOk isAttr r → r.length ≤ m → P h b → b.stopped = false →
    fitsBuf r b = false → p ≠ .flush ∧ P (h ++ [.snap b.th sig r]) (overBuf p size r b)
  le : ∀ h b, P h b → ∀ c ∈ b.chunks, c.data.length ≤ c.size

/-- all buffers satisfy the property -/
structure Inv (th0 : Nat) (p : Policy) (size : Nat) (P : List Op → Buf → Prop) (h : List Op) (s : State) : Prop where
  base : Base th0 h s
  policy : s.policy = p
  bufsize : s.bufsize = size
  overrun : s.overrun = false
  all : ∀ b ∈ s.bufs, P h b

theorem save_overrun (s : State) (th : Nat) (r : Record) (h0 : s.overrun = false)
    (h : ∀ b ∈ (s.save th r).bufs, ∀ c ∈ b.chunks, c.data.length ≤ c.size) : (s.save th r).overrun = false := by
  have e : (s.save th r).overrun = (s.overrun || (s.save th r).bufs.any fun b => b.chunks.any fun c => decide (c.data.length > c.size)) := rfl
  rw [e, h0, Bool.false_or, Bool.eq_false_iff]
  intro hh
  obtain ⟨b, hb, h2⟩ := List.any_eq_true.1 hh
  obtain ⟨c, hc, h3⟩ := List.any_eq_true.1 h2
  have := h b hb c hc
  simp only [decide_eq_true_eq] at h3
  omega

theorem mem_save {s : State} {th : Nat} {r : Record} {b : Buf} (h : b ∈ (s.save th r).bufs) :
    ∃ b' ∈ s.bufs, b = if b'.th = th then saveBuf r b' else b' := by
  have e : (s.save th r).bufs = s.bufs.map fun b => if b.th = th then saveBuf r b else b := rfl
  rw [e] at h
  obtain ⟨b', h1, h2⟩ := List.mem_map.1 h
  exact ⟨b', h1, h2.symm⟩

theorem mem_upd {s : State} {th : Nat} {f : Buf → Buf} {b : Buf} (h : b ∈ (s.upd th f).bufs) :
    ∃ b' ∈ s.bufs, b = if b'.th = th then f b' else b' := by
  simp only [State.upd, List.mem_map] at h
  obtain ⟨b', h1, h2⟩ := h
  exact ⟨b', h1, h2.symm⟩

theorem Inv.init {th0 m : Nat} {p : Policy} {size : Nat} {H : List Op} {P : List Op → Buf → Prop} (hP : IsInv isAttr m p size H P) :
    Inv th0 p size P [] (State.init p size th0) := by
  refine ⟨.init p size th0, rfl, rfl, rfl, ?_⟩
  intro b hb
  simp only [State.init, State.acquire, List.any_nil, Bool.false_eq_true, if_false, if_true, List.mem_singleton] at hb
  subst hb
  exact hP.new [] th0 rfl

theorem all_acquire {th0 m : Nat} {p : Policy} {size : Nat} {H : List Op} {P : List Op → Buf → Prop} (hP : IsInv isAttr m p size H P) {h : List Op}
    {s : State} (I : Inv th0 p size P h s) (th : Nat) (ca : Bool) :
    (∀ b ∈ (s.acquire th ca).bufs, P h b) ∧ (s.acquire th ca).policy = p ∧ (s.acquire th ca).bufsize = size ∧
      (s.acquire th ca).overrun = false ∧ (s.acquire th ca).dropped = s.dropped := by
  rcases acquire_ths s th ca with ⟨-, e⟩ | ⟨-, -, e⟩ | ⟨h1, -, e⟩
  · rw [e]; exact ⟨I.all, I.policy, I.bufsize, I.overrun, rfl⟩
  · rw [e]; exact ⟨I.all, I.policy, I.bufsize, I.overrun, rfl⟩
  · rw [e]
    refine ⟨?_, I.policy, I.bufsize, I.overrun, rfl⟩
    intro b hb
    rcases List.mem_cons.1 hb with rfl | hb
    · rw [I.bufsize]
      refine hP.new h th ?_
      by_cases hr : recs th h = []
      · exact hr
      · exact absurd (I.base.recs th hr) h1
    · exact I.all b hb

theorem Inv.step {th0 m : Nat} {p : Policy} {size : Nat} {H : List Op} {P : List Op → Buf → Prop} (hP : IsInv isAttr m p size H P) {h : List Op} {s : State}
    (I : Inv th0 p size P h s) {op : Op} (hv : Valid isAttr th0 m (h ++ [op])) (hpre : h ++ [op] <+: H) :
    Inv th0 p size P (h ++ [op]) (s.step isAttr op).1 ∧ (op ≠ .flush → (s.step isAttr op).2 = []) ∧
    ((∀ b ∈ s.bufs, b.stopped = false) → (s.step isAttr op).1.dropped = s.dropped) := by
  have B := I.base.step hv
  generalize hg : h ++ [op] = g at hv
  cases hv with
  | nil => simp at hg
  | @attach h' th hv hr =>
    obtain ⟨rfl, hop⟩ := List.append_inj' hg rfl
    simp only [List.cons.injEq, and_true] at hop
    subst hop
    obtain ⟨a1, a2, a3, a4, a5⟩ := all_acquire hP I th true
    exact ⟨⟨B, a2, a3, a4, fun b hb => hP.attach h b th (a1 b hb)⟩, fun _ => rfl, fun _ => a5⟩
  | @release h' th hv hr =>
    obtain ⟨rfl, hop⟩ := List.append_inj' hg rfl
    simp only [List.cons.injEq, and_true] at hop
    subst hop
    refine ⟨⟨B, I.policy, I.bufsize, I.overrun, ?_⟩, fun _ => rfl, fun _ => rfl⟩
    intro b hb
    obtain ⟨b', h1, rfl⟩ := mem_upd hb
    have h2 := I.all b' h1
    split
    · exact hP.release h b' th true h2
    · exact hP.release h b' th b'.retired h2
  | @flush h' hv =>
    obtain ⟨rfl, hop⟩ := List.append_inj' hg rfl
    simp only [List.cons.injEq, and_true] at hop
    subst hop
    refine ⟨⟨B, I.policy, I.bufsize, I.overrun, ?_⟩, fun hh => absurd rfl hh, fun _ => rfl⟩
    intro b hb
    simp only [State.step, State.flush, List.mem_map] at hb
    obtain ⟨b', h1, rfl⟩ := hb
    exact hP.flush h b' (I.all b' h1)
  | @clear h' hv =>
    obtain ⟨rfl, hop⟩ := List.append_inj' hg rfl
    simp only [List.cons.injEq, and_true] at hop
    subst hop
    refine ⟨⟨B, I.policy, I.bufsize, I.overrun, ?_⟩, fun _ => rfl, fun _ => rfl⟩
    intro b hb
    simp only [State.step, State.clear, List.mem_map] at hb
    obtain ⟨b', h1, rfl⟩ := hb
    exact hP.clear h b' (I.all b' (List.mem_filter.1 h1).1)
  | @snap h' th sig r hv' hr hk hrok hm =>
    obtain ⟨rfl, hop⟩ := List.append_inj' hg rfl
    simp only [List.cons.injEq, and_true] at hop
    subst hop
    have hval := hpre
    have hkn : th ∈ s.bufs.map Buf.th ∨ (!sig) = true := by
      cases sig with
      | false => exact .inr rfl
      | true => exact .inl (I.base.known th (hk rfl) hr)
    obtain ⟨m1, -, m3⟩ := acquire_mem s th hkn
    obtain ⟨a1, a2, a3, a4, a5⟩ := all_acquire hP I th (!sig)
    have hst : (∀ b ∈ s.bufs, b.stopped = false) → ∀ b ∈ (s.acquire th (!sig)).bufs, b.stopped = false := by
      intro hs b hb
      rcases acquire_ths s th (!sig) with ⟨-, e⟩ | ⟨-, -, e⟩ | ⟨-, -, e⟩
      · rw [e] at hb; exact hs b hb
      · rw [e] at hb; exact hs b hb
      · rw [e] at hb
        rcases List.mem_cons.1 hb with rfl | hb
        · rfl
        · exact hs b hb
    have nd := m3 I.base.nodup
    generalize hs1 : s.acquire th (!sig) = s1 at *
    obtain ⟨b0, hb0, hth⟩ := List.mem_map.1 m1
    cases hf : s1.bufs.find? (fun b => b.th = th) with
    | none =>
      have := List.find?_eq_none.1 hf b0 hb0
      simp [hth] at this
    | some b =>
      have hbm := List.mem_of_find?_eq_some hf
      have hbt : b.th = th := by simpa using List.find?_some hf
      have huniq : ∀ b' ∈ s1.bufs, b'.th = th → b' = b := by
        intro b' hb' e
        exact List.inj_on_of_nodup_map nd hb' hbm (e.trans hbt.symm)
      have hother : ∀ b' ∈ s1.bufs, b'.th ≠ th → P (h ++ [.snap th sig r]) b' :=
        fun b' hb' hne => hP.other h b' th sig r (Ne.symm hne) (a1 b' hb')
      have hpr : s.step isAttr (.snap th sig r) = (if b.stopped then ({ s1 with dropped := s1.dropped + 1 }, [])
          else if fitsBuf r b then (s1.save th r, [])
          else match s1.policy with
            | .stop => (s1.upd th (fun b => { b with stopped := true }), [])
            | .grow => ((s1.upd th fun b => { b with chunks := .new s1.bufsize :: b.chunks }).save th r, [])
            | .flush => ((s1.flush isAttr).1.save th r, [(s1.flush isAttr).2])) := by
        simp only [State.step, State.process, hs1, hf, fitsBuf]
        rfl
      rw [hpr] at B ⊢
      subst hbt
      by_cases hstop : b.stopped = true
      · rw [if_pos hstop] at B ⊢
        refine ⟨⟨B, a2, a3, a4, ?_⟩, fun _ => rfl, ?_⟩
        · intro b' hb'
          by_cases e : b'.th = b.th
          · rw [huniq b' hb' e]; exact hP.drop h b sig r (a1 b hbm) hstop
          · exact hother b' hb' e
        · intro hs
          rw [hst hs b hbm] at hstop; cases hstop
      rw [if_neg hstop] at B ⊢
      rw [Bool.not_eq_true] at hstop
      by_cases hfit : fitsBuf r b = true
      · rw [if_pos hfit] at B ⊢
        have hall : ∀ b' ∈ (s1.save b.th r).bufs, P (h ++ [.snap b.th sig r]) b' := by
          intro x hx
          obtain ⟨b', hb', rfl⟩ := mem_save hx
          split
          · next e => rw [huniq b' hb' e]; exact hP.save h b sig r hval hrok hm (a1 b hbm) hstop hfit
          · next e => exact hother b' hb' e
        refine ⟨⟨B, a2, a3, ?_, hall⟩, fun _ => rfl, fun _ => a5⟩
        exact save_overrun _ _ _ a4 fun b' hb' => hP.le _ b' (hall b' hb')
      · rw [if_neg hfit] at B ⊢
        rw [Bool.not_eq_true] at hfit
        obtain ⟨o1, o2⟩ := hP.over h b sig r hval hrok hm (a1 b hbm) hstop hfit
        rw [a2] at B ⊢
        cases p with
        | flush => exact absurd rfl o1
        | stop =>
          refine ⟨⟨B, a2, a3, a4, ?_⟩, fun _ => rfl, fun _ => a5⟩
          intro x hx
          obtain ⟨b', hb', rfl⟩ := mem_upd hx
          split
          · next e => rw [huniq b' hb' e]; exact o2
          · next e => exact hother b' hb' e
        | grow =>
          have hall : ∀ b' ∈ ((s1.upd b.th fun b => { b with chunks := .new s1.bufsize :: b.chunks }).save b.th r).bufs,
              P (h ++ [.snap b.th sig r]) b' := by
            intro x hx
            obtain ⟨b1, hb1, rfl⟩ := mem_save hx
            obtain ⟨b', hb', rfl⟩ := mem_upd hb1
            by_cases e : b'.th = b.th
            · rw [if_pos e, if_pos (by exact e), huniq b' hb' e, a3]; exact o2
            · rw [if_neg e, if_neg e]; exact hother b' hb' e
          refine ⟨⟨B, a2, a3, ?_, hall⟩, fun _ => rfl, fun _ => a5⟩
          exact save_overrun _ _ _ a4 fun b' hb' => hP.le _ b' (hall b' hb')

theorem Valid.init {th0 m : Nat} {h : List Op} {op : Op} (hv : Valid isAttr th0 m (h ++ [op])) : Valid isAttr th0 m h := by
  generalize hg : h ++ [op] = g at hv
  cases hv with
  | nil => simp at hg
  | attach _ hv => obtain ⟨rfl, -⟩ := List.append_inj' hg rfl; exact hv
  | release _ hv => obtain ⟨rfl, -⟩ := List.append_inj' hg rfl; exact hv
  | snap _ _ _ hv => obtain ⟨rfl, -⟩ := List.append_inj' hg rfl; exact hv
  | flush hv => obtain ⟨rfl, -⟩ := List.append_inj' hg rfl; exact hv
  | clear hv => obtain ⟨rfl, -⟩ := List.append_inj' hg rfl; exact hv

/-- invariants hold after all valid histories -/
theorem inv_run {th0 m : Nat} {p : Policy} {size : Nat} {H : List Op} {P : List Op → Buf → Prop} (hP : IsInv isAttr m p size H P) {h : List Op}
    (hv : Valid isAttr th0 m h) (hpre : h <+: H) :
    Inv th0 p size P h (State.run isAttr (State.init p size th0) h).1 ∧
    (∀ o ∈ (State.run isAttr (State.init p size th0) h).2, ∃ h' t, h = h' ++ .flush :: t ∧
      o = (State.flush isAttr (State.run isAttr (State.init p size th0) h').1).2) ∧
    ((∀ h' b, P h' b → b.stopped = false) → (State.run isAttr (State.init p size th0) h).1.dropped = 0) := by
  induction h using List.reverseRecOn with
  | nil => exact ⟨.init hP, by simp [State.run], fun _ => rfl⟩
  | append_singleton h op ih =>
    obtain ⟨i1, i2, i3⟩ := ih hv.init ((List.prefix_append _ _).trans hpre)
    obtain ⟨s1, s2, s3⟩ := i1.step hP hv hpre
    obtain ⟨r1, r2⟩ := run_snoc (isAttr := isAttr) (State.init p size th0) h op
    rw [r1, r2]
    refine ⟨s1, ?_, fun hs => by rw [s3 fun b hb => hs h b (i1.all b hb), i3 hs]⟩
    intro o ho
    rcases List.mem_append.1 ho with ho | ho
    · obtain ⟨h', t, rfl, rfl⟩ := i2 o ho
      exact ⟨h', t ++ [op], by simp, rfl⟩
    · by_cases hf : op = .flush
      · subst hf
        simp only [State.step, List.mem_singleton] at ho
        exact ⟨h, [], rfl, ho⟩
      · rw [s2 hf] at ho; cases ho

/-- the output of a flush, buffer by buffer -/
theorem flush_out (bufs : List Buf) (out : Buf → List Record) (h : ∀ b ∈ bufs, flushChunks isAttr b.chunks = some (out b)) :
    flushChunks isAttr (bufs.flatMap fun b => b.chunks) = some (bufs.flatMap out) := by
  induction bufs with
  | nil => rfl
  | cons b bufs ih =>
    rw [List.flatMap_cons, List.flatMap_cons]
    exact flushChunks_append _ _ _ _ (h b (by simp)) (ih fun x hx => h x (by simp [hx]))

end Verif.Serv.Trace
