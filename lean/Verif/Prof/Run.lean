import Verif.Prof.Calls
/-!
# Lemmas for region profiles: the records of a history
-/
namespace Verif.Prof
open Verif RT MTree Capi Serv

variable {raw : BitVec 64 → List Byte} {C : Serv.Cfg}

/-- for each call of thread `th`: the open regions, the time since the last call, and whether it is an end call -/
def stays (th : Nat) : PathL → Nat → List (Nat × RT.Op) → List (PathL × Nat × Bool)
  | _, _, [] => []
  | st, prev, (t, op) :: h => if op.thread = th then (st, t - prev, op.isEnd) :: stays th (after st op) t h else stays th st prev h

theorem valuesOf_keep {s s' : RT.State} {c c' : Abs} (R : RelS s c) (R' : RelS s' c') {l : Loc} (hv : (c'.ctx l).vals = (c.ctx l).vals)
    {J : List (Nat × Verif.Val)} (h : ValuesOf s l J) : ValuesOf s' l J :=
  ⟨h.1, fun k v => by rw [h.2, currentValue_iff R, currentValue_iff R', hv]⟩

theorem loc_thread (op : RT.Op) (th : Nat) (h : op.thread ≠ th) : op.loc ≠ some (.thread th) := by
  have hs : ∀ a : Attr, ∀ t, t ≠ th → scopeLoc a t ≠ some (.thread th) := by
    intro a t ht
    unfold scopeLoc
    split
    · simpa using ht
    · split <;> simp
  cases op with
  | begin t a v => exact hs a t h
  | endR t a => exact hs a t h
  | endCheck t a v => exact hs a t h
  | set t a v => exact hs a t h
  | beginCh t ch a v => simp [RT.Op.loc]
  | endCh t ch a => simp [RT.Op.loc]
  | setCh t ch a v => simp [RT.Op.loc]

theorem dur_sub {t p : Nat} (h : p ≤ t) : BitVec.ofNat 64 t - BitVec.ofNat 64 p = BitVec.ofNat 64 (t - p) := by
  apply BitVec.eq_of_toNat_eq
  simp only [BitVec.toNat_sub, BitVec.toNat_ofNat]
  omega

/-- all hypotheses about one moment of the history -/
structure Now (C : Serv.Cfg) (raw : BitVec 64 → List Byte) (I : Ids) (ch th : Nat) (Jt Jp : List (Nat × Verif.Val)) (s : RT.State) (c : Abs)
    (v : Serv.State) (st : PathL) (prev : Nat) (h : List (Nat × RT.Op)) : Prop where
  reach : RtReachV s
  rel : RelS s c
  valid : ∀ x ∈ h, x.2.attr.Valid s.tree
  visible : ∀ x ∈ h, x.2.attr.hidden = false
  nl : NoLoss s (RT.run s (h.map Prod.snd))
  active : s.active.count ch = 1
  err : c.err th = false
  region : (c.ctx (.thread th)).region = st
  unal : (c.ctx (.thread th)).unal = []
  pregion : (c.ctx .process).region = []
  punal : (c.ctx .process).unal = []
  jt : ValuesOf s (.thread th) Jt
  jp : ValuesOf s .process Jp
  proper : Proper th st h
  marked : ∀ x ∈ h, x.2.thread = th → v.evt.marked x.2.attr.id = true
  passes : ∀ x ∈ regionsOf th st h, Passes raw C.evt x.1 x.2
  hprev : prevOf v th = BitVec.ofNat 64 prev
  times : Times prev h

variable {I : Ids} {ch th : Nat} {Jt Jp : List (Nat × Verif.Val)} {conv : Verif.Val → Cali.Val} {E : Agg.Env}

/-- after a call -/
theorem Now.next {s : RT.State} {c : Abs} {v v' : Serv.State} {st st' : PathL} {prev prev' t : Nat} {op : RT.Op} {h : List (Nat × RT.Op)}
    (N : Now C raw I ch th Jt Jp s c v st prev ((t, op) :: h)) (he : v'.evt = v.evt) (hp : prevOf v' th = BitVec.ofNat 64 prev')
    (ht : Times prev' h) (herr : (c.step s.active s.isActive op).err th = false)
    (hc : (c.step s.active s.isActive op).ctx (.thread th) = { c.ctx (.thread th) with region := st' })
    (hpc : (c.step s.active s.isActive op).ctx .process = c.ctx .process)
    (hpr : Proper th st' h) (hps : ∀ x ∈ regionsOf th st' h, Passes raw C.evt x.1 x.2) :
    Now C raw I ch th Jt Jp (RT.step s op) (c.step s.active s.isActive op) v' st' prev' h ∧ Ext s.tree (RT.step s op).tree := by
  have nl := N.nl
  simp only [List.map_cons, RT.run] at nl
  obtain ⟨n1, n2⟩ := nl.split (step_le s op) (run_le _ _)
  have hv := N.valid (t, op) (by simp)
  obtain ⟨R1, x1, a1, a2⟩ := step_sim N.rel hv n1
  refine ⟨⟨.call N.reach hv (N.visible (t, op) (by simp)) n1, R1, fun x hx => (N.valid x (by simp [hx])).ext x1, fun x hx => N.visible x (by simp [hx]), n2,
    by rw [a1]; exact N.active, herr, by rw [hc], by rw [hc]; exact N.unal, by rw [hpc]; exact N.pregion, by rw [hpc]; exact N.punal,
    valuesOf_keep N.rel R1 (by rw [hc]) N.jt, valuesOf_keep N.rel R1 (by rw [hpc]) N.jp, hpr, fun x hx hth => ?_, hps, hp, ht⟩, x1⟩
  rw [he]; exact N.marked x (by simp [hx]) hth

theorem records_are (hb : hasFilters C.evt.branch = false) (hinfo : C.evt.info = false) (hI : I.Ok E) (hlen : Jt.length + Jp.length ≤ 116)
    (hd : I.dur ∉ Jt.map Prod.fst ∧ I.dur ∉ Jp.map Prod.fst) (hcn : I.count ∉ Jt.map Prod.fst ∧ I.count ∉ Jp.map Prod.fst)
    (h : List (Nat × RT.Op)) : ∀ (s : RT.State) (c : Abs) (v : Serv.State) (st : PathL) (prev : Nat),
    Now C raw I ch th Jt Jp s c v st prev h → EnvOf E (RT.run s (h.map Prod.snd)).tree →
    Ext s.tree (RT.run s (h.map Prod.snd)).tree ∧
    List.Forall₂ (fun rec (y : PathL × Nat × Bool) => RecIs E (RT.run s (h.map Prod.snd)).tree I rec y.1 (BitVec.ofNat 64 y.2.1) y.2.2)
      (((records raw C I conv ch s v h).filter fun r => decide (r.1 = th)).map Prod.snd) (stays th st prev h) := by
  induction h with
  | nil => intro s c v st prev N hE; exact ⟨Ext.refl _, .nil⟩
  | cons y h ih =>
    obtain ⟨t, op⟩ := y
    intro s c v st prev N hE
    have nl := N.nl
    simp only [List.map_cons, RT.run] at nl hE ⊢
    obtain ⟨n1, n2⟩ := nl.split (step_le s op) (run_le _ _)
    have hv := N.valid (t, op) (by simp)
    obtain ⟨htp, hts⟩ := N.times
    have hpp := N.proper
    have hps := N.passes
    simp only [records, List.filter_append, List.map_append, stays]
    by_cases hth : op.thread = th
    swap
    · -- another thread
      simp only [Proper, if_neg hth] at hpp
      simp only [regionsOf, if_neg hth] at hps
      have hes : ∀ e ∈ callbacks ch s op, e.th ≠ th := by
        intro e he
        rw [callbacks_abs N.rel hv n1] at he
        obtain ⟨new, l1, l2⟩ := step_log s.active s.isActive c op
        rw [l1, List.drop_left] at he
        rw [(l2 e (List.mem_filter.1 he).1).1]; exact hth
      obtain ⟨o1, o2, o3⟩ := run_other (raw := raw) (C := C) hb (BitVec.ofNat 64 t) th _ hes v
      have hle : ∀ (a b : Nat) (l : List (Nat × RT.Op)), a ≤ b → Times b l → Times a l := by
        intro a b l hab hl
        cases l with
        | nil => simp only [Times] at *; omega
        | cons z l => exact ⟨Nat.le_trans hab hl.1, hl.2⟩
      obtain ⟨N', x1⟩ := N.next o1 (o2.trans N.hprev) (hle prev t h htp hts) (by rw [abs_step_err _ _ _ _ _ (fun e => absurd e hth)]; exact N.err)
        (st' := st) (by rw [abs_step_other _ _ _ _ (loc_thread op th hth)]; cases hx : c.ctx (.thread th) with | mk a b d => have := N.region; rw [hx] at this; simp_all)
        (abs_step_other _ _ _ _ hpp.1) hpp.2 hps
      obtain ⟨x2, f⟩ := ih _ _ _ _ _ N' hE
      refine ⟨x1.trans x2, ?_⟩
      rw [if_neg hth]
      have : ((List.map (fun sn : Snap => (sn.th, record I conv s sn)) (Serv.State.run raw C v ((callbacks ch s op).map fun e => (BitVec.ofNat 64 t, .event e))).2).filter
          fun r => decide (r.1 = th)) = [] := by
        rw [List.filter_eq_nil_iff]
        intro r hr
        obtain ⟨sn, hs, rfl⟩ := List.mem_map.1 hr
        simpa using o3 sn hs
      rw [this]
      exact f
    · -- a call of the thread
      simp only [Proper, if_pos hth] at hpp
      simp only [regionsOf, if_pos hth] at hps
      obtain ⟨hk, hl, hsk, hm, hpr⟩ := hpp
      have hmk := N.marked (t, op) (by simp) hth
      suffices fin : ∃ v' : Serv.State,
          (Serv.State.run raw C v ((callbacks ch s op).map fun e => (BitVec.ofNat 64 t, .event e))) =
            (v', [⟨th, false, none, op.isEnd, ⟨BitVec.ofNat 64 t, some (BitVec.ofNat 64 t - prevOf v th), none⟩⟩]) ∧
          v'.evt = v.evt ∧ prevOf v' th = BitVec.ofNat 64 t ∧ (c.step s.active s.isActive op).err th = false ∧
          (c.step s.active s.isActive op).ctx (.thread th) = { c.ctx (.thread th) with region := after st op } ∧
          (c.step s.active s.isActive op).ctx .process = c.ctx .process ∧
          (∀ x ∈ regionsOf th (after st op) h, Passes raw C.evt x.1 x.2) by
        obtain ⟨v', hrun, he', hp', herr, hc, hpc, hps'⟩ := fin
        obtain ⟨N', x1⟩ := N.next he' hp' hts herr hc hpc hpr hps'
        obtain ⟨x2, f⟩ := ih _ _ _ _ _ N' hE
        refine ⟨x1.trans x2, ?_⟩
        rw [if_pos hth, hrun]
        simp only [List.map_cons, List.map_nil, List.filter_cons, decide_true, if_true, List.filter_nil, List.cons_append, List.nil_append]
        refine .cons ?_ f
        simp only
        have hds : BitVec.ofNat 64 t - prevOf v th = BitVec.ofNat 64 (t - prev) := by rw [N.hprev]; exact dur_sub htp
        rw [hds]
        have := record_is N.reach N.rel (x1.trans x2) hE hI conv N.unal N.pregion N.punal N.jt N.jp hlen hd hcn (BitVec.ofNat 64 t)
          (BitVec.ofNat 64 (t - prev)) op.isEnd false none
        rwa [N.region] at this
      cases op with
      | begin th' a x =>
        obtain rfl : th' = th := hth
        obtain ⟨b1, b2, b3⟩ := begin_call (raw := raw) hb hinfo N.rel hv n1 N.active N.err hsk v (BitVec.ofNat 64 t) hmk (hps (a.id, x) (by simp))
        refine ⟨_, Prod.ext rfl b3, b1, b2, ?_, ?_, ?_, fun x hx => hps x (by simp [hx])⟩
        · rw [abs_step_err _ _ _ _ _ (fun _ => rfl)]; exact N.err
        · have hl' : scopeLoc a th' = some (.thread th') := hl
          simp only [Abs.step, N.err, hl', Bool.false_eq_true, if_false]
          have hka : a.kind = .region := hk
          simp [Ctx.begin, hka, after, N.region, Abs.put]
        · exact abs_step_other _ _ _ _ (by rw [hl]; simp)
      | endR th' a =>
        obtain rfl : th' = th := hth
        obtain ⟨st', x, rfl⟩ := hm
        have hka : a.kind = .region := hk
        have hl' : scopeLoc a th' = some (.thread th') := hl
        have hend := endable_region hka N.region
        obtain ⟨b1, b2, b3⟩ := end_call (raw := raw) hb hinfo N.rel hv n1 rfl N.active N.err hsk hl' hend (.inl rfl) v (BitVec.ofNat 64 t) hmk
          (hps (a.id, x) (by simp))
        refine ⟨_, Prod.ext rfl b3, b1, b2, ?_, ?_, ?_, fun x hx => hps x (by simp [hx])⟩
        · simp only [Abs.step]
          rw [abs_endCore_ok _ N.err hl' hend (.inl rfl)]; simpa using N.err
        · simp only [Abs.step]
          rw [abs_endCore_ok _ N.err hl' hend (.inl rfl)]
          simp [Ctx.endR, hka, after, N.region, Abs.put]
        · exact abs_step_other _ _ _ _ (by rw [hl]; simp)
      | endCheck th' a w =>
        obtain rfl : th' = th := hth
        obtain ⟨st', rfl⟩ := hm
        have hka : a.kind = .region := hk
        have hl' : scopeLoc a th' = some (.thread th') := hl
        have hend := endable_region hka N.region
        obtain ⟨b1, b2, b3⟩ := end_call (raw := raw) hb hinfo N.rel hv n1 rfl N.active N.err hsk hl' hend (.inr rfl) v (BitVec.ofNat 64 t) hmk
          (hps (a.id, w) (by simp))
        refine ⟨_, Prod.ext rfl b3, b1, b2, ?_, ?_, ?_, fun x hx => hps x (by simp [hx])⟩
        · simp only [Abs.step]
          rw [abs_endCore_ok _ N.err hl' hend (.inr rfl)]; simpa using N.err
        · simp only [Abs.step]
          rw [abs_endCore_ok _ N.err hl' hend (.inr rfl)]
          simp [Ctx.endR, hka, after, N.region, Abs.put]
        · exact abs_step_other _ _ _ _ (by rw [hl]; simp)
      | _ => exact hm.elim

end Verif.Prof
