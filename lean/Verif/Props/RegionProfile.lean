import Verif.Prof.Report
/-!
# C79: a region profile shows the time spent in each region path
-/
namespace Verif.Prof
open Verif RT MTree Capi Serv Agg

theorem rows_of {th : Nat} {st : PathL} {h : List (Nat × RT.Op)} {E : Agg.Env} {t : Tree} {I : Ids} {info : Info} {rd rc : ResAttr} (O : DblOps)
    (hi : MTree.Inv t) (ho : InfoOk E I info rd rc) (ht : Times 0 h) {recs : List (List Cali.DEnt)}
    (hf : List.Forall₂ (Says E t I) recs (stays th st 0 h)) (reps : List (List Cali.DEnt)) : ∀ (Ys : List (PathL × Nat × Bool)) (n : Nat),
    List.Forall₂ (Says E t I) reps Ys → (∀ y ∈ Ys, y ∈ stays th st 0 h) →
    List.Forall₂ (Row E t info rd rc th st h) (Ys.map Prod.fst) (reps.mapIdx fun i r => E.report (kernStats O) info recs r (n + i)) := by
  induction reps with
  | nil => intro Ys n h _; cases h; exact .nil
  | cons r reps ih =>
    intro Ys n hF hs
    cases hF with
    | @cons _ y _ Ys h1 h2 =>
      rw [List.mapIdx_cons, List.map_cons]
      refine .cons ?_ ?_
      · have hmem := hs y (by simp)
        have hin : y ∈ atP y.1 (stays th st 0 h) := List.mem_filter.2 ⟨hmem, by simp⟩
        obtain ⟨r1, r2, r3, r4⟩ := report_row O hi ho hf h1.path (fun hc => by rw [hc] at hin; simp at hin) (n + 0)
        have hlt := spent_lt th y.1 h st 0 ht
        refine ⟨r1, ⟨_, r2, ?_⟩, ?_, ?_⟩
        · rw [spent_eq, BitVec.toNat_ofNat]; exact Nat.mod_eq_of_lt (by omega)
        · rw [r3, visits_count, visits_eq]
        · intro he
          rw [← ends_eq th y.1 h st 0] at he ⊢
          exact r4 fun hc => he (by rw [hc]; rfl)
      · have := ih Ys (n + 1) h2 (fun z hz => hs z (by simp [hz]))
        have e : (fun i r => E.report (kernStats O) info recs r (n + 1 + i)) = fun i r => E.report (kernStats O) info recs r (n + (i + 1)) := by
          funext i r; congr 1; omega
        rwa [e] at this

/-- the reports of a profile, and what the records they stand for say -/
theorem profile_reports {raw : BitVec 64 → List Byte} {C : Serv.Cfg} {attrs : List Serv.AttrInfo} {E : Agg.Env} {I : Ids} {info : Info}
    {rd rc : ResAttr} {ch th : Nat} {s : RT.State} {st : PathL} {h : List (Nat × RT.Op)} (S : Setup raw C attrs E I info rd rc ch th s st h)
    (O : DblOps) (conv : Verif.Val → Cali.Val) (sk : Cali.DEnt) (th0 : Nat) :
    ∃ (recs reps : List (List Cali.DEnt)) (Ys : List (PathL × Nat × Bool)),
      profile raw C I conv ch O E info sk th s (Serv.State.init C th0 attrs) h = some (reps.mapIdx fun i r => E.report (kernStats O) info recs r i) ∧
      List.Forall₂ (Says E (RT.run s (h.map Prod.snd)).tree I) recs (stays th st 0 h) ∧
      List.Forall₂ (Says E (RT.run s (h.map Prod.snd)).tree I) reps Ys ∧ (∀ y ∈ Ys, y ∈ stays th st 0 h) ∧ (Ys.map Prod.fst).Nodup ∧
      (∀ P, P ∈ Ys.map Prod.fst ↔ P ∈ visits th st h) ∧ MTree.Inv (RT.run s (h.map Prod.snd)).tree := by
  obtain ⟨c, R⟩ := S.reach.toReach.rel
  obtain ⟨Jt, Jp, v1, v2, v3, v4⟩ := S.values
  have N : Now C raw I ch th Jt Jp s c (Serv.State.init C th0 attrs) st 0 h :=
    { reach := S.reach, rel := R, valid := S.valid, visible := S.visible, nl := S.noLoss, active := S.active,
      err := by rw [← R.err]; exact S.noErr
      region := ((R.regions _ _).1 S.regions).symm, unal := ((R.unaligned _ _).1 S.unaligned).symm
      pregion := ((R.regions _ _).1 S.pregions).symm, punal := ((R.unaligned _ _).1 S.punaligned).symm
      jt := v1, jp := v2, proper := S.proper
      marked := fun x hx hth => by
        have := (marked_iff (raw := raw) (C := C) th0 attrs [] x.2.attr.id).2 (S.announced x hx hth)
        simpa [Serv.State.run] using this
      passes := S.passes
      hprev := by rw [prevOf_init]; rfl
      times := S.times }
  have hnot : ∀ {a : Nat}, (∀ k ∈ (Jt ++ Jp).map Prod.fst, k ≠ a) → a ∉ Jt.map Prod.fst ∧ a ∉ Jp.map Prod.fst := by
    intro a ha
    rw [List.map_append] at ha
    exact ⟨fun hc => ha a (List.mem_append_left _ hc) rfl, fun hc => ha a (List.mem_append_right _ hc) rfl⟩
  obtain ⟨-, hf⟩ := records_are (raw := raw) (conv := conv) S.noBranch S.noInfo S.ids v3 (hnot fun k hk => (v4 k hk).1) (hnot fun k hk => (v4 k hk).2)
    h s c _ st 0 N S.env
  have hi : MTree.Inv (RT.run s (h.map Prod.snd)).tree := (run_sim R (fun op ho => by
    obtain ⟨x, hx, rfl⟩ := List.mem_map.1 ho; exact S.valid x hx) S.noLoss).1.inv
  generalize hrecs : (((records raw C I conv ch s (Serv.State.init C th0 attrs) h).filter fun r => decide (r.1 = th)).map Prod.snd) = recs at hf
  have hkey : ∀ r ∈ recs, (E.keyEntries info r).length ≤ maxKeyLen := by
    intro r hr
    rw [key_length E info S.info.key]
    obtain ⟨i, hi1, rfl⟩ := List.mem_iff_getElem.1 hr
    have h2 := (List.forall₂_iff_get.1 hf)
    have := (h2.2 i hi1 (by rw [← h2.1]; exact hi1)).path.len
    exact Nat.le_trans this (by decide)
  obtain ⟨reps, hF, hout⟩ := C28_statistics_alloc_partial O E sk info recs hkey
  obtain ⟨Ys, hsub, hY⟩ := forall2_sublist hF.sub hf
  refine ⟨recs, reps, Ys, ?_, hf, hY, fun y hy => hsub.subset hy, ?_, ?_, hi⟩
  · unfold profile
    have : (((records raw C I conv ch s (Serv.State.init C th0 attrs) h).filter fun r => decide (r.1 = th)).map fun r => (⟨info, r.2, true⟩ : Call)) =
        recs.map fun r => ⟨info, r, true⟩ := by rw [← hrecs, List.map_map]; rfl
    rw [this, hout]
  · have hn := hF.nodup
    clear hsub hout hF
    induction hY with
    | nil => simp
    | @cons r y reps Ys h1 h2 ih =>
      simp only [List.map_cons, List.nodup_cons] at hn ⊢
      refine ⟨fun hc => hn.1 ?_, ih hn.2⟩
      obtain ⟨y', hy', he⟩ := List.mem_map.1 hc
      obtain ⟨i, hi1, rfl⟩ := List.mem_iff_getElem.1 hy'
      have g := List.forall₂_iff_get.1 h2
      have hp := (g.2 i (by rw [g.1]; exact hi1) hi1).path
      refine List.mem_map.2 ⟨reps[i]'(by rw [g.1]; exact hi1), List.getElem_mem _, ?_⟩
      rw [key_iff E info S.info.key]
      exact (hp.iff hi h1.path).2 he
  · intro P
    rw [← visits_eq th h st 0]
    constructor
    · intro hP
      exact (hsub.map Prod.fst).subset hP
    · intro hP
      obtain ⟨y, hy, rfl⟩ := List.mem_map.1 hP
      obtain ⟨i, hi1, rfl⟩ := List.mem_iff_getElem.1 hy
      have g := List.forall₂_iff_get.1 hf
      have hi2 : i < recs.length := by rw [g.1]; exact hi1
      have hp := (g.2 i hi2 hi1).path
      obtain ⟨r', hr', hk'⟩ := hF.all recs[i] (List.getElem_mem _)
      obtain ⟨j, hj1, rfl⟩ := List.mem_iff_getElem.1 hr'
      have gY := List.forall₂_iff_get.1 hY
      have hj2 : j < Ys.length := by rw [← gY.1]; exact hj1
      have hp' := (gY.2 j hj1 hj2).path
      rw [key_iff E info S.info.key] at hk'
      refine List.mem_map.2 ⟨Ys[j], List.getElem_mem _, ?_⟩
      exact (hp'.iff hi hp).1 hk'

/-- **C79** The profile a flush writes for a thread that makes properly nested begin and end calls has exactly one record for every region path
the thread was in at one of its calls.  The record's `sum#time.duration.ns` is the time that passed, between consecutive calls of the thread
(from the creation of the channel to its last call), while exactly these regions were open; its count is the number of those intervals, and
`sum#region.count` the number of times the innermost region of the path was ended.  Other threads may do what they like in between. -/
theorem C79_region_profile_partial {raw : BitVec 64 → List Byte} {C : Serv.Cfg} {attrs : List Serv.AttrInfo} {E : Agg.Env} {I : Ids} {info : Info}
    {rd rc : ResAttr} {ch th : Nat} {s : RT.State} {st : PathL} {h : List (Nat × RT.Op)} (S : Setup raw C attrs E I info rd rc ch th s st h)
    (O : DblOps) (conv : Verif.Val → Cali.Val) (sk : Cali.DEnt) (th0 : Nat) :
    ∃ out Ps, profile raw C I conv ch O E info sk th s (Serv.State.init C th0 attrs) h = some out ∧ Ps.Nodup ∧
      (∀ P, P ∈ Ps ↔ P ∈ visits th st h) ∧ List.Forall₂ (Row E (RT.run s (h.map Prod.snd)).tree info rd rc th st h) Ps out := by
  obtain ⟨recs, reps, Ys, e, hf, hY, hsub, hn, hv, hi⟩ := profile_reports S O conv sk th0
  refine ⟨_, Ys.map Prod.fst, e, hn, hv, ?_⟩
  have := rows_of O hi S.info S.times hf reps Ys 0 hY hsub
  simpa using this

/-! ## A concrete case -/

/-- attribute nodes: those of tree `t`, and the ids 1000 to 1999 -/
def exEnvOf (t : Tree) : Agg.Env :=
  ⟨fun i => match t.lookup i with
    | some p => decide (t.attrOf p = nameAttr)
    | none => decide (1000 ≤ i ∧ i < 2000), fun _ => 0, fun c n => 2 * c + n⟩

theorem exEnvOf_ok {t : Tree} (I : MTree.Inv t) : EnvOf (exEnvOf t) t := by
  intro p h1 h2
  simp only [exEnvOf, (lookup_live I h1 h2).1]

@[inherit_doc exEnvOf]
def exIds : Ids := ⟨1001, 1002, 1003, 1004⟩
@[inherit_doc exEnvOf]
def exInfoP : Info := ⟨[], [1004, 1002], [⟨1010, 1011, 1012, 1013⟩, ⟨1020, 1021, 1022, 1023⟩], 1030, 1031⟩
/-- event service: all attributes, no filters -/
def exCfg : Serv.Cfg := ⟨⟨fun _ => false, [], 0, false, ⟨none, none⟩, ⟨none, none⟩⟩, false⟩
@[inherit_doc exCfg]
def exAttrs : List Serv.AttrInfo := [⟨12, [], 0, false, false⟩, ⟨13, [], 0, false, false⟩]

/-- thread 3 begins `A = 1`, `B = 2` twice and ends them; thread 5 opens a region in between -/
def exHist : List (Nat × RT.Op) :=
  [(10, .begin 3 exA (.ofInt 1)), (15, .begin 3 exB (.ofInt 2)), (17, .begin 5 exA (.ofInt 1)), (25, .endCheck 3 exB (.ofInt 2)),
   (31, .begin 3 exB (.ofInt 2)), (33, .endR 3 exB), (40, .endR 3 exA)]
@[inherit_doc exHist]
def exFinal : Tree := (RT.run exS (exHist.map Prod.snd)).tree

theorem exHist_valid : ∀ x ∈ exHist, x.2.attr.Valid exS.tree := by
  intro x hx
  have := exValid
  simp only [exHist, List.mem_cons, List.not_mem_nil, or_false] at hx
  rcases hx with rfl | rfl | rfl | rfl | rfl | rfl | rfl <;> first | exact this.1 | exact this.2.1

theorem exHist_noLoss : NoLoss exS (RT.run exS (exHist.map Prod.snd)) :=
  noLoss_of _ _ [.thread 3, .thread 5] (by decide) (by decide) (by decide)

/-- the hypotheses of `C79_region_profile_partial` are met -/
theorem exSetup : Setup (fun _ => []) exCfg exAttrs (exEnvOf exFinal) exIds exInfoP ⟨1020, 1021, 1022, 1023⟩ ⟨1010, 1011, 1012, 1013⟩ 7 3 exS [] exHist := by
  have hr : RtReachV exS := .init RT.exTree_reach _ _
  obtain ⟨c, R⟩ := hr.toReach.rel
  have hi : MTree.Inv exFinal := (run_sim R (fun op ho => by
    obtain ⟨x, hx, rfl⟩ := List.mem_map.1 ho; exact exHist_valid x hx) exHist_noLoss).1.inv
  have hc : ∀ l k v, ¬ CurrentValue exS l k v := by
    have R0 : RelS exS RT.Abs.init := RelS.init R.inv R.tdead _ _
    intro l k v h
    rw [currentValue_iff R0] at h
    exact absurd h.2.2.2 (by simp [RT.Abs.init, Ctx.empty])
  exact
    { reach := hr, active := by decide, noErr := by decide
      regions := ⟨default, by decide, .root⟩, unaligned := ⟨default, by decide, .root⟩
      pregions := ⟨default, by decide, .root⟩, punaligned := ⟨default, by decide, .root⟩
      values := ⟨[], [], ⟨by simp, fun k v => by simpa using hc _ k v⟩, ⟨by simp, fun k v => by simpa using hc _ k v⟩, by simp, by simp⟩
      valid := exHist_valid, visible := by decide, noLoss := exHist_noLoss
      proper := by
        simp only [exHist, Proper, after]
        refine ⟨by decide, by decide, by decide, trivial, by decide, by decide, by decide, trivial, by decide,
          by decide, by decide, by decide, ⟨[(12, .ofInt 1)], rfl⟩, by decide, by decide, by decide, trivial,
          by decide, by decide, by decide, ⟨[(12, .ofInt 1)], _, rfl⟩, by decide, by decide, by decide, ⟨[], _, rfl⟩, trivial⟩
      times := by simp [exHist, Times]
      noBranch := by decide, noInfo := by decide
      announced := by
        intro x hx hth
        simp only [exHist, List.mem_cons, List.not_mem_nil, or_false] at hx
        rcases hx with rfl | rfl | rfl | rfl | rfl | rfl | rfl
        · exact ⟨⟨12, [], 0, false, false⟩, rfl, ⟨by decide, rfl, .inl rfl, by decide⟩, .inl ⟨rfl, .inl (by simp [exAttrs])⟩⟩
        · exact ⟨⟨13, [], 0, false, false⟩, rfl, ⟨by decide, rfl, .inl rfl, by decide⟩, .inl ⟨rfl, .inl (by simp [exAttrs])⟩⟩
        · exact absurd hth (by decide)
        · exact ⟨⟨13, [], 0, false, false⟩, rfl, ⟨by decide, rfl, .inl rfl, by decide⟩, .inl ⟨rfl, .inl (by simp [exAttrs])⟩⟩
        · exact ⟨⟨13, [], 0, false, false⟩, rfl, ⟨by decide, rfl, .inl rfl, by decide⟩, .inl ⟨rfl, .inl (by simp [exAttrs])⟩⟩
        · exact ⟨⟨13, [], 0, false, false⟩, rfl, ⟨by decide, rfl, .inl rfl, by decide⟩, .inl ⟨rfl, .inl (by simp [exAttrs])⟩⟩
        · exact ⟨⟨12, [], 0, false, false⟩, rfl, ⟨by decide, rfl, .inl rfl, by decide⟩, .inl ⟨rfl, .inl (by simp [exAttrs])⟩⟩
      passes := by intro x _ h; simp [exCfg] at h
      env := exEnvOf_ok hi
      ids := ⟨by decide, by decide, by decide, by decide, by decide, by decide⟩
      info := ⟨rfl, by decide, by decide, by decide, by decide⟩ }

/-- the numbers: 10 outside, 5 + 6 + 7 in `A`, 10 + 2 in `A/B`, which is ended twice -/
example : visits 3 [] exHist = [[], [(12, .ofInt 1)], [(12, .ofInt 1), (13, .ofInt 2)], [(12, .ofInt 1)], [(12, .ofInt 1), (13, .ofInt 2)], [(12, .ofInt 1)]] ∧
    spent 3 [] [] 0 exHist = 10 ∧ spent 3 [(12, .ofInt 1)] [] 0 exHist = 18 ∧ spent 3 [(12, .ofInt 1), (13, .ofInt 2)] [] 0 exHist = 12 ∧
    ends 3 [(12, .ofInt 1), (13, .ofInt 2)] [] exHist = 2 ∧ ends 3 [(12, .ofInt 1)] [] exHist = 1 := by decide

/-- and the profile -/
example : profile (fun _ => []) exCfg exIds (fun _ => .inv) 7 Agg.exOps (exEnvOf exFinal) exInfoP ⟨some 1, .inv⟩ 3 exS (Serv.State.init exCfg 0 exAttrs) exHist =
    some [
      [⟨some 1020, .uint 10⟩, ⟨some 1021, .uint 10⟩, ⟨some 1022, .uint 10⟩, ⟨some 1023, .uint 10⟩, ⟨some 1030, .uint 1⟩, ⟨some 1031, .uint 0⟩],
      [⟨some 64, .inv⟩, ⟨some 1010, .uint 1⟩, ⟨some 1011, .uint 1⟩, ⟨some 1012, .uint 1⟩, ⟨some 1013, .uint 1⟩,
       ⟨some 1020, .uint 5⟩, ⟨some 1021, .uint 7⟩, ⟨some 1022, .uint 18⟩, ⟨some 1023, .uint 6⟩, ⟨some 1030, .uint 3⟩, ⟨some 1031, .uint 1⟩],
      [⟨some 65, .inv⟩, ⟨some 1010, .uint 1⟩, ⟨some 1011, .uint 1⟩, ⟨some 1012, .uint 2⟩, ⟨some 1013, .uint 1⟩,
       ⟨some 1020, .uint 2⟩, ⟨some 1021, .uint 10⟩, ⟨some 1022, .uint 12⟩, ⟨some 1023, .uint 6⟩, ⟨some 1030, .uint 2⟩, ⟨some 1031, .uint 2⟩]] := by
  decide +kernel

/-! ## What does not hold -/

/-- a state in which `n` process-wide values are set -/
def manyS (n : Nat) : RT.State := RT.run (RT.init (glTree n) [7] (fun c => c == 7)) ((List.range n).map fun i => .set 0 (glV i) (.ofInt (BitVec.ofNat 32 i)))
/-- a region attribute of that tree -/
def manyA : Attr := ⟨.cell 0 14, 14, 20#32⟩
@[inherit_doc manyA]
def manyHist : List (Nat × RT.Op) := [(10, .begin 3 manyA (.ofInt 1)), (110, .endR 3 manyA)]

/-- With 119 values set, there is no room for the time in the snapshot records; the intervals are lost: 100 time units were spent in the region,
but no record of the profile has a time. -/
theorem C79_violated_many_values :
    spent 3 [(14, .ofInt 1)] [] 0 manyHist = 100 ∧ visits 3 [] manyHist = [[], [(14, .ofInt 1)]] ∧
    (profile (fun _ => []) exCfg exIds (fun _ => .inv) 7 Agg.exOps (exEnvOf (RT.run (manyS 119) (manyHist.map Prod.snd)).tree) exInfoP ⟨some 1, .inv⟩ 3
        (manyS 119) (Serv.State.init exCfg 0 [⟨14, [], 0, false, false⟩]) manyHist).map (fun out => out.map (valueIn 1022)) = some [none, none] := by
  decide +kernel

/-- With a user-set value for `time.duration.ns` (here the as-value attribute 15), the profile shows that value instead of the time. -/
theorem C79_violated_shadowed_time :
    spent 3 [(12, .ofInt 1)] [] 0 [(10, .begin 3 exA (.ofInt 1)), (110, .endR 3 exA)] = 100 ∧
    (profile (fun _ => []) exCfg { exIds with dur := 15 } (fun _ => .uint 7) 7 Agg.exOps
        (exEnvOf (RT.run (RT.run exS [.set 3 ⟨.cell 0 15, 15, 21#32⟩ (.ofInt 7)]) [.begin 3 exA (.ofInt 1), .endR 3 exA]).tree)
        { exInfoP with aggr := [1004, 15] } ⟨some 1, .inv⟩ 3 (RT.run exS [.set 3 ⟨.cell 0 15, 15, 21#32⟩ (.ofInt 7)])
        (Serv.State.init exCfg 0 exAttrs) [(10, .begin 3 exA (.ofInt 1)), (110, .endR 3 exA)]).map (fun out => out.map (valueIn 1022)) =
      some [some (.uint 7), some (.uint 7)] := by
  decide +kernel

end Verif.Prof
