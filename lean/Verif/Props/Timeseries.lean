import Verif.Serv.TimeseriesSpec
/-!
# C95: the rows of a time series
-/
namespace Verif.Timeseries
open Verif Verif.Cali Verif.Agg

/-! ## Histories that grow at the end -/

theorem interval_snap (hist : List Op) (th : Nat) (now : U64) (trig : List DEnt) : interval (hist ++ [.snap th now trig]) = [] := by
  simp [interval, Op.isSnap]

theorem interval_other (hist : List Op) {o : Op} (h : o.isSnap = false) : interval (hist ++ [o]) = interval hist ++ [o] := by
  simp [interval, h]

theorem recsOf_append (th : Nat) (l m : List Op) : recsOf th (l ++ m) = recsOf th l ++ recsOf th m := by
  induction l with
  | nil => rfl
  | cons o l ih =>
    cases o <;> simp only [List.cons_append, recsOf, ih]
    split <;> simp

theorem since_snap (t : Nat) (hist : List Op) (th : Nat) (now : U64) (trig : List DEnt) : since t (hist ++ [.snap th now trig]) = [] := by
  rw [since, interval_snap]; rfl

theorem since_record (t : Nat) (hist : List Op) (th : Nat) (r : List DEnt) (sig : Bool) :
    since t (hist ++ [.record th r sig]) = since t hist ++ (if th = t then [r] else []) := by
  rw [since, interval_other _ rfl, recsOf_append]; rfl

theorem since_create (t : Nat) (hist : List Op) (th : Nat) : since t (hist ++ [.create th]) = since t hist := by
  rw [since, interval_other _ rfl, recsOf_append]; simp [recsOf, since]

theorem since_exit (t : Nat) (hist : List Op) (th : Nat) : since t (hist ++ [.exit th]) = since t hist := by
  rw [since, interval_other _ rfl, recsOf_append]; simp [recsOf, since]

theorem nSnaps_append (l m : List Op) : nSnaps (l ++ m) = nSnaps l + nSnaps m := by
  induction l with
  | nil => simp [nSnaps]
  | cons o l ih => cases o <;> simp only [List.cons_append, nSnaps, ih]; omega

theorem lastSnapOf_append (t : Nat) (l m : List Op) : ∀ d, lastSnapOf t d (l ++ m) = lastSnapOf t (lastSnapOf t d l) m := by
  induction l with
  | nil => intro d; rfl
  | cons o l ih => intro d; cases o <;> simp only [List.cons_append, lastSnapOf, ih]

theorem newest_append (l m : List Op) : ∀ ts, newest ts (l ++ m) = newest (newest ts l) m := by
  induction l with
  | nil => intro d; rfl
  | cons o l ih => intro d; cases o <;> simp only [List.cons_append, newest, ih]

theorem newest_nodup (l : List Op) : ∀ ts : List Nat, ts.Nodup → (newest ts l).Nodup := by
  induction l with
  | nil => intro ts h; exact h
  | cons o l ih =>
    intro ts h
    cases o <;> simp only [newest] <;> refine ih _ ?_ <;> first | exact h | skip
    all_goals
      split
      · exact h
      · rename_i hn; exact List.nodup_cons.2 ⟨hn, h⟩

theorem WF_snoc (hist : List Op) (o : Op) : WF (hist ++ [o]) →
    WF hist ∧ (∀ t r sig, o = .record t r sig → sig = false) ∧ ∀ t, Op.exit t ∈ hist → o.profThread ≠ some t := by
  induction hist with
  | nil =>
    intro h
    refine ⟨trivial, ?_, by simp⟩
    rintro t r sig rfl
    exact h.1
  | cons x hist ih =>
    intro h
    cases x with
    | create t =>
      obtain ⟨a, b, c⟩ := ih h
      exact ⟨a, b, fun t ht => c t (by simpa using ht)⟩
    | snap t now trig =>
      obtain ⟨a, b, c⟩ := ih h
      exact ⟨a, b, fun t ht => c t (by simpa using ht)⟩
    | record t r sig =>
      obtain ⟨a, b, c⟩ := ih h.2
      exact ⟨⟨h.1, a⟩, b, fun t ht => c t (by simpa using ht)⟩
    | exit t =>
      obtain ⟨a, b, c⟩ := ih h.2
      refine ⟨⟨fun o ho => h.1 o (by simp [ho]), a⟩, b, fun t' ht => ?_⟩
      rcases List.mem_cons.1 ht with ht | ht
      · cases ht
        exact h.1 o (by simp)
      · exact c t' ht

/-! ## The invariant -/

/-- the abstract aggregation database with the given records -/
def absOf (P : Setup) (recs : List (List DEnt)) : Abs := Abs.run P.O P.E ⟨[], 0⟩ (recs.map fun r => ⟨P.info, r, true⟩)

/-- what the state is after the operations `hist` -/
structure Inv (P : Setup) (th0 : Nat) (t0 : U64) (hist : List Op) (s : TState) : Prop where
  n : s.n = nSnaps hist
  start : ∀ t, s.start t = lastSnapOf t (if t = th0 then some t0 else none) hist
  order : (s.dbs.map TDB.th).Sublist (newest [th0] hist)
  rep : ∀ d ∈ s.dbs, ∃ base, Rep P.E base d.db (absOf P (since d.th hist))
  rest : ∀ t, t ∉ s.dbs.map TDB.th → since t hist = []
  gone : ∀ d ∈ s.dbs, d.retired = true → Op.exit d.th ∈ hist
  known : ∀ t ∈ newest [th0] hist, t ∉ s.dbs.map TDB.th → Op.exit t ∈ hist

theorem Inv.init (P : Setup) (th0 : Nat) (t0 : U64) : Inv P th0 t0 [] (init P th0 t0) := by
  refine ⟨rfl, fun t => rfl, List.Sublist.refl _, ?_, ?_, ?_, ?_⟩
  · intro d hd
    simp only [Timeseries.init, List.mem_singleton] at hd
    subst hd
    exact ⟨_, Rep.init P.E P.sk⟩
  · intro t _; rfl
  · intro d hd hr
    simp only [Timeseries.init, List.mem_singleton] at hd
    subst hd
    cases hr
  · intro t ht hn
    simp [newest, Timeseries.init] at ht hn
    exact absurd ht hn

theorem absOf_snoc (P : Setup) (recs : List (List DEnt)) (r : List DEnt) :
    absOf P (recs ++ [r]) = (absOf P recs).step P.O P.E P.info r true := by
  simp [absOf, Abs.run]

theorem absOf_skipped (P : Setup) (recs : List (List DEnt)) : (absOf P recs).skipped = 0 := by
  rw [absOf, Abs.run_skipped]

theorem Inv.acquire {P : Setup} {th0 : Nat} {t0 : U64} {hist : List Op} {s : TState} (h : Inv P th0 t0 hist s) {th : Nat}
    (hx : Op.exit th ∉ hist) : Inv P th0 t0 (hist ++ [.create th]) { s with dbs := acquire P th s.dbs } := by
  have hnew : newest [th0] (hist ++ [.create th]) = if th ∈ newest [th0] hist then newest [th0] hist else th :: newest [th0] hist := by
    rw [newest_append]; rfl
  by_cases hin : s.dbs.any (fun d => d.th == th) = true
  · have hmem : th ∈ s.dbs.map TDB.th := by
      obtain ⟨d, hd, he⟩ := List.any_eq_true.1 hin
      exact List.mem_map.2 ⟨d, hd, by simpa using he⟩
    have hacq : Timeseries.acquire P th s.dbs = s.dbs := by rw [Timeseries.acquire, if_pos hin]
    have hn' : newest [th0] (hist ++ [.create th]) = newest [th0] hist := by rw [hnew, if_pos (h.order.subset hmem)]
    rw [hacq]
    refine ⟨?_, ?_, ?_, ?_, ?_, ?_, ?_⟩
    · show s.n = _
      rw [nSnaps_append, h.n]; rfl
    · intro t; show s.start t = _; rw [lastSnapOf_append, h.start]; rfl
    · rw [hn']; exact h.order
    · intro d hd; rw [since_create]; exact h.rep d hd
    · intro t ht; rw [since_create]; exact h.rest t ht
    · intro d hd hr; exact List.mem_append_left _ (h.gone d hd hr)
    · intro t ht hn; rw [hn'] at ht; exact List.mem_append_left _ (h.known t ht hn)
  · have hmem : th ∉ s.dbs.map TDB.th := by
      intro hm
      obtain ⟨d, hd, he⟩ := List.mem_map.1 hm
      exact hin (List.any_eq_true.2 ⟨d, hd, by simpa using he⟩)
    have hacq : Timeseries.acquire P th s.dbs = ⟨th, ADB.init P.sk, false⟩ :: s.dbs := by rw [Timeseries.acquire, if_neg hin]
    have hnn : th ∉ newest [th0] hist := fun hm => hx (h.known th hm hmem)
    have hn' : newest [th0] (hist ++ [.create th]) = th :: newest [th0] hist := by rw [hnew, if_neg hnn]
    rw [hacq]
    refine ⟨?_, ?_, ?_, ?_, ?_, ?_, ?_⟩
    · show s.n = _
      rw [nSnaps_append, h.n]; rfl
    · intro t; show s.start t = _; rw [lastSnapOf_append, h.start]; rfl
    · rw [hn']; exact h.order.cons₂ _
    · intro d hd
      rw [since_create]
      rcases List.mem_cons.1 hd with rfl | hd
      · rw [show since (⟨th, ADB.init P.sk, false⟩ : TDB).th hist = [] from h.rest th hmem]
        exact ⟨_, Rep.init P.E P.sk⟩
      · exact h.rep d hd
    · intro t ht
      rw [since_create]
      exact h.rest t (fun hm => ht (List.mem_cons_of_mem _ hm))
    · intro d hd hr
      rcases List.mem_cons.1 hd with rfl | hd
      · cases hr
      · exact List.mem_append_left _ (h.gone d hd hr)
    · intro t ht hn
      rw [hn'] at ht
      simp only [List.map_cons, List.mem_cons, not_or] at hn
      rcases List.mem_cons.1 ht with rfl | ht
      · exact absurd rfl hn.1
      · exact List.mem_append_left _ (h.known t ht hn.2)

/-- creating a database first does not change what the history says -/
theorem newest_create_record (l : List Op) (th : Nat) (r : List DEnt) (sig : Bool) (ts : List Nat) :
    newest ts (l ++ [.create th]) = newest ts (l ++ [.record th r sig]) := by
  simp [newest_append, newest]

theorem map_th_process (P : Setup) (th : Nat) (r : List DEnt) (sig : Bool) (dbs : List TDB) :
    (dbs.map fun d => if d.th = th then { d with db := d.db.process P.O P.E P.info r (!sig) } else d).map TDB.th = dbs.map TDB.th := by
  rw [List.map_map]
  apply List.map_congr_left
  intro d _
  simp only [Function.comp]
  split <;> rfl

theorem Inv.record {P : Setup} {th0 : Nat} {t0 : U64} {hist : List Op} {s : TState} (h : Inv P th0 t0 hist s) {th : Nat}
    (hx : Op.exit th ∉ hist) (r : List DEnt) :
    Inv P th0 t0 (hist ++ [.record th r false]) { s with dbs := process P th r false s.dbs } := by
  have hc := h.acquire hx
  have hth := map_th_process P th r false (Timeseries.acquire P th s.dbs)
  have hproc : Timeseries.process P th r false s.dbs = (Timeseries.acquire P th s.dbs).map fun d =>
    if d.th = th then { d with db := d.db.process P.O P.E P.info r (!false) } else d := rfl
  have hmem : th ∈ (Timeseries.acquire P th s.dbs).map TDB.th := by
    unfold Timeseries.acquire
    split
    · rename_i hin
      obtain ⟨d, hd, he⟩ := List.any_eq_true.1 hin
      exact List.mem_map.2 ⟨d, hd, by simpa using he⟩
    · simp
  rw [← hproc] at hth
  refine ⟨?_, ?_, ?_, ?_, ?_, ?_, ?_⟩
  · show s.n = _
    rw [nSnaps_append, h.n]; rfl
  · intro t; show s.start t = _; rw [lastSnapOf_append, h.start]; rfl
  · rw [← newest_create_record]
    show ((Timeseries.process P th r false s.dbs).map TDB.th).Sublist _
    rw [hth]
    exact hc.order
  · intro d hd
    change d ∈ Timeseries.process P th r false s.dbs at hd
    rw [hproc] at hd
    obtain ⟨d', hd', rfl⟩ := List.mem_map.1 hd
    obtain ⟨base, hb⟩ := hc.rep d' hd'
    rw [since_create] at hb
    by_cases he : d'.th = th
    · rw [if_pos he]
      refine ⟨base, ?_⟩
      show Rep P.E base (d'.db.process P.O P.E P.info r true) (absOf P (since d'.th _))
      rw [since_record, if_pos he.symm, absOf_snoc]
      have hp := hb.process (O := P.O) P.info r true
      rw [show d'.db.room P.info.aggr.length ((P.E.keyEntries P.info r).take maxKeyLen).length true = true by simp [ADB.room]] at hp
      exact hp
    · rw [if_neg he]
      refine ⟨base, ?_⟩
      rw [since_record, if_neg (Ne.symm he), List.append_nil]
      exact hb
  · intro t ht
    change t ∉ (Timeseries.process P th r false s.dbs).map TDB.th at ht
    rw [hth] at ht
    have hne : th ≠ t := fun he => ht (he ▸ hmem)
    have := hc.rest t ht
    rw [since_create] at this
    rw [since_record, if_neg hne, this]; rfl
  · intro d hd hr
    change d ∈ Timeseries.process P th r false s.dbs at hd
    rw [hproc] at hd
    obtain ⟨d', hd', rfl⟩ := List.mem_map.1 hd
    have hg : ∀ x : TDB, x ∈ Timeseries.acquire P th s.dbs → x.retired = true → Op.exit x.th ∈ hist := by
      intro x hx' hxr
      simpa using hc.gone x hx' hxr
    by_cases he : d'.th = th
    · rw [if_pos he] at hr ⊢
      exact List.mem_append_left _ (hg d' hd' hr)
    · rw [if_neg he] at hr ⊢
      exact List.mem_append_left _ (hg d' hd' hr)
  · intro t ht hn
    rw [← newest_create_record] at ht
    change t ∉ (Timeseries.process P th r false s.dbs).map TDB.th at hn
    rw [hth] at hn
    have := hc.known t ht hn
    simp at this ⊢
    exact this

theorem Inv.exit {P : Setup} {th0 : Nat} {t0 : U64} {hist : List Op} {s : TState} (h : Inv P th0 t0 hist s) (th : Nat) :
    Inv P th0 t0 (hist ++ [.exit th]) { s with dbs := retire th s.dbs } := by
  have hth : (retire th s.dbs).map TDB.th = s.dbs.map TDB.th := by
    rw [retire, List.map_map]
    apply List.map_congr_left
    intro d _
    simp only [Function.comp]
    split <;> rfl
  have hn' : newest [th0] (hist ++ [.exit th]) = newest [th0] hist := by rw [newest_append]; rfl
  refine ⟨?_, ?_, ?_, ?_, ?_, ?_, ?_⟩
  · show s.n = _
    rw [nSnaps_append, h.n]; rfl
  · intro t; show s.start t = _; rw [lastSnapOf_append, h.start]; rfl
  · rw [hn']
    show ((retire th s.dbs).map TDB.th).Sublist _
    rw [hth]
    exact h.order
  · intro d hd
    obtain ⟨d', hd', rfl⟩ := List.mem_map.1 hd
    rw [since_exit]
    by_cases he : d'.th = th
    · rw [if_pos he]; exact h.rep d' hd'
    · rw [if_neg he]; exact h.rep d' hd'
  · intro t ht
    change t ∉ (retire th s.dbs).map TDB.th at ht
    rw [hth] at ht
    rw [since_exit]
    exact h.rest t ht
  · intro d hd hr
    obtain ⟨d', hd', rfl⟩ := List.mem_map.1 hd
    by_cases he : d'.th = th
    · rw [if_pos he]; simp [he]
    · rw [if_neg he] at hr ⊢; exact List.mem_append_left _ (h.gone d' hd' hr)
  · intro t ht hn
    change t ∉ (retire th s.dbs).map TDB.th at hn
    rw [hth] at hn
    rw [hn'] at ht
    exact List.mem_append_left _ (h.known t ht hn)

theorem mem_clearAll {d : TDB} : ∀ {ds : List TDB}, d ∈ clearAll ds →
    d.retired = false ∧ ∃ d' ∈ ds, d = { d' with db := d'.db.clear } := by
  intro ds
  induction ds with
  | nil => intro h; simp [clearAll] at h
  | cons x ds ih =>
    intro h
    unfold clearAll at h
    split at h
    · obtain ⟨a, d', b, c⟩ := ih h
      exact ⟨a, d', List.mem_cons_of_mem _ b, c⟩
    · rename_i hx
      rcases List.mem_cons.1 h with rfl | h
      · exact ⟨by simpa using hx, x, by simp, rfl⟩
      · obtain ⟨a, d', b, c⟩ := ih h
        exact ⟨a, d', List.mem_cons_of_mem _ b, c⟩

theorem clearAll_sublist (ds : List TDB) : ((clearAll ds).map TDB.th).Sublist (ds.map TDB.th) := by
  induction ds with
  | nil => exact List.Sublist.refl _
  | cons x ds ih =>
    unfold clearAll
    split
    · exact ih.trans (List.sublist_cons_self _ _)
    · exact ih.cons₂ _

theorem clearAll_gone {t : Nat} : ∀ {ds : List TDB}, t ∈ ds.map TDB.th → t ∉ (clearAll ds).map TDB.th →
    ∃ d ∈ ds, d.th = t ∧ d.retired = true := by
  intro ds
  induction ds with
  | nil => intro h; simp at h
  | cons x ds ih =>
    intro h hn
    unfold clearAll at hn
    split at hn
    · rename_i hx
      rcases List.mem_cons.1 h with rfl | h
      · exact ⟨x, by simp, rfl, hx⟩
      · obtain ⟨d, a, b⟩ := ih h hn
        exact ⟨d, List.mem_cons_of_mem _ a, b⟩
    · simp only [List.map_cons, List.mem_cons, not_or] at hn
      rcases List.mem_cons.1 h with he | h
      · exact absurd he hn.1
      · obtain ⟨d, a, b⟩ := ih h hn.2
        exact ⟨d, List.mem_cons_of_mem _ a, b⟩

theorem Inv.snap {P : Setup} {th0 : Nat} {t0 : U64} {hist : List Op} {s : TState} (h : Inv P th0 t0 hist s) (th : Nat) (now : U64)
    (trig : List DEnt) : Inv P th0 t0 (hist ++ [.snap th now trig])
      { dbs := clearAll s.dbs, start := fun t => if t = th then some now else s.start t, n := s.n + 1 } := by
  have hn' : newest [th0] (hist ++ [.snap th now trig]) = newest [th0] hist := by rw [newest_append]; rfl
  refine ⟨?_, ?_, ?_, ?_, ?_, ?_, ?_⟩
  · show s.n + 1 = _
    rw [nSnaps_append, h.n]; rfl
  · intro t
    show (if t = th then some now else s.start t) = _
    rw [lastSnapOf_append, h.start]
    simp only [lastSnapOf, eq_comm]
  · rw [hn']; exact (clearAll_sublist _).trans h.order
  · intro d hd
    obtain ⟨_, d', hd', rfl⟩ := mem_clearAll hd
    obtain ⟨base, hb⟩ := h.rep d' hd'
    rw [since_snap]
    exact ⟨[], hb.clear⟩
  · intro t _; exact since_snap _ _ _ _ _
  · intro d hd hr
    rw [(mem_clearAll hd).1] at hr
    cases hr
  · intro t ht hn
    rw [hn'] at ht
    by_cases hm : t ∈ s.dbs.map TDB.th
    · obtain ⟨d, hd, rfl, hr⟩ := clearAll_gone hm hn
      exact List.mem_append_left _ (h.gone d hd hr)
    · exact List.mem_append_left _ (h.known t ht hm)

/-- the records a profile of `recs` alone reports -/
def outOf (P : Setup) (recs : List (List DEnt)) : List (List DEnt) :=
  outRecs P.O P.info 0 ((absOf P recs).groups.map fun g => (g.key, g.kerns, g.count))

theorem flushAll_eq {P : Setup} {hist : List Op} : ∀ (ds : List TDB),
    (∀ d ∈ ds, ∃ base, Rep P.E base d.db (absOf P (since d.th hist))) →
    flushAll P ds = some ((ds.map TDB.th).flatMap fun t => outOf P (since t hist)) := by
  intro ds
  induction ds with
  | nil => intro _; rfl
  | cons d ds ih =>
    intro h
    obtain ⟨base, hb⟩ := h d (by simp)
    rw [flushAll, hb.flush_noskip (absOf_skipped P _) P.info, ih fun d hd => h d (List.mem_cons_of_mem _ hd)]
    rfl

theorem outOf_nil (P : Setup) : outOf P [] = [] := rfl

theorem flatMap_sublist {α β : Type _} {f : α → List β} {l m : List α} (h : l.Sublist m) (hm : m.Nodup) :
    (∀ x ∈ m, x ∉ l → f x = []) → l.flatMap f = m.flatMap f := by
  induction h with
  | slnil => intro _; rfl
  | @cons l m x hs ih =>
    intro hf
    have hx : x ∉ l := fun hc => (List.nodup_cons.1 hm).1 (hs.subset hc)
    rw [List.flatMap_cons, hf x (by simp) hx, List.nil_append]
    exact ih (List.nodup_cons.1 hm).2 fun y hy hn => hf y (List.mem_cons_of_mem _ hy) hn
  | @cons_cons l m x hs ih =>
    intro hf
    rw [List.flatMap_cons, List.flatMap_cons]
    congr 1
    refine ih (List.nodup_cons.1 hm).2 fun y hy hn => hf y (List.mem_cons_of_mem _ hy) ?_
    intro hc
    rcases List.mem_cons.1 hc with rfl | hc
    · exact (List.nodup_cons.1 hm).1 hy
    · exact hn hc

theorem Inv.flush {P : Setup} {th0 : Nat} {t0 : U64} {hist : List Op} {s : TState} (h : Inv P th0 t0 hist s) :
    flushAll P s.dbs = some ((newest [th0] hist).flatMap fun t => outOf P (since t hist)) := by
  rw [flushAll_eq _ h.rep]
  congr 1
  refine flatMap_sublist h.order (newest_nodup _ _ (by simp)) fun t _ hn => ?_
  rw [h.rest t hn]; rfl

/-- what a snapshot produces in a state reached by `hist` -/
def outAt (P : Setup) (th0 : Nat) (hist : List Op) (s : TState) (th : Nat) (now : U64) (trig : List DEnt) : Out :=
  ⟨((newest [th0] hist).flatMap fun t => outOf P (since t hist)).map fun frec => frec ++ trig ++ tsEntries P (s.start th) s.n,
    tsEntries P (s.start th) s.n ++ [⟨some P.durA, .double (P.sub now ((s.start th).getD 0))⟩]⟩

theorem Inv.run_snap {P : Setup} {th0 : Nat} {t0 : U64} {hist : List Op} {s : TState} (h : Inv P th0 t0 hist s) (th : Nat) (now : U64)
    (trig : List DEnt) : run P s [.snap th now trig] =
      some ({ dbs := clearAll s.dbs, start := fun t => if t = th then some now else s.start t, n := s.n + 1 },
        [outAt P th0 hist s th now trig]) := by
  simp only [run, step, snapshot, h.flush, Option.map_some, List.append_nil]
  rfl

/-- the state after a snapshot -/
def TState.snapped (s : TState) (th : Nat) (now : U64) : TState :=
  { dbs := clearAll s.dbs, start := fun t => if t = th then some now else s.start t, n := s.n + 1 }

theorem run_append (P : Setup) (l m : List Op) : ∀ s, run P s (l ++ m) = match run P s l with
    | none => none
    | some (s', out) => (run P s' m).map fun p => (p.1, out ++ p.2) := by
  induction l with
  | nil =>
    intro s
    simp [run]
  | cons o l ih =>
    intro s
    rw [List.cons_append, run, run]
    cases step P s o with
    | none => rfl
    | some p =>
      obtain ⟨s', out⟩ := p
      simp only
      rw [ih]
      cases run P s' l with
      | none => rfl
      | some q =>
        obtain ⟨s'', out'⟩ := q
        simp only [Option.map_some]
        cases run P s'' m <;> simp

theorem run_inv (P : Setup) (th0 : Nat) (t0 : U64) (hist : List Op) : WF hist →
    ∃ s outs, run P (init P th0 t0) hist = some (s, outs) ∧ Inv P th0 t0 hist s ∧ outs.length = nSnaps hist := by
  induction hist using List.reverseRecOn with
  | nil => intro _; exact ⟨_, [], rfl, Inv.init P th0 t0, rfl⟩
  | append_singleton hist o ih =>
    intro hw
    obtain ⟨hw, hsig, hex⟩ := WF_snoc _ _ hw
    obtain ⟨s, outs, hr, hi, hl⟩ := ih hw
    rw [run_append, hr]
    simp only
    cases o with
    | create th =>
      refine ⟨_, outs, ?_, hi.acquire fun hc => hex th hc rfl, ?_⟩
      · simp [run, step]
      · rw [nSnaps_append, hl]; rfl
    | record th r sig =>
      have hs := hsig th r sig rfl
      subst hs
      refine ⟨_, outs, ?_, hi.record (fun hc => hex th hc rfl) r, ?_⟩
      · simp [run, step]
      · rw [nSnaps_append, hl]; rfl
    | exit th =>
      refine ⟨_, outs, ?_, hi.exit th, ?_⟩
      · simp [run, step]
      · rw [nSnaps_append, hl]; rfl
    | snap th now trig =>
      refine ⟨_, outs ++ [outAt P th0 hist s th now trig], ?_, hi.snap th now trig, ?_⟩
      · rw [hi.run_snap]; rfl
      · rw [nSnaps_append, List.length_append, hl]; rfl

theorem outOf_report (P : Setup) (recs : List (List DEnt)) (hk : ∀ r ∈ recs, (P.E.keyEntries P.info r).length ≤ maxKeyLen) :
    ∃ reps, P.E.Firsts P.info recs reps ∧ outOf P recs = reps.mapIdx fun i r => P.E.report (kernStats P.O) P.info recs r i := by
  obtain ⟨reps, hf, ho⟩ := C28_statistics_alloc_partial P.O P.E P.sk P.info recs hk
  refine ⟨reps, hf, ?_⟩
  have h2 := run_alloc (O := P.O) (recs.map fun r => (⟨P.info, r, true⟩ : Call)) (by simp) (Rep.init P.E P.sk)
  rw [h2.flush_noskip (by rw [Abs.run_skipped]) P.info] at ho
  exact Option.some.inj ho

/-! ## The theorems -/

/-- C95: after any history (without records in signal handlers, and with keys of at most 16 entries), a snapshot of the
timeseries channel produces, for every thread and every distinct key among the records the thread made since the previous
snapshot, exactly one row, with the number of these records and their statistics, with the trigger information, the number of
earlier snapshots and a start time; it adds the start time, the number and the time since the start time to its own record.
The start time is that of the last snapshot of the *same thread*, for the thread that created the channel the creation time at
first, and none for the first snapshot of another thread.  Each snapshot has one such output. -/
theorem C95_rows_partial (P : Setup) (th0 : Nat) (t0 : U64) (hist : List Op) (th : Nat) (now : U64) (trig : List DEnt)
    (hw : WF hist) (hk : ∀ t, ∀ r ∈ since t hist, (P.E.keyEntries P.info r).length ≤ maxKeyLen) :
    ∃ s s' outs out, run P (init P th0 t0) hist = some (s, outs) ∧
      run P (init P th0 t0) (hist ++ [.snap th now trig]) = some (s', outs ++ [out]) ∧ outs.length = nSnaps hist ∧
      ∃ reps : Nat → List (List DEnt), (∀ t, P.E.Firsts P.info (since t hist) (reps t)) ∧
        let start := lastSnapOf th (if th = th0 then some t0 else none) hist
        out.rows = (rowsOf P th0 hist reps).map (row P start (nSnaps hist) trig) ∧
        out.own = [⟨some P.startA, timeVal start⟩, ⟨some P.snapA, .uint (BitVec.ofNat 64 (nSnaps hist % 2 ^ 32))⟩,
          ⟨some P.durA, .double (P.sub now (start.getD 0))⟩] := by
  obtain ⟨s, outs, hr, hi, hl⟩ := run_inv P th0 t0 hist hw
  have hrep := fun t => outOf_report P (since t hist) (hk t)
  choose reps hf ho using hrep
  refine ⟨s, s.snapped th now, outs, outAt P th0 hist s th now trig, hr, ?_, hl, reps, hf, ?_, ?_⟩
  · rw [run_append, hr]
    simp only
    rw [hi.run_snap]
    rfl
  · simp only [rowsOf, outAt]
    rw [hi.start, hi.n, show (fun t => outOf P (since t hist)) = fun t => (reps t).mapIdx fun i r =>
      P.E.report (kernStats P.O) P.info (since t hist) r i from funext ho]
    apply List.map_congr_left
    intro r _
    simp only [row, tsEntries, List.append_assoc]
    cases lastSnapOf th (if th = th0 then some t0 else none) hist <;> rfl
  · simp only [outAt, hi.start, hi.n, tsEntries]
    cases lastSnapOf th (if th = th0 then some t0 else none) hist <;> rfl

/-- C95 (the interval): if all snapshots of the channel are made by the thread that created it, the start time is that of the
previous snapshot, i.e. the time the interval covered by the rows began -/
theorem C95_interval_partial (th0 : Nat) (hist : List Op) (h : ∀ th now trig, Op.snap th now trig ∈ hist → th = th0) (t0 : U64) :
    lastSnapOf th0 (if th0 = th0 then some t0 else none) hist = some (lastSnap t0 hist) := by
  rw [if_pos rfl]
  induction hist generalizing t0 with
  | nil => rfl
  | cons o hist ih =>
    have h' := fun th now trig hm => h th now trig (List.mem_cons_of_mem _ hm)
    cases o with
    | snap th now trig =>
      have := h th now trig (by simp)
      simp only [lastSnapOf, lastSnap, if_pos this]
      exact ih h' now
    | create _ => exact ih h' t0
    | record _ _ _ => exact ih h' t0
    | exit _ => exact ih h' t0

theorem recsOf_points (th : Nat) (os : List Op) : ∀ pre,
    (snapPoints pre os).flatMap (since th) ++ since th (pre ++ os) = since th pre ++ recsOf th os := by
  induction os with
  | nil => intro pre; simp [snapPoints, recsOf]
  | cons o os ih =>
    intro pre
    have := ih (pre ++ [o])
    rw [List.append_assoc, List.singleton_append] at this
    cases o with
    | snap t now trig =>
      rw [since_snap, List.nil_append] at this
      simp only [snapPoints, List.flatMap_cons, List.append_assoc, this, recsOf]
    | record t r sig =>
      rw [since_record] at this
      simp only [snapPoints, this, recsOf]
      split <;> simp
    | create t =>
      rw [since_create] at this
      simp only [snapPoints, this, recsOf]
    | exit t =>
      rw [since_exit] at this
      simp only [snapPoints, this, recsOf]

/-- C95 (once): the records of a thread are distributed over the intervals: each is in the interval of exactly one snapshot or
comes after the last one, and the order is kept -/
theorem C95_once (th : Nat) (hist : List Op) : (snapPoints [] hist).flatMap (since th) ++ since th hist = recsOf th hist := by
  have := recsOf_points th hist []
  simpa [since, interval, recsOf] using this

/-- … and there are as many intervals as outputs -/
theorem C95_once_count (hist : List Op) : (snapPoints [] hist).length = nSnaps hist := by
  have : ∀ (os : List Op) (pre : List Op), (snapPoints pre os).length = nSnaps os := by
    intro os
    induction os with
    | nil => intro pre; rfl
    | cons o os ih => intro pre; cases o <;> simp [snapPoints, nSnaps, ih]
  exact this hist []

/-! ## What goes wrong -/

/-- What comes after the last snapshot is not reported at all: the outputs are those of the history up to it -/
theorem C95_violation_tail (P : Setup) (th0 : Nat) (t0 : U64) (hist tail : List Op) (hw : WF (hist ++ tail))
    (ht : ∀ o ∈ tail, o.isSnap = false) :
    ∃ s s' outs, run P (init P th0 t0) hist = some (s, outs) ∧ run P (init P th0 t0) (hist ++ tail) = some (s', outs) := by
  induction tail using List.reverseRecOn with
  | nil =>
    rw [List.append_nil] at hw ⊢
    obtain ⟨s, outs, hr, _⟩ := run_inv P th0 t0 hist hw
    exact ⟨s, s, outs, hr, hr⟩
  | append_singleton tail o ih =>
    rw [← List.append_assoc] at hw ⊢
    obtain ⟨s, s', outs, h1, h2⟩ := ih (WF_snoc _ _ hw).1 fun o ho => ht o (by simp [ho])
    have ho := ht o (by simp)
    rw [run_append, h2]
    cases o with
    | snap _ _ _ => cases ho
    | create th => exact ⟨s, _, outs, h1, by simp only [run, step, Option.map_some, List.append_nil]; rfl⟩
    | record th r sig => exact ⟨s, _, outs, h1, by simp only [run, step, Option.map_some, List.append_nil]; rfl⟩
    | exit th => exact ⟨s, _, outs, h1, by simp only [run, step, Option.map_some, List.append_nil]; rfl⟩

theorem lastSnapOf_none (th : Nat) (hist : List Op) (h : ∀ now trig, Op.snap th now trig ∉ hist) (d : Option U64) :
    lastSnapOf th d hist = d := by
  induction hist with
  | nil => rfl
  | cons o hist ih =>
    have h' := fun now trig hm => h now trig (List.mem_cons_of_mem _ hm)
    cases o with
    | snap t now trig =>
      have : t ≠ th := by
        rintro rfl
        exact h now trig (by simp)
      simp only [lastSnapOf, if_neg this]
      exact ih h'
    | create _ => exact ih h'
    | record _ _ _ => exact ih h'
    | exit _ => exact ih h'

/-- The first snapshot a thread makes that did not create the channel has no start time, and its duration is the time since the
epoch, whatever happened before -/
theorem C95_violation_thread (P : Setup) (th0 : Nat) (t0 : U64) (hist : List Op) (th : Nat) (now : U64) (trig : List DEnt)
    (hw : WF hist) (hne : th ≠ th0) (hs : ∀ now trig, Op.snap th now trig ∉ hist) :
    ∃ s' outs out, run P (init P th0 t0) (hist ++ [.snap th now trig]) = some (s', outs ++ [out]) ∧
      out.own = [⟨some P.startA, .inv⟩, ⟨some P.snapA, .uint (BitVec.ofNat 64 (nSnaps hist % 2 ^ 32))⟩,
        ⟨some P.durA, .double (P.sub now 0)⟩] := by
  obtain ⟨s, outs, hr, hi, hl⟩ := run_inv P th0 t0 hist hw
  have hst : s.start th = none := by rw [hi.start, lastSnapOf_none th hist hs, if_neg hne]
  refine ⟨s.snapped th now, outs, outAt P th0 hist s th now trig, ?_, ?_⟩
  · rw [run_append, hr]
    simp only
    rw [hi.run_snap]
    rfl
  · simp only [outAt, hst, hi.n, tsEntries]
    rfl

/-! ## Examples -/

/-- an example: node 3 is a region, attribute 1001 is aggregated -/
def exP : Setup := ⟨exOps, exEnv, ⟨some 1, .inv⟩, exInfo, fun a b => a - b, 2001, 2002, 2003⟩

/-- thread 0 records twice, thread 1 once, thread 0 makes a snapshot, thread 1 records once more and ends, thread 0 makes a
snapshot, and one without any records in between -/
def exHist : List Op :=
  [.record 0 [⟨some 3, .inv⟩] false, .create 1, .record 1 [⟨some 3, .inv⟩] false, .record 0 [⟨some 3, .inv⟩] false,
   .snap 0 200 [⟨some 4, .inv⟩], .record 1 [⟨some 5, .inv⟩] false, .exit 1, .snap 0 300 []]

example : WF exHist := by
  unfold exHist WF WF WF WF WF WF WF WF WF
  refine ⟨rfl, rfl, rfl, rfl, ?_, trivial⟩
  intro o ho
  simp only [List.mem_singleton] at ho
  subst ho
  simp [Op.profThread]

theorem C95_example : (run exP (init exP 0 100) (exHist ++ [.snap 0 400 []])).map (fun p => p.2) = some [
    ⟨[[⟨some 3, .inv⟩, ⟨some 1007, .uint 1⟩, ⟨some 1008, .uint 0⟩, ⟨some 4, .inv⟩, ⟨some 2001, .double 100⟩, ⟨some 2002, .uint 0⟩],
      [⟨some 3, .inv⟩, ⟨some 1007, .uint 2⟩, ⟨some 1008, .uint 0⟩, ⟨some 4, .inv⟩, ⟨some 2001, .double 100⟩, ⟨some 2002, .uint 0⟩]],
     [⟨some 2001, .double 100⟩, ⟨some 2002, .uint 0⟩, ⟨some 2003, .double 100⟩]⟩,
    ⟨[[⟨some 5, .inv⟩, ⟨some 1007, .uint 1⟩, ⟨some 1008, .uint 0⟩, ⟨some 2001, .double 200⟩, ⟨some 2002, .uint 1⟩]],
     [⟨some 2001, .double 200⟩, ⟨some 2002, .uint 1⟩, ⟨some 2003, .double 100⟩]⟩,
    ⟨[], [⟨some 2001, .double 300⟩, ⟨some 2002, .uint 2⟩, ⟨some 2003, .double 100⟩]⟩] := by
  decide +kernel

/-- Two threads that make snapshots: the rows of the last snapshot of thread 0 cover the time from 300 on, when thread 1 made a
snapshot, but its start time is 200 and its duration 200 -/
theorem C95_violation_interval :
    let hist : List Op := [.record 0 [⟨some 3, .inv⟩] false, .snap 0 200 [], .snap 1 300 [], .record 0 [⟨some 5, .inv⟩] false]
    lastSnap 100 hist = 300 ∧
    ((run exP (init exP 0 100) (hist ++ [.snap 0 400 []])).map fun p => p.2[2]?) = some (some
      ⟨[[⟨some 5, .inv⟩, ⟨some 1007, .uint 1⟩, ⟨some 1008, .uint 0⟩, ⟨some 2001, .double 200⟩, ⟨some 2002, .uint 2⟩]],
       [⟨some 2001, .double 200⟩, ⟨some 2002, .uint 2⟩, ⟨some 2003, .double 200⟩]⟩) := by
  constructor <;> decide +kernel

end Verif.Timeseries
