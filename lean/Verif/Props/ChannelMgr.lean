import Verif.Mpi.ChannelMgrSpec
import Verif.Props.MpiFilter

/-! # C117: an MpiChannelManager starts, stops and flushes exactly the channels given to it -/

namespace Verif.Mpi.CM
open Verif Verif.Cali Verif.Parse Verif.Config

/-! ## the copy of an mpireport channel -/

theorem split_join (sep : List Byte) (hs : sep.contains (ch ',') = true) : ∀ (ws : List Str), (∀ w ∈ ws, w ≠ [] ∧ Plain sep w) → ∀ n,
    (ConfMgr.joinList ws).length < n → stringListL sep n ⟨ConfMgr.joinList ws, true⟩ = ws
  | [], _, n, hn => by
    obtain ⟨n, rfl⟩ : ∃ m, n = m + 1 := ⟨n - 1, by omega⟩
    simp [ConfMgr.joinList, stringListL, readWord, readChar]
  | [w], h, n, hn => by
    obtain ⟨n, rfl⟩ : ∃ m, n = m + 1 := ⟨n - 1, by omega⟩
    have hw := h w (by simp)
    have := readWord_text (sep := sep) (w := w) (t := w) ⟨hw.1, .inr ⟨rfl, hw.2⟩⟩ [] [] (by simp) (.inl rfl)
    simp only [List.nil_append, List.append_nil] at this
    simp only [ConfMgr.joinList]
    unfold stringListL
    simp [this, hw.1, readChar]
  | w :: w' :: ws, h, n, hn => by
    obtain ⟨n, rfl⟩ : ∃ m, n = m + 1 := ⟨n - 1, by omega⟩
    have hw := h w (by simp)
    have hsp : isSpace (ch ',') = false := by decide
    have h1 := readWord_text (sep := sep) (w := w) (t := w) ⟨hw.1, .inr ⟨rfl, hw.2⟩⟩ [] (ch ',' :: ConfMgr.joinList (w' :: ws)) (by simp)
      (.inr ⟨_, _, rfl, by decide, by decide, by rw [hs, Bool.or_true]⟩)
    simp only [List.nil_append] at h1
    have e : ConfMgr.joinList (w :: w' :: ws) = w ++ ch ',' :: ConfMgr.joinList (w' :: ws) := rfl
    rw [e] at hn ⊢
    unfold stringListL
    simp only [h1, List.isEmpty_cons, Bool.not_false]
    rw [readChar_cons hsp]
    simp only [if_neg hw.1]
    rw [if_pos (by rw [hs]; rfl), split_join sep hs (w' :: ws) (fun x hx => h x (List.mem_cons_of_mem _ hx)) n
      (by simp only [List.length_append, List.length_cons] at hn; omega)]
    rfl

/-- **C117** (lists written with commas): the copy made of a channel with an mpireport query has the same services in the same order but mpireport,
the same cross query, and the cross query as local query if there is none -/
theorem C117_copy_partial (c : Cfg) (ws : List Str) (hp : ∀ w ∈ ws, w ≠ [] ∧ Plain [ch ',', ch ':'] w) (hc : c.services = ConfMgr.joinList ws) :
    MpiFilter.splitNames c.copy.services = ws.filter (fun w => w ≠ str "mpireport") ∧ c.copy.cross = c.cross ∧
    (c.localQ ≠ [] → c.copy.localQ = c.localQ) ∧ (c.localQ = [] → c.copy.localQ = c.cross) := by
  have hp1 : ∀ w ∈ ws, w ≠ [] ∧ Plain [ch ','] w := by
    intro w hw
    refine ⟨(hp w hw).1, fun x hx => ?_⟩
    obtain ⟨h1, h2, h3, h4⟩ := (hp w hw).2 x hx
    refine ⟨h1, h2, h3, ?_⟩
    simp only [List.contains_eq_mem, List.mem_cons, List.not_mem_nil, or_false, decide_eq_false_iff_not, not_or] at h4 ⊢
    exact h4.1
  refine ⟨?_, rfl, fun h => by simp [Cfg.copy, h], fun h => by simp [Cfg.copy, h]⟩
  have e : c.copy.services = ConfMgr.joinList (ws.filter fun w => w ≠ str "mpireport") := by
    change removeFrom c.services _ = _
    rw [removeFrom, hc, split_join [ch ','] (by decide) ws hp1 _ (by omega)]
  rw [MpiFilter.splitNames, e]
  exact split_join _ (by decide) _ (fun w hw => hp w (List.mem_filter.mp hw).1) _ (by omega)

/-- **C117**, violation: with a list of services written with colons, which is as good everywhere else, mpireport stays in the copy -/
theorem C117_violation_colon : MpiFilter.splitNames (Cfg.copy ⟨none, str "event:mpireport", str "select *", []⟩).services = [str "event", str "mpireport"] := by
  decide +kernel

/-! ## the calls -/

theorem added_append (ops : List Op) (o : Op) :
    added (ops ++ [o]) = added ops ++ (match o with | .add (some k) => [((added ops).length, k)] | _ => []) := by
  simp only [added, List.filterMap_append, List.zipIdx_append, List.map_append]
  cases o with
  | add k => cases k <;> simp [addArg]
  | _ => simp [addArg]

structure Inv (kind : Nat → Kind) (b : Bool) (ops : List Op) (s : St) : Prop where
  comm : s.inComm = b
  mpi : s.mpi = collectives kind ops
  ser : s.ser = serials kind ops
  adds : s.adds = (added ops).length

theorem startObj_mgr (s : St) (o : Obj) : (startObj s o).mpi = s.mpi ∧ (startObj s o).ser = s.ser ∧ (startObj s o).adds = s.adds ∧
    (startObj s o).inComm = s.inComm ∧ (startObj s o).log = s.log := ⟨rfl, rfl, rfl, rfl, rfl⟩

theorem stopObj_mgr (s : St) (o : Obj) : (stopObj s o).mpi = s.mpi ∧ (stopObj s o).ser = s.ser ∧ (stopObj s o).adds = s.adds ∧
    (stopObj s o).inComm = s.inComm ∧ (stopObj s o).log = s.log := by
  unfold stopObj; split <;> exact ⟨rfl, rfl, rfl, rfl, rfl⟩

theorem fold_mgr (f : St → Obj → St)
    (hf : ∀ s o, (f s o).mpi = s.mpi ∧ (f s o).ser = s.ser ∧ (f s o).adds = s.adds ∧ (f s o).inComm = s.inComm) :
    ∀ (l : List Obj) (s : St), (l.foldl f s).mpi = s.mpi ∧ (l.foldl f s).ser = s.ser ∧ (l.foldl f s).adds = s.adds ∧ (l.foldl f s).inComm = s.inComm
  | [], s => ⟨rfl, rfl, rfl, rfl⟩
  | o :: l, s => by
    obtain ⟨h1, h2, h3, h4⟩ := fold_mgr f hf l (f s o)
    obtain ⟨g1, g2, g3, g4⟩ := hf s o
    exact ⟨h1.trans g1, h2.trans g2, h3.trans g3, h4.trans g4⟩

theorem flushAll_mgr (kind : Nat → Kind) : ∀ (l : List Obj) (s t : St), flushAll kind l s = some t →
    t.mpi = s.mpi ∧ t.ser = s.ser ∧ t.adds = s.adds ∧ t.inComm = s.inComm
  | [], s, t, h => by cases h; exact ⟨rfl, rfl, rfl, rfl⟩
  | o :: l, s, t, h => by
    simp only [flushAll] at h
    cases e : flushMpi kind s o with
    | none => rw [e] at h; cases h
    | some u =>
      rw [e] at h
      obtain ⟨h1, h2, h3, h4⟩ := flushAll_mgr kind l u t h
      have hu : u.mpi = s.mpi ∧ u.ser = s.ser ∧ u.adds = s.adds ∧ u.inComm = s.inComm := by
        unfold flushMpi at e
        split at e
        · cases e; exact ⟨rfl, rfl, rfl, rfl⟩
        · split at e
          · cases e
          · cases e; exact ⟨rfl, rfl, rfl, rfl⟩
      exact ⟨h1.trans hu.1, h2.trans hu.2.1, h3.trans hu.2.2.1, h4.trans hu.2.2.2⟩

theorem keeps {kind : Nat → Kind} {b : Bool} {ops : List Op} {s t : St} {o : Op} (hi : Inv kind b ops s) (ho : ∀ k, o ≠ .add (some k))
    (ht : t.mpi = s.mpi ∧ t.ser = s.ser ∧ t.adds = s.adds ∧ t.inComm = s.inComm) : Inv kind b (ops ++ [o]) t := by
  have e : added (ops ++ [o]) = added ops := by
    rw [added_append]
    cases o with
    | add k => cases k with
      | none => simp
      | some k => exact absurd rfl (ho k)
    | _ => simp
  refine ⟨ht.2.2.2.trans hi.comm, ?_, ?_, ?_⟩
  · rw [ht.1, hi.mpi, collectives, collectives, e]
  · rw [ht.2.1, hi.ser, serials, serials, e]
  · rw [ht.2.2.1, hi.adds, e]

theorem step_inv {kind : Nat → Kind} {b : Bool} {ops : List Op} {s t : St} {o : Op} (hi : Inv kind b ops s) (h : step kind s o = some t) :
    Inv kind b (ops ++ [o]) t := by
  cases o with
  | add k =>
    cases k with
    | none => cases h; exact keeps hi (by simp) ⟨rfl, rfl, rfl, rfl⟩
    | some k =>
      cases h
      have e := added_append ops (.add (some k))
      simp only at e
      have hm := hi.mpi
      have hs := hi.ser
      have ha := hi.adds
      have hc := hi.comm
      unfold collectives at hm
      unfold serials at hs
      simp only [add]
      cases hk : kind k <;> refine ⟨hc, ?_, ?_, ?_⟩ <;>
        simp [collectives, serials, e, hm, hs, ha, hk, objOf, List.filter_append]
  | start =>
    cases h
    refine keeps hi (by simp) ?_
    split
    · obtain ⟨h1, h2, h3, h4⟩ := fold_mgr startObj (fun _ _ => ⟨rfl, rfl, rfl, rfl⟩) s.mpi s
      obtain ⟨g1, g2, g3, g4⟩ := fold_mgr startObj (fun _ _ => ⟨rfl, rfl, rfl, rfl⟩) s.ser (s.mpi.foldl startObj s)
      exact ⟨g1.trans h1, g2.trans h2, g3.trans h3, g4.trans h4⟩
    · exact ⟨rfl, rfl, rfl, rfl⟩
  | stop =>
    cases h
    refine keeps hi (by simp) ?_
    have hf : ∀ (s : St) (o : Obj), (stopObj s o).mpi = s.mpi ∧ (stopObj s o).ser = s.ser ∧ (stopObj s o).adds = s.adds ∧ (stopObj s o).inComm = s.inComm :=
      fun s o => ⟨(stopObj_mgr s o).1, (stopObj_mgr s o).2.1, (stopObj_mgr s o).2.2.1, (stopObj_mgr s o).2.2.2.1⟩
    split
    · obtain ⟨h1, h2, h3, h4⟩ := fold_mgr stopObj hf s.mpi s
      obtain ⟨g1, g2, g3, g4⟩ := fold_mgr stopObj hf s.ser (s.mpi.foldl stopObj s)
      exact ⟨g1.trans h1, g2.trans h2, g3.trans h3, g4.trans h4⟩
    · exact ⟨rfl, rfl, rfl, rfl⟩
  | flush =>
    simp only [step] at h
    refine keeps hi (by simp) ?_
    split at h
    · cases e : flushAll kind s.mpi s with
      | none => rw [e] at h; cases h
      | some u =>
        rw [e] at h
        cases h
        obtain ⟨h1, h2, h3, h4⟩ := flushAll_mgr kind _ _ _ e
        have hf : ∀ (s : St) (o : Obj), (flushSer s o).mpi = s.mpi ∧ (flushSer s o).ser = s.ser ∧ (flushSer s o).adds = s.adds ∧ (flushSer s o).inComm = s.inComm := by
          intro s o; unfold flushSer; split <;> exact ⟨rfl, rfl, rfl, rfl⟩
        obtain ⟨g1, g2, g3, g4⟩ := fold_mgr flushSer hf s.ser u
        exact ⟨g1.trans h1, g2.trans h2, g3.trans h3, g4.trans h4⟩
    · cases h; exact ⟨rfl, rfl, rfl, rfl⟩
  | srcStart k => cases h; exact keeps hi (by simp) ⟨rfl, rfl, rfl, rfl⟩
  | srcStop k =>
    cases h
    obtain ⟨h1, h2, h3, h4, _⟩ := stopObj_mgr s (.src k)
    exact keeps hi (by simp) ⟨h1, h2, h3, h4⟩

theorem run_append (kind : Nat → Kind) : ∀ (a b : List Op) (s : St), run kind s (a ++ b) = (run kind s a).bind fun t => run kind t b
  | [], b, s => rfl
  | o :: a, b, s => by
    simp only [List.cons_append, run]
    cases step kind s o with
    | none => rfl
    | some t => exact run_append kind a b t

theorem run_inv (kind : Nat → Kind) (b : Bool) : ∀ (l ops : List Op) (s t : St), Inv kind b ops s → run kind s l = some t → Inv kind b (ops ++ l) t
  | [], ops, s, t, hi, h => by cases h; rw [List.append_nil]; exact hi
  | o :: l, ops, s, t, hi, h => by
    simp only [run] at h
    cases e : step kind s o with
    | none => rw [e] at h; cases h
    | some u =>
      rw [e] at h
      have := run_inv kind b l (ops ++ [o]) u t (step_inv hi e) h
      rwa [List.append_assoc] at this

theorem init_inv (kind : Nat → Kind) (b : Bool) : Inv kind b [] (init b) := ⟨rfl, rfl, rfl, rfl⟩

theorem fold_start : ∀ (l : List Obj) (s : St) (o : Obj),
    (l.foldl startObj s).inst o = (decide (o ∈ l) || s.inst o) ∧ (l.foldl startObj s).active o = (decide (o ∈ l) || s.active o) ∧
    (l.foldl startObj s).log = s.log
  | [], s, o => by simp
  | p :: l, s, o => by
    obtain ⟨h1, h2, h3⟩ := fold_start l (startObj s p) o
    refine ⟨?_, ?_, h3⟩
    · rw [List.foldl_cons, h1]
      by_cases e : o = p <;> simp [startObj, e]
    · rw [List.foldl_cons, h2]
      by_cases e : o = p <;> simp [startObj, e]

theorem fold_stop : ∀ (l : List Obj) (s : St) (o : Obj),
    (l.foldl stopObj s).inst o = s.inst o ∧ (l.foldl stopObj s).active o = (s.active o && !(decide (o ∈ l) && s.inst o)) ∧
    (l.foldl stopObj s).log = s.log
  | [], s, o => by simp
  | p :: l, s, o => by
    obtain ⟨h1, h2, h3⟩ := fold_stop l (stopObj s p) o
    have hi : (stopObj s p).inst = s.inst := by unfold stopObj; split <;> rfl
    refine ⟨?_, ?_, ?_⟩
    · rw [List.foldl_cons, h1, hi]
    · rw [List.foldl_cons, h2, hi]
      by_cases e : o = p
      · subst e
        cases hp : s.inst o <;> simp [stopObj, hp]
      · cases hp : s.inst p <;> simp [stopObj, hp, e]
    · rw [List.foldl_cons, h3]; unfold stopObj; split <;> rfl

/-- **C117**: after any history, `start` makes exactly the added channels active (on processes of the communicator; all others keep their state) -/
theorem C117_start (kind : Nat → Kind) (b : Bool) (ops : List Op) (s t : St) (h : run kind (init b) ops = some s) (ht : step kind s .start = some t) (o : Obj) :
    (t.active o = true ↔ s.active o = true ∨ (b = true ∧ (o ∈ collectives kind ops ∨ o ∈ serials kind ops))) ∧ t.log = s.log := by
  have hi := run_inv kind b ops [] (init b) s (init_inv kind b) h
  rw [List.nil_append] at hi
  simp only [step, Option.some.injEq] at ht
  subst ht
  rw [← hi.mpi, ← hi.ser, ← hi.comm]
  split
  · rename_i hc
    obtain ⟨_, h2, h3⟩ := fold_start s.mpi s o
    obtain ⟨_, g2, g3⟩ := fold_start s.ser (s.mpi.foldl startObj s) o
    refine ⟨?_, g3.trans h3⟩
    rw [g2, h2]
    simp [hc]
    tauto
  · rename_i hc
    simp [hc]

/-- **C117**: after any history, `stop` deactivates exactly the added channels that were started -/
theorem C117_stop (kind : Nat → Kind) (b : Bool) (ops : List Op) (s t : St) (h : run kind (init b) ops = some s) (ht : step kind s .stop = some t) (o : Obj) :
    (t.active o = true ↔ s.active o = true ∧ ¬ (b = true ∧ s.inst o = true ∧ (o ∈ collectives kind ops ∨ o ∈ serials kind ops))) ∧ t.log = s.log := by
  have hi := run_inv kind b ops [] (init b) s (init_inv kind b) h
  rw [List.nil_append] at hi
  simp only [step, Option.some.injEq] at ht
  subst ht
  rw [← hi.mpi, ← hi.ser, ← hi.comm]
  split
  · rename_i hc
    obtain ⟨h1, h2, h3⟩ := fold_stop s.mpi s o
    obtain ⟨_, g2, g3⟩ := fold_stop s.ser (s.mpi.foldl stopObj s) o
    refine ⟨?_, g3.trans h3⟩
    rw [g2, h2, h1]
    cases s.active o <;> cases s.inst o <;> simp [hc]
  · rename_i hc
    simp [hc]

theorem flushAll_ok (kind : Nat → Kind) : ∀ (l : List Obj) (s : St), (∀ o ∈ l, s.inst o = true) →
    flushAll kind l s = some { s with log := s.log ++ l.map .collective }
  | [], s, _ => by simp [flushAll]
  | o :: l, s, h => by
    simp only [flushAll, flushMpi, h o (by simp), if_true]
    rw [flushAll_ok kind l { s with log := s.log ++ [.collective o] } (fun x hx => h x (List.mem_cons_of_mem _ hx))]
    simp

theorem flushSer_ok : ∀ (l : List Obj) (s : St), (∀ o ∈ l, s.inst o = true) → l.foldl flushSer s = { s with log := s.log ++ l.map .serial }
  | [], s, _ => by simp
  | o :: l, s, h => by
    have : flushSer s o = { s with log := s.log ++ [.serial o] } := by simp [flushSer, h o (by simp)]
    rw [List.foldl_cons, this, flushSer_ok l { s with log := s.log ++ [.serial o] } (fun x hx => h x (List.mem_cons_of_mem _ hx))]
    simp

/-- **C117** (all added channels started): `collective_flush` flushes every added channel exactly once for each time it was added, first the collective
ones in the order in which they were added, then the other ones, and changes nothing else. On a process that is not in the communicator it
does nothing. -/
theorem C117_flush_partial (kind : Nat → Kind) (b : Bool) (ops : List Op) (s : St) (h : run kind (init b) ops = some s)
    (hs : ∀ o, o ∈ collectives kind ops ∨ o ∈ serials kind ops → s.inst o = true) :
    step kind s .flush = some (if b then { s with log := s.log ++ (collectives kind ops).map .collective ++ (serials kind ops).map .serial } else s) := by
  have hi := run_inv kind b ops [] (init b) s (init_inv kind b) h
  rw [List.nil_append] at hi
  simp only [step, hi.comm]
  cases b with
  | false => rfl
  | true =>
    simp only [if_true]
    have e1 := flushAll_ok kind s.mpi s (fun o ho => hs o (.inl (hi.mpi ▸ ho)))
    have e2 := flushSer_ok s.ser { s with log := s.log ++ s.mpi.map .collective } (fun o ho => hs o (.inr (hi.ser ▸ ho)))
    rw [e1, Option.map_some, e2]
    simp only [← hi.mpi, ← hi.ser, hi.comm]

theorem step_inst (kind : Nat → Kind) (s t : St) (o : Op) (h : step kind s o = some t) (x : Obj) (hx : s.inst x = true) : t.inst x = true := by
  have hfs : ∀ (l : List Obj) (s : St), (l.foldl flushSer s).inst = s.inst := by
    intro l
    induction l with
    | nil => intro s; rfl
    | cons o l ih => intro s; rw [List.foldl_cons, ih]; unfold flushSer; split <;> rfl
  have hfa : ∀ (l : List Obj) (s t : St), flushAll kind l s = some t → t.inst = s.inst := by
    intro l
    induction l with
    | nil => intro s t h; cases h; rfl
    | cons o l ih =>
      intro s t h
      simp only [flushAll] at h
      cases e : flushMpi kind s o with
      | none => rw [e] at h; cases h
      | some u =>
        rw [e] at h
        rw [ih u t h]
        unfold flushMpi at e
        split at e
        · cases e; rfl
        · split at e <;> cases e; rfl
  cases o with
  | add k =>
    cases h
    cases k with
    | none => exact hx
    | some k => simp only [add]; cases kind k <;> exact hx
  | start =>
    cases h
    split
    · rw [(fold_start _ _ x).1, (fold_start _ _ x).1, hx]; simp
    · exact hx
  | stop =>
    cases h
    split
    · rw [(fold_stop _ _ x).1, (fold_stop _ _ x).1, hx]
    · exact hx
  | flush =>
    simp only [step] at h
    split at h
    · cases e : flushAll kind s.mpi s with
      | none => rw [e] at h; cases h
      | some u => rw [e] at h; cases h; rw [hfs, hfa _ _ _ e]; exact hx
    · cases h; exact hx
  | srcStart k => cases h; simp only [startObj]; split <;> simp [hx]
  | srcStop k => cases h; unfold stopObj; split <;> exact hx

theorem run_inst (kind : Nat → Kind) : ∀ (l : List Op) (s t : St), run kind s l = some t → ∀ x, s.inst x = true → t.inst x = true
  | [], s, t, h, x, hx => by cases h; exact hx
  | o :: l, s, t, h, x, hx => by
    simp only [run] at h
    cases e : step kind s o with
    | none => rw [e] at h; cases h
    | some u => rw [e] at h; exact run_inst kind l u t h x (step_inst kind s u o e x hx)

theorem run_safe (kind : Nat → Kind) : ∀ (l : List Op) (s : St), Op.flush ∉ l → ∃ t, run kind s l = some t
  | [], s, _ => ⟨s, rfl⟩
  | o :: l, s, h => by
    have ho : ∃ u, step kind s o = some u := by
      cases o with
      | flush => simp at h
      | _ => exact ⟨_, rfl⟩
    obtain ⟨u, hu⟩ := ho
    simp only [run, hu]
    exact run_safe kind l u (fun hm => h (List.mem_cons_of_mem _ hm))

/-- **C117**: the usual order of calls: channels are added, the manager is started, anything happens then except for further `add`s: a flush does not fail and
flushes every added channel -/
theorem C117_usual (kind : Nat → Kind) (adds rest : List Op) (ha : Op.flush ∉ adds) (hr : ∀ k, Op.add (some k) ∉ rest) (s : St)
    (h : run kind (init true) (adds ++ .start :: rest) = some s) :
    ∃ t, step kind s .flush = some t ∧ t.log = s.log ++ (collectives kind adds).map .collective ++ (serials kind adds).map .serial := by
  have hadd : added (adds ++ .start :: rest) = added adds := by
    simp only [added, List.filterMap_append]
    congr 2
    have : ∀ l : List Op, (∀ k, Op.add (some k) ∉ l) → l.filterMap addArg = [] := by
      intro l hl
      rw [List.filterMap_eq_nil_iff]
      intro o ho
      cases o with
      | add k => cases k with
        | none => rfl
        | some k => exact absurd ho (hl k)
      | _ => rfl
    rw [this (.start :: rest) (by intro k hk; simp at hk; exact hr k hk), List.append_nil]
  have hcol : collectives kind (adds ++ .start :: rest) = collectives kind adds := by rw [collectives, collectives, hadd]
  have hser : serials kind (adds ++ .start :: rest) = serials kind adds := by rw [serials, serials, hadd]
  have hinst : ∀ o, o ∈ collectives kind (adds ++ .start :: rest) ∨ o ∈ serials kind (adds ++ .start :: rest) → s.inst o = true := by
    intro o ho
    rw [hcol, hser] at ho
    obtain ⟨u, hu⟩ := run_safe kind adds (init true) ha
    have hi := run_inv kind true adds [] (init true) u (init_inv kind true) hu
    rw [List.nil_append] at hi
    rw [run_append, hu, Option.bind_some] at h
    simp only [run, step, hi.comm, if_true] at h
    refine run_inst kind rest _ s h o ?_
    rw [(fold_start _ _ o).1, (fold_start _ _ o).1, hi.mpi, hi.ser]
    rcases ho with ho | ho <;> simp [ho]
  refine ⟨_, C117_flush_partial kind true _ s h hinst, ?_⟩
  simp only [if_true]
  rw [hcol, hser]

/-- **C117**: processes that add the same collective channels in the same order (whatever else they add) flush the same channel in every round, so that each
round is one collective flush of one channel by all processes -/
theorem C117_rounds (kind : Nat → Kind) (a b : List Op) (h : (collectives kind a).map Obj.source = (collectives kind b).map Obj.source) :
    rounds ((collectives kind a).map .collective ++ (serials kind a).map .serial) = rounds ((collectives kind b).map .collective ++ (serials kind b).map .serial) := by
  have e : ∀ x y : List Obj, rounds (x.map .collective ++ y.map .serial) = x.map Obj.source := by
    intro x y
    simp [rounds, List.filterMap_map, Function.comp_def]
  rw [e, e, h]

theorem copy_step (kind : Nat → Kind) (s : St) (k j m : Nat) :
    (startObj s (.src k)).active (.copy j m) = s.active (.copy j m) ∧ (stopObj s (.src k)).active (.copy j m) = s.active (.copy j m) := by
  refine ⟨by simp [startObj], ?_⟩
  unfold stopObj; split <;> simp

/-- **C117** (channels with an mpireport query): such a channel is the manager's own: the program's calls on the channel it was made from do not change it, and the
manager's calls do not change the program's channel -/
theorem C117_own_partial (kind : Nat → Kind) (b : Bool) (ops : List Op) (s : St) (h : run kind (init b) ops = some s) (k : Nat) (hk : kind k = .report) :
    (∀ j t, step kind s (.srcStart k) = some t → t.active (.copy j k) = s.active (.copy j k)) ∧
    (∀ j t, step kind s (.srcStop k) = some t → t.active (.copy j k) = s.active (.copy j k)) ∧
    (∀ t, step kind s .start = some t → t.active (.src k) = s.active (.src k)) ∧
    (∀ t, step kind s .stop = some t → t.active (.src k) = s.active (.src k)) := by
  have hn : ¬ (Obj.src k ∈ collectives kind ops ∨ Obj.src k ∈ serials kind ops) := by
    simp only [collectives, serials, List.mem_map, List.mem_filter]
    rintro (⟨p, ⟨_, _⟩, e⟩ | ⟨p, ⟨_, _⟩, e⟩) <;>
    · unfold objOf at e
      split at e
      · cases e
      · rename_i hp
        cases e
        exact hp hk
  refine ⟨?_, ?_, ?_, ?_⟩
  · intro j t e; cases e; exact (copy_step kind s k j k).1
  · intro j t e; cases e; exact (copy_step kind s k j k).2
  · intro t e
    have := (C117_start kind b ops s t h e (.src k)).1
    rw [Bool.eq_iff_iff, this]
    tauto
  · intro t e
    have := (C117_stop kind b ops s t h e (.src k)).1
    rw [Bool.eq_iff_iff, this]
    tauto

/-- what can be seen of a state -/
def view (s : St) (os : List Obj) : List (Bool × Bool) × List Ev := (os.map fun o => (s.inst o, s.active o), s.log)

def exKind : Nat → Kind := fun k => if k = 0 then .report else if k = 1 then .spot else if k = 2 then .loop else .serial

/-- **C117**, violation: other channels are shared with the program, although the manager is documented to make a new channel: stopping the program's channel
stops the manager's -/
theorem C117_violation_shared :
    (run exKind (init true) [.add (some 3), .start, .srcStop 3]).map (fun s => view s [.src 3]) = some ([(true, false)], []) ∧
    (run exKind (init true) [.srcStart 1, .add (some 1), .stop]).map (fun s => view s [.src 1]) = some ([(true, false)], []) := by
  refine ⟨?_, ?_⟩ <;> decide +kernel

/-- **C117**, violation: a loop report that was not started makes the flush use a null pointer; other channels are skipped -/
theorem C117_violation_null :
    (run exKind (init true) [.add (some 2), .flush]).isNone = true ∧
    (run exKind (init true) [.add (some 0), .add (some 1), .add (some 3), .flush]).map (fun s => view s []) = some ([], []) := by
  refine ⟨?_, ?_⟩ <;> decide +kernel

/-- **C117**, violation: processes that add the channels in a different order combine the data of different channels in one flush; a process that
did not start a channel takes part in fewer flushes than the others, which wait for it for ever (C106) -/
theorem C117_violation_order :
    (run exKind (init true) [.add (some 0), .add (some 1), .start, .flush]).map (fun s => rounds s.log) = some [0, 1] ∧
    (run exKind (init true) [.add (some 1), .add (some 0), .start, .flush]).map (fun s => rounds s.log) = some [1, 0] ∧
    (run exKind (init true) [.add (some 0), .start, .add (some 1), .flush]).map (fun s => rounds s.log) = some [0] := by
  refine ⟨?_, ?_, ?_⟩ <;> decide +kernel

theorem C117_example :
    (run exKind (init true) [.add (some 3), .add (some 0), .add none, .add (some 1), .start, .srcStop 0, .flush]).map
      (fun s => view s [.src 0, .copy 1 0, .src 1, .src 3]) =
        some ([(false, false), (true, true), (true, true), (true, true)], [.collective (.copy 1 0), .collective (.src 1), .serial (.src 3)]) ∧
    (Cfg.copy ⟨none, str "event,mpireport,timer", str "select *", []⟩ = ⟨none, str "event,timer", str "select *", str "select *"⟩) ∧
    (Cfg.kind ⟨none, str "event,mpireport,timer", str "select *", []⟩ = .report) ∧ (Cfg.kind ⟨none, str "event", [], []⟩ = .serial) := by
  refine ⟨?_, ?_, ?_, ?_⟩ <;> decide +kernel

end Verif.Mpi.CM
