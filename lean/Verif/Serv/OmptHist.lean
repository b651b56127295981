import Verif.Serv.OmptRun
/-!
# Every properly nested history is recorded
-/
namespace Verif.Serv.Ompt
open Verif RT MTree

theorem flag_iff (f : BitVec 32) : f &&& 1#32 ≠ 0 ↔ f.getLsbD 0 = true := by
  constructor
  · intro h
    by_contra hf
    apply h
    apply BitVec.eq_of_getLsbD_eq
    intro i hi
    rw [BitVec.getLsbD_and]
    by_cases h0 : i = 0
    · subst h0; simp only [Bool.not_eq_true] at hf; rw [hf]; rfl
    · have : (1#32).getLsbD i = false := by
        rw [BitVec.getLsbD_one]; simp [h0]
      simp [this]
  · intro h e
    have : (f &&& 1#32).getLsbD 0 = (0 : BitVec 32).getLsbD 0 := by rw [e]
    rw [BitVec.getLsbD_and, h] at this
    simp at this

section
/-- some value -/
abbrev v0 : Val := Val.empty
variable {A : Attrs} {r0 : PathL} {th : Nat} {t : Tree}

theorem Agree.threadBegin (M : Made A t) {s : State} {s0 : State} (M0 : s0.tree = t) {c : Abs} {d : Doing} (S : Sync s0 s c) (g : Agree A r0 c th d)
    (hd : d.info = none) {ty : Nat} {p : BitVec 32} (nl : NoLoss s (cb A s th (.threadBegin ty p))) :
    ∃ c', Sync s0 (cb A s th (.threadBegin ty p)) c' ∧ Agree A r0 c' th { d with info := some (ty, p) } := by
  subst M0
  have D := M.diff
  have kT := kindU (.inl M.labels.1) th
  have kP := kindU (.inr M.labels.2.1) th
  have hT := g.type
  have hP := g.proc
  rw [hd] at hT hP
  simp only [Option.map_none, Option.toList_none, Option.bind_none] at hT hP
  by_cases hp : 0 ≤ p.toInt
  · simp only [cb, if_pos hp] at nl ⊢
    obtain ⟨n1, n2⟩ := nl.split (step_le _ _) (step_le _ _)
    have S1 := S.step (op := .begin th A.procId (.ofInt p)) (M.valid _ (by simp [Op.attr])) n1
    have S2 := S1.step (op := .begin th A.threadType (.ofString (typeName ty))) (M.valid _ (by simp [Op.attr])) n2
    obtain ⟨a1, a2⟩ := abs_begin (ac := s.active) (ia := s.isActive) (v := .ofInt p) g.err kP.2
    have e1 : (c.step s.active s.isActive (.begin th A.procId (.ofInt p))).err th = false := by rw [a2]; exact g.err
    obtain ⟨b1, b2⟩ := abs_begin (ac := (RT.step s (.begin th A.procId (.ofInt p))).active)
      (ia := (RT.step s (.begin th A.procId (.ofInt p))).isActive) (v := .ofString (typeName ty)) e1 kT.2
    refine ⟨_, S2, ⟨by rw [b2]; exact e1, ?_, ?_, ?_, ?_, ?_, g.user⟩⟩
    · rw [b1, (region_unal _ _ _ kT.1).1, a1, (region_unal _ _ _ kP.1).1]; exact g.region
    · rw [b1, unal_begin kT.1, if_pos rfl, a1, unal_begin kP.1, if_neg D.tp, hT, typeName_eq]; rfl
    · rw [b1, unal_begin kT.1, if_neg (Ne.symm D.tp), a1, unal_begin kP.1, if_pos rfl, hP]
      rw [Option.bind_some, if_neg (by simp only; omega)]; rfl
    · rw [b1, unal_begin kT.1, if_neg (Ne.symm D.tt), a1, unal_begin kP.1, if_neg (Ne.symm D.pt)]; exact g.thread
    · rw [b1, unal_begin kT.1, if_neg (Ne.symm D.tn), a1, unal_begin kP.1, if_neg (Ne.symm D.pn)]; exact g.team
  · simp only [cb, if_neg hp] at nl ⊢
    have S2 := S.step (op := .begin th A.threadType (.ofString (typeName ty))) (M.valid _ (by simp [Op.attr])) nl
    obtain ⟨b1, b2⟩ := abs_begin (ac := s.active) (ia := s.isActive) (v := .ofString (typeName ty)) g.err kT.2
    refine ⟨_, S2, ⟨by rw [b2]; exact g.err, ?_, ?_, ?_, ?_, ?_, g.user⟩⟩
    · rw [b1, (region_unal _ _ _ kT.1).1]; exact g.region
    · rw [b1, unal_begin kT.1, if_pos rfl, hT, typeName_eq]; rfl
    · rw [b1, unal_begin kT.1, if_neg (Ne.symm D.tp), hP]
      rw [Option.bind_some, if_pos (by simp only; omega)]; rfl
    · rw [b1, unal_begin kT.1, if_neg (Ne.symm D.tt)]; exact g.thread
    · rw [b1, unal_begin kT.1, if_neg (Ne.symm D.tn)]; exact g.team

/-- end of an optional unaligned value -/
theorem end_opt {s s0 : State} {c : Abs} (S : Sync s0 s c) {a : Attr} (ha : a.Valid s0.tree) (hk : a.kind = .unaligned ∧ scopeLoc a th = some (.thread th))
    (he : c.err th = false) {o : Option Val} (ho : vals a.id (c.ctx (.thread th)).unal = o.toList)
    (nl : NoLoss s (if hasValue s th a then RT.step s (.endR th a) else s)) :
    ∃ c', Sync s0 (if hasValue s th a then RT.step s (.endR th a) else s) c' ∧ c'.err = c.err ∧
      (c'.ctx (.thread th)).region = (c.ctx (.thread th)).region ∧
      ∀ b, vals b (c'.ctx (.thread th)).unal = if b = a.id then [] else vals b (c.ctx (.thread th)).unal := by
  have hh := S.has (th := th) ha hk.2
  rw [get_unal hk.1, ho] at hh
  cases o with
  | none =>
    simp only [Option.toList_none, List.getLast?_nil, Option.isSome_none] at hh
    rw [if_neg (by rw [hh]; decide)] at nl ⊢
    refine ⟨c, S, rfl, rfl, fun b => ?_⟩
    split
    · subst_vars; exact ho
    · rfl
  | some v =>
    simp only [Option.toList_some, List.getLast?_singleton, Option.isSome_some] at hh
    rw [if_pos hh] at nl ⊢
    have S1 := S.step (op := .endR th a) ha nl
    obtain ⟨a1, a2⟩ := abs_end (ac := s.active) (ia := s.isActive) (v := v) he hk.2 (by rw [endable_unal hk.1, ho]; rfl)
    refine ⟨_, S1, a2, by rw [a1, (region_unal _ _ v0 hk.1).2], fun b => ?_⟩
    rw [a1, unal_end hk.1]
    split
    · subst_vars; rw [ho]; rfl
    · rfl

theorem Agree.threadEnd (M : Made A t) {s : State} {s0 : State} (M0 : s0.tree = t) {c : Abs} {d : Doing} (S : Sync s0 s c) (g : Agree A r0 c th d)
    (nl : NoLoss s (cb A s th .threadEnd)) :
    ∃ c', Sync s0 (cb A s th .threadEnd) c' ∧ Agree A r0 c' th { d with info := none } := by
  subst M0
  have D := M.diff
  have kT := kindU (.inl M.labels.1) th
  have kP := kindU (.inr M.labels.2.1) th
  simp only [cb] at nl ⊢
  have le1 : LeLoss s (if hasValue s th A.threadType then RT.step s (.endR th A.threadType) else s) := by
    split
    · exact step_le _ _
    · exact LeLoss.refl _
  generalize hs1 : (if hasValue s th A.threadType then RT.step s (.endR th A.threadType) else s) = s1 at nl le1 ⊢
  have le2 : LeLoss s1 (if hasValue s1 th A.procId then RT.step s1 (.endR th A.procId) else s1) := by
    split
    · exact step_le _ _
    · exact LeLoss.refl _
  obtain ⟨n1, n2⟩ := nl.split le1 le2
  obtain ⟨c1, S1, x1, x2, x3⟩ := end_opt S (a := A.threadType) (M.valid _ (by simp)) kT g.err g.type (by rw [hs1]; exact n1)
  rw [hs1] at S1
  have hp1 : vals A.procId.id (c1.ctx (.thread th)).unal =
      (d.info.bind fun x => if x.2.toInt < 0 then none else some (Val.ofInt x.2)).toList := by
    rw [x3, if_neg (Ne.symm D.tp)]; exact g.proc
  obtain ⟨c2, S2, y1, y2, y3⟩ := end_opt S1 (a := A.procId) (M.valid _ (by simp)) kP (by rw [x1]; exact g.err) hp1 n2
  refine ⟨c2, S2, ⟨by rw [y1, x1]; exact g.err, by rw [y2, x2]; exact g.region, ?_, ?_, ?_, ?_, g.user⟩⟩
  · rw [y3, if_neg D.tp, x3, if_pos rfl]; rfl
  · rw [y3, if_pos rfl]; rfl
  · rw [y3, if_neg (Ne.symm D.pt), x3, if_neg (Ne.symm D.tt)]; exact g.thread
  · rw [y3, if_neg (Ne.symm D.pn), x3, if_neg (Ne.symm D.tn)]; exact g.team

theorem Agree.taskBegin (M : Made A t) {s : State} {s0 : State} (M0 : s0.tree = t) {c : Abs} {d : Doing} (S : Sync s0 s c) (g : Agree A r0 c th d)
    {p i f : BitVec 32} (hf : f.getLsbD 0 = false) (nl : NoLoss s (cb A s th (.implicitTask 1 p i f))) :
    ∃ c', Sync s0 (cb A s th (.implicitTask 1 p i f)) c' ∧ Agree A r0 c' th { d with tasks := d.tasks ++ [(p, i)] } := by
  subst M0
  have D := M.diff
  have kD := kindU (.inr M.labels.2.2.1) th
  have kN := kindU (.inr M.labels.2.2.2) th
  have hf' : ¬ (f &&& 1#32 ≠ 0) := fun h => by rw [flag_iff, hf] at h; simp at h
  simp only [cb] at nl ⊢
  rw [if_neg hf', if_pos (show 1 = scopeBegin from rfl)] at nl ⊢
  obtain ⟨n1, n2⟩ := nl.split (step_le _ _) (step_le _ _)
  have S1 := S.step (op := .begin th A.numThreads (.ofInt p)) (M.valid _ (by simp [Op.attr])) n1
  have S2 := S1.step (op := .begin th A.threadId (.ofInt i)) (M.valid _ (by simp [Op.attr])) n2
  obtain ⟨a1, a2⟩ := abs_begin (ac := s.active) (ia := s.isActive) (v := .ofInt p) g.err kN.2
  have e1 : (c.step s.active s.isActive (.begin th A.numThreads (.ofInt p))).err th = false := by rw [a2]; exact g.err
  obtain ⟨b1, b2⟩ := abs_begin (ac := (RT.step s (.begin th A.numThreads (.ofInt p))).active)
    (ia := (RT.step s (.begin th A.numThreads (.ofInt p))).isActive) (v := .ofInt i) e1 kD.2
  refine ⟨_, S2, ⟨by rw [b2]; exact e1, ?_, ?_, ?_, ?_, ?_, g.user⟩⟩
  · rw [b1, (region_unal _ _ _ kD.1).1, a1, (region_unal _ _ _ kN.1).1]; exact g.region
  · rw [b1, unal_begin kD.1, if_neg D.tt, a1, unal_begin kN.1, if_neg D.tn]; exact g.type
  · rw [b1, unal_begin kD.1, if_neg D.pt, a1, unal_begin kN.1, if_neg D.pn]; exact g.proc
  · rw [b1, unal_begin kD.1, if_pos rfl, a1, unal_begin kN.1, if_neg D.dn, g.thread]; simp
  · rw [b1, unal_begin kD.1, if_neg (Ne.symm D.dn), a1, unal_begin kN.1, if_pos rfl, g.team]; simp

theorem Agree.taskEnd (M : Made A t) {s : State} {s0 : State} (M0 : s0.tree = t) {c : Abs} {cs inf ts} {x : BitVec 32 × BitVec 32}
    (S : Sync s0 s c) (g : Agree A r0 c th ⟨cs, inf, ts ++ [x]⟩)
    {p i f : BitVec 32} (hf : f.getLsbD 0 = false) (nl : NoLoss s (cb A s th (.implicitTask 2 p i f))) :
    ∃ c', Sync s0 (cb A s th (.implicitTask 2 p i f)) c' ∧ Agree A r0 c' th ⟨cs, inf, ts⟩ := by
  subst M0
  have D := M.diff
  have kD := kindU (.inr M.labels.2.2.1) th
  have kN := kindU (.inr M.labels.2.2.2) th
  have hf' : ¬ (f &&& 1#32 ≠ 0) := fun h => by rw [flag_iff, hf] at h; simp at h
  simp only [cb] at nl ⊢
  rw [if_neg hf', if_neg (show ¬ 2 = scopeBegin by decide)] at nl ⊢
  obtain ⟨n1, n2⟩ := nl.split (step_le _ _) (step_le _ _)
  have S1 := S.step (op := .endR th A.threadId) (M.valid _ (by simp [Op.attr])) n1
  have S2 := S1.step (op := .endR th A.numThreads) (M.valid _ (by simp [Op.attr])) n2
  obtain ⟨a1, a2⟩ := abs_end (ac := s.active) (ia := s.isActive) (v := .ofInt x.2) g.err kD.2 (by
    rw [endable_unal kD.1, g.thread]; simp)
  have e1 : (c.step s.active s.isActive (.endR th A.threadId)).err th = false := by rw [a2]; exact g.err
  obtain ⟨b1, b2⟩ := abs_end (ac := (RT.step s (.endR th A.threadId)).active) (ia := (RT.step s (.endR th A.threadId)).isActive)
    (v := .ofInt x.1) e1 kN.2 (by rw [endable_unal kN.1, a1, unal_end kD.1, if_neg (Ne.symm D.dn), g.team]; simp)
  refine ⟨_, S2, ⟨by rw [b2]; exact e1, ?_, ?_, ?_, ?_, ?_, g.user⟩⟩
  · rw [b1, (region_unal _ _ v0 kN.1).2, a1, (region_unal _ _ v0 kD.1).2]; exact g.region
  · rw [b1, unal_end kN.1, if_neg D.tn, a1, unal_end kD.1, if_neg D.tt]; exact g.type
  · rw [b1, unal_end kN.1, if_neg D.pn, a1, unal_end kD.1, if_neg D.pt]; exact g.proc
  · rw [b1, unal_end kN.1, if_neg D.dn, a1, unal_end kD.1, if_pos rfl, g.thread]; simp
  · rw [b1, unal_end kN.1, if_pos rfl, a1, unal_end kD.1, if_neg (Ne.symm D.dn), g.team]; simp

/-- one annotation call of the thread -/
theorem one {s s0 : State} {c : Abs} {d : Doing} (S : Sync s0 s c) {op : Op} (ha : op.attr.Valid s0.tree) (nl : NoLoss s (RT.step s op))
    (h : Agree A r0 (c.step s.active s.isActive op) th d) : ∃ c', Sync s0 (RT.step s op) c' ∧ Agree A r0 c' th d :=
  ⟨_, S.step ha nl, h⟩

theorem hist_agree {s0 : OState} (M : Made A s0.rt.tree) (hA : s0.attrs = some A) {h : List (Nat × Act)} {d : Doing} {n : Nat}
    (H : Hist A th h d n) (hv : ∀ x ∈ h, ∀ op, x.2 = .user op → op.attr.Valid s0.rt.tree) {c0 : Abs} (R : RelS s0.rt c0)
    (g0 : Agree A r0 c0 th .idle) (nl : NoLoss s0.rt (runO s0 h).rt) :
    (∃ c, Sync s0.rt (runO s0 h).rt c ∧ Agree A r0 c th d) ∧ (runO s0 h).attrs = some A ∧ (runO s0 h).skipped = s0.skipped + n := by
  have key : ∀ (h : List (Nat × Act)) (x : Nat × Act) (d : Doing) (n : Nat),
      ((∀ x ∈ h, ∀ op, x.2 = .user op → op.attr.Valid s0.rt.tree) → NoLoss s0.rt (runO s0 h).rt →
        (∃ c, Sync s0.rt (runO s0 h).rt c ∧ Agree A r0 c th d) ∧ (runO s0 h).attrs = some A ∧ (runO s0 h).skipped = s0.skipped + n) →
      (∀ y ∈ h ++ [x], ∀ op, y.2 = .user op → op.attr.Valid s0.rt.tree) → NoLoss s0.rt (runO s0 (h ++ [x])).rt →
      ∀ (d' : Doing) (n' : Nat),
      (∀ s : OState, s.attrs = some A → (∃ c, Sync s0.rt s.rt c ∧ Agree A r0 c th d) → NoLoss s.rt (act s x.1 x.2).rt →
        (∀ op, x.2 = .user op → op.attr.Valid s0.rt.tree) →
        (∃ c, Sync s0.rt (act s x.1 x.2).rt c ∧ Agree A r0 c th d') ∧ (act s x.1 x.2).attrs = some A ∧
          (act s x.1 x.2).skipped + n = s.skipped + n') →
      (∃ c, Sync s0.rt (runO s0 (h ++ [x])).rt c ∧ Agree A r0 c th d') ∧ (runO s0 (h ++ [x])).attrs = some A ∧
        (runO s0 (h ++ [x])).skipped = s0.skipped + n' := by
    intro h x d n ih hv nl d' n' f
    rw [runO_snoc] at nl ⊢
    obtain ⟨n1, n2⟩ := nl.split (runO_le s0 h) (act_le _ _ _)
    obtain ⟨hc, ha, hs⟩ := ih (fun y hy => hv y (by simp [hy])) n1
    obtain ⟨z1, z2, z3⟩ := f _ ha hc n2 (hv x (by simp))
    exact ⟨z1, z2, by omega⟩
  induction H with
  | nil => exact ⟨⟨c0, ⟨R, Ext.refl _⟩, g0⟩, hA, rfl⟩
  | @elsewhere h d n th' c H hne ih =>
    refine key h _ d n ih hv nl _ _ (fun s ha ⟨c1, S, g⟩ nl _ => ?_)
    obtain ⟨ops, e, ho⟩ := cb_ops A s.rt th' c
    simp only [act, ha, Option.getD_some, e] at nl ⊢
    refine ⟨away S g (fun op hop => M.valid _ (ho op hop).2.2) (fun op hop => ?_) nl, by trivial, by trivial⟩
    obtain ⟨o1, o2, o3⟩ := ho op hop
    refine ⟨by rw [o1]; exact hne, ?_⟩
    rw [o2]
    have hl : scopeLoc op.attr th' = some (.thread th') := by
      simp only [List.mem_cons, List.not_mem_nil, or_false] at o3
      rcases o3 with e | e | e | e | e | e | e <;> rw [e]
      · exact (kindR M.nested.1 _).2
      · exact (kindR M.nested.2.1 _).2
      · exact (kindR M.nested.2.2 _).2
      · exact (kindU (.inl M.labels.1) _).2
      · exact (kindU (.inr M.labels.2.1) _).2
      · exact (kindU (.inr M.labels.2.2.1) _).2
      · exact (kindU (.inr M.labels.2.2.2) _).2
    rw [hl]
    simpa using hne
  | @elsewhereUser h d n th' op H hne hth ih =>
    refine key h _ d n ih hv nl _ _ (fun s ha ⟨c1, S, g⟩ nl hvo => ?_)
    simp only [act] at nl ⊢
    refine ⟨away (ops := [op]) S g (by simpa using hvo op rfl) ?_ nl, ha, by trivial⟩
    intro o hoo
    simp only [List.mem_singleton] at hoo
    subst hoo
    refine ⟨by rw [hth]; exact hne, ?_⟩
    rw [← hth] at hne
    intro hl
    cases o <;> simp only [Op.loc, Op.thread] at hl hne <;> first | (simp at hl; done) | skip
    all_goals
      unfold scopeLoc at hl
      split at hl
      · simp at hl; exact hne hl
      · split at hl <;> simp at hl
  | @register h d n th' B H ih =>
    refine key h _ d n ih hv nl _ _ (fun s ha hc nl _ => ?_)
    simp only [act, ha, Option.getD_some]
    exact ⟨hc, by trivial, by trivial⟩
  | @skipped h d n th' c H hc ih =>
    refine key h _ d n ih hv nl _ _ (fun s ha hcc nl _ => ?_)
    cases c with
    | implicitTask ep p i f =>
      have hf : ¬ (f &&& 1#32 ≠ 0) := fun h => by rw [flag_iff, hc _ _ _ _ rfl] at h; simp at h
      simp only [act]
      rw [if_neg hf]
      exact ⟨hcc, ha, by simp only; omega⟩
    | _ => exact ⟨hcc, ha, by simp only [act]; omega⟩
  | @skippedInitial h d n th' ep p i f H hf ih =>
    refine key h _ d n ih hv nl _ _ (fun s ha hcc nl _ => ?_)
    simp only [act]
    rw [if_pos ((flag_iff f).2 hf)]
    exact ⟨hcc, ha, by trivial⟩
  | @threadBegin h d n ty p H hi ih =>
    refine key h _ d n ih hv nl _ _ (fun s ha ⟨c1, S, g⟩ nl _ => ?_)
    simp only [act, ha, Option.getD_some] at nl ⊢
    exact ⟨g.threadBegin M rfl S hi nl, by trivial, by trivial⟩
  | @threadEnd h d n H ih =>
    refine key h _ d n ih hv nl _ _ (fun s ha ⟨c1, S, g⟩ nl _ => ?_)
    simp only [act, ha, Option.getD_some] at nl ⊢
    exact ⟨g.threadEnd M rfl S nl, by trivial, by trivial⟩
  | @parallelBegin h d n k H ih =>
    refine key h _ d n ih hv nl _ _ (fun s ha ⟨c1, S, g⟩ nl _ => ?_)
    simp only [act, ha, Option.getD_some, cb] at nl ⊢
    exact ⟨one S (M.valid _ (by simp [Op.attr])) nl (g.begin (kindR M.nested.1 th) (by rw [vUint_eq]; rfl) (by simp)), by trivial, by trivial⟩
  | @parallelEnd h cs i ts n k H ih =>
    refine key h _ _ n ih hv nl _ _ (fun s ha ⟨c1, S, g⟩ nl _ => ?_)
    simp only [act, ha, Option.getD_some, cb] at nl ⊢
    exact ⟨one S (M.valid _ (by simp [Op.attr])) nl (g.endR (kindR M.nested.1 th) rfl), by trivial, by trivial⟩
  | @workBegin h d n ty H ih =>
    refine key h _ d n ih hv nl _ _ (fun s ha ⟨c1, S, g⟩ nl _ => ?_)
    simp only [act, ha, Option.getD_some, cb] at nl ⊢
    rw [if_pos (show 1 = scopeBegin from rfl)] at nl ⊢
    exact ⟨one S (M.valid _ (by simp [Op.attr])) nl (g.begin (kindR M.nested.2.2 th) (by rw [workName_eq]; rfl) (by simp)), by trivial, by trivial⟩
  | @workEnd h cs i ts n ty ty' H ih =>
    refine key h _ _ n ih hv nl _ _ (fun s ha ⟨c1, S, g⟩ nl _ => ?_)
    simp only [act, ha, Option.getD_some, cb] at nl ⊢
    rw [if_neg (show ¬ 2 = scopeBegin by decide), if_pos (show 2 = scopeEnd from rfl)] at nl ⊢
    exact ⟨one S (M.valid _ (by simp [Op.attr])) nl (g.endR (kindR M.nested.2.2 th) rfl), by trivial, by trivial⟩
  | @syncBegin h d n ty H ih =>
    refine key h _ d n ih hv nl _ _ (fun s ha ⟨c1, S, g⟩ nl _ => ?_)
    simp only [act, ha, Option.getD_some, cb] at nl ⊢
    rw [if_pos (show 1 = scopeBegin from rfl)] at nl ⊢
    exact ⟨one S (M.valid _ (by simp [Op.attr])) nl (g.begin (kindR M.nested.2.1 th) (by rw [syncName_eq]; rfl) (by simp)), by trivial, by trivial⟩
  | @syncEnd h cs i ts n ty ty' H ih =>
    refine key h _ _ n ih hv nl _ _ (fun s ha ⟨c1, S, g⟩ nl _ => ?_)
    simp only [act, ha, Option.getD_some, cb] at nl ⊢
    rw [if_neg (show ¬ 2 = scopeBegin by decide), if_pos (show 2 = scopeEnd from rfl)] at nl ⊢
    exact ⟨one S (M.valid _ (by simp [Op.attr])) nl (g.endR (kindR M.nested.2.1 th) rfl), by trivial, by trivial⟩
  | @workPoint h d n ty H ih =>
    refine key h _ d n ih hv nl _ _ (fun s ha hc nl _ => ?_)
    simp only [act, ha, Option.getD_some, cb]
    rw [if_neg (show ¬ 3 = scopeBegin by decide), if_neg (show ¬ 3 = scopeEnd by decide)]
    exact ⟨hc, by trivial, by trivial⟩
  | @syncPoint h d n ty H ih =>
    refine key h _ d n ih hv nl _ _ (fun s ha hc nl _ => ?_)
    simp only [act, ha, Option.getD_some, cb]
    rw [if_neg (show ¬ 3 = scopeBegin by decide), if_neg (show ¬ 3 = scopeEnd by decide)]
    exact ⟨hc, by trivial, by trivial⟩
  | @taskBegin h d n p i f H hf ih =>
    refine key h _ d n ih hv nl _ _ (fun s ha ⟨c1, S, g⟩ nl _ => ?_)
    simp only [act, ha, Option.getD_some] at nl ⊢
    exact ⟨g.taskBegin M rfl S hf nl, by trivial, by trivial⟩
  | @taskEnd h cs inf ts n x p i f H hf ih =>
    refine key h _ _ n ih hv nl _ _ (fun s ha ⟨c1, S, g⟩ nl _ => ?_)
    simp only [act, ha, Option.getD_some] at nl ⊢
    exact ⟨g.taskEnd M rfl S hf nl, by trivial, by trivial⟩
  | @initialTask h d n ep p i f H hf ih =>
    refine key h _ d n ih hv nl _ _ (fun s ha hc nl _ => ?_)
    simp only [act, ha, Option.getD_some, cb]
    rw [if_pos ((flag_iff f).2 hf)]
    exact ⟨hc, by trivial, by trivial⟩
  | @userBegin h d n a v H hk hl hn ih =>
    refine key h _ d n ih hv nl _ _ (fun s ha ⟨c1, S, g⟩ nl hvo => ?_)
    simp only [act] at nl ⊢
    exact ⟨one S (hvo _ rfl) nl (g.begin (k := .user a v) ⟨hk, hl⟩ rfl (fun b w e => by cases e; exact ⟨hk, hl, hn⟩)), ha, by trivial⟩
  | @userEnd h cs i ts n a v H ih =>
    refine key h _ _ n ih hv nl _ _ (fun s ha ⟨c1, S, g⟩ nl hvo => ?_)
    simp only [act] at nl ⊢
    have := g.user a v (by simp)
    exact ⟨one S (hvo _ rfl) nl (g.endR ⟨this.1, this.2.1⟩ rfl), ha, by trivial⟩
  | @userEndCheck h cs i ts n a v H ih =>
    refine key h _ _ n ih hv nl _ _ (fun s ha ⟨c1, S, g⟩ nl hvo => ?_)
    simp only [act] at nl ⊢
    have := g.user a v (by simp)
    exact ⟨one S (hvo _ rfl) nl (g.endCheck ⟨this.1, this.2.1⟩ rfl), ha, by trivial⟩
  | @userOther h d n op H ht he hA' ho ih =>
    refine key h _ d n ih hv nl _ _ (fun s ha ⟨c1, S, g⟩ nl hvo => ?_)
    simp only [act] at nl ⊢
    exact ⟨one S (hvo _ rfl) nl (g.other he hA' ho), ha, by trivial⟩

end
end Verif.Serv.Ompt
