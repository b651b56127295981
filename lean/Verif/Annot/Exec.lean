import Verif.Annot.Lemmas
namespace Verif.Annot
open MTree RT

section
variable {E : Env} {idOf : Name → Nat} {types : Name → AttrType} {val : Name → Bool}

/-- a handle fits its name -/
def HOk (idOf : Name → Nat) (types : Name → AttrType) (val : Name → Bool) (n : Name) (h : Handle) : Prop :=
  h.attr.id = idOf n ∧ h.ty = types n ∧ (val n = false → h.attr.kind ≠ .value)

/-- an annotation object fits its name -/
def AOk (idOf : Name → Nat) (types : Name → AttrType) (val : Name → Bool) (n : Name) (a : AnnImpl) : Prop :=
  a.name = n ∧ (val n = true ∨ a.opt &&& 1#32 = 0) ∧ ∀ h, a.node = some h → HOk idOf types val n h

/-- invariant -/
structure SInv (idOf : Name → Nat) (types : Name → AttrType) (val : Name → Bool) (ls as : List Name) (s : St) : Prop where
  db : DbOk idOf types val s.db
  loops : s.loops.length = ls.length ∧ ∀ (k : Nat) (l : LoopImpl) (n : Name), s.loops[k]? = some l → ls[k]? = some n → l.iter.id = idOf (iterPrefix ++ n)
  anns : s.anns.length = as.length ∧ ∀ (k : Nat) (a : AnnImpl) (n : Name), s.anns[k]? = some a → as[k]? = some n → AOk idOf types val n a

theorem create_ok (H : EnvOk E idOf types val) {db : DB} (hd : DbOk idOf types val db) {n : Name} {ty : AttrType} {opt : BitVec 32}
    (ht : ty = types n) (hv : val n = true ∨ opt &&& 1#32 = 0) :
    DbOk idOf types val (create E db n ty opt).1 ∧ HOk idOf types val n (create E db n ty opt).2 := by
  unfold create
  cases hn : db n with
  | some h => exact ⟨hd, hd n h hn⟩
  | none =>
    have hh : HOk idOf types val n ⟨E.make n ty opt, ty⟩ := by
      refine ⟨H.make n ty opt, ht, fun hv' => ?_⟩
      rcases hv with hv | hv
      · rw [hv] at hv'; cases hv'
      · exact H.plain n ty opt hv
    refine ⟨?_, hh⟩
    intro m h hm
    simp only at hm
    split at hm
    · rename_i e; subst e; cases hm; exact hh
    · exact hd m h hm

theorem ctor_ok (H : EnvOk E idOf types val) {db : DB} (hd : DbOk idOf types val db) (th : Nat) (n : Name) :
    ∃ db' l, LoopImpl.ctor E th db n = (db', l, [.begin th E.loop (.str n)]) ∧ DbOk idOf types val db' ∧
      l.iter.id = idOf (iterPrefix ++ n) ∧ l.level = 1 ∧ l.ref = 1 := by
  obtain ⟨h1, h2⟩ := create_ok H hd (n := iterPrefix ++ n) (ty := .int) (opt := 1#32) (H.iter n).1.symm (.inl (H.iter n).2)
  exact ⟨_, _, rfl, h1, h2.1, rfl, rfl⟩

theorem value_ty (a : AnnImpl) {d : Data} {n : Name} (ha : AOk idOf types val n a) (hd : d.ty = types n) : (a.value E d).ty = types n := by
  cases d with
  | val v => exact hd
  | int i =>
    simp only [Data.ty] at hd
    unfold AnnImpl.value
    cases hn : a.node with
    | none => simp only [Val.ofInt]; exact hd
    | some h =>
      have := (ha.2.2 h hn).2.1
      simp only
      rw [← hd] at this
      rw [this]
      simp only [reduceCtorEq, if_false, Val.ofInt]
      exact hd

theorem getAttribute_ok (H : EnvOk E idOf types val) {db : DB} (hdb : DbOk idOf types val db) {a : AnnImpl} {n : Name}
    (ha : AOk idOf types val n a) {ty : AttrType} (hty : ty = types n) :
    ∃ db' a' h, a.getAttribute E db ty = (db', a', h) ∧ DbOk idOf types val db' ∧ AOk idOf types val n a' ∧
      HOk idOf types val n h ∧ a'.node = some h ∧ (∀ h', a.node = some h' → h = h') := by
  unfold AnnImpl.getAttribute
  cases hn : a.node with
  | some h => exact ⟨_, _, _, rfl, hdb, ha, ha.2.2 h hn, hn, by rintro h' ⟨⟩; rfl⟩
  | none =>
    obtain ⟨h1, h2⟩ := create_ok H hdb (n := a.name) (ty := ty) (opt := a.opt) (by rw [ha.1]; exact hty) (by rw [ha.1]; exact ha.2.1)
    rw [ha.1] at h1 h2
    refine ⟨_, _, _, rfl, by rw [ha.1]; exact h1, ⟨ha.1, ha.2.1, ?_⟩, by rw [ha.1]; exact h2, rfl, by rintro h' ⟨⟩⟩
    intro h hh
    simp only [Option.some.injEq] at hh
    subst hh
    rw [ha.1]; exact h2

theorem begin_ok (H : EnvOk E idOf types val) {db : DB} (hdb : DbOk idOf types val db) {a : AnnImpl} {n : Name}
    (ha : AOk idOf types val n a) {d : Data} (hd : d.ty = types n) (hi : d.ty ≠ .inv) (th : Nat) :
    ∃ db' a' h, a.begin E th db d = (db', a', [.begin th h.attr (a.value E d)]) ∧ DbOk idOf types val db' ∧
      AOk idOf types val n a' ∧ HOk idOf types val n h ∧ a'.node = some h ∧ (∀ h', a.node = some h' → h = h') := by
  have hv := value_ty (E := E) a ha hd
  obtain ⟨db', a', h, h1, h2, h3, h4, h5, h6⟩ := getAttribute_ok H hdb ha hv
  refine ⟨db', a', h, ?_, h2, h3, h4, h5, h6⟩
  unfold AnnImpl.begin
  simp only [h1]
  rw [if_pos ⟨by rw [h4.2.1, hv], by rw [h4.2.1, ← hd]; exact hi⟩]

theorem set_ok (H : EnvOk E idOf types val) {db : DB} (hdb : DbOk idOf types val db) {a : AnnImpl} {n : Name}
    (ha : AOk idOf types val n a) {d : Data} (hd : d.ty = types n) (hi : d.ty ≠ .inv) (th : Nat) :
    ∃ db' a' h, a.set E th db d = (db', a', [.set th h.attr (a.value E d)]) ∧ DbOk idOf types val db' ∧
      AOk idOf types val n a' ∧ HOk idOf types val n h ∧ a'.node = some h ∧ (∀ h', a.node = some h' → h = h') := by
  have hv := value_ty (E := E) a ha hd
  obtain ⟨db', a', h, h1, h2, h3, h4, h5, h6⟩ := getAttribute_ok H hdb ha hv
  refine ⟨db', a', h, ?_, h2, h3, h4, h5, h6⟩
  unfold AnnImpl.set
  simp only [h1]
  rw [if_pos ⟨by rw [h4.2.1, hv], by rw [h4.2.1, ← hd]; exact hi⟩]

/-- objects keep their attribute -/
def Keep (s s' : St) : Prop :=
  ∀ (k : Nat) (a : AnnImpl) (h : Handle), s.anns[k]? = some a → a.node = some h → ∃ a' : AnnImpl, s'.anns[k]? = some a' ∧ a'.node = some h

theorem Keep.trans {s1 s2 s3 : St} (h1 : Keep s1 s2) (h2 : Keep s2 s3) : Keep s1 s3 := by
  intro k a h ha hn
  obtain ⟨a', x, y⟩ := h1 k a h ha hn
  exact h2 k a' h x y

/-- the attributes needing to be free come from the program -/
def From (idOf : Name → Nat) (op fr : List Name) (A : List Attr) : Prop := ∀ a ∈ A, ∃ n ∈ fr, n ∉ op ∧ a.id = idOf n

theorem From.ne (H : EnvOk E idOf types val) {op fr : List Name} {A : List Attr} {n : Name} (h : From idOf (n :: op) fr A) {a : Attr}
    (ha : a.id = idOf n) : ∀ b ∈ A, b.id ≠ a.id := by
  intro b hb e
  obtain ⟨m, _, h2, h3⟩ := h b hb
  have := H.inj m n (by rw [← h3, e, ha])
  exact h2 (by simp [this])

theorem From.mono {op op' fr fr' : List Name} {A : List Attr} (h : From idOf op fr A) (h1 : ∀ n ∈ fr, n ∈ fr') (h2 : ∀ n, n ∈ op' → n ∈ op) :
    From idOf op' fr' A := by
  intro a ha
  obtain ⟨m, x, y, z⟩ := h a ha
  exact ⟨m, h1 m x, fun hm => y (h2 m hm), z⟩

theorem SInv.setAnn {ls as : List Name} {s : St} (I : SInv idOf types val ls as s) {k : Nat} {n : Name} (hn : as[k]? = some n) {db : DB}
    {a : AnnImpl} (hdb : DbOk idOf types val db) (ha : AOk idOf types val n a) : SInv idOf types val ls as ⟨db, s.anns.set k a, s.loops⟩ := by
  refine ⟨hdb, I.loops, by simpa using I.anns.1, ?_⟩
  intro j b m hj hm
  simp only [List.getElem?_set] at hj
  split at hj
  · rename_i e; subst e
    split at hj
    · cases hj; rw [hn] at hm; cases hm; exact ha
    · cases hj
  · exact I.anns.2 j b m hj hm

theorem keep_setAnn {s : St} {k : Nat} {a a' : AnnImpl} {h : Handle} (db : DB) (ha : s.anns[k]? = some a) (hn : a'.node = some h)
    (hh : ∀ h', a.node = some h' → h = h') : Keep s ⟨db, s.anns.set k a', s.loops⟩ := by
  intro j b h' hj hb
  by_cases e : k = j
  · subst e
    rw [ha] at hj; cases hj
    have hlt : k < s.anns.length := (List.getElem?_eq_some_iff.1 ha).1
    exact ⟨a', by simp [hlt], by rw [hn, hh h' hb]⟩
  · exact ⟨b, by simpa [List.getElem?_set, e] using hj, hb⟩

theorem exec_ok (H : EnvOk E idOf types val) (th : Nat) (p : Prog) : ∀ {ls as op : List Name} {s : St}, Ok types val ls as op p →
    SInv idOf types val ls as s →
    ∃ A, SInv idOf types val ls as (exec E th p s).1 ∧ (exec E th p s).1.loops = s.loops ∧ Keep s (exec E th p s).1 ∧
      Scoped th (exec E th p s).2 A ∧ From idOf op (fresh val ls as p) A := by
  induction p with
  | skip => intro ls as op s _ I; exact ⟨[], I, rfl, fun k a h ha hn => ⟨a, ha, hn⟩, .nil, by simp [From]⟩
  | seq p q ih1 ih2 =>
    intro ls as op s h I
    obtain ⟨A, I1, l1, k1, s1, f1⟩ := ih1 h.1 I
    obtain ⟨B, I2, l2, k2, s2, f2⟩ := ih2 h.2 I1
    refine ⟨A ++ B, I2, l2.trans l1, k1.trans k2, .append s1 s2, ?_⟩
    intro a ha
    rcases List.mem_append.1 ha with ha | ha
    · exact (f1.mono (by simp [fresh]; tauto) (fun _ h => h)) a ha
    · exact (f2.mono (by simp [fresh]; tauto) (fun _ h => h)) a ha
  | region n p ih =>
    intro ls as op s h I
    obtain ⟨A, I1, l1, k1, s1, f1⟩ := ih h I
    exact ⟨A, I1, l1, k1, .wrap _ _ H.region.2 (f1.ne H H.region.1) s1, f1.mono (fun _ h => h) (by simp; tauto)⟩
  | loop n p ih =>
    intro ls as op s h I
    obtain ⟨db', l, c1, c2, c3, c4, c5⟩ := ctor_ok H I.db th n
    have I0 : SInv idOf types val (n :: ls) as ⟨db', s.anns, l :: s.loops⟩ := by
      refine ⟨c2, ⟨by simp [I.loops.1], ?_⟩, I.anns⟩
      intro k l' m hk hm
      cases k with
      | zero => simp at hk hm; subst hk; subst hm; exact c3
      | succ k => exact I.loops.2 k l' m (by simpa using hk) (by simpa using hm)
    obtain ⟨A, I1, l1, k1, s1, f1⟩ := ih h I0
    refine ⟨A, ?_⟩
    simp only [exec, c1]
    generalize exec E th p ⟨db', s.anns, l :: s.loops⟩ = r at *
    obtain ⟨s', o⟩ := r
    simp only at I1 l1 k1 s1 ⊢
    simp only [l1]
    have hd : (l.dtor E th).2 = [.endR th E.loop] := by simp [LoopImpl.dtor, LoopImpl.end_, c4, c5]
    rw [hd]
    refine ⟨⟨I1.db, ⟨I.loops.1, I.loops.2⟩, I1.anns⟩, (by first | rfl | simp), k1, ?_, f1.mono (fun _ h => h) (by simp; tauto)⟩
    have := Scoped.wrap (th := th) E.loop (.str n) H.loop.2 (f1.ne H H.loop.1) s1
    simpa using this
  | loopEnd n p q ih1 ih2 =>
    intro ls as op s h I
    obtain ⟨db', l, c1, c2, c3, c4, c5⟩ := ctor_ok H I.db th n
    have I0 : SInv idOf types val (n :: ls) as ⟨db', s.anns, l :: s.loops⟩ := by
      refine ⟨c2, ⟨by simp [I.loops.1], ?_⟩, I.anns⟩
      intro k l' m hk hm
      cases k with
      | zero => simp at hk hm; subst hk; subst hm; exact c3
      | succ k => exact I.loops.2 k l' m (by simpa using hk) (by simpa using hm)
    obtain ⟨A, I1, l1, k1, s1, f1⟩ := ih1 h.1 I0
    simp only [exec, c1]
    generalize exec E th p ⟨db', s.anns, l :: s.loops⟩ = r at *
    obtain ⟨s', o⟩ := r
    simp only at I1 l1 k1 s1 ⊢
    simp only [l1]
    have he : l.end_ E th = ({ l with level := 0 }, [.endR th E.loop]) := by simp [LoopImpl.end_, c4]
    rw [he]
    simp only
    have I2 : SInv idOf types val (n :: ls) as ⟨s'.db, s'.anns, { l with level := 0 } :: s.loops⟩ := by
      refine ⟨I1.db, ⟨by simp [I.loops.1], ?_⟩, I1.anns⟩
      intro k l' m hk hm
      cases k with
      | zero => simp at hk hm; subst hk; subst hm; exact c3
      | succ k => exact I.loops.2 k l' m (by simpa using hk) (by simpa using hm)
    obtain ⟨B, J1, m1, k2, s2, f2⟩ := ih2 h.2 I2
    generalize exec E th q ⟨s'.db, s'.anns, { l with level := 0 } :: s.loops⟩ = r at *
    obtain ⟨s'', o'⟩ := r
    simp only at J1 m1 k2 s2 ⊢
    simp only [m1]
    have hd : (LoopImpl.dtor E th { l with level := 0 }).2 = [] := by simp [LoopImpl.dtor, LoopImpl.end_, c5]
    rw [hd]
    refine ⟨A ++ B, ⟨J1.db, ⟨I.loops.1, I.loops.2⟩, J1.anns⟩, trivial, ?_, ?_, ?_⟩
    · intro k a h ha hn
      obtain ⟨a', x, y⟩ := k1 k a h ha hn
      exact k2 k a' h x y
    · have := Scoped.append (Scoped.wrap (th := th) E.loop (.str n) H.loop.2 (f1.ne H H.loop.1) s1) s2
      simpa using this
    · intro a ha
      rcases List.mem_append.1 ha with ha | ha
      · exact (f1.mono (by simp [fresh]; tauto) (by simp; tauto)) a ha
      · exact (f2.mono (by simp [fresh]; tauto) (fun _ h => h)) a ha
  | iter k i p ih =>
    intro ls as op s h I
    obtain ⟨n, h1, h2, h3⟩ := h
    obtain ⟨A, I1, l1, k1, s1, f1⟩ := ih h3 I
    have hlt : k < s.loops.length := by rw [I.loops.1]; exact (List.getElem?_eq_some_iff.1 h1).1
    have hl : s.loops[k]? = some s.loops[k] := List.getElem?_eq_getElem hlt
    have hid := I.loops.2 k _ n hl h1
    refine ⟨s.loops[k].iter :: A, ?_⟩
    simp only [exec, hl]
    refine ⟨I1, l1, k1, .wrapV _ _ (f1.ne H hid) s1, ?_⟩
    intro a ha
    rcases List.mem_cons.1 ha with rfl | ha
    · exact ⟨iterPrefix ++ n, by simp [fresh, h1], h2, hid⟩
    · exact (f1.mono (by simp [fresh]; tauto) (by simp; tauto)) a ha
  | declAnn n opt m p ih =>
    intro ls as op s h I
    have I0 : SInv idOf types val ls (n :: as) { s with anns := AnnImpl.ctor s.db n opt m :: s.anns } := by
      refine ⟨I.db, I.loops, ⟨by simp [I.anns.1], ?_⟩⟩
      intro k a m' hk hm
      cases k with
      | zero =>
        simp at hk hm; subst hk; subst hm
        refine ⟨rfl, h.1, ?_⟩
        intro h hh
        simp only [AnnImpl.ctor] at hh
        split at hh
        · exact I.db n h hh
        · cases hh
      | succ k => exact I.anns.2 k a m' (by simpa using hk) (by simpa using hm)
    obtain ⟨A, I1, l1, k1, s1, f1⟩ := ih h.2 I0
    simp only [exec]
    generalize exec E th p { s with anns := AnnImpl.ctor s.db n opt m :: s.anns } = r at *
    obtain ⟨s', o⟩ := r
    simp only at I1 l1 k1 s1 ⊢
    refine ⟨A, ⟨I1.db, I1.loops, ⟨by simp [I1.anns.1], ?_⟩⟩, l1, ?_, s1, f1⟩
    · intro k a m' hk hm
      exact I1.anns.2 (k + 1) a m' (by simpa using hk) (by simpa using hm)
    · intro k a h ha hn
      obtain ⟨a', x, y⟩ := k1 (k + 1) a h (by simpa using ha) hn
      exact ⟨a', by simpa using x, y⟩
  | annot k d p ih =>
    intro ls as op s h I
    obtain ⟨n, h1, h2, h3, h4, h5⟩ := h
    have hlt : k < s.anns.length := by rw [I.anns.1]; exact (List.getElem?_eq_some_iff.1 h1).1
    have hl : s.anns[k]? = some s.anns[k] := List.getElem?_eq_getElem hlt
    have ha := I.anns.2 k _ n hl h1
    obtain ⟨db', a', hd, b1, b2, b3, b4, b5, b6⟩ := begin_ok H I.db ha h2 h3 th
    obtain ⟨A, I1, l1, k1, s1, f1⟩ := ih h5 (I.setAnn h1 b2 b3)
    simp only [exec, hl, b1]
    obtain ⟨a'', x, y⟩ := k1 k a' hd (by simp [hlt]) b5
    generalize exec E th p ⟨db', s.anns.set k a', s.loops⟩ = r at *
    obtain ⟨s', o⟩ := r
    simp only at I1 l1 k1 s1 x ⊢
    have he : ((s'.anns[k]?).map (AnnImpl.end_ th)).getD [] = [.endR th hd.attr] := by simp [x, AnnImpl.end_, y]
    rw [he]
    by_cases hv : val n = true
    · refine ⟨hd.attr :: A, I1, l1, (keep_setAnn db' hl b5 b6).trans k1, ?_, ?_⟩
      · simpa using Scoped.wrapV hd.attr _ (f1.ne H b4.1) s1
      · intro b hb
        rcases List.mem_cons.1 hb with rfl | hb
        · exact ⟨n, by simp [fresh, h1, hv], h4 hv, b4.1⟩
        · exact (f1.mono (by simp only [fresh, List.mem_append]; tauto) (by simp; tauto)) b hb
    · refine ⟨A, I1, l1, (keep_setAnn db' hl b5 b6).trans k1, ?_, ?_⟩
      · simpa using Scoped.wrap hd.attr _ (b4.2.2 (by simpa using hv)) (f1.ne H b4.1) s1
      · exact f1.mono (by simp only [fresh, List.mem_append]; tauto) (by simp; tauto)
  | guard k d p ih =>
    intro ls as op s h I
    obtain ⟨n, h1, h2, h3, h4, h5⟩ := h
    have hlt : k < s.anns.length := by rw [I.anns.1]; exact (List.getElem?_eq_some_iff.1 h1).1
    have hl : s.anns[k]? = some s.anns[k] := List.getElem?_eq_getElem hlt
    have ha := I.anns.2 k _ n hl h1
    obtain ⟨db', a', hd, b1, b2, b3, b4, b5, b6⟩ := begin_ok H I.db ha h2 h3 th
    obtain ⟨A, I1, l1, k1, s1, f1⟩ := ih h5 (I.setAnn h1 b2 b3)
    simp only [exec, hl, b1]
    obtain ⟨a'', x, y⟩ := k1 k a' hd (by simp [hlt]) b5
    generalize exec E th p ⟨db', s.anns.set k a', s.loops⟩ = r at *
    obtain ⟨s', o⟩ := r
    simp only at I1 l1 k1 s1 x ⊢
    have he : ((s'.anns[k]?).map (AnnImpl.end_ th)).getD [] = [.endR th hd.attr] := by simp [x, AnnImpl.end_, y]
    rw [he]
    by_cases hv : val n = true
    · refine ⟨hd.attr :: A, I1, l1, (keep_setAnn db' hl b5 b6).trans k1, ?_, ?_⟩
      · simpa using Scoped.wrapV hd.attr _ (f1.ne H b4.1) s1
      · intro b hb
        rcases List.mem_cons.1 hb with rfl | hb
        · exact ⟨n, by simp [fresh, h1, hv], h4 hv, b4.1⟩
        · exact (f1.mono (by simp only [fresh, List.mem_append]; tauto) (by simp; tauto)) b hb
    · refine ⟨A, I1, l1, (keep_setAnn db' hl b5 b6).trans k1, ?_, ?_⟩
      · simpa using Scoped.wrap hd.attr _ (b4.2.2 (by simpa using hv)) (f1.ne H b4.1) s1
      · exact f1.mono (by simp only [fresh, List.mem_append]; tauto) (by simp; tauto)
  | guardSet k d p ih =>
    intro ls as op s h I
    obtain ⟨n, h1, h2, h3, h4, h5⟩ := h
    have hlt : k < s.anns.length := by rw [I.anns.1]; exact (List.getElem?_eq_some_iff.1 h1).1
    have hl : s.anns[k]? = some s.anns[k] := List.getElem?_eq_getElem hlt
    have ha := I.anns.2 k _ n hl h1
    obtain ⟨db', a', hd, b1, b2, b3, b4, b5, b6⟩ := set_ok H I.db ha h2 h3 th
    obtain ⟨A, I1, l1, k1, s1, f1⟩ := ih h5 (I.setAnn h1 b2 b3)
    simp only [exec, hl, b1]
    obtain ⟨a'', x, y⟩ := k1 k a' hd (by simp [hlt]) b5
    generalize exec E th p ⟨db', s.anns.set k a', s.loops⟩ = r at *
    obtain ⟨s', o⟩ := r
    simp only at I1 l1 k1 s1 x ⊢
    have he : ((s'.anns[k]?).map (AnnImpl.end_ th)).getD [] = [.endR th hd.attr] := by simp [x, AnnImpl.end_, y]
    rw [he]
    refine ⟨hd.attr :: A, I1, l1, (keep_setAnn db' hl b5 b6).trans k1, ?_, ?_⟩
    · simpa using Scoped.wrapSet hd.attr _ (f1.ne H b4.1) s1
    · intro b hb
      rcases List.mem_cons.1 hb with rfl | hb
      · exact ⟨n, by simp [fresh, h1], h4, b4.1⟩
      · exact (f1.mono (by simp only [fresh, List.mem_append]; tauto) (by simp; tauto)) b hb

theorem SInv.loopCtor {ls as : List Name} {s : St} (I : SInv idOf types val ls as s) {n : Name} {db : DB} {l : LoopImpl}
    (c2 : DbOk idOf types val db) (c3 : l.iter.id = idOf (iterPrefix ++ n)) : SInv idOf types val (n :: ls) as ⟨db, s.anns, l :: s.loops⟩ := by
  refine ⟨c2, ⟨by simp [I.loops.1], ?_⟩, I.anns⟩
  intro k l' m hk hm
  cases k with
  | zero => simp at hk hm; subst hk; subst hm; exact c3
  | succ k => exact I.loops.2 k l' m (by simpa using hk) (by simpa using hm)

theorem at_ok (H : EnvOk E idOf types val) (th : Nat) {p : Prog} {s : St} {pre : List Op} {stk : List (Attr × Val)}
    (h : At E th p s pre stk) : ∀ {ls as op : List Name}, Ok types val ls as op p → SInv idOf types val ls as s →
    ∃ A, Inside th pre stk A ∧ From idOf op (fresh val ls as p) A := by
  induction h with
  | start => intro ls as op _ _; exact ⟨[], .here .nil, by simp [From]⟩
  | @finish p s =>
    intro ls as op ho I
    obtain ⟨A, _, _, _, h1, h2⟩ := exec_ok H th p ho I
    exact ⟨A, .here h1, h2⟩
  | seqL _ ih =>
    intro ls as op ho I
    obtain ⟨A, h1, h2⟩ := ih ho.1 I
    exact ⟨A, h1, h2.mono (by simp [fresh]; tauto) (fun _ h => h)⟩
  | @seqR p q s pre stk _ ih =>
    intro ls as op ho I
    obtain ⟨A, I1, _, _, s1, f1⟩ := exec_ok H th p ho.1 I
    obtain ⟨B, h1, h2⟩ := ih ho.2 I1
    refine ⟨A ++ B, .after s1 h1, ?_⟩
    intro a ha
    rcases List.mem_append.1 ha with ha | ha
    · exact (f1.mono (by simp [fresh]; tauto) (fun _ h => h)) a ha
    · exact (h2.mono (by simp [fresh]; tauto) (fun _ h => h)) a ha
  | region _ ih =>
    intro ls as op ho I
    obtain ⟨A, h1, h2⟩ := ih ho I
    exact ⟨A, .begin _ _ (h2.ne H H.region.1) h1, h2.mono (fun _ h => h) (by simp; tauto)⟩
  | @loop n p s pre stk db l o hc _ ih =>
    intro ls as op ho I
    obtain ⟨db', l', c1, c2, c3, c4, c5⟩ := ctor_ok H I.db th n
    rw [c1] at hc
    simp only [Prod.mk.injEq] at hc
    obtain ⟨rfl, rfl, rfl⟩ := hc
    obtain ⟨A, h1, h2⟩ := ih ho (I.loopCtor c2 c3)
    exact ⟨A, .begin _ _ (h2.ne H H.loop.1) h1, h2.mono (fun _ h => h) (by simp; tauto)⟩
  | @loopEnd n p q s pre stk db l o hc _ ih =>
    intro ls as op ho I
    obtain ⟨db', l', c1, c2, c3, c4, c5⟩ := ctor_ok H I.db th n
    rw [c1] at hc
    simp only [Prod.mk.injEq] at hc
    obtain ⟨rfl, rfl, rfl⟩ := hc
    obtain ⟨A, h1, h2⟩ := ih ho.1 (I.loopCtor c2 c3)
    exact ⟨A, .begin _ _ (h2.ne H H.loop.1) h1, h2.mono (by simp [fresh]; tauto) (by simp; tauto)⟩
  | @iter k i p s pre stk l hl _ ih =>
    intro ls as op ho I
    obtain ⟨n, h1, h2, h3⟩ := ho
    obtain ⟨A, g1, g2⟩ := ih h3 I
    exact ⟨A, .begin _ _ (g2.ne H (I.loops.2 k _ n hl h1)) g1, g2.mono (by simp [fresh]; tauto) (by simp; tauto)⟩
  | @declAnn n opt m p s pre stk _ ih =>
    intro ls as op ho I
    refine ih ho.2 ⟨I.db, I.loops, ⟨by simp [I.anns.1], ?_⟩⟩
    intro k a m' hk hm
    cases k with
    | zero =>
      simp at hk hm; subst hk; subst hm
      refine ⟨rfl, ho.1, ?_⟩
      intro h hh
      simp only [AnnImpl.ctor] at hh
      split at hh
      · exact I.db n h hh
      · cases hh
    | succ k => exact I.anns.2 k a m' (by simpa using hk) (by simpa using hm)
  | @annot k d p s pre stk a a' db h v hl hb _ ih =>
    intro ls as op ho I
    obtain ⟨n, h1, h2, h3, h4, h5⟩ := ho
    obtain ⟨db', a1, hd, b1, b2, b3, b4, b5, b6⟩ := begin_ok H I.db (I.anns.2 k _ n hl h1) h2 h3 th
    rw [b1] at hb
    simp only [Prod.mk.injEq, List.cons.injEq, Op.begin.injEq, and_true, true_and] at hb
    obtain ⟨rfl, rfl, rfl, rfl⟩ := hb
    obtain ⟨A, g1, g2⟩ := ih h5 (I.setAnn h1 b2 b3)
    exact ⟨A, .begin _ _ (g2.ne H b4.1) g1, g2.mono (by simp only [fresh, List.mem_append]; tauto) (by simp; tauto)⟩
  | @guard k d p s pre stk a a' db h v hl hb _ ih =>
    intro ls as op ho I
    obtain ⟨n, h1, h2, h3, h4, h5⟩ := ho
    obtain ⟨db', a1, hd, b1, b2, b3, b4, b5, b6⟩ := begin_ok H I.db (I.anns.2 k _ n hl h1) h2 h3 th
    rw [b1] at hb
    simp only [Prod.mk.injEq, List.cons.injEq, Op.begin.injEq, and_true, true_and] at hb
    obtain ⟨rfl, rfl, rfl, rfl⟩ := hb
    obtain ⟨A, g1, g2⟩ := ih h5 (I.setAnn h1 b2 b3)
    exact ⟨A, .begin _ _ (g2.ne H b4.1) g1, g2.mono (by simp only [fresh, List.mem_append]; tauto) (by simp; tauto)⟩
  | @guardSet k d p s pre stk a a' db h v hl hb _ ih =>
    intro ls as op ho I
    obtain ⟨n, h1, h2, h3, h4, h5⟩ := ho
    obtain ⟨db', a1, hd, b1, b2, b3, b4, b5, b6⟩ := set_ok H I.db (I.anns.2 k _ n hl h1) h2 h3 th
    rw [b1] at hb
    simp only [Prod.mk.injEq, List.cons.injEq, Op.set.injEq, and_true, true_and] at hb
    obtain ⟨rfl, rfl, rfl, rfl⟩ := hb
    obtain ⟨A, g1, g2⟩ := ih h5 (I.setAnn h1 b2 b3)
    refine ⟨hd.attr :: A, .set _ _ (g2.ne H b4.1) g1, ?_⟩
    intro b hb
    rcases List.mem_cons.1 hb with rfl | hb
    · exact ⟨n, by simp [fresh, h1], h4, b4.1⟩
    · exact (g2.mono (by simp only [fresh, List.mem_append]; tauto) (by simp; tauto)) b hb

end
end Verif.Annot
