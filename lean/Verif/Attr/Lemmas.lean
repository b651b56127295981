import Verif.Attr.Spec
import Verif.Runtime.AbsLemmas
namespace Verif.AttrReg
open MTree RT

theorem hasUp_spec {t : Tree} (I : Inv t) {a : Nat} {v : Val} (hv : v ≠ Val.empty) {fuel : Nat} {nd : Ptr} {l : PathL}
    (hn : Path t nd l) (hf : l.length + 1 < fuel) : hasUp t a v fuel (some nd) = decide ((a, v) ∈ l) := by
  induction fuel generalizing nd l with
  | zero => omega
  | succ fuel ih =>
    rcases snoc_cases l with rfl | ⟨l', x, w, rfl⟩
    · have : nd = .root := hn.inj I .root
      subst this
      unfold hasUp
      rw [if_neg (fun h => hv h.2.symm)]
      cases fuel with
      | zero => omega
      | succ f => rfl
    · obtain ⟨q, h1, h2, h3, h4⟩ := parentOf_path hn
      unfold hasUp
      rw [h3, h4, h1]
      by_cases hx : x = a ∧ w = v
      · rw [if_pos hx]; simp [hx]
      · rw [if_neg hx, ih h2 (by simp at hf; omega)]
        congr 1
        simp only [List.mem_append, List.mem_singleton, Prod.mk.injEq, eq_iff_iff]
        constructor
        · exact .inl
        · rintro (h | ⟨h1, h2⟩)
          · exact h
          · exact absurd ⟨h1.symm, h2.symm⟩ hx

theorem fuelOf_path {t : Tree} (I : Inv t) {p : Ptr} {l : PathL} (h : Path t p l) : l.length + 1 < t.fuelOf (some p) := by
  have hr := h.rank I
  simp [Tree.fuelOf, hr]

theorem ofBool_ne : Val.ofBool true ≠ Val.empty := by decide

theorem not_mem_typePath {a : Nat} {v : Val} {ty : AttrType} (h : a ≠ typeAttr) : (a, v) ∉ typePath ty := by
  unfold typePath; split <;> simp [h]

theorem finalProp_eq {cfg : Config} {t : Tree} (I : Inv t) (hg : cfg.aggId ≠ typeAttr) {r : Req} {node : Option Ptr}
    (h : PathO t node (typePath r.ty ++ r.metas)) : finalProp cfg t r node = wantProp cfg r := by
  unfold finalProp wantProp
  cases node with
  | none =>
    have h' : [] = typePath r.ty ++ r.metas := Path.fun Path.root h
    have : r.metas = [] := (List.append_eq_nil_iff.1 h'.symm).2
    rw [this]
    simp only [List.not_mem_nil, if_false]
    cases t.fuelOf none <;> simp [hasUp]
  | some n =>
    replace h : Path t n _ := h
    rw [hasUp_spec I ofBool_ne h (fuelOf_path I h)]
    have e : (⟨.bool, .inr 1⟩ : Val) = Val.ofBool true := rfl
    rw [e]
    simp [not_mem_typePath hg]

/-- bootstrap nodes are in place -/
def Boot (t : Tree) : Prop := ∀ i r, bootNode i = some r → t.node 0 i = some r

theorem Boot.ext {t t' : Tree} (x : Ext t t') (h : Boot t) : Boot t' := fun i r hr => x.node _ _ _ (h i r hr)

theorem boot_path {t : Tree} (h : Boot t) {ty : AttrType} : PathO t (typeNode ty) (typePath ty) := by
  have mk : ∀ i v, bootNode i = some ⟨i, 9, v, .root, 1⟩ → Path t (.cell 0 i) [(9, v)] := by
    intro i v hb
    exact Path.cell (l := []) (r := ⟨i, 9, v, .root, 1⟩) (h i _ hb) Path.root
  cases ty with
  | inv => exact Path.root
  | usr => exact mk 0 _ rfl
  | int => exact mk 1 _ rfl
  | uint => exact mk 2 _ rfl
  | string => exact mk 3 _ rfl
  | addr => exact mk 4 _ rfl
  | double => exact mk 5 _ rfl
  | bool => exact mk 6 _ rfl
  | type => exact mk 7 _ rfl
  | ptr => exact mk 11 _ rfl

/-- contents of the attributes known at start-up -/
def BootAttr (n : Name) (p : Ptr) : Prop :=
  (Val.str n = Val.ofString "cali.attribute.name" ∧ p = .cell 0 8) ∨ (Val.str n = Val.ofString "cali.attribute.type" ∧ p = .cell 0 9) ∨
  (Val.str n = Val.ofString "cali.attribute.prop" ∧ p = .cell 0 10)

def PcOk (cfg : Config) (t : Tree) (hist : List Req) : Pc → Prop
  | .idle => True
  | .metas r todo node => r ∈ hist ∧ ∃ pre, r.metas = pre ++ todo ∧ PathO t node (typePath r.ty ++ pre)
  | .prop r node => r ∈ hist ∧ PathO t node (typePath r.ty ++ r.metas)
  | .name r node => r ∈ hist ∧ PathO t node (typePath r.ty ++ r.metas ++ [(propAttr, Val.ofInt (wantProp cfg r))])
  | .insert r node => r ∈ hist ∧ ∃ p, node = some p ∧ Path t p (attrPath cfg r)
  | .done _ _ => True

structure RegInv (cfg : Config) (s : State) : Prop where
  agg : cfg.aggId ≠ typeAttr
  inv : Inv s.tree
  boot : Boot s.tree
  done : ∀ th r a, s.pc th = .done r a → s.map r.name = some a
  pc : s.tree.fails = 0 → ∀ th, PcOk cfg s.tree s.hist (s.pc th)
  map : s.tree.fails = 0 → ∀ n a, s.map n = some a → ∃ p, a = some p ∧
    (BootAttr n p ∨ ∃ r ∈ s.hist, r.name = n ∧ Path s.tree p (attrPath cfg r))

theorem PcOk.mono {cfg : Config} {t t' : Tree} (x : Ext t t') {h h' : List Req} (hs : ∀ r ∈ h, r ∈ h') {pc : Pc} (k : PcOk cfg t h pc) :
    PcOk cfg t' h' pc := by
  cases pc with
  | idle => trivial
  | metas r todo node => obtain ⟨h1, pre, h2, h3⟩ := k; exact ⟨hs _ h1, pre, h2, x.path h3⟩
  | prop r node => exact ⟨hs _ k.1, x.path k.2⟩
  | name r node => exact ⟨hs _ k.1, x.path k.2⟩
  | insert r node => obtain ⟨h1, p, h2, h3⟩ := k; exact ⟨hs _ h1, p, h2, x.path h3⟩
  | done r a => trivial

theorem map_mono {cfg : Config} {t t' : Tree} (x : Ext t t') {h h' : List Req} (hs : ∀ r ∈ h, r ∈ h') {n : Name} {a : Option Ptr}
    (k : ∃ p, a = some p ∧ (BootAttr n p ∨ ∃ r ∈ h, r.name = n ∧ Path t p (attrPath cfg r))) :
    ∃ p, a = some p ∧ (BootAttr n p ∨ ∃ r ∈ h', r.name = n ∧ Path t' p (attrPath cfg r)) := by
  obtain ⟨p, h1, h2⟩ := k
  refine ⟨p, h1, ?_⟩
  rcases h2 with h2 | ⟨r, h2, h3, h4⟩
  · exact .inl h2
  · exact .inr ⟨r, hs _ h2, h3, x.path h4⟩

theorem upd_cases {β : Type} (f : Nat → β) (k : Nat) (x : β) (j : Nat) : (j = k ∧ BB.upd f k x j = x) ∨ (j ≠ k ∧ BB.upd f k x j = f j) := by
  unfold BB.upd
  by_cases h : j = k
  · exact .inl ⟨h, if_pos h⟩
  · exact .inr ⟨h, if_neg h⟩

/-- a step that only changes the tree (extending it) and one pc -/
theorem RegInv.upd {cfg : Config} {s : State} (J : RegInv cfg s) {t' : Tree} (I' : Inv t') (x : Ext s.tree t') (th : Nat) (pc' : Pc)
    (hd : ∀ r a, pc' = .done r a → s.map r.name = some a)
    (hp : t'.fails = 0 → s.tree.fails = 0 → PcOk cfg t' s.hist pc') :
    RegInv cfg { s with tree := t', pc := BB.upd s.pc th pc' } := by
  have hf : t'.fails = 0 → s.tree.fails = 0 := fun h => by have := x.fails; omega
  refine ⟨J.agg, I', J.boot.ext x, ?_, ?_, ?_⟩
  · intro th' r a h
    rcases upd_cases s.pc th pc' th' with ⟨_, e⟩ | ⟨_, e⟩
    · exact hd r a (by rw [← e]; exact h)
    · exact J.done th' r a (by rw [← e]; exact h)
  · intro hz th'
    show PcOk cfg t' s.hist (BB.upd s.pc th pc' th')
    rcases upd_cases s.pc th pc' th' with ⟨_, e⟩ | ⟨_, e⟩
    · rw [e]; exact hp hz (hf hz)
    · rw [e]; exact (J.pc (hf hz) th').mono x (fun _ h => h)
  · intro hz n a h
    exact map_mono x (fun _ h => h) (J.map (hf hz) n a h)

theorem getChild_step {t : Tree} (I : Inv t) (th a : Nat) (v : Val) (p : Option Ptr) (hl : Live t (p.getD .root)) :
    Inv (getChild t th a v p).1 ∧ Ext t (getChild t th a v p).1 ∧
    (∀ l, PathO t p l → (getChild t th a v p).1.fails = t.fails → ∃ q, (getChild t th a v p).2 = some q ∧
      Path (getChild t th a v p).1 q (l ++ [(a, v)])) ∧
    Live (getChild t th a v p).1 ((getChild t th a v p).2.getD .root) := by
  obtain ⟨l, hl⟩ := Live.path I hl
  have G := getChild_spec I th a v hl
  refine ⟨G.inv, G.ext, fun l' hl' hf => ?_, Live.getD G.live⟩
  have : l' = l := Path.fun hl' hl
  subst this
  exact G.ok hf

def NodeLive (t : Tree) : Pc → Prop
  | .metas _ _ n | .prop _ n | .name _ n | .insert _ n => Live t (n.getD .root)
  | _ => True

theorem NodeLive.ext {t t' : Tree} (x : Ext t t') {pc : Pc} (h : NodeLive t pc) : NodeLive t' pc := by
  cases pc <;> first | trivial | exact x.live h

theorem step_inv {cfg : Config} {s : State} (J : RegInv cfg s) (L : ∀ th, NodeLive s.tree (s.pc th)) (th : Nat) (r : Req) :
    RegInv cfg (stepThread cfg s th r) ∧ (∀ th', NodeLive (stepThread cfg s th r).tree ((stepThread cfg s th r).pc th')) := by
  have hL := L th
  have J' := J.pc
  -- liveness bookkeeping
  have live : ∀ {t' : Tree} {pc' : Pc}, Ext s.tree t' → NodeLive t' pc' → ∀ th', NodeLive t' (BB.upd s.pc th pc' th') := by
    intro t' pc' x h th'
    rcases upd_cases s.pc th pc' th' with ⟨_, e⟩ | ⟨_, e⟩
    · rw [e]; exact h
    · rw [e]; exact (L th').ext x
  have start : ∀ (pc0 : Pc), s.pc th = pc0 → (pc0 = .idle ∨ ∃ r a, pc0 = .done r a) →
      RegInv cfg (match s.map r.name with
        | some a => { s with pc := BB.upd s.pc th (.done r a), hist := s.hist ++ [r] }
        | none => { s with pc := BB.upd s.pc th (.metas r r.metas (typeNode r.ty)), hist := s.hist ++ [r] }) ∧
      ∀ th', NodeLive (match s.map r.name with
        | some a => ({ s with pc := BB.upd s.pc th (.done r a), hist := s.hist ++ [r] } : State)
        | none => { s with pc := BB.upd s.pc th (.metas r r.metas (typeNode r.ty)), hist := s.hist ++ [r] }).tree
        ((match s.map r.name with
        | some a => ({ s with pc := BB.upd s.pc th (.done r a), hist := s.hist ++ [r] } : State)
        | none => { s with pc := BB.upd s.pc th (.metas r r.metas (typeNode r.ty)), hist := s.hist ++ [r] }).pc th') := by
    intro _ _ _
    have J1 : RegInv cfg { s with hist := s.hist ++ [r] } :=
      ⟨J.agg, J.inv, J.boot, J.done, fun hz th => (J.pc hz th).mono (Ext.refl _) (by simp; tauto),
        fun hz n a h => map_mono (Ext.refl _) (by simp; tauto) (J.map hz n a h)⟩
    cases hm : s.map r.name with
    | some a =>
      refine ⟨J1.upd J.inv (Ext.refl _) th (.done r a) ?_ (fun _ _ => trivial), live (Ext.refl _) trivial⟩
      rintro r' a' h; cases h; exact hm
    | none =>
      refine ⟨J1.upd J.inv (Ext.refl _) th _ (by simp) (fun _ _ => ⟨by simp, [], by simp, by simpa using boot_path J.boot⟩),
        live (Ext.refl _) ?_⟩
      exact Path.live (boot_path J.boot)
  unfold stepThread
  cases hpc : s.pc th with
  | idle => exact start _ hpc (.inl rfl)
  | done r' a => exact start _ hpc (.inr ⟨_, _, rfl⟩)
  | metas r todo node =>
    rw [hpc] at hL
    cases todo with
    | nil =>
      refine ⟨J.upd J.inv (Ext.refl _) th _ (by simp) (fun _ hz => ?_), live (Ext.refl _) hL⟩
      have := J' hz th
      rw [hpc] at this
      obtain ⟨h1, pre, h2, h3⟩ := this
      simp at h2; subst h2; exact ⟨h1, h3⟩
    | cons av todo =>
      obtain ⟨a, v⟩ := av
      obtain ⟨I', x, hok, hl⟩ := getChild_step J.inv th a v node hL
      simp only
      refine ⟨J.upd I' x th _ (by simp) (fun hz' hz => ?_), live x hl⟩
      have := J' hz th
      rw [hpc] at this
      obtain ⟨h1, pre, h2, h3⟩ := this
      obtain ⟨q, h4, h5⟩ := hok _ h3 (by rw [hz', hz])
      refine ⟨h1, pre ++ [(a, v)], by simp [h2], ?_⟩
      rw [h4, ← List.append_assoc]; exact h5
  | prop r node =>
    rw [hpc] at hL
    obtain ⟨I', x, hok, hl⟩ := getChild_step J.inv th propAttr (Val.ofInt (finalProp cfg s.tree r node)) node hL
    simp only
    refine ⟨J.upd I' x th _ (by simp) (fun hz' hz => ?_), live x hl⟩
    have := J' hz th
    rw [hpc] at this
    obtain ⟨h1, h3⟩ := this
    obtain ⟨q, h4, h5⟩ := hok _ h3 (by rw [hz', hz])
    refine ⟨h1, ?_⟩
    rw [h4, ← finalProp_eq J.inv J.agg h3]; exact h5
  | name r node =>
    rw [hpc] at hL
    obtain ⟨I', x, hok, hl⟩ := getChild_step J.inv th nameAttr (Val.str r.name) node hL
    simp only
    refine ⟨J.upd I' x th _ (by simp) (fun hz' hz => ?_), live x hl⟩
    have := J' hz th
    rw [hpc] at this
    obtain ⟨h1, h3⟩ := this
    obtain ⟨q, h4, h5⟩ := hok _ h3 (by rw [hz', hz])
    exact ⟨h1, q, h4, h5⟩
  | insert r node =>
    rw [hpc] at hL
    simp only
    cases hm : s.map r.name with
    | some a =>
      refine ⟨J.upd J.inv (Ext.refl _) th _ ?_ (fun _ _ => trivial), live (Ext.refl _) trivial⟩
      rintro r' a' h; cases h; exact hm
    | none =>
      refine ⟨⟨J.agg, J.inv, J.boot, ?_, ?_, ?_⟩, live (Ext.refl _) trivial⟩
      · intro th' r' a' h
        rcases upd_cases s.pc th (.done r (makeAttribute s.tree node)) th' with ⟨_, e⟩ | ⟨_, e⟩
        · simp only at h ⊢
          rw [e] at h; cases h
          simp [updN]
        · simp only at h ⊢
          rw [e] at h
          have := J.done th' r' a' h
          have hne : r'.name ≠ r.name := by intro e; rw [e, hm] at this; simp at this
          simp [updN, hne, this]
      · intro hz th'
        show PcOk cfg s.tree s.hist (BB.upd s.pc th _ th')
        rcases upd_cases s.pc th (.done r (makeAttribute s.tree node)) th' with ⟨_, e⟩ | ⟨_, e⟩
        · rw [e]; trivial
        · rw [e]; exact J.pc hz th'
      · intro hz n a h
        simp only [updN] at h
        split at h
        · rename_i e
          subst e
          cases h
          have := J' hz th
          rw [hpc] at this
          obtain ⟨h1, p, rfl, h3⟩ := this
          refine ⟨p, ?_, .inr ⟨r, h1, rfl, h3⟩⟩
          obtain ⟨_, _, _, hat, _⟩ := parentOf_path (show Path s.tree p ((typePath r.ty ++ r.metas ++ [(propAttr, Val.ofInt (wantProp cfg r))]) ++ [(nameAttr, Val.str r.name)]) from h3)
          simp [makeAttribute, hat]
        · exact J.map hz n a h

theorem Reach.inv {cfg : Config} {s : State} (h : Reach cfg s) : RegInv cfg s ∧ ∀ th, NodeLive s.tree (s.pc th) := by
  induction h with
  | init h1 h2 h3 =>
    refine ⟨⟨h3, Inv.init h1 h2, ?_, ?_, ?_, ?_⟩, fun _ => trivial⟩
    · intro i r hr; exact hr
    · intro th r a h; simp [AttrReg.init] at h
    · intro _ th; trivial
    · intro _ n a h
      simp only [AttrReg.init] at h
      split at h
      · cases h; exact ⟨_, rfl, .inl (.inl ⟨by assumption, rfl⟩)⟩
      · split at h
        · cases h; exact ⟨_, rfl, .inl (.inr (.inl ⟨by assumption, rfl⟩))⟩
        · split at h
          · cases h; exact ⟨_, rfl, .inl (.inr (.inr ⟨by assumption, rfl⟩))⟩
          · simp at h
  | step th r _ ih => exact step_inv ih.1 ih.2 th r
  | @tree s q _ hq hb ih =>
    obtain ⟨J, L⟩ := ih
    obtain ⟨I', x⟩ := tree_step_ext J.inv hq hb
    have hf : (MTree.step s.tree q).1.fails = 0 → s.tree.fails = 0 := fun h => by have := x.fails; omega
    refine ⟨⟨J.agg, I', J.boot.ext x, J.done, fun hz th => (J.pc (hf hz) th).mono x (fun _ h => h),
      fun hz n a h => map_mono x (fun _ h => h) (J.map (hf hz) n a h)⟩, fun th => (L th).ext x⟩

end Verif.AttrReg
