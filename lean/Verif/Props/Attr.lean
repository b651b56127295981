import Verif.Attr.Lemmas
import Mathlib.Tactic.IntervalCases
/-!
# C17, C18: attribute creation
-/
namespace Verif.AttrReg
open MTree RT

/-- C17: whatever the interleaving, every returned `create_attribute` call returned what the registry holds for the name; so all
calls for one name return the same attribute, and so does any later look-up. -/
theorem C17_one_attribute_per_name {cfg : Config} {s : State} (h : Reach cfg s) {th : Nat} {r : Req} {a : Option Ptr}
    (hd : s.pc th = .done r a) :
    lookupName s r.name = a ∧ ∀ th' r' a', s.pc th' = .done r' a' → r'.name = r.name → a' = a := by
  obtain ⟨J, _⟩ := h.inv
  have h1 := J.done th r a hd
  refine ⟨by simp [lookupName, h1], fun th' r' a' hd' e => ?_⟩
  have h2 := J.done th' r' a' hd'
  rw [e, h1] at h2
  simpa using h2.symm

/-- C17: a registered name is never re-bound, by any step of any thread. -/
theorem C17_never_rebound (cfg : Config) (s : State) (th : Nat) (r : Req) {n : Name} {a : Option Ptr} (h : s.map n = some a) :
    (stepThread cfg s th r).map n = some a := by
  unfold stepThread
  split
  · split <;> exact h
  · split <;> exact h
  · exact h
  · exact h
  · exact h
  · exact h
  · split
    · exact h
    · rename_i r' _ _ _ hm
      have : n ≠ r'.name := by rintro rfl; rw [hm] at h; simp at h
      simp [updN, this, h]

/-- C17: a thread that has finished has the name registered for good: any number of further steps of any threads. -/
theorem C17_registered_forever (cfg : Config) (s : State) (steps : List (Nat × Req)) {n : Name} {a : Option Ptr} (h : s.map n = some a) :
    (steps.foldl (fun s x => stepThread cfg s x.1 x.2) s).map n = some a := by
  induction steps generalizing s with
  | nil => exact h
  | cons x xs ih => exact ih _ (C17_never_rebound cfg s x.1 x.2 h)

/-- value, type and properties read from an attribute node with the contents of a request -/
theorem attr_reads {cfg : Config} {t : Tree} (I : Inv t) {p : Ptr} {r : Req} (h : Path t p (attrPath cfg r)) :
    attrName t p = some (Val.str r.name) ∧ attrProp t p = wantProp cfg r ∧
    ((∀ e ∈ r.metas, e.1 ≠ typeAttr) → r.ty ≠ .inv → attrType t p = some (Val.ofType r.ty)) := by
  have hfu := fuelOf_path I h
  have key : ∀ {a : Nat} (_ : a ≠ invId) {l₁ l₂ : PathL} {v : Val}, attrPath cfg r = l₁ ++ [(a, v)] ++ l₂ → (∀ e ∈ l₂, e.1 ≠ a) →
      ∃ q, findUp t a (t.fuelOf (some p)) (some p) = some q ∧ t.valOf q = v := by
    intro a ha l₁ l₂ v he hl
    rcases findUp_spec I ha h hfu with ⟨_, k⟩ | ⟨m₁, w, m₂, q, k1, k2, k3, k4⟩
    · exact absurd rfl (k (a, v) (by rw [he]; simp))
    · refine ⟨q, k3, ?_⟩
      obtain ⟨_, _, _, _, hv⟩ := parentOf_path k4
      rw [hv]
      have e1 := innermost_split (l₁ := m₁) (v := w) k2
      have e2 := innermost_split (l₁ := l₁) (v := v) hl
      rw [← k1, he, e2] at e1
      simpa using e1.symm
  refine ⟨?_, ?_, fun hm hty => ?_⟩
  · obtain ⟨q, h1, h2⟩ := key (a := nameAttr) (by decide) (l₁ := typePath r.ty ++ r.metas ++ [(propAttr, Val.ofInt (wantProp cfg r))])
      (l₂ := []) (v := Val.str r.name) (by simp [attrPath]) (by simp)
    simp [attrName, h1, h2]
  · obtain ⟨q, h1, h2⟩ := key (a := propAttr) (by decide) (l₁ := typePath r.ty ++ r.metas)
      (l₂ := [(nameAttr, Val.str r.name)]) (v := Val.ofInt (wantProp cfg r)) (by simp [attrPath]) (by simp [nameAttr, propAttr])
    simp only [attrProp, h1, h2, Val.ofInt]
    apply BitVec.eq_of_getLsbD_eq
    intro i hi
    rw [BitVec.getLsbD_setWidth, BitVec.getLsbD_signExtend]; simp [hi, show i < 64 by omega]
  · obtain ⟨q, h1, h2⟩ := key (a := typeAttr) (by decide) (l₁ := [])
      (l₂ := r.metas ++ [(propAttr, Val.ofInt (wantProp cfg r))] ++ [(nameAttr, Val.str r.name)]) (v := Val.ofType r.ty)
      (by simp [attrPath, typePath, hty]) (by
        intro e he
        simp only [List.mem_append, List.mem_singleton] at he
        rcases he with (he | rfl) | rfl
        · exact hm e he
        · simp [propAttr, typeAttr]
        · simp [nameAttr, typeAttr])
    simp [attrType, h1, h2]

/-- C17, C18: unless the context tree ran out of space, a returned `create_attribute(name, …)` call returned a built-in attribute of
that name, or an attribute whose name is `name` and whose type, metadata and (normalised) properties are those of exactly one of the
calls for that name. -/
theorem C17_contents_of_one_caller {cfg : Config} {s : State} (h : Reach cfg s) (hf : s.tree.fails = 0) {th : Nat} {r : Req}
    {a : Option Ptr} (hd : s.pc th = .done r a) :
    ∃ p, a = some p ∧ (BootAttr r.name p ∨ ∃ r' ∈ s.hist, r'.name = r.name ∧ Path s.tree p (attrPath cfg r') ∧
      attrName s.tree p = some (Val.str r.name) ∧ attrProp s.tree p = wantProp cfg r' ∧
      ((∀ e ∈ r'.metas, e.1 ≠ typeAttr) → r'.ty ≠ .inv → attrType s.tree p = some (Val.ofType r'.ty))) := by
  obtain ⟨J, _⟩ := h.inv
  obtain ⟨p, h1, h2⟩ := J.map hf r.name a (J.done th r a hd)
  refine ⟨p, h1, ?_⟩
  rcases h2 with h2 | ⟨r', h2, h3, h4⟩
  · exact .inl h2
  · have := attr_reads J.inv h4
    rw [h3] at this
    exact .inr ⟨r', h2, h3, h4, this.1, this.2.1, this.2.2⟩

/-- C17: different names never share an attribute. -/
theorem C17_names_distinct {cfg : Config} {s : State} (h : Reach cfg s) (hf : s.tree.fails = 0) {n₁ n₂ : Name} {p : Ptr}
    (h1 : s.map n₁ = some (some p)) (h2 : s.map n₂ = some (some p)) (hb : ¬ BootAttr n₁ p) (hb' : ¬ BootAttr n₂ p) : n₁ = n₂ := by
  obtain ⟨J, _⟩ := h.inv
  obtain ⟨p1, e1, k1⟩ := J.map hf _ _ h1
  obtain ⟨p2, e2, k2⟩ := J.map hf _ _ h2
  cases e1; cases e2
  rcases k1 with k1 | ⟨r1, _, rfl, k1⟩
  · exact absurd k1 hb
  rcases k2 with k2 | ⟨r2, _, rfl, k2⟩
  · exact absurd k2 hb'
  have := (attr_reads J.inv k1).1
  rw [(attr_reads J.inv k2).1] at this
  simpa [Val.str] using this.symm

/-! ### C18: the property word -/

/-- what the user (or the preset, which wins) asked for -/
def asked (cfg : Config) (r : Req) : BitVec 32 := (cfg.preset r.name).getD r.prop

theorem norm_global {cfg : Config} {r : Req} (hg : asked cfg r &&& pGlobal ≠ 0) :
    normProp cfg r = ((asked cfg r &&& ~~~pScope) ||| scopeProcess) ||| pUnaligned := by
  have h : ∀ x : BitVec 32, (((x &&& ~~~pScope) ||| scopeProcess) ||| pUnaligned) &&& pScope ≠ 0 := by
    intro x h
    have := congrArg (fun x => x.getLsbD 2) h
    simp [scopeProcess, pUnaligned, pScope] at this
  unfold normProp
  simp only
  rw [if_pos (show (cfg.preset r.name).getD r.prop &&& pGlobal ≠ 0 from hg), if_neg (h _)]
  rfl

theorem norm_default {cfg : Config} {r : Req} (hg : asked cfg r &&& pGlobal = 0) (hs : asked cfg r &&& pScope = 0) :
    normProp cfg r = asked cfg r ||| cfg.defScope := by
  have e : (cfg.preset r.name).getD r.prop = asked cfg r := rfl
  unfold normProp
  simp only [e, hg, hs]
  simp
  exact fun h => absurd hs h

theorem norm_keep {cfg : Config} {r : Req} (hg : asked cfg r &&& pGlobal = 0) (hs : asked cfg r &&& pScope ≠ 0) :
    normProp cfg r = asked cfg r := by
  have e : (cfg.preset r.name).getD r.prop = asked cfg r := rfl
  unfold normProp
  simp only [e, hg]
  simp
  exact fun h => absurd h hs

/-- bit-by-bit comparison of 32-bit words -/
macro "bits32" : tactic => `(tactic| (
  apply BitVec.eq_of_getLsbD_eq
  intro i hi
  simp only [pScope, scopeProcess, pUnaligned, pAgg, pGlobal, scopeThread]
  interval_cases i <;> simp))

theorem agg_scope (x : BitVec 32) : (x ||| pAgg) &&& pScope = x &&& pScope := by bits32
theorem agg_unal (x : BitVec 32) : (x ||| pAgg) &&& pUnaligned = x &&& pUnaligned := by bits32

theorem want_scope (cfg : Config) (r : Req) : wantProp cfg r &&& pScope = normProp cfg r &&& pScope := by
  unfold wantProp; split
  · exact agg_scope _
  · rfl

theorem want_unal (cfg : Config) (r : Req) : wantProp cfg r &&& pUnaligned = normProp cfg r &&& pUnaligned := by
  unfold wantProp; split
  · exact agg_unal _
  · rfl

/-- C18: global attributes are process-scope and unaligned, whatever scope was requested. -/
theorem C18_global {cfg : Config} {r : Req} (hg : asked cfg r &&& pGlobal ≠ 0) :
    wantProp cfg r &&& pScope = scopeProcess ∧ wantProp cfg r &&& pUnaligned = pUnaligned := by
  rw [want_scope, want_unal, norm_global hg]
  generalize asked cfg r = x
  exact ⟨by bits32, by bits32⟩

/-- C18: without a requested scope the attribute gets the default scope; otherwise the requested scope is kept; aligned attributes
stay aligned. -/
theorem C18_scope {cfg : Config} {r : Req} (hg : asked cfg r &&& pGlobal = 0) :
    (asked cfg r &&& pScope = 0 → wantProp cfg r &&& pScope = cfg.defScope &&& pScope) ∧
    (asked cfg r &&& pScope ≠ 0 → wantProp cfg r &&& pScope = asked cfg r &&& pScope) ∧
    (cfg.defScope &&& ~~~pScope = 0 → wantProp cfg r &&& pUnaligned = asked cfg r &&& pUnaligned) := by
  refine ⟨fun hs => ?_, fun hs => ?_, fun hd => ?_⟩
  · rw [want_scope, norm_default hg hs]
    rw [BitVec.and_comm, BitVec.and_or_distrib_left, BitVec.and_comm, hs, BitVec.and_comm]
    simp
  · rw [want_scope, norm_keep hg hs]
  · rw [want_unal]
    by_cases hs : asked cfg r &&& pScope = 0
    · rw [norm_default hg hs]
      have : cfg.defScope &&& pUnaligned = 0 := by
        have h1 : pUnaligned = ~~~pScope &&& pUnaligned := by decide
        rw [h1, ← BitVec.and_assoc, hd]; simp
      rw [BitVec.and_comm, BitVec.and_or_distrib_left, BitVec.and_comm, BitVec.and_comm pUnaligned cfg.defScope, this]
      simp
    · rw [norm_keep hg hs]

/-- C18: every attribute ends up with exactly one of the scopes process / thread / task, if the request named at most one. -/
theorem C18_exactly_one_scope_partial {cfg : Config} {r : Req} (hd : cfg.defScope = scopeThread ∨ cfg.defScope = scopeProcess)
    (hs : asked cfg r &&& pGlobal ≠ 0 ∨ asked cfg r &&& pScope = 0 ∨ asked cfg r &&& pScope = scopeProcess ∨
      asked cfg r &&& pScope = scopeThread ∨ asked cfg r &&& pScope = 24#32) :
    wantProp cfg r &&& pScope = scopeProcess ∨ wantProp cfg r &&& pScope = scopeThread ∨ wantProp cfg r &&& pScope = 24#32 := by
  by_cases hg : asked cfg r &&& pGlobal = 0
  · by_cases h0 : asked cfg r &&& pScope = 0
    · rw [(C18_scope hg).1 h0]
      rcases hd with h | h <;> rw [h]
      · right; left; decide
      · left; decide
    · rw [(C18_scope hg).2.1 h0]
      rcases hs with h | h | h | h | h
      · exact absurd hg h
      · exact absurd h h0
      · exact .inl h
      · exact .inr (.inl h)
      · exact .inr (.inr h)
  · exact .inl (C18_global hg).1

/-- C18, violation: a request that names two scopes is stored as it is, with both scopes. -/
theorem C18_two_scopes_kept (cfg : Config) (hp : cfg.preset [97] = none) :
    wantProp cfg ⟨[97], .int, scopeProcess ||| scopeThread, []⟩ &&& pScope = scopeProcess ||| scopeThread := by
  have ha : asked cfg ⟨[97], .int, scopeProcess ||| scopeThread, []⟩ = scopeProcess ||| scopeThread := by
    simp only [asked]
    rw [show cfg.preset [97] = none from hp]; rfl
  rw [(C18_scope (by rw [ha]; decide)).2.1 (by rw [ha]; decide), ha]
  decide

/-- C18: all other requested properties are kept, and none is invented. -/
theorem C18_other_properties_kept {cfg : Config} {r : Req} (hd : cfg.defScope &&& ~~~pScope = 0) :
    wantProp cfg r &&& ~~~(pScope ||| pUnaligned ||| pAgg) = asked cfg r &&& ~~~(pScope ||| pUnaligned ||| pAgg) := by
  have hw : wantProp cfg r &&& ~~~(pScope ||| pUnaligned ||| pAgg) = normProp cfg r &&& ~~~(pScope ||| pUnaligned ||| pAgg) := by
    unfold wantProp; split
    · generalize normProp cfg r = x; bits32
    · rfl
  rw [hw]
  by_cases hg : asked cfg r &&& pGlobal = 0
  · by_cases hs : asked cfg r &&& pScope = 0
    · rw [norm_default hg hs]
      have : cfg.defScope &&& ~~~(pScope ||| pUnaligned ||| pAgg) = 0 := by
        have h1 : ~~~(pScope ||| pUnaligned ||| pAgg) = ~~~pScope &&& ~~~(pScope ||| pUnaligned ||| pAgg) := by decide
        rw [h1, ← BitVec.and_assoc, hd]; simp
      rw [BitVec.and_comm, BitVec.and_or_distrib_left, BitVec.and_comm, BitVec.and_comm _ cfg.defScope, this]
      simp
    · rw [norm_keep hg hs]
  · rw [norm_global hg]
    generalize asked cfg r = x
    bits32

/-- C18: `AGGREGATABLE` is set exactly if requested or if the metadata says so. -/
theorem C18_aggregatable {cfg : Config} {r : Req} (hd : cfg.defScope &&& ~~~pScope = 0) :
    wantProp cfg r &&& pAgg = if (cfg.aggId, (⟨.bool, .inr 1⟩ : Val)) ∈ r.metas then pAgg else asked cfg r &&& pAgg := by
  have hn : normProp cfg r &&& pAgg = asked cfg r &&& pAgg := by
    by_cases hg : asked cfg r &&& pGlobal = 0
    · by_cases hs : asked cfg r &&& pScope = 0
      · rw [norm_default hg hs]
        have : cfg.defScope &&& pAgg = 0 := by
          have h1 : pAgg = ~~~pScope &&& pAgg := by decide
          rw [h1, ← BitVec.and_assoc, hd]; simp
        rw [BitVec.and_comm, BitVec.and_or_distrib_left, BitVec.and_comm, BitVec.and_comm _ cfg.defScope, this]
        simp
      · rw [norm_keep hg hs]
    · rw [norm_global hg]
      generalize asked cfg r = x
      bits32
  unfold wantProp
  split
  · generalize normProp cfg r = x; bits32
  · exact hn

/-- C18: name, type and properties of a created attribute, as its accessors report them, are the requested name and type and the
normalised properties (of one of the calls for that name). -/
theorem C18_created_attribute {cfg : Config} {s : State} (h : Reach cfg s) (hf : s.tree.fails = 0) {th : Nat} {r : Req}
    {a : Option Ptr} (hd : s.pc th = .done r a) (honly : ∀ r' ∈ s.hist, r'.name = r.name → r' = r)
    (hb : ∀ p, ¬ BootAttr r.name p) (hm : ∀ e ∈ r.metas, e.1 ≠ typeAttr) (hty : r.ty ≠ .inv) :
    ∃ p, a = some p ∧ attrName s.tree p = some (Val.str r.name) ∧ attrType s.tree p = some (Val.ofType r.ty) ∧
      attrProp s.tree p = wantProp cfg r := by
  obtain ⟨p, h1, h2⟩ := C17_contents_of_one_caller h hf hd
  rcases h2 with h2 | ⟨r', h2, h3, _, h5, h6, h7⟩
  · exact absurd h2 (hb p)
  · have := honly r' h2 h3
    subst this
    exact ⟨p, h1, h5, h7 hm hty, h6⟩

/-! ### a concrete interleaving: two threads create the same name with different properties -/

/-- thread-scope default, one preset -/
def exCfg : Config := ⟨fun n => if n = [112] then some 512#32 else none, scopeThread, 20⟩
/-- as-value integer attribute -/
def exR1 : Req := ⟨[97], .int, 1#32, []⟩
/-- string attribute of the same name, with metadata -/
def exR2 : Req := ⟨[97], .string, 256#32, [(20, Val.ofBool true)]⟩

/-- the interleaved steps of threads 1 and 2 -/
def exSteps : List (Nat × Req) :=
  [(1, exR1), (2, exR2), (2, exR2), (1, exR1), (2, exR2), (1, exR1), (2, exR2), (2, exR2), (1, exR1), (2, exR2), (1, exR1)]

/-- the state after them -/
def exState : State := exSteps.foldl (fun s x => stepThread exCfg s x.1 x.2) (init (MTree.init 64 4 (fun _ => 0)))

theorem exState_reach : Reach exCfg exState := by
  have : ∀ (l : List (Nat × Req)) (s : State), Reach exCfg s → Reach exCfg (l.foldl (fun s x => stepThread exCfg s x.1 x.2) s) := by
    intro l
    induction l with
    | nil => exact fun _ h => h
    | cons x xs ih => exact fun s h => ih _ (.step _ _ h)
  exact this _ _ (.init (by omega) (by omega) (by decide))

/-- both calls have returned, both returned the attribute thread 2 created, the tree has space left, and the properties are
thread scope + nested + aggregatable -/
example : (∃ p, exState.pc 1 = .done exR1 (some p) ∧ exState.pc 2 = .done exR2 (some p) ∧
    attrProp exState.tree p = 2324#32) ∧ exState.tree.fails = 0 :=
  ⟨⟨.cell 1 2, rfl, rfl, by decide⟩, by decide⟩

/-- a preset makes the attribute global: process scope and unaligned -/
example : wantProp exCfg ⟨[112], .int, 1#32, []⟩ = 1548#32 := by decide

end Verif.AttrReg
