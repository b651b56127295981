import Verif.Capi.CallsLemmas
/-!
# C104: the C annotation interface
-/
namespace Verif.CApi
open Verif.MTree Verif.RT Verif.AttrReg

/-! ## the start -/

theorem builtin_iff (n : Name) : Builtin n ↔ (Val.str n = Val.ofString "cali.attribute.name" ∨ Val.str n = Val.ofString "cali.attribute.type" ∨
    Val.str n = Val.ofString "cali.attribute.prop") := by
  have key : ∀ s, Val.str n = Val.ofString s ↔ n = nm s := fun s => by simp [Val.ofString, Val.str, nm]
  unfold Builtin
  rw [key, key, key]

/-- before `init_api_attributes` -/
def start0 (npb nb : Nat) (g : Nat → Nat) (active : List Nat) (isActive : Nat → Bool) : St :=
  ⟨RT.init (MTree.init npb nb g) active isActive, (AttrReg.init (MTree.init npb nb g)).map, none, none, none⟩

def spec0 : Spec := ⟨fun _ => none, fun _ => ⟨[], [], fun _ => none⟩, fun _ => false⟩

theorem rel0 {cfg : Config} {npb nb : Nat} {g : Nat → Nat} {active : List Nat} {isActive : Nat → Bool} (h1 : 12 ≤ npb) (h2 : 1 ≤ nb)
    (h3 : nb * 256 ≤ invId) : Rel (MTree.init npb nb g) cfg (start0 npb nb g active isActive) spec0 Abs.init := by
  refine ⟨RelS.init (Inv.init h1 h2) rfl _ _, Ext.refl _, fun i r h => h, h3, (by intro n a h; cases h), ?_, fun _ _ => rfl, rfl, ?_⟩
  · intro n hb _
    rw [builtin_iff] at hb
    push Not at hb
    simp [start0, AttrReg.init, hb.1, hb.2.1, hb.2.2]
  · intro l
    refine ⟨rfl, rfl, by simp [spec0], by simp [spec0], ?_, fun _ _ => rfl, fun _ _ => rfl⟩
    intro n hn; simp [Spec.Has, spec0] at hn

theorem Rel.congr {t0 : Tree} {cfg : Config} {s s' : St} {S : Spec} {c : Abs} (R : Rel t0 cfg s S c) (h1 : s'.rt = s.rt) (h2 : s'.map = s.map) :
    Rel t0 cfg s' S c := relOf R (by rw [h1]; exact R.rt) (by rw [h1]) h2 rfl rfl

/-- the process is running: attributes as in the specification's initial state -/
theorem rel_start {cfg : Config} {npb nb : Nat} {g : Nat → Nat} {active : List Nat} {isActive : Nat → Bool} (h1 : 12 ≤ npb) (h2 : 1 ≤ nb)
    (h3 : nb * 256 ≤ invId) (hg : cfg.aggId ≠ typeAttr) (hf : (start cfg npb nb g active isActive).rt.tree.fails = 0) :
    ∃ c, Rel (MTree.init npb nb g) cfg (start cfg npb nb g active isActive) (Spec.init cfg) c ∧ RegionsOk (start cfg npb nb g active isActive) := by
  have R0 := rel0 (cfg := cfg) (g := g) (active := active) (isActive := isActive) h1 h2 h3
  have f0 : (start0 npb nb g active isActive).rt.tree.fails = 0 := rfl
  have hst : start cfg npb nb g active isActive = initApi cfg (start0 npb nb g active isActive) 0 := rfl
  rw [hst] at hf ⊢
  generalize start0 npb nb g active isActive = s0 at *
  have nb1 : ¬ Builtin (nm "loop") := by unfold Builtin; decide
  have l1 := create_le cfg s0 0 (nm "loop") .string 256
  have c1 := fun h => R0.create hg nb1 0 .string 256 h
  simp only [initApi] at hf ⊢
  generalize hs1 : createAttribute cfg s0 0 (nm "loop") .string 256 = r1 at *
  have l2 := create_le cfg r1.1 0 (nm "region") .string 256
  have m2 := @create_map cfg r1.1 0 (nm "region") .string 256
  generalize hs2 : createAttribute cfg r1.1 0 (nm "region") .string 256 = r2 at *
  have l3 := create_le cfg { r2.1 with region := r2.2 } 0 (nm "phase") .string (256 ||| 0x40000)
  have m3 := @create_map cfg { r2.1 with region := r2.2 } 0 (nm "phase") .string (256 ||| 0x40000)
  have k3 := create_region cfg { r2.1 with region := r2.2 } 0 (nm "phase") .string (256 ||| 0x40000)
  generalize hs3 : createAttribute cfg { r2.1 with region := r2.2 } 0 (nm "phase") .string (256 ||| 0x40000) = r3 at *
  have l4 := create_le cfg { r3.1 with phase := r3.2 } 0 (nm "comm.region") .string (256 ||| 0x10000)
  have m4 := @create_map cfg { r3.1 with phase := r3.2 } 0 (nm "comm.region") .string (256 ||| 0x10000)
  have k4 := create_region cfg { r3.1 with phase := r3.2 } 0 (nm "comm.region") .string (256 ||| 0x10000)
  generalize hs4 : createAttribute cfg { r3.1 with phase := r3.2 } 0 (nm "comm.region") .string (256 ||| 0x10000) = r4 at *
  have q1 := l1.fails; have q2 := l2.fails; have q3 := l3.fails; have q4 := l4.fails
  simp only at q1 q2 q3 q4 hf
  obtain ⟨R1, -, -⟩ := c1 (by omega)
  have c2 := R1.create hg (regionName_ok .region) 0 .string 256
  simp only [RegionKind.name] at c2
  rw [hs2] at c2
  obtain ⟨R2, -, e2⟩ := c2 (by omega)
  have R2' := R2.congr (s' := { r2.1 with region := r2.2 }) rfl rfl
  have c3 := R2'.create hg (regionName_ok .phase) 0 .string (256 ||| 0x40000)
  simp only [RegionKind.name] at c3
  rw [hs3] at c3
  obtain ⟨R3, -, e3⟩ := c3 (by omega)
  have R3' := R3.congr (s' := { r3.1 with phase := r3.2 }) rfl rfl
  have c4 := R3'.create hg (regionName_ok .comm) 0 .string (256 ||| 0x10000)
  simp only [RegionKind.name] at c4
  rw [hs4] at c4
  obtain ⟨R4, -, e4⟩ := c4 (by omega)
  refine ⟨_, (R4.congr rfl rfl : Rel (MTree.init npb nb g) cfg { r4.1 with comm := r4.2 } _ _), ?_⟩
  intro k
  cases k with
  | region =>
    have a := m4 (m := nm "region") (a := r2.2) (m3 e2)
    have b : r4.1.regionPtr .region = r2.2 := by rw [k4 .region]; exact k3 .region
    simp only [RegionKind.name, St.regionPtr] at b ⊢
    rw [a, b]
  | phase =>
    have a := m4 (m := nm "phase") (a := r3.2) e3
    have b : r4.1.regionPtr .phase = r3.2 := k4 .phase
    simp only [RegionKind.name, St.regionPtr] at b ⊢
    rw [a, b]
  | comm => exact e4

/-- nothing was refused for lack of space -/
def Lossless (s : St) : Prop := s.rt.tree.fails = 0 ∧ ∀ l, (s.rt.board l).skipped = 0

theorem start_board (cfg : Config) (npb nb : Nat) (g : Nat → Nat) (active : List Nat) (isActive : Nat → Bool) (l : Loc) :
    ((start cfg npb nb g active isActive).rt.board l).skipped = 0 := by
  have h : ∀ (s : St) th n ty pr, ((createAttribute cfg s th n ty pr).1.rt.board l) = s.rt.board l := by
    intro s th n ty pr
    unfold createAttribute
    split
    · rfl
    · cases l <;> rfl
  have h0 : ((start0 npb nb g active isActive).rt.board l).skipped = 0 := by cases l <;> rfl
  have key : ∀ s : St, (initApi cfg s 0).rt.board l = s.rt.board l := by
    intro s
    simp only [initApi, h]
  rw [show start cfg npb nb g active isActive = initApi cfg (start0 npb nb g active isActive) 0 from rfl, key]
  exact h0

section
variable {cfg : Config} {npb nb : Nat} {g : Nat → Nat} {active : List Nat} {isActive : Nat → Bool}

theorem rel_program (h1 : 12 ≤ npb) (h2 : 1 ≤ nb) (h3 : nb * 256 ≤ invId) (hg : cfg.aggId ≠ typeAttr) (xs : List (Nat × Call))
    (hb : ∀ x ∈ xs, ¬ Builtin x.2.name) (hl : Lossless (runCalls cfg (start cfg npb nb g active isActive) xs)) :
    ∃ c, Rel (MTree.init npb nb g) cfg (runCalls cfg (start cfg npb nb g active isActive) xs) ((Spec.init cfg).run cfg xs) c := by
  have le := runCalls_le cfg (start cfg npb nb g active isActive) xs
  have hf : (start cfg npb nb g active isActive).rt.tree.fails = 0 := by
    have := le.fails; have := hl.1; omega
  obtain ⟨c, R, hr⟩ := rel_start h1 h2 h3 hg hf
  obtain ⟨c', R', -⟩ := R.run hg hr xs hb ⟨by rw [hl.1, hf], fun l => by rw [hl.2, start_board]⟩
  exact ⟨c', R'⟩

theorem runCalls_append (cfg : Config) (s : St) (xs ys : List (Nat × Call)) :
    runCalls cfg s (xs ++ ys) = runCalls cfg (runCalls cfg s xs) ys := by
  induction xs generalizing s with
  | nil => rfl
  | cons x xs ih => exact ih _

/-- a part of a lossless program is lossless -/
theorem Lossless.left {xs ys : List (Nat × Call)} (hl : Lossless (runCalls cfg (start cfg npb nb g active isActive) (xs ++ ys))) :
    Lossless (runCalls cfg (start cfg npb nb g active isActive) xs) := by
  rw [runCalls_append] at hl
  have le := runCalls_le cfg (runCalls cfg (start cfg npb nb g active isActive) xs) ys
  refine ⟨?_, fun l => ?_⟩
  · have := le.fails; have := hl.1; omega
  · have := le.skip l; have := hl.2 l; omega

/-- the type stored for an attribute -/
theorem IsAttr.type {t : Tree} (I : Inv t) {n : Name} {a : Ann} {p : Ptr} (h : IsAttr cfg t n a p) :
    attrType t p = if a.ty = .inv then none else some (Val.ofType a.ty) := by
  obtain ⟨pr, -, h2⟩ := h
  by_cases e : a.ty = .inv
  · rw [if_pos e]
    have h2' := h2
    simp only [attrPath, typePath, e, if_true] at h2'
    unfold attrType
    rcases findUp_spec I (show typeAttr ≠ invId by decide) h2 (fuelOf_path I h2) with ⟨k, _⟩ | ⟨m₁, w, m₂, q, k1, _⟩
    · rw [k]; rfl
    · have : (typeAttr, w) ∈ attrPath cfg ⟨n, a.ty, pr, []⟩ := by rw [k1]; simp
      simp [attrPath, typePath, e, propAttr, nameAttr, typeAttr] at this
  · rw [if_neg e]
    exact (attr_reads I h2).2.2 (by simp) e

/-- **C104** (all calls but the query for the current region).  After every program — any calls of any threads, in any order — in which
nothing is refused for lack of space:

* `cali_find_attribute` finds exactly the attributes a call has created or mentioned (and the four predefined ones), with
  the name, type and property word of the first of these calls (the preset, scope and global rules applied);
* `cali_get` gives for every attribute and every thread the value the program's calls have left, in the context of the
  attribute's scope: of nested calls the innermost one still open, of the as-value attributes the last value set;
* exactly the threads which have made an end call that does not fit are frozen (none of their calls has any effect);
* no call crashes or hangs. -/
theorem C104_calls_partial (h1 : 12 ≤ npb) (h2 : 1 ≤ nb) (h3 : nb * 256 ≤ invId) (hg : cfg.aggId ≠ typeAttr) (xs : List (Nat × Call))
    (hb : ∀ x ∈ xs, ¬ Builtin x.2.name) (hl : Lossless (runCalls cfg (start cfg npb nb g active isActive) xs)) :
    let s := runCalls cfg (start cfg npb nb g active isActive) xs
    let S := (Spec.init cfg).run cfg xs
    (∀ n, ¬ Builtin n →
      (s.find n ≠ invId ↔ ∃ a, S.attrs n = some a) ∧
      (∀ a, S.attrs n = some a → s.propOf n = a.prop ∧ s.typeOf n = (if a.ty = .inv then none else some (Val.ofType a.ty)) ∧
        ((s.byId (s.find n)).bind (attrName s.rt.tree)) = some (Val.str n)) ∧
      ∀ th, s.get th n = some (S.get th n)) ∧
    s.rt.err = S.err ∧ s.rt.dead = false := by
  obtain ⟨c, R⟩ := rel_program h1 h2 h3 hg xs hb hl
  simp only
  generalize runCalls cfg (start cfg npb nb g active isActive) xs = s at *
  generalize (Spec.init cfg).run cfg xs = S at *
  refine ⟨fun n hn => ?_, by rw [R.rt.err, R.err], R.rt.dead⟩
  cases ha : S.attrs n with
  | none =>
    obtain ⟨e1, e2, e3⟩ := R.findNone hn ha
    refine ⟨?_, ?_, ?_⟩
    · constructor
      · intro h; exact absurd e1 h
      · rintro ⟨a, h⟩; cases h
    · intro a h; cases h
    · intro th
      simp only [St.get, e2, Spec.get, ha]
      simp [getEntry, scopeLoc, Attr.scope, scopeThread, scopeProcess]
      rfl
  | some a =>
    obtain ⟨p, k1, k2, k3, k4, k5⟩ := R.find ha
    have lk := k2.lookup R.rt.inv R.small
    have hid : s.byId (s.find n) = some p := by
      rw [k3, St.byId, lk.1]; simp [makeAttribute, k2.live.2.2]
    refine ⟨⟨fun _ => ⟨a, rfl⟩, fun _ => by rw [k3]; exact lk.2⟩, ?_, ?_⟩
    · intro a' h
      cases h
      refine ⟨by rw [St.propOf, k4], ?_, ?_⟩
      · rw [St.typeOf, hid]
        exact k2.type R.rt.inv
      · rw [hid]
        obtain ⟨pr, -, P⟩ := k2
        exact (attr_reads R.rt.inv P).1
    · intro th
      have IH : IsHandle s.find n a ⟨p, s.rt.tree.idOf p, a.prop⟩ := ⟨k3.symm, rfl⟩
      have hv : Attr.Valid s.rt.tree ⟨p, s.rt.tree.idOf p, a.prop⟩ := by
        rw [← k2.handle R.rt.inv]; exact k2.valid R.rt.inv R.boot R.small
      have q := R.rt.query (th := th) hv
      unfold Query at q
      rw [St.get, k4, q, IH.loc, Spec.get, ha]
      simp only [Option.bind_some]
      congr 1
      cases a.loc th with
      | none => rfl
      | some l => exact (R.ctx l).get R.injOn (by simp [Spec.Has, ha]) IH

/-- **C104** (ids).  The id of an attribute, once known, never changes, and different attributes have different ids. -/
theorem C104_ids (h1 : 12 ≤ npb) (h2 : 1 ≤ nb) (h3 : nb * 256 ≤ invId) (hg : cfg.aggId ≠ typeAttr) (xs ys : List (Nat × Call))
    (hb : ∀ x ∈ xs ++ ys, ¬ Builtin x.2.name) (hl : Lossless (runCalls cfg (start cfg npb nb g active isActive) (xs ++ ys)))
    (n : Name) (hn : ¬ Builtin n) (hf : (runCalls cfg (start cfg npb nb g active isActive) xs).find n ≠ invId) :
    (runCalls cfg (start cfg npb nb g active isActive) (xs ++ ys)).find n = (runCalls cfg (start cfg npb nb g active isActive) xs).find n ∧
    ∀ m, ¬ Builtin m → m ≠ n → (runCalls cfg (start cfg npb nb g active isActive) (xs ++ ys)).find m ≠
      (runCalls cfg (start cfg npb nb g active isActive) (xs ++ ys)).find n := by
  obtain ⟨c, R⟩ := rel_program h1 h2 h3 hg xs (fun x hx => hb x (by simp [hx])) hl.left
  obtain ⟨c', R'⟩ := rel_program h1 h2 h3 hg (xs ++ ys) hb hl
  rw [runCalls_append] at *
  generalize runCalls cfg (start cfg npb nb g active isActive) xs = s at *
  generalize (Spec.init cfg).run cfg xs = S at *
  generalize (Spec.init cfg).run cfg (xs ++ ys) = S' at *
  have keep : ∀ (s : St) (ys : List (Nat × Call)) m a, s.map m = some a → (runCalls cfg s ys).map m = some a := by
    intro s ys
    induction ys generalizing s with
    | nil => intro m a h; exact h
    | cons y ys ih =>
      intro m a h
      refine ih _ m a ?_
      obtain ⟨th, y⟩ := y
      cases y with
      | create n ty pr => exact create_map _ _ _ _ _ _ h
      | beginName n x => exact create_map cfg s th n x.ty 0 h
      | setName n x => exact create_map cfg s th n x.ty 1024 h
      | setGlobal n x => exact create_map cfg s th n x.ty _ h
      | _ => exact h
  cases ha : S.attrs n with
  | none => exact absurd (R.findNone hn ha).1 hf
  | some a =>
    obtain ⟨p, k1, k2, k3, -⟩ := R.find ha
    have k1' := keep s ys n _ k1
    cases ha' : S'.attrs n with
    | none =>
      have := R'.unknown n hn ha'
      rw [this] at k1'; cases k1'
    | some a' =>
      obtain ⟨p', j1, j2, j3, -⟩ := R'.find ha'
      rw [k1'] at j1
      cases j1
      have hid : (runCalls cfg s ys).rt.tree.idOf p = s.rt.tree.idOf p := by
        obtain ⟨pr, -, P⟩ := k2
        obtain ⟨b, i, r, rfl, hr, -, -, -⟩ := P.snoc_inv
        obtain ⟨pr', -, P'⟩ := j2
        obtain ⟨b', i', r', e, hr', -, -, -⟩ := P'.snoc_inv
        cases e
        rw [(lookup_cell R.rt.inv hr).2.1, (lookup_cell R'.rt.inv hr').2.1, R'.ext.npb, R.ext.npb]
      refine ⟨by rw [j3, k3, hid], ?_⟩
      intro m hm hne e
      cases hm' : S'.attrs m with
      | none =>
        rw [(R'.findNone hm hm').1, j3] at e
        exact (j2.lookup R'.rt.inv R'.small).2 e.symm
      | some b => exact hne (R'.injOn m n (by simp [Spec.Has, hm']) (by simp [Spec.Has, ha']) e)

/-! ## the current region -/

theorem innerNested_snoc (S : Spec) (l : Vals) (e : Name × Val) :
    S.innerNested (l ++ [e]) = if (match S.attrs e.1 with | some a => decide a.nested | none => false) then some e.2 else S.innerNested l := by
  unfold Spec.innerNested
  rw [List.reverse_append, List.reverse_singleton, List.singleton_append, List.find?_cons]
  cases ha : S.attrs e.1 with
  | none => simp
  | some a => by_cases h : a.nested <;> simp [h]

theorem nestedUp_spec {t0 : Tree} {s : St} {S : Spec} {c : Abs} (R : Rel t0 cfg s S c) (l : Vals) (hl : ∀ e ∈ l, S.Has e.1) {nd : Ptr} {fuel : Nat}
    (P : Path s.rt.tree nd (toIds s.find l)) (hf : l.length + 1 < fuel) :
    (nestedUp s.rt.tree fuel (some nd)).map s.rt.tree.valOf = S.innerNested l := by
  induction l using List.reverseRecOn generalizing nd fuel with
  | nil =>
    have : nd = .root := P.inj R.rt.inv Path.root
    subst this
    obtain ⟨f, rfl⟩ : ∃ f, fuel = f + 2 := ⟨fuel - 2, by simp at hf; omega⟩
    rw [nestedUp]
    have e : s.rt.tree.lookup (s.rt.tree.attrOf .root) = none := lookup_inv R.rt.inv R.small
    rw [e]
    simp [makeAttribute, CApi.handle, Tree.parentOf, Tree.get?, nestedUp, Spec.innerNested]
  | append_singleton l e ih =>
    obtain ⟨f, rfl⟩ : ∃ f, fuel = f + 1 := ⟨fuel - 1, by omega⟩
    have P' : Path s.rt.tree nd (toIds s.find l ++ [(s.find e.1, e.2)]) := by simpa [toIds] using P
    obtain ⟨q, h1, h2, h3, h4⟩ := parentOf_path P'
    obtain ⟨a, ha⟩ := Option.isSome_iff_exists.1 (hl e (by simp))
    obtain ⟨p, k1, k2, k3, -⟩ := R.find ha
    rw [nestedUp, h3, k3, (k2.lookup R.rt.inv R.small).1, innerNested_snoc, ha]
    simp only [makeAttribute, k2.live.2.2, if_true]
    rw [k2.handle R.rt.inv]
    by_cases hn : a.nested
    · rw [if_pos (show a.prop &&& 256 ≠ 0 from hn), if_pos (by simpa using hn)]; simp [h4]
    · rw [if_neg (show ¬ (a.prop &&& 256 ≠ 0) from hn), if_neg (by simpa using hn), h1]
      exact ih (fun x hx => hl x (by simp [hx])) h2 (by simp at hf; omega)

/-- the entry on a board's region slot -/
theorem region_slot {t0 : Tree} {s : St} {S : Spec} {c : Abs} (R : Rel t0 cfg s S c) (loc : Loc) :
    ∃ e, BB.get (s.rt.board loc) regionKey = some e ∧
      ((e = default ∧ (S.ctx loc).region = []) ∨
       ∃ nd, e = Entry.ofNode s.rt.tree nd ∧ Path s.rt.tree nd (toIds s.find (S.ctx loc).region) ∧ (S.ctx loc).region ≠ []) := by
  obtain ⟨q, g1, ⟨-, g2⟩, -⟩ := R.rt.ctx loc
  rw [(R.ctx loc).region] at g2
  refine ⟨_, bb_get g1 (show regionKey ≠ invId by decide), ?_⟩
  show _ ∨ _
  change match q.m regionKey with | none => _ | some e => _ at g2
  cases hm : q.m regionKey with
  | none =>
    rw [hm] at g2
    exact .inl ⟨rfl, by simpa [toIds] using g2⟩
  | some e =>
    rw [hm] at g2
    obtain ⟨h1, n, h2, h3⟩ := g2
    exact .inr ⟨n, h2, h3, fun h => h1 (by simp [h, toIds])⟩

/-- the list of open regions the query looks at, and what it finds there: the innermost nested one, or else the last one -/
def Spec.looked (S : Spec) (th : Nat) : Vals :=
  if (S.ctx (.thread th)).region = [] then (S.ctx .process).region else (S.ctx (.thread th)).region

theorem region_exact {t0 : Tree} {s : St} {S : Spec} {c : Abs} (R : Rel t0 cfg s S c) (th : Nat) (alt : List Byte) :
    s.currentRegion th alt = some
      (match (S.innerNested (S.looked th)).or ((S.looked th).getLast?.map Prod.snd) with
       | some ⟨.string, .inl b⟩ => b
       | _ => alt) := by
  have key : ∀ loc e, ((e = default ∧ (S.ctx loc).region = []) ∨
       ∃ nd, e = Entry.ofNode s.rt.tree nd ∧ Path s.rt.tree nd (toIds s.find (S.ctx loc).region) ∧ (S.ctx loc).region ≠ []) →
      (match nestedUp s.rt.tree (s.rt.tree.fuelOf e.node) e.node with
        | some nd => some (Entry.ofNode s.rt.tree nd)
        | none => some e : Option Entry).map (fun e => e.node.map fun _ => e.val) =
      some ((S.innerNested (S.ctx loc).region).or ((S.ctx loc).region.getLast?.map Prod.snd)) := by
    rintro loc e (⟨rfl, h⟩ | ⟨nd, rfl, P, h⟩)
    · rw [h]
      have : nestedUp s.rt.tree (s.rt.tree.fuelOf (default : Entry).node) (default : Entry).node = none := by
        show nestedUp s.rt.tree (s.rt.tree.fuelOf none) none = none
        simp [Tree.fuelOf, nestedUp]
      rw [this]; rfl
    · have hfu : (S.ctx loc).region.length + 1 < s.rt.tree.fuelOf (some nd) := by
        have := fuelOf_path R.rt.inv P; simpa [toIds] using this
      have hn := nestedUp_spec R (S.ctx loc).region (R.ctx loc).regK P hfu
      simp only [Entry.ofNode]
      cases hu : nestedUp s.rt.tree (s.rt.tree.fuelOf (some nd)) (some nd) with
      | some q => rw [hu] at hn; simp only [Option.map_some] at hn; rw [← hn]; rfl
      | none =>
        rw [hu] at hn
        simp only [Option.map_none] at hn
        rw [← hn]
        simp only [Option.map_some, Option.none_or]
        obtain ⟨l', x, hx⟩ := (List.eq_nil_or_concat (S.ctx loc).region).resolve_left h
        rw [hx, toIds] at P
        simp only [List.concat_eq_append, List.map_append, List.map_cons, List.map_nil] at P
        obtain ⟨_, _, _, _, hv⟩ := parentOf_path P
        rw [hx, hv]; simp
  have fin : ∀ o : Option Entry, ∀ v, o.map (fun e => e.node.map fun _ => e.val) = some v →
      o.map (fun e => if e.node = none then alt else match e.val with | ⟨.string, .inl b⟩ => b | _ => alt) =
        some (match v with | some ⟨.string, .inl b⟩ => b | _ => alt) := by
    intro o v h
    cases o with
    | none => cases h
    | some e =>
      simp only [Option.map_some, Option.some.injEq] at h ⊢
      subst h
      obtain ⟨nd, w⟩ := e
      cases nd with
      | none => simp
      | some nd =>
        simp only [Option.map_some, reduceCtorEq, if_false]
        rcases w with ⟨ty, b | u⟩ <;> cases ty <;> rfl
  obtain ⟨e1, g1, c1⟩ := region_slot R (.thread th)
  obtain ⟨e2, g2, c2⟩ := region_slot R .process
  unfold St.currentRegion
  refine fin _ _ ?_
  unfold pathNode
  rw [g1]
  simp only
  rcases c1 with ⟨rfl, h⟩ | ⟨nd, rfl, P, h⟩
  · rw [if_pos (show (default : Entry).node = none from rfl), g2]
    have hk := key .process e2 c2
    simp only [Spec.looked, h, if_true]
    exact hk
  · rw [if_neg (by simp [Entry.ofNode])]
    have hk := key (.thread th) _ (.inr ⟨nd, rfl, P, h⟩)
    simp only [Spec.looked, h, if_false]
    exact hk

/-- **C104** (current region).  `cali_get_current_region_or` gives the innermost open region of the thread, or else of the process, and
`alt` if there is none or if it is not a string — as long as the thread, and the process, have either no open values at
all or a region among them.  (Missing: programs with open values which are no regions; see the violations.) -/
theorem C104_current_region_partial (h1 : 12 ≤ npb) (h2 : 1 ≤ nb) (h3 : nb * 256 ≤ invId) (hg : cfg.aggId ≠ typeAttr)
    (xs : List (Nat × Call)) (hb : ∀ x ∈ xs, ¬ Builtin x.2.name)
    (hl : Lossless (runCalls cfg (start cfg npb nb g active isActive) xs)) (th : Nat) (alt : List Byte)
    (hr : ∀ loc, loc = .thread th ∨ loc = .process → (((Spec.init cfg).run cfg xs).ctx loc).region = [] ∨
      (((Spec.init cfg).run cfg xs).innerNested (((Spec.init cfg).run cfg xs).ctx loc).region).isSome) :
    (runCalls cfg (start cfg npb nb g active isActive) xs).currentRegion th alt = some (((Spec.init cfg).run cfg xs).region th alt) := by
  obtain ⟨c, R⟩ := rel_program h1 h2 h3 hg xs hb hl
  rw [region_exact R th alt]
  generalize (Spec.init cfg).run cfg xs = S at *
  congr 1
  have e0 : S.innerNested [] = none := rfl
  have : (S.innerNested (S.looked th)).or ((S.looked th).getLast?.map Prod.snd) =
      (S.innerNested (S.ctx (.thread th)).region).or (S.innerNested (S.ctx .process).region) := by
    unfold Spec.looked
    rcases hr (.thread th) (.inl rfl) with h | h
    · rw [if_pos h, h, e0, Option.none_or]
      rcases hr .process (.inr rfl) with h' | h'
      · rw [h', e0]; rfl
      · obtain ⟨v, hv⟩ := Option.isSome_iff_exists.1 h'
        rw [hv]; rfl
    · obtain ⟨v, hv⟩ := Option.isSome_iff_exists.1 h
      have hne : (S.ctx (.thread th)).region ≠ [] := by intro e; rw [e, e0] at hv; cases hv
      rw [if_neg hne, hv]; rfl
  rw [this]; rfl

end

/-! ## a concrete program -/

/-- default configuration: thread scope -/
def cfgEx : Config := ⟨fun _ => none, 20, 99⟩

/-- a program of two threads -/
def progEx : List (Nat × Call) :=
  [(0, .beginRegion .region [1]), (1, .beginRegion .phase [2]), (0, .create (nm "x") .int 1), (0, .set (nm "x") (.int 5)),
   (0, .setName (nm "u") (.string [7])), (0, .setGlobal (nm "g") (.double 3)), (0, .beginRegion .region [3]),
   (0, .endRegion .region [3]), (1, .endName (nm "u"))]

def sEx : St := runCalls cfgEx (start cfgEx 64 4 (fun _ => 0) [] (fun _ => true)) progEx

/-- the boards of the threads that make no calls -/
theorem put_other (s : RT.State) (l l' : Loc) (r : Tree × Option Board) (h : l' ≠ l) : (s.put l r).board l' = s.board l' := by
  obtain ⟨t, o⟩ := r
  cases o with
  | none => cases l' <;> rfl
  | some bb => cases l <;> cases l' <;> simp_all [State.put, State.board, BB.upd]

theorem emitAll_board (s : RT.State) (k : EvKind) (th : Nat) (a : Attr) (v : Val) (l : Loc) : (s.emitAll k th a v).board l = s.board l := by
  unfold State.emitAll; split
  · rfl
  · cases l <;> rfl

theorem scopeLoc_ne {a : Attr} {th : Nat} {l l' : Loc} (h : scopeLoc a th = some l) (h1 : l' ≠ .thread th) (h2 : l' ≠ .process) : l' ≠ l := by
  unfold scopeLoc at h
  split at h
  · cases h; exact h1
  · split at h
    · cases h; exact h2
    · cases h

theorem endCore_board (s : RT.State) (th : Nat) (a : Attr) (w : Option Val) (l' : Loc) (h1 : l' ≠ .thread th) (h2 : l' ≠ .process) :
    (endCore s th a w).board l' = s.board l' := by
  unfold endCore
  split
  · rfl
  · cases hl : scopeLoc a th with
    | none => rfl
    | some l =>
      simp only
      split
      · cases l' <;> rfl
      · split
        · cases l' <;> rfl
        · rw [put_other _ _ _ _ (scopeLoc_ne hl h1 h2), emitAll_board]

theorem op_board (s : St) (th : Nat) (a : Attr) (v : Val) (l' : Loc) (h1 : l' ≠ .thread th) (h2 : l' ≠ .process) :
    (s.op (.begin th a v)).rt.board l' = s.rt.board l' ∧ (s.op (.set th a v)).rt.board l' = s.rt.board l' ∧
    (s.op (.endR th a)).rt.board l' = s.rt.board l' ∧ (s.op (.endCheck th a v)).rt.board l' = s.rt.board l' := by
  simp only [St.op, RT.step]
  cases hd : s.rt.dead with
  | true => simp
  | false =>
    simp only [Bool.false_eq_true, if_false]
    refine ⟨?_, ?_, endCore_board _ _ _ _ _ h1 h2, endCore_board _ _ _ _ _ h1 h2⟩
    · unfold RT.begin
      split
      · rfl
      · simp only
        cases hl : scopeLoc a th with
        | none => simp only; split <;> simp [emitAll_board]
        | some l =>
          have := put_other (s.rt.emitAll .preBegin th a v) l l' (handleBegin (s.rt.emitAll .preBegin th a v).tree th a v
            ((s.rt.emitAll .preBegin th a v).board l)) (scopeLoc_ne hl h1 h2)
          simp only
          split
          · rw [this, emitAll_board]
          · rw [emitAll_board, this, emitAll_board]
    · unfold RT.set
      split
      · rfl
      · simp only
        cases hl : scopeLoc a th with
        | none => simp [emitAll_board]
        | some l => simp only; rw [put_other _ _ _ _ (scopeLoc_ne hl h1 h2), emitAll_board]

theorem create_board (cfg : Config) (s : St) (th : Nat) (n : Name) (ty : AttrType) (pr : BitVec 32) (l : Loc) :
    (createAttribute cfg s th n ty pr).1.rt.board l = s.rt.board l := by
  unfold createAttribute
  split
  · rfl
  · cases l <;> rfl

theorem call_board (cfg : Config) (s : St) (th : Nat) (x : Call) (l' : Loc) (h1 : l' ≠ .thread th) (h2 : l' ≠ .process) :
    (call cfg s th x).rt.board l' = s.rt.board l' := by
  cases x with
  | create n ty pr => exact create_board ..
  | begin n x => exact (op_board s th _ _ l' h1 h2).1
  | set n x => exact (op_board s th _ _ l' h1 h2).2.1
  | end_ n => exact (op_board s th _ Val.empty l' h1 h2).2.2.1
  | endName n => exact (op_board s th _ Val.empty l' h1 h2).2.2.1
  | beginRegion k v => exact (op_board s th _ _ l' h1 h2).1
  | endRegion k v => exact (op_board s th _ _ l' h1 h2).2.2.2
  | beginName n x => exact ((op_board _ th _ _ l' h1 h2).1).trans (create_board cfg s th n x.ty 0 l')
  | setName n x => exact ((op_board _ th _ _ l' h1 h2).2.1).trans (create_board cfg s th n x.ty 1024 l')
  | setGlobal n x => exact ((op_board _ th _ _ l' h1 h2).2.1).trans (create_board cfg s th n x.ty _ l')

theorem run_board (cfg : Config) (s : St) (xs : List (Nat × Call)) (l' : Loc) (h1 : ∀ x ∈ xs, l' ≠ .thread x.1) (h2 : l' ≠ .process) :
    (runCalls cfg s xs).rt.board l' = s.rt.board l' := by
  induction xs generalizing s with
  | nil => rfl
  | cons x xs ih => exact (ih _ fun y hy => h1 y (by simp [hy])).trans (call_board cfg s x.1 x.2 l' (h1 x (by simp)) h2)

theorem lossless_of {cfg : Config} {npb nb : Nat} {g : Nat → Nat} {active : List Nat} {isActive : Nat → Bool} (N : Nat) (xs : List (Nat × Call))
    (h1 : ∀ x ∈ xs, x.1 < N) (h2 : (runCalls cfg (start cfg npb nb g active isActive) xs).rt.tree.fails = 0)
    (h3 : (runCalls cfg (start cfg npb nb g active isActive) xs).rt.pbb.skipped = 0)
    (h4 : ∀ th < N, ((runCalls cfg (start cfg npb nb g active isActive) xs).rt.tbb th).skipped = 0) :
    Lossless (runCalls cfg (start cfg npb nb g active isActive) xs) := by
  refine ⟨h2, fun l => ?_⟩
  cases l with
  | process => exact h3
  | channel ch => rw [run_board _ _ _ _ (by simp) (by simp)]; exact start_board ..
  | thread th =>
    by_cases h : th < N
    · exact h4 th h
    · rw [run_board _ _ _ _ (fun x hx e => by cases e; exact h (h1 x hx)) (by simp)]; exact start_board ..

/-- the hypotheses of the theorems are met by a program with regions, as-value, unaligned and global attributes and a nesting error -/
theorem lossless_ex : Lossless sEx ∧ ∀ x ∈ progEx, ¬ Builtin x.2.name := by
  refine ⟨lossless_of 2 progEx (by decide +kernel) (by decide +kernel) (by decide +kernel) (by decide +kernel), ?_⟩
  unfold Builtin
  decide +kernel

/-- and what the program has left: thread 0 in region 1 with `x` = 5 and `u` = 7, the global value for everybody, thread 1 frozen -/
example : (let S := (Spec.init cfgEx).run cfgEx progEx
    [S.get 0 (nm "x"), S.get 1 (nm "x"), S.get 0 (nm "u"), S.get 1 (nm "g"), S.get 0 (nm "region"), S.get 1 (nm "phase")] =
      [some (Val.ofInt 5), none, some (Val.str [7]), some ⟨.double, .inr 3⟩, some (Val.str [1]), some (Val.str [2])] ∧
    S.err 0 = false ∧ S.err 1 = true ∧
    S.region 0 [9] = [1] ∧ S.region 1 [9] = [2] ∧ S.region 2 [9] = [9]) := by
  refine ⟨?_, ?_, ?_, ?_, ?_, ?_⟩ <;> decide +kernel

/-! ## violations -/

/-- a state after calls of thread 0 -/
def after (xs : List (Nat × Call)) : St := runCalls cfgEx (start cfgEx 64 4 (fun _ => 0) [] (fun _ => true)) xs

/-- the specification's state -/
def wanted (xs : List (Nat × Call)) : Spec := (Spec.init cfgEx).run cfgEx xs

/-- **C104 is violated** (current region): a value which is no region — opened with `cali_begin_string_byname` — is reported as the
current region although no region is open. -/
theorem C104_violated_not_a_region :
    let xs := [(0, Call.beginName (nm "iteration") (.string [1]))]
    Lossless (after xs) ∧ (wanted xs).region 0 [9] = [9] ∧ (after xs).currentRegion 0 [9] = some [1] := by
  refine ⟨lossless_of 1 _ (by decide +kernel) (by decide +kernel) (by decide +kernel) (by decide +kernel), ?_, ?_⟩ <;> decide +kernel

/-- **C104 is violated** (current region): an open value of the thread which is no region hides the open region of the process. -/
theorem C104_violated_hidden :
    let xs := [(0, Call.create (nm "stage") .string (256 + 12)), (0, Call.begin (nm "stage") (.string [1])),
      (0, Call.beginName (nm "n") (.int 3))]
    Lossless (after xs) ∧ (wanted xs).region 0 [9] = [1] ∧ (after xs).currentRegion 0 [9] = some [9] := by
  refine ⟨lossless_of 1 _ (by decide +kernel) (by decide +kernel) (by decide +kernel) (by decide +kernel), ?_, ?_⟩ <;> decide +kernel

/-- **C104 is violated** (types): the type of an attribute is that of the first call with its name, but a later call of another type
is not refused: the attribute's type is `int` and its value is a string. -/
theorem C104_violated_types :
    let xs := [(0, Call.setName (nm "n") (.int 3)), (0, Call.setName (nm "n") (.string [1]))]
    Lossless (after xs) ∧ (after xs).typeOf (nm "n") = some (Val.ofType .int) ∧ (after xs).get 0 (nm "n") = some (some (Val.str [1])) := by
  refine ⟨lossless_of 1 _ (by decide +kernel) (by decide +kernel) (by decide +kernel) (by decide +kernel), ?_, ?_⟩ <;> decide +kernel

/-- **C104 is violated** (global strings): `cali_set_global_string_byname` stores the string with its terminating NUL,
`cali_set_string_byname` without: the two values differ. -/
theorem C104_violated_global_string :
    let xs := [(0, Call.setGlobal (nm "a") (.string [1])), (0, Call.setName (nm "b") (.string [1]))]
    Lossless (after xs) ∧ (after xs).get 0 (nm "a") = some (some (Val.str [1, 0])) ∧ (after xs).get 0 (nm "b") = some (some (Val.str [1])) := by
  refine ⟨lossless_of 1 _ (by decide +kernel) (by decide +kernel) (by decide +kernel) (by decide +kernel), ?_, ?_⟩ <;> decide +kernel

end Verif.CApi
