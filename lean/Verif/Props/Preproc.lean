import Verif.Query.PreprocSpec
/-!
# C57: LET computes the stated values, record by record
-/
namespace Verif
open Cali Query Query.Pre

namespace Query.Pre

/-- ids are below the next id -/
def PDB.WF (D : PDB) : Prop := ∀ a ∈ D.attrs, a.id < D.next

/-- caches agree with the database -/
def CachesOk (D : PDB) : List Str → List (Option PAttr) → Prop
  | [], [] => True
  | n :: ns, c :: cs => (∀ a, c = some a → D.attr n = some a) ∧ CachesOk D ns cs
  | _, _ => False

theorem cachesOk_none (D : PDB) (ns : List Str) : CachesOk D ns (List.replicate ns.length none) := by
  induction ns with
  | nil => trivial
  | cons n ns ih => exact ⟨fun _ h => (by cases h), ih⟩

/-- what a kernel has looked up is what the database has -/
structure Coh (D : PDB) (L : LetDef) (k : KState) : Prop where
  tgt : CachesOk D L.op.names k.tgts
  res : ∀ a, k.res = some a → D.attr L.target = some a
  leaf : ∀ t a, L.op = .leaf t → k.res = some a → ∃ ta, k.tgts = [some ta] ∧ D.attr t = some ta

theorem attr_create_self (D : PDB) (n : Str) (t : AttrType) (b : Bool) : (D.create n t b).1.attr n = some (D.create n t b).2 := by
  unfold PDB.create
  split
  · assumption
  · rename_i h
    unfold PDB.attr at *
    simp only [List.find?_append, h]
    simp

theorem attr_create_some {D : PDB} {n : Str} {t : AttrType} {b : Bool} {m : Str} {a : PAttr} (h : D.attr m = some a) :
    (D.create n t b).1.attr m = some a := by
  unfold PDB.create
  split
  · exact h
  · unfold PDB.attr at *
    simp only [List.find?_append, h]
    simp

theorem attr_create_ne {D : PDB} {n : Str} {t : AttrType} {b : Bool} {m : Str} (hm : m ≠ n) :
    (D.create n t b).1.attr m = D.attr m := by
  unfold PDB.create
  split
  · rfl
  · unfold PDB.attr
    simp [List.find?_append, Ne.symm hm]

theorem create_of_attr {D : PDB} {n : Str} {a : PAttr} (h : D.attr n = some a) (t : AttrType) (b : Bool) : D.create n t b = (D, a) := by
  unfold PDB.create; rw [h]

theorem WF.create {D : PDB} (h : D.WF) (n : Str) (t : AttrType) (b : Bool) : (D.create n t b).1.WF := by
  unfold PDB.create
  split
  · exact h
  · intro a ha
    simp only [List.mem_append, List.mem_singleton] at ha
    rcases ha with ha | rfl
    · exact Nat.lt_succ_of_lt (h a ha)
    · exact Nat.lt_succ_self _

theorem isNested_create {D : PDB} (h : D.WF) (n : Str) (t : AttrType) (i : Nat) : (D.create n t false).1.isNested i = D.isNested i := by
  unfold PDB.create
  split
  · rfl
  · unfold PDB.isNested PDB.byId
    simp only [List.find?_append]
    cases hf : D.attrs.find? fun a => decide (a.id = i) with
    | some a => simp
    | none =>
      by_cases hi : D.next = i
      · simp [hi]
      · simp [hi]

theorem grows_refl (D : PDB) (n : Str) : Grows D D n := ⟨fun _ _ h => h, fun _ _ => rfl, fun _ => rfl⟩

theorem grows_create {D : PDB} (h : D.WF) (n : Str) (t : AttrType) : Grows D (D.create n t false).1 n :=
  ⟨fun _ _ h => attr_create_some h, fun _ hm => attr_create_ne hm, isNested_create h n t⟩

theorem CachesOk.mono {D D' : PDB} (hg : ∀ m a, D.attr m = some a → D'.attr m = some a) {ns : List Str} {cs : List (Option PAttr)}
    (h : CachesOk D ns cs) : CachesOk D' ns cs := by
  induction ns generalizing cs with
  | nil => cases cs with
    | nil => trivial
    | cons c cs => exact h.elim
  | cons n ns ih => cases cs with
    | nil => exact h.elim
    | cons c cs => exact ⟨fun a ha => hg _ _ (h.1 a ha), ih h.2⟩

theorem Coh.mono {D D' : PDB} {L : LetDef} {k : KState} (h : Coh D L k) (hg : ∀ m a, D.attr m = some a → D'.attr m = some a) : Coh D' L k :=
  ⟨h.tgt.mono hg, fun a ha => hg _ _ (h.res a ha),
   fun t a h1 h2 => let ⟨ta, h3, h4⟩ := h.leaf t a h1 h2; ⟨ta, h3, hg _ _ h4⟩⟩

theorem coh_new (D : PDB) (L : LetDef) : Coh D L (KState.new L.op) :=
  ⟨cachesOk_none D _, by simp [KState.new], by simp [KState.new]⟩

/-! ### the caches do not matter -/

theorem getValue_coh {meta_ : Nat → List (Nat × Val)} {D : PDB} {n : Str} {c : Option PAttr} {rec : List QEnt}
    (h : ∀ a, c = some a → D.attr n = some a) : getValue meta_ D n c rec = getValue meta_ D n none rec := by
  cases c with
  | none => rfl
  | some a => unfold getValue; simp [h a rfl]

theorem getValue_fst (meta_ : Nat → List (Nat × Val)) (D : PDB) (n : Str) (rec : List QEnt) : (getValue meta_ D n none rec).1 = D.attr n := by
  unfold getValue
  cases h : D.attr n <;> simp

theorem firstLoop_coh {meta_ : Nat → List (Nat × Val)} {D : PDB} {rec : List QEnt} {ns : List Str} {cs : List (Option PAttr)}
    (h : CachesOk D ns cs) : CachesOk D ns (firstLoop meta_ D rec ns cs).1 ∧
      (firstLoop meta_ D rec ns cs).2 = (firstLoop meta_ D rec ns (List.replicate ns.length none)).2 := by
  induction ns generalizing cs with
  | nil => cases cs with
    | nil => exact ⟨trivial, rfl⟩
    | cons c cs => exact h.elim
  | cons n ns ih =>
    cases cs with
    | nil => exact h.elim
    | cons c cs =>
      obtain ⟨h1, h2⟩ := h
      have ih := ih h2
      simp only [firstLoop, List.length_cons, List.replicate_succ]
      rw [getValue_coh h1]
      have hf := getValue_fst meta_ D n rec
      generalize getValue meta_ D n none rec = g at *
      obtain ⟨g1, g2⟩ := g
      simp only at hf
      subst hf
      cases hD : D.attr n with
      | none => exact ⟨⟨fun _ h => (by cases h), ih.1⟩, ih.2⟩
      | some a =>
        simp only
        split
        · exact ⟨⟨fun b hb => (by cases hb; exact hD), ih.1⟩, ih.2⟩
        · exact ⟨⟨fun b hb => (by cases hb; exact hD), h2⟩, rfl⟩

theorem sumLoop_coh {O : POps} {meta_ : Nat → List (Nat × Val)} {D : PDB} {rec : List QEnt} {ns : List Str} {cs : List (Option PAttr)}
    (h : CachesOk D ns cs) (s : Val) : CachesOk D ns (sumLoop O meta_ D rec ns cs s).1 ∧
      (sumLoop O meta_ D rec ns cs s).2 = (sumLoop O meta_ D rec ns (List.replicate ns.length none) s).2 := by
  induction ns generalizing cs s with
  | nil => cases cs with
    | nil => exact ⟨trivial, rfl⟩
    | cons c cs => exact h.elim
  | cons n ns ih =>
    cases cs with
    | nil => exact h.elim
    | cons c cs =>
      obtain ⟨h1, h2⟩ := h
      simp only [sumLoop, List.length_cons, List.replicate_succ]
      rw [getValue_coh h1]
      have hf := getValue_fst meta_ D n rec
      refine ⟨⟨fun a ha => ?_, (ih h2 _).1⟩, (ih h2 _).2⟩
      rw [← hf]; exact ha

theorem emit_eq {D : PDB} {k : KState} {n : Str} (h : ∀ a, k.res = some a → D.attr n = some a) (t : AttrType) (v : Val) (rec : List QEnt) :
    emit D k n t v rec = ((D.create n t false).1, { k with res := some (D.create n t false).2 }, rec ++ [.imm (D.create n t false).2.id v]) := by
  unfold emit
  cases hk : k.res with
  | none => rfl
  | some a =>
    rw [create_of_attr (h a hk)]
    simp only [Prod.mk.injEq, true_and, and_true]
    rw [← hk]

/-- the parts of a result that do not concern the caches, and that the caches are right afterwards -/
def Same (L : LetDef) (D : PDB) (x y : PDB × KState × List QEnt) : Prop :=
  x.1 = y.1 ∧ x.2.2 = y.2.2 ∧ Coh x.1 L x.2.1 ∧ Grows D x.1 L.target ∧ x.1.WF

theorem emit_same {L : LetDef} {D : PDB} (hw : D.WF) {k k' : KState} (hk : ∀ a, k.res = some a → D.attr L.target = some a)
    (hk' : ∀ a, k'.res = some a → D.attr L.target = some a) (hc : CachesOk D L.op.names k.tgts) (hl : ∀ t, L.op ≠ .leaf t)
    (t : AttrType) (v : Val) (rec : List QEnt) : Same L D (emit D k L.target t v rec) (emit D k' L.target t v rec) := by
  rw [emit_eq hk, emit_eq hk']
  refine ⟨rfl, rfl, ⟨hc.mono fun _ _ h => attr_create_some h, ?_, fun t _ h => absurd h (hl t)⟩, grows_create hw _ _, WF.create hw _ _ _⟩
  intro a ha
  simp only [Option.some.injEq] at ha
  rw [← ha]; exact attr_create_self D _ _ _

theorem leafRun_fst (D : PDB) (k : KState) (a : PAttr) (get : QEnt → Option Val) (rec : List QEnt) :
    (leafRun D k a get rec).1 = D ∧ (leafRun D k a get rec).2.1 = { k with res := some a } := by
  unfold leafRun; split <;> exact ⟨rfl, rfl⟩

theorem leafRun_rec (D D' : PDB) (k k' : KState) (a : PAttr) (get : QEnt → Option Val) (rec : List QEnt) :
    (leafRun D k a get rec).2.2 = (leafRun D' k' a get rec).2.2 := by
  unfold leafRun; split <;> rfl

theorem process_same (O : POps) (meta_ : Nat → List (Nat × Val)) {L : LetDef} {D : PDB} (hw : D.WF) {k : KState} (h : Coh D L k) (rec : List QEnt) :
    Same L D (process O meta_ L D k rec) (process O meta_ L D (KState.new L.op) rec) := by
  obtain ⟨target, op, cond⟩ := L
  obtain ⟨kr, kt⟩ := k
  obtain ⟨hc, hr, hl⟩ := h
  simp only at hc hr hl
  have keep : ∀ (k k' : KState) (r : List QEnt), CachesOk D op.names k.tgts → k.res = kr → (∀ t, op = .leaf t → kr = none) →
      Same ⟨target, op, cond⟩ D (D, k, r) (D, k', r) := fun k k' r h1 h2 h3 =>
    ⟨rfl, rfl, ⟨h1, fun a ha => hr a (h2 ▸ ha), fun t a ht ha => by rw [h2, h3 t ht] at ha; cases ha⟩, grows_refl _ _, hw⟩
  cases op with
  | ratio n d s =>
    match kt, hc with
    | [cn, cd], hc =>
      obtain ⟨h1, h2, _⟩ := hc
      have e1 := getValue_coh (meta_ := meta_) (rec := rec) h1
      have e2 := getValue_coh (meta_ := meta_) (rec := rec) h2
      have f1 := getValue_fst meta_ D n rec
      have f2 := getValue_fst meta_ D d rec
      simp only [process, KState.new, LOp.names, List.length_cons, List.length_nil, Nat.reduceAdd, List.replicate_succ, List.replicate_zero, e1, e2, f1, f2]
      have ck : CachesOk D [n, d] [D.attr n, D.attr d] := ⟨fun _ h => h, fun _ h => h, trivial⟩
      split
      · exact keep _ _ _ ck rfl (by intro t ht; cases ht)
      · split
        · exact keep _ _ _ ck rfl (by intro t ht; cases ht)
        · refine emit_same (L := ⟨target, .ratio n d s, cond⟩) hw (k := ⟨_, _⟩) hr (by intro a ha; cases ha) ?_ (by intro t ht; cases ht) _ _ _; exact ck
  | scale t s =>
    match kt, hc with
    | [c], hc =>
      obtain ⟨h1, _⟩ := hc
      have e1 := getValue_coh (meta_ := meta_) (rec := rec) h1
      have f1 := getValue_fst meta_ D t rec
      simp only [process, KState.new, LOp.names, List.length_cons, List.length_nil, Nat.reduceAdd, List.replicate_succ, List.replicate_zero, e1, f1]
      have ck : CachesOk D [t] [D.attr t] := ⟨fun _ h => h, trivial⟩
      split
      · exact keep _ _ _ ck rfl (by intro t ht; cases ht)
      · refine emit_same (L := ⟨target, .scale t s, cond⟩) hw (k := ⟨_, _⟩) hr (by intro a ha; cases ha) ?_ (by intro t ht; cases ht) _ _ _; exact ck
  | truncate t s =>
    match kt, hc with
    | [c], hc =>
      obtain ⟨h1, h0⟩ := hc
      have e1 := getValue_coh (meta_ := meta_) (rec := rec) h1
      have f1 := getValue_fst meta_ D t rec
      simp only [process, KState.new, LOp.names, List.length_cons, List.length_nil, Nat.reduceAdd, List.replicate_succ, List.replicate_zero, e1]
      generalize getValue meta_ D t none rec = g at *
      obtain ⟨g1, g2⟩ := g
      simp only at f1
      cases g1 with
      | none => exact keep _ _ _ ⟨h1, h0⟩ rfl (by intro t ht; cases ht)
      | some a =>
        have ck : CachesOk D [t] [some a] := ⟨fun b h => (by cases h; exact f1.symm), trivial⟩
        simp only
        split
        · exact keep _ _ _ ck rfl (by intro t ht; cases ht)
        · refine emit_same (L := ⟨target, .truncate t s, cond⟩) hw (k := ⟨_, _⟩) hr (by intro a ha; cases ha) ?_ (by intro t ht; cases ht) _ _ _; exact ck
  | first ts =>
    simp only [LOp.names] at hc
    have hf := firstLoop_coh (meta_ := meta_) (rec := rec) hc
    simp only [process, KState.new, LOp.names]
    generalize firstLoop meta_ D rec ts kt = f at *
    generalize firstLoop meta_ D rec ts (List.replicate ts.length none) = f' at *
    obtain ⟨f1, f2⟩ := f; obtain ⟨f1', f2'⟩ := f'
    obtain ⟨hf1, hf2⟩ := hf
    simp only at hf1 hf2
    subst hf2
    cases f2 with
    | none => exact keep _ _ _ hf1 rfl (by intro t ht; cases ht)
    | some x => refine emit_same (L := ⟨target, .first ts, cond⟩) hw (k := ⟨_, _⟩) hr (by intro a ha; cases ha) ?_ (by intro t ht; cases ht) _ _ _; exact hf1
  | sum ts =>
    simp only [LOp.names] at hc
    have hf := sumLoop_coh (O := O) (meta_ := meta_) (rec := rec) hc .inv
    simp only [process, KState.new, LOp.names]
    generalize sumLoop O meta_ D rec ts kt .inv = f at *
    generalize sumLoop O meta_ D rec ts (List.replicate ts.length none) .inv = f' at *
    obtain ⟨f1, f2⟩ := f; obtain ⟨f1', f2'⟩ := f'
    obtain ⟨hf1, hf2⟩ := hf
    simp only at hf1 hf2
    subst hf2
    unfold sumEnd
    simp only
    split
    · exact keep _ _ _ hf1 rfl (by intro t ht; cases ht)
    · refine emit_same (L := ⟨target, .sum ts, cond⟩) hw (k := ⟨_, _⟩) hr (by intro a ha; cases ha) ?_ (by intro t ht; cases ht) _ _ _; exact hf1
  | leafPath =>
    simp only [process, KState.new]
    cases kr with
    | none =>
      simp only
      refine ⟨by rw [(leafRun_fst ..).1, (leafRun_fst ..).1], leafRun_rec .., ?_, ?_, ?_⟩
      · rw [(leafRun_fst ..).1, (leafRun_fst ..).2]
        refine ⟨hc.mono fun _ _ h => attr_create_some h, ?_, fun t _ ht => by cases ht⟩
        intro a ha; cases ha; exact attr_create_self D _ _ _
      · rw [(leafRun_fst ..).1]; exact grows_create hw _ _
      · rw [(leafRun_fst ..).1]; exact WF.create hw _ _ _
    | some a =>
      rw [create_of_attr (hr a rfl)]
      simp only
      refine ⟨by rw [(leafRun_fst ..).1, (leafRun_fst ..).1], leafRun_rec .., ?_, ?_, ?_⟩
      · rw [(leafRun_fst ..).1, (leafRun_fst ..).2]
        exact ⟨hc, hr, fun t _ ht => by cases ht⟩
      · rw [(leafRun_fst ..).1]; exact grows_refl _ _
      · rw [(leafRun_fst ..).1]; exact hw
  | leaf t =>
    match kt, hc with
    | [c], hc =>
      simp only [process, KState.new, LOp.names, List.length_cons, List.length_nil, Nat.reduceAdd, List.replicate_succ, List.replicate_zero]
      cases kr with
      | none =>
        simp only
        cases hD : D.attr t with
        | none => exact keep _ _ _ ⟨fun _ h => (by cases h), trivial⟩ rfl (fun _ _ => rfl)
        | some ta =>
          simp only
          refine ⟨rfl, leafRun_rec .., ?_, ?_, ?_⟩
          · rw [(leafRun_fst ..).1, (leafRun_fst ..).2]
            refine ⟨⟨fun b hb => (by cases hb; exact attr_create_some hD), trivial⟩, ?_, ?_⟩
            · intro a ha; cases ha; exact attr_create_self D _ _ _
            · intro t' a ht ha; cases ht; exact ⟨ta, rfl, attr_create_some hD⟩
          · rw [(leafRun_fst ..).1]; exact grows_create hw _ _
          · rw [(leafRun_fst ..).1]; exact WF.create hw _ _ _
      | some a =>
        obtain ⟨ta, h3, h4⟩ := hl t a rfl rfl
        cases h3
        simp only [h4]
        rw [create_of_attr (hr a rfl)]
        simp only
        refine ⟨by rw [(leafRun_fst ..).1, (leafRun_fst ..).1], leafRun_rec .., ?_, ?_, ?_⟩
        · rw [(leafRun_fst ..).1, (leafRun_fst ..).2]
          exact ⟨hc, hr, fun t' _ ht _ => by cases ht; exact ⟨ta, rfl, h4⟩⟩
        · rw [(leafRun_fst ..).1]; exact grows_refl _ _
        · rw [(leafRun_fst ..).1]; exact hw

/-! ### what a kernel computes -/

theorem inner_imm (a b : Nat) (v : Val) : inner a (.imm b v) = if b = a then some v else none := by
  unfold inner pairs
  by_cases h : b = a <;> simp [h]

theorem inner_ref (a : Nat) (p : List (Nat × Val)) : inner a (.ref p) = (p.find? fun x => decide (x.1 = a)).map Prod.snd := by
  unfold inner pairs
  simp [List.head?_filter]

theorem getEntry_eq (a : Nat) (e : QEnt) : getEntry a e = inner a e := by
  cases e with
  | ref p => rw [inner_ref]; rfl
  | imm b v => rw [inner_imm]; rfl

theorem findVal_free {l : List (Nat × Val)} {a : Nat} (h : ∀ x ∈ l, x.1 ≠ a) : findVal l a = .inv := by
  unfold findVal
  have : l.find? (fun x => decide (x.1 = a)) = none := by
    rw [List.find?_eq_none]; intro x hx; simpa using h x hx
  rw [this]; rfl

theorem entryValue_eq {meta_ : Nat → List (Nat × Val)} {a : Nat} (h : ∀ b, ∀ x ∈ meta_ b, x.1 ≠ a) (e : QEnt) :
    entryValue meta_ a e = (inner a e).getD .inv := by
  cases e with
  | ref p => rw [inner_ref]; rfl
  | imm b v =>
    rw [inner_imm]
    simp only [entryValue]
    by_cases hb : b = a
    · simp [hb]
    · simp [hb, findVal_free (h b)]

theorem firstValue_iff {meta_ : Nat → List (Nat × Val)} {a : Nat} (h : ∀ b, ∀ x ∈ meta_ b, x.1 ≠ a) (rec : List QEnt) (v : Val) (hv : v ≠ .inv) :
    firstValue meta_ a rec = v ↔ FirstVal rec a v := by
  induction rec with
  | nil =>
    constructor
    · intro h; exact absurd h.symm hv
    · rintro ⟨pre, e, post, h, -⟩; simp at h
  | cons e es ih =>
    unfold firstValue
    rw [entryValue_eq h]
    by_cases he : (inner a e).getD .inv = .inv
    · rw [if_neg (by simpa using he), ih]
      constructor
      · rintro ⟨pre, e', post, rfl, h1, h2, h3⟩
        refine ⟨e :: pre, e', post, rfl, h1, h2, ?_⟩
        intro x hx w hw
        rcases List.mem_cons.1 hx with rfl | hx
        · rw [hw] at he; exact he
        · exact h3 x hx w hw
      · rintro ⟨pre, e', post, heq, h1, h2, h3⟩
        cases pre with
        | nil =>
          simp only [List.nil_append, List.cons.injEq] at heq
          obtain ⟨rfl, rfl⟩ := heq
          rw [h1] at he; exact absurd he h2
        | cons x pre =>
          simp only [List.cons_append, List.cons.injEq] at heq
          obtain ⟨rfl, rfl⟩ := heq
          exact ⟨pre, e', post, rfl, h1, h2, fun y hy => h3 y (List.mem_cons_of_mem _ hy)⟩
    · rw [if_pos he]
      cases hi : inner a e with
      | none => rw [hi] at he; exact absurd rfl he
      | some w =>
        rw [hi] at he
        simp only [Option.getD_some] at he ⊢
        constructor
        · rintro rfl; exact ⟨[], e, es, rfl, hi, he, by simp⟩
        · rintro ⟨pre, e', post, heq, h1, h2, h3⟩
          cases pre with
          | nil =>
            simp only [List.nil_append, List.cons.injEq] at heq
            obtain ⟨rfl, rfl⟩ := heq
            rw [hi] at h1; exact Option.some.inj h1
          | cons x pre =>
            simp only [List.cons_append, List.cons.injEq] at heq
            obtain ⟨rfl, rfl⟩ := heq
            exact absurd (h3 e (List.mem_cons_self ..) w hi) he

/-- no attribute has metadata for the attribute named `n` -/
def Free (meta_ : Nat → List (Nat × Val)) (D : PDB) (n : Str) : Prop := ∀ a, D.attr n = some a → ∀ b, ∀ x ∈ meta_ b, x.1 ≠ a.id

theorem getValue_has {meta_ : Nat → List (Nat × Val)} {D : PDB} {n : Str} (h : Free meta_ D n) (rec : List QEnt) (v : Val) :
    ((getValue meta_ D n none rec).2 = v ∧ v ≠ .inv) ↔ Has D rec n v := by
  unfold getValue Has
  cases hD : D.attr n with
  | none => simp; rintro rfl
            simp
  | some a =>
    simp only [Option.some.injEq, exists_eq_left']
    constructor
    · rintro ⟨h1, h2⟩; exact (firstValue_iff (h a hD) rec v h2).1 h1
    · intro hf
      obtain ⟨pre, e, post, h1, h2, h3, h4⟩ := id hf
      exact ⟨(firstValue_iff (h a hD) rec v h3).2 hf, h3⟩

theorem getValue_none {meta_ : Nat → List (Nat × Val)} {D : PDB} {n : Str} (h : Free meta_ D n) (rec : List QEnt) :
    (getValue meta_ D n none rec).2 = .inv ↔ ¬∃ v, Has D rec n v := by
  constructor
  · rintro hv ⟨w, hw⟩
    have := (getValue_has h rec w).2 hw
    exact this.2 (this.1 ▸ hv)
  · intro hn
    by_cases hv : (getValue meta_ D n none rec).2 = .inv
    · exact hv
    · exact absurd ⟨_, (getValue_has h rec _).1 ⟨rfl, hv⟩⟩ hn

theorem has_unique {meta_ : Nat → List (Nat × Val)} {D : PDB} {n : Str} (h : Free meta_ D n) {rec : List QEnt} {v w : Val}
    (hv : Has D rec n v) (hw : Has D rec n w) : v = w :=
  ((getValue_has h rec v).2 hv).1.symm.trans ((getValue_has h rec w).2 hw).1

theorem firstLoop_spec {meta_ : Nat → List (Nat × Val)} {D : PDB} {rec : List QEnt} {ns : List Str} (h : ∀ n ∈ ns, Free meta_ D n) :
    match (firstLoop meta_ D rec ns (List.replicate ns.length none)).2 with
    | some (a, v) => ∃ pre n post, ns = pre ++ n :: post ∧ D.attr n = some a ∧ Has D rec n v ∧ ∀ m ∈ pre, ¬∃ w, Has D rec m w
    | none => ∀ n ∈ ns, ¬∃ w, Has D rec n w := by
  induction ns with
  | nil => simp [firstLoop]
  | cons n ns ih =>
    have ih := ih fun m hm => h m (List.mem_cons_of_mem _ hm)
    have hn := h n (List.mem_cons_self ..)
    have f1 := getValue_fst meta_ D n rec
    have f2 := getValue_none hn rec
    have f3 := getValue_has hn rec
    simp only [firstLoop, List.length_cons, List.replicate_succ]
    generalize getValue meta_ D n none rec = g at *
    obtain ⟨g1, g2⟩ := g
    simp only at f1 f2 f3
    have lift : ∀ r : Option (PAttr × Val), (¬∃ w, Has D rec n w) → (match r with
      | some (a, v) => ∃ pre n post, ns = pre ++ n :: post ∧ D.attr n = some a ∧ Has D rec n v ∧ ∀ m ∈ pre, ¬∃ w, Has D rec m w
      | none => ∀ n ∈ ns, ¬∃ w, Has D rec n w) → (match r with
      | some (a, v) => ∃ pre m post, n :: ns = pre ++ m :: post ∧ D.attr m = some a ∧ Has D rec m v ∧ ∀ m ∈ pre, ¬∃ w, Has D rec m w
      | none => ∀ m ∈ n :: ns, ¬∃ w, Has D rec m w) := by
      intro r hno hr
      cases r with
      | none =>
        intro m hm
        rcases List.mem_cons.1 hm with rfl | hm
        · exact hno
        · exact hr m hm
      | some x =>
        obtain ⟨pre, m, post, rfl, h1, h2, h3⟩ := hr
        refine ⟨n :: pre, m, post, rfl, h1, h2, ?_⟩
        intro m hm
        rcases List.mem_cons.1 hm with rfl | hm
        · exact hno
        · exact h3 m hm
    cases g1 with
    | none =>
      refine lift _ ?_ ih
      rintro ⟨w, a, ha, -⟩
      rw [← f1] at ha; cases ha
    | some a =>
      simp only
      by_cases hg : g2 = .inv
      · rw [if_pos hg]
        exact lift _ (f2.1 hg) ih
      · rw [if_neg hg]
        exact ⟨[], n, ns, rfl, f1.symm, (f3 g2).1 ⟨rfl, hg⟩, by simp⟩

theorem addVal_ne_inv (O : FOps) {a b : Val} (h : b ≠ .inv) : addVal O a b ≠ .inv := by
  unfold addVal combine
  cases a <;> cases b <;> simp_all

theorem sumLoop_spec {O : POps} {meta_ : Nat → List (Nat × Val)} {D : PDB} {rec : List QEnt} {ns : List Str} (h : ∀ n ∈ ns, Free meta_ D n) (s : Val) :
    ∃ vs, Present D rec ns vs ∧ (∀ v ∈ vs, v ≠ .inv) ∧
      (sumLoop O meta_ D rec ns (List.replicate ns.length none) s).2 = vs.foldl (addVal O.toFOps) s := by
  induction ns generalizing s with
  | nil => exact ⟨[], .nil, by simp, rfl⟩
  | cons n ns ih =>
    have hn := h n (List.mem_cons_self ..)
    have ih := ih fun m hm => h m (List.mem_cons_of_mem _ hm)
    simp only [sumLoop, List.length_cons, List.replicate_succ]
    by_cases hg : (getValue meta_ D n none rec).2 = .inv
    · rw [if_pos hg]
      obtain ⟨vs, h1, h0, h2⟩ := ih s
      exact ⟨vs, .skip ((getValue_none hn rec).1 hg) h1, h0, h2⟩
    · rw [if_neg hg]
      obtain ⟨vs, h1, h0, h2⟩ := ih (addVal O.toFOps s (getValue meta_ D n none rec).2)
      refine ⟨_ :: vs, .has ((getValue_has hn rec _).1 ⟨rfl, hg⟩) h1, ?_, h2⟩
      intro v hv
      rcases List.mem_cons.1 hv with rfl | hv
      · exact hg
      · exact h0 v hv

theorem present_unique {meta_ : Nat → List (Nat × Val)} {D : PDB} {rec : List QEnt} {ns : List Str} (h : ∀ n ∈ ns, Free meta_ D n) {vs ws : List Val}
    (hv : Present D rec ns vs) (hw : Present D rec ns ws) : vs = ws := by
  induction hv generalizing ws with
  | nil => cases hw; rfl
  | has h1 _ ih =>
    cases hw with
    | has h2 h3 => rw [has_unique (h _ (List.mem_cons_self ..)) h1 h2, ih (fun m hm => h m (List.mem_cons_of_mem _ hm)) h3]
    | skip h2 _ => exact absurd ⟨_, h1⟩ h2
  | skip h1 _ ih =>
    cases hw with
    | has h2 h3 => exact absurd ⟨_, h2⟩ h1
    | skip h2 h3 => exact ih (fun m hm => h m (List.mem_cons_of_mem _ hm)) h3

theorem pathValue_iff (D : PDB) (e : QEnt) (v : Val) : pathValue D e = some v ↔ PathLeaf D e v := by
  unfold pathValue PathLeaf
  cases e with
  | imm a w => simp
  | ref p =>
    simp only [Option.map_eq_some_iff, List.find?_eq_some_iff_append, QEnt.ref.injEq]
    constructor
    · rintro ⟨⟨a, w⟩, ⟨h1, p1, p2, rfl, h2⟩, rfl⟩
      exact ⟨p1, a, p2, rfl, h1, fun x hx => by simpa using h2 x hx⟩
    · rintro ⟨p1, a, p2, rfl, h1, h2⟩
      exact ⟨(a, v), ⟨h1, p1, p2, rfl, fun x hx => by simpa using h2 x hx⟩, rfl⟩

theorem leafLoop_iff {get : QEnt → Option Val} {G : QEnt → Val → Prop} (hg : ∀ e v, get e = some v ↔ G e v) (t : AttrType) (rec : List QEnt) (v : Val) :
    leafLoop get t rec = some v ↔ FirstOfType G t rec v := by
  induction rec with
  | nil =>
    constructor
    · intro h; cases h
    · rintro ⟨pre, e, post, h, -⟩; simp at h
  | cons e es ih =>
    unfold leafLoop
    have skip : (∀ w, G e w → w.ty ≠ t) → (FirstOfType G t es v ↔ FirstOfType G t (e :: es) v) := by
      intro hs
      constructor
      · rintro ⟨pre, e', post, rfl, h1, h2, h3⟩
        refine ⟨e :: pre, e', post, rfl, h1, h2, ?_⟩
        intro x hx w hw
        rcases List.mem_cons.1 hx with rfl | hx
        · exact hs w hw
        · exact h3 x hx w hw
      · rintro ⟨pre, e', post, heq, h1, h2, h3⟩
        cases pre with
        | nil =>
          simp only [List.nil_append, List.cons.injEq] at heq
          obtain ⟨rfl, rfl⟩ := heq
          exact absurd h2 (hs v h1)
        | cons x pre =>
          simp only [List.cons_append, List.cons.injEq] at heq
          obtain ⟨rfl, rfl⟩ := heq
          exact ⟨pre, e', post, rfl, h1, h2, fun y hy => h3 y (List.mem_cons_of_mem _ hy)⟩
    cases he : get e with
    | none =>
      simp only
      rw [ih]
      exact skip fun w hw => by rw [(hg e w).2 hw] at he; cases he
    | some w =>
      simp only
      by_cases hw : w.ty = t
      · rw [if_pos hw]
        constructor
        · intro h
          rw [Option.some.injEq] at h
          rw [h] at he hw
          exact ⟨[], e, es, rfl, (hg e v).1 he, hw, by simp⟩
        · rintro ⟨pre, e', post, heq, h1, h2, h3⟩
          cases pre with
          | nil =>
            simp only [List.nil_append, List.cons.injEq] at heq
            obtain ⟨rfl, rfl⟩ := heq
            rw [← he]; exact (hg e v).2 h1
          | cons x pre =>
            simp only [List.cons_append, List.cons.injEq] at heq
            obtain ⟨rfl, rfl⟩ := heq
            exact absurd hw (h3 e (List.mem_cons_self ..) w ((hg e w).1 he))
      · rw [if_neg hw, ih]
        refine skip fun u hu => ?_
        rw [(hg e u).2 hu] at he; cases he; exact hw

theorem leafRun_spec {D : PDB} {k : KState} {a : PAttr} {get : QEnt → Option Val} {G : QEnt → Val → Prop} (hg : ∀ e v, get e = some v ↔ G e v) (rec : List QEnt) :
    (∃ v, FirstOfType G a.ty rec v ∧ (leafRun D k a get rec).2.2 = rec ++ [.imm a.id v]) ∨
    ((¬∃ v, FirstOfType G a.ty rec v) ∧ (leafRun D k a get rec).2.2 = rec) := by
  unfold leafRun
  cases h : leafLoop get a.ty rec with
  | some v => exact .inl ⟨v, (leafLoop_iff hg _ _ _).1 h, rfl⟩
  | none =>
    refine .inr ⟨?_, rfl⟩
    rintro ⟨v, hv⟩
    rw [(leafLoop_iff hg _ _ _).2 hv] at h; cases h

/-- a new kernel on one record -/
theorem process_new_spec (O : POps) (meta_ : Nat → List (Nat × Val)) (L : LetDef) {D : PDB} (hw : D.WF) (rec : List QEnt)
    (hfree : ∀ n ∈ L.op.names, Free meta_ D n) :
    let x := process O meta_ L D (KState.new L.op) rec
    (∃ a v, x.1.attr L.target = some a ∧ Computes O D a.ty rec L.op v ∧ x.2.2 = rec ++ [.imm a.id v]) ∨
    ((∀ rt, (∀ a, x.1.attr L.target = some a → a.ty = rt) → ¬∃ v, Computes O D rt rec L.op v) ∧ x.2.2 = rec) := by
  obtain ⟨target, op, cond⟩ := L
  have em : ∀ (k : KState) (t : AttrType) (v : Val), k.res = none → (∀ rt, Computes O D rt rec op v) →
      (∃ a w, (emit D k target t v rec).1.attr target = some a ∧ Computes O D a.ty rec op w ∧ (emit D k target t v rec).2.2 = rec ++ [.imm a.id w]) := by
    intro k t v hk hv
    rw [emit_eq (by rw [hk]; intro a ha; cases ha)]
    exact ⟨_, v, attr_create_self .., hv _, rfl⟩
  cases op with
  | ratio n d s =>
    have hn := hfree n (by simp [LOp.names])
    have hd := hfree d (by simp [LOp.names])
    simp only [process, KState.new, LOp.names, List.length_cons, List.length_nil, Nat.reduceAdd, List.replicate_succ, List.replicate_zero]
    split
    · rename_i h
      refine .inr ⟨?_, rfl⟩
      rintro rt - ⟨v, x, y, hx, hy, -⟩
      rcases h with h | h
      · exact (getValue_none hn rec).1 h ⟨x, hx⟩
      · exact (getValue_none hd rec).1 h ⟨y, hy⟩
    · rename_i h
      simp only [not_or] at h
      have hx := (getValue_has hn rec _).1 ⟨rfl, h.1⟩
      have hy := (getValue_has hd rec _).1 ⟨rfl, h.2⟩
      split
      · rename_i h0
        refine .inr ⟨?_, rfl⟩
        rintro rt - ⟨v, x, y, hx', hy', hz, -⟩
        rw [has_unique hd hy' hy] at hz
        rw [hz] at h0; simp at h0
      · rename_i h0
        exact .inl (em _ _ _ rfl fun rt => ⟨_, _, hx, hy, by simpa using h0, rfl⟩)
  | scale t s =>
    have hn := hfree t (by simp [LOp.names])
    simp only [process, KState.new, LOp.names, List.length_cons, List.length_nil, Nat.reduceAdd, List.replicate_succ, List.replicate_zero]
    split
    · rename_i h
      refine .inr ⟨?_, rfl⟩
      rintro rt - ⟨v, x, hx, -⟩
      exact (getValue_none hn rec).1 h ⟨x, hx⟩
    · rename_i h
      exact .inl (em _ _ _ rfl fun rt => ⟨_, (getValue_has hn rec _).1 ⟨rfl, h⟩, rfl⟩)
  | truncate t f =>
    have hn := hfree t (by simp [LOp.names])
    have f1 := getValue_fst meta_ D t rec
    have f2 := getValue_none hn rec
    have f3 := getValue_has hn rec
    simp only [process, KState.new, LOp.names, List.length_cons, List.length_nil, Nat.reduceAdd, List.replicate_succ, List.replicate_zero]
    generalize getValue meta_ D t none rec = g at *
    obtain ⟨g1, g2⟩ := g
    simp only at f1 f2 f3
    cases g1 with
    | none =>
      refine .inr ⟨?_, rfl⟩
      rintro rt - ⟨v, a, x, ha, -⟩
      rw [← f1] at ha; cases ha
    | some a =>
      simp only
      by_cases hg : g2 = .inv
      · rw [if_pos hg]
        refine .inr ⟨?_, rfl⟩
        rintro rt - ⟨v, b, x, hb, hx, -⟩
        exact f2.1 hg ⟨x, b, hb, hx⟩
      · rw [if_neg hg]
        refine .inl (em _ _ _ rfl fun rt => ?_)
        obtain ⟨b, hb, hx⟩ := (f3 g2).1 ⟨rfl, hg⟩
        rw [← f1] at hb; cases hb
        refine ⟨a, g2, f1.symm, hx, ?_⟩
        unfold truncVal truncTy
        cases a.ty <;> simp
  | first ts =>
    have hs := firstLoop_spec (rec := rec) (meta_ := meta_) (D := D) (ns := ts) hfree
    simp only [process, KState.new, LOp.names]
    generalize firstLoop meta_ D rec ts (List.replicate ts.length none) = f at *
    obtain ⟨f1, f2⟩ := f
    simp only at hs
    cases f2 with
    | none =>
      refine .inr ⟨?_, rfl⟩
      rintro rt - ⟨v, pre, n, post, rfl, hv, -⟩
      exact hs n (by simp) ⟨v, hv⟩
    | some x =>
      obtain ⟨pre, n, post, h1, h2, h3, h4⟩ := hs
      exact .inl (em _ _ _ rfl fun rt => ⟨pre, n, post, h1, h3, h4⟩)
  | sum ts =>
    obtain ⟨vs, h1, h0, h2⟩ := sumLoop_spec (O := O) (rec := rec) (meta_ := meta_) (D := D) (ns := ts) hfree .inv
    simp only [process, KState.new, LOp.names]
    generalize sumLoop O meta_ D rec ts (List.replicate ts.length none) .inv = f at *
    obtain ⟨f1, f2⟩ := f
    simp only at h2
    unfold sumEnd
    simp only
    cases vs with
    | nil =>
      simp only [List.foldl_nil] at h2
      rw [if_pos h2]
      refine .inr ⟨?_, rfl⟩
      rintro rt - ⟨v, x, xs, hp, -⟩
      have := present_unique hfree h1 hp
      cases this
    | cons x xs =>
      have hx : addVal O.toFOps .inv x = x := by cases x <;> rfl
      rw [List.foldl_cons, hx] at h2
      have hne : f2 ≠ .inv := by
        rw [h2]
        have hxx := h0 x (by simp)
        have hxs := fun v hv => h0 v (List.mem_cons_of_mem x hv)
        clear h2 hx h1 h0
        induction xs generalizing x with
        | nil => exact hxx
        | cons y ys ih =>
          rw [List.foldl_cons]
          exact ih _ (addVal_ne_inv _ (hxs y (by simp))) fun v hv => hxs v (List.mem_cons_of_mem _ hv)
      rw [if_neg hne]
      exact .inl (em _ _ _ rfl fun rt => ⟨x, xs, h1, h2⟩)
  | leafPath =>
    simp only [process, KState.new]
    have hg : ∀ e v, pathValue (D.create target .string false).1 e = some v ↔ PathLeaf D e v := by
      intro e v
      rw [pathValue_iff]
      unfold PathLeaf
      simp only [isNested_create hw]
    rw [(leafRun_fst ..).1]
    rcases leafRun_spec (D := (D.create target .string false).1) (k := ⟨none, []⟩) (a := (D.create target .string false).2) hg rec with ⟨v, h1, h2⟩ | ⟨h1, h2⟩
    · exact .inl ⟨_, v, attr_create_self .., h1, h2⟩
    · refine .inr ⟨?_, h2⟩
      intro rt hrt
      rw [← hrt _ (attr_create_self ..)]
      exact h1
  | leaf t =>
    simp only [process, KState.new, LOp.names, List.length_cons, List.length_nil, Nat.reduceAdd, List.replicate_succ, List.replicate_zero]
    cases hD : D.attr t with
    | none =>
      refine .inr ⟨?_, rfl⟩
      rintro rt - ⟨v, a, ha, -⟩
      rw [hD] at ha; cases ha
    | some ta =>
      simp only
      have hg : ∀ e v, getEntry ta.id e = some v ↔ (fun e w => inner ta.id e = some w) e v := by
        intro e v; rw [getEntry_eq]
      rw [(leafRun_fst ..).1]
      rcases leafRun_spec (D := (D.create target ta.ty false).1) (k := ⟨none, [some ta]⟩) (a := (D.create target ta.ty false).2) hg rec with ⟨v, h1, h2⟩ | ⟨h1, h2⟩
      · exact .inl ⟨_, v, attr_create_self .., ⟨ta, hD, h1⟩, h2⟩
      · refine .inr ⟨?_, h2⟩
        rintro rt hrt ⟨v, b, hb, hv⟩
        rw [hD] at hb; cases hb
        rw [← hrt _ (attr_create_self ..)] at hv
        exact h1 ⟨v, hv⟩

/-- a state of a running query -/
structure Good (Ls : List LetDef) (s : PDB × List (LetDef × KState)) : Prop where
  wf : s.1.WF
  lets : s.2.map Prod.fst = Ls
  coh : ∀ x ∈ s.2, Coh s.1 x.1 x.2

theorem Grows.keep {D D' : PDB} {n : Str} (h : Grows D D' n) : ∀ m a, D.attr m = some a → D'.attr m = some a := h.1

theorem preprocess_good (O : POps) (meta_ : Nat → List (Nat × Val)) (dcmp : U64 → U64 → Int) (F : DblFmt) {Ls : List LetDef} {D : PDB}
    {ks : List (LetDef × KState)} (h : Good Ls (D, ks)) (rec : List QEnt) :
    let x := preprocess O meta_ dcmp F ks D rec
    Good Ls (x.1, x.2.1) ∧ (∀ m a, D.attr m = some a → x.1.attr m = some a) ∧
    (preprocess O meta_ dcmp F (configure Ls) D rec).1 = x.1 ∧ (preprocess O meta_ dcmp F (configure Ls) D rec).2.2 = x.2.2 := by
  induction ks generalizing D rec Ls with
  | nil =>
    have := h.lets
    simp only [List.map_nil] at this
    subst this
    exact ⟨h, fun _ _ h => h, rfl, rfl⟩
  | cons y ks ih =>
    obtain ⟨L, k⟩ := y
    have hl := h.lets
    simp only [List.map_cons] at hl
    subst hl
    have hk := h.coh _ (List.mem_cons_self ..)
    simp only [preprocess, configure, List.map_cons]
    split
    · obtain ⟨s1, s2, s3, s4, s5⟩ := process_same O meta_ h.wf hk rec
      have h' : Good (ks.map Prod.fst) ((process O meta_ L D k rec).1, ks) :=
        ⟨s5, rfl, fun x hx => (h.coh x (List.mem_cons_of_mem _ hx)).mono s4.1⟩
      obtain ⟨i1, i2, i3, i4⟩ := ih h' (process O meta_ L D k rec).2.2
      refine ⟨⟨i1.wf, ?_, ?_⟩, fun m a ha => i2 m a (s4.1 m a ha), ?_, ?_⟩
      · simp only [List.map_cons]; rw [i1.lets]
      · intro x hx
        simp only [List.mem_cons] at hx
        rcases hx with rfl | hx
        · exact s3.mono i2
        · exact i1.coh x hx
      · rw [← s1, ← s2]; exact i3
      · rw [← s1, ← s2]; exact i4
    · have h' : Good (ks.map Prod.fst) (D, ks) := ⟨h.wf, rfl, fun x hx => h.coh x (List.mem_cons_of_mem _ hx)⟩
      obtain ⟨i1, i2, i3, i4⟩ := ih h' rec
      refine ⟨⟨i1.wf, ?_, ?_⟩, i2, i3, i4⟩
      · simp only [List.map_cons]; rw [i1.lets]
      · intro x hx
        simp only [List.mem_cons] at hx
        rcases hx with rfl | hx
        · exact hk.mono i2
        · exact i1.coh x hx

theorem good_start {D : PDB} (h : D.WF) (Ls : List LetDef) : Good Ls (D, configure Ls) := by
  refine ⟨h, by simp [configure, Function.comp_def], ?_⟩
  intro x hx
  simp only [configure, List.mem_map] at hx
  obtain ⟨L, _, rfl⟩ := hx
  exact coh_new D L

theorem prun_good (O : POps) (meta_ : Nat → List (Nat × Val)) (dcmp : U64 → U64 → Int) (F : DblFmt) {Ls : List LetDef}
    {s : PDB × List (LetDef × KState)} (h : Good Ls s) (ps : List PStep) : Good Ls (prun O meta_ dcmp F s ps).1 := by
  induction ps generalizing s with
  | nil => exact h
  | cons p ps ih =>
    simp only [prun]
    apply ih
    cases p with
    | create n t b =>
      exact ⟨WF.create h.wf _ _ _, h.lets, fun x hx => (h.coh x hx).mono fun _ _ h => attr_create_some h⟩
    | record r => exact (preprocess_good O meta_ dcmp F (D := s.1) (ks := s.2) h r).1

theorem chain_of (O : POps) (meta_ : Nat → List (Nat × Val)) (dcmp : U64 → U64 → Int) (F : DblFmt) {Ls : List LetDef} {D : PDB} (hw : D.WF) (rec : List QEnt)
    (hm : MetaFree meta_ (preprocess O meta_ dcmp F (configure Ls) D rec).1 Ls) :
    LetChain O dcmp F Ls D rec (preprocess O meta_ dcmp F (configure Ls) D rec).1 (preprocess O meta_ dcmp F (configure Ls) D rec).2.2 := by
  induction Ls generalizing D rec with
  | nil => exact .nil
  | cons L Ls ih =>
    simp only [configure, List.map_cons, preprocess] at hm ⊢
    split at hm
    · rename_i hp
      rw [if_pos hp]
      obtain ⟨s1, s2, s3, s4, s5⟩ := process_same O meta_ hw (coh_new D L) rec
      have g := preprocess_good O meta_ dcmp F (good_start s5 Ls) (process O meta_ L D (KState.new L.op) rec).2.2
      have hfree : ∀ n ∈ L.op.names, Free meta_ D n := fun n hn a ha => hm L (List.mem_cons_self ..) n hn a (g.2.1 _ _ (s4.1 _ _ ha))
      refine .cons (D1 := (process O meta_ L D (KState.new L.op) rec).1) (rec1 := (process O meta_ L D (KState.new L.op) rec).2.2) ⟨s4, ?_⟩ ?_
      · rw [if_pos hp]
        exact process_new_spec O meta_ L hw rec hfree
      · exact ih s5 _ fun L' hL' => hm L' (List.mem_cons_of_mem _ hL')
    · rename_i hp
      rw [if_neg hp]
      refine .cons (D1 := D) (rec1 := rec) ⟨grows_refl _ _, ?_⟩ (ih hw _ fun L' hL' => hm L' (List.mem_cons_of_mem _ hL'))
      rw [if_neg hp]
      exact ⟨rfl, rfl⟩

end Query.Pre
open Query.Pre

/-- **C57.**  At any point of a query - whatever records were processed and whatever attributes were created before - a record goes through
the LET definitions one after the other: where the condition holds (C31) and the operator has a value for the record, this value is
added under the given name; nothing else changes.  Requires that the operands do not occur as metadata of other attributes. -/
theorem C57_values_partial (O : POps) (meta_ : Nat → List (Nat × Val)) (dcmp : U64 → U64 → Int) (F : DblFmt) {D0 : PDB} (hw : ∀ a ∈ D0.attrs, a.id < D0.next)
    (Ls : List LetDef) (history : List PStep) (rec : List QEnt) :
    let s := (prun O meta_ dcmp F (D0, configure Ls) history).1
    let x := preprocess O meta_ dcmp F s.2 s.1 rec
    MetaFree meta_ x.1 Ls → LetChain O dcmp F Ls s.1 rec x.1 x.2.2 := by
  intro s x hm
  have g : Good Ls s := prun_good O meta_ dcmp F (good_start hw Ls) history
  obtain ⟨_, _, h3, h4⟩ := preprocess_good O meta_ dcmp F (D := s.1) (ks := s.2) g rec
  rw [← h3] at hm
  have := chain_of O meta_ dcmp F g.wf rec hm
  rw [h3, h4] at this
  exact this

/-- **C57 (independence).**  The output for a record does not depend on the records processed before it, other than through the attributes
that exist: a query started anew gives the same record. -/
theorem C57_history (O : POps) (meta_ : Nat → List (Nat × Val)) (dcmp : U64 → U64 → Int) (F : DblFmt) {D0 : PDB} (hw : ∀ a ∈ D0.attrs, a.id < D0.next)
    (Ls : List LetDef) (history : List PStep) (rec : List QEnt) :
    let s := (prun O meta_ dcmp F (D0, configure Ls) history).1
    (preprocess O meta_ dcmp F s.2 s.1 rec).2.2 = (preprocess O meta_ dcmp F (configure Ls) s.1 rec).2.2 := by
  intro s
  have g : Good Ls s := prun_good O meta_ dcmp F (good_start hw Ls) history
  exact (preprocess_good O meta_ dcmp F (D := s.1) (ks := s.2) g rec).2.2.2.symm

/-- **C57 (records are kept).**  The values of a record stay as they are, and each LET adds at most one. -/
theorem C57_kept {O : POps} {dcmp : U64 → U64 → Int} {F : DblFmt} {Ls : List LetDef} {D D' : PDB} {rec rec' : List QEnt}
    (h : LetChain O dcmp F Ls D rec D' rec') : ∃ added : List QEnt, rec' = rec ++ added ∧ added.length ≤ Ls.length := by
  induction h with
  | nil => exact ⟨[], by simp, by simp⟩
  | cons h1 _ ih =>
    obtain ⟨add2, rfl, hl⟩ := ih
    obtain ⟨-, h1⟩ := h1
    split at h1
    · rcases h1 with ⟨a, v, _, _, rfl⟩ | ⟨_, rfl⟩
      · exact ⟨.imm a.id v :: add2, by simp, by simpa using hl⟩
      · exact ⟨add2, rfl, by simp; omega⟩
    · obtain ⟨-, rfl⟩ := h1
      exact ⟨add2, rfl, by simp; omega⟩

/-- **C57 (sums).**  Integers are added as integers (64 bit). -/
theorem C57_sum_int {O : POps} {D : PDB} {rt : AttrType} {rec : List QEnt} {ts : List Str} {x : U64} {xs : List U64}
    (h : Present D rec ts (.int x :: xs.map .int)) : Computes O D rt rec (.sum ts) (.int (xs.foldl (· + ·) x)) := by
  refine ⟨_, _, h, ?_⟩
  clear h
  induction xs generalizing x with
  | nil => rfl
  | cons y ys ih => rw [List.foldl_cons, List.map_cons, List.foldl_cons]; exact ih

/-! ## Hypotheses are met -/

def c57Ops : POps :=
  { add := (· + ·), min := fun a _ => a, max := fun a _ => a, div := fun a _ => a,
    ofVal := fun v => match v with | .int i => i | .uint u => u | .double d => d | _ => 0,
    toInt := id, toUint := id, mul := (· * ·), fdiv := fun a b => BitVec.ofNat 64 (a.toNat / b.toNat), sub := (· - ·),
    fmod := fun a b => BitVec.ofNat 64 (a.toNat % b.toNat), nonzero := fun x => x ≠ 0, toI32 := fun x => x.setWidth 32, absU := id }

def c57Fmt : DblFmt := ⟨fun _ => [], fun _ => [], fun _ => none⟩

/-- attributes: `time` and `count` (int), `name` (string), `region` (nested), `size` (int, metadata of `count`) -/
def c57DB : PDB :=
  ⟨[⟨20, str "time", .int, false⟩, ⟨21, str "count", .int, false⟩, ⟨22, str "name", .string, false⟩, ⟨23, str "region", .string, true⟩,
    ⟨24, str "size", .int, false⟩], 30⟩

def c57Meta : Nat → List (Nat × Val)
  | 21 => [(8, .string (str "count")), (24, .int 64), (9, .type .int)]
  | _ => []

def c57Lets : List LetDef :=
  [⟨str "r", .ratio (str "time") (str "count") 10, ⟨.exist, str "count", []⟩⟩, ⟨str "x", .sum [str "r", str "nope", str "time"], ⟨.none, [], []⟩⟩,
   ⟨str "l", .leafPath, ⟨.none, [], []⟩⟩]

def c57Rec : List QEnt := [.ref [(22, .string (str "n")), (23, .string (str "in")), (23, .string (str "main"))], .imm 20 (.int 60), .imm 21 (.int 3)]

/-- An example: the ratio is 10 * (60 / 3), and is seen by the sum; the leaf is the innermost region. -/
example : (preprocess c57Ops c57Meta (fun _ _ => 0) c57Fmt (configure c57Lets) c57DB c57Rec).2.2 =
    c57Rec ++ [.imm 30 (.double 200), .imm 31 (.double 260), .imm 32 (.string (str "in"))] := by decide +kernel

example : (∀ a ∈ c57DB.attrs, a.id < c57DB.next) ∧ MetaFree c57Meta (preprocess c57Ops c57Meta (fun _ _ => 0) c57Fmt (configure c57Lets) c57DB c57Rec).1 c57Lets := by
  refine ⟨by decide, ?_⟩
  have hm : ∀ b, ∀ x ∈ c57Meta b, x.1 < 12 ∨ x.1 = 24 := by
    intro b x hx
    unfold c57Meta at hx
    split at hx
    · simp at hx; rcases hx with rfl | rfl | rfl <;> simp
    · simp at hx
  have hall : ∀ L ∈ c57Lets, ∀ n ∈ L.op.names, ∀ a ∈ ((preprocess c57Ops c57Meta (fun _ _ => 0) c57Fmt (configure c57Lets) c57DB c57Rec).1.attr n),
      12 ≤ a.id ∧ a.id ≠ 24 := by decide +kernel
  intro L hL n hn a ha b x hx hxa
  have h1 := hm b x hx
  have h2 := hall L hL n hn a ha
  omega

/-! ## Violations -/

/-- **Violation (metadata).**  The record has no value for `size`, but the metadata of another attribute in it is taken as its value. -/
theorem C57_violation_meta :
    (preprocess c57Ops c57Meta (fun _ _ => 0) c57Fmt (configure [⟨str "y", .scale (str "size") 2, ⟨.none, [], []⟩⟩]) c57DB [.imm 21 (.int 3)]).2.2 =
      [.imm 21 (.int 3), .imm 30 (.double 128)] ∧
    ¬∃ v, Has c57DB [.imm 21 (.int 3)] (str "size") v := by
  refine ⟨by decide +kernel, ?_⟩
  rintro ⟨v, a, ha, pre, e, post, h1, h2, -⟩
  have : a = ⟨24, str "size", .int, false⟩ := by
    have h : c57DB.attr (str "size") = some ⟨24, str "size", .int, false⟩ := by decide +kernel
    rw [h] at ha; exact (Option.some.inj ha).symm
  subst this
  have he : e = .imm 21 (.int 3) := by
    cases pre with
    | nil => simp at h1; exact h1.1.symm
    | cons x pre => simp at h1
  rw [he, inner_imm] at h2
  simp at h2

/-- **Violation (range).**  Truncated integers are converted to 32 bits: whatever the floating-point operations are, large values cannot come
out right. -/
theorem C57_violation_truncate (O : POps) {D : PDB} {rt : AttrType} {rec : List QEnt} {t : Str} {f : U64} {a : PAttr} (ha : D.attr t = some a)
    (ht : a.ty = .int) {v : Val} (h : Computes O D rt rec (.truncate t f) v) : ∃ i : U64, v = .int i ∧ -(2 ^ 31) ≤ i.toInt ∧ i.toInt < 2 ^ 31 := by
  obtain ⟨b, x, hb, hx, hv⟩ := h
  rw [ha] at hb; cases hb
  rw [ht] at hv
  simp only at hv
  refine ⟨_, hv, ?_⟩
  rw [BitVec.toInt_signExtend_of_le (by omega)]
  generalize O.toI32 _ = w
  have h1 := BitVec.toInt_lt (x := w)
  have h2 := BitVec.le_toInt (x := w)
  omega

/-- **Violation (types).**  The type of the new attribute is that of the first record's value; a later record gets a value of another type
under it. -/
theorem C57_violation_type :
    let Ls : List LetDef := [⟨str "y", .first [str "time", str "name"], ⟨.none, [], []⟩⟩]
    let s := prun c57Ops c57Meta (fun _ _ => 0) c57Fmt (c57DB, configure Ls) [.record [.imm 20 (.int 60)], .record [.imm 22 (.string (str "n"))]]
    s.2 = [[.imm 20 (.int 60), .imm 30 (.int 60)], [.imm 22 (.string (str "n")), .imm 30 (.string (str "n"))]] ∧
    (s.1.1.byId 30).map PAttr.ty = some .int := by
  refine ⟨by decide +kernel, by decide +kernel⟩

end Verif
