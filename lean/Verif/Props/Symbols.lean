import Verif.Serv.SymbolsSpec
import Mathlib.Data.List.Induction
/-!
# C99: symbol lookup gives each address its symbol, and each call path the path of its symbols
-/
namespace Verif.Sym
open Verif.MTree (PathL)

/-! ## lemmas -/

/-- the model's conversion to an address is the specified one -/
@[simp] theorem addrVal_eq (E : Env) (v : Val) : addrVal E v = E.addrOf v := by
  obtain ⟨ty, c⟩ := v
  cases c with
  | inl b => cases ty <;> rfl
  | inr w =>
    cases ty <;> simp only [addrVal, Env.addrOf] <;> try rfl
    · simp only [reduceCtorEq, or_self, if_false, if_true]
      split <;> (rw [BitVec.toInt_eq_toNat_cond] at *; split <;> omega)
    · simp only [reduceCtorEq, or_self, if_false, if_true]
      have : BitVec.setWidth 8 w = 0 ↔ w.toNat % 256 = 0 := by
        rw [← BitVec.toNat_inj]; simp
      by_cases h : w.toNat % 256 = 0
      · rw [if_pos h, if_neg (fun k => k (this.2 h))]
      · rw [if_neg h, if_pos (fun k => h (this.1 k))]
    · simp only [reduceCtorEq, or_self, if_false, if_true]
      rw [BitVec.toNat_signExtend, BitVec.msb_eq_decide]
      simp only [BitVec.toNat_setWidth, decide_eq_true_eq]
      have := w.isLt
      split <;> split <;> omega

/-- the model's nodes of an address are the specified ones -/
@[simp] theorem symFields_eq (E : Env) (ch a x : Nat) : symFields E ch a x = fields E ch a x := by
  simp only [symFields, fields, locText]
  rcases E.opts ch with ⟨_ | _, _ | _, _ | _, _ | _, _ | _⟩ <;> rfl

/-- the addresses of attribute `a` on a path -/
def addrsOf (E : Env) (a : Nat) (p : PathL) : List Nat := (p.filter fun e => e.1 == a).map fun e => E.addrOf e.2

/-- whether nodes are made depends on the options only -/
theorem fields_nil (E : Env) (ch a b x y : Nat) : fields E ch a x = [] ↔ fields E ch b y = [] := by
  simp only [fields]
  rcases E.opts ch with ⟨_ | _, _ | _, _ | _, _ | _, _ | _⟩ <;> simp

theorem symbols_snoc_nil (E : Env) (ch a : Nat) (l : List Nat) (x : Nat) :
    symbols E ch a (l ++ [x]) = [] ↔ fields E ch a x = [] := by
  constructor
  · intro h
    simp only [symbols, List.flatMap_append, List.append_eq_nil_iff] at h
    simpa using h.2
  · intro h
    simp only [symbols, List.flatMap_eq_nil_iff]
    intro y _
    rw [symFields_eq]
    exact (fields_nil E ch a a x y).1 h

/-- invariant of the instance `ch`: the nodes found again have good paths (`G`) for all known address lists (`P`) -/
structure Inv (E : Env) (ch : Nat) (P : Nat → List Nat → Prop) (G : Nat → List Nat → PathL → Prop) (st : State) : Prop where
  memo : ∀ a n s, a ∈ E.targets ch → ((a, n), s) ∈ st.memo → s.root = E.symRoot ch
    ∧ symbols E ch a (addrsOf E a n.path) ≠ [] ∧ (P a (addrsOf E a n.path) → G a (addrsOf E a n.path) s.path)
  cache : ∀ a x s, a ∈ E.targets ch → (x, s) ∈ st.cache ch a → s.root = E.symRoot ch ∧ fields E ch a x ≠ []
    ∧ ∀ l, P a (l ++ [x]) → G a (l ++ [x]) s.path

/-- `G` goes along with the construction of symbol paths -/
def Closed (E : Env) (ch : Nat) (P : Nat → List Nat → Prop) (G : Nat → List Nat → PathL → Prop) : Prop :=
  ∀ a l l' x p, P a (l ++ [x]) → P a (l' ++ [x]) → (l = [] ∨ fields E ch a x = [] → p = []) →
    (l ≠ [] → fields E ch a x ≠ [] → G a l p) → G a (l' ++ [x]) (p ++ fields E ch a x)

variable {E : Env} {ch : Nat} {P : Nat → List Nat → Prop} {G : Nat → List Nat → PathL → Prop}

theorem mem_of_lookup {α β : Type} [BEq α] [LawfulBEq α] {l : List (α × β)} {k : α} {v : β} (h : l.lookup k = some v) :
    (k, v) ∈ l := by
  induction l with
  | nil => simp at h
  | cons x xs ih =>
    obtain ⟨a, b⟩ := x
    rw [List.lookup_cons] at h
    by_cases e : (k == a) = true
    · have e' := eq_of_beq e
      subst e'
      simp at h
      subst h
      exact List.mem_cons_self
    · simp only [e] at h
      exact List.mem_cons_of_mem _ (ih h)

/-- the result of a lookup for the address list `l`: nothing if no nodes are made, else a good path -/
def Found (E : Env) (ch a : Nat) (G : Nat → List Nat → PathL → Prop) (l : List Nat) (r : Option NodeP) : Prop :=
  if symbols E ch a l = [] then r = none else ∃ p, r = some ⟨E.symRoot ch, p⟩ ∧ G a l p

theorem perform_inv (hG : Closed E ch P G) {st : State} (I : Inv E ch P G st) {a : Nat} (ha : a ∈ E.targets ch) (v : Val)
    {l : List Nat} (hl : P a (l ++ [E.addrOf v])) (par : Option NodeP) (hp : Found E ch a G l par) :
    Inv E ch P G (perform E st ch a v (par.getD ⟨E.symRoot ch, []⟩)).1
      ∧ Found E ch a G (l ++ [E.addrOf v]) (perform E st ch a v (par.getD ⟨E.symRoot ch, []⟩)).2 := by
  unfold perform
  simp only
  cases hc : (st.cache ch a).lookup (E.addrOf v) with
  | some n =>
    obtain ⟨h1, h2, h3⟩ := I.cache a _ n ha (mem_of_lookup hc)
    refine ⟨I, ?_⟩
    unfold Found
    rw [if_neg (mt (symbols_snoc_nil E ch a l _).1 h2)]
    exact ⟨n.path, by simp only [← h1], h3 l hl⟩
  | none =>
    simp only
    by_cases hf : fields E ch a (E.addrOf v) = []
    · rw [if_pos hf]
      refine ⟨I, ?_⟩
      unfold Found
      rw [if_pos ((symbols_snoc_nil E ch a l _).2 hf)]
    · rw [if_neg hf]
      have hpar : (par.getD ⟨E.symRoot ch, []⟩).root = E.symRoot ch
          ∧ ((l = [] ∨ fields E ch a (E.addrOf v) = []) → (par.getD ⟨E.symRoot ch, []⟩).path = [])
          ∧ (l ≠ [] → fields E ch a (E.addrOf v) ≠ [] → G a l (par.getD ⟨E.symRoot ch, []⟩).path) := by
        unfold Found at hp
        rcases List.eq_nil_or_concat l with h | ⟨l', y, h⟩
        · subst h
          rw [if_pos (by rfl)] at hp
          subst hp
          exact ⟨rfl, fun _ => rfl, fun h => absurd rfl h⟩
        · rw [List.concat_eq_append] at h
          subst h
          rw [if_neg (fun h => hf ((fields_nil E ch a a y _).1 ((symbols_snoc_nil E ch a l' y).1 h)))] at hp
          obtain ⟨p, h1, h2⟩ := hp
          subst h1
          refine ⟨rfl, fun h => ?_, fun _ _ => h2⟩
          rcases h with h | h
          · simp at h
          · exact absurd h hf
      refine ⟨⟨fun b n s hb hm => I.memo b n s hb hm, fun b x s hb hm => ?_⟩, ?_⟩
      · simp only [setCache] at hm
        by_cases hba : b = a
        · subst hba
          simp only [and_self, if_true, List.mem_cons] at hm
          rcases hm with hm | hm
          · cases hm
            exact ⟨hpar.1, hf, fun l' hl' => hG b l l' _ _ hl hl' hpar.2.1 hpar.2.2⟩
          · exact I.cache b x s hb hm
        · rw [if_neg (by simp [hba])] at hm
          exact I.cache b x s hb hm
      · unfold Found
        rw [if_neg (mt (symbols_snoc_nil E ch a l _).1 hf)]
        exact ⟨_, by rw [hpar.1], hG a l l _ _ hl hl hpar.2.1 hpar.2.2⟩

theorem addrsOf_cons_rev (a b : Nat) (v : Val) (up : PathL) :
    addrsOf E a ((b, v) :: up).reverse = addrsOf E a up.reverse ++ (if b = a then [E.addrOf v] else []) := by
  by_cases h : b = a <;> simp [addrsOf, h]

theorem symNode_inv (hG : Closed E ch P G) {a : Nat} (ha : a ∈ E.targets ch) (root : Nat) (q : PathL) {st : State}
    (I : Inv E ch P G st) (hq : ∀ l m x, addrsOf E a q.reverse = l ++ x :: m → P a (l ++ [x])) :
    Inv E ch P G (symNode E ch a root st q).1 ∧ Found E ch a G (addrsOf E a q.reverse) (symNode E ch a root st q).2 := by
  induction q generalizing st with
  | nil => exact ⟨I, by simp [Found, symNode, addrsOf, symbols]⟩
  | cons e up ih =>
    obtain ⟨b, v⟩ := e
    have hup : ∀ l m x, addrsOf E a up.reverse = l ++ x :: m → P a (l ++ [x]) := by
      intro l m x h
      refine hq l (m ++ (if b = a then [E.addrOf v] else [])) x ?_
      rw [addrsOf_cons_rev, h]
      simp
    simp only [symNode]
    by_cases hb : b = a
    · subst hb
      rw [if_neg (by simp)]
      have hl : P b (addrsOf E b up.reverse ++ [E.addrOf v]) := hq _ [] _ (by rw [addrsOf_cons_rev]; simp)
      have haddr : addrsOf E b ((b, v) :: up).reverse = addrsOf E b up.reverse ++ [E.addrOf v] := by
        rw [addrsOf_cons_rev]; simp
      cases hm : st.memo.lookup (b, (⟨root, ((b, v) :: up).reverse⟩ : NodeP)) with
      | some s =>
        obtain ⟨h1, h2, h3⟩ := I.memo b _ s ha (mem_of_lookup hm)
        refine ⟨I, ?_⟩
        unfold Found
        rw [if_neg h2]
        exact ⟨s.path, by simp only [← h1], h3 (by rw [haddr]; exact hl)⟩
      | none =>
        obtain ⟨i1, f1⟩ := ih I hup
        generalize symNode E ch b root st up = r at *
        obtain ⟨st1, par⟩ := r
        obtain ⟨i2, f2⟩ := perform_inv hG i1 ha v hl par f1
        simp only at i2 f2 ⊢
        generalize perform E st1 ch b v (par.getD ⟨E.symRoot ch, []⟩) = r2 at *
        obtain ⟨st2, s⟩ := r2
        rw [haddr]
        cases s with
        | none => exact ⟨i2, f2⟩
        | some s =>
          refine ⟨⟨fun c n s' hc hmem => ?_, i2.cache⟩, f2⟩
          simp only [List.mem_cons] at hmem
          rcases hmem with hmem | hmem
          · cases hmem
            simp only at f2 ⊢
            unfold Found at f2
            rw [haddr]
            by_cases hs : symbols E ch b (addrsOf E b up.reverse ++ [E.addrOf v]) = []
            · rw [if_pos hs] at f2
              cases f2
            · rw [if_neg hs] at f2
              obtain ⟨p, h1, h2⟩ := f2
              cases h1
              exact ⟨rfl, hs, fun _ => h2⟩
          · exact i2.memo c n s' hc hmem
    · rw [if_pos hb]
      have := ih I hup
      rw [addrsOf_cons_rev, if_neg hb, List.append_nil]
      exact this

theorem symOf_inv (hG : Closed E ch P G) {a : Nat} (ha : a ∈ E.targets ch) (rec : List Entry) {st : State}
    (I : Inv E ch P G st) (hq : ∀ l m x, addresses E a rec = l ++ x :: m → P a (l ++ [x])) :
    Inv E ch P G (symOf E st ch a rec).1 ∧ Found E ch a G (addresses E a rec) (symOf E st ch a rec).2 := by
  unfold symOf addresses at *
  simp only [addrVal_eq] at hq ⊢
  cases h : rec.find? (has a) with
  | none => exact ⟨I, by simp [Found, symbols]⟩
  | some e =>
    cases e with
    | ref n =>
      simp only [h] at hq ⊢
      have := symNode_inv hG ha n.root n.path.reverse I (by rw [List.reverse_reverse]; exact hq)
      rw [List.reverse_reverse] at this
      exact this
    | imm b v =>
      simp only [h] at hq ⊢
      exact perform_inv (l := []) hG I ha v (hq [] [] _ rfl) none (by simp [Found, symbols])

/-- the entries added for a list of attributes -/
def Added (E : Env) (ch : Nat) (G : Nat → List Nat → PathL → Prop) (rec : List Entry) (as : List Nat) (ext : List Entry) : Prop :=
  ∃ ps : List (Nat × PathL), ps.map Prod.fst = as.filter (fun a => decide (symbols E ch a (addresses E a rec) ≠ []))
    ∧ ext = ps.map (fun q => .ref ⟨E.symRoot ch, q.2⟩) ∧ ∀ q ∈ ps, G q.1 (addresses E q.1 rec) q.2

theorem symAll_inv (hG : Closed E ch P G) (rec : List Entry) (as : List Nat) {st : State} (I : Inv E ch P G st)
    (has : ∀ a ∈ as, a ∈ E.targets ch)
    (hq : ∀ a ∈ as, ∀ l m x, addresses E a rec = l ++ x :: m → P a (l ++ [x])) :
    Inv E ch P G (symAll E ch rec as st).1 ∧ Added E ch G rec as (symAll E ch rec as st).2 := by
  induction as generalizing st with
  | nil => exact ⟨I, [], rfl, rfl, by simp⟩
  | cons a as ih =>
    simp only [symAll]
    obtain ⟨i1, f1⟩ := symOf_inv hG (has a List.mem_cons_self) rec I (hq a List.mem_cons_self)
    generalize symOf E st ch a rec = r at *
    obtain ⟨st1, o⟩ := r
    obtain ⟨i2, ps, h1, h2, h3⟩ := ih i1 (fun b hb => has b (List.mem_cons_of_mem _ hb)) (fun b hb => hq b (List.mem_cons_of_mem _ hb))
    simp only at i2 h2 ⊢
    generalize symAll E ch rec as st1 = r2 at *
    obtain ⟨st2, l⟩ := r2
    simp only at i2 h2 ⊢
    refine ⟨i2, ?_⟩
    unfold Found at f1
    by_cases hs : symbols E ch a (addresses E a rec) = []
    · rw [if_pos hs] at f1
      simp only at f1
      subst f1
      exact ⟨ps, by simp [hs, h1], by simp [h2], h3⟩
    · rw [if_neg hs] at f1
      obtain ⟨p, e1, e2⟩ := f1
      simp only at e1
      subst e1
      refine ⟨(a, p) :: ps, by simp [hs, h1], by simp [h2], ?_⟩
      intro q hq'
      rcases List.mem_cons.1 hq' with h | h
      · subst h; exact e2
      · exact h3 q h

/-- another instance, with other address attributes, changes nothing for this one -/
theorem frame_perform {st : State} (I : Inv E ch P G st) {c : Nat} (hc : c ≠ ch) (a : Nat) (v : Val) (par : NodeP) :
    Inv E ch P G (perform E st c a v par).1 := by
  unfold perform
  simp only
  split
  · exact I
  · split
    · exact I
    · refine ⟨I.memo, fun b x s hb hm => ?_⟩
      simp only [setCache] at hm
      rw [if_neg (fun h => hc h.1.symm)] at hm
      exact I.cache b x s hb hm

theorem frame_symNode {c : Nat} (hc : c ≠ ch) {a : Nat} (ha : a ∉ E.targets ch) (root : Nat) (q : PathL) {st : State}
    (I : Inv E ch P G st) : Inv E ch P G (symNode E c a root st q).1 := by
  induction q generalizing st with
  | nil => exact I
  | cons e up ih =>
    obtain ⟨b, v⟩ := e
    simp only [symNode]
    split
    · exact ih I
    · split
      · exact I
      · have i1 := ih I
        generalize symNode E c a root st up = r at *
        obtain ⟨st1, par⟩ := r
        have i2 := frame_perform i1 hc a v (par.getD ⟨E.symRoot c, []⟩)
        simp only at i2 ⊢
        generalize perform E st1 c a v (par.getD ⟨E.symRoot c, []⟩) = r2 at *
        obtain ⟨st2, s⟩ := r2
        cases s with
        | none => exact i2
        | some s =>
          refine ⟨fun b n s' hb hm => ?_, i2.cache⟩
          simp only [List.mem_cons] at hm
          rcases hm with hm | hm
          · cases hm
            exact absurd hb ha
          · exact i2.memo b n s' hb hm

theorem frame_symAll {c : Nat} (hc : c ≠ ch) (rec : List Entry) (as : List Nat) (has : ∀ a ∈ as, a ∉ E.targets ch) {st : State}
    (I : Inv E ch P G st) : Inv E ch P G (symAll E c rec as st).1 := by
  induction as generalizing st with
  | nil => exact I
  | cons a as ih =>
    simp only [symAll]
    have i1 : Inv E ch P G (symOf E st c a rec).1 := by
      unfold symOf
      split
      · exact I
      · exact frame_symNode hc (has a List.mem_cons_self) _ _ I
      · exact frame_perform I hc _ _ _
    exact ih (fun b hb => has b (List.mem_cons_of_mem _ hb)) i1

theorem run_inv (hG : Closed E ch P G) (evs : List Ev) {st : State} (I : Inv E ch P G st) (hA : Alone E ch evs)
    (hq : ∀ rec, .record ch rec ∈ evs → ∀ a ∈ E.targets ch, ∀ l m x, addresses E a rec = l ++ x :: m → P a (l ++ [x])) :
    ∀ rec out, (ch, rec, out) ∈ (run E st evs).2 → ∃ ext, out = rec ++ ext ∧ Added E ch G rec (E.targets ch) ext := by
  induction evs generalizing st with
  | nil => intro rec out h; simp [run] at h
  | cons e es ih =>
    have hA' : Alone E ch es := fun c r h => hA c r (List.mem_cons_of_mem _ h)
    have hq' : ∀ rec, .record ch rec ∈ es → ∀ a ∈ E.targets ch, ∀ l m x, addresses E a rec = l ++ x :: m → P a (l ++ [x]) :=
      fun r h => hq r (List.mem_cons_of_mem _ h)
    intro rec out h
    cases e with
    | release c =>
      simp only [run, stepEv, List.nil_append] at h
      refine ih (st := { st with cache := fun d b => if d = c then [] else st.cache d b, gone := c :: st.gone })
        ⟨I.memo, fun a x s ha hm => ?_⟩ hA' hq' rec out h
      simp only at hm
      split at hm
      · simp at hm
      · exact I.cache a x s ha hm
    | record c r =>
      simp only [run, stepEv, process] at h
      by_cases hc : c = ch
      · subst hc
        obtain ⟨i1, a1⟩ := symAll_inv hG r (E.targets c) I (fun _ h => h) (hq r List.mem_cons_self)
        generalize symAll E c r (E.targets c) st = q at *
        obtain ⟨st1, l⟩ := q
        simp only [List.cons_append, List.nil_append, List.mem_cons] at h
        rcases h with h | h
        · cases h
          exact ⟨l, rfl, a1⟩
        · exact ih i1 hA' hq' rec out h
      · have i1 := frame_symAll hc r (E.targets c) (fun a ha h => hA c r List.mem_cons_self hc a h ha) I
        generalize symAll E c r (E.targets c) st = q at *
        obtain ⟨st1, l⟩ := q
        simp only [List.cons_append, List.nil_append, List.mem_cons] at h
        rcases h with h | h
        · cases h
          exact absurd rfl hc
        · exact ih i1 hA' hq' rec out h

theorem Inv.init : Inv E ch P G init := ⟨by intro a n s _ h; simp [Sym.init] at h, by intro a x s _ h; simp [Sym.init] at h⟩

/-! ## theorems -/

/-- **C99** (if no address is reached over two call paths).  In every history of flushed records — of any channels, as
long as the others look up other attributes — every record processed by the service gets, for each of its address
attributes and after its own entries, exactly the symbols of its addresses, the outermost first, below each other. -/
theorem C99_symbols_partial (E : Env) (ch : Nat) (evs : List Ev) (hA : Alone E ch evs)
    (hU : ∀ a ∈ E.targets ch, OneCaller E ch a evs) :
    ∀ rec out, (ch, rec, out) ∈ (run E init evs).2 → out = rec ++ wanted E ch rec := by
  intro rec out h
  have key := run_inv (E := E) (ch := ch)
    (P := fun a l => ∃ r m, a ∈ E.targets ch ∧ .record ch r ∈ evs ∧ addresses E a r = l ++ m)
    (G := fun a l p => p = symbols E ch a l) (by
      rintro a l l' x p ⟨r, m, ha, hr, e⟩ ⟨r', m', -, hr', e'⟩ h1 h2
      have hl : l = l' := hU a ha r r' l l' m m' x hr hr' (by simpa using e) (by simpa using e')
      subst hl
      by_cases hn : l = [] ∨ fields E ch a x = []
      · rw [h1 hn]
        rcases hn with hn | hn
        · subst hn; simp [symbols]
        · rw [(symbols_snoc_nil E ch a l x).2 hn, hn]; rfl
      · rw [h2 (fun h => hn (.inl h)) (fun h => hn (.inr h))]
        simp [symbols]) evs Inv.init hA
    (fun r hr a ha l m x e => ⟨r, m, ha, hr, by simp [e]⟩) rec out h
  obtain ⟨ext, h1, ps, h2, h3, h4⟩ := key
  rw [h1, h3]
  congr 1
  unfold wanted
  have : ps = ((E.targets ch).filter (fun a => decide (symbols E ch a (addresses E a rec) ≠ []))).map
      (fun a => (a, symbols E ch a (addresses E a rec))) := by
    rw [← h2, List.map_map]
    conv_lhs => rw [← List.map_id ps]
    apply List.map_congr_left
    intro q hq
    simp only [id, Function.comp]
    rw [← h4 q hq]
  rw [this, List.map_map]
  generalize E.targets ch = as
  induction as with
  | nil => rfl
  | cons a as ih =>
    rw [List.flatMap_cons, ← ih]
    by_cases hs : symbols E ch a (addresses E a rec) = [] <;> simp [hs]

/-- **C99** (innermost address, every history).  Without the restriction on call paths, a record still gets one entry per
address attribute with a symbol, and the innermost symbols of that entry are those of the innermost address of the record. -/
theorem C99_innermost (E : Env) (ch : Nat) (evs : List Ev) (hA : Alone E ch evs) :
    ∀ rec out, (ch, rec, out) ∈ (run E init evs).2 → ∃ ps : List (Nat × PathL),
      out = rec ++ ps.map (fun q => .ref ⟨E.symRoot ch, q.2⟩)
      ∧ ps.map Prod.fst = (E.targets ch).filter (fun a => decide (symbols E ch a (addresses E a rec) ≠ []))
      ∧ ∀ q ∈ ps, ∃ l x outer, addresses E q.1 rec = l ++ [x] ∧ q.2 = outer ++ symFields E ch q.1 x := by
  intro rec out h
  obtain ⟨ext, h1, ps, h2, h3, h4⟩ := run_inv (E := E) (ch := ch) (P := fun _ _ => True)
    (G := fun a l p => ∃ l' x outer, l = l' ++ [x] ∧ p = outer ++ fields E ch a x)
    (fun a l l' x p _ _ _ _ => ⟨l', x, p, rfl, rfl⟩) evs Inv.init hA (fun _ _ _ _ _ _ _ _ => trivial) rec out h
  exact ⟨ps, by rw [h1, h3], h2, fun q hq => by simpa only [symFields_eq] using h4 q hq⟩

/-! ## non-vacuity and violations -/

/-- example surroundings: attribute 1 holds addresses; address `x` has the function name of one byte `x`; instance 0 looks up
functions, instance 1 looks up functions and lines -/
def exEnv : Env :=
  { lk := fun x => ⟨[BitVec.ofNat 8 x], [], x, []⟩, d2u := fun _ => 0, names := ⟨(· + 10), (· + 20), (· + 30), (· + 40), (· + 50)⟩,
    opts := fun c => ⟨true, false, false, c == 1, false⟩, targets := fun _ => [1], symRoot := (· + 100) }

/-- an address -/
def exA (x : Nat) : Nat × Val := (1, ⟨.addr, .inr (BitVec.ofNat 64 x)⟩)
/-- a record with a call path -/
def exRec (l : List Nat) : List Entry := [.ref ⟨0, (7, Val.ofBool true) :: l.map exA⟩]
/-- the symbols of a call path -/
def exSym (l : List Nat) : Entry := .ref ⟨100, l.map fun x => (31, Val.str [BitVec.ofNat 8 x])⟩

/-- a history with several call paths, a repeated record and an immediate address meets the hypotheses, with three kinds of
records answered as expected -/
theorem C99_symbols_nonvacuous :
    Alone exEnv 0 [.record 0 (exRec [5, 6]), .record 0 (exRec [5, 7, 8]), .record 0 (exRec [5, 6]), .record 0 [.imm 1 (exA 9).2]]
    ∧ (run exEnv init [.record 0 (exRec [5, 6]), .record 0 (exRec [5, 7, 8]), .record 0 (exRec [5, 6]), .record 0 [.imm 1 (exA 9).2]]).2
      = [(0, exRec [5, 6], exRec [5, 6] ++ [exSym [5, 6]]), (0, exRec [5, 7, 8], exRec [5, 7, 8] ++ [exSym [5, 7, 8]]),
         (0, exRec [5, 6], exRec [5, 6] ++ [exSym [5, 6]]), (0, [.imm 1 (exA 9).2], [.imm 1 (exA 9).2, exSym [9]])] := by
  refine ⟨?_, by decide +kernel⟩
  intro c r h hc
  simp only [List.mem_cons, List.not_mem_nil, or_false] at h
  rcases h with h | h | h | h <;> (cases h; exact absurd rfl hc)

theorem C99_onecaller_nonvacuous : OneCaller exEnv 0 1 [.record 0 (exRec [5, 6]), .record 0 (exRec [5, 7])] := by
  intro r₁ r₂ l₁ l₂ m₁ m₂ x h₁ h₂ e₁ e₂
  have k : ∀ r, Ev.record 0 r ∈ [Ev.record 0 (exRec [5, 6]), .record 0 (exRec [5, 7])] →
      addresses exEnv 1 r = [5, 6] ∨ addresses exEnv 1 r = [5, 7] := by
    intro r h
    simp only [List.mem_cons, List.not_mem_nil, or_false] at h
    rcases h with h | h
    · cases h; exact .inl (by decide +kernel)
    · cases h; exact .inr (by decide +kernel)
  have two : ∀ (u v x : Nat) (l m : List Nat), [u, v] = l ++ x :: m → (l = [] ∧ x = u) ∨ (l = [u] ∧ x = v) := by
    intro u v x l m h
    rcases l with _ | ⟨a, _ | ⟨b, l⟩⟩
    · simp at h; exact .inl ⟨rfl, h.1.symm⟩
    · simp at h; exact .inr ⟨by rw [h.1], h.2.1.symm⟩
    · simp at h
  rcases k r₁ h₁ with a | a <;> rcases k r₂ h₂ with b | b <;> rw [a] at e₁ <;> rw [b] at e₂ <;>
    rcases two _ _ _ _ _ e₁ with ⟨c, d⟩ | ⟨c, d⟩ <;> rcases two _ _ _ _ _ e₂ with ⟨c', d'⟩ | ⟨c', d'⟩ <;> subst c c' <;>
    first | rfl | (exfalso; omega)

/-- **C99 is violated**: a function called from two places.  The call path 6 → 7 is reported as 5 → 7, because the symbols of
address 7 were looked up first below address 5. -/
theorem C99_violated_two_callers :
    (run exEnv init [.record 0 (exRec [5, 7]), .record 0 (exRec [6, 7])]).2
      = [(0, exRec [5, 7], exRec [5, 7] ++ [exSym [5, 7]]), (0, exRec [6, 7], exRec [6, 7] ++ [exSym [5, 7]])]
    ∧ wanted exEnv 0 (exRec [6, 7]) = [exSym [6, 7]] := by decide +kernel

/-- **C99 is violated**: recursion.  In the call path 5 → 5 only one call is reported. -/
theorem C99_violated_recursion :
    (run exEnv init [.record 0 (exRec [5, 5])]).2 = [(0, exRec [5, 5], exRec [5, 5] ++ [exSym [5]])]
    ∧ wanted exEnv 0 (exRec [5, 5]) = [exSym [5, 5]] := by decide +kernel

/-- **C99 is violated**: two channels.  Instance 1 is to look up lines, too, but reports what instance 0 has found for the node;
and it does so even after instance 0, which owns the root node (100) of these symbols, was deleted. -/
theorem C99_violated_channels :
    (run exEnv init [.record 0 (exRec [5]), .release 0, .record 1 (exRec [5])]).2
      = [(0, exRec [5], exRec [5] ++ [exSym [5]]), (1, exRec [5], exRec [5] ++ [exSym [5]])]
    ∧ (run exEnv init [.record 0 (exRec [5]), .release 0, .record 1 (exRec [5])]).1.gone = [0]
    ∧ exEnv.symRoot 0 = 100 ∧ exEnv.symRoot 1 = 101
    ∧ wanted exEnv 1 (exRec [5]) = [.ref ⟨101, [(31, Val.str [5]), (21, ⟨.uint, .inr 5⟩)]⟩] := by decide +kernel

end Verif.Sym
