import Verif.E2E.Spec
import Verif.Props.Pipeline
/-!
# The report query over records with one path and one value of the target attribute
-/
namespace Verif.E2E
open Verif Verif.Cali Verif.Query Verif.Query.Pre Verif.Query.Pipe

/-- the result attributes of the query -/
def sumA (D : PDB) (t : PAttr) : PAttr := ⟨D.next, str "sum#" ++ T, t.ty, false⟩
@[inherit_doc sumA]
def inclA (D : PDB) (t : PAttr) : PAttr := ⟨D.next + 1, str "inclusive#" ++ T, t.ty, false⟩
/-- the database after the first record -/
def D2 (D : PDB) (t : PAttr) : PDB := ⟨D.attrs ++ [sumA D t] ++ [inclA D t], D.next + 2⟩

def ks0 : List KMgr := reportQuery.aggs.map fun op => { op := op }
def ks2 (D : PDB) (t : PAttr) : List KMgr := [⟨.red .sum T false, some t, some (sumA D t), none, none⟩, ⟨.red .sum T true, some t, some (inclA D t), none, none⟩]

theorem attr_append (D : PDB) (n : Str) (l : List PAttr) (k : Nat) :
    (⟨D.attrs ++ l, k⟩ : PDB).attr n = (D.attr n).or (l.find? fun a => decide (a.name = n)) := by
  simp only [PDB.attr, List.find?_append]

theorem names_ne : str "sum#" ++ T ≠ str "inclusive#" ++ T := by decide +kernel

/-- what is required of the database -/
structure DbOk (D : PDB) (t : PAttr) : Prop where
  wf : ∀ a ∈ D.attrs, a.id < D.next
  tgt : D.attr T = some t
  noSum : D.attr (str "sum#" ++ T) = none
  noIncl : D.attr (str "inclusive#" ++ T) = none

variable {D : PDB} {t : PAttr}

theorem touch0 (h : DbOk D t) : touchAll D ks0 = (D2 D t, ks2 D t) := by
  have e1 : D.create (str "sum#" ++ T) t.ty false = (⟨D.attrs ++ [sumA D t], D.next + 1⟩, sumA D t) := by
    simp only [PDB.create, h.noSum, sumA]
  have e3 : (⟨D.attrs ++ [sumA D t], D.next + 1⟩ : PDB).attr T = some t := by
    rw [attr_append, h.tgt]; rfl
  have e4 : (⟨D.attrs ++ [sumA D t], D.next + 1⟩ : PDB).attr (str "inclusive#" ++ T) = none := by
    rw [attr_append, h.noIncl]
    have : (decide ((sumA D t).name = str "inclusive#" ++ T)) = false := decide_eq_false names_ne
    simp [List.find?_cons, this]
  have e2 : (⟨D.attrs ++ [sumA D t], D.next + 1⟩ : PDB).create (str "inclusive#" ++ T) t.ty false = (D2 D t, inclA D t) := by
    simp only [PDB.create, e4, inclA, D2]
  simp only [ks0, reportQuery, List.map_cons, List.map_nil, touchAll, KMgr.touch, target, AggOp.tgt, h.tgt, cget, AggOp.drvName, AggOp.drvPfx,
    Bool.false_eq_true, if_false, e1, e3, if_true, e2, ks2]

theorem touch2 : touchAll (D2 D t) (ks2 D t) = (D2 D t, ks2 D t) := rfl

/-- the states of the run -/
def St (D : PDB) (t : PAttr) (s : QP) : Prop := s.lets = [] ∧ ((s.db = D ∧ s.ks = ks0) ∨ (s.db = D2 D t ∧ s.ks = ks2 D t))

theorem St.step {E : Env} (h : DbOk D t) {s : QP} (hs : St D t s) (r : List QEnt) :
    (s.step E reportQuery (.record r)).lets = [] ∧ (s.step E reportQuery (.record r)).db = D2 D t ∧ (s.step E reportQuery (.record r)).ks = ks2 D t ∧
    (s.step E reportQuery (.record r)).out = s.out := by
  obtain ⟨l, hs⟩ := hs
  have hp : preprocess E.O E.meta_ E.dcmp E.F s.lets s.db r = (s.db, [], r) := by rw [l]; rfl
  have ht : touchAll s.db s.ks = (D2 D t, ks2 D t) := by
    rcases hs with ⟨a, b⟩ | ⟨a, b⟩ <;> rw [a, b]
    · exact touch0 h
    · exact touch2
  simp only [QP.step, QP.record, hp, reportQuery, SelEnv.pass, if_true, aggAdd]
  rw [ht]
  exact ⟨trivial, rfl, rfl, trivial⟩

theorem St.run {E : Env} (h : DbOk D t) (rs : List (List QEnt)) : ∀ {s : QP}, St D t s → rs ≠ [] →
    (s.run E reportQuery (rs.map .record)).db = D2 D t ∧ (s.run E reportQuery (rs.map .record)).ks = ks2 D t := by
  induction rs with
  | nil => intro s _ hn; exact absurd rfl hn
  | cons r rs ih =>
    intro s hs _
    obtain ⟨a, b, c, d⟩ := hs.step (E := E) h r
    simp only [List.map_cons, QP.run, List.foldl_cons]
    cases rs with
    | nil => exact ⟨b, c⟩
    | cons r' rs => exact ih (s := s.step E reportQuery (.record r)) ⟨a, .inr ⟨b, c⟩⟩ (by simp)

theorem flush2 (O : FOps) (ss : List KSt) : (flushKernels O (D2 D t) (ks2 D t) ss).1 = D2 D t ∧
    ((flushKernels O (D2 D t) (ks2 D t) ss).2.1 = ks2 D t) := by
  have hr1 : ∀ s, KMgr.touchRes (D2 D t) ⟨.red .sum T false, some t, some (sumA D t), none, none⟩ s =
      (D2 D t, ⟨.red .sum T false, some t, some (sumA D t), none, none⟩) := by
    intro s; simp only [KMgr.touchRes]; split <;> rfl
  have hr2 : ∀ s, KMgr.touchRes (D2 D t) ⟨.red .sum T true, some t, some (inclA D t), none, none⟩ s =
      (D2 D t, ⟨.red .sum T true, some t, some (inclA D t), none, none⟩) := by
    intro s; simp only [KMgr.touchRes]; split <;> rfl
  cases ss with
  | nil => exact ⟨rfl, rfl⟩
  | cons s ss =>
    cases ss with
    | nil => simp only [ks2, flushKernels, hr1, and_self]
    | cons s' ss =>
      simp only [ks2, flushKernels, hr1, hr2]
      cases ss <;> exact ⟨trivial, trivial⟩

theorem flushE2 (O : FOps) (es : List QEntry) : (flushEntries O (D2 D t) (ks2 D t) es).1 = D2 D t := by
  induction es with
  | nil => rfl
  | cons e es ih =>
    simp only [flushEntries, (flush2 O e.kernels).1, (flush2 O e.kernels).2]
    exact ih

theorem query_db {E : Env} (h : DbOk D t) (rs : List (List QEnt)) (hn : rs ≠ []) : (query E reportQuery D (rs.map .record)).1 = D2 D t := by
  obtain ⟨a, b⟩ := St.run (E := E) h rs (s := QP.init reportQuery D) ⟨rfl, .inl ⟨rfl, rfl⟩⟩ hn
  simp only [query, QP.flush]
  rw [a, b]
  exact flushE2 _ _

theorem St.next {s : QP} (hs : St D t s) : D.next ≤ s.db.next := by
  rcases hs.2 with ⟨a, -⟩ | ⟨a, -⟩ <;> rw [a]
  simp [D2]

theorem D2_attr (n : Str) : (D2 D t).attr n = (D.attr n).or (([sumA D t] ++ [inclA D t]).find? fun a => decide (a.name = n)) := by
  rw [D2, List.append_assoc]; exact attr_append D n _ _

theorem St.tgt (h : DbOk D t) {s : QP} (hs : St D t s) : s.db.attr T = some t := by
  rcases hs.2 with ⟨a, -⟩ | ⟨a, -⟩ <;> rw [a]
  · exact h.tgt
  · rw [D2_attr, h.tgt]; rfl

theorem input_ok {E : Env} (h : DbOk D t) (rs : List (List QEnt)) : ∀ {s : QP}, St D t s → (∀ r ∈ rs, IdsOk D r) →
    InputOk E reportQuery s (rs.map .record) := by
  induction rs with
  | nil => intro s _ _; trivial
  | cons r rs ih =>
    intro s hs hr
    obtain ⟨a, b, c, d⟩ := hs.step (E := E) h r
    have hp : preprocess E.O E.meta_ E.dcmp E.F s.lets s.db r = (s.db, [], r) := by rw [hs.1]; rfl
    refine ⟨(hr r (by simp)).mono hs.next, ?_, ?_, ih ⟨a, .inr ⟨b, c⟩⟩ fun r' hr' => hr r' (by simp [hr'])⟩
    · intro L hL; simp [reportQuery] at hL
    · rw [hp]
      intro op ho n _ _
      have : op.tgt = T := by
        simp only [reportQuery, List.mem_cons, List.not_mem_nil, or_false] at ho
        rcases ho with rfl | rfl <;> rfl
      exact ⟨t, by rw [this]; exact hs.tgt h⟩

/-- a record with path `p` (innermost first) and value `w` -/
structure Good (D : PDB) (t : PAttr) (r : List QEnt) (p : List (Nat × Cali.Val)) (w : U64) : Prop where
  path : (r.flatMap fun e => match e with | .ref q => q | .imm _ _ => []) = p
  nest : ∀ x ∈ p, D.isNested x.1 = true
  vals : (r.filterMap fun e => match e with | .imm a v => if a = t.id then some v else none | .ref _ => none) = [Cali.Val.uint w]
  ids : IdsOk D r

variable {E : Env}

theorem nested2 (h : DbOk D t) {i : Nat} (hi : D.isNested i = true) : (D2 D t).isNested i = true := by
  have : (D.byId i).isSome := by
    unfold PDB.isNested at hi
    cases hb : D.byId i with
    | none => simp [hb] at hi
    | some a => rfl
  obtain ⟨a, ha⟩ := Option.isSome_iff_exists.1 this
  unfold PDB.isNested at hi ⊢
  have : (D2 D t).byId i = some a := by
    unfold PDB.byId D2 at *
    simp only [List.append_assoc, List.find?_append, ha, Option.some_or]
  rw [this]
  rw [ha] at hi
  exact hi

theorem good_path (h : DbOk D t) {r : List QEnt} {p : List (Nat × Cali.Val)} {w : U64} (g : Good D t r p w) :
    (reportQuery.meaning E (D2 D t)).pathOf r = p.reverse ∧ (reportQuery.meaning E (D2 D t)).preKey r = [] := by
  obtain ⟨g1, g2, -, -⟩ := g
  have key : ∀ i, (reportQuery.meaning E (D2 D t)).isKey i = false := by
    intro i; simp [QSpec.meaning, reportQuery]
  have sel : ∀ (b : Bool) (r : List QEnt), (∀ x ∈ (r.flatMap fun e => match e with | .ref q => q | .imm _ _ => []), D.isNested x.1 = true) →
      (reportQuery.meaning E (D2 D t)).selected b r =
        if b then (r.flatMap fun e => match e with | .ref q => q | .imm _ _ => []) else [] := by
    intro b r
    induction r with
    | nil => intro _; cases b <;> rfl
    | cons e r ih =>
      intro hx
      have ih' := ih (fun x hx' => hx x (by rw [List.flatMap_cons]; exact List.mem_append_right _ hx'))
      unfold QCfg.selected at ih' ⊢
      rw [List.flatMap_cons, List.flatMap_cons, ih']
      cases e with
      | imm a v => cases b <;> rfl
      | ref q =>
        have hq : ∀ x ∈ q, (D2 D t).isNested x.1 = true := fun x hx' => nested2 h (hx x (by rw [List.flatMap_cons]; exact List.mem_append_left _ hx'))
        cases b with
        | true =>
          simp only [if_true]
          congr 1
          apply List.filter_eq_self.2
          intro x hx'
          have e1 : (reportQuery.meaning E (D2 D t)).nested x.1 = true := hq x hx'
          have e2 : (reportQuery.meaning E (D2 D t)).selectNested = true := rfl
          simp [e1, e2]
        | false =>
          simp only [Bool.false_eq_true, if_false, List.append_nil]
          apply List.filter_eq_nil_iff.2
          intro x hx'
          have e1 : (reportQuery.meaning E (D2 D t)).nested x.1 = true := hq x hx'
          simp [e1]
  have hs := fun b => sel b r (by rw [g1]; exact g2)
  constructor
  · unfold QCfg.pathOf
    rw [hs true, g1]; rfl
  · have e : (reportQuery.meaning E (D2 D t)).immKey r = [] := by
      unfold QCfg.immKey
      apply List.filterMap_eq_nil_iff.2
      intro e _
      cases e with
      | ref q => rfl
      | imm a v => simp [key]
    unfold QCfg.preKey
    rw [hs false, e]; rfl

theorem kernels2 (h : DbOk D t) : (reportQuery.meaning E (D2 D t)).kernels = [.sum t.id D.next false, .sum t.id (D.next + 1) true] := by
  have e1 : (D2 D t).attr T = some t := by rw [D2_attr, h.tgt]; rfl
  have e2 : (D2 D t).attr (str "sum#" ++ T) = some (sumA D t) := by
    rw [D2_attr, h.noSum]; simp [List.find?_cons, sumA]
  have e3 : (D2 D t).attr (str "inclusive#" ++ T) = some (inclA D t) := by
    rw [D2_attr, h.noIncl]
    have : (decide ((sumA D t).name = str "inclusive#" ++ T)) = false := decide_eq_false names_ne
    simp [List.find?_cons, this, inclA]
  simp only [QSpec.meaning, reportQuery, List.map_cons, List.map_nil, AggOp.meaning, idIn, e1, e2, e3, sumA, inclA]

theorem known2 (h : DbOk D t) : (reportQuery.meaning E (D2 D t)).known t.id = true := by
  show ((D2 D t).byId t.id).isSome = true
  apply byId_some_of_mem
  have := (attr_mem h.tgt).1
  simp [D2, this]

theorem good_matching (h : DbOk D t) {r : List QEnt} {p : List (Nat × Cali.Val)} {w : U64} (g : Good D t r p w) {d : Nat} (hd : D.next ≤ d) :
    matching (reportQuery.meaning E (D2 D t)).known t.id d r = [.uint w] := by
  unfold matching
  rw [if_pos (known2 h), ← g.vals]
  apply List.filterMap_congr
  intro e he
  cases e with
  | ref q => rfl
  | imm a v =>
    have : a < D.next := g.ids.2 (a, v) (List.mem_flatMap.2 ⟨_, he, by simp⟩)
    have : ¬ a = d := by omega
    simp [this]

theorem mkKey_inj {P P' : List (Nat × Cali.Val)} (h : mkKey [] P = mkKey [] P') : P = P' := by
  unfold mkKey at h
  by_cases e : P = [] <;> by_cases e' : P' = []
  · rw [e, e']
  · simp [e, e'] at h
  · simp [e, e'] at h
  · simpa [e, e'] using h

theorem mkKey_node {P p : List (Nat × Cali.Val)} (h : mkKey [] P = [.node p]) : P = p := by
  unfold mkKey at h
  by_cases e : P = []
  · simp [e] at h
  · simpa [e] using h

/-- which records count for a path -/
def counts (P : List (Nat × Cali.Val)) (y : List (Nat × Cali.Val) × U64) : Prop := P = y.1 ∨ (P ≠ [] ∧ P <+: y.1)
instance (P : List (Nat × Cali.Val)) : DecidablePred (counts P) := fun y => by unfold counts; infer_instance

theorem contributes_excl (h : DbOk D t) {r : List QEnt} {p : List (Nat × Cali.Val)} {w : U64} (g : Good D t r p.reverse w) (P : List (Nat × Cali.Val)) :
    (reportQuery.meaning E (D2 D t)).contributes E.O.toFOps (.sum t.id D.next false) (mkKey [] P) r = decide (P = p) := by
  obtain ⟨g1, g2⟩ := good_path (E := E) h g
  unfold QCfg.contributes QCfg.up QCfg.keyOf
  rw [g1, g2, List.reverse_reverse]
  simp only [KCfg.incl, Bool.false_and, Bool.or_false, decide_eq_decide]
  exact ⟨mkKey_inj, fun e => by rw [e]⟩

theorem contributes_incl (h : DbOk D t) {r : List QEnt} {p : List (Nat × Cali.Val)} {w : U64} (g : Good D t r p.reverse w) (P : List (Nat × Cali.Val)) :
    (reportQuery.meaning E (D2 D t)).contributes E.O.toFOps (.sum t.id (D.next + 1) true) (mkKey [] P) r = decide (counts P (p, w)) := by
  obtain ⟨g1, g2⟩ := good_path (E := E) h g
  have hm : (0 < (KCfg.sum t.id (D.next + 1) true).matches E.O.toFOps (reportQuery.meaning E (D2 D t)).known r) := by
    simp only [KCfg.matches, KCfg.aggregate, good_matching h g (show D.next ≤ D.next + 1 by omega)]
    simp
  unfold QCfg.contributes QCfg.up QCfg.keyOf
  rw [g1, g2, List.reverse_reverse]
  simp only [KCfg.incl, Bool.true_and, hm, decide_true, List.nil_append, ← Bool.decide_or]
  rw [decide_eq_decide]
  unfold counts
  constructor
  · rintro (e | ⟨q, hq, e⟩)
    · exact .inl (mkKey_inj e)
    · obtain ⟨q1, q2, q3⟩ := mem_ancestors.1 hq
      have := mkKey_node e
      subst this
      exact .inr ⟨q1, q2⟩
  · rintro (e | ⟨e1, e2⟩)
    · exact .inl (by rw [e])
    · by_cases hl : P.length < p.length
      · exact .inr ⟨P, mem_ancestors.2 ⟨e1, e2, hl⟩, by simp [mkKey, e1]⟩
      · have : P = p := e2.eq_of_length (by have : P.length ≤ p.length := e2.length_le; show P.length = p.length; omega)
        exact .inl (by rw [this])

theorem foldl_add (O : FOps) (ws : List U64) : ∀ a : U64, (ws.map Cali.Val.uint).foldl (addVal O) (.uint a) = .uint (ws.foldl (· + ·) a) := by
  induction ws with
  | nil => intro a; rfl
  | cons w ws ih => intro a; exact ih (a + w)

theorem state_sum (O : FOps) (known : Nat → Bool) {tg d : Nat} {i : Bool} (rs : List (List QEnt)) : ∀ (ws : List U64) (k : KSt),
    List.Forall₂ (fun r w => matching known tg d r = [Cali.Val.uint w]) rs ws →
    (rs.foldl (fun s r => ((KCfg.sum tg d i).aggregate O known s r).1) k) = ⟨k.count, (ws.map Cali.Val.uint).foldl (addVal O) k.val⟩ := by
  induction rs with
  | nil => intro ws k hf; cases hf; rfl
  | cons r rs ih =>
    intro ws k hf
    cases hf with
    | cons h1 h2 =>
      rw [List.foldl_cons, ih _ _ h2]
      simp only [KCfg.aggregate, h1, List.foldl_cons, List.foldl_nil, List.map_cons]

theorem result_sum (O : FOps) {tg d : Nat} {i : Bool} (ws : List U64) :
    (KCfg.sum tg d i).result O ⟨0, (ws.map Cali.Val.uint).foldl (addVal O) .inv⟩ = if ws = [] then [] else [.imm d (.uint (ws.foldl (· + ·) 0))] := by
  cases ws with
  | nil => rfl
  | cons w ws =>
    have : ((w :: ws).map Cali.Val.uint).foldl (addVal O) .inv = .uint ((w :: ws).foldl (· + ·) 0) := by
      rw [List.map_cons, List.foldl_cons, List.foldl_cons, show (0 : U64) + w = w from BitVec.zero_add w]
      exact foldl_add O ws w
    simp only [KCfg.result, this]
    simp

/-- the row for path `P` -/
def rowOf (D : PDB) (Ys : List (List (Nat × Cali.Val) × U64)) (P : List (Nat × Cali.Val)) : List QEnt :=
  (if P = [] then [] else [.ref P.reverse]) ++
  (let ws := (Ys.filter fun y => decide (P = y.1)).map Prod.snd; if ws = [] then [] else [.imm D.next (.uint (ws.foldl (· + ·) 0))]) ++
  (let ws := (Ys.filter fun y => decide (counts P y)).map Prod.snd; if ws = [] then [] else [.imm (D.next + 1) (.uint (ws.foldl (· + ·) 0))])

theorem filter_f2 {α β : Type} {R : α → β → Prop} {f : α → Bool} {g : β → Bool} {l : List α} {m : List β} (h : List.Forall₂ R l m)
    (hfg : ∀ a b, R a b → f a = g b) : List.Forall₂ R (l.filter f) (m.filter g) := by
  induction h with
  | nil => exact .nil
  | @cons a b l m h1 _ ih =>
    simp only [List.filter_cons, hfg a b h1]
    cases g b
    · exact ih
    · exact .cons h1 ih

theorem query_rows (h : DbOk D t) (hm : MetaOk E D) (hi : D.next + 2 ≤ invN) (rs : List (List QEnt)) (Ys : List (List (Nat × Cali.Val) × U64))
    (hf : List.Forall₂ (fun r y => Good D t r y.1.reverse y.2) rs Ys) (hn : rs ≠ []) :
    ∃ Ps : List (List (Nat × Cali.Val)), Ps.Nodup ∧ (∀ P, P ∈ Ps ↔ ∃ y ∈ Ys, counts P y) ∧
      query E reportQuery D (rs.map .record) = (D2 D t, Ps.map (rowOf D Ys)) := by
  have hids : ∀ r ∈ rs, IdsOk D r := by
    intro r hr
    obtain ⟨i, hi, rfl⟩ := List.mem_iff_getElem.1 hr
    have g := List.forall₂_iff_get.1 hf
    exact (g.2 i hi (by rw [← g.1]; exact hi)).ids
  have hdb := query_db (E := E) h rs hn
  have hq := C80_query_partial E reportQuery D h.wf hm (rs.map .record) (input_ok h rs ⟨rfl, .inl ⟨rfl, rfl⟩⟩ hids)
  rw [hdb] at hq
  obtain ⟨rs', h1, h2⟩ := hq hi
  have hro : recordsOf (rs.map .record) = rs := by
    unfold recordsOf
    rw [List.filterMap_map]
    simp [Function.comp_def]
  rw [hro] at h1
  have hrs : rs' = rs := by
    clear h2 hq hro hdb hids hf hn
    induction h1 with
    | nil => rfl
    | cons a _ ih =>
      rw [ih]
      congr 1
      change LetChain _ _ _ [] _ _ _ _ at a
      cases a; rfl
  subst hrs
  have hsel : ∀ r : List QEnt, (∀ c ∈ reportQuery.conds, ((D2 D t).sel E.dcmp E.F).Holds c r) := by
    intro r c hc; simp [reportQuery] at hc
  classical
  obtain ⟨keys, k1, k2, k3⟩ := h2 (fun r _ c hc => by simp [reportQuery] at hc)
  have hfil : (rs'.filter fun r => decide (∀ c ∈ reportQuery.conds, ((D2 D t).sel E.dcmp E.F).Holds c r)) = rs' :=
    List.filter_eq_self.2 fun r _ => decide_eq_true (hsel r)
  rw [hfil] at k2 k3
  -- the keys are paths
  have hpres : ∀ K, (reportQuery.meaning E (D2 D t)).Present E.O.toFOps K rs' ↔ ∃ P, K = mkKey [] P ∧ ∃ y ∈ Ys, counts P y := by
    intro K
    have key : ∀ (r : List QEnt) (p : List (Nat × Cali.Val)) (w : U64), Good D t r p.reverse w →
        ((K = (reportQuery.meaning E (D2 D t)).keyOf r ∨ ∃ c ∈ (reportQuery.meaning E (D2 D t)).kernels,
          (reportQuery.meaning E (D2 D t)).contributes E.O.toFOps c K r = true) ↔ ∃ P, K = mkKey [] P ∧ counts P (p, w)) := by
      intro r p w g
      obtain ⟨g1, g2⟩ := good_path (E := E) h g
      have hk : (reportQuery.meaning E (D2 D t)).keyOf r = mkKey [] p := by
        unfold QCfg.keyOf; rw [g1, g2, List.reverse_reverse]
      rw [hk, kernels2 h]
      constructor
      · rintro (e | ⟨c, hc, e⟩)
        · exact ⟨p, e, .inl rfl⟩
        · -- K is a key of the record or of an ancestor
          have hK : ∃ P, K = mkKey [] P := by
            unfold QCfg.contributes at e
            rw [Bool.or_eq_true, Bool.and_eq_true, decide_eq_true_eq, decide_eq_true_eq] at e
            rcases e with e | ⟨-, q, hq, e⟩
            · exact ⟨p, by rw [e, hk]⟩
            · rw [g2] at e
              refine ⟨q, ?_⟩
              rw [e]
              simp [mkKey, (mem_ancestors.1 hq).1]
          obtain ⟨P, rfl⟩ := hK
          refine ⟨P, rfl, ?_⟩
          simp only [List.mem_cons, List.not_mem_nil, or_false] at hc
          rcases hc with rfl | rfl
          · rw [contributes_excl h g] at e
            exact .inl (of_decide_eq_true e)
          · rw [contributes_incl h g] at e
            exact of_decide_eq_true e
      · rintro ⟨P, rfl, hc⟩
        exact .inr ⟨.sum t.id (D.next + 1) true, by simp, by rw [contributes_incl h g]; exact decide_eq_true hc⟩
    constructor
    · rintro ⟨r, hr, hK⟩
      obtain ⟨i, hi, rfl⟩ := List.mem_iff_getElem.1 hr
      have g := List.forall₂_iff_get.1 hf
      have hi2 : i < Ys.length := by rw [← g.1]; exact hi
      obtain ⟨P, a, b⟩ := (key _ _ _ (g.2 i hi hi2)).1 hK
      exact ⟨P, a, Ys[i], List.getElem_mem _, b⟩
    · rintro ⟨P, a, y, hy, b⟩
      obtain ⟨i, hi2, rfl⟩ := List.mem_iff_getElem.1 hy
      have g := List.forall₂_iff_get.1 hf
      have hi : i < rs'.length := by rw [g.1]; exact hi2
      exact ⟨rs'[i], List.getElem_mem _, (key _ _ _ (g.2 i hi hi2)).2 ⟨P, a, b⟩⟩
  have hpath : ∀ K ∈ keys, ∃ P, K = mkKey [] P ∧ ∃ y ∈ Ys, counts P y := fun K hK => (hpres K).1 ((k2 K).1 hK)
  -- back from keys to paths
  let back : List KEnt → List (Nat × Cali.Val) := fun K => match K with | [.node p] => p | _ => []
  have hback : ∀ P, back (mkKey [] P) = P := by
    intro P
    unfold mkKey
    by_cases e : P = []
    · rw [if_pos e, e]
    · rw [if_neg e]; rfl
  refine ⟨keys.map back, ?_, ?_, ?_⟩
  · refine List.Nodup.map_on ?_ k1
    intro K hK K' hK' e
    obtain ⟨P, rfl, -⟩ := hpath K hK
    obtain ⟨P', rfl, -⟩ := hpath K' hK'
    rw [hback, hback] at e
    rw [e]
  · intro P
    rw [List.mem_map]
    constructor
    · rintro ⟨K, hK, rfl⟩
      obtain ⟨P, rfl, hy⟩ := hpath K hK
      rw [hback]; exact hy
    · intro hy
      exact ⟨mkKey [] P, (k2 _).2 ((hpres _).2 ⟨P, rfl, hy⟩), hback P⟩
  · refine Prod.ext hdb ?_
    rw [k3, List.map_map]
    apply List.map_congr_left
    intro K hK
    obtain ⟨P, rfl, hy⟩ := hpath K hK
    simp only [Function.comp_apply, hback]
    unfold QCfg.report
    rw [kernels2 h]
    have hsum : ∀ (d : Nat) (i : Bool) (f : (List (Nat × Cali.Val) × U64) → Bool), D.next ≤ d →
        (∀ r (y : List (Nat × Cali.Val) × U64), Good D t r y.1.reverse y.2 → (reportQuery.meaning E (D2 D t)).contributes E.O.toFOps (.sum t.id d i) (mkKey [] P) r = f y) →
        (KCfg.sum t.id d i).result E.O.toFOps ((reportQuery.meaning E (D2 D t)).stateOf E.O.toFOps (.sum t.id d i) (mkKey [] P) rs') =
          if (Ys.filter f).map Prod.snd = [] then [] else [.imm d (.uint (((Ys.filter f).map Prod.snd).foldl (· + ·) 0))] := by
      intro d i f hd hfg
      unfold QCfg.stateOf
      have hF := filter_f2 hf (f := (reportQuery.meaning E (D2 D t)).contributes E.O.toFOps (.sum t.id d i) (mkKey [] P)) (g := f) hfg
      rw [state_sum E.O.toFOps _ _ ((Ys.filter f).map Prod.snd) KSt.new ?_]
      · exact result_sum E.O.toFOps _
      · rw [List.forall₂_map_right_iff]
        exact forall₂_imp (fun r y g => good_matching h g hd) hF
    simp only [List.flatMap_cons, List.flatMap_nil, List.append_nil]
    rw [hsum D.next false (fun y => decide (P = y.1)) (by omega) (fun r y g => contributes_excl h g P),
      hsum (D.next + 1) true (fun y => decide (counts P y)) (by omega) (fun r y g => contributes_incl h g P)]
    simp only [rowOf]
    rw [List.append_assoc]
    congr 1
    unfold mkKey
    by_cases e : P = []
    · simp [e]
    · simp [e, KEnt.toQ]

end Verif.E2E
