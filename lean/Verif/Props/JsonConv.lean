import Verif.Py.JsonConvSpec
import Mathlib.Data.List.Forall2
/-!
# C109: `json2json_split.py` keeps the contents
-/
namespace Verif.Py.Conv
open Verif Verif.Cali

theorem split_ne (s : Str) : split s ≠ [] := by
  cases s with
  | nil => simp [split]
  | cons c cs =>
    simp only [split]
    split
    · simp
    · split <;> simp

theorem slashed_split : ∀ s : Str, slashed (split s) = s
  | [] => rfl
  | c :: cs => by
    have ih := slashed_split cs
    simp only [split]
    by_cases h : c = 47
    · rw [if_pos h]
      cases hs : split cs with
      | nil => exact absurd hs (split_ne cs)
      | cons w ws => rw [hs] at ih; simp [slashed, ih, h]
    · rw [if_neg h]
      cases hs : split cs with
      | nil => exact absurd hs (split_ne cs)
      | cons w ws =>
        rw [hs] at ih
        cases ws with
        | nil => simp only [slashed] at ih ⊢; rw [ih]
        | cons w' ws' => simp only [slashed, List.cons_append] at ih ⊢; rw [ih]

theorem lookup_append {α β : Type} [DecidableEq α] (k : α) (l m : List (α × β)) : lookup k (l ++ m) = (lookup k l).or (lookup k m) := by
  induction l with
  | nil => simp [lookup]
  | cons p l ih => obtain ⟨a, b⟩ := p; simp only [List.cons_append, lookup]; split <;> simp [ih]

/-- the trees that are built -/
structure Inv (t : PTree) : Prop where
  root : ∀ (v : Str × Str) (i : Nat), lookup v t.roots = some i ↔ (nodeList t)[i]? = some ⟨v.1, v.2, none⟩
  kid : ∀ (p : Nat) (v : Str × Str) (i : Nat), ((t.nodes[p]?).bind fun n => lookup v n.children) = some i ↔ (nodeList t)[i]? = some ⟨v.1, v.2, some p⟩
  lt : ∀ (i : Nat) (n : OutNode) (p : Nat), (nodeList t)[i]? = some n → n.parent = some p → p < i

theorem nodeList_new (t : PTree) (v : Str × Str) (p : Option Nat) : nodeList (newNode t v p).1 = nodeList t ++ [⟨v.1, v.2, p⟩] := by
  simp [nodeList, newNode]

theorem nodeList_setKid (t : PTree) (p : Nat) (v : Str × Str) (i : Nat) : nodeList (setKid t p v i) = nodeList t := by
  apply List.ext_getElem?
  intro j
  simp only [nodeList, setKid, List.getElem?_map, List.getElem?_modify]
  cases t.nodes[j]? with
  | none => rfl
  | some n => by_cases h : p = j <;> simp [h]

theorem nodeList_length (t : PTree) : (nodeList t).length = t.nodes.length := by simp [nodeList]

theorem get_append_one {α : Type} (l : List α) (x : α) (i : Nat) (y : α) : (l ++ [x])[i]? = some y ↔ l[i]? = some y ∨ (i = l.length ∧ y = x) := by
  rcases Nat.lt_trichotomy i l.length with h | h | h
  · rw [List.getElem?_append_left h]; constructor
    · exact Or.inl
    · rintro (h' | h')
      · exact h'
      · omega
  · subst h; simp [eq_comm]
  · rw [List.getElem?_eq_none (by simp; omega), List.getElem?_eq_none (by omega)]
    simp; omega

theorem getRoot_spec {t : PTree} (I : Inv t) (v : Str × Str) :
    Inv (getRoot t v).1 ∧ (∃ ext, nodeList (getRoot t v).1 = nodeList t ++ ext) ∧
      (nodeList (getRoot t v).1)[(getRoot t v).2]? = some ⟨v.1, v.2, none⟩ := by
  unfold getRoot
  cases h : lookup v t.roots with
  | some i => exact ⟨I, ⟨[], by simp⟩, (I.root v i).1 h⟩
  | none =>
    have hnl : nodeList ⟨t.nodes ++ [⟨v, none, []⟩], t.roots ++ [(v, t.nodes.length)]⟩ = nodeList t ++ [⟨v.1, v.2, none⟩] := by
      simp [nodeList]
    change Inv ⟨t.nodes ++ [⟨v, none, []⟩], t.roots ++ [(v, t.nodes.length)]⟩ ∧ (∃ ext, nodeList ⟨t.nodes ++ [⟨v, none, []⟩], t.roots ++ [(v, t.nodes.length)]⟩ = nodeList t ++ ext) ∧ (nodeList ⟨t.nodes ++ [⟨v, none, []⟩], t.roots ++ [(v, t.nodes.length)]⟩)[t.nodes.length]? = some ⟨v.1, v.2, none⟩
    refine ⟨⟨?_, ?_, ?_⟩, ⟨[⟨v.1, v.2, none⟩], hnl⟩, ?_⟩
    · intro w i
      show lookup w (t.roots ++ [(v, t.nodes.length)]) = some i ↔ _
      rw [hnl, get_append_one, ← I.root, lookup_append, nodeList_length]
      simp only [lookup]
      by_cases e : v = w
      · subst e
        rw [h]
        simp [eq_comm]
      · have : ¬ (({ column := w.1, label := w.2, parent := none } : OutNode) = ⟨v.1, v.2, none⟩) := by
          intro he; simp at he; exact e (Prod.ext he.1.symm he.2.symm)
        simp only [if_neg e, this, and_false, or_false, Option.or_none]
    · intro p w i
      show (((t.nodes ++ [⟨v, none, []⟩])[p]?).bind fun n => lookup w n.children) = some i ↔ _
      rw [hnl, get_append_one, ← I.kid]
      have : ¬ (({ column := w.1, label := w.2, parent := some p } : OutNode) = ⟨v.1, v.2, none⟩) := by simp
      simp only [this, and_false, or_false]
      rcases Nat.lt_trichotomy p t.nodes.length with hp | hp | hp
      · rw [List.getElem?_append_left hp]
      · subst hp
        rw [List.getElem?_eq_none (Nat.le_refl _)]
        simp [lookup]
      · rw [List.getElem?_eq_none (by simp; omega), List.getElem?_eq_none (by omega)]
    · intro i n p hn hp
      rw [hnl, get_append_one] at hn
      rcases hn with hn | ⟨_, rfl⟩
      · exact I.lt i n p hn hp
      · cases hp
    · rw [hnl, get_append_one]
      right; exact ⟨(nodeList_length t).symm, rfl⟩

theorem getKid_spec {t : PTree} (I : Inv t) {p : Nat} (hp : p < t.nodes.length) (v : Str × Str) :
    Inv (getKid t p v).1 ∧ (∃ ext, nodeList (getKid t p v).1 = nodeList t ++ ext) ∧
      (nodeList (getKid t p v).1)[(getKid t p v).2]? = some ⟨v.1, v.2, some p⟩ := by
  unfold getKid
  cases h : (t.nodes[p]?).bind fun n => lookup v n.children with
  | some i => exact ⟨I, ⟨[], by simp⟩, (I.kid p v i).1 h⟩
  | none =>
    have hnl : nodeList (setKid (newNode t v (some p)).1 p v (newNode t v (some p)).2) = nodeList t ++ [⟨v.1, v.2, some p⟩] := by
      rw [nodeList_setKid, nodeList_new]
    change Inv (setKid (newNode t v (some p)).1 p v (newNode t v (some p)).2) ∧ (∃ ext, nodeList (setKid (newNode t v (some p)).1 p v (newNode t v (some p)).2) = nodeList t ++ ext) ∧ (nodeList (setKid (newNode t v (some p)).1 p v (newNode t v (some p)).2))[t.nodes.length]? = some ⟨v.1, v.2, some p⟩
    refine ⟨⟨?_, ?_, ?_⟩, ⟨[⟨v.1, v.2, some p⟩], hnl⟩, ?_⟩
    · intro w i
      show lookup w t.roots = some i ↔ _
      rw [hnl, get_append_one, ← I.root]
      have : ¬ (({ column := w.1, label := w.2, parent := none } : OutNode) = ⟨v.1, v.2, some p⟩) := by simp
      simp only [this, and_false, or_false]
    · intro q w i
      rw [hnl, get_append_one, ← I.kid, nodeList_length]
      simp only [setKid, newNode, List.getElem?_modify]
      rcases Nat.lt_trichotomy q t.nodes.length with hq | hq | hq
      · rw [List.getElem?_append_left hq]
        by_cases e : p = q
        · subst e
          obtain ⟨n, hn⟩ : ∃ n, t.nodes[p]? = some n := ⟨_, List.getElem?_eq_getElem hp⟩
          rw [hn] at h
          simp only [Option.bind_some] at h
          simp only [hn, Option.map_eq_map, Option.map_some, if_true, Option.bind_some, lookup_append, lookup]
          by_cases ev : v = w
          · subst ev; rw [h]; simp [eq_comm]
          · have : ¬ (({ column := w.1, label := w.2, parent := some p } : OutNode) = ⟨v.1, v.2, some p⟩) := by
              intro he; simp at he; exact ev (Prod.ext he.1.symm he.2.symm)
            simp only [if_neg ev, Option.or_none, this, and_false, or_false]
        · have : ¬ (({ column := w.1, label := w.2, parent := some q } : OutNode) = ⟨v.1, v.2, some p⟩) := by
            intro he; simp at he; exact e he.2.2.symm
          simp only [if_neg e, this, and_false, or_false]
          cases t.nodes[q]? <;> rfl
      · subst hq
        have e : p ≠ t.nodes.length := by omega
        have : ¬ (({ column := w.1, label := w.2, parent := some t.nodes.length } : OutNode) = ⟨v.1, v.2, some p⟩) := by
          intro he; simp at he; exact e he.2.2.symm
        rw [List.getElem?_eq_none (Nat.le_refl t.nodes.length)]
        simp [lookup, this, if_neg e]
      · have : ¬ (({ column := w.1, label := w.2, parent := some q } : OutNode) = ⟨v.1, v.2, some p⟩) := by
          intro he; simp at he; omega
        rw [List.getElem?_eq_none (by simp; omega), List.getElem?_eq_none (by omega)]
        simp [this]
    · intro i n q hn hq
      rw [hnl, get_append_one] at hn
      rcases hn with hn | ⟨rfl, rfl⟩
      · exact I.lt i n q hn hq
      · simp only [Option.some.injEq] at hq; rw [nodeList_length]; omega
    · rw [hnl, get_append_one]
      right; exact ⟨(nodeList_length t).symm, rfl⟩

theorem PathOf.mono {ns : List OutNode} {c : Str} {i : Nat} {ls : List Str} (h : PathOf ns c i ls) (ext : List OutNode) :
    PathOf (ns ++ ext) c i ls := by
  induction h with
  | root h =>
    refine .root ?_
    rw [List.getElem?_append_left (by by_contra hh; rw [List.getElem?_eq_none (by omega)] at h; cases h)]; exact h
  | child h _ ih =>
    refine .child ?_ ih
    rw [List.getElem?_append_left (by by_contra hh; rw [List.getElem?_eq_none (by omega)] at h; cases h)]; exact h

theorem PathOf.lt {ns : List OutNode} {c : Str} {i : Nat} {ls : List Str} (h : PathOf ns c i ls) : i < ns.length := by
  cases h with
  | root h => by_contra hh; rw [List.getElem?_eq_none (by omega)] at h; cases h
  | child h _ => by_contra hh; rw [List.getElem?_eq_none (by omega)] at h; cases h

theorem walk_spec (c : Str) : ∀ (ws : List Str) {t : PTree} {p : Nat} {ls : List Str}, Inv t → PathOf (nodeList t) c p ls →
    Inv (walk t c p ws).1 ∧ (∃ ext, nodeList (walk t c p ws).1 = nodeList t ++ ext) ∧
      PathOf (nodeList (walk t c p ws).1) c (walk t c p ws).2 (ls ++ ws)
  | [], t, p, ls, I, h => ⟨I, ⟨[], by simp [walk]⟩, by simpa [walk] using h⟩
  | w :: ws, t, p, ls, I, h => by
    have hp := h.lt
    rw [nodeList_length] at hp
    obtain ⟨I1, ⟨e1, he1⟩, hn⟩ := getKid_spec I hp (c, w)
    have h1 : PathOf (nodeList (getKid t p (c, w)).1) c (getKid t p (c, w)).2 (ls ++ [w]) := .child hn (by rw [he1]; exact h.mono e1)
    obtain ⟨I2, ⟨e2, he2⟩, h2⟩ := walk_spec c ws I1 h1
    refine ⟨I2, ⟨e1 ++ e2, ?_⟩, ?_⟩
    · simp only [walk]; rw [he2, he1, List.append_assoc]
    · simp only [walk]; simpa using h2

theorem getNodeId_spec (c : Str) {ws : List Str} (hw : ws ≠ []) {t : PTree} (I : Inv t) :
    Inv (getNodeId t c ws).1 ∧ (∃ ext, nodeList (getNodeId t c ws).1 = nodeList t ++ ext) ∧
      PathOf (nodeList (getNodeId t c ws).1) c (getNodeId t c ws).2 ws := by
  cases ws with
  | nil => exact absurd rfl hw
  | cons w ws =>
    obtain ⟨I1, ⟨e1, he1⟩, hn⟩ := getRoot_spec I (c, w)
    obtain ⟨I2, ⟨e2, he2⟩, h2⟩ := walk_spec c ws I1 (.root hn)
    exact ⟨I2, ⟨e1 ++ e2, by simp only [getNodeId]; rw [he2, he1, List.append_assoc]⟩, by simpa [getNodeId] using h2⟩

theorem Reads.mono {ns : List OutNode} {c : Str} {b : Bool} {x : Cell} {v : Option JVal} (h : Reads ns c b x v) (ext : List OutNode) :
    Reads (ns ++ ext) c b x v := by
  cases h with
  | absent b => exact .absent b
  | value h => exact .value h
  | null => exact .null
  | path h => exact .path (h.mono ext)

theorem lookup_value (r : JRec) (c : Str) : lookup c r = value r c := by
  unfold value
  induction r with
  | nil => rfl
  | cons p r ih =>
    obtain ⟨a, b⟩ := p
    simp only [lookup, List.find?_cons]
    by_cases h : a = c
    · simp [h]
    · have : (a == c) = false := by simpa using h
      simp only [h, if_false, this]; exact ih

theorem value_mem {r : JRec} {c : Str} {v : JVal} (h : value r c = some v) : (c, v) ∈ r := by
  unfold value at h
  cases hf : r.find? (fun x => x.1 == c) with
  | none => rw [hf] at h; cases h
  | some x =>
    rw [hf] at h
    have h1 := List.mem_of_find?_eq_some hf
    have h2 := List.find?_some hf
    simp at h h2
    obtain ⟨a, b⟩ := x
    simp at h h2; subst h; subst h2; exact h1

/-- a cell of a row -/
theorem cell_spec {t : PTree} (I : Inv t) (r : JRec) (c : Str × Bool) (hnn : ∀ x ∈ r, x.2 ≠ .null) {t' : PTree} {x : Cell} (h : cell t r c = some (t', x)) :
    Inv t' ∧ (∃ ext, nodeList t' = nodeList t ++ ext) ∧ Reads (nodeList t') c.1 c.2 x (value r c.1) := by
  unfold cell at h
  rw [lookup_value] at h
  cases hv : value r c.1 with
  | none =>
    rw [hv] at h; simp only [Option.some.injEq, Prod.mk.injEq] at h
    obtain ⟨rfl, rfl⟩ := h
    exact ⟨I, ⟨[], by simp⟩, .absent _⟩
  | some v =>
    rw [hv] at h
    by_cases hc : c.2 = false
    · simp only [hc, if_true] at h
      cases v with
      | text s =>
        simp only [Option.some.injEq, Prod.mk.injEq] at h
        obtain ⟨rfl, rfl⟩ := h
        obtain ⟨I1, he, hp⟩ := getNodeId_spec c.1 (split_ne s) I
        refine ⟨I1, he, ?_⟩
        rw [hc]
        have := Reads.path hp
        rwa [slashed_split] at this
      | null => cases h
      | other n => cases h
    · simp only [hc, if_false, Option.some.injEq, Prod.mk.injEq] at h
      obtain ⟨rfl, rfl⟩ := h
      have : c.2 = true := by simpa using hc
      rw [this]
      exact ⟨I, ⟨[], by simp⟩, .value (hnn _ (value_mem hv))⟩

theorem row_spec (r : JRec) (hnn : ∀ x ∈ r, x.2 ≠ .null) : ∀ (cs : List (Str × Bool)) {t t' : PTree} {xs : List Cell}, Inv t → row t r cs = some (t', xs) →
    Inv t' ∧ (∃ ext, nodeList t' = nodeList t ++ ext) ∧ List.Forall₂ (fun c x => Reads (nodeList t') c.1 c.2 x (value r c.1)) cs xs
  | [], t, t', xs, I, h => by
    simp only [row, Option.some.injEq, Prod.mk.injEq] at h
    obtain ⟨rfl, rfl⟩ := h
    exact ⟨I, ⟨[], by simp⟩, .nil⟩
  | c :: cs, t, t', xs, I, h => by
    simp only [row] at h
    cases hc : cell t r c with
    | none => rw [hc] at h; cases h
    | some q =>
      obtain ⟨t1, x⟩ := q
      rw [hc] at h
      simp only at h
      cases hr : row t1 r cs with
      | none => rw [hr] at h; cases h
      | some q =>
        obtain ⟨t2, ys⟩ := q
        rw [hr] at h
        simp only [Option.some.injEq, Prod.mk.injEq] at h
        obtain ⟨rfl, rfl⟩ := h
        obtain ⟨I1, ⟨e1, he1⟩, h1⟩ := cell_spec I r c hnn hc
        obtain ⟨I2, ⟨e2, he2⟩, h2⟩ := row_spec r hnn cs I1 hr
        exact ⟨I2, ⟨e1 ++ e2, by rw [he2, he1, List.append_assoc]⟩, .cons (by rw [he2]; exact h1.mono e2) h2⟩

theorem rows_spec (cs : List (Str × Bool)) : ∀ (recs : List JRec) {t t' : PTree} {xs : List (List Cell)}, NoNull recs → Inv t →
    rows t cs recs = some (t', xs) →
    Inv t' ∧ (∃ ext, nodeList t' = nodeList t ++ ext) ∧
      List.Forall₂ (fun r ys => List.Forall₂ (fun c x => Reads (nodeList t') c.1 c.2 x (value r c.1)) cs ys) recs xs
  | [], t, t', xs, _, I, h => by
    simp only [rows, Option.some.injEq, Prod.mk.injEq] at h
    obtain ⟨rfl, rfl⟩ := h
    exact ⟨I, ⟨[], by simp⟩, .nil⟩
  | r :: recs, t, t', xs, hn, I, h => by
    simp only [rows] at h
    cases hc : row t r cs with
    | none => rw [hc] at h; cases h
    | some q =>
      obtain ⟨t1, x⟩ := q
      rw [hc] at h
      simp only at h
      cases hr : rows t1 cs recs with
      | none => rw [hr] at h; cases h
      | some q =>
        obtain ⟨t2, ys⟩ := q
        rw [hr] at h
        simp only [Option.some.injEq, Prod.mk.injEq] at h
        obtain ⟨rfl, rfl⟩ := h
        obtain ⟨I1, ⟨e1, he1⟩, h1⟩ := row_spec r (hn r (by simp)) cs I hc
        obtain ⟨I2, ⟨e2, he2⟩, h2⟩ := rows_spec cs recs (fun q hq => hn q (by simp [hq])) I1 hr
        refine ⟨I2, ⟨e1 ++ e2, by rw [he2, he1, List.append_assoc]⟩, .cons ?_ h2⟩
        exact h1.imp fun c x hx => by rw [he2]; exact hx.mono e2


theorem addCols_lookup : ∀ (r : JRec) (d : List (Str × Bool)) (c : Str), lookup c (addCols d r) = (lookup c d).or ((value r c).map (!isText ·))
  | [], d, c => by simp [addCols, value]
  | (k, v) :: r, d, c => by
    simp only [addCols]
    rw [addCols_lookup r]
    have hv : value ((k, v) :: r) c = if k = c then some v else value r c := by
      rw [← lookup_value, ← lookup_value]; rfl
    rw [hv]
    by_cases e : k = c
    · subst e
      cases h : lookup k d with
      | some b => simp [h]
      | none => simp [h, lookup_append, lookup]
    · rw [if_neg e]
      split
      · rfl
      · rw [lookup_append]; simp [lookup, e]

theorem addCols_nodup : ∀ (r : JRec) (d : List (Str × Bool)), (d.map Prod.fst).Nodup → ((addCols d r).map Prod.fst).Nodup
  | [], d, h => h
  | (k, v) :: r, d, h => by
    simp only [addCols]
    apply addCols_nodup r
    split
    · exact h
    · rename_i hk
      rw [List.map_append, List.nodup_append]
      refine ⟨h, by simp, ?_⟩
      intro a ha b hb e
      simp at hb; subst hb; subst e
      apply hk
      clear hk h
      induction d with
      | nil => simp at ha
      | cons p d ih =>
        obtain ⟨x, y⟩ := p
        show (if x = a then some y else lookup a d).isSome = true
        by_cases hx : x = a
        · simp [hx]
        · rw [if_neg hx]
          simp only [List.map_cons, List.mem_cons] at ha
          exact ih (ha.resolve_left fun e => hx e.symm)

/-- the first value of a column -/
def firstVal (recs : List JRec) (c : Str) : Option JVal := recs.findSome? (value · c)

theorem colDict_lookup : ∀ (recs : List JRec) (d : List (Str × Bool)) (c : Str), lookup c (colDict d recs) = (lookup c d).or ((firstVal recs c).map (!isText ·))
  | [], d, c => by simp [colDict, firstVal]
  | r :: rs, d, c => by
    simp only [colDict]
    rw [colDict_lookup rs, addCols_lookup, show firstVal (r :: rs) c = _ from List.findSome?_cons ..]
    cases lookup c d with
    | some b => simp
    | none => cases value r c <;> simp [firstVal]

theorem colDict_nodup : ∀ (recs : List JRec) (d : List (Str × Bool)), (d.map Prod.fst).Nodup → ((colDict d recs).map Prod.fst).Nodup
  | [], _, h => h
  | r :: rs, d, h => colDict_nodup rs _ (addCols_nodup r d h)

theorem lookup_mem {α β : Type} [DecidableEq α] : ∀ (l : List (α × β)) (k : α) (b : β), (l.map Prod.fst).Nodup → (lookup k l = some b ↔ (k, b) ∈ l)
  | [], k, b, _ => by simp [lookup]
  | (x, y) :: l, k, b, h => by
    simp only [List.map_cons, List.nodup_cons] at h
    have ih := lookup_mem l k b h.2
    simp only [lookup, List.mem_cons, Prod.mk.injEq]
    by_cases e : x = k
    · subst e
      rw [if_pos rfl]
      constructor
      · intro hh; left; exact ⟨rfl, (Option.some.inj hh).symm⟩
      · rintro (⟨_, hb⟩ | hm)
        · rw [hb]
        · exact absurd (List.mem_map.2 ⟨_, hm, rfl⟩) h.1
    · rw [if_neg e, ih]
      constructor
      · exact Or.inr
      · rintro (⟨hk, _⟩ | hm)
        · exact absurd hk.symm e
        · exact hm

theorem firstVal_text (recs : List JRec) (c : Str) (s : Str) : firstVal recs c = some (.text s) → TextColumn recs c := by
  induction recs with
  | nil => simp [firstVal]
  | cons r rs ih =>
    intro h
    rw [firstVal, List.findSome?_cons] at h
    cases hv : value r c with
    | some v => rw [hv] at h; simp at h; subst h; exact ⟨[], r, rs, s, rfl, by simp, hv⟩
    | none =>
      rw [hv] at h
      obtain ⟨pre, q, post, s', he, hp, hq⟩ := ih h
      exact ⟨r :: pre, q, post, s', by rw [he]; rfl, by simpa [hv] using hp, hq⟩

theorem text_firstVal {recs : List JRec} {c : Str} (h : TextColumn recs c) : ∃ s, firstVal recs c = some (.text s) := by
  obtain ⟨pre, r, post, s, rfl, hp, hq⟩ := h
  refine ⟨s, ?_⟩
  induction pre with
  | nil => simp [firstVal, hq]
  | cons a pre ih =>
    have := ih fun q hq => hp q (by simp [hq])
    simp only [List.cons_append, firstVal, List.findSome?_cons, hp a (by simp)]
    exact this

/-- the values that make the script fail -/
def Bad (r : JRec) (c : Str × Bool) : Prop := c.2 = false ∧ ∃ v, value r c.1 = some v ∧ isText v = false

theorem cell_none (t : PTree) (r : JRec) (c : Str × Bool) : cell t r c = none ↔ Bad r c := by
  unfold cell Bad
  rw [lookup_value]
  cases value r c.1 with
  | none => simp
  | some v => cases c.2 <;> cases v <;> simp [isText]

theorem row_none (r : JRec) : ∀ (cs : List (Str × Bool)) (t : PTree), row t r cs = none ↔ ∃ c ∈ cs, Bad r c
  | [], t => by simp [row]
  | c :: cs, t => by
    simp only [row, List.mem_cons, exists_eq_or_imp]
    rw [← cell_none t r c]
    cases hc : cell t r c with
    | none => simp
    | some q =>
      obtain ⟨t1, x⟩ := q
      have ih := row_none r cs t1
      simp only [reduceCtorEq, false_or]
      rw [← ih]
      cases row t1 r cs <;> simp

theorem rows_none (cs : List (Str × Bool)) : ∀ (recs : List JRec) (t : PTree), rows t cs recs = none ↔ ∃ r ∈ recs, ∃ c ∈ cs, Bad r c
  | [], t => by simp [rows]
  | r :: rs, t => by
    simp only [rows, List.mem_cons, exists_eq_or_imp]
    rw [← row_none r cs t]
    cases hc : row t r cs with
    | none => simp
    | some q =>
      obtain ⟨t1, x⟩ := q
      have ih := rows_none cs rs t1
      simp only [reduceCtorEq, false_or]
      rw [← ih]
      cases rows t1 cs rs <;> simp

theorem inv_empty : Inv ⟨[], []⟩ := ⟨by simp [nodeList, lookup], by simp [nodeList], by simp [nodeList]⟩

theorem Inv.shared {t : PTree} (I : Inv t) : Shared (nodeList t) := by
  refine ⟨?_, I.lt⟩
  rw [List.nodup_iff_pairwise_ne, List.pairwise_iff_getElem]
  intro i j hi' hj hij e0
  have hi : (nodeList t)[i]? = some (nodeList t)[i] := List.getElem?_eq_getElem (by omega)
  have e : (nodeList t)[i]? = (nodeList t)[j]? := by rw [hi, List.getElem?_eq_getElem hj, e0]
  clear e0
  generalize (nodeList t)[i] = n at hi
  rw [hi] at e
  obtain ⟨c, l, p⟩ := n
  cases p with
  | none =>
    have h1 := (I.root (c, l) i).2 hi
    have h2 := (I.root (c, l) j).2 e.symm
    rw [h1] at h2; simp at h2; omega
  | some p =>
    have h1 := (I.kid p (c, l) i).2 hi
    have h2 := (I.kid p (c, l) j).2 e.symm
    rw [h1] at h2; simp at h2; omega

theorem value_key (r : JRec) (c : Str) : (∃ v, value r c = some v) ↔ c ∈ r.map Prod.fst := by
  rw [← lookup_value]
  induction r with
  | nil => simp [lookup]
  | cons p r ih =>
    obtain ⟨a, b⟩ := p
    simp only [lookup, List.map_cons, List.mem_cons]
    by_cases e : a = c
    · simp [e]
    · rw [if_neg e, ih]; simp only [eq_comm (a := c), e, false_or]

/-- C109: the script fails exactly if a column that starts with a text has another value in some record. -/
theorem C109_fails_iff (recs : List JRec) : convert recs = none ↔ ¬ Consistent recs := by
  have hd := colDict_nodup recs [] (by simp)
  have h0 : convert recs = none ↔ ∃ r ∈ recs, ∃ c ∈ colDict [] recs, Bad r c := by
    rw [← rows_none (colDict [] recs) recs ⟨[], []⟩]
    unfold convert
    simp only
    cases hx : rows ⟨[], []⟩ (colDict [] recs) recs <;> simp
  rw [h0]
  constructor
  · rintro ⟨r, hr, ⟨c, b⟩, hc, hb, v, hv, ht⟩ hcons
    have hl := (lookup_mem _ c b hd).2 hc
    simp only at hb hv
    subst hb
    rw [colDict_lookup] at hl
    simp only [lookup, Option.none_or] at hl
    cases hf : firstVal recs c with
    | none => rw [hf] at hl; cases hl
    | some w =>
      rw [hf] at hl
      simp at hl
      cases w with
      | text s =>
        obtain ⟨s', rfl⟩ := hcons c (firstVal_text recs c s hf) r hr v hv
        simp [isText] at ht
      | null => simp [isText] at hl
      | other n => simp [isText] at hl
  · intro hcons
    unfold Consistent at hcons
    push_neg at hcons
    obtain ⟨c, ht, r, hr, v, hv, hn⟩ := hcons
    obtain ⟨s, hs⟩ := text_firstVal ht
    refine ⟨r, hr, (c, false), (lookup_mem _ c false hd).1 ?_, rfl, v, hv, ?_⟩
    · rw [colDict_lookup, hs]; simp [lookup, isText]
    · cases v with
      | text s => exact absurd rfl (hn s)
      | null => rfl
      | other n => rfl

/-- C109: if the script does not fail, and there are no `null` values, the json-split document stands for the records, and has every path
once. -/
theorem C109_contents_partial (recs : List JRec) (hn : NoNull recs) (D : SplitDoc) (h : convert recs = some D) :
    StandsFor D recs ∧ Shared D.nodes := by
  have hd := colDict_nodup recs [] (by simp)
  unfold convert at h
  simp only at h
  cases hr : rows ⟨[], []⟩ (colDict [] recs) recs with
  | none => rw [hr] at h; cases h
  | some q =>
    obtain ⟨t, xs⟩ := q
    rw [hr] at h
    simp only [Option.some.injEq] at h
    subst h
    obtain ⟨I, _, hall⟩ := rows_spec (colDict [] recs) recs hn inv_empty hr
    refine ⟨⟨hd, ?_, by simp, hall.length_eq.symm, ?_⟩, I.shared⟩
    · intro c
      have hmem : c ∈ (colDict [] recs).map Prod.fst ↔ ∃ b, lookup c (colDict [] recs) = some b := by
        constructor
        · intro hm
          obtain ⟨⟨a, b⟩, hab, rfl⟩ := List.mem_map.1 hm
          exact ⟨b, (lookup_mem _ _ b hd).2 hab⟩
        · rintro ⟨b, hb⟩
          exact List.mem_map.2 ⟨(c, b), (lookup_mem _ _ b hd).1 hb, rfl⟩
      rw [hmem, colDict_lookup]
      simp only [lookup, Option.none_or, Option.map_eq_some_iff, firstVal]
      constructor
      · rintro ⟨b, v, hv, _⟩
        obtain ⟨r, hr, hv⟩ := List.exists_of_findSome?_eq_some hv
        exact ⟨r, hr, (value_key r c).1 ⟨v, hv⟩⟩
      · rintro ⟨r, hr, hc⟩
        obtain ⟨v, hv⟩ := (value_key r c).2 hc
        cases hf : recs.findSome? (value · c) with
        | none => have := List.findSome?_eq_none_iff.1 hf r hr; rw [hv] at this; cases this
        | some w => exact ⟨_, w, rfl, rfl⟩
    · intro i r hi
      have hlen := hall.length_eq
      have hlt : i < recs.length := by by_contra hh; rw [List.getElem?_eq_none (by omega)] at hi; cases hi
      have hrow := hall.get hlt (by omega)
      simp only [List.get_eq_getElem] at hrow
      have hri : recs[i] = r := by rw [List.getElem?_eq_getElem hlt] at hi; exact Option.some.inj hi
      rw [hri] at hrow
      refine ⟨xs[i]'(by omega), List.getElem?_eq_getElem (show i < xs.length by omega), by rw [← hrow.length_eq]; simp, ?_⟩
      intro j c hj
      rw [List.getElem?_map] at hj
      cases hcj : (colDict [] recs)[j]? with
      | none => rw [hcj] at hj; cases hj
      | some cb =>
        rw [hcj] at hj
        simp only [Option.map_some, Option.some.injEq] at hj
        have hjl : j < (colDict [] recs).length := by by_contra hh; rw [List.getElem?_eq_none (by omega)] at hcj; cases hcj
        have hl2 := hrow.length_eq
        have hx := hrow.get hjl (by omega)
        simp only [List.get_eq_getElem] at hx
        have hcb : (colDict [] recs)[j] = cb := by rw [List.getElem?_eq_getElem hjl] at hcj; exact Option.some.inj hcj
        rw [hcb, hj] at hx
        exact ⟨_, cb.2, List.getElem?_eq_getElem (by omega), by rw [List.getElem?_map, hcj]; rfl, hx⟩

/-- a text then a number in the same column: the script fails -/
theorem C109_mixed_column_violated (c s : Str) (n : Nat) : convert [[(c, .text s)], [(c, .other n)]] = none := by
  rw [C109_fails_iff]
  intro h
  obtain ⟨s', hs⟩ := h c ⟨[], [(c, .text s)], [[(c, .other n)]], s, rfl, by simp, by simp [value]⟩ [(c, .other n)] (by simp) (.other n) (by simp [value])
  cases hs

/-- a `null` value cannot be told from a missing one -/
theorem C109_null_violated (c : Str) (n : Nat) : ∃ D, convert [[(c, .other n)], [(c, .null)]] = some D ∧ ¬ StandsFor D [[(c, .other n)], [(c, .null)]] := by
  refine ⟨⟨[[.val (.other n)], [.val .null]], [c], [true], []⟩, by
    simp [convert, colDict, addCols, lookup, rows, row, cell, isText, nodeList], ?_⟩
  rintro ⟨_, _, _, _, h⟩
  obtain ⟨xs, h1, _, h2⟩ := h 1 _ rfl
  simp at h1; subst h1
  obtain ⟨x, b, hx, hb, hr⟩ := h2 0 c rfl
  simp at hx hb; subst hx; subst hb
  have : value [(c, JVal.null)] c = some .null := by simp [value]
  rw [this] at hr
  cases hr with
  | value h => exact h rfl

/-- three records: paths `main`, `main/foo` and a number -/
def demoRecs : List JRec :=
  [[([112], .text [109]), ([116], .other 3)], [([112], .text [109, 47, 102])], [([116], .other 4), ([112], .text [109, 47, 102, 47]), ([113], .text [])]]

example : NoNull demoRecs ∧ Dicts demoRecs := by
  constructor
  · intro r hr x hx
    simp only [demoRecs, List.mem_cons, List.not_mem_nil, or_false] at hr
    rcases hr with rfl | rfl | rfl <;> simp at hx <;> (try rcases hx with rfl | rfl | rfl) <;> (try rcases hx with rfl | rfl) <;> (try subst hx) <;> simp
  · simp [Dicts, demoRecs]

theorem C109_demo : convert demoRecs = some ⟨[[.node 0, .val (.other 3), .none], [.node 1, .none, .none], [.node 2, .val (.other 4), .node 3]],
    [[112], [116], [113]], [false, true, false],
    [⟨[112], [109], none⟩, ⟨[112], [102], some 0⟩, ⟨[112], [], some 1⟩, ⟨[113], [], none⟩]⟩ := by decide +kernel

end Verif.Py.Conv
