import Verif.ConfMgr.JLemmas
import Mathlib.Data.List.Forall2
/-!
# Reading specs
-/
namespace Verif.ConfMgr
open Verif Verif.Cali Verif.Parse
open Verif.Query.CalQL (Spaces)
open Verif.Query.Json (strLt)

/-! ## string order -/

theorem strLt_irrefl (a : Str) : strLt a a = false := by
  induction a with
  | nil => rfl
  | cons c a ih => unfold strLt; simp [ih]

theorem strLt_trans {a b c : Str} (h1 : strLt a b = true) (h2 : strLt b c = true) : strLt a c = true := by
  induction a generalizing b c with
  | nil => cases c with
    | nil => cases b <;> simp [strLt] at h2
    | cons => rfl
  | cons x a ih =>
    cases b with
    | nil => simp [strLt] at h1
    | cons y b =>
      cases c with
      | nil => simp [strLt] at h2
      | cons z c =>
        unfold strLt at h1 h2 ⊢
        by_cases hxy : x.toNat < y.toNat
        · by_cases hyz : y.toNat < z.toNat
          · simp [show x.toNat < z.toNat by omega]
          · by_cases hzy : z.toNat < y.toNat
            · simp [hyz, hzy] at h2
            · simp [show x.toNat < z.toNat by omega]
        · by_cases hyx : y.toNat < x.toNat
          · simp [hxy, hyx] at h1
          · simp only [hxy, hyx, if_false] at h1
            by_cases hyz : y.toNat < z.toNat
            · simp [show x.toNat < z.toNat by omega]
            · by_cases hzy : z.toNat < y.toNat
              · simp [hyz, hzy] at h2
              · simp only [hyz, hzy, if_false] at h2
                simp [show ¬x.toNat < z.toNat by omega, show ¬z.toNat < x.toNat by omega, ih h1 h2]

theorem strLt_total {a b : Str} (h : strLt a b = false) (hn : a ≠ b) : strLt b a = true := by
  induction a generalizing b with
  | nil => cases b with
    | nil => exact absurd rfl hn
    | cons => simp [strLt] at h
  | cons x a ih =>
    cases b with
    | nil => rfl
    | cons y b =>
      unfold strLt at h ⊢
      by_cases hxy : x.toNat < y.toNat
      · simp [hxy] at h
      · by_cases hyx : y.toNat < x.toNat
        · simp [hyx]
        · simp only [hxy, hyx, if_false] at h
          have he : x = y := by apply BitVec.eq_of_toNat_eq; omega
          subst he
          simp [ih h (by rintro rfl; exact hn rfl)]

/-! ## maps -/

/-- sorted by key -/
def MSorted {α : Type} (m : List (Str × α)) : Prop := m.Pairwise (fun a b => strLt a.1 b.1 = true)

theorem mset_mem {α : Type} {m : List (Str × α)} {k : Str} {v : α} {x : Str × α} (h : x ∈ mset m k v) : x = (k, v) ∨ x ∈ m := by
  induction m with
  | nil => simpa [mset] using h
  | cons e m ih =>
    unfold mset at h
    split at h
    · simp only [List.mem_cons] at h ⊢; tauto
    · split at h
      · simp only [List.mem_cons] at h ⊢; tauto
      · simp only [List.mem_cons] at h ⊢
        rcases h with h | h
        · tauto
        · have := ih h; tauto

theorem mset_sorted {α : Type} {m : List (Str × α)} (h : MSorted m) (k : Str) (v : α) : MSorted (mset m k v) := by
  induction m with
  | nil => simp [mset, MSorted]
  | cons e m ih =>
    obtain ⟨h1, h2⟩ := List.pairwise_cons.1 h
    unfold mset
    split
    · next he => refine List.pairwise_cons.2 ⟨fun a ha => ?_, h2⟩; rw [← he]; exact h1 a ha
    · next he =>
      split
      · next hl =>
        refine List.pairwise_cons.2 ⟨fun a ha => ?_, h⟩
        rcases List.mem_cons.1 ha with rfl | ha
        · exact hl
        · exact strLt_trans hl (h1 a ha)
      · next hl =>
        refine List.pairwise_cons.2 ⟨fun a ha => ?_, ih h2⟩
        rcases mset_mem ha with rfl | ha
        · exact strLt_total (by simpa using hl) (by rintro rfl; exact he rfl)
        · exact h1 a ha

theorem setAll_sorted {α : Type} {m : List (Str × α)} (h : MSorted m) (l : List (Str × α)) : MSorted (setAll m l) := by
  unfold setAll
  induction l generalizing m with
  | nil => exact h
  | cons e l ih => exact ih (mset_sorted h _ _)

theorem lastVal_nil {α : Type} (q : Str) : lastVal ([] : List (Str × α)) q = none := rfl

theorem lastVal_append {α : Type} (l r : List (Str × α)) (q : Str) : lastVal (l ++ r) q = (lastVal r q).or (lastVal l q) := by
  unfold lastVal
  rw [List.reverse_append, List.find?_append]
  cases List.find? (fun e => decide (e.1 = q)) r.reverse <;> simp

theorem lastVal_cons {α : Type} (e : Str × α) (l : List (Str × α)) (q : Str) :
    lastVal (e :: l) q = (lastVal l q).or (if e.1 = q then some e.2 else none) := by
  rw [← List.singleton_append, lastVal_append]
  congr 1
  unfold lastVal
  by_cases h : e.1 = q <;> simp [h]

theorem setAll_lookup {α : Type} (m l : List (Str × α)) (q : Str) : (setAll m l).lookup q = (lastVal l q).or (m.lookup q) := by
  unfold setAll
  induction l generalizing m with
  | nil => rfl
  | cons e l ih =>
    rw [List.foldl_cons, ih, mset_lookup, lastVal_cons]
    cases lastVal l q with
    | some v => rfl
    | none =>
      by_cases h : q = e.1
      · simp [h]
      · simp [h, show ¬e.1 = q from fun h' => h h'.symm]

theorem mapOf_setAll {α : Type} (l : List (Str × α)) : MapOf l (setAll [] l) :=
  ⟨setAll_sorted List.Pairwise.nil l, fun q => by rw [setAll_lookup]; simp⟩

theorem lookup_none_of {α : Type} {m : List (Str × α)} {q : Str} (h : ∀ e ∈ m, e.1 ≠ q) : m.lookup q = none := by
  induction m with
  | nil => rfl
  | cons e m ih =>
    rw [List.lookup_cons, show (q == e.1) = false by simpa using fun h' => h e (by simp) h'.symm]
    exact ih fun x hx => h x (by simp [hx])

theorem lastVal_none_of {α : Type} {m : List (Str × α)} {q : Str} (h : ∀ e ∈ m, e.1 ≠ q) : lastVal m q = none := by
  unfold lastVal
  rw [List.find?_eq_none.2 (by intro x hx; simpa using h x (by simpa using hx))]
  rfl

theorem sorted_lastVal {α : Type} {m : List (Str × α)} (h : MSorted m) (q : Str) : lastVal m q = m.lookup q := by
  induction m with
  | nil => rfl
  | cons e m ih =>
    obtain ⟨h1, h2⟩ := List.pairwise_cons.1 h
    rw [lastVal_cons, ih h2, List.lookup_cons]
    by_cases hq : e.1 = q
    · subst hq
      rw [lookup_none_of (fun x hx hx' => by have := h1 x hx; rw [hx', strLt_irrefl] at this; cases this)]
      simp
    · simp [hq, show (q == e.1) = false by simpa using fun h' => hq h'.symm]

theorem mapOf_copy {α : Type} {l m : List (Str × α)} (h : MapOf l m) : MapOf l (setAll [] m) :=
  ⟨setAll_sorted List.Pairwise.nil m, fun q => by rw [setAll_lookup, sorted_lastVal h.1, h.2]; simp⟩

/-! ## entries -/

theorem kept_lastVal {l : List (Str × J)} {vs : List (Str × Str)} (h : List.Forall₂ KeptEntry l vs) (k : Str) :
    match lastVal l k, lastVal vs k with
    | none, none => True
    | some j, some v => Kept j v
    | _, _ => False := by
  induction h with
  | nil => trivial
  | @cons e p l vs he _ ih =>
    rw [lastVal_cons, lastVal_cons]
    obtain ⟨h1, h2⟩ := he
    rw [h1]
    cases h3 : lastVal l k <;> cases h4 : lastVal vs k <;> rw [h3, h4] at ih
    · by_cases hk : p.1 = k
      · simpa [hk] using h2
      · simp [hk]
    · exact ih.elim
    · exact ih.elim
    · simpa using ih

/-- the entry for a key as it is kept -/
theorem kept_get {l : List (Str × J)} {vs : List (Str × Str)} (h : List.Forall₂ KeptEntry l vs) (k : Str) :
    (lastVal l k = none ∧ (setAll [] vs).lookup k = none) ∨ ∃ j v, lastVal l k = some j ∧ (setAll [] vs).lookup k = some v ∧ Kept j v := by
  have := kept_lastVal h k
  rw [setAll_lookup]
  cases h3 : lastVal l k <;> cases h4 : lastVal vs k <;> rw [h3, h4] at this
  · exact .inl ⟨rfl, rfl⟩
  · exact this.elim
  · exact this.elim
  · exact .inr ⟨_, _, rfl, rfl, this⟩

theorem kept_words {vs us : List Str} (h : List.Forall₂ Kept (vs.map J.word) us) : us = vs := by
  induction vs generalizing us with
  | nil => cases h; rfl
  | cons v vs ih =>
    cases h with
    | cons h1 h2 => rw [ih h2, show _ = v from h1]

theorem kept_word_entries {kvs vs : List (Str × Str)} (h : List.Forall₂ KeptEntry (kvs.map fun e => (e.1, J.word e.2)) vs) : vs = kvs := by
  induction kvs generalizing vs with
  | nil => cases h; rfl
  | cons v kvs ih =>
    cases h with
    | cons h1 h2 =>
      rw [ih h2]
      congr 1
      exact Prod.ext h1.1.symm h1.2

/-- a list of strings, or one string, is read as a list -/
theorem recList_isList {j : J} {v : Str} {vs : List Str} (hk : Kept j v) (h : IsList j vs) : recList v = (vs, true) := by
  rcases h with rfl | ⟨w, rfl, rfl, h0, hp⟩
  · obtain ⟨us, h1, h2⟩ := recList_ok (ws := []) (r := []) (by intro x hx; cases hx) (show JText (.list (vs.map .word)) v from hk)
    rw [List.nil_append, List.append_nil] at h1
    rw [h1, kept_words h2]
  · rw [show v = w from hk]
    have hw : JWord w w := .inr ⟨rfl, h0, hp⟩
    obtain ⟨c, cs, hcs, hc, hb, hl⟩ := jword_head hw
    have hx : readChar ⟨w, true⟩ = (c, ⟨cs, true⟩) := by
      rw [hcs]; exact readChar_ws (ws := []) (by intro x hx; cases hx) hc
    have hu : (IS.mk cs true).unget c = ⟨w, true⟩ := by rw [hcs]; rfl
    have hr : readWord [ch ',', ch ']'] ⟨w, true⟩ = (w, ⟨[], false⟩) := by
      have e : w.dropWhile isSpace = w := by rw [hcs, List.dropWhile_cons_of_neg (by simp [hc])]
      unfold readWord
      simp only [if_true, e]
      have := readWordL_jword (sep := [ch ',', ch ']']) hw (by decide) []
      rw [List.append_nil] at this
      rw [this, readWordL.eq_def]; simp
    have hv : recVal [ch ',', ch ']'] ⟨w, true⟩ = some (w, ⟨[], false⟩) := by
      unfold recVal
      simp only [hx, hb, hl, if_false, hu, hr]
    unfold recList
    simp only [hx, hl, decide_false, Bool.false_eq_true, if_false, hu]
    unfold recListL
    rw [hv]
    simp only [readChar, h0, if_false]
    simp

/-- a dictionary of strings is read as a map -/
theorem recDict_strings {kvs : List (Str × Str)} {v : Str} (hk : Kept (.dict (kvs.map fun e => (e.1, .word e.2))) v) :
    ∃ m, recDict v = (m, true) ∧ MapOf kvs m := by
  obtain ⟨us, h1, h2⟩ := recDict_ok (ws := []) (r := []) (by intro x hx; cases hx) (show JText (.dict _) v from hk)
  rw [List.nil_append, List.append_nil] at h1
  rw [kept_word_entries h2] at h1
  exact ⟨_, h1, mapOf_setAll kvs⟩

theorem recDict_kept {l : List (Str × J)} {v : Str} (hk : Kept (.dict l) v) :
    ∃ vs, recDict v = (setAll [] vs, true) ∧ List.Forall₂ KeptEntry l vs := by
  obtain ⟨us, h1, h2⟩ := recDict_ok (ws := []) (r := []) (by intro x hx; cases hx) (show JText (.dict _) v from hk)
  rw [List.nil_append, List.append_nil] at h1
  exact ⟨us, h1, h2⟩

theorem recList_kept {l : List J} {v : Str} (hk : Kept (.list l) v) :
    ∃ vs, recList v = (vs, true) ∧ List.Forall₂ Kept l vs := by
  obtain ⟨us, h1, h2⟩ := recList_ok (ws := []) (r := []) (by intro x hx; cases hx) (show JText (.list _) v from hk)
  rw [List.nil_append, List.append_nil] at h1
  exact ⟨us, h1, h2⟩

theorem joinList_eq (l : List Str) : joinList l = commas l := by
  induction l with
  | nil => rfl
  | cons s l ih =>
    cases l with
    | nil => simp [joinList, commas]
    | cons s' l =>
      rw [joinList, ih]
      · unfold commas; simp
      · simp

/-! ## option specs -/

theorem strF_get {l : List (Str × J)} {vs : List (Str × Str)} (h : List.Forall₂ KeptEntry l vs) {k : String} {v : Str} (hf : StrF l k v) :
    ((setAll [] vs).lookup (str k)).getD [] = v := by
  rcases hf with ⟨h1, rfl⟩ | h1 <;> rcases kept_get h (str k) with ⟨h2, h3⟩ | ⟨j, w, h2, h3, h4⟩
  · rw [h3]; rfl
  · rw [h1] at h2; cases h2
  · rw [h1] at h2; cases h2
  · rw [h1] at h2
    cases h2
    rw [h3]
    exact h4

theorem nameF_get {l : List (Str × J)} {vs : List (Str × Str)} (h : List.Forall₂ KeptEntry l vs) {k : String} {v : Str}
    (hf : lastVal l (str k) = some (.word v)) : (setAll [] vs).lookup (str k) = some v := by
  rcases kept_get h (str k) with ⟨h2, h3⟩ | ⟨j, w, h2, h3, h4⟩
  · rw [hf] at h2; cases h2
  · rw [hf] at h2
    cases h2
    rw [h3, show w = v from h4]

theorem listF_get {l : List (Str × J)} {vs : List (Str × Str)} (h : List.Forall₂ KeptEntry l vs) {k : String} {us : List Str} (hf : ListF l k us) :
    ((setAll [] vs).lookup (str k) = none ∧ us = []) ∨ ∃ v, (setAll [] vs).lookup (str k) = some v ∧ recList v = (us, true) := by
  rcases hf with ⟨h1, rfl⟩ | ⟨j, h1, hj⟩ <;> rcases kept_get h (str k) with ⟨h2, h3⟩ | ⟨j', w, h2, h3, h4⟩
  · exact .inl ⟨h3, rfl⟩
  · rw [h1] at h2; cases h2
  · rw [h1] at h2; cases h2
  · rw [h1] at h2
    cases h2
    exact .inr ⟨w, h3, recList_isList h4 hj⟩

theorem mapF_get {l : List (Str × J)} {vs : List (Str × Str)} (h : List.Forall₂ KeptEntry l vs) {k : String} {m : List (Str × Str)} (hf : MapF l k m) :
    ((setAll [] vs).lookup (str k) = none ∧ lastVal l (str k) = none) ∨
    ∃ v m', (setAll [] vs).lookup (str k) = some v ∧ recDict v = (m', true) ∧ MapF l k m' ∧ MapF l k (setAll [] m') := by
  rcases hf with ⟨h1, rfl⟩ | ⟨kvs, h1, hm⟩ <;> rcases kept_get h (str k) with ⟨h2, h3⟩ | ⟨j', w, h2, h3, h4⟩
  · exact .inl ⟨h3, h2⟩
  · rw [h1] at h2; cases h2
  · rw [h1] at h2; cases h2
  · rw [h1] at h2
    cases h2
    obtain ⟨m', h5, h6⟩ := recDict_strings h4
    exact .inr ⟨w, m', h3, h5, .inr ⟨kvs, h1, h6⟩, .inr ⟨kvs, h1, mapOf_copy h6⟩⟩

theorem kept_list_not_dict {l : List J} {v : Str} (h : Kept (.list l) v) : recDict v = ([], false) := by
  have : ∃ r, v = ch '[' :: r := by
    cases (show JText (.list l) v from h) with
    | list0 => exact ⟨_, rfl⟩
    | list => exact ⟨_, rfl⟩
  obtain ⟨r, rfl⟩ := this
  have hx : readChar ⟨ch '[' :: r, true⟩ = (ch '[', ⟨r, true⟩) := readChar_ws (ws := []) (by intro x hx; cases hx) (by decide)
  unfold recDict
  simp only [hx]
  rw [if_neg (by decide)]

theorem qClause_get {q : List (Str × J)} {vs : List (Str × Str)} (h : List.Forall₂ KeptEntry q vs) {k : String} {t : Str} (hf : ClauseF q k t) :
    qClause (setAll [] vs) k = t := by
  unfold qClause
  rcases hf with ⟨h1, rfl⟩ | ⟨j, us, h1, hj, rfl⟩ <;> rcases kept_get h (str k) with ⟨h2, h3⟩ | ⟨j', w, h2, h3, h4⟩
  · rw [h3]
  · rw [h1] at h2; cases h2
  · rw [h1] at h2; cases h2
  · rw [h1] at h2
    cases h2
    rw [h3]
    simp only [recList_isList h4 hj, joinList_eq]

theorem selectExpr_ok {j : J} {v t : Str} (hk : Kept j v) (h : SelItem j t) : selectExpr v = t := by
  cases j with
  | word w =>
    obtain ⟨rfl, h2⟩ := h
    rw [show v = t from hk]
    have : recDict t = ([], false) := by
      unfold recDict
      have hx : readChar ⟨t, true⟩ = match t.dropWhile isSpace with | [] => (eofc, ⟨[], false⟩) | c :: r => (c, ⟨r, true⟩) := by
        unfold readChar
        simp only [if_true]
        clear h2 hk
        induction t with
        | nil => rfl
        | cons c t ih =>
          unfold readCharL
          by_cases hc : isSpace c = true
          · rw [if_pos hc, List.dropWhile_cons_of_pos hc, ih]
          · rw [if_neg hc, List.dropWhile_cons_of_neg hc]
      simp only [hx]
      cases hd : t.dropWhile isSpace with
      | nil => simp only; rw [if_neg (by decide)]
      | cons c r =>
        rw [hd] at h2
        simp only [List.head?_cons, ne_eq, Option.some.injEq] at h2
        simp only
        rw [if_neg h2]
    unfold selectExpr
    simp only [this]
    simp
  | dict d =>
    obtain ⟨e, a, u, h1, _, h2, h3, rfl⟩ := h
    obtain ⟨vs, hr, hf⟩ := recDict_kept hk
    unfold selectExpr
    simp only [hr, if_true]
    rw [nameF_get hf h1]
    congr 1
    · congr 1
      rcases h2 with ⟨h2, rfl⟩ | ⟨w, h2, rfl⟩ <;> rcases kept_get hf (str "as") with ⟨h4, h5⟩ | ⟨j', x, h4, h5, h6⟩
      · rw [h5]
      · rw [h2] at h4; cases h4
      · rw [h2] at h4; cases h4
      · rw [h2] at h4
        cases h4
        rw [h5, show x = w from h6]
    · rcases h3 with ⟨h2, rfl⟩ | ⟨w, h2, rfl⟩ <;> rcases kept_get hf (str "unit") with ⟨h4, h5⟩ | ⟨j', x, h4, h5, h6⟩
      · rw [h5]
      · rw [h2] at h4; cases h4
      · rw [h2] at h4; cases h4
      · rw [h2] at h4
        cases h4
        rw [h5, show x = w from h6]
  | list => exact h.elim

theorem selItem_ne {j : J} {t v : Str} (h : SelItem j t) (hk : Kept j v) (hv : v ≠ []) : t ≠ [] := by
  cases j with
  | word w => rw [h.1, ← show v = w from hk]; exact hv
  | dict d =>
    obtain ⟨e, a, u, _, he, _, _, rfl⟩ := h
    simp [he]
  | list => exact h.elim

theorem select_fold {ts : List Str} (h : ∀ t ∈ ts, t ≠ []) (acc : Str) :
    ts.foldl (fun (ret : Str) sc => ret ++ (if ret = [] then [] else [ch ',']) ++ sc) acc =
      if acc = [] then commas ts else if ts = [] then acc else acc ++ ch ',' :: commas ts := by
  induction ts generalizing acc with
  | nil => by_cases ha : acc = [] <;> simp [ha, commas]
  | cons t ts ih =>
    have ht := h t (by simp)
    rw [List.foldl_cons, ih fun x hx => h x (by simp [hx])]
    have : acc ++ (if acc = [] then [] else [ch ',']) ++ t ≠ [] := by simp [ht]
    rw [if_neg this]
    by_cases ha : acc = []
    · subst ha
      cases ts with
      | nil => simp [commas]
      | cons t' ts => simp [commas]
    · cases ts with
      | nil => simp [commas, ha]
      | cons t' ts => simp [commas, ha]

theorem parseSelect_ok {items : List J} {vs ts : List Str} (hv : ∀ v ∈ vs, v ≠ []) (hk : List.Forall₂ Kept items vs) (h : List.Forall₂ SelItem items ts) :
    parseSelect vs = if ts = [] then [] else str " select " ++ commas ts := by
  have h1 : vs.map selectExpr = ts ∧ ∀ t ∈ ts, t ≠ [] := by
    induction hk generalizing ts with
    | nil => cases h; exact ⟨rfl, by simp⟩
    | @cons j v items vs h1 h2 ih =>
      cases h with
      | cons h3 h4 =>
        obtain ⟨i1, i2⟩ := ih (fun x hx => hv x (by simp [hx])) h4
        refine ⟨by rw [List.map_cons, selectExpr_ok h1 h3, i1], ?_⟩
        intro t ht
        rcases List.mem_cons.1 ht with rfl | ht
        · exact selItem_ne h3 h1 (hv v (by simp))
        · exact i2 t ht
  have h2 : vs.foldl (fun (ret : Str) sc => ret ++ (if ret = [] then [] else [ch ',']) ++ selectExpr sc) [] = commas ts := by
    have := select_fold h1.2 []
    rw [if_pos rfl, ← h1.1, List.foldl_map] at this
    rw [this, h1.1]
  unfold parseSelect
  simp only [h2]
  cases ts with
  | nil => rfl
  | cons t ts =>
    rw [if_neg, if_neg (by simp)]
    have := h1.2 t (by simp)
    cases ts <;> simp [commas, this]

theorem recList_ne {t : Str} : ∀ v ∈ (recList t).1, v ≠ [] := by
  have : ∀ n s, ∀ v ∈ (recListL n s).1, v ≠ [] := by
    intro n
    induction n with
    | zero => intro s v hv; cases hv
    | succ n ih =>
      intro s v hv
      unfold recListL at hv
      split at hv
      · cases hv
      · next r _ =>
        simp only at hv
        split at hv
        · simp only [List.mem_append] at hv
          rcases hv with hv | hv
          · split at hv
            · cases hv
            · next h => rw [List.mem_singleton] at hv; rw [hv]; exact h
          · exact ih _ v hv
        · split at hv
          · cases hv
          · next h => rw [List.mem_singleton] at hv; rw [hv]; exact h
  exact this _ _

theorem select_get {q : List (Str × J)} {vs : List (Str × Str)} (h : List.Forall₂ KeptEntry q vs) {t : Str} (hf : SelectF q t) :
    selectPart (setAll [] vs) = t := by
  unfold selectPart
  rcases hf with ⟨h1, rfl⟩ | ⟨items, ts, h1, hi, rfl⟩ <;> rcases kept_get h (str "select") with ⟨h2, h3⟩ | ⟨j', w, h2, h3, h4⟩
  · rw [h3]
  · rw [h1] at h2; cases h2
  · rw [h1] at h2; cases h2
  · rw [h1] at h2
    cases h2
    rw [h3]
    obtain ⟨us, h5, h6⟩ := recList_kept h4
    have h7 := recList_ne (t := w)
    simp only [h5] at h7 ⊢
    exact parseSelect_ok h7 h6 hi

theorem oldQuery_ok {qs : List (List (Str × J))} {ps : List (Str × Str)} {vs : List Str} (hk : List.Forall₂ Kept (qs.map J.dict) vs)
    (h : List.Forall₂ OldQuery qs ps) (m : List (Str × Str)) : parseQueryArgs vs m false = (setAll m ps, false) := by
  unfold parseQueryArgs
  induction h generalizing vs m with
  | nil => cases hk; rfl
  | @cons q p qs ps h1 h2 ih =>
    cases hk with
    | @cons _ v _ vs k1 k2 =>
      obtain ⟨us, hr, hf⟩ := recDict_kept k1
      obtain ⟨hl, g, l, w, a, o, s, e1, e2, e3, e4, e5, e6, e7⟩ := h1
      rw [List.foldl_cons]
      simp only [hr, nameF_get hf hl, qClause_get hf e1, qClause_get hf e2, qClause_get hf e3, qClause_get hf e4, qClause_get hf e5,
        select_get hf e6]
      rw [← e7]
      exact ih k2 _

/-- the queries of an option spec -/
theorem query_get {l : List (Str × J)} {vs : List (Str × Str)} (h : List.Forall₂ KeptEntry l vs) {m : List (Str × Str)} (hf : QueryF l m) :
    ((setAll [] vs).lookup (str "query") = none ∧ QueryF l []) ∨
    ∃ v m', (setAll [] vs).lookup (str "query") = some v ∧ parseQuery v = (m', true, false) ∧ QueryF l m' := by
  rcases hf with hf | ⟨qs, ps, h1, h2, h3⟩
  · rcases mapF_get h hf with ⟨h1, h2⟩ | ⟨v, m', h1, h2, h3, h4⟩
    · exact .inl ⟨h1, .inl (.inl ⟨h2, rfl⟩)⟩
    · refine .inr ⟨v, setAll [] m', h1, ?_, .inl h4⟩
      unfold parseQuery
      simp only [h2, if_true]
  · rcases kept_get h (str "query") with ⟨h4, h5⟩ | ⟨j', w, h4, h5, h6⟩
    · rw [h1] at h4; cases h4
    · rw [h1] at h4
      cases h4
      refine .inr ⟨w, setAll [] ps, h5, ?_, .inr ⟨qs, ps, h1, h2, mapOf_setAll ps⟩⟩
      obtain ⟨us, h7, h8⟩ := recList_kept h6
      unfold parseQuery
      simp only [kept_list_not_dict h6, h7, oldQuery_ok h8 h2, Bool.false_eq_true, if_false]

theorem listEntry_ok {l : List (Str × J)} {vs : List (Str × Str)} (hf : List.Forall₂ KeptEntry l vs) {k : String} {us : List Str} (h : ListF l k us) :
    listEntry (setAll [] vs) true k = (us, true) := by
  unfold listEntry
  rcases listF_get hf h with ⟨e1, e2⟩ | ⟨w, e1, e2⟩
  · rw [e1, e2]
  · rw [e1]; exact e2

theorem dictEntry_ok {l : List (Str × J)} {vs : List (Str × Str)} (hf : List.Forall₂ KeptEntry l vs) {k : String} {m : List (Str × Str)} (h : MapF l k m) :
    ∃ m', dictEntry (setAll [] vs) true k = (m', true) ∧ MapF l k m' ∧ MapF l k (setAll [] m') := by
  unfold dictEntry
  rcases mapF_get hf h with ⟨e1, e2⟩ | ⟨w, m', e1, e2, e3, e4⟩
  · exact ⟨[], by rw [e1], .inl ⟨e2, rfl⟩, .inl ⟨e2, rfl⟩⟩
  · exact ⟨m', by rw [e1]; simp [e2], e3, e4⟩

theorem queryEntry_ok {l : List (Str × J)} {vs : List (Str × Str)} (hf : List.Forall₂ KeptEntry l vs) {m : List (Str × Str)} (h : QueryF l m) :
    ∃ m', queryEntry (setAll [] vs) true = (m', true, false) ∧ QueryF l m' := by
  unfold queryEntry
  rcases query_get hf h with ⟨e1, e2⟩ | ⟨w, m', e1, e2, e3⟩
  · exact ⟨[], by rw [e1], e2⟩
  · exact ⟨m', by rw [e1]; simp [e2], e3⟩

/-- an option spec is read as declared -/
theorem parseSpec_ok {l : List (Str × J)} {v : Str} (hk : Kept (.dict l) v) {name : Str} {o : Opt} (h : Declares l name o) (S : Specs) :
    ∃ o', parseSpec S (recDict v).1 = { S with data := mset S.data name o' } ∧ Declares l name o' := by
  obtain ⟨vs, hr, hf⟩ := recDict_kept hk
  obtain ⟨h1, h2, h3, h4, h5, h6, h7, h8⟩ := h
  have hS : listEntry (setAll [] vs) true "services" = (o.services, true) := listEntry_ok hf h5
  have hI : listEntry (setAll [] vs) true "inherit" = (o.inherited, true) := listEntry_ok hf h6
  obtain ⟨cm, hC, hC1, hC2⟩ := dictEntry_ok hf h7
  obtain ⟨qm, hQ, hQ'⟩ := queryEntry_ok hf h8
  refine ⟨⟨o.type, o.description, o.category, o.services, o.inherited, qm, setAll [] cm⟩, ?_, h1, h2, h3, h4, h5, h6, hC2, hQ'⟩
  unfold parseSpec strEntry
  simp only [hr, hS, hI, hC, hQ, nameF_get hf h1, strF_get hf h2, strF_get hf h3, strF_get hf h4]
  simp

/-- a list of option specs -/
theorem addList_ok {decls : List (List (Str × J))} {vs : List Str} (hk : List.Forall₂ Kept (decls.map J.dict) vs)
    (h : ∀ l ∈ decls, ∃ name o, Declares l name o) (S : Specs) (hS : S.err = false) :
    ∃ os : List (Str × Opt), List.Forall₂ (fun l e => Declares l e.1 e.2) decls os ∧ S.addList vs = { S with data := setAll S.data os } := by
  induction decls generalizing vs S with
  | nil => cases hk; exact ⟨[], .nil, rfl⟩
  | cons l decls ih =>
    cases hk with
    | @cons _ v _ vs k1 k2 =>
      obtain ⟨name, o, ho⟩ := h l (by simp)
      obtain ⟨o', h1, h2⟩ := parseSpec_ok k1 ho S
      obtain ⟨os, h3, h4⟩ := ih k2 (fun x hx => h x (by simp [hx])) { S with data := mset S.data name o' } hS
      refine ⟨(name, o') :: os, .cons h2 h3, ?_⟩
      unfold Specs.addList at h4 ⊢
      rw [List.foldl_cons, hS]
      simp only [Bool.false_eq_true, if_false]
      rw [h1, h4]
      simp only [hS]
      rfl

/-! ## config specs -/

theorem mins_lookup {α : Type} (m : List (Str × α)) (k q : Str) (v : α) :
    (mins m k v).lookup q = (m.lookup q).or (if q = k then some v else none) := by
  unfold mins
  by_cases h : (m.lookup k).isSome = true
  · rw [if_pos h]
    by_cases hq : q = k
    · subst hq
      cases hm : m.lookup q with
      | none => rw [hm] at h; cases h
      | some => rfl
    · simp [hq]
  · rw [if_neg h, mset_lookup]
    by_cases hq : q = k
    · subst hq
      cases hm : m.lookup q with
      | none => simp
      | some => rw [hm] at h; exact absurd rfl h
    · simp [hq]

theorem mins_all_lookup {α : Type} (m : List (Str × α)) (ks : List Str) (q : Str) (v : α) :
    (ks.foldl (fun m a => mins m a v) m).lookup q = (m.lookup q).or (if q ∈ ks then some v else none) := by
  induction ks generalizing m with
  | nil => simp
  | cons k ks ih =>
    rw [List.foldl_cons, ih, mins_lookup]
    by_cases h : q = k
    · subst h; cases m.lookup q <;> simp
    · simp [h]

theorem lastVal_none_cases {α : Type} (m : List (Str × α)) (q : Str) : (lastVal m q).or none = lastVal m q := by
  cases lastVal m q <;> rfl

theorem optionsF_ok {l : List (Str × J)} {vs : List (Str × Str)} (hf : List.Forall₂ KeptEntry l vs) {decls : List (List (Str × J))}
    (h : OptionsF l decls) (hd : ∀ x ∈ decls, ∃ name o, Declares x name o) :
    ∃ os, listEntry (setAll [] vs) true "options" = (os, true) ∧ Options decls [] (Specs.addList {} os).data := by
  unfold listEntry
  rcases h with ⟨h1, rfl⟩ | h1 <;> rcases kept_get hf (str "options") with ⟨h2, h3⟩ | ⟨j', w, h2, h3, h4⟩
  · exact ⟨[], by rw [h3], [], .nil, fun q => rfl⟩
  · rw [h1] at h2; cases h2
  · rw [h1] at h2; cases h2
  · rw [h1] at h2
    cases h2
    obtain ⟨us, h5, h6⟩ := recList_kept h4
    obtain ⟨os, h7, h8⟩ := addList_ok h6 hd {} rfl
    refine ⟨us, by rw [h3]; simp [h5], os, h7, fun q => ?_⟩
    rw [h8, setAll_lookup]

theorem mapF_sorted {l : List (Str × J)} {k : String} {m : List (Str × Str)} (h : MapF l k m) : MSorted m := by
  rcases h with ⟨_, rfl⟩ | ⟨_, _, h⟩
  · exact List.Pairwise.nil
  · exact h.1

/-- a config spec is read as declared -/
theorem readConfigSpec_ok {l : List (Str × J)} {vs : List (Str × Str)} (hf : List.Forall₂ KeptEntry l vs) {services others : List Str} {c : CSpec}
    (h : DeclaresConfig l services others c) (check : Opts → Bool) :
    listEntry (setAll [] vs) true "services" = (services, true) ∧ (setAll [] vs).lookup (str "name") = some c.name ∧
    ∃ c', readConfigSpec (setAll [] vs) c.name check = (c', others, true) ∧ c'.name = c.name ∧ c'.check = check ∧
      DeclaresConfig l services others c' := by
  obtain ⟨h1, h2, h3, h4, h5, h6, ⟨cfg, h7, -, -⟩, decls, h8, h9⟩ := h
  have hd : ∀ x ∈ decls, ∃ name o, Declares x name o := by
    obtain ⟨os, h10, _⟩ := h9
    intro x hx
    obtain ⟨i, hi, rfl⟩ := List.getElem_of_mem hx
    have := List.forall₂_iff_get.1 h10
    have hl := this.1
    exact ⟨_, _, this.2 i hi (by omega)⟩
  obtain ⟨ops, e1, e2⟩ := optionsF_ok hf h8 hd
  obtain ⟨cm, e3, e4, e5⟩ := dictEntry_ok hf h7
  obtain ⟨dm, e6, e7, -⟩ := dictEntry_ok hf h6
  have e8 := listEntry_ok hf h2
  have e9 : readConfigSpec (setAll [] vs) c.name check = (⟨c.name, c.categories, strEntry (setAll [] vs) "description",
      if services = [] then setAll [] cm else mset (setAll [] cm) (str "CALI_SERVICES_ENABLE")
        (((setAll [] cm).lookup (str "CALI_SERVICES_ENABLE")).getD [] ++ joinList services), Specs.addList {} ops, dm, check⟩, others, true) := by
    unfold readConfigSpec
    simp only [e8, listEntry_ok hf h4, e1, e3, e6, listEntry_ok hf h3]
  rw [e9]
  refine ⟨e8, nameF_get hf h1, _, rfl, ?_, ?_, ?_⟩
  · rfl
  · rfl
  · refine ⟨h1, h2, h3, h4, ?_, e7, ⟨_, e5, ?_, ?_⟩, decls, h8, e2⟩
    · show StrF l "description" (((setAll [] vs).lookup (str "description")).getD [])
      rw [strF_get hf h5]; exact h5
    · show MSorted _
      split
      · exact mapF_sorted e5
      · exact mset_sorted (mapF_sorted e5) _ _
    · intro q
      show List.lookup q (if services = [] then _ else _) = _
      by_cases hs : services = []
      · simp only [if_pos hs, hs]; simp
      · rw [if_neg hs, mset_lookup]
        by_cases hq : q = servicesVar
        · subst hq
          simp only [ne_eq, hs, not_false_iff, and_self, if_true, joinList_eq]
          rfl
        · rw [if_neg (show ¬q = str "CALI_SERVICES_ENABLE" from hq), if_neg (fun h => hq h.1)]

end Verif.ConfMgr
