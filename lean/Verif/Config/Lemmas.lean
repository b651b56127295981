import Verif.Config.Spec
import Mathlib.Data.List.Induction
/-!
# Lemmas on maps and config files
-/
namespace Verif.Config
open Verif Verif.Cali Verif.Parse

variable {α : Type}

theorem SMap.get_empty (k : Str) : (SMap.empty : SMap α).get k = none := rfl

theorem SMap.mem_of_get {m : SMap α} {k : Str} {v : α} (h : m.get k = some v) : k ∈ m.l.map Prod.fst := by
  unfold SMap.get at h
  cases hf : m.l.find? fun e => decide (e.1 = k) with
  | none => rw [hf] at h; cases h
  | some e =>
    have h1 := List.mem_of_find?_eq_some hf
    have h2 := List.find?_some hf
    simp only [decide_eq_true_eq] at h2
    exact h2 ▸ List.mem_map_of_mem h1

theorem SMap.get_none {m : SMap α} {k : Str} : m.get k = none ↔ k ∉ m.l.map Prod.fst := by
  unfold SMap.get
  simp only [Option.map_eq_none_iff, List.find?_eq_none, decide_eq_true_eq, List.mem_map, not_exists, not_and]

theorem SMap.get_set (m : SMap α) (k : Str) (v : α) (k' : Str) : (m.set k v).get k' = if k' = k then some v else m.get k' := by
  unfold SMap.set
  split
  · rename_i h
    unfold SMap.get
    simp only
    obtain ⟨l, nd⟩ := m
    simp only at h ⊢
    clear nd
    induction l with
    | nil => simp at h
    | cons e l ih =>
      simp only [List.map_cons]
      by_cases he : e.1 = k
      · rw [if_pos he]
        by_cases hk : k' = k
        · subst hk; simp
        · have h1 : ¬k = k' := fun h => hk h.symm
          have h2 : ¬e.1 = k' := fun h => hk (h.symm.trans he)
          rw [List.find?_cons_of_neg (by simpa using h1), List.find?_cons_of_neg (by simpa using h2), if_neg hk]
          by_cases hm : k ∈ l.map Prod.fst
          · rw [ih hm, if_neg hk]
          · congr 1
            congr 1
            refine (List.map_congr_left ?_).trans (List.map_id _)
            intro x hx
            have hne : ¬x.1 = k := fun hh => hm (by rw [← hh]; exact List.mem_map_of_mem hx)
            rw [if_neg hne]
            rfl
      · rw [if_neg he]
        have hm : k ∈ l.map Prod.fst := by
          rcases List.mem_cons.1 h with h | h
          · exact absurd h.symm he
          · exact h
        by_cases hk : e.1 = k'
        · rw [List.find?_cons_of_pos (by simpa using hk), List.find?_cons_of_pos (by simpa using hk), if_neg (fun h => he (hk.trans h))]
        · rw [List.find?_cons_of_neg (by simpa using hk), List.find?_cons_of_neg (by simpa using hk)]
          exact ih hm
  · rename_i h
    unfold SMap.get
    simp only [List.find?_append]
    by_cases hk : k' = k
    · subst hk
      have := SMap.get_none.2 h
      unfold SMap.get at this
      rw [Option.map_eq_none_iff] at this
      simp [this]
    · have h1 : ¬k = k' := fun h => hk h.symm
      simp [hk, h1]

theorem SMap.set_length (m : SMap α) (k : Str) (v : α) : (m.set k v).l.length > 0 := by
  unfold SMap.set
  split
  · rename_i h
    obtain ⟨x, hx, -⟩ := List.mem_map.1 h
    simp only [List.length_map]
    exact List.length_pos_of_mem hx
  · simp

theorem SMap.get_emplace (m : SMap α) (k : Str) (v : α) (k' : Str) :
    (m.emplace k v).get k' = (m.get k').or (if k' = k then some v else none) := by
  unfold SMap.emplace
  split
  · rename_i h
    by_cases hk : k' = k
    · subst hk
      cases hg : m.get k' with
      | none => exact absurd h (SMap.get_none.1 hg)
      | some w => rfl
    · simp [hk]
  · rename_i h
    rw [SMap.get_set]
    by_cases hk : k' = k
    · subst hk; simp [SMap.get_none.2 h]
    · simp [hk]

/-- lookup in a list of pairs -/
def look (l : List (Str × α)) (k : Str) : Option α := (l.find? fun e => decide (e.1 = k)).map Prod.snd

theorem look_cons (e : Str × α) (l : List (Str × α)) (k : Str) : look (e :: l) k = if e.1 = k then some e.2 else look l k := by
  unfold look
  by_cases h : e.1 = k
  · simp [h]
  · simp [h]

theorem SMap.get_eq_look (m : SMap α) (k : Str) : m.get k = look m.l k := rfl

theorem get_foldl_emplace (l : List (Str × α)) (m : SMap α) (k : Str) :
    (l.foldl (fun m e => m.emplace e.1 e.2) m).get k = (m.get k).or (look l k) := by
  induction l generalizing m with
  | nil => simp [look]
  | cons e l ih =>
    rw [List.foldl_cons, ih, SMap.get_emplace, look_cons, Option.or_assoc]
    congr 1
    by_cases h : k = e.1
    · simp [h]
    · have : ¬e.1 = k := fun hh => h hh.symm
      simp [h, this]

theorem SMap.get_insert (m q : SMap α) (k : Str) : (m.insert q).get k = (m.get k).or (q.get k) := get_foldl_emplace q.l m k

theorem get_foldl_set (l : List (Str × α)) (nd : (l.map Prod.fst).Nodup) (m : SMap α) (k : Str) :
    (l.foldl (fun m e => m.set e.1 e.2) m).get k = (look l k).or (m.get k) := by
  induction l generalizing m with
  | nil => simp [look]
  | cons e l ih =>
    rw [List.map_cons, List.nodup_cons] at nd
    rw [List.foldl_cons, ih nd.2, SMap.get_set, look_cons]
    by_cases h : k = e.1
    · subst h
      have hn : look l e.1 = none := by
        have := (SMap.get_none (m := ⟨l, nd.2⟩) (k := e.1)).2 nd.1
        exact this
      simp [hn]
    · have : ¬e.1 = k := fun hh => h hh.symm
      simp [h, this]

theorem SMap.get_merge (m q : SMap α) (k : Str) : (m.merge q).get k = (q.get k).or (m.get k) := get_foldl_set q.l q.nd m k

/-! ### config sets -/

theorem get_initSet (name : Str) (list : List (Str × Str)) (re : Bool) (env : Str → Option Str) (p t : Prof) (key : Str) :
    (initSet name list re env p t).get key =
      (list.find? fun e => decide (e.1 = key)).map fun e => entryValue re env p t (varName name e.1) e.2 := by
  unfold initSet
  have : ∀ d : SMap Str, (list.foldl (fun d e => d.emplace e.1 (entryValue re env p t (varName name e.1) e.2)) d).get key =
      (d.get key).or ((list.find? fun e => decide (e.1 = key)).map fun e => entryValue re env p t (varName name e.1) e.2) := by
    induction list with
    | nil => intro d; simp
    | cons e l ih =>
      intro d
      rw [List.foldl_cons, ih, SMap.get_emplace, Option.or_assoc]
      congr 1
      by_cases h : key = e.1
      · simp [h]
      · have : ¬e.1 = key := fun hh => h hh.symm
        simp [h, this]
  rw [this]
  rfl

theorem entryValue_eq (re : Bool) (env : Str → Option Str) (p t : Prof) (var dflt : Str) :
    entryValue re env p t var dflt = (firstOf [t.get var, if re then env var else none, p.get var]).getD dflt := by
  unfold entryValue firstOf
  cases ht : t.get var with
  | some v => simp
  | none =>
    cases re <;> cases he : env var <;> cases hp : p.get var <;> simp

theorem get_mergeSelected (P : SMap Prof) (names : List Str) (c : Prof) (k : Str) :
    (mergeSelected P c names).get k = (selectedValue P names k).or (c.get k) := by
  unfold mergeSelected selectedValue
  induction names generalizing c with
  | nil => simp
  | cons n ns ih =>
    rw [List.foldl_cons, ih, List.reverse_cons, List.findSome?_append, Option.or_assoc]
    congr 1
    cases hp : P.get n with
    | none => simp [hp]
    | some p => simp [hp, SMap.get_merge]

/-! ### reading config files -/

theorem findFirst_append (c : Byte) (a b : List Byte) (h : c ∉ a) : findFirst c (a ++ c :: b) = some a.length := by
  unfold findFirst
  rw [if_pos (by simp), List.idxOf_append, if_neg h]
  simp

theorem findFirst_none (c : Byte) (a : List Byte) (h : c ∉ a) : findFirst c a = none := by
  unfold findFirst; rw [if_neg h]

/-- what a line does -/
def RS.apply (s : RS) : Line → RS
  | .assign var val _ => { s with cur := s.cur.set var val }
  | .group _ name _ => s.group name
  | _ => s

theorem readWord_nil_ws {ws : List Byte} (h : ∀ c ∈ ws, isSpace c = true) : (readWord [] ⟨ws, true⟩).1 = [] := by
  have : ws.dropWhile isSpace = [] := by
    have := List.dropWhile_append_of_pos (p := isSpace) (l₁ := ws) (l₂ := []) h
    simpa using this
  unfold readWord
  simp only [if_true, this]

theorem RS.line_ok (s : RS) (x : Line) (h : x.Ok) : s.line x.text = s.apply x := by
  cases x with
  | blank => rfl
  | comment t =>
    obtain ⟨-, h⟩ := h
    simp only [Line.text, RS.line, RS.apply, if_true]
    rcases h with h | h | ⟨pre, post, rfl, h3, h4⟩
    · rw [findFirst_none (ch '[') _ (by
        simp only [List.mem_cons, not_or]; exact ⟨by decide, h⟩)]
    · rw [findFirst_none (ch ']') _ (by
        simp only [List.mem_cons, not_or]; exact ⟨by decide, h⟩)]
      split <;> simp_all
    · have f1 : findFirst (ch '[') (ch '#' :: (pre ++ ch '[' :: ch ']' :: post)) = some (pre.length + 1) := by
        rw [← List.cons_append, findFirst_append _ _ _ (by simp only [List.mem_cons, not_or]; exact ⟨by decide, h3⟩)]; simp
      have f2 : findFirst (ch ']') (ch '#' :: (pre ++ ch '[' :: ch ']' :: post)) = some (pre.length + 2) := by
        rw [show ch '#' :: (pre ++ ch '[' :: ch ']' :: post) = (ch '#' :: (pre ++ [ch '['])) ++ ch ']' :: post by simp, findFirst_append]
        · simp
        · simp only [List.mem_cons, List.mem_append, List.not_mem_nil, or_false, not_or]
          exact ⟨by decide, h4, by decide⟩
      rw [f1, f2]
      simp
  | junk t =>
    obtain ⟨h0, h1, -, h2⟩ := h
    cases t with
    | nil => exact absurd rfl h0
    | cons c cs =>
      have hc : ¬c = ch '#' := fun e => h1 (by simp [e])
      simp only [Line.text, RS.line, RS.apply, if_neg hc, RS.setting, findFirst_none _ _ h2]
  | group pre name post =>
    obtain ⟨hn, -, h2, h3, h4⟩ := h
    have e1 : (ch '#' :: (pre ++ [ch '['] ++ name ++ [ch ']'] ++ post)) = (ch '#' :: pre) ++ ch '[' :: (name ++ ch ']' :: post) := by simp
    have e2 : (ch '#' :: (pre ++ [ch '['] ++ name ++ [ch ']'] ++ post)) = (ch '#' :: (pre ++ ch '[' :: name)) ++ ch ']' :: post := by simp
    have f1 : findFirst (ch '[') (ch '#' :: (pre ++ [ch '['] ++ name ++ [ch ']'] ++ post)) = some (pre.length + 1) := by
      rw [e1, findFirst_append _ _ _ (by simp only [List.mem_cons, not_or]; exact ⟨by decide, h3⟩)]; simp
    have f2 : findFirst (ch ']') (ch '#' :: (pre ++ [ch '['] ++ name ++ [ch ']'] ++ post)) = some (pre.length + name.length + 2) := by
      rw [e2, findFirst_append]
      · simp; omega
      · simp only [List.mem_append, not_or] at h4
        simp only [List.mem_cons, List.mem_append, not_or]
        exact ⟨by decide, h4.1, by decide, h4.2⟩
    have hl : 0 < name.length := List.length_pos_iff.2 hn
    have f3 : findFirst (ch '=') (ch '#' :: (pre ++ [ch '['] ++ name ++ [ch ']'] ++ post)) = none := by
      apply findFirst_none
      simp only [List.mem_append, not_or] at h2
      simp only [List.mem_cons, List.mem_append, List.not_mem_nil, or_false, not_or]
      exact ⟨by decide, ⟨⟨⟨h2.1.1, by decide⟩, h2.1.2⟩, by decide⟩, h2.2⟩
    simp only [Line.text, RS.line, RS.apply, if_true, f1, f2]
    rw [if_pos (by omega)]
    have : ((ch '#' :: (pre ++ [ch '['] ++ name ++ [ch ']'] ++ post)).drop (pre.length + 1 + 1)).take
        (pre.length + name.length + 2 - (pre.length + 1) - 1) = name := by
      rw [e1, show pre.length + 1 + 1 = (ch '#' :: pre).length + 1 by simp, ← List.drop_drop, List.drop_left, List.drop_succ_cons, List.drop_zero,
        show pre.length + name.length + 2 - (pre.length + 1) - 1 = name.length by omega, List.take_left]
    rw [this]
    simp only [RS.setting, f3]
  | assign var val text =>
    obtain ⟨h0, -, h1, h2, ws, t, rest, rfl, hws, hrest, ht⟩ := h
    cases var with
    | nil => exact absurd rfl h0
    | cons c cs =>
      have hc : ¬c = ch '#' := fun e => h1 (by simp [e])
      have e : (Line.assign (c :: cs) val (ws ++ t ++ rest)).text = (c :: cs) ++ ch '=' :: (ws ++ t ++ rest) := by simp [Line.text]
      have hv : (readWord [] ⟨ws ++ t ++ rest, true⟩).1 = val := by
        rcases ht with ht | ⟨rfl, rfl, rfl⟩
        · rw [readWord_text ht ws rest hws]
          rcases hrest with rfl | ⟨d, ds, rfl, hd⟩
          · exact .inl rfl
          · refine .inr ⟨d, ds, rfl, ?_, ?_, by simp [hd]⟩
            · rintro rfl; exact absurd hd (by decide)
            · rintro rfl; exact absurd hd (by decide)
        · simpa using readWord_nil_ws hws
      rw [e]
      simp only [RS.apply, List.cons_append, RS.line, if_neg hc, RS.setting]
      rw [show c :: (cs ++ ch '=' :: (ws ++ t ++ rest)) = (c :: cs) ++ ch '=' :: (ws ++ t ++ rest) by simp, findFirst_append _ _ _ h2]
      simp only
      rw [if_pos (by simp)]
      have : ((c :: cs) ++ ch '=' :: (ws ++ t ++ rest)).drop ((c :: cs).length + 1) = ws ++ t ++ rest := by
        rw [← List.drop_drop, List.drop_left]; rfl
      rw [List.take_left, this, hv]

/-- the text of a file -/
def textOf (ls : List Line) : List Byte := fileText (ls.map Line.text)

theorem Line.Ok.newline {x : Line} (h : x.Ok) : ch '\n' ∉ x.text := by
  cases x with
  | blank => simp [Line.text]
  | comment t => simp only [Line.text, List.mem_cons, not_or]; exact ⟨by decide, h.1⟩
  | junk t => exact h.2.2.1
  | group pre name post =>
    have := h.2.1
    simp only [List.mem_append, not_or] at this
    simp only [Line.text, List.mem_cons, List.mem_append, List.not_mem_nil, or_false, not_or]
    exact ⟨by decide, ⟨⟨⟨this.1.1, by decide⟩, this.1.2⟩, by decide⟩, this.2⟩
  | assign var val text =>
    have := h.2.1
    simp only [List.mem_append, not_or] at this
    simp only [Line.text, List.mem_append, List.mem_cons, List.not_mem_nil, or_false, not_or]
    exact ⟨⟨this.1, by decide⟩, this.2⟩

theorem splitLines_file (ls : List (List Byte)) (h : ∀ l ∈ ls, ch '\n' ∉ l) : splitLines (fileText ls) [] = ls := by
  induction ls with
  | nil => simp [fileText, splitLines]
  | cons l ls ih =>
    have e : fileText (l :: ls) = l ++ ch '\n' :: fileText ls := by simp [fileText]
    rw [e, splitLines_line _ _ _ (fun c hc hh => h l (by simp) (hh ▸ hc)), ih fun x hx => h x (List.mem_cons_of_mem _ hx)]
    simp

theorem foldl_lines (s : RS) (ls : List Line) (h : ∀ x ∈ ls, x.Ok) : (ls.map Line.text).foldl RS.line s = ls.foldl RS.apply s := by
  induction ls generalizing s with
  | nil => rfl
  | cons x ls ih =>
    rw [List.map_cons, List.foldl_cons, List.foldl_cons, RS.line_ok s x (h x (by simp)), ih _ fun y hy => h y (List.mem_cons_of_mem _ hy)]

/-- a section as a profile -/
def profOf (l : List (Str × Str)) : Prof := l.foldl (fun p e => p.set e.1 e.2) .empty

theorem profOf_append (l : List (Str × Str)) (k v : Str) : profOf (l ++ [(k, v)]) = (profOf l).set k v := by simp [profOf]

theorem profOf_get (l : List (Str × Str)) (k : Str) : (profOf l).get k = lastDef l k := by
  induction l using List.reverseRecOn with
  | nil => rfl
  | append_singleton l x ih =>
    obtain ⟨a, b⟩ := x
    have e : lastDef (l ++ [(a, b)]) k = if a = k then some b else lastDef l k := by
      unfold lastDef
      rw [List.reverse_append]
      by_cases h : a = k <;> simp [h]
    rw [profOf_append, SMap.get_set, ih, e]
    by_cases h : k = a
    · simp [h]
    · have : ¬a = k := fun hh => h hh.symm
      simp [h, this]

theorem profOf_length (l : List (Str × Str)) : (profOf l).l.length > 0 ↔ l ≠ [] := by
  induction l using List.reverseRecOn with
  | nil => simp [profOf, SMap.empty]
  | append_singleton l x ih =>
    rw [show x = (x.1, x.2) from rfl, profOf_append]
    simp [SMap.set_length]

/-- what the profile database gets from the sections of a file: all but the last one are inserted, the last one replaces the profile -/
def addSections (P : SMap Prof) : List (Str × List (Str × Str)) → SMap Prof
  | [] => P
  | [(n, l)] => if l = [] then P else P.set n (profOf l)
  | (n, l) :: r => addSections (if l = [] then P else P.set n (((P.get n).getD .empty).insert (profOf l))) r

theorem addSections_cons (P : SMap Prof) (n : Str) (l : List (Str × Str)) (r : List (Str × List (Str × Str))) (h : r ≠ []) :
    addSections P ((n, l) :: r) = addSections (if l = [] then P else P.set n (((P.get n).getD .empty).insert (profOf l))) r := by
  cases r with
  | nil => exact absurd rfl h
  | cons x r => rfl

theorem sectionsFrom_ne (n : Str) (acc : List (Str × Str)) (ls : List Line) : sectionsFrom n acc ls ≠ [] := by
  induction ls generalizing n acc with
  | nil => simp [sectionsFrom]
  | cons x ls ih => cases x <;> simp [sectionsFrom, ih]

/-- `readProfiles` at the end -/
def RS.finish (s : RS) : SMap Prof := if s.cur.l.length > 0 then s.profs.set s.name s.cur else s.profs

theorem finish_sections (ls : List Line) (n : Str) (acc : List (Str × Str)) (P : SMap Prof) :
    (ls.foldl RS.apply ⟨profOf acc, n, P⟩).finish = addSections P (sectionsFrom n acc ls) := by
  induction ls generalizing n acc P with
  | nil =>
    show (if (profOf acc).l.length > 0 then P.set n (profOf acc) else P) = if acc = [] then P else P.set n (profOf acc)
    by_cases h : acc = []
    · rw [if_pos h, if_neg (by rw [profOf_length]; simpa using h)]
    · rw [if_neg h, if_pos ((profOf_length _).2 h)]
  | cons x ls ih =>
    cases x with
    | assign var val t =>
      simp only [List.foldl_cons, RS.apply, sectionsFrom]
      rw [← profOf_append]
      exact ih n _ P
    | group pre name post =>
      simp only [List.foldl_cons, RS.apply, sectionsFrom]
      rw [addSections_cons _ _ _ _ (sectionsFrom_ne _ _ _)]
      have : (RS.group ⟨profOf acc, n, P⟩ name) = ⟨profOf [], name, if acc = [] then P else P.set n (((P.get n).getD .empty).insert (profOf acc))⟩ := by
        unfold RS.group
        by_cases h : acc = []
        · rw [if_pos h, if_neg (by simp only; rw [profOf_length]; simpa using h)]; rfl
        · rw [if_neg h, if_pos ((profOf_length _).2 h)]; rfl
      rw [this]
      exact ih name [] _
    | blank => exact ih n acc P
    | comment t => exact ih n acc P
    | junk t => exact ih n acc P

theorem readProfiles_text (P : SMap Prof) (ls : List Line) (h : ∀ x ∈ ls, x.Ok) :
    readProfiles P (textOf ls) = addSections P (sections ls) := by
  have e : readProfiles P (textOf ls) = ((splitLines (textOf ls) []).foldl RS.line ⟨.empty, str "default", P⟩).finish := rfl
  rw [e, textOf, splitLines_file _ (by
    intro l hl
    obtain ⟨x, hx, rfl⟩ := List.mem_map.1 hl
    exact (h x hx).newline), foldl_lines _ _ h]
  exact finish_sections ls (str "default") [] P

end Verif.Config
