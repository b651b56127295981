import Verif.Query.SnapTreeLemmas
/-!
# Column widths of the tree output
-/
namespace Verif.Query.Tree
open Verif Verif.Cali Verif.Query Verif.Query.Fmt Verif.Util
open Verif.Query.Json (AInfo)

theorem field_length {right : Bool} {s : Str} {w : Nat} (h : s.length ≤ w) : (field right s w).length = w + 1 := by
  unfold field
  cases right <;> simp <;> omega

theorem padRight_field {s : Str} {w : Nat} (h : s.length ≤ w) : padRight s w = field false s w := padRight_eq h

theorem padLeft_field {s : Str} {w : Nat} (h : s.length ≤ w) : padLeft s w = field true s w := padLeft_eq h

/-! ### widths of the value columns -/

def hasCol (cs : Cols) (a : Nat) : Prop := ∃ c ∈ cs, c.1 = a

theorem find_insCol {a w : Nat} {cs : Cols} (h : ¬ hasCol cs a) (b : Nat) :
    (insCol a w cs).find? (fun c => decide (c.1 = b)) = if a = b then some (a, w) else cs.find? fun c => decide (c.1 = b) := by
  induction cs with
  | nil => by_cases hb : a = b <;> simp [insCol, hb]
  | cons c cs ih =>
    have hc : c.1 ≠ a := fun e => h ⟨c, List.mem_cons_self .., e⟩
    have ih := ih fun ⟨x, hx, e⟩ => h ⟨x, List.mem_cons_of_mem _ hx, e⟩
    unfold insCol
    by_cases hl : a < c.1
    · rw [if_pos hl, List.find?_cons]
      by_cases hb : a = b <;> simp [hb]
    · rw [if_neg hl, List.find?_cons, ih]
      by_cases hb : a = b
      · subst hb; simp [hc]
      · simp [hb, List.find?_cons]

theorem colBase_upd (C : TCfg) (cs : Cols) (p : Nat × Val) (b : Nat) :
    colBase cs b ≤ colBase (C.updCol cs p) b ∧
    (b = p.1 → (p.2.toStr C.dbl).length ≤ colBase (C.updCol cs p) b ∧ (hasCol cs b ∨ (C.disp b).length ≤ colBase (C.updCol cs p) b)) := by
  unfold TCfg.updCol
  simp only
  by_cases h : (cs.any fun c => decide (c.1 = p.1)) = true
  · rw [if_pos h]
    have h' : hasCol cs p.1 := by
      obtain ⟨c, hc, e⟩ := List.any_eq_true.1 h
      exact ⟨c, hc, by simpa using e⟩
    have key : ∀ cs : Cols, (cs.map fun c => if c.1 = p.1 then (c.1, max c.2 (p.2.toStr C.dbl).length) else c).find? (fun c => decide (c.1 = b)) =
        (cs.find? fun c => decide (c.1 = b)).map fun c => if c.1 = p.1 then (c.1, max c.2 (p.2.toStr C.dbl).length) else c := by
      intro cs
      induction cs with
      | nil => rfl
      | cons c cs ih =>
        rw [List.map_cons, List.find?_cons, List.find?_cons]
        by_cases hc : c.1 = p.1
        · simp only [hc, if_true]
          by_cases hb : p.1 = b
          · simp [hb, hc]
          · simp only [hb, decide_false]; exact ih
        · simp only [hc, if_false]
          by_cases hb : c.1 = b
          · subst hb; simp [hc]
          · simp only [hb, decide_false]; exact ih
    unfold colBase
    rw [key]
    cases hf : cs.find? (fun c => decide (c.1 = b)) with
    | none =>
      refine ⟨by simp, fun hb => ?_⟩
      obtain ⟨c, hc, e⟩ := h'
      have := List.find?_eq_none.1 hf c hc
      rw [hb] at this
      exact absurd (by simpa using e) this
    | some c =>
      have hcb : c.1 = b := by simpa using List.find?_some hf
      simp only [Option.map_some, Option.getD_some]
      by_cases hc : c.1 = p.1
      · simp only [hc, if_true]
        refine ⟨by omega, fun hb => ⟨by omega, .inl (by rw [hb]; exact h')⟩⟩
      · simp only [hc, if_false]
        exact ⟨le_rfl, fun hb => absurd (hcb.trans hb) hc⟩
  · rw [if_neg h]
    have h' : ¬ hasCol cs p.1 := by
      rintro ⟨c, hc, e⟩
      exact h (List.any_eq_true.2 ⟨c, hc, by simpa using e⟩)
    unfold colBase
    rw [find_insCol h']
    by_cases hb : p.1 = b
    · subst hb
      have hn : cs.find? (fun c => decide (c.1 = p.1)) = none := by
        rw [List.find?_eq_none]
        intro c hc e
        exact h' ⟨c, hc, by simpa using e⟩
      rw [hn]
      simp only [if_true, Option.map_some, Option.getD_some, Option.map_none, Option.getD_none]
      exact ⟨by omega, fun _ => ⟨by omega, .inr (by omega)⟩⟩
    · rw [if_neg hb]
      exact ⟨le_rfl, fun e => absurd e.symm hb⟩

theorem hasCol_upd (C : TCfg) (cs : Cols) (p : Nat × Val) (b : Nat) : hasCol (C.updCol cs p) b ↔ hasCol cs b ∨ b = p.1 := by
  unfold TCfg.updCol
  simp only
  have hins : ∀ (a w : Nat) (cs : Cols), hasCol (insCol a w cs) b ↔ hasCol cs b ∨ b = a := by
    intro a w cs
    induction cs with
    | nil => simp [insCol, hasCol, eq_comm]
    | cons c cs ih =>
      unfold insCol
      by_cases hl : a < c.1
      · rw [if_pos hl]; simp only [hasCol, List.mem_cons, exists_eq_or_imp]
        constructor
        · rintro (h | h | h)
          · exact .inr h.symm
          · exact .inl (.inl h)
          · exact .inl (.inr h)
        · rintro ((h | h) | h)
          · exact .inr (.inl h)
          · exact .inr (.inr h)
          · exact .inl h.symm
      · rw [if_neg hl]
        simp only [hasCol, List.mem_cons, exists_eq_or_imp] at ih ⊢
        rw [ih]; exact or_assoc.symm
  by_cases h : (cs.any fun c => decide (c.1 = p.1)) = true
  · rw [if_pos h]
    have h' : hasCol cs p.1 := by
      obtain ⟨c, hc, e⟩ := List.any_eq_true.1 h
      exact ⟨c, hc, by simpa using e⟩
    constructor
    · rintro ⟨c, hc, e⟩
      obtain ⟨x, hx, rfl⟩ := List.mem_map.1 hc
      refine .inl ⟨x, hx, ?_⟩
      by_cases hxp : x.1 = p.1 <;> simp [hxp] at e ⊢ <;> exact e
    · rintro (⟨c, hc, e⟩ | e)
      · refine ⟨_, List.mem_map_of_mem hc, ?_⟩
        by_cases hxp : c.1 = p.1
        · rw [if_pos hxp]; exact e
        · rw [if_neg hxp]; exact e
      · obtain ⟨c, hc, e'⟩ := h'
        refine ⟨_, List.mem_map_of_mem hc, ?_⟩
        rw [if_pos e', e, ← e']
  · rw [if_neg h]; exact hins _ _ _

/-- the columns know every value seen so far -/
structure ColsOK (C : TCfg) (vs : List (Nat × Val)) (cs : Cols) : Prop where
  width : ∀ p ∈ vs, (p.2.toStr C.dbl).length ≤ colBase cs p.1
  name : ∀ a, hasCol cs a → (C.disp a).length ≤ colBase cs a
  cols : ∀ a, hasCol cs a ↔ a ∈ vs.map Prod.fst

theorem ColsOK.upd {C : TCfg} {vs : List (Nat × Val)} {cs : Cols} (h : ColsOK C vs cs) (p : Nat × Val) : ColsOK C (vs ++ [p]) (C.updCol cs p) := by
  refine ⟨?_, ?_, ?_⟩
  · intro q hq
    rcases List.mem_append.1 hq with hq | hq
    · exact (h.width q hq).trans (colBase_upd C cs p q.1).1
    · rw [List.mem_singleton] at hq; subst hq
      exact ((colBase_upd C cs q q.1).2 rfl).1
  · intro a ha
    rcases (hasCol_upd C cs p a).1 ha with ha | ha
    · exact (h.name a ha).trans (colBase_upd C cs p a).1
    · rcases ((colBase_upd C cs p a).2 ha).2 with h1 | h1
      · exact (h.name a h1).trans (colBase_upd C cs p a).1
      · exact h1
  · intro a
    rw [hasCol_upd, h.cols]
    simp [eq_comm]

theorem ColsOK.updAll {C : TCfg} {cs : Cols} (ps : List (Nat × Val)) : ∀ {vs : List (Nat × Val)} {cs : Cols}, ColsOK C vs cs →
    ColsOK C (vs ++ ps) (ps.foldl C.updCol cs) := by
  induction ps with
  | nil => intro vs cs h; simpa using h
  | cons p ps ih =>
    intro vs cs h
    have := ih (h.upd p)
    simpa using this

/-- all data values of the records that have a path -/
def allData (C : TCfg) (recs : List (List QEnt)) : List (Nat × Val) := (recs.filter fun r => recPath C r ≠ []).flatMap (recData C)

theorem build_cols (C : TCfg) (recs : List (List QEnt)) : ColsOK C (allData C recs) (C.build recs).cols := by
  induction recs using List.reverseRecOn with
  | nil => exact ⟨by simp [allData], by simp [TCfg.build, hasCol], by simp [TCfg.build, hasCol, allData]⟩
  | append_singleton recs r ih =>
    have e : C.build (recs ++ [r]) = C.add (C.build recs) r := by simp [TCfg.build]
    rw [e, add_eq]
    by_cases hp : recPath C r = []
    · rw [if_pos hp]
      have : allData C (recs ++ [r]) = allData C recs := by simp [allData, hp]
      rw [this]; exact ih
    · rw [if_neg hp]
      have : allData C (recs ++ [r]) = allData C recs ++ recData C r := by simp [allData, hp]
      rw [this]; exact ih.updAll (cs := (C.build recs).cols) _

/-! ### width of the path column -/

theorem maxLabelKids_ge (C : TCfg) (level : Nat) (ks : List SNode) : ∀ acc, acc ≤ C.maxLabelKids level acc ks ∧ ∀ k ∈ ks, C.maxLabel level k ≤ C.maxLabelKids level acc ks := by
  induction ks with
  | nil => intro acc; simp [TCfg.maxLabelKids]
  | cons k ks ih =>
    intro acc
    rw [TCfg.maxLabelKids]
    obtain ⟨h1, h2⟩ := ih (max acc (C.maxLabel level k))
    refine ⟨by omega, ?_⟩
    intro k' hk'
    rcases List.mem_cons.1 hk' with rfl | hk'
    · omega
    · exact h2 k' hk'

mutual
theorem maxLabel_ge (C : TCfg) (pre : List Lbl) : ∀ (n : SNode), ∀ q l, q ++ [l] ∈ paths pre n → 2 * q.length + (l.2.toStr C.dbl).length ≤ C.maxLabel pre.length n
  | .mk l' rs ks, q, l, h => by
    rw [paths, List.mem_cons] at h
    rw [TCfg.maxLabel]
    rcases h with h | h
    · have := List.append_inj' h rfl
      obtain ⟨h1, h2⟩ := this
      have h2 : l = l' := by simpa using h2
      subst h1; subst h2
      exact (maxLabelKids_ge C _ ks _).1
    · have := maxLabelL_ge C (pre ++ [l']) ks q l h
      rw [List.length_append] at this
      obtain ⟨k, hk, hle⟩ := this
      exact hle.trans ((maxLabelKids_ge C _ ks _).2 k hk)
theorem maxLabelL_ge (C : TCfg) (pre : List Lbl) : ∀ (ks : List SNode), ∀ q l, q ++ [l] ∈ pathsL pre ks →
    ∃ k ∈ ks, 2 * q.length + (l.2.toStr C.dbl).length ≤ C.maxLabel pre.length k
  | [], q, l, h => by simp [pathsL] at h
  | k :: ks, q, l, h => by
    rw [pathsL, List.mem_append] at h
    rcases h with h | h
    · exact ⟨k, List.mem_cons_self .., maxLabel_ge C pre k q l h⟩
    · obtain ⟨k', h1, h2⟩ := maxLabelL_ge C pre ks q l h
      exact ⟨k', List.mem_cons_of_mem _ h1, h2⟩
end

/-! ### which rows there are -/

theorem nodeRows_mem {level : Nat} {l : Lbl} {rs : List Rec} {r : TRow} (h : r ∈ nodeRows level l rs) :
    r.level = level ∧ (r.label = none ∨ r.label = some l) ∧ (∀ d, r.data = some d → d ∈ rs) := by
  match rs, h with
  | [], h => simp [nodeRows] at h; subst h; simp
  | [x], h => simp [nodeRows] at h; subst h; simp [eq_comm]
  | x :: y :: rs, h =>
    rw [nodeRows] at h
    · rcases List.mem_cons.1 h with rfl | h
      · simp
      · obtain ⟨z, hz, rfl⟩ := List.mem_map.1 h
        exact ⟨rfl, .inl rfl, fun d hd => by simp only [Option.some.injEq] at hd; subst hd; exact hz⟩
    · simp
    · simp

mutual
theorem rows_mem (pre : List Lbl) : ∀ (n : SNode), ∀ r ∈ rows pre.length n,
    (∃ q l, q.length = r.level ∧ q ++ [l] ∈ paths pre n ∧ (r.label = none ∨ r.label = some l)) ∧ (∀ d, r.data = some d → ∃ q, (q, d) ∈ entries pre n)
  | .mk l' rs ks, r, h => by
    rw [rows, List.mem_append] at h
    rw [paths, entries]
    rcases h with h | h
    · obtain ⟨h1, h2, h3⟩ := nodeRows_mem h
      refine ⟨⟨pre, l', h1.symm, List.mem_cons_self .., h2⟩, ?_⟩
      · intro d hd
        exact ⟨pre ++ [l'], List.mem_append_left _ (List.mem_map_of_mem (h3 d hd))⟩
    · have hlen : (pre ++ [l']).length = pre.length + 1 := by simp
      rw [← hlen] at h
      obtain ⟨h1, h2⟩ := rowsL_mem (pre ++ [l']) ks r h
      obtain ⟨q, l, hq1, hq2, hq3⟩ := h1
      refine ⟨⟨q, l, hq1, List.mem_cons_of_mem _ hq2, hq3⟩, ?_⟩
      · intro d hd
        obtain ⟨q, hq⟩ := h2 d hd
        exact ⟨q, List.mem_append_right _ hq⟩
theorem rowsL_mem (pre : List Lbl) : ∀ (ks : List SNode), ∀ r ∈ rowsL pre.length ks,
    (∃ q l, q.length = r.level ∧ q ++ [l] ∈ pathsL pre ks ∧ (r.label = none ∨ r.label = some l)) ∧ (∀ d, r.data = some d → ∃ q, (q, d) ∈ entriesL pre ks)
  | [], r, h => by simp [rowsL] at h
  | k :: ks, r, h => by
    rw [rowsL, List.mem_append] at h
    rw [pathsL, entriesL]
    rcases h with h | h
    · obtain ⟨h1, h2⟩ := rows_mem pre k r h
      obtain ⟨q, l, a, b, c⟩ := h1
      exact ⟨⟨q, l, a, List.mem_append_left _ b, c⟩,
        fun d hd => by obtain ⟨q, a⟩ := h2 d hd; exact ⟨q, List.mem_append_left _ a⟩⟩
    · obtain ⟨h1, h2⟩ := rowsL_mem pre ks r h
      obtain ⟨q, l, a, b, c⟩ := h1
      exact ⟨⟨q, l, a, List.mem_append_right _ b, c⟩,
        fun d hd => by obtain ⟨q, a⟩ := h2 d hd; exact ⟨q, List.mem_append_right _ a⟩⟩
end

/-! ### rendering -/

theorem pathCell_fit {pw level : Nat} {s : Str} (h : 2 * level + s.length ≤ pw) (h2 : 2 * level + 2 ≤ pw) (f : Nat → Str)
    (hf : f (pw - 2 * level) = s) : pathCell pw level f = field false (List.replicate (2 * level) (ch ' ') ++ s) pw := by
  unfold pathCell
  rw [if_neg (show ¬ 2 * level ≥ pw by omega), hf, show min (2 * level) (pw - 2) = 2 * level by omega, padRight_field (by simp; omega)]

theorem cell_field (C : TCfg) {cs : Cols} {d : Rec} {a : Nat} (h : ∀ p ∈ d, (p.2.toStr C.dbl).length ≤ colWidth C.maxWidth (colBase cs p.1)) :
    C.cell cs d a = field (C.numeric a) (C.valueText d a) (colWidth C.maxWidth (colBase cs a)) ∧
    (C.valueText d a).length ≤ colWidth C.maxWidth (colBase cs a) := by
  have hlen : (C.valueText d a).length ≤ colWidth C.maxWidth (colBase cs a) := by
    unfold TCfg.valueText
    cases hf : d.find? (fun p => decide (p.1 = a)) with
    | none => simp
    | some p =>
      have h1 : p.1 = a := by simpa using List.find?_some hf
      have := h p (List.mem_of_find?_eq_some hf)
      rw [h1] at this
      exact this
  refine ⟨?_, hlen⟩
  have hs : C.cellText (colWidth C.maxWidth (colBase cs a)) d a = C.valueText d a := by
    unfold TCfg.cellText recGet
    unfold TCfg.valueText at hlen ⊢
    cases hf : d.find? (fun p => decide (p.1 = a)) with
    | none => rfl
    | some p =>
      rw [hf] at hlen
      exact clampStr_id hlen
  have hn : alignRight (C.aty a) = C.numeric a := by
    unfold alignRight TCfg.aty TCfg.numeric
    cases C.info a with
    | none => rfl
    | some ai => rfl
  unfold TCfg.cell
  simp only
  rw [hs, hn]
  cases C.numeric a with
  | true => simp only [if_true]; exact padLeft_field hlen
  | false => simp only [Bool.false_eq_true, if_false]; exact padRight_field hlen

end Verif.Query.Tree
