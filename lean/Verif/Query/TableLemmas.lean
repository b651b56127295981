import Verif.Query.TableSpec
import Mathlib.Data.List.Induction
/-!
# Lemmas about the table formatter
-/
namespace Verif.Query.Table
open Verif Verif.Cali Verif.Query Verif.Query.Fmt Verif.Util
open Verif.Query.Json (AInfo)

/-! ### values -/

theorem slashed_nonempty : ∀ (l : List Str), (∃ s, l.getLast? = some s ∧ s ≠ []) → slashed l ≠ []
  | [], h => by simp at h
  | [s], h => by obtain ⟨t, h1, h2⟩ := h; simp only [List.getLast?_singleton, Option.some.injEq] at h1; subst h1; exact h2
  | s :: t :: ss, h => by simp [slashed]

/-- joining from the leaf to the root -/
def joinUp (vs : List Str) : Str := vs.foldl (fun s v => v ++ ((if s = [] then [] else [ch '/']) ++ s)) []

theorem refText_joinUp (F : DblFmt) (a : Nat) (path : List (Nat × Val)) :
    refText F a path = joinUp ((path.filter fun p => p.1 = a).map fun p => p.2.toStr F) := by
  have : ∀ (s : Str), path.foldl (fun s p => if p.1 = a then p.2.toStr F ++ ((if s = [] then [] else [ch '/']) ++ s) else s) s =
      ((path.filter fun p => p.1 = a).map fun p => p.2.toStr F).foldl (fun s v => v ++ ((if s = [] then [] else [ch '/']) ++ s)) s := by
    induction path with
    | nil => intro s; rfl
    | cons p ps ih =>
      intro s
      rw [List.foldl_cons, ih, List.filter_cons]
      by_cases h : p.1 = a <;> simp [h]
  exact this []

theorem joinUp_eq (vs : List Str) : joinUp vs = slashed (vs.dropWhile (fun s => s = [])).reverse := by
  induction vs using List.reverseRecOn with
  | nil => rfl
  | append_singleton vs v ih =>
    unfold joinUp at ih ⊢
    rw [List.foldl_append, List.foldl_cons, List.foldl_nil, ih, List.dropWhile_append]
    by_cases h : vs.dropWhile (fun s => decide (s = [])) = []
    · simp only [h, List.isEmpty_nil, if_true, List.reverse_nil, slashed]
      by_cases hv : v = []
      · subst hv; simp [slashed]
      · simp [hv, slashed]
    · have h' : (vs.dropWhile (fun s => decide (s = []))).isEmpty = false := by simpa using h
      simp only [h', if_false, List.reverse_append, List.reverse_cons, List.reverse_nil, List.nil_append, List.cons_append, Bool.false_eq_true]
      have hne : slashed (vs.dropWhile (fun s => decide (s = []))).reverse ≠ [] := by
        apply slashed_nonempty
        rw [List.getLast?_reverse]
        obtain ⟨x, xs, hx⟩ := List.exists_cons_of_ne_nil h
        refine ⟨x, by rw [hx]; rfl, ?_⟩
        have := List.head_dropWhile_not (fun s : Str => decide (s = [])) h
        simp only [hx, List.head_cons] at this
        simpa using this
      rw [if_neg hne]
      obtain ⟨y, ys, hy⟩ := List.exists_cons_of_ne_nil (show (vs.dropWhile (fun s => decide (s = []))).reverse ≠ [] by simpa using h)
      rw [hy]
      simp [slashed]

theorem cellVal_eq (F : DblFmt) (a : Nat) (rec : List QEnt) : cellVal F a rec = valueText F rec (some a) := by
  induction rec with
  | nil => rfl
  | cons e es ih =>
    simp only [valueText] at ih ⊢
    rw [List.findSome?_cons]
    cases e with
    | ref path =>
      simp only [cellVal, entryText, refText_joinUp, joinUp_eq]
      by_cases h : slashed (((path.filter fun p => decide (p.1 = a)).map fun p => p.2.toStr F).dropWhile fun s => decide (s = [])).reverse = []
      · rw [if_pos h]; simp only [h, ne_eq, not_true, if_false]; exact ih
      · rw [if_neg h]; simp only [ne_eq, h, not_false_iff, if_true, Option.getD_some]
    | imm b v =>
      simp only [cellVal, entryText]
      by_cases h : b = a
      · simp [h]
      · simp only [h, if_false]; exact ih

theorem rowCell_eq (F : DblFmt) (rec : List QEnt) (c : Col) : rowCell F rec c = valueText F rec c.attr := by
  unfold rowCell
  cases h : c.attr with
  | none => rfl
  | some a => exact cellVal_eq F a rec

/-- an attribute that does not occur has no value -/
theorem valueText_nil {F : DblFmt} {rec : List QEnt} {a : Nat} (h : a ∉ recAttrs rec) : valueText F rec (some a) = [] := by
  unfold valueText
  simp only
  rw [List.findSome?_eq_none_iff.2]
  · rfl
  · intro e he
    have hp : ∀ p ∈ (match e with | .imm a v => [(a, v)] | .ref path => path : List (Nat × Val)), p.1 ≠ a := by
      intro p hp e'
      exact h (List.mem_map.2 ⟨p, List.mem_flatMap.2 ⟨e, he, hp⟩, e'⟩)
    cases e with
    | imm b v =>
      have := hp (b, v) (by simp)
      simp only [entryText]
      rw [if_neg this]
    | ref path =>
      have : path.filter (fun p => decide (p.1 = a)) = [] := by
        rw [List.filter_eq_nil_iff]
        intro p hpp
        simpa using hp p hpp
      simp only [entryText, this, List.map_nil, List.dropWhile_nil, List.reverse_nil, slashed, if_true]

/-! ### columns -/

theorem mem_firstOcc (a : Nat) : ∀ l : List Nat, a ∈ firstOcc l ↔ a ∈ l
  | [] => Iff.rfl
  | b :: l => by
    simp only [firstOcc, List.mem_cons, List.mem_filter, mem_firstOcc a l, decide_eq_true_eq]
    by_cases h : a = b <;> simp [h]

theorem firstOcc_snoc (l : List Nat) (a : Nat) : firstOcc (l ++ [a]) = firstOcc l ++ if a ∈ l then [] else [a] := by
  induction l with
  | nil => simp [firstOcc]
  | cons b l ih =>
    rw [List.cons_append, firstOcc, ih, firstOcc, List.filter_append]
    by_cases h : a ∈ l
    · simp [h]
    · by_cases hb : a = b
      · subst hb; simp [h]
      · simp [h, hb]

def strip (c : Col) : Col := { c with width := 0 }

/-- the columns, without widths; `R` is what is known of the named ones -/
def BCfg.ecols (C : BCfg) (R : Str → Option Nat) (occ : List Nat) : List Col :=
  C.sort.map (fun s => ⟨s.1, s.1, 0, R s.1, false, some s.2⟩) ++
    match C.select with
    | some l => l.map fun n => ⟨n, (C.aliases n).getD n, 0, R n, true, none⟩
    | none => (firstOcc (occ.filter C.visible)).map fun a => ⟨((C.info a).map AInfo.name).getD [], C.title a, 0, some a, true, none⟩

/-- a column made for an attribute -/
def BCfg.newCol (C : BCfg) (a : Nat) : Col :=
  ⟨((C.info a).map AInfo.name).getD [], C.title a, (C.title a).length, some a, true, none⟩

theorem updColAttr_eq (C : BCfg) (cols : List Col) (a : Nat) : C.updColAttr cols a =
    if (cols.any fun c => c.order.isNone && decide (c.attr = some a)) = true ∨ C.visible a = false then cols else cols ++ [C.newCol a] := by
  unfold BCfg.updColAttr BCfg.visible BCfg.newCol BCfg.title
  by_cases h : (cols.any fun c => c.order.isNone && decide (c.attr = some a)) = true
  · simp [h]
  · simp only [h, if_false, false_or, Bool.false_eq_true]
    cases hi : C.info a with
    | none => simp
    | some ai =>
      cases h1 : ai.hidden <;> cases h2 : ai.isGlobal <;> cases h3 : C.aliases ai.name <;> simp [h1, h2, h3]

theorem any_strip (cols : List Col) (a : Nat) :
    (cols.any fun c => c.order.isNone && decide (c.attr = some a)) = (cols.map strip).any fun c => c.order.isNone && decide (c.attr = some a) := by
  rw [List.any_map]; rfl

theorem any_ecols {C : BCfg} (hs : C.select = none) (R : Str → Option Nat) (occ : List Nat) (a : Nat) :
    ((C.ecols R occ).any fun c => c.order.isNone && decide (c.attr = some a)) = true ↔ a ∈ occ ∧ C.visible a = true := by
  unfold BCfg.ecols
  rw [hs]
  simp only [List.any_append, List.any_map, Bool.or_eq_true, List.any_eq_true, Function.comp_apply, Option.isNone_some, Bool.false_and,
    Bool.false_eq_true, and_false, exists_false, false_or, Option.isNone_none, Bool.true_and, decide_eq_true_eq, Option.some.injEq, mem_firstOcc,
    List.mem_filter]
  constructor
  · rintro ⟨x, h, rfl⟩; exact h
  · intro h; exact ⟨a, h, rfl⟩

/-- columns are added at the end -/
theorem updColAttr_ext (C : BCfg) (hs : C.select = none) (R : Str → Option Nat) (occ : List Nat) (cols : List Col) (a : Nat)
    (h : cols.map strip = C.ecols R occ) :
    ∃ new : List Nat, C.updColAttr cols a = cols ++ new.map C.newCol ∧ (C.updColAttr cols a).map strip = C.ecols R (occ ++ [a]) ∧ ∀ b ∈ new, b ∉ occ := by
  rw [updColAttr_eq, any_strip, h]
  simp only [any_ecols hs]
  by_cases hc : (a ∈ occ ∧ C.visible a = true) ∨ C.visible a = false
  · refine ⟨[], by rw [if_pos hc]; simp, ?_, by simp⟩
    rw [if_pos hc, h]
    unfold BCfg.ecols
    rw [hs]
    simp only [List.filter_append]
    rcases hc with ⟨h1, h2⟩ | h2
    · rw [List.filter_cons_of_pos h2, List.filter_nil, firstOcc_snoc, if_pos (List.mem_filter.2 ⟨h1, h2⟩), List.append_nil]
    · rw [List.filter_cons_of_neg (by simp [h2]), List.filter_nil, List.append_nil]
  · have hv : C.visible a = true := by
      cases hv : C.visible a with
      | true => rfl
      | false => exact absurd (.inr hv) hc
    have ho : a ∉ occ := fun ho => hc (.inl ⟨ho, hv⟩)
    refine ⟨[a], by rw [if_neg hc]; simp, ?_, by simpa using ho⟩
    rw [if_neg hc, List.map_append, h]
    unfold BCfg.ecols
    rw [hs]
    simp only [List.filter_append]
    rw [List.filter_cons_of_pos hv, List.filter_nil, firstOcc_snoc, if_neg (fun h => ho (List.mem_filter.1 h).1), List.map_append, List.append_assoc]
    rfl

theorem foldl_updColAttr (C : BCfg) (hs : C.select = none) (R : Str → Option Nat) (as : List Nat) : ∀ (occ : List Nat) (cols : List Col),
    cols.map strip = C.ecols R occ →
    ∃ new : List Nat, as.foldl C.updColAttr cols = cols ++ new.map C.newCol ∧ (as.foldl C.updColAttr cols).map strip = C.ecols R (occ ++ as) ∧
      ∀ b ∈ new, b ∉ occ := by
  induction as with
  | nil => intro occ cols h; exact ⟨[], by simp, by simpa using h, by simp⟩
  | cons a as ih =>
    intro occ cols h
    obtain ⟨n1, e1, s1, m1⟩ := updColAttr_ext C hs R occ cols a h
    obtain ⟨n2, e2, s2, m2⟩ := ih (occ ++ [a]) _ s1
    refine ⟨n1 ++ n2, ?_, ?_, ?_⟩
    · rw [List.foldl_cons, e2, e1]; simp
    · rw [List.foldl_cons, s2, List.append_assoc]; rfl
    · intro b hb
      rcases List.mem_append.1 hb with hb | hb
      · exact m1 b hb
      · exact fun h => m2 b hb (List.mem_append_left _ h)

theorem fold_entries (C : BCfg) (rec : List QEnt) (cols : List Col) : rec.foldl C.updEntry cols = (recAttrs rec).foldl C.updColAttr cols := by
  induction rec generalizing cols with
  | nil => rfl
  | cons e es ih =>
    rw [List.foldl_cons, ih]
    have : recAttrs (e :: es) = (match e with | .imm a v => [(a, v)] | .ref path => path : List (Nat × Val)).map Prod.fst ++ recAttrs es := by
      simp [recAttrs, Tree.pairs]
      cases e <;> simp
    rw [this, List.foldl_append]
    cases e with
    | ref path => simp only [List.foldl_map, BCfg.updEntry]
    | imm a v => rfl

theorem resolve_strip (C : BCfg) (c : Col) : strip (C.resolve c) = C.resolve (strip c) := rfl

theorem resolve_ecols (C : BCfg) (R : Str → Option Nat) (hR : ∀ n, R n = none ∨ R n = C.byName n) (occ : List Nat) :
    (C.ecols R occ).map C.resolve = C.ecols C.byName occ := by
  have h : ∀ n, (if (R n).isNone = true then C.byName n else R n) = C.byName n := by
    intro n
    rcases hR n with h | h
    · simp [h]
    · rw [h]; split <;> rfl
  unfold BCfg.ecols
  rw [List.map_append, List.map_map]
  congr 1
  · apply List.map_congr_left
    intro s _
    simp only [Function.comp_apply, BCfg.resolve]
    rw [← h s.1]
    cases hr : R s.1 <;> simp
  · cases C.select with
    | some l =>
      simp only [List.map_map]
      apply List.map_congr_left
      intro n _
      simp only [Function.comp_apply, BCfg.resolve]
      rw [← h n]
      cases hr : R n <;> simp
    | none =>
      simp only [List.map_map]
      apply List.map_congr_left
      intro a _
      simp [BCfg.resolve]

theorem updCols_ext (C : BCfg) (R : Str → Option Nat) (hR : ∀ n, R n = none ∨ R n = C.byName n) (occ : List Nat) (cols : List Col) (rec : List QEnt)
    (h : cols.map strip = C.ecols R occ) :
    (∃ new : List Nat, C.updCols cols rec = (cols ++ new.map C.newCol).map C.resolve ∧ ∀ b ∈ new, b ∉ occ) ∧
      (C.updCols cols rec).map strip = C.ecols C.byName (occ ++ recAttrs rec) := by
  unfold BCfg.updCols
  cases hs : C.select with
  | none =>
    simp only [Option.isNone_none, if_true]
    rw [fold_entries]
    obtain ⟨new, e, s, m⟩ := foldl_updColAttr C hs R (recAttrs rec) occ cols h
    refine ⟨⟨new, by rw [e], m⟩, ?_⟩
    have : (((recAttrs rec).foldl C.updColAttr cols).map C.resolve).map strip = (((recAttrs rec).foldl C.updColAttr cols).map strip).map C.resolve := by
      rw [List.map_map, List.map_map]
      exact List.map_congr_left fun c _ => resolve_strip C c
    exact this.trans (by rw [s]; exact resolve_ecols C R hR _)
  | some l =>
    simp only [Option.isNone_some, if_false, Bool.false_eq_true]
    refine ⟨⟨[], by simp, by simp⟩, ?_⟩
    have : (cols.map C.resolve).map strip = (cols.map strip).map C.resolve := by
      rw [List.map_map, List.map_map]
      exact List.map_congr_left fun c _ => resolve_strip C c
    refine this.trans ?_
    rw [h, resolve_ecols C R hR]
    unfold BCfg.ecols
    rw [hs]

/-- the columns only grow -/
theorem ecols_ext (C : BCfg) (R : Str → Option Nat) (occ more : List Nat) :
    ∃ new : List Col, C.ecols R (occ ++ more) = C.ecols R occ ++ new ∧ ∀ c ∈ new, ∃ a, c.attr = some a ∧ a ∉ occ := by
  cases hs : C.select with
  | some l => exact ⟨[], by simp [BCfg.ecols, hs], by simp⟩
  | none =>
    induction more using List.reverseRecOn with
    | nil => exact ⟨[], by simp, by simp⟩
    | append_singleton more a ih =>
      obtain ⟨new, e, m⟩ := ih
      have : ∃ n2 : List Col, C.ecols R (occ ++ (more ++ [a])) = C.ecols R (occ ++ more) ++ n2 ∧ ∀ c ∈ n2, ∃ a, c.attr = some a ∧ a ∉ occ := by
        rw [← List.append_assoc]
        unfold BCfg.ecols
        rw [hs]
        simp only [List.filter_append (occ ++ more)]
        by_cases hv : C.visible a = true
        · rw [List.filter_cons_of_pos hv, List.filter_nil, firstOcc_snoc, List.map_append, ← List.append_assoc]
          refine ⟨_, rfl, ?_⟩
          by_cases ho : a ∈ (occ ++ more).filter C.visible
          · rw [if_pos ho]; simp
          · simp only [ho, if_false, List.map_cons, List.map_nil, List.mem_singleton]
            rintro c rfl
            exact ⟨a, rfl, fun h => ho (List.mem_filter.2 ⟨List.mem_append_left _ h, hv⟩)⟩
        · rw [List.filter_cons_of_neg hv, List.filter_nil, List.append_nil]
          exact ⟨[], by simp, by simp⟩
      obtain ⟨n2, e2, m2⟩ := this
      refine ⟨new ++ n2, by rw [e2, e, List.append_assoc], ?_⟩
      intro c hc
      rcases List.mem_append.1 hc with hc | hc
      · exact m c hc
      · exact m2 c hc

/-! ### the state -/

/-- a record's row in the first `k` columns -/
def BCfg.rowOf (C : BCfg) (cols : List Col) (x : List QEnt × Nat) : List Str := (cols.take x.2).map (rowCell C.dbl x.1)

theorem rowCell_strip (F : DblFmt) (r : List QEnt) (c : Col) : rowCell F r (strip c) = rowCell F r c := rfl

structure Inv (C : BCfg) (recs : List (List QEnt)) (s : BState) : Prop where
  cols : ∃ R : Str → Option Nat, (∀ n, R n = none ∨ R n = C.byName n) ∧ (recs ≠ [] → R = C.byName) ∧ s.cols.map strip = C.ecols R (recs.flatMap recAttrs)
  width : ∀ c ∈ s.cols, c.disp.length ≤ c.width ∧ ∀ r ∈ recs, (rowCell C.dbl r (C.resolve c)).length ≤ c.width
  rows : ∃ L : List (List QEnt × Nat), s.rows = L.map (C.rowOf (C.ecols C.byName (recs.flatMap recAttrs))) ∧
    L.map Prod.fst = recs.filter (fun r => (C.ecols C.byName (recs.flatMap recAttrs)).any fun c => rowCell C.dbl r c ≠ []) ∧
    ∀ x ∈ L, C.sort.length ≤ x.2 ∧ ∀ c ∈ (C.ecols C.byName (recs.flatMap recAttrs)).drop x.2, rowCell C.dbl x.1 c = []

theorem ecols_length_ge (C : BCfg) (R : Str → Option Nat) (occ : List Nat) : C.sort.length ≤ (C.ecols R occ).length := by
  simp [BCfg.ecols]

theorem inv_init (C : BCfg) : Inv C [] C.init := by
  refine ⟨⟨fun _ => none, fun _ => .inl rfl, by simp, ?_⟩, ?_, ⟨[], rfl, rfl, by simp⟩⟩
  · unfold BCfg.init BCfg.ecols
    simp only [List.map_append, List.map_map]
    congr 1
    cases C.select with
    | none => rfl
    | some l => simp only [List.map_map]; rfl
  · intro c hc
    refine ⟨?_, by simp⟩
    unfold BCfg.init at hc
    simp only [List.mem_append, List.mem_map] at hc
    rcases hc with ⟨s, _, rfl⟩ | hc
    · exact le_rfl
    · cases hs : C.select with
      | none => rw [hs] at hc; simp at hc
      | some l =>
        rw [hs] at hc
        obtain ⟨n, _, rfl⟩ := List.mem_map.1 hc
        exact le_rfl

theorem resolve_idem (C : BCfg) (c : Col) : C.resolve (C.resolve c) = C.resolve c := by
  unfold BCfg.resolve
  cases h : c.attr with
  | none => simp
  | some a => simp

theorem inv_add (C : BCfg) (recs : List (List QEnt)) (s : BState) (rec : List QEnt) (h : Inv C recs s) : Inv C (recs ++ [rec]) (C.add s rec) := by
  obtain ⟨R, hR, hRb, hc⟩ := h.cols
  obtain ⟨⟨new, en, mn⟩, es⟩ := updCols_ext C R hR _ _ rec hc
  have eocc : (recs ++ [rec]).flatMap recAttrs = recs.flatMap recAttrs ++ recAttrs rec := by simp
  have hno : ∀ r ∈ recs, ∀ a, a ∉ recs.flatMap recAttrs → valueText C.dbl r (some a) = [] :=
    fun r hr a ha => valueText_nil fun h => ha (List.mem_flatMap.2 ⟨r, hr, h⟩)
  obtain ⟨ec, eec, mec⟩ := ecols_ext C C.byName (recs.flatMap recAttrs) (recAttrs rec)
  refine ⟨⟨C.byName, fun _ => .inr rfl, fun _ => rfl, ?_⟩, ?_, ?_⟩
  · rw [eocc, ← es]
    unfold BCfg.add
    simp only [List.map_map]
    exact List.map_congr_left fun c _ => rfl
  · intro c' hc'
    unfold BCfg.add at hc'
    simp only [List.mem_map] at hc'
    obtain ⟨c, hc1, rfl⟩ := hc'
    rw [en] at hc1
    obtain ⟨c0, hc0, rfl⟩ := List.mem_map.1 hc1
    have hres : ∀ r w, rowCell C.dbl r (C.resolve ((C.resolve c0).widen w)) = rowCell C.dbl r (C.resolve c0) := by
      intro r w
      have : (C.resolve ((C.resolve c0).widen w)).attr = (C.resolve (C.resolve c0)).attr := rfl
      rw [rowCell_eq, rowCell_eq, this, resolve_idem]
    have hw : ∀ w, ((C.resolve c0).widen w).width = max c0.width w ∧ ((C.resolve c0).widen w).disp = c0.disp := fun w => ⟨rfl, rfl⟩
    rw [(hw _).1, (hw _).2]
    rcases List.mem_append.1 hc0 with h0 | h0
    · obtain ⟨w1, w2⟩ := h.width c0 h0
      refine ⟨by omega, ?_⟩
      intro r hr
      rw [hres]
      rcases List.mem_append.1 hr with hr | hr
      · have := w2 r hr; omega
      · rw [List.mem_singleton] at hr; subst hr; omega
    · obtain ⟨b, hb, rfl⟩ := List.mem_map.1 h0
      refine ⟨by simp [BCfg.newCol], ?_⟩
      intro r hr
      rw [hres]
      rcases List.mem_append.1 hr with hr | hr
      · have : rowCell C.dbl r (C.resolve (C.newCol b)) = [] := by
          rw [rowCell_eq]
          exact hno r hr b (mn b hb)
        rw [this]; simp
      · rw [List.mem_singleton] at hr; subst hr; omega
  · obtain ⟨L, hL1, hL2, hL3⟩ := h.rows
    have hrow : (C.updCols s.cols rec).map (rowCell C.dbl rec) = (C.ecols C.byName (recs.flatMap recAttrs ++ recAttrs rec)).map (rowCell C.dbl rec) := by
      rw [← es, List.map_map]; rfl
    rw [eocc]
    have hold : ∀ r ∈ recs, ((C.ecols C.byName (recs.flatMap recAttrs ++ recAttrs rec)).any fun c => decide (rowCell C.dbl r c ≠ [])) =
        (C.ecols C.byName (recs.flatMap recAttrs)).any fun c => decide (rowCell C.dbl r c ≠ []) := by
      intro r hr
      rw [eec, List.any_append]
      have : (ec.any fun c => decide (rowCell C.dbl r c ≠ [])) = false := by
        rw [List.any_eq_false]
        intro c hc
        obtain ⟨a, h1, h2⟩ := mec c hc
        simp [rowCell_eq, h1, hno r hr a h2]
      rw [this, Bool.or_false]
    have hLrec : ∀ x ∈ L, x.1 ∈ recs := fun x hx => (List.mem_filter.1 (hL2 ▸ List.mem_map_of_mem (f := Prod.fst) hx : x.1 ∈ _)).1
    have e1 : (recs ++ [rec]).filter (fun r => (C.ecols C.byName (recs.flatMap recAttrs ++ recAttrs rec)).any fun c => decide (rowCell C.dbl r c ≠ [])) =
        L.map Prod.fst ++ [rec].filter (fun r => (C.ecols C.byName (recs.flatMap recAttrs ++ recAttrs rec)).any fun c => decide (rowCell C.dbl r c ≠ [])) := by
      rw [List.filter_append, hL2]
      congr 1
      exact List.filter_congr hold
    have old : ∀ x ∈ L, ∃ k, C.rowOf (C.ecols C.byName (recs.flatMap recAttrs)) x = C.rowOf (C.ecols C.byName (recs.flatMap recAttrs ++ recAttrs rec)) (x.1, k) ∧
        C.sort.length ≤ k ∧ ∀ c ∈ (C.ecols C.byName (recs.flatMap recAttrs ++ recAttrs rec)).drop k, rowCell C.dbl x.1 c = [] := by
      intro x hx
      obtain ⟨h1, h2⟩ := hL3 x hx
      refine ⟨min x.2 (C.ecols C.byName (recs.flatMap recAttrs)).length, ?_, ?_, ?_⟩
      · unfold BCfg.rowOf
        simp only [eec]
        rw [List.take_append_of_le_length (by omega)]
        congr 1
        rw [List.take_eq_take_iff]; omega
      · have := ecols_length_ge C C.byName (recs.flatMap recAttrs); omega
      · intro c hc
        rw [eec, List.drop_append_of_le_length (by omega)] at hc
        rcases List.mem_append.1 hc with hc | hc
        · apply h2
          by_cases hl : x.2 ≤ (C.ecols C.byName (recs.flatMap recAttrs)).length
          · rwa [Nat.min_eq_left hl] at hc
          · rw [Nat.min_eq_right (by omega), List.drop_length] at hc; simp at hc
        · obtain ⟨a, h3, h4⟩ := mec c hc
          rw [rowCell_eq, h3]
          exact hno x.1 (hLrec x hx) a h4
    choose! k hk1 hk2 hk3 using old
    have e2 : s.rows = (L.map fun x => (x.1, k x)).map (C.rowOf (C.ecols C.byName (recs.flatMap recAttrs ++ recAttrs rec))) := by
      rw [hL1, List.map_map]
      exact List.map_congr_left fun x hx => hk1 x hx
    by_cases hact : ((C.updCols s.cols rec).map (rowCell C.dbl rec)).any (fun v => decide (v ≠ [])) = true
    · refine ⟨(L.map fun x => (x.1, k x)) ++ [(rec, (C.ecols C.byName (recs.flatMap recAttrs ++ recAttrs rec)).length)], ?_, ?_, ?_⟩
      · unfold BCfg.add
        simp only
        rw [if_pos hact, e2, hrow, List.map_append]
        simp [BCfg.rowOf]
      · rw [e1, List.map_append, List.map_map]
        congr 1
        rw [hrow, List.any_map] at hact
        rw [List.filter_cons_of_pos (by exact hact)]
        rfl
      · intro x hx
        rcases List.mem_append.1 hx with hx | hx
        · obtain ⟨y, hy, rfl⟩ := List.mem_map.1 hx
          exact ⟨hk2 y hy, hk3 y hy⟩
        · rw [List.mem_singleton] at hx
          subst hx
          refine ⟨ecols_length_ge _ _ _, by simp⟩
    · refine ⟨L.map fun x => (x.1, k x), ?_, ?_, ?_⟩
      · unfold BCfg.add
        simp only
        rw [if_neg hact, e2]
      · rw [e1, List.map_map]
        rw [hrow, List.any_map] at hact
        rw [List.filter_cons_of_neg (by exact hact)]
        simp
      · intro x hx
        obtain ⟨y, hy, rfl⟩ := List.mem_map.1 hx
        exact ⟨hk2 y hy, hk3 y hy⟩

theorem inv_build (C : BCfg) (recs : List (List QEnt)) : Inv C recs (C.build recs) := by
  induction recs using List.reverseRecOn with
  | nil => exact inv_init C
  | append_singleton recs rec ih =>
    unfold BCfg.build
    rw [List.foldl_append]
    exact inv_add C recs _ rec ih

/-- a permutation of an image is the image of a permutation -/
theorem perm_map_lift {α β : Type} (f : α → β) : ∀ (l : List β) (L : List α), l.Perm (L.map f) → ∃ L' : List α, L'.Perm L ∧ l = L'.map f
  | [], L, h => by
    have := h.length_eq
    simp only [List.length_nil, List.length_map] at this
    exact ⟨[], by rw [List.length_eq_zero_iff.1 this.symm], rfl⟩
  | b :: l, L, h => by
    obtain ⟨a, ha, rfl⟩ := List.mem_map.1 (h.mem_iff.1 (List.mem_cons_self ..))
    obtain ⟨L1, L2, rfl⟩ := List.append_of_mem ha
    have hp : (L1 ++ a :: L2).Perm (a :: (L1 ++ L2)) := List.perm_middle
    have h2 : l.Perm ((L1 ++ L2).map f) := by
      have := h.trans (hp.map f)
      rw [List.map_cons] at this
      exact (List.perm_cons _).1 this
    obtain ⟨L', h3, h4⟩ := perm_map_lift f l (L1 ++ L2) h2
    exact ⟨a :: L', (h3.cons a).trans hp.symm, by rw [h4]; rfl⟩

end Verif.Query.Table
