import Verif.Query.TableLemmas
import Verif.Query.SnapTreeCols
import Verif.Query.OrderLemmas
/-!
# C63-C65: the table output
-/
namespace Verif
open Cali Query Query.Fmt Query.Table Util
open Query.Json (AInfo)

namespace Query.Table

/-- the shown columns with their widths -/
def BCfg.shownCols (C : BCfg) (cs : List Col) : List ((Str × Option Nat) × Nat) :=
  (cs.drop C.sort.length).map fun c => ((c.disp, (C.resolve c).attr), colWidth C.maxWidth c.width)

theorem drop_ecols (C : BCfg) (R : Str → Option Nat) (occ : List Nat) : (C.ecols R occ).drop C.sort.length =
    match C.select with
    | some l => l.map fun n => ⟨n, (C.aliases n).getD n, 0, R n, true, none⟩
    | none => (firstOcc (occ.filter C.visible)).map fun a => ⟨((C.info a).map AInfo.name).getD [], C.title a, 0, some a, true, none⟩ := by
  unfold BCfg.ecols
  rw [List.drop_append_of_le_length (by simp)]
  have : C.sort.length = (C.sort.map (fun s => (⟨s.1, s.1, 0, R s.1, false, some s.2⟩ : Col))).length := by simp
  rw [this, List.drop_length, List.nil_append]
  cases C.select <;> rfl

theorem take_ecols (C : BCfg) (R : Str → Option Nat) (occ : List Nat) : (C.ecols R occ).take C.sort.length =
    C.sort.map (fun s => ⟨s.1, s.1, 0, R s.1, false, some s.2⟩) := by
  unfold BCfg.ecols
  rw [List.take_append_of_le_length (by simp)]
  have : C.sort.length = (C.sort.map (fun s => (⟨s.1, s.1, 0, R s.1, false, some s.2⟩ : Col))).length := by simp
  rw [this, List.take_length]

theorem shown_ecols (C : BCfg) (recs : List (List QEnt)) :
    ((C.ecols C.byName (recs.flatMap recAttrs)).drop C.sort.length).map (fun c => (c.disp, c.attr)) = C.shown recs := by
  rw [drop_ecols]
  unfold BCfg.shown
  cases C.select with
  | some l => simp only [List.map_map]; rfl
  | none => simp only [List.map_map]; rfl

/-- facts about the columns after a run -/
theorem build_cols (C : BCfg) (recs : List (List QEnt)) :
    (C.shownCols (C.build recs).cols).map Prod.fst = C.shown recs ∧
    (∀ c ∈ (C.build recs).cols.take C.sort.length, c.print = false) ∧
    (∀ c ∈ (C.build recs).cols.drop C.sort.length, c.print = true) ∧
    ((C.build recs).cols.map C.resolve).map strip = C.ecols C.byName (recs.flatMap recAttrs) := by
  obtain ⟨R, hR, -, hc⟩ := (inv_build C recs).cols
  have h4 : ((C.build recs).cols.map C.resolve).map strip = C.ecols C.byName (recs.flatMap recAttrs) := by
    rw [← resolve_ecols C R hR, ← hc, List.map_map, List.map_map]
    rfl
  refine ⟨?_, ?_, ?_, h4⟩
  · rw [← shown_ecols, ← h4]
    unfold BCfg.shownCols
    simp only [← List.map_drop, List.map_map]
    rfl
  · intro c hm
    have : strip c ∈ (C.ecols R (recs.flatMap recAttrs)).take C.sort.length := by
      rw [← hc, ← List.map_take]; exact List.mem_map_of_mem hm
    rw [take_ecols] at this
    obtain ⟨s, _, e⟩ := List.mem_map.1 this
    have := congrArg Col.print e
    exact this.symm
  · intro c hm
    have : strip c ∈ (C.ecols R (recs.flatMap recAttrs)).drop C.sort.length := by
      rw [← hc, ← List.map_drop]; exact List.mem_map_of_mem hm
    rw [drop_ecols] at this
    cases hs : C.select with
    | some l =>
      rw [hs] at this
      obtain ⟨s, _, e⟩ := List.mem_map.1 this
      exact (congrArg Col.print e).symm
    | none =>
      rw [hs] at this
      obtain ⟨s, _, e⟩ := List.mem_map.1 this
      exact (congrArg Col.print e).symm

theorem ctype_eq (C : BCfg) (c : Col) : C.ctype c = C.typeOf c.attr := by
  unfold BCfg.ctype BCfg.typeOf
  cases c.attr <;> rfl

theorem zip_map_take {α β : Type} (f : α → β) (k : Nat) : ∀ l : List α, l.zip ((l.take k).map f) = (l.take k).map fun c => (c, f c) := by
  intro l
  induction l generalizing k with
  | nil => simp
  | cons a l ih =>
    cases k with
    | zero => simp
    | succ k => rw [List.take_succ_cons, List.map_cons, List.zip_cons_cons, ih, List.map_cons]

/-- one printed line -/
theorem print_line (C : BCfg) (recs : List (List QEnt)) (h0 : recs ≠ []) (x : List QEnt × Nat) (hk : C.sort.length ≤ x.2) :
    ((C.build recs).cols.zip (C.rowOf (C.ecols C.byName (recs.flatMap recAttrs)) x)).flatMap C.printCell ++ [ch '\n'] =
      C.line (C.shownCols (C.build recs).cols) (x.1, x.2 - C.sort.length) := by
  obtain ⟨-, hp1, hp2, h4⟩ := build_cols C recs
  obtain ⟨R, hR, hRb, hc⟩ := (inv_build C recs).cols
  have hR := hRb h0
  subst hR
  have hres : ∀ c ∈ (C.build recs).cols, (C.resolve c).attr = c.attr := by
    intro c hm
    have hm' : strip c ∈ C.ecols C.byName (recs.flatMap recAttrs) := by rw [← hc]; exact List.mem_map_of_mem hm
    have hx : ∀ d ∈ C.ecols C.byName (recs.flatMap recAttrs), (C.resolve d).attr = d.attr := by
      intro d hd
      obtain ⟨i, hi, rfl⟩ := List.getElem_of_mem hd
      have := congrArg (fun l => l[i]?) (resolve_ecols C C.byName (fun _ => .inr rfl) (recs.flatMap recAttrs))
      simp only [List.getElem?_map, List.getElem?_eq_getElem hi, Option.map_some, Option.some.injEq] at this
      rw [this]
    exact hx (strip c) hm'
  have e1 : C.rowOf (C.ecols C.byName (recs.flatMap recAttrs)) x = ((C.build recs).cols.take x.2).map (rowCell C.dbl x.1) := by
    unfold BCfg.rowOf
    rw [← hc, ← List.map_take, List.map_map]; rfl
  rw [e1, zip_map_take]
  unfold BCfg.line BCfg.shownCols
  congr 1
  have e2 : (C.build recs).cols.take x.2 = (C.build recs).cols.take C.sort.length ++ ((C.build recs).cols.drop C.sort.length).take (x.2 - C.sort.length) := by
    conv_lhs => rw [show x.2 = C.sort.length + (x.2 - C.sort.length) by omega, List.take_add]
  rw [e2, List.map_append, List.flatMap_append]
  have e3 : (((C.build recs).cols.take C.sort.length).map fun c => (c, rowCell C.dbl x.1 c)).flatMap C.printCell = [] := by
    rw [List.flatMap_eq_nil_iff]
    intro p hp
    obtain ⟨c, hcm, rfl⟩ := List.mem_map.1 hp
    unfold BCfg.printCell
    rw [if_neg (by simp [hp1 c hcm])]
  rw [e3, List.nil_append, ← List.map_take, List.flatMap_map, List.flatMap_map]
  apply List.flatMap_congr
  intro c hcm
  have hcm1 := List.mem_of_mem_take hcm
  have hcm2 := List.mem_of_mem_drop hcm1
  unfold BCfg.printCell
  simp only [hp2 c hcm1, if_true, hres c hcm2, rowCell_eq, ctype_eq]
  rw [show alignRight (C.typeOf c.attr) = C.numeric c.attr from rfl]
  cases C.numeric c.attr with
  | true => rw [if_pos rfl, Tree.padLeft_field (clampStr_length _ _)]
  | false => rw [if_neg (by simp), Tree.padRight_field (clampStr_length _ _)]

theorem print_head (C : BCfg) (recs : List (List QEnt)) :
    (C.build recs).cols.flatMap C.headCell ++ [ch '\n'] = titleLine (C.shownCols (C.build recs).cols) := by
  obtain ⟨-, hp1, hp2, -⟩ := build_cols C recs
  unfold titleLine BCfg.shownCols
  congr 1
  conv_lhs => rw [← List.take_append_drop C.sort.length (C.build recs).cols, List.flatMap_append]
  have e3 : ((C.build recs).cols.take C.sort.length).flatMap C.headCell = [] := by
    rw [List.flatMap_eq_nil_iff]
    intro c hc
    unfold BCfg.headCell
    rw [if_neg (by simp [hp1 c hc])]
  rw [e3, List.nil_append, List.flatMap_map]
  apply List.flatMap_congr
  intro c hc
  unfold BCfg.headCell
  rw [if_pos (hp2 c hc), Tree.padRight_field (clampStr_length _ _)]

/-- a record is shown if it has a value in a column -/
theorem any_hasValue (C : BCfg) (recs : List (List QEnt)) (r : List QEnt) :
    ((C.ecols C.byName (recs.flatMap recAttrs)).any fun c => rowCell C.dbl r c ≠ []) = C.hasValue recs r := by
  unfold BCfg.hasValue
  rw [← shown_ecols]
  conv_lhs => rw [← List.take_append_drop C.sort.length (C.ecols C.byName (recs.flatMap recAttrs)), List.any_append, take_ecols]
  rw [List.any_map, List.any_map, List.any_map]
  congr 1
  · congr 1; funext s; simp only [Function.comp_apply, rowCell_eq]
  · congr 1; funext c; simp only [Function.comp_apply, rowCell_eq]

/-- the sort keys of a run, on rows -/
theorem sortKeys_eq (C : BCfg) (recs : List (List QEnt)) (h0 : recs ≠ []) : C.sortKeys 0 (C.build recs).cols =
    C.sort.zipIdx.map fun k => C.rowLt k.2 (C.typeOf (C.byName k.1.1)) k.1.2 := by
  obtain ⟨R, hR, hRb, hc⟩ := (inv_build C recs).cols
  have hR := hRb h0
  subst hR
  have h1 : ∀ (i : Nat) (cs : List Col), C.sortKeys i (cs.map strip) = C.sortKeys i cs := by
    intro i cs
    induction cs generalizing i with
    | nil => rfl
    | cons c cs ih => simp only [List.map_cons, BCfg.sortKeys, ih]; rfl
  have h2 : ∀ (i : Nat) (l : List (Str × Bool)) (rest : List Col), (∀ c ∈ rest, c.order = none) →
      C.sortKeys i (l.map (fun s => (⟨s.1, s.1, 0, C.byName s.1, false, some s.2⟩ : Col)) ++ rest) =
        (l.zipIdx i).map fun k => C.rowLt k.2 (C.typeOf (C.byName k.1.1)) k.1.2 := by
    intro i l rest hrest
    induction l generalizing i with
    | nil =>
      simp only [List.map_nil, List.nil_append, List.zipIdx_nil]
      induction rest generalizing i with
      | nil => rfl
      | cons c cs ih =>
        have := hrest c (List.mem_cons_self ..)
        rw [BCfg.sortKeys, this, ih fun d hd => hrest d (List.mem_cons_of_mem _ hd)]
        rfl
    | cons a l ih =>
      rw [List.map_cons, List.cons_append, BCfg.sortKeys, ih, List.zipIdx_cons, List.map_cons, ctype_eq]
      rfl
  rw [← h1, hc]
  unfold BCfg.ecols
  rw [h2]
  intro c hm
  cases hs : C.select with
  | some l => rw [hs] at hm; obtain ⟨n, _, rfl⟩ := List.mem_map.1 hm; rfl
  | none => rw [hs] at hm; obtain ⟨n, _, rfl⟩ := List.mem_map.1 hm; rfl

/-- comparison of two rows is comparison of the sort values of their records -/
theorem rowLt_rowOf (C : BCfg) (recs : List (List QEnt)) (i : Nat) (k : Str × Bool) (hk : C.sort[i]? = some k) (x y : List QEnt × Nat)
    (hx : C.sort.length ≤ x.2) (hy : C.sort.length ≤ y.2)
    (hconv : Tree.vgt C.dcmp (C.sortVal k.1 x.1) (C.sortVal k.1 y.1) = Tree.vlt C.dcmp (C.sortVal k.1 y.1) (C.sortVal k.1 x.1)) :
    C.rowLt i (C.typeOf (C.byName k.1)) k.2 (C.rowOf (C.ecols C.byName (recs.flatMap recAttrs)) x) (C.rowOf (C.ecols C.byName (recs.flatMap recAttrs)) y) =
      Tree.keyLt C.dcmp k.2 (C.sortVal k.1 x.1) (C.sortVal k.1 y.1) := by
  have hi : i < C.sort.length := (List.getElem?_eq_some_iff.1 hk).1
  have hcell : ∀ z : List QEnt × Nat, C.sort.length ≤ z.2 →
      (C.rowOf (C.ecols C.byName (recs.flatMap recAttrs)) z)[i]? = some (valueText C.dbl z.1 (C.byName k.1)) := by
    intro z hz
    unfold BCfg.rowOf BCfg.ecols
    rw [List.getElem?_map, List.getElem?_take_of_lt (by omega), List.getElem?_append_left (by simpa using hi), List.getElem?_map, hk]
    simp only [Option.map_some, rowCell_eq]
  unfold BCfg.rowLt
  simp only [hcell x hx, hcell y hy]
  unfold Tree.keyLt
  cases k.2 with
  | true => rfl
  | false =>
    simp only [Bool.false_eq_true, if_false]
    rw [← hconv]; rfl

end Query.Table

/-- **C65.** The table has a title line and one line per record that has a value in a column; every other record is left out and none is shown twice.
Columns: the selected attributes, or all visible attributes in order of first occurrence.  Each line shows the record's values in these columns;
trailing columns may be left out where the record has no value.  Without `ORDER BY` the lines are in input order.
All cells of a column have the same width: the text (cut if it is longer than the column), blanks, and one separating blank; the width of a column is
enough for every value and the title, unless that exceeds the maximum set by the user. -/
theorem C65_table_output (C : BCfg) (S : Sorter) (recs : List (List QEnt)) :
    ∃ (cols : List ((Str × Option Nat) × Nat)) (lines : List (List QEnt × Nat)),
      C.flush S (C.build recs) = titleLine cols ++ lines.flatMap (C.line cols) ∧
      cols.map Prod.fst = C.shown recs ∧
      (lines.map Prod.fst).Perm (recs.filter (C.hasValue recs)) ∧
      (C.sort = [] → lines.map Prod.fst = recs.filter (C.hasValue recs)) ∧
      (∀ x ∈ lines, ∀ c ∈ cols.drop x.2, valueText C.dbl x.1 c.1.2 = []) ∧
      (∀ c ∈ cols, 4 ≤ c.2 ∧ (C.maxWidth = 0 ∨ c.1.1.length ≤ C.maxWidth → c.1.1.length ≤ c.2) ∧
        (∀ r ∈ recs, C.maxWidth = 0 ∨ (valueText C.dbl r c.1.2).length ≤ C.maxWidth → (valueText C.dbl r c.1.2).length ≤ c.2) ∧
        (C.maxWidth ≠ 0 → c.2 ≤ max C.maxWidth 4)) := by
  have hinv := inv_build C recs
  obtain ⟨L, hL1, hL2, hL3⟩ := hinv.rows
  obtain ⟨hb1, hp1, hp2, h4⟩ := build_cols C recs
  have hperm := sortAll_perm S (C.sortKeys 0 (C.build recs).cols) (C.build recs).rows
  obtain ⟨L', hL', hmap⟩ : ∃ L' : List (List QEnt × Nat), L'.Perm L ∧
      sortAll S (C.sortKeys 0 (C.build recs).cols) (C.build recs).rows = L'.map (C.rowOf (C.ecols C.byName (recs.flatMap recAttrs))) ∧
      (C.sort = [] → L' = L) := by
    by_cases hs : C.sort = []
    · refine ⟨L, List.Perm.refl _, ?_, fun _ => rfl⟩
      have : C.sortKeys 0 (C.build recs).cols = [] ∨ recs = [] := by
        by_cases h0 : recs = []
        · exact .inr h0
        · left; rw [sortKeys_eq C recs h0, hs]; rfl
      rcases this with h | h
      · rw [h, ← hL1]; rfl
      · have hrows : (C.build recs).rows = [] := by subst h; rfl
        rw [← hL1, hrows]
        have := sortAll_perm S (C.sortKeys 0 (C.build recs).cols) ([] : List (List Str))
        exact this.eq_nil
    · obtain ⟨L', h1, h2⟩ := perm_map_lift _ _ _ (hperm.trans (by rw [hL1]))
      exact ⟨L', h1, h2, fun h => absurd h hs⟩
  have hshown : ∀ x ∈ L', C.sort.length ≤ x.2 ∧ ∀ c ∈ (C.ecols C.byName (recs.flatMap recAttrs)).drop x.2, rowCell C.dbl x.1 c = [] :=
    fun x hx => hL3 x (hL'.mem_iff.1 hx)
  have hrecs : ∀ x ∈ L', recs ≠ [] := by
    intro x hx h
    have : x.1 ∈ L.map Prod.fst := List.mem_map_of_mem (hL'.mem_iff.1 hx)
    rw [hL2, h] at this
    simp at this
  have hfilt : recs.filter (fun r => (C.ecols C.byName (recs.flatMap recAttrs)).any fun c => rowCell C.dbl r c ≠ []) = recs.filter (C.hasValue recs) :=
    List.filter_congr fun r _ => any_hasValue C recs r
  refine ⟨C.shownCols (C.build recs).cols, L'.map fun x => (x.1, x.2 - C.sort.length), ?_, hb1, ?_, ?_, ?_, ?_⟩
  · unfold BCfg.flush
    rw [← print_head, hmap.1, List.append_assoc, List.flatMap_map, List.flatMap_map]
    congr 1
    show ch '\n' :: _ = ch '\n' :: _
    congr 1
    apply List.flatMap_congr
    intro x hx
    exact print_line C recs (hrecs x hx) x (hshown x hx).1
  · rw [List.map_map, ← hfilt, ← hL2]
    exact hL'.map Prod.fst
  · intro hs
    rw [List.map_map, ← hfilt, ← hL2, hmap.2 hs]
    rfl
  · intro x hx c hc
    obtain ⟨y, hy, rfl⟩ := List.mem_map.1 hx
    obtain ⟨h1, h2⟩ := hshown y hy
    simp only at hc ⊢
    unfold BCfg.shownCols at hc
    rw [← List.map_drop, List.drop_drop, show C.sort.length + (y.2 - C.sort.length) = y.2 by omega] at hc
    obtain ⟨d, hd, rfl⟩ := List.mem_map.1 hc
    have := h2 (strip (C.resolve d)) (by rw [← h4, ← List.map_drop, ← List.map_drop, List.map_map]; exact List.mem_map_of_mem (f := strip ∘ C.resolve) hd)
    rw [rowCell_eq] at this
    exact this
  · intro c hc
    unfold BCfg.shownCols at hc
    obtain ⟨d, hd, rfl⟩ := List.mem_map.1 hc
    obtain ⟨w1, w2⟩ := hinv.width d (List.mem_of_mem_drop hd)
    refine ⟨colWidth_ge _ _, fun h => colWidth_fit w1 h, fun r hr h => colWidth_fit ?_ h, fun h => ?_⟩
    · have := w2 r hr
      rw [rowCell_eq] at this
      exact this
    · simp only [colWidth]
      split <;> omega

/-- **C63 for the table.** With `ORDER BY`, if the values of every sort attribute are ordered consistently, the lines of the table are sorted: by the last
sort attribute, where that leaves records equivalent by the one before it, and so on, each ascending or descending as requested; records equivalent under
all keys keep the order of the input (their lines appear in the same sequence). -/
theorem C63_table_partial (C : BCfg) (S : Sorter) (recs : List (List QEnt))
    (ho : ∀ k ∈ C.sort, Tree.GoodOrder C.dcmp (recs.map (C.sortVal k.1))) :
    ∃ (cols : List ((Str × Option Nat) × Nat)) (lines unsorted : List (List QEnt × Nat)),
      C.flush S (C.build recs) = titleLine cols ++ lines.flatMap (C.line cols) ∧
      cols.map Prod.fst = C.shown recs ∧
      unsorted.map Prod.fst = recs.filter (C.hasValue recs) ∧ lines.Perm unsorted ∧
      (lines.map Prod.fst).Pairwise (LexLe C.keys) ∧
      ∀ r ∈ recs.filter (C.hasValue recs), (lines.filter fun x => eqvAll C.keys r x.1).map (C.line cols) =
        (unsorted.filter fun x => eqvAll C.keys r x.1).map (C.line cols) := by
  have hinv := inv_build C recs
  obtain ⟨L, hL1, hL2, hL3⟩ := hinv.rows
  obtain ⟨hb1, hp1, hp2, h4⟩ := build_cols C recs
  have hperm := sortAll_perm S (C.sortKeys 0 (C.build recs).cols) (C.build recs).rows
  obtain ⟨L', hL', hmap⟩ := perm_map_lift _ _ _ (hperm.trans (by rw [hL1]))
  have hmem : ∀ x ∈ L', x.1 ∈ recs := by
    intro x hx
    have : x.1 ∈ L.map Prod.fst := List.mem_map_of_mem (hL'.mem_iff.1 hx)
    rw [hL2] at this
    exact (List.mem_filter.1 this).1
  have hshown : ∀ x ∈ L', C.sort.length ≤ x.2 := fun x hx => (hL3 x (hL'.mem_iff.1 hx)).1
  have hfilt : recs.filter (fun r => (C.ecols C.byName (recs.flatMap recAttrs)).any fun c => rowCell C.dbl r c ≠ []) = recs.filter (C.hasValue recs) :=
    List.filter_congr fun r _ => any_hasValue C recs r
  have hline : ∀ x ∈ L', ((C.build recs).cols.zip (C.rowOf (C.ecols C.byName (recs.flatMap recAttrs)) x)).flatMap C.printCell ++ [ch '\n'] =
      C.line (C.shownCols (C.build recs).cols) (x.1, x.2 - C.sort.length) :=
    fun x hx => print_line C recs (List.ne_nil_of_mem (hmem x hx)) x (hshown x hx)
  refine ⟨C.shownCols (C.build recs).cols, L'.map fun x => (x.1, x.2 - C.sort.length), L.map fun x => (x.1, x.2 - C.sort.length), ?_, hb1, ?_, hL'.map _, ?_⟩
  · unfold BCfg.flush
    rw [← print_head, hmap, List.append_assoc, List.flatMap_map, List.flatMap_map]
    congr 1
    show ch '\n' :: _ = ch '\n' :: _
    congr 1
    exact List.flatMap_congr fun x hx => hline x hx
  · rw [List.map_map, ← hfilt, ← hL2]
    rfl
  · by_cases h0 : recs = []
    · have : L' = [] := by
        rw [List.eq_nil_iff_forall_not_mem]
        intro x hx
        exact absurd (hmem x hx) (by simp [h0])
      rw [this]; exact ⟨List.Pairwise.nil, by simp [h0]⟩
    have hcmp : ∀ i k, C.sort[i]? = some k → ∀ x ∈ L', ∀ y ∈ L',
        C.rowLt i (C.typeOf (C.byName k.1)) k.2 (C.rowOf (C.ecols C.byName (recs.flatMap recAttrs)) x)
          (C.rowOf (C.ecols C.byName (recs.flatMap recAttrs)) y) = Tree.keyLt C.dcmp k.2 (C.sortVal k.1 x.1) (C.sortVal k.1 y.1) := by
      intro i k hk x hx y hy
      refine rowLt_rowOf C recs i k hk x y (hshown x hx) (hshown y hy) ?_
      exact (ho k (List.mem_of_getElem? hk)).conv _ (List.mem_map_of_mem (hmem x hx)) _ (List.mem_map_of_mem (hmem y hy))
    have hswo : ∀ lt ∈ C.sortKeys 0 (C.build recs).cols, SWO lt (C.build recs).rows := by
      intro lt hlt
      rw [sortKeys_eq C recs h0] at hlt
      obtain ⟨⟨k, i⟩, hki, rfl⟩ := List.mem_map.1 hlt
      have hk : C.sort[i]? = some k := by
        have := List.mk_mem_zipIdx_iff_getElem?.1 hki
        exact this
      have hg := (ho k (List.mem_of_getElem? hk)).swo
      have hL'2 : SWO (fun x y : List QEnt × Nat => Tree.keyLt C.dcmp k.2 (C.sortVal k.1 x.1) (C.sortVal k.1 y.1)) L' := by
        have hb : SWO (Tree.vlt C.dcmp) (L'.map fun x => C.sortVal k.1 x.1) := hg.mono fun v hv => by
          obtain ⟨x, hx, rfl⟩ := List.mem_map.1 hv
          exact List.mem_map_of_mem (hmem x hx)
        cases hk2 : k.2 with
        | true => exact hb.comap (fun x : List QEnt × Nat => C.sortVal k.1 x.1)
        | false => exact (hb.comap (fun x : List QEnt × Nat => C.sortVal k.1 x.1)).flip
      have hrows : ∀ row ∈ (C.build recs).rows, ∃ x ∈ L', row = C.rowOf (C.ecols C.byName (recs.flatMap recAttrs)) x := by
        intro row hrow
        rw [hL1] at hrow
        obtain ⟨x, hx, rfl⟩ := List.mem_map.1 hrow
        exact ⟨x, hL'.mem_iff.2 hx, rfl⟩
      refine ⟨?_, ?_, ?_⟩
      · intro a ha
        obtain ⟨x, hx, rfl⟩ := hrows a ha
        show C.rowLt i _ _ _ _ = _
        rw [hcmp i k hk x hx x hx]
        exact hL'2.irrefl x hx
      · intro a ha b hb c hc
        obtain ⟨x, hx, rfl⟩ := hrows a ha
        obtain ⟨y, hy, rfl⟩ := hrows b hb
        obtain ⟨z, hz, rfl⟩ := hrows c hc
        show C.rowLt i _ _ _ _ = _ → C.rowLt i _ _ _ _ = _ → C.rowLt i _ _ _ _ = _
        rw [hcmp i k hk x hx y hy, hcmp i k hk y hy z hz, hcmp i k hk x hx z hz]
        exact hL'2.trans x hx y hy z hz
      · intro a ha b hb c hc
        obtain ⟨x, hx, rfl⟩ := hrows a ha
        obtain ⟨y, hy, rfl⟩ := hrows b hb
        obtain ⟨z, hz, rfl⟩ := hrows c hc
        show C.rowLt i _ _ _ _ = _ → C.rowLt i _ _ _ _ = _ → C.rowLt i _ _ _ _ = _ → C.rowLt i _ _ _ _ = _ → C.rowLt i _ _ _ _ = _ ∧ C.rowLt i _ _ _ _ = _
        rw [hcmp i k hk x hx y hy, hcmp i k hk y hy x hx, hcmp i k hk y hy z hz, hcmp i k hk z hz y hy, hcmp i k hk x hx z hz, hcmp i k hk z hz x hx]
        exact hL'2.incomp x hx y hy z hz
    obtain ⟨hsort, hstab⟩ := sortAll_spec S _ _ hswo
    have hks : ∀ k ∈ C.sort.zipIdx, C.sort[k.2]? = some k.1 := fun k hk => List.mk_mem_zipIdx_iff_getElem?.1 hk
    refine ⟨?_, ?_⟩
    · rw [hmap, List.pairwise_map, sortKeys_eq C recs h0] at hsort
      rw [List.map_map, List.pairwise_map]
      refine List.Pairwise.imp_of_mem ?_ hsort
      intro x y hx hy hxy
      unfold BCfg.keys
      show LexLe _ x.1 y.1
      have hgen : ∀ (ks : List ((Str × Bool) × Nat)), (∀ k ∈ ks, C.sort[k.2]? = some k.1) →
          LexLe (ks.map fun k => C.rowLt k.2 (C.typeOf (C.byName k.1.1)) k.1.2) (C.rowOf (C.ecols C.byName (recs.flatMap recAttrs)) x)
            (C.rowOf (C.ecols C.byName (recs.flatMap recAttrs)) y) →
          LexLe ((ks.map Prod.fst).map fun k r r' => Tree.keyLt C.dcmp k.2 (C.sortVal k.1 r) (C.sortVal k.1 r')) x.1 y.1 := by
        intro ks
        induction ks with
        | nil => intro _ _; trivial
        | cons k ks ih =>
          intro hks h
          have hk := hks k (List.mem_cons_self ..)
          rw [List.map_cons] at h
          rcases h with h | ⟨h1, h2⟩
          · left; rw [hcmp _ _ hk x hx y hy] at h; exact h
          · right
            rw [hcmp _ _ hk y hy x hx] at h1
            exact ⟨h1, ih (fun k' hk' => hks k' (List.mem_cons_of_mem _ hk')) h2⟩
      have := hgen C.sort.zipIdx.reverse (fun k hk => hks k (List.mem_reverse.1 hk)) (by rw [List.map_reverse]; exact hxy)
      rw [List.map_reverse, List.zipIdx_map_fst] at this
      exact this
    · intro r hr
      rw [← hfilt, ← hL2] at hr
      obtain ⟨x, hx, rfl⟩ := List.mem_map.1 hr
      have hx' := hL'.mem_iff.2 hx
      have heqv : ∀ y ∈ L', eqvAll (C.sortKeys 0 (C.build recs).cols) (C.rowOf (C.ecols C.byName (recs.flatMap recAttrs)) x)
          (C.rowOf (C.ecols C.byName (recs.flatMap recAttrs)) y) = eqvAll C.keys x.1 y.1 := by
        intro y hy
        have hgen : ∀ (ks : List ((Str × Bool) × Nat)), (∀ k ∈ ks, C.sort[k.2]? = some k.1) →
            eqvAll (ks.map fun k => C.rowLt k.2 (C.typeOf (C.byName k.1.1)) k.1.2) (C.rowOf (C.ecols C.byName (recs.flatMap recAttrs)) x)
              (C.rowOf (C.ecols C.byName (recs.flatMap recAttrs)) y) =
            eqvAll ((ks.map Prod.fst).map fun k r r' => Tree.keyLt C.dcmp k.2 (C.sortVal k.1 r) (C.sortVal k.1 r')) x.1 y.1 := by
          intro ks hks
          unfold eqvAll
          rw [List.map_map, List.all_map, List.all_map]
          rw [Bool.eq_iff_iff, List.all_eq_true, List.all_eq_true]
          refine forall₂_congr fun k hk => ?_
          simp only [Function.comp_apply, eqv]
          rw [hcmp _ _ (hks k hk) x hx' y hy, hcmp _ _ (hks k hk) y hy x hx']
        rw [sortKeys_eq C recs h0, hgen C.sort.zipIdx hks, List.zipIdx_map_fst]
        unfold BCfg.keys eqvAll
        rw [List.map_reverse, List.all_reverse]
      have h1 := hstab _ (show C.rowOf (C.ecols C.byName (recs.flatMap recAttrs)) x ∈ (C.build recs).rows by rw [hL1]; exact List.mem_map_of_mem hx)
      rw [hmap] at h1
      conv at h1 => rhs; rw [hL1]
      rw [List.filter_map, List.filter_map] at h1
      have hf : ∀ M : List (List QEnt × Nat), (∀ y ∈ M, y ∈ L') →
          ((M.map fun x => (x.1, x.2 - C.sort.length)).filter fun y => eqvAll C.keys x.1 y.1).map (C.line (C.shownCols (C.build recs).cols)) =
          ((M.filter (eqvAll (C.sortKeys 0 (C.build recs).cols) (C.rowOf (C.ecols C.byName (recs.flatMap recAttrs)) x) ∘
            C.rowOf (C.ecols C.byName (recs.flatMap recAttrs)))).map (C.rowOf (C.ecols C.byName (recs.flatMap recAttrs)))).map
              (fun row => ((C.build recs).cols.zip row).flatMap C.printCell ++ [ch '\n']) := by
        intro M hM
        rw [List.filter_map, List.map_map, List.map_map]
        have : M.filter ((fun y : List QEnt × Nat => eqvAll C.keys x.1 y.1) ∘ fun x => (x.1, x.2 - C.sort.length)) =
            M.filter (eqvAll (C.sortKeys 0 (C.build recs).cols) (C.rowOf (C.ecols C.byName (recs.flatMap recAttrs)) x) ∘
            C.rowOf (C.ecols C.byName (recs.flatMap recAttrs))) := by
          apply List.filter_congr
          intro y hy
          simp only [Function.comp_apply]
          rw [heqv y (hM y hy)]
        rw [this]
        apply List.map_congr_left
        intro y hy
        exact (hline y (hM y (List.mem_filter.1 hy).1)).symm
      rw [hf L' (fun y hy => hy), hf L (fun y hy => hL'.mem_iff.2 hy), h1]

/-- **C64.** A text is cut only if it is longer than its column: then its beginning and its end are shown with `~~` in between, and the result is no longer than
the column. -/
theorem C64_cut (s : Str) (w : Nat) : (s.length ≤ w → clampStr s w = s) ∧ (clampStr s w).length ≤ w ∧
    (w < s.length → 4 ≤ w → ∃ a b, clampStr s w = a ++ (str "~~" ++ b) ∧ a <+: s ∧ b <:+ s ∧ a.length = w / 2 - 1 ∧ b.length = w / 2 - 1) := by
  refine ⟨clampStr_id, clampStr_length s w, fun h1 h2 => ?_⟩
  refine ⟨s.take (w / 2 - 1), s.drop (s.length - (w / 2 - 1)), ?_, List.take_prefix .., List.drop_suffix .., ?_, ?_⟩
  · unfold clampStr
    rw [if_neg (by omega), if_neg (by omega)]
  · rw [List.length_take]; omega
  · rw [List.length_drop]; omega

namespace Query.Table.Demo

/-- attributes: 1 is `region` (nested), 2 is `time` (unsigned), 3 is `count` (signed) and 4 is `secret` (hidden) -/
def info : Nat → Option AInfo
  | 1 => some ⟨str "region", .string, false, false, true⟩
  | 2 => some ⟨str "time", .uint, false, false, false⟩
  | 3 => some ⟨str "count", .int, false, false, false⟩
  | 4 => some ⟨str "secret", .uint, true, false, false⟩
  | _ => none

def byName (n : Str) : Option Nat := if n = str "region" then some 1 else if n = str "time" then some 2 else if n = str "count" then some 3 else none

def cfg (sel : Option (List Str)) (sort : List (Str × Bool)) : BCfg :=
  ⟨info, byName, fun n => if n = str "time" then some (str "Time (us)") else none, fun _ => none, 60, ⟨fun _ => [], fun _ => [], fun _ => none⟩, fun _ _ => 0,
    sel, sort⟩

/-- a reference to the region stack, innermost first -/
def at_ (rs : List String) : QEnt := .ref (rs.map fun r => (1, Val.string (str r)))
def time (n : Nat) : QEnt := .imm 2 (.uint (BitVec.ofNat 64 n))
def count (n : Int) : QEnt := .imm 3 (.int (BitVec.ofInt 64 n))
def secret (n : Nat) : QEnt := .imm 4 (.uint (BitVec.ofNat 64 n))

def recs : List (List QEnt) :=
  [[at_ ["main"], time 10], [at_ ["foo", "main"], time 7], [secret 42], [time 99, count 5], [at_ ["bar", "main"], time 7]]

/-- the table -/
theorem print : (cfg none []).flush insertionSorter ((cfg none []).build recs) =
    str "region   Time (us) count \n" ++ str "main            10 \n" ++ str "main/foo         7 \n" ++ str "                99     5 \n" ++
      str "main/bar         7       \n" := by
  decide +kernel

/-- sorted by `time`; equal times in input order -/
theorem print_sorted : (cfg none [(str "time", true)]).flush insertionSorter ((cfg none [(str "time", true)]).build recs) =
    str "region   Time (us) count \n" ++ str "main/foo         7 \n" ++ str "main/bar         7       \n" ++ str "main            10 \n" ++
      str "                99     5 \n" := by
  decide +kernel

end Query.Table.Demo

open Query.Table.Demo in
/-- the hypothesis of `C63_table_partial` holds for the run above, although one record lacks the attribute -/
example : ∀ k ∈ (cfg none [(str "time", true)]).sort,
    Tree.GoodOrder (cfg none [(str "time", true)]).dcmp (recs.map ((cfg none [(str "time", true)]).sortVal k.1)) := by
  intro k hk
  simp only [cfg, List.mem_singleton] at hk
  subst hk
  apply Tree.goodOrder_missing
  apply Tree.goodOrder_uint
  intro v hv
  have : ∀ v ∈ (recs.map ((cfg none [(str "time", true)]).sortVal (str "time"))).filter (fun v => v ≠ .inv),
      (match v with | .uint _ => true | _ => false) = true := by decide +kernel
  have h := this v hv
  revert h
  cases v <;> simp

open Query.Table.Demo in
/-- **C63 violated.** Signed values 2^31 or more apart are compared modulo 2^32: ordered by `count`, ascending, the row with 3000000000 comes before the row
with 0. -/
theorem C63_violation_table :
    (cfg none [(str "count", true)]).flush insertionSorter ((cfg none [(str "count", true)]).build [[at_ ["zero"], count 0], [at_ ["many"], count 3000000000]]) =
      str "region count      \n" ++ str "many   3000000000 \n" ++ str "zero            0 \n" := by
  decide +kernel

end Verif
