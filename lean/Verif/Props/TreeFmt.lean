import Verif.Query.SnapTreeCols
import Verif.Query.SnapTreeOrder
import Verif.Query.OrderLemmas
/-!
# C62-C64: the tree output
-/
namespace Verif
open Cali Query Query.Fmt Query.Tree Util
open Query.Json (AInfo)

namespace Query.Tree

/-- the records of a run that have a path -/
def pathRecs (C : TCfg) (recs : List (List QEnt)) : List (List Lbl × Rec) :=
  (recs.filter fun r => recPath C r ≠ []).map fun r => (recPath C r, recData C r)

theorem build_perm (C : TCfg) (recs : List (List QEnt)) : (entriesL [] (C.build recs).kids).Perm (pathRecs C recs) :=
  perm_of_filters (build_holds C recs).recs

theorem flush_text (C : TCfg) (S : Sorter) (recs : List (List QEnt)) :
    C.flush S (C.build recs) = C.header (C.build recs) ++
      (rowsL 0 (sortTop S C.dcmp C.sort (C.build recs).kids)).flatMap
        (C.renderRow (C.build recs).cols (C.pathWidth (C.build recs)) (C.attrs (C.build recs).cols)) := by
  unfold TCfg.flush TCfg.header
  simp only
  rw [printKids_rows]
  simp

theorem build_level (C : TCfg) (recs : List (List QEnt)) : Level (pathRecs C recs) [] (C.build recs).kids := by
  have h := build_holds C recs
  have hp := build_perm C recs
  refine ⟨h.nodup, h.wf, fullL_of_paths [] _ h.nodup h.wf ?_, ?_⟩
  · intro q hq
    obtain ⟨h0, r, hr, hpre⟩ := (h.paths q).1 hq
    have hne : recPath C r ≠ [] := fun e => by rw [e, List.prefix_nil] at hpre; exact h0 hpre
    exact ⟨(recPath C r, recData C r), hp.mem_iff.2 (List.mem_map.2 ⟨r, List.mem_filter.2 ⟨hr, by simpa using hne⟩, rfl⟩), hpre⟩
  · intro e
    rw [hp.mem_iff]
    constructor
    · intro he
      refine ⟨he, List.nil_prefix, ?_⟩
      obtain ⟨r, hr, rfl⟩ := List.mem_map.1 he
      simpa using (List.mem_filter.1 hr).2
    · exact fun he => he.1

end Query.Tree

/-- **C62.** The tree output is a header and a list of lines.  Read top to bottom - a label at indentation level `n` replaces the current path
from level `n` on - the lines show exactly the records that have a path, each once, with its path and its data; every region path that occurs
(every non-empty prefix of a record's path) has exactly one labelled line, at the level of its depth, and no other path has one.  Without
`ORDER BY` the records of a path are in input order. -/
theorem C62_tree_output (C : TCfg) (S : Sorter) (recs : List (List QEnt)) :
    ∃ rows : List TRow,
      C.flush S (C.build recs) = C.header (C.build recs) ++ rows.flatMap
        (C.renderRow (C.build recs).cols (C.pathWidth (C.build recs)) (C.attrs (C.build recs).cols)) ∧
      (readRows [] rows).Perm ((recs.filter fun r => recPath C r ≠ []).map fun r => (recPath C r, recData C r)) ∧
      (readPaths [] rows).Nodup ∧
      (∀ q, q ∈ readPaths [] rows ↔ q ≠ [] ∧ ∃ r ∈ recs, q <+: recPath C r) ∧
      labelLevels rows = (readPaths [] rows).map (fun q => q.length - 1) ∧
      (C.sort = [] → ∀ q, ((readRows [] rows).filter fun e => e.1 = q).map Prod.snd =
        (recs.filter fun r => recPath C r ≠ [] ∧ recPath C r = q).map (recData C)) := by
  have h := build_holds C recs
  obtain ⟨r1, r2⟩ := readRows_rowsL (sortTop S C.dcmp C.sort (C.build recs).kids)
  obtain ⟨p1, p2⟩ := sortTop_perm S C.dcmp C.sort [] (C.build recs).kids
  refine ⟨rowsL 0 (sortTop S C.dcmp C.sort (C.build recs).kids), flush_text C S recs, ?_, ?_, ?_, ?_, ?_⟩
  · rw [r1]; exact p1.trans (build_perm C recs)
  · rw [r2, p2.nodup_iff]; exact pathsL_nodup [] _ h.nodup h.wf
  · intro q; rw [r2, p2.mem_iff]; exact h.paths q
  · rw [r2]; exact rowsL_levels [] _
  · intro hs q
    have e : sortTop S C.dcmp C.sort (C.build recs).kids = (C.build recs).kids := by
      have := sortT_nil S C.dcmp (.mk (0, .inv) [] (C.build recs).kids)
      rw [sortT] at this
      rw [hs]; unfold sortTop
      injection this
    rw [r1, e, h.recs q]
    rw [List.filter_map, List.map_map, List.filter_filter]
    have e2 : (recs.filter fun a => ((fun e : List Lbl × Rec => decide (e.1 = q)) ∘ fun r => (recPath C r, recData C r)) a && decide (recPath C a ≠ [])) =
        recs.filter fun r => decide (recPath C r ≠ [] ∧ recPath C r = q) := by
      refine List.filter_congr fun x _ => ?_
      simp only [Function.comp, ne_eq, decide_not, Bool.decide_and]
      exact Bool.and_comm _ _
    rw [e2]
    rfl

/-- **C63 (tree).** With `ORDER BY k1, ..., kn`, if every record with a path has a value for every key and values are compared by a strict weak
order, lines of regions with the same parent are ordered by the smallest (`ASC`) or largest (`DESC`) value of the last key among the records
at or below the region, ties by the key before it, and so on; and the records shown for one region are ordered in the same way.
The text shown is the one of `C62_tree_output`. -/
theorem C63_tree_partial (C : TCfg) (S : Sorter) (recs : List (List QEnt)) (m : Nat × Bool → List Lbl → Val)
    (hv : ∀ k ∈ C.sort, ∀ r ∈ recs, recPath C r ≠ [] → dataVal k.1 (recData C r) ≠ .inv)
    (ho : ∀ k ∈ C.sort, GoodOrder C.dcmp ((recs.filter fun r => recPath C r ≠ []).map fun r => dataVal k.1 (recData C r)))
    (hm : ∀ k ∈ C.sort, ∀ p, p ≠ [] → (∃ r ∈ recs, p <+: recPath C r) → IsExt C.dcmp k.2 (valuesUnder C recs k.1 p) (m k p)) :
    ∃ rows : List TRow,
      C.flush S (C.build recs) = C.header (C.build recs) ++ rows.flatMap
        (C.renderRow (C.build recs).cols (C.pathWidth (C.build recs)) (C.attrs (C.build recs).cols)) ∧
      (readRows [] rows).Perm ((recs.filter fun r => recPath C r ≠ []).map fun r => (recPath C r, recData C r)) ∧
      (readPaths [] rows).Pairwise (fun p q => Siblings p q → LexLe (pathKeys C.dcmp C.sort m) p q) ∧
      (readRows [] rows).Pairwise (fun e f => e.1 = f.1 → LexLe (recKeys C.dcmp C.sort) e.2 f.2) := by
  have h := build_holds C recs
  have hl := build_level C recs
  obtain ⟨r1, r2⟩ := readRows_rowsL (sortTop S C.dcmp C.sort (C.build recs).kids)
  obtain ⟨p1, p2⟩ := sortTop_perm S C.dcmp C.sort [] (C.build recs).kids
  let V : Nat × Bool → List Val := fun k => (recs.filter fun r => recPath C r ≠ []).map fun r => dataVal k.1 (recData C r)
  have hvals : ∀ k ∈ C.sort, ∀ e ∈ pathRecs C recs, dataVal k.1 e.2 ∈ V k ∧ dataVal k.1 e.2 ≠ .inv := by
    intro k hk e he
    obtain ⟨r, hr, rfl⟩ := List.mem_map.1 he
    have hr' := List.mem_filter.1 hr
    exact ⟨List.mem_map.2 ⟨r, hr, rfl⟩, hv k hk r hr'.1 (by simpa using hr'.2)⟩
  have hE : Extremes C.dcmp (pathRecs C recs) C.sort m V := by
    refine ⟨ho, hvals, ?_⟩
    intro k hk p hp0 hp
    obtain ⟨e, he, hpre⟩ := hp
    obtain ⟨r, hr, rfl⟩ := List.mem_map.1 he
    have hr' := List.mem_filter.1 hr
    have := hm k hk p hp0 ⟨r, hr'.1, hpre⟩
    have e2 : valsOf k.1 ((pathRecs C recs).filter fun e => p.isPrefixOf e.1) = valuesUnder C recs k.1 p := by
      unfold valsOf pathRecs valuesUnder
      rw [List.filter_map, List.map_map, List.filter_filter]
      have e3 : (recs.filter fun a => ((fun e : List Lbl × Rec => p.isPrefixOf e.1) ∘ fun r => (recPath C r, recData C r)) a && decide (recPath C a ≠ [])) =
          recs.filter fun r => p.isPrefixOf (recPath C r) := by
        refine List.filter_congr fun x _ => ?_
        simp only [Function.comp]
        cases hx : p.isPrefixOf (recPath C x) with
        | false => rfl
        | true =>
          have := List.isPrefixOf_iff_prefix.1 hx
          have hne : recPath C x ≠ [] := fun e => by rw [e, List.prefix_nil] at this; exact hp0 this
          simp [hne]
      rw [e3]
      rfl
    rw [e2]; exact this
  refine ⟨rowsL 0 (sortTop S C.dcmp C.sort (C.build recs).kids), flush_text C S recs, ?_, ?_, ?_⟩
  · rw [r1]; exact p1.trans (build_perm C recs)
  · rw [r2]; exact top_order S hE hl
  · rw [r1]
    have hk : ∀ k ∈ C.sort, ∀ e ∈ entriesL [] (C.build recs).kids, dataVal k.1 e.2 ∈ V k ∧ dataVal k.1 e.2 ≠ .inv :=
      fun k hk e he => hvals k hk e ((hl.mem e).1 he).1
    exact level_recs S C.sort [] _ h.nodup (sortL_recs S C.sort ho [] _ _ (fun _ hx => hx) h.wf hk)

/-- **C64 (tree).** If no text is longer than the maximal column width and every region name has at least three characters, every line shows its
label, indented by two blanks per level, and all its values in full, in columns of fixed widths: each field is exactly as long as its column,
so that the columns are aligned, and so are the headings. -/
theorem C64_tree_partial (C : TCfg) (S : Sorter) (recs : List (List QEnt)) (hfit : Fits C recs)
    (hname : ∀ r ∈ recs, ∀ l ∈ recPath C r, 3 ≤ (l.2.toStr C.dbl).length)
    (hsel : C.select = none) :
    ∃ (rows : List TRow) (pw : Nat) (w : Nat → Nat) (attrs : List Nat),
      C.flush S (C.build recs) = field false (str "Path") pw ++ (attrs.flatMap (fun a => field false (C.disp a) (w a)) ++ (ch '\n' ::
        rows.flatMap (C.fullLine pw w attrs))) ∧
      (readRows [] rows).Perm ((recs.filter fun r => recPath C r ≠ []).map fun r => (recPath C r, recData C r)) ∧
      4 ≤ pw ∧ (∀ a ∈ attrs, (C.disp a).length ≤ w a) ∧
      (∀ r ∈ rows, (C.rowText r).length ≤ pw ∧ ∀ d, r.data = some d → ∀ a ∈ attrs, (C.valueText d a).length ≤ w a) ∧
      (∀ a, a ∈ attrs ↔ (C.selectAll = true ∨ ∀ ai, C.info a = some ai → ai.hidden = false ∧ ai.isGlobal = false) ∧
        ∃ r ∈ recs, recPath C r ≠ [] ∧ a ∈ (recData C r).map Prod.fst) := by
  have h := build_holds C recs
  have hc := build_cols C recs
  obtain ⟨r1, r2⟩ := readRows_rowsL (sortTop S C.dcmp C.sort (C.build recs).kids)
  obtain ⟨p1, p2⟩ := sortTop_perm S C.dcmp C.sort [] (C.build recs).kids
  have hattr : ∀ a, a ∈ C.attrs (C.build recs).cols ↔ (C.selectAll = true ∨ ∀ ai, C.info a = some ai → ai.hidden = false ∧ ai.isGlobal = false) ∧
        hasCol (C.build recs).cols a := by
    intro a
    unfold TCfg.attrs
    rw [hsel]
    simp only [List.mem_filter, List.mem_map]
    rw [and_comm]
    refine and_congr ?_ Iff.rfl
    cases hi : C.info a with
    | none => simp
    | some ai => simp
  have hdat : ∀ r ∈ recs, recPath C r ≠ [] → ∀ p ∈ recData C r, p ∈ allData C recs := by
    intro r hr hne p hp
    exact List.mem_flatMap.2 ⟨r, List.mem_filter.2 ⟨hr, by simpa using hne⟩, hp⟩
  have hdisp : ∀ a ∈ C.attrs (C.build recs).cols, (C.disp a).length ≤ colWidth C.maxWidth (colBase (C.build recs).cols a) := by
    intro a ha
    have hcol := ((hattr a).1 ha).2
    refine colWidth_fit (hc.name a hcol) ?_
    rcases hfit with hfit | hfit
    · exact .inl hfit
    · obtain ⟨p, hp, rfl⟩ := List.mem_map.1 ((hc.cols a).1 hcol)
      obtain ⟨r, hr, hp'⟩ := List.mem_flatMap.1 hp
      exact .inr ((hfit r (List.mem_filter.1 hr).1).1 p hp').2
  have hval : ∀ d q, (q, d) ∈ entriesL [] (C.build recs).kids → ∀ p ∈ d, (p.2.toStr C.dbl).length ≤ colWidth C.maxWidth (colBase (C.build recs).cols p.1) := by
    intro d q hd p hp
    obtain ⟨r, hr, he⟩ := List.mem_map.1 ((build_perm C recs).mem_iff.1 hd)
    obtain ⟨rfl, rfl⟩ := Prod.mk.inj he
    have hr' := List.mem_filter.1 hr
    refine colWidth_fit (hc.width p (hdat r hr'.1 (by simpa using hr'.2) p hp)) ?_
    rcases hfit with hfit | hfit
    · exact .inl hfit
    · exact .inr ((hfit r hr'.1).1 p hp).1
  have hlab : ∀ q l, q ++ [l] ∈ pathsL [] (C.build recs).kids →
      2 * q.length + (l.2.toStr C.dbl).length ≤ C.pathWidth (C.build recs) ∧ 3 ≤ (l.2.toStr C.dbl).length := by
    intro q l hq
    obtain ⟨-, r, hr, hpre⟩ := (h.paths _).1 hq
    refine ⟨?_, ?_⟩
    · obtain ⟨k, hk, hle⟩ := maxLabelL_ge C [] _ q l hq
      refine colWidth_fit (hle.trans ((maxLabelKids_ge C _ _ _).2 k hk)) ?_
      rcases hfit with hfit | hfit
      · exact .inl hfit
      · refine .inr ((hfit r hr).2 q.length l ?_)
        obtain ⟨t, ht⟩ := hpre
        rw [← ht]
        simp
    · exact hname r hr l (hpre.subset (by simp))
  have hrow : ∀ r ∈ rowsL 0 (sortTop S C.dcmp C.sort (C.build recs).kids),
      C.renderRow (C.build recs).cols (C.pathWidth (C.build recs)) (C.attrs (C.build recs).cols) r =
        C.fullLine (C.pathWidth (C.build recs)) (fun a => colWidth C.maxWidth (colBase (C.build recs).cols a)) (C.attrs (C.build recs).cols) r ∧
      (C.rowText r).length ≤ C.pathWidth (C.build recs) ∧
      ∀ d, r.data = some d → ∀ a ∈ C.attrs (C.build recs).cols, (C.valueText d a).length ≤ colWidth C.maxWidth (colBase (C.build recs).cols a) := by
    intro r hr
    obtain ⟨⟨q, l, hq1, hq2, hq3⟩, hd⟩ := rowsL_mem [] (sortTop S C.dcmp C.sort (C.build recs).kids) r hr
    obtain ⟨hw, h3⟩ := hlab q l (p2.mem_iff.1 hq2)
    rw [hq1] at hw
    have hcell : ∀ d, r.data = some d → ∀ a, C.cell (C.build recs).cols d a =
        field (C.numeric a) (C.valueText d a) (colWidth C.maxWidth (colBase (C.build recs).cols a)) ∧
        (C.valueText d a).length ≤ colWidth C.maxWidth (colBase (C.build recs).cols a) := by
      intro d hdd a
      obtain ⟨q', hq'⟩ := hd d hdd
      exact cell_field C (hval d q' (p1.mem_iff.1 hq'))
    refine ⟨?_, ?_, fun d hdd a _ => (hcell d hdd a).2⟩
    · unfold TCfg.renderRow TCfg.fullLine
      congr 1
      · rcases hq3 with hq3 | hq3
        · have e : C.rowText r = List.replicate (2 * r.level) (ch ' ') ++ str " |-" := by unfold TCfg.rowText; rw [hq3]
          rw [hq3, e]
          exact pathCell_fit (by have : (str " |-").length = 3 := by decide
                                 omega) (by omega) _ rfl
        · have e : C.rowText r = List.replicate (2 * r.level) (ch ' ') ++ l.2.toStr C.dbl := by unfold TCfg.rowText; rw [hq3]
          rw [hq3, e]
          exact pathCell_fit hw (by omega) _ (clampStr_id (by omega))
      · congr 1
        cases hdd : r.data with
        | none => rfl
        | some d =>
          simp only
          refine List.flatMap_congr ?_
          intro a _
          exact (hcell d hdd a).1
    · rcases hq3 with hq3 | hq3
      · have e : C.rowText r = List.replicate (2 * r.level) (ch ' ') ++ str " |-" := by unfold TCfg.rowText; rw [hq3]
        rw [e, List.length_append, List.length_replicate]
        have : (str " |-").length = 3 := by decide
        omega
      · have e : C.rowText r = List.replicate (2 * r.level) (ch ' ') ++ l.2.toStr C.dbl := by unfold TCfg.rowText; rw [hq3]
        rw [e, List.length_append, List.length_replicate]
        exact hw
  have h4 : 4 ≤ C.pathWidth (C.build recs) := colWidth_ge _ _
  refine ⟨rowsL 0 (sortTop S C.dcmp C.sort (C.build recs).kids), C.pathWidth (C.build recs),
    fun a => colWidth C.maxWidth (colBase (C.build recs).cols a), C.attrs (C.build recs).cols, ?_, ?_, h4, hdisp,
    fun r hr => (hrow r hr).2, ?_⟩
  · rw [flush_text]
    have hP : (str "Path").length = 4 := by decide
    unfold TCfg.header
    rw [clampStr_id (by omega), padRight_field (by omega)]
    have e1 : (C.attrs (C.build recs).cols).flatMap (fun a => padRight (clampStr (C.dispName (C.build recs).cols a)
        (colWidth C.maxWidth (colBase (C.build recs).cols a))) (colWidth C.maxWidth (colBase (C.build recs).cols a))) =
        (C.attrs (C.build recs).cols).flatMap fun a => field false (C.disp a) (colWidth C.maxWidth (colBase (C.build recs).cols a)) := by
      refine List.flatMap_congr ?_
      intro a ha
      have hcol := ((hattr a).1 ha).2
      have : C.dispName (C.build recs).cols a = C.disp a := by
        unfold TCfg.dispName
        rw [if_pos]
        obtain ⟨c, hc, e⟩ := hcol
        exact List.any_eq_true.2 ⟨c, hc, by simpa using e⟩
      rw [this, clampStr_id (hdisp a ha), padRight_field (hdisp a ha)]
    rw [e1]
    have e2 : (rowsL 0 (sortTop S C.dcmp C.sort (C.build recs).kids)).flatMap
        (C.renderRow (C.build recs).cols (C.pathWidth (C.build recs)) (C.attrs (C.build recs).cols)) =
        (rowsL 0 (sortTop S C.dcmp C.sort (C.build recs).kids)).flatMap
        (C.fullLine (C.pathWidth (C.build recs)) (fun a => colWidth C.maxWidth (colBase (C.build recs).cols a)) (C.attrs (C.build recs).cols)) :=
      List.flatMap_congr fun r hr => (hrow r hr).1
    rw [e2]
    simp
  · rw [r1]; exact p1.trans (build_perm C recs)
  · intro a
    rw [hattr a, hc.cols]
    refine and_congr_right fun _ => ?_
    constructor
    · intro ha
      obtain ⟨p, hp, rfl⟩ := List.mem_map.1 ha
      obtain ⟨r, hr, hp'⟩ := List.mem_flatMap.1 hp
      have hr' := List.mem_filter.1 hr
      exact ⟨r, hr'.1, by simpa using hr'.2, List.mem_map_of_mem hp'⟩
    · rintro ⟨r, hr, hne, ha⟩
      obtain ⟨p, hp, rfl⟩ := List.mem_map.1 ha
      exact List.mem_map_of_mem (hdat r hr hne p hp)

/-! ### a run -/

namespace Query.Tree.Demo
open Query.Json (AInfo)

/-- attributes: 1 is `region` (nested), 2 is `time` (unsigned) and 3 `count` (signed) -/
def info : Nat → Option AInfo
  | 1 => some ⟨str "region", .string, false, false, true⟩
  | 2 => some ⟨str "time", .uint, false, false, false⟩
  | 3 => some ⟨str "count", .int, false, false, false⟩
  | _ => none

def disp : Nat → Str
  | 1 => str "region"
  | 2 => str "time"
  | _ => str "count"

def cfg (sort : List (Nat × Bool)) : TCfg := ⟨info, disp, [], 48, ⟨fun _ => [], fun _ => [], fun _ => none⟩, fun _ _ => 0, none, false, sort⟩

/-- a reference to the region stack, innermost first -/
def at_ (rs : List String) : QEnt := .ref (rs.map fun r => (1, Val.string (str r)))
def time (n : Nat) : QEnt := .imm 2 (.uint (BitVec.ofNat 64 n))
def count (n : Int) : QEnt := .imm 3 (.int (BitVec.ofInt 64 n))

def recs : List (List QEnt) :=
  [[at_ ["main"], time 10], [at_ ["foo", "main"], time 7], [at_ ["bar", "main"], time 3], [at_ ["foo", "main"], time 2], [time 99]]

/-- the printed tree; the newest child comes first -/
theorem print : (cfg []).flush insertionSorter ((cfg []).build recs) =
    str "Path  time \n" ++ str "main    10 \n" ++ str "  bar    3 \n" ++ str "  foo \n" ++ str "   |-    7 \n" ++ str "   |-    2 \n" := by
  decide +kernel

/-- the same sorted by `time`, ascending: the smallest value below a node counts -/
theorem print_sorted : (cfg [(2, true)]).flush insertionSorter ((cfg [(2, true)]).build recs) =
    str "Path  time \n" ++ str "main    10 \n" ++ str "  foo \n" ++ str "   |-    2 \n" ++ str "   |-    7 \n" ++ str "  bar    3 \n" := by
  decide +kernel

/-- smallest time below each path of the run -/
def best : Nat × Bool → List Lbl → Val
  | _, p => if p = [(1, .string (str "main")), (1, .string (str "bar"))] then .uint 3#64 else .uint 2#64

end Query.Tree.Demo

open Query.Tree.Demo in
/-- the hypotheses of `C64_tree_partial` hold for the run above -/
example : Fits (cfg []) recs ∧ (∀ r ∈ recs, ∀ l ∈ recPath (cfg []) r, 3 ≤ (l.2.toStr (cfg []).dbl).length) ∧ (cfg []).select = none := by
  refine ⟨.inr ?_, ?_, rfl⟩
  · intro r hr
    simp only [recs, List.mem_cons, List.not_mem_nil, or_false] at hr
    rcases hr with rfl | rfl | rfl | rfl | rfl
    all_goals
      refine ⟨by decide +kernel, ?_⟩
      intro i l hl
      obtain ⟨hi, rfl⟩ := List.getElem?_eq_some_iff.1 hl
      revert hi; revert i
      decide +kernel
  · decide +kernel

open Query.Tree.Demo in
/-- the hypotheses of `C63_tree_partial` hold for the run above, sorted by `time` -/
example : (∀ k ∈ (cfg [(2, true)]).sort, ∀ r ∈ recs, recPath (cfg [(2, true)]) r ≠ [] → dataVal k.1 (recData (cfg [(2, true)]) r) ≠ .inv) ∧
    (∀ k ∈ (cfg [(2, true)]).sort, GoodOrder (cfg [(2, true)]).dcmp
      ((recs.filter fun r => recPath (cfg [(2, true)]) r ≠ []).map fun r => dataVal k.1 (recData (cfg [(2, true)]) r))) ∧
    (∀ k ∈ (cfg [(2, true)]).sort, ∀ p, p ≠ [] → (∃ r ∈ recs, p <+: recPath (cfg [(2, true)]) r) →
      IsExt (cfg [(2, true)]).dcmp k.2 (valuesUnder (cfg [(2, true)]) recs k.1 p) (best k p)) := by
  refine ⟨?_, ?_, ?_⟩
  · intro k hk
    simp only [cfg, List.mem_singleton] at hk
    subst hk
    decide +kernel
  · intro k hk
    simp only [cfg, List.mem_singleton] at hk
    subst hk
    apply goodOrder_uint
    intro v hv
    obtain ⟨r, hr, rfl⟩ := List.mem_map.1 hv
    have : ∀ r ∈ recs.filter (fun r => recPath (cfg [(2, true)]) r ≠ []), (match dataVal 2 (recData (cfg [(2, true)]) r) with | .uint _ => true | _ => false) = true := by
      decide +kernel
    have h := this r hr
    revert h
    cases dataVal 2 (recData (cfg [(2, true)]) r) <;> simp
  · intro k hk p hp hex
    simp only [cfg, List.mem_singleton] at hk
    subst hk
    have hall : ∀ r ∈ recs, ∀ n < 3, (recPath (cfg [(2, true)]) r).take n ≠ [] →
        IsExt (cfg [(2, true)]).dcmp true (valuesUnder (cfg [(2, true)]) recs 2 ((recPath (cfg [(2, true)]) r).take n))
          (best (2, true) ((recPath (cfg [(2, true)]) r).take n)) := by
      unfold IsExt
      decide +kernel
    obtain ⟨r, hr, hpre⟩ := hex
    have hlen : ∀ r ∈ recs, (recPath (cfg [(2, true)]) r).length < 3 := by decide +kernel
    have e := List.prefix_iff_eq_take.1 hpre
    have hl := hpre.length_le
    have := hall r hr p.length (by have := hlen r hr; omega) (by rw [← e]; exact hp)
    rw [← e] at this
    exact this

/-! ### where the tree output goes wrong -/

open Query.Tree.Demo in
/-- **C63 violated.** Signed values 2^31 or more apart are compared modulo 2^32: ordered by `count`, ascending, 3000000000 comes before 0. -/
theorem C63_violation_far_apart :
    (cfg [(3, true)]).flush insertionSorter ((cfg [(3, true)]).build [[at_ ["main"], count 0], [at_ ["main"], count 3000000000]]) =
      str "Path count      \n" ++ str "main \n" ++ str " |-  3000000000 \n" ++ str " |-           0 \n" := by
  decide +kernel

open Query.Tree.Demo in
/-- **C63 violated.** A child without the sort attribute makes the node forget the smallest value seen before it: `p` contains 5 (in `p/a`) but is
placed after `q` with 6. -/
theorem C63_violation_lost_minimum :
    (cfg [(2, true)]).flush insertionSorter ((cfg [(2, true)]).build
        [[at_ ["q"], time 6], [at_ ["c", "p"], time 7], [at_ ["b", "p"], count 1], [at_ ["a", "p"], time 5]]) =
      str "Path time count \n" ++ str "q       6       \n" ++ str "p    \n" ++ str "  b           1 \n" ++ str "  a     5       \n" ++
        str "  c     7       \n" := by
  decide +kernel

/-- **C63 violated.** For two records of a node that both lack the sort attribute the comparison function given to `std::stable_sort` says "less" in
both directions: it is no strict weak order, so the C++ standard leaves the behaviour of the sort undefined. -/
theorem C63_violation_no_order (dcmp : U64 → U64 → Int) (key : Nat) (asc : Bool) (d e : Rec)
    (hd : ∀ p ∈ d, p.1 ≠ key) (he : ∀ p ∈ e, p.1 ≠ key) :
    recLt dcmp key asc d e = true ∧ recLt dcmp key asc e d = true ∧ ¬ SWO (recLt dcmp key asc) [d] := by
  have g : ∀ r : Rec, (∀ p ∈ r, p.1 ≠ key) → recGet key r = none := by
    intro r hr
    unfold recGet
    rw [Option.map_eq_none_iff, List.find?_eq_none]
    intro p hp
    simpa using hr p hp
  refine ⟨by simp [recLt, g e he], by simp [recLt, g d hd], fun h => ?_⟩
  have := h.irrefl d (by simp)
  simp [recLt, g d hd] at this

open Query.Tree.Demo in
/-- **C64 violated.** The line for a further record of a node is not cut to the width of the path column: with one-letter region names the values of
`x/a` start one column right of the header. -/
theorem C64_violation_misaligned :
    (cfg []).flush insertionSorter ((cfg []).build [[at_ ["a", "x"], time 1], [at_ ["a", "x"], time 2]]) =
      str "Path time \n" ++ str "x    \n" ++ str "  a  \n" ++ str "   |-    1 \n" ++ str "   |-    2 \n" := by
  decide +kernel

open Query.Tree.Demo in
/-- **C64 violated.** A one-letter name at the deepest level is printed with three blanks instead of four, although nothing is too long for its column. -/
theorem C64_violation_indent :
    (cfg []).flush insertionSorter ((cfg []).build [[at_ ["a", "b", "xx"], time 1], [at_ ["b", "xx"], time 2]]) =
      str "Path  time \n" ++ str "xx    \n" ++ str "  b      2 \n" ++ str "   a     1 \n" := by
  decide +kernel

open Query.Tree.Demo in
/-- **C62, which attributes make the path.** Naming `path` together with another attribute in `path-attributes` drops the nested attributes from the path: with
`path-attributes=path,count` the region `main` is a data column and not part of the tree. -/
theorem C62_named_paths :
    let C : TCfg := { cfg [] with pathNames := [str "path", str "count"] }
    recPath C [at_ ["main"], count 1] = [(3, .int 1#64)] ∧ recData C [at_ ["main"], count 1] = [(1, .string (str "main"))] := by
  decide +kernel

end Verif
