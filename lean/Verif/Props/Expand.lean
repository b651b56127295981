import Verif.Query.ExpandSpec
import Verif.Props.Json
/-!
# C71: the expand formatter
-/
namespace Verif
open Verif.Cali Verif.Query Verif.Query.Expand Verif.Util
open Verif.Query.Json (Str SelKind AInfo)

namespace Query.Expand

variable {S : Sorter} {F : DblFmt} {info : Nat → AInfo}

theorem skip_iff {q : EQuery} (hq : q.sel = .list → q.selPath = false ∧ q.selList ≠ []) (i : AInfo) :
    (expandConfig q).skip i.name = !decide (Shows q i) := by
  unfold ECfg.skip expandConfig Shows
  rcases q with ⟨sel, l, p, al⟩
  cases sel <;> simp
  obtain ⟨h1, h2⟩ := hq rfl
  simp only at h1 h2
  subst h1
  simp [List.isEmpty_iff, h2]

theorem title_eq (q : EQuery) (n : Str) : (expandConfig q).title n = title q n := by
  unfold ECfg.title expandConfig title
  rcases q with ⟨sel, l, p, al⟩
  cases sel <;> rfl

/-- fields of a list of nodes: runs of the same attribute -/
def runs : List (Nat × Val) → List Fld
  | [] => []
  | (a, v) :: l => match runs l with
    | (b, vs) :: fs => if a = b then (a, v :: vs) :: fs else (a, [v]) :: (b, vs) :: fs
    | [] => [(a, [v])]

/-- fields with commas -/
def seqText (F : DblFmt) (q : EQuery) (info : Nat → AInfo) : Nat → List Fld → List Byte
  | _, [] => []
  | n, f :: fs => (if n ≠ 0 then str "," else []) ++ fldText F q info f ++ seqText F q info (n + 1) fs

theorem valText_cons (a b : Nat) (v : Val) (vs : List Val) (h : vs ≠ []) : valText F (a, v :: vs) = v.toStr F ++ ch '/' :: valText F (b, vs) := by
  cases vs with
  | nil => exact absurd rfl h
  | cons w ws => rfl

theorem runs_ne_nil (l : List (Nat × Val)) : ∀ f ∈ runs l, f.2 ≠ [] := by
  induction l with
  | nil => intro f hf; cases hf
  | cons x l ih =>
    obtain ⟨a, v⟩ := x
    unfold runs
    cases hr : runs l with
    | nil => simp
    | cons g fs =>
      obtain ⟨b, vs⟩ := g
      rw [hr] at ih
      simp only
      split
      · intro f hf
        rcases List.mem_cons.1 hf with rfl | hf
        · simp
        · exact ih f (List.mem_cons_of_mem _ hf)
      · intro f hf
        rcases List.mem_cons.1 hf with rfl | hf
        · simp
        · exact ih f hf

theorem refLoop_eq (q : EQuery) (l : List (Nat × Val)) : ∀ (prev : Option Nat) (n : Nat),
    refLoop F (expandConfig q) info prev n l = match runs l with
      | (b, vs) :: fs => if prev = some b then (str "/" ++ valText F (b, vs) ++ seqText F q info n fs, n + fs.length)
          else (seqText F q info n (runs l), n + (runs l).length)
      | [] => ([], n) := by
  induction l with
  | nil => intro prev n; rfl
  | cons x l ih =>
    obtain ⟨a, v⟩ := x
    intro prev n
    have hne := runs_ne_nil l
    unfold refLoop
    rw [ih, ih]
    conv_rhs => unfold runs
    cases hr : runs l with
    | nil =>
      by_cases hp : prev = some a
      · simp [hp, seqText, fldText, valText, joined, str, title_eq]
      · simp [hp, seqText, fldText, valText, joined, str, title_eq]
    | cons g fs =>
      obtain ⟨b, vs⟩ := g
      rw [hr] at hne
      have hvs : vs ≠ [] := hne _ (List.mem_cons_self ..)
      by_cases hab : a = b
      · subst hab
        by_cases hp : prev = some a
        · simp [hp, title_eq, seqText, valText_cons a a v vs hvs, str]
        · simp [hp, title_eq, seqText, fldText, valText_cons a a v vs hvs, str]
          omega
      · by_cases hp : prev = some a
        · simp [hp, hab, title_eq, seqText, fldText, valText, joined, str]
        · simp [hp, hab, title_eq, seqText, fldText, valText, joined, str]
          omega

theorem runs_facts (l : List (Nat × Val)) (hl : l.Pairwise fun x y => y.1 ≤ x.1) :
    (runs l).Pairwise (fun f g => f.1 > g.1) ∧ (∀ a, a ∈ (runs l).map Prod.fst ↔ a ∈ l.map Prod.fst) ∧
    (∀ f ∈ runs l, f.2 = (l.filter fun x => x.1 = f.1).map Prod.snd) := by
  induction l with
  | nil => exact ⟨List.Pairwise.nil, by simp [runs], by simp [runs]⟩
  | cons x l ih =>
    obtain ⟨a, v⟩ := x
    obtain ⟨h1, h2⟩ := List.pairwise_cons.1 hl
    obtain ⟨i1, i2, i3⟩ := ih h2
    unfold runs
    have hle : ∀ b ∈ (runs l).map Prod.fst, b ≤ a := by
      intro b hb
      obtain ⟨y, hy, rfl⟩ := List.mem_map.1 ((i2 b).1 hb)
      exact h1 y hy
    cases hr : runs l with
    | nil =>
      rw [hr] at i2
      have hl0 : l = [] := by
        cases l with
        | nil => rfl
        | cons y l => exact absurd ((i2 y.1).2 (by simp)) (by simp)
      subst hl0
      simp
    | cons g fs =>
      obtain ⟨b, vs⟩ := g
      rw [hr] at i1 i2 i3 hle
      simp only
      obtain ⟨j1, j2⟩ := List.pairwise_cons.1 i1
      split
      · rename_i hab
        subst hab
        refine ⟨List.pairwise_cons.2 ⟨j1, j2⟩, ?_, ?_⟩
        · intro c
          have := i2 c
          simp only [List.map_cons, List.mem_cons] at this ⊢
          tauto
        · intro f hf
          rcases List.mem_cons.1 hf with rfl | hf
          · have := i3 (a, vs) (List.mem_cons_self ..)
            simp only at this
            simp [List.filter_cons, this]
          · have hne : ¬a = f.1 := by have := j1 f hf; simp only at this; omega
            rw [i3 f (List.mem_cons_of_mem _ hf)]
            simp [List.filter_cons, hne]
      · rename_i hab
        have hlt : ∀ f ∈ (b, vs) :: fs, f.1 < a := by
          intro f hf
          rcases List.mem_cons.1 hf with rfl | hf'
          · have := hle b (by simp); simp only; omega
          · have h3 := j1 f hf'
            have h4 := hle b (by simp)
            simp only at h3; omega
        refine ⟨List.pairwise_cons.2 ⟨hlt, i1⟩, ?_, ?_⟩
        · intro c
          have := i2 c
          simp only [List.map_cons, List.mem_cons] at this ⊢
          tauto
        · intro f hf
          rcases List.mem_cons.1 hf with rfl | hf
          · have hz : l.filter (fun x => x.1 = a) = [] := by
              rw [List.filter_eq_nil_iff]
              intro x hx hxa
              have hx' : x.1 ∈ List.map Prod.fst ((b, vs) :: fs) := (i2 x.1).2 (List.mem_map_of_mem hx)
              obtain ⟨g, hg, hge⟩ := List.mem_map.1 hx'
              have := hlt g hg
              simp only [decide_eq_true_eq] at hxa
              omega
            simp [List.filter_cons, hz]
          · have := hlt f hf
            have hne : ¬a = f.1 := by omega
            rw [i3 f hf]
            simp [List.filter_cons, hne]

/-- the comparator of the formatter -/
theorem swo_fst (l : List (Nat × Val)) : SWO (fun x y : Nat × Val => decide (x.1 < y.1)) l := by
  refine ⟨fun a _ => by simp, ?_, ?_⟩
  · intro a _ b _ c _ h1 h2
    simp only [decide_eq_true_eq] at *; omega
  · intro a _ b _ c _ h1 h2 h3 h4
    simp only [decide_eq_false_iff_not] at *; omega

theorem ent_eq {q : EQuery} (hq : q.sel = .list → q.selPath = false ∧ q.selList ≠ []) (n : Nat) (e : QEnt) :
    ∃ fs, EntFields q info e fs ∧ entLoop S F (expandConfig q) info n e = (seqText F q info n fs, n + fs.length) := by
  cases e with
  | imm a v =>
    unfold entLoop
    simp only [skip_iff hq]
    by_cases h : Shows q (info a)
    · exact ⟨_, .imm h, by simp [h, seqText, fldText, valText, joined, str, title_eq]⟩
    · exact ⟨_, .immHidden h, by simp [h, seqText]⟩
  | ref path =>
    unfold entLoop
    simp only [skip_iff hq, Bool.not_not]
    generalize hn : path.filter (fun x => decide (Shows q (info x.1))) = nodes
    obtain ⟨hperm, hsort, hst⟩ := S.contract (fun x y : Nat × Val => decide (x.1 < y.1)) nodes (swo_fst nodes)
    generalize S.sort (fun x y : Nat × Val => decide (x.1 < y.1)) nodes = l at *
    have hpw : l.reverse.Pairwise fun x y => y.1 ≤ x.1 := by
      rw [List.pairwise_reverse]
      exact hsort.imp (fun {x y} h => by simp only [decide_eq_false_iff_not] at h; omega)
    obtain ⟨r1, r2, r3⟩ := runs_facts l.reverse hpw
    refine ⟨runs l.reverse, .ref r1 ?_ ?_, ?_⟩
    · intro a
      rw [r2]
      simp only [List.map_reverse, List.mem_reverse]
      have : a ∈ l.map Prod.fst ↔ a ∈ nodes.map Prod.fst := (hperm.map Prod.fst).mem_iff
      rw [this, ← hn]
      simp only [List.mem_map, List.mem_filter, decide_eq_true_eq]
      constructor
      · rintro ⟨x, ⟨hx, hs⟩, rfl⟩; exact ⟨hs, x, hx, rfl⟩
      · rintro ⟨hs, x, hx, rfl⟩; exact ⟨x, ⟨hx, hs⟩, rfl⟩
    · intro f hf
      rw [r3 f hf, List.filter_reverse, List.map_reverse]
      congr 2
      have hm : f.1 ∈ l.reverse.map Prod.fst := (r2 _).1 (List.mem_map_of_mem hf)
      rw [List.map_reverse, List.mem_reverse] at hm
      have hm' := (hperm.map Prod.fst).mem_iff.1 hm
      obtain ⟨x, hx, hxf⟩ := List.mem_map.1 hm'
      have h := hst x hx
      have he : (eqv (fun x y : Nat × Val => decide (x.1 < y.1)) x) = fun y => decide (y.1 = f.1) := by
        funext y
        unfold eqv
        simp only [hxf]
        by_cases hy : y.1 = f.1
        · simp [hy]
        · simp only [hy, decide_false, Bool.and_eq_false_imp, Bool.not_eq_true', decide_eq_false_iff_not, Bool.not_eq_false', decide_eq_true_eq]
          omega
      rw [he] at h
      rw [h, ← hn, List.filter_filter]
      apply List.filter_congr
      intro y hy
      have hs : Shows q (info x.1) := by
        rw [← hn] at hx
        exact of_decide_eq_true (List.mem_filter.1 hx).2
      by_cases hy : y.1 = f.1
      · rw [hxf] at hs; simp [hy, hs]
      · simp [hy]
    · split
      · rename_i he
        rw [List.isEmpty_iff] at he
        subst he
        have : l = [] := hperm.eq_nil
        subst this
        simp [runs, seqText]
      · rw [refLoop_eq]
        cases hr : runs l.reverse with
        | nil => simp [seqText]
        | cons g fs => simp

theorem rec_eq {q : EQuery} (hq : q.sel = .list → q.selPath = false ∧ q.selList ≠ []) (r : List QEnt) : ∀ (n : Nat),
    ∃ fs, RecFields q info r fs ∧ recLoop S F (expandConfig q) info n r = (seqText F q info n fs, n + fs.length) := by
  induction r with
  | nil => intro n; exact ⟨[], .nil, by simp [recLoop, seqText]⟩
  | cons e es ih =>
    intro n
    obtain ⟨fs, h1, h2⟩ := ent_eq (S := S) (F := F) (info := info) hq n e
    obtain ⟨gs, h3, h4⟩ := ih (n + fs.length)
    refine ⟨fs ++ gs, .cons h1 h3, ?_⟩
    unfold recLoop
    simp only [h2, h4]
    have : ∀ (fs gs : List Fld) n, seqText F q info n (fs ++ gs) = seqText F q info n fs ++ seqText F q info (n + fs.length) gs := by
      intro fs gs
      induction fs with
      | nil => intro n; simp [seqText]
      | cons f fs ih => intro n; simp [seqText, ih, Nat.add_assoc, Nat.add_comm 1]
    rw [this]
    simp [Nat.add_assoc]

theorem seqText_joined (q : EQuery) (fs : List Fld) :
    seqText F q info 0 fs = joined (ch ',') (fs.map (fldText F q info)) := by
  have : ∀ (fs : List Fld) (f : Fld) n, fldText F q info f ++ seqText F q info (n + 1) fs = joined (ch ',') ((f :: fs).map (fldText F q info)) := by
    intro fs
    induction fs with
    | nil => intro f n; simp [seqText, joined]
    | cons g fs ih =>
      intro f n
      have := ih g (n + 1)
      simp only [List.map_cons, joined] at this ⊢
      rw [← this]
      simp [seqText, str]
  cases fs with
  | nil => rfl
  | cons f fs => rw [← this fs f 0]; simp [seqText]

theorem print_eq {q : EQuery} (hq : q.sel = .list → q.selPath = false ∧ q.selList ≠ []) (r : List QEnt) :
    ∃ fs, RecFields q info r fs ∧ printRec S F (expandConfig q) info r = lineText F q info fs := by
  obtain ⟨fs, h1, h2⟩ := rec_eq (S := S) (F := F) (info := info) hq r 0
  refine ⟨fs, h1, ?_⟩
  unfold printRec lineText
  rw [h2]
  simp only [Nat.zero_add, seqText_joined]
  cases fs with
  | nil => simp
  | cons f fs => simp [str]

theorem entFields_unique {q : EQuery} {e : QEnt} {fs gs : List Fld} (h1 : EntFields q info e fs) (h2 : EntFields q info e gs) : fs = gs := by
  cases h1 with
  | imm h => cases h2 with
    | imm _ => rfl
    | immHidden h' => exact absurd h h'
  | immHidden h => cases h2 with
    | imm h' => exact absurd h' h
    | immHidden _ => rfl
  | ref p1 m1 v1 => cases h2 with
    | ref p2 m2 v2 =>
      rename_i path
      have hk : fs.map Prod.fst = gs.map Prod.fst := by
        apply List.Perm.eq_of_pairwise (le := fun a b : Nat => a > b)
        · intro a b _ _ h1 h2; omega
        · exact List.pairwise_map.2 p1
        · exact List.pairwise_map.2 p2
        · refine (List.perm_ext_iff_of_nodup ?_ ?_).2 (fun a => (m1 a).trans (m2 a).symm)
          · exact (List.pairwise_map.2 p1).imp (fun {a b} (h : a > b) => by simp only [ne_eq]; omega)
          · exact (List.pairwise_map.2 p2).imp (fun {a b} (h : a > b) => by simp only [ne_eq]; omega)
      have hf : ∀ (l : List Fld), (∀ f ∈ l, f.2 = ((path.filter fun x => x.1 = f.1).map Prod.snd).reverse) →
          l = (l.map Prod.fst).map fun a => (a, ((path.filter fun x => x.1 = a).map Prod.snd).reverse) := by
        intro l hl
        rw [List.map_map]
        conv_lhs => rw [← List.map_id l]
        apply List.map_congr_left
        intro f hf
        have := hl f hf
        rcases f with ⟨a, vs⟩
        simp only [id, Function.comp] at this ⊢
        rw [this]
      rw [hf fs v1, hf gs v2, hk]

theorem recFields_unique {q : EQuery} {r : List QEnt} : ∀ {fs gs : List Fld}, RecFields q info r fs → RecFields q info r gs → fs = gs := by
  induction r with
  | nil => intro fs gs h1 h2; cases h1; cases h2; rfl
  | cons e es ih =>
    intro fs gs h1 h2
    cases h1 with
    | cons a1 b1 => cases h2 with
      | cons a2 b2 => rw [entFields_unique a1 a2, ih b1 b2]

/-! ## Reading -/

theorem pieces_none {sep : Byte} {p : List Byte} (h : sep ∉ p) : pieces sep p = [p] := by
  induction p with
  | nil => rfl
  | cons c p ih =>
    rw [List.mem_cons, not_or] at h
    simp [pieces, ih h.2, Ne.symm h.1]

theorem pieces_sep {sep : Byte} {p t : List Byte} (h : sep ∉ p) : pieces sep (p ++ sep :: t) = p :: pieces sep t := by
  induction p with
  | nil => simp [pieces]
  | cons c p ih =>
    rw [List.mem_cons, not_or] at h
    simp [pieces, ih h.2, Ne.symm h.1]

theorem pieces_joined {sep : Byte} : ∀ {l : List (List Byte)}, l ≠ [] → (∀ p ∈ l, sep ∉ p) → pieces sep (joined sep l) = l
  | [], h, _ => absurd rfl h
  | [p], _, h => pieces_none (h p (by simp))
  | p :: q :: l, _, h => by
    rw [joined, pieces_sep (h p (by simp)), pieces_joined (by simp) (fun x hx => h x (List.mem_cons_of_mem _ hx))]

theorem mem_joined {sep c : Byte} (hc : c ≠ sep) : ∀ {l : List (List Byte)}, (∀ p ∈ l, c ∉ p) → c ∉ joined sep l
  | [], _ => by simp [joined]
  | [p], h => h p (by simp)
  | p :: q :: l, h => by
    have := mem_joined hc (l := q :: l) (fun x hx => h x (List.mem_cons_of_mem _ hx))
    simp [joined, this, hc, h p (by simp)]

end Query.Expand

/-- **C71.**  The output is one line for each record that has something to show: the fields of its entries separated by commas, each with the attribute's
name (or alias), an equals sign and the values, the outer ones first, separated by slashes.

Missing: SELECT lists with `path` (`C71_violation_path`). -/
theorem C71_lines_partial (S : Sorter) (F : DblFmt) (info : Nat → AInfo) (q : EQuery) (recs : List (List QEnt))
    (hq : q.sel = .list → q.selPath = false ∧ q.selList ≠ []) :
    ∃ fss, List.Forall₂ (RecFields q info) recs fss ∧ expandOut S F info q recs = fss.flatMap (lineText F q info) ∧
      ∀ gss, List.Forall₂ (RecFields q info) recs gss → gss = fss := by
  unfold expandOut
  induction recs with
  | nil => exact ⟨[], .nil, rfl, fun gss h => by cases h; rfl⟩
  | cons r recs ih =>
    obtain ⟨fss, h1, h2, h3⟩ := ih
    obtain ⟨fs, h4, h5⟩ := print_eq (S := S) (F := F) (info := info) hq r
    refine ⟨fs :: fss, .cons h4 h1, by rw [List.flatMap_cons, List.flatMap_cons, h2, h5], ?_⟩
    intro gss hg
    cases hg with
    | cons a b => rw [recFields_unique a h4, h3 _ b]

/-- **C71.**  If titles and values have no separators in them, the output can be read back: the lines are the records with fields, in order, with the
title and the values of each field. -/
theorem C71_read_partial (S : Sorter) (F : DblFmt) (info : Nat → AInfo) (q : EQuery) (recs : List (List QEnt)) (fss : List (List Fld))
    (hq : q.sel = .list → q.selPath = false ∧ q.selList ≠ []) (hf : List.Forall₂ (RecFields q info) recs fss)
    (hc : ∀ fs ∈ fss, CleanFields F q info fs) :
    readExpand (expandOut S F info q recs) =
      (fss.filter (fun fs => decide (fs ≠ []))).map (fun fs => fs.map fun f => (title q (info f.1).name, valText F f)) := by
  obtain ⟨fss', _, h2, h3⟩ := C71_lines_partial S F info q recs hq
  rw [h2, ← h3 fss hf]
  clear h2 h3 hf
  induction fss with
  | nil => rfl
  | cons fs fss ih =>
    have ih := ih (fun x hx => hc x (List.mem_cons_of_mem _ hx))
    have hc' := hc fs (List.mem_cons_self ..)
    rw [List.flatMap_cons]
    by_cases h0 : fs = []
    · subst h0
      simpa [lineText] using ih
    · have hfld : ∀ p ∈ fs.map (fldText F q info), ch ',' ∉ p ∧ ch '\n' ∉ p := by
        intro p hp
        obtain ⟨f, hf, rfl⟩ := List.mem_map.1 hp
        have ht := hc'.title f hf
        have hv := hc'.value f hf
        have h1 : ch ',' ∉ valText F f := mem_joined (by decide) (fun p hp => by obtain ⟨v, hv', rfl⟩ := List.mem_map.1 hp; exact (hv v hv').1)
        have h2 : ch '\n' ∉ valText F f := mem_joined (by decide) (fun p hp => by obtain ⟨v, hv', rfl⟩ := List.mem_map.1 hp; exact (hv v hv').2)
        unfold fldText
        simp only [List.mem_append, List.mem_cons, not_or]
        exact ⟨⟨ht.2.1, by decide, h1⟩, ht.2.2, by decide, h2⟩
      have hline : ch '\n' ∉ joined (ch ',') (fs.map (fldText F q info)) := mem_joined (by decide) (fun p hp => (hfld p hp).2)
      have hrl : readLine (joined (ch ',') (fs.map (fldText F q info))) = fs.map fun f => (title q (info f.1).name, valText F f) := by
        unfold readLine
        rw [pieces_joined (by simpa using h0) (fun p hp => (hfld p hp).1), List.map_map]
        apply List.map_congr_left
        intro f hf
        have ht := (hc'.title f hf).1
        have hall : ∀ x ∈ title q (info f.1).name, decide (x ≠ ch '=') = true := by
          intro x hx; simp only [ne_eq, decide_not, Bool.not_eq_true', decide_eq_false_iff_not]; rintro rfl; exact ht hx
        simp only [Function.comp, fldText]
        rw [List.takeWhile_append_of_pos hall, List.dropWhile_append_of_pos hall]
        simp
      have hl : lineText F q info fs = joined (ch ',') (fs.map (fldText F q info)) ++ [ch '\n'] := by simp [lineText, h0]
      have hne : ∀ t, pieces (ch '\n') t ≠ [] := by
        intro t
        cases t with
        | nil => simp [pieces]
        | cons c t => unfold pieces; split; · simp
                      · split <;> simp
      rw [hl, List.append_assoc, List.singleton_append, readExpand, pieces_sep hline, List.dropLast_cons_of_ne_nil (hne _), List.map_cons, hrl,
        List.filter_cons_of_pos (by simpa using h0), List.map_cons]
      rw [readExpand] at ih
      rw [ih]

/-- **C71.**  The values of a field, if they have no slashes in them, can be read back. -/
theorem C71_values (F : DblFmt) (f : Fld) (h0 : f.2 ≠ []) (hs : ∀ v ∈ f.2, ch '/' ∉ v.toStr F) :
    pieces (ch '/') (valText F f) = f.2.map (·.toStr F) :=
  pieces_joined (by simpa using h0) (fun p hp => by obtain ⟨v, hv, rfl⟩ := List.mem_map.1 hp; exact hs v hv)

/-! ## Hypotheses are met -/

/-- regions `function` and `loop`, `time` with an alias -/
def c71Query : EQuery := ⟨.list, [str "function", str "loop", str "time"], false, fun n => if n = str "time" then some (str "t") else none⟩

def c71Recs : List (List QEnt) :=
  [[.ref [(2, .string (str "l2")), (1, .string (str "foo")), (2, .string (str "l1")), (1, .string (str "main"))], .imm 3 (.double 0), .imm 4 (.int 3)],
   [.imm 4 (.int 1)], [.ref [(1, .string (str "main"))]]]

def c71Flds : List (List Fld) :=
  [[(2, [.string (str "l1"), .string (str "l2")]), (1, [.string (str "main"), .string (str "foo")]), (3, [.double 0])], [], [(1, [.string (str "main")])]]

theorem c71_fields : List.Forall₂ (RecFields c71Query c56Info) c71Recs c71Flds := by
  refine .cons (.cons (fs := [_, _]) (.ref (by decide) ?_ (by decide)) (.cons (.imm (by decide)) (.cons (.immHidden (by decide)) .nil)))
    (.cons (.cons (.immHidden (by decide)) .nil) (.cons (.cons (fs := [_]) (.ref (by decide) ?_ (by decide)) .nil) .nil))
  · intro a
    simp only [List.map_cons, List.map_nil, List.mem_cons, List.not_mem_nil, or_false]
    constructor
    · rintro (rfl | rfl) <;> exact ⟨by decide, by simp⟩
    · rintro ⟨_, h⟩; tauto
  · intro a
    simp only [List.map_cons, List.map_nil, List.mem_cons, List.not_mem_nil, or_false]
    constructor
    · rintro rfl; exact ⟨by decide, rfl⟩
    · rintro ⟨_, h⟩; exact h

/-- the example's output -/
example : expandOut insertionSorter c56Fmt c56Info c71Query c71Recs = str "loop=l1/l2,function=main/foo,t=0.500000\nfunction=main\n" := by
  decide +kernel

example : ∀ fs ∈ c71Flds, CleanFields c56Fmt c71Query c56Info fs := by
  intro fs hfs
  simp only [c71Flds, List.mem_cons, List.not_mem_nil, or_false] at hfs
  rcases hfs with rfl | rfl | rfl <;> exact ⟨by decide, by decide⟩

/-! ## Violations -/

/-- **Violation (path).**  `SELECT path FORMAT expand` shows everything, `SELECT path,time` does not show the path. -/
theorem C71_violation_path :
    expandOut insertionSorter c56Fmt c56Info ⟨.list, [], true, fun _ => none⟩ [[.ref [(1, .string (str "main"))], .imm 4 (.int 3)]] =
      str "function=main,count=3\n" ∧ ¬Query.Expand.Shows ⟨.list, [], true, fun _ => none⟩ (c56Info 4) ∧
    expandOut insertionSorter c56Fmt c56Info ⟨.list, [str "count"], true, fun _ => none⟩ [[.ref [(1, .string (str "main"))], .imm 4 (.int 3)]] =
      str "count=3\n" ∧ Query.Expand.Shows ⟨.list, [str "count"], true, fun _ => none⟩ (c56Info 1) := by
  decide +kernel

/-- **Violation (separators).**  Separators in values are not escaped: different records have the same output. -/
theorem C71_violation_separator :
    expandOut insertionSorter c56Fmt c56Info ⟨.all, [], false, fun _ => none⟩ [[.imm 6 (.string (str "a,count=3"))]] =
      expandOut insertionSorter c56Fmt c56Info ⟨.all, [], false, fun _ => none⟩ [[.imm 6 (.string (str "a")), .imm 4 (.int 3)]] ∧
    expandOut insertionSorter c56Fmt c56Info ⟨.all, [], false, fun _ => none⟩ [[.ref [(1, .string (str "a/b"))]]] =
      expandOut insertionSorter c56Fmt c56Info ⟨.all, [], false, fun _ => none⟩ [[.ref [(1, .string (str "b")), (1, .string (str "a"))]]] ∧
    expandOut insertionSorter c56Fmt c56Info ⟨.all, [], false, fun _ => none⟩ [[.imm 6 (.string (str "a\ncount=3"))]] =
      expandOut insertionSorter c56Fmt c56Info ⟨.all, [], false, fun _ => none⟩ [[.imm 6 (.string (str "a"))], [.imm 4 (.int 3)]] := by
  decide +kernel

end Verif
