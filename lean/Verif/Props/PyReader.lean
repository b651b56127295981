import Verif.Py.Expand
import Verif.Props.CaliFile
/-!
# C103: the Python reader
-/
namespace Verif
open Verif.Cali Verif.Py

theorem pyLines_written {F : DblFmt} {S : Src} (hS : S.Sound F) (calls : List (Kind × List DEnt)) (hr : ∀ c ∈ calls, RecordOK F S c.2) :
    splitLines (caliFile F S calls) [] = (writeAll S .init calls).lines.map (WLine.text F) := by
  have hw := (writeAll_spec S hS.acyclic calls .init (WInv.init S) (fun c hc => (hr c hc).has))
  have key : ∀ ls : List (List Byte), (∀ l ∈ ls, ∀ c ∈ l, c ≠ ch '\n') → splitLines (fileText ls) [] = ls := by
    intro ls
    induction ls with
    | nil => intro _; simp [fileText, splitLines]
    | cons l ls ih =>
      intro h
      have e : fileText (l :: ls) = l ++ ch '\n' :: fileText ls := by simp [fileText]
      rw [e, splitLines_line _ _ _ (h l (by simp)), ih fun x hx => h x (List.mem_cons_of_mem _ hx)]
      simp
  refine key _ ?_
  intro l hl
  obtain ⟨w, hm, rfl⟩ := List.mem_map.1 hl
  have lit : ∀ s : List Byte, s.all (fun c => decide (c ≠ ch '\n')) = true → NoNL s := fun s h => str_no_newline s h
  cases w with
  | node id n =>
    obtain ⟨hn, h11⟩ := hw.1.lines id n hm
    have hsup : Supported F n.data := by
      by_cases h12 : 12 ≤ id
      · obtain ⟨_, _, _, _, hs, _⟩ := hS.attr id n hn h12; exact hs
      · have : id = 11 := by omega
        subst this
        rw [hS.boot 11 (by omega)] at hn
        cases hn
        show AttrType.ptr ≠ .inv
        decide
    show NoNL (nodeLine _ _ _ _)
    unfold nodeLine
    refine NoNL.append (NoNL.append (NoNL.append (NoNL.append (lit _ (by decide)) (writeUint_no_newline _))
      (NoNL.append (lit _ (by decide)) (writeUint_no_newline _))) (NoNL.append (lit _ (by decide)) (writeCali_no_newline F _ hsup))) ?_
    cases n.parent with
    | none => intro c hc; cases hc
    | some p => exact NoNL.append (lit _ (by decide)) (writeUint_no_newline _)
  | record k refs imms =>
    have : (k, refs, imms) ∈ recsOf (writeAll S .init calls).lines := by
      simp only [recsOf, List.mem_filterMap]
      exact ⟨_, hm, rfl⟩
    rw [hw.2] at this
    simp only [WState.init, recsOf, List.filterMap_nil, List.nil_append, List.mem_map] at this
    obtain ⟨c, hc, e⟩ := this
    cases e
    show NoNL (recLine _ _ _)
    unfold recLine
    refine NoNL.append (NoNL.append ?_ ?_) ?_
    · cases c.1 <;> exact lit _ (by decide)
    · split
      · intro c hc; cases hc
      · refine NoNL.append (lit _ (by decide)) (no_newline_eqList _ ?_)
        intro t ht
        obtain ⟨u, _, rfl⟩ := List.mem_map.1 ht
        exact writeUint_no_newline u
    · split
      · intro c hc; cases hc
      · refine NoNL.append (NoNL.append (lit _ (by decide)) (no_newline_eqList _ ?_)) (NoNL.append (lit _ (by decide)) (no_newline_eqList _ ?_))
        · intro t ht
          obtain ⟨u, _, rfl⟩ := List.mem_map.1 ht
          exact writeUint_no_newline _
        · intro t ht
          simp only [List.map_map, List.mem_map, Function.comp_apply] at ht
          obtain ⟨p, hp, rfl⟩ := ht
          exact writeCali_no_newline F _ ((hr c hc).imm p hp)

theorem py_written {F : DblFmt} {S : Src} (hS : S.Sound F) (hM : MetaOK F S) (calls : List (Kind × List DEnt)) (hr : ∀ c ∈ calls, RecordOK F S c.2)
    (want : Bool) : ∃ st, pyRead want (caliFile F S calls) = some st ∧ SInv F S want (writeAll S .init calls).lines calls st := by
  have hw := (writeAll_spec S hS.acyclic calls .init (WInv.init S) (fun c hc => (hr c hc).has))
  have h0 : SInv F S want [] [] PyState.init := ⟨PInv.init F S hS, by cases want <;> exact .nil, rfl⟩
  obtain ⟨st, e, h⟩ := lines_spec hS hM want _ (by rw [hw.1.ids]; exact hw.1.nodup) (fun id n hm => hw.1.lines id n hm) hw.1.defd
    (writeAll S .init calls).lines [] [] calls PyState.init (by simp) h0 (by simpa [WState.init, recsOf] using hw.2) hr
  refine ⟨st, ?_, by simpa using h⟩
  unfold pyRead
  rw [pyLines_written hS calls hr]
  exact e

/-- C103 (part): reading any file the library wrote: `read_caliper_contents` raises nothing and returns exactly one dictionary
per snapshot record, in order, whose entries are the values of the record's paths, outermost first, under the attributes'
names and under `path`, and the texts of the immediate entries; the second result are the entries of the last globals record
(or nothing).

Missing: records whose last immediate text is empty or ends with a blank, root nodes whose text ends with a blank, attributes
called `path` (see the theorems below); values the format cannot represent (C25); two paths of one record with the same
attribute (only the last one is kept, as `recordEntry` says). -/
theorem C103_contents_partial (F : DblFmt) (S : Src) (hS : S.Sound F) (hM : MetaOK F S) (calls : List (Kind × List DEnt))
    (hr : ∀ c ∈ calls, RecordOK F S c.2) :
    ∃ records globals, readContents (caliFile F S calls) = some (records, globals) ∧
      List.Forall₂ (DictOf F S) ((calls.filter (·.1 = .snapshot)).map (·.2)) records ∧
      match (calls.filter (·.1 = .globals)).getLast? with
      | none => globals = []
      | some c => DictOf F S c.2 globals := by
  obtain ⟨st, e, h⟩ := py_written hS hM calls hr true
  exact ⟨st.records, st.globals, by simp [readContents, e], by simpa using h.recs, h.glob⟩

/-- C103: `read_caliper_globals` returns the same globals as `read_caliper_contents`, without looking at the records. -/
theorem C103_globals_partial (F : DblFmt) (S : Src) (hS : S.Sound F) (hM : MetaOK F S) (calls : List (Kind × List DEnt))
    (hr : ∀ c ∈ calls, RecordOK F S c.2) :
    ∃ globals, readGlobals (caliFile F S calls) = some globals ∧
      match (calls.filter (·.1 = .globals)).getLast? with
      | none => globals = []
      | some c => DictOf F S c.2 globals := by
  obtain ⟨st, e, h⟩ := py_written hS hM calls hr false
  exact ⟨st.globals, by simp [readGlobals, e], h.glob⟩

/-- C103: the dictionary of a record in which the paths and immediate entries concern different attributes: under every name
there are all the values of that attribute on the paths, outermost first, and the text of the immediate entry of that name;
under `path` all values of nested attributes; nothing else. -/
theorem C103_every_value (F : DblFmt) (S : Src) (es : List DEnt) (d : Dict) (h : DictOf F S es d) :
    ∃ paths imms, List.Forall₂ (fun i l => PathTo F S (some i) l) (S.refsOf es) paths ∧ Imms F S (S.immsOf es) imms ∧
      ((imms.map (·.1)).Nodup → ∀ e ∈ imms, lookup (.text e.1) d = some (.one (.text e.2))) ∧
      (∀ k, k ≠ str "path" → (∀ e ∈ imms, e.1 ≠ k) → (∀ l l', l ∈ paths → l' ∈ paths → (∃ x ∈ l, x.name = k) → (∃ x ∈ l', x.name = k) → l = l') →
        ∀ l ∈ paths, (∃ x ∈ l, x.name = k) → lookup (.text k) d = pack ((l.filter (·.name = k)).map (·.data))) ∧
      (∀ k, k ≠ str "path" → (∀ e ∈ imms, e.1 ≠ k) → (∀ l ∈ paths, ∀ x ∈ l, x.name ≠ k) → lookup (.text k) d = none) ∧
      ((∀ e ∈ imms, e.1 ≠ str "path") → (∀ l l', l ∈ paths → l' ∈ paths → (∃ x ∈ l, x.nested) → (∃ x ∈ l', x.nested) → l = l') →
        ∀ l ∈ paths, (∃ x ∈ l, x.nested) → lookup (.text (str "path")) d = some (.many ((l.filter (·.nested)).map (·.data)))) := by
  obtain ⟨paths, imms, h1, h2, h3, h4⟩ := h
  refine ⟨paths, imms, h1, h2, ?_, ?_, ?_, ?_⟩
  all_goals
    have none_ : ∀ {α : Type} (l : List (Option α)), (∀ x ∈ l, x = none) → lastSome l = none := by
      intro α l
      induction l with
      | nil => intro _; rfl
      | cons a l ih => intro h; rw [lastSome_cons, ih (fun x hx => h x (List.mem_cons_of_mem _ hx)), h a (by simp)]; rfl
    have same : ∀ {α : Type} (l : List (Option α)) (v : α), some v ∈ l → (∀ x ∈ l, x = none ∨ x = some v) → lastSome l = some v := by
      intro α l v
      induction l with
      | nil => intro h; cases h
      | cons a l ih =>
        intro hm h
        rw [lastSome_cons]
        by_cases hl : some v ∈ l
        · rw [ih hl fun x hx => h x (List.mem_cons_of_mem _ hx)]; rfl
        · have ha : some v = a := by
            rcases List.mem_cons.1 hm with e | e
            · exact e
            · exact absurd e hl
          rw [none_ l]
          · simp [← ha]
          · intro x hx
            rcases h x (List.mem_cons_of_mem _ hx) with e | e
            · exact e
            · rw [e] at hx; exact absurd hx hl
  · intro hnd e he
    rw [h3, recordEntry, same _ (PVal.one (.text e.2))]
    · rfl
    · exact List.mem_map.2 ⟨e, he, by simp⟩
    · intro x hx
      obtain ⟨e', he', rfl⟩ := List.mem_map.1 hx
      by_cases hk : e'.1 = e.1
      · right
        have : e' = e := by
          have := List.inj_on_of_nodup_map hnd he' he hk
          exact this
        rw [this]; simp
      · left; simp [hk]
  · intro k hk hi hu l hl hx
    rw [h3, recordEntry, none_ (imms.map _)]
    · rw [Option.none_or]
      have hp : ∀ l : List Item, pathEntry l k = pack ((l.filter (·.name = k)).map (·.data)) := fun l => by simp [pathEntry, hk]
      have hsome : ∃ v, pathEntry l k = some v := by
        rw [hp]
        obtain ⟨x, hx, hxk⟩ := hx
        have : x ∈ l.filter (·.name = k) := List.mem_filter.2 ⟨hx, by simpa using hxk⟩
        rcases pack_cases ((l.filter (·.name = k)).map (·.data)) with ⟨e, _⟩ | ⟨d, _, e⟩ | e
        · rw [List.map_eq_nil_iff] at e; rw [e] at this; cases this
        · exact ⟨_, e⟩
        · exact ⟨_, e⟩
      obtain ⟨v, hv⟩ := hsome
      rw [← hp, hv]
      refine same _ v (List.mem_map.2 ⟨l, hl, hv⟩) ?_
      intro y hy
      obtain ⟨l', hl', rfl⟩ := List.mem_map.1 hy
      by_cases hx' : ∃ x ∈ l', x.name = k
      · right; rw [← hu l l' hl hl' hx hx']; exact hv
      · left
        rw [hp]
        have : l'.filter (·.name = k) = [] := List.filter_eq_nil_iff.2 fun x hxm => by
          simp only [decide_eq_true_eq]; exact fun e => hx' ⟨x, hxm, e⟩
        rw [this]; rfl
    · intro x hx
      obtain ⟨e, he, rfl⟩ := List.mem_map.1 hx
      simp [hi e he]
  · intro k hk hi hu
    rw [h3, recordEntry, none_, none_]
    · rfl
    · intro x hx
      obtain ⟨l, hl, rfl⟩ := List.mem_map.1 hx
      have : l.filter (·.name = k) = [] := List.filter_eq_nil_iff.2 fun x hxm => by
        simp only [decide_eq_true_eq]; exact hu l hl x hxm
      simp [pathEntry, hk, this, pack]
    · intro x hx
      obtain ⟨e, he, rfl⟩ := List.mem_map.1 hx
      simp [hi e he]
  · intro hi hu l hl hx
    rw [h3, recordEntry, none_ (imms.map _)]
    · rw [Option.none_or]
      have hp : ∀ l : List Item, (∃ x ∈ l, x.nested) → pathEntry l (str "path") = some (.many ((l.filter (·.nested)).map (·.data))) := by
        intro l hx
        obtain ⟨x, hx, hxn⟩ := hx
        have : x ∈ l.filter (·.nested) := List.mem_filter.2 ⟨hx, hxn⟩
        simp only [pathEntry, if_true]
        cases hm : (l.filter (·.nested)).map (·.data) with
        | nil => rw [List.map_eq_nil_iff] at hm; rw [hm] at this; cases this
        | cons a b => rfl
      refine same _ _ (List.mem_map.2 ⟨l, hl, hp l hx⟩) ?_
      intro y hy
      obtain ⟨l', hl', rfl⟩ := List.mem_map.1 hy
      by_cases hx' : ∃ x ∈ l', x.nested
      · right; rw [← hu l l' hl hl' hx hx']; exact hp l hx
      · left
        have : l'.filter (·.nested) = [] := List.filter_eq_nil_iff.2 fun x hxm => fun e => hx' ⟨x, hxm, e⟩
        simp [pathEntry, this]
    · intro x hx
      obtain ⟨e, he, rfl⟩ := List.mem_map.1 hx
      simp [hi e he]

/-- C103: the attribute objects: after reading, `attribute(name)` for the name of an attribute in the file that no other
attribute there has is that attribute, with the same properties (`is_value` bit 0, `is_hidden` bit 7, `is_nested` bit 8,
`is_global` bit 9, `is_aggregatable` bit 11, and the scope bits). -/
theorem C103_attributes_partial (F : DblFmt) (S : Src) (hS : S.Sound F) (hM : MetaOK F S) (calls : List (Kind × List DEnt))
    (hr : ∀ c ∈ calls, RecordOK F S c.2) :
    ∃ st, pyRead true (caliFile F S calls) = some st ∧
      ∀ a name prop, IsAttr S a name prop → WLine.node a ((S.node a).getD ⟨0, .inv, none⟩) ∈ (writeAll S .init calls).lines →
        (∀ b q prop', b ≠ a → S.node b = some ⟨8, .string name, q⟩ → IsAttr S b name prop' → 11 ≤ b ∧ ∀ n, WLine.node b n ∉ (writeAll S .init calls).lines) →
        lookup (.text name) st.db.names = some a ∧
        ∃ p, lookup a st.db.attrs = some (.text name, p) ∧ ∀ k, k < 32 → hasBit p k = prop.getLsbD k := by
  obtain ⟨st, e, h⟩ := py_written hS hM calls hr true
  refine ⟨st, e, ?_⟩
  rintro a name prop ⟨⟨q, hn⟩, D, hD, rfl⟩ hm hu
  have hh : Has (writeAll S .init calls).lines a := .inr (mem_nodeIds.2 ⟨_, hm⟩)
  have hdt : dataOf F a (.string name) = .text name := rfl
  refine ⟨?_, ?_⟩
  · rw [← hdt]
    refine h.db.name a _ hh hn rfl ?_
    intro j m hj hm1 hm8 hd
    by_contra hne
    obtain ⟨a', d', q'⟩ := m
    simp only at hm8 hd
    subst hm8 hd
    obtain ⟨D', hD'⟩ := hS.denotes _ j rfl (by rw [hm1]; rfl)
    obtain ⟨h11, h12⟩ := hu j q' D'.attrProp hne hm1 ⟨⟨q', hm1⟩, D', hD', rfl⟩
    rcases hj with hj | hj
    · omega
    · obtain ⟨n, hn⟩ := mem_nodeIds.1 hj
      exact h12 n hn
  · obtain ⟨p, h1, h2⟩ := h.db.attr a _ hh hn rfl
    exact ⟨p, h1, h2 D hD⟩

/-! ## the hypotheses are met -/

theorem demo_meta : MetaOK Demo.F (DB.asSource Demo.src) := by
  have all : ∀ i, i < Demo.src.nodes.length → ∀ n ∈ Demo.src.nodes[i]?, (n.attr = 8 → n.parent ≠ none) ∧ (n.attr = 8 → n.data ≠ .string (str "path")) ∧
      (n.parent = none → (textOf Demo.F n.data).getLast? ≠ some 32) := by decide +kernel
  have lt : ∀ i n, (DB.asSource Demo.src).node i = some n → i < Demo.src.nodes.length := fun i n h => (List.getElem?_eq_some_iff.1 h).1
  exact ⟨fun i n h => (all i (lt i n h) n h).1, fun i n h => (all i (lt i n h) n h).2.1, fun i n h => (all i (lt i n h) n h).2.2⟩

theorem demo_rec : RecordOK Demo.F (DB.asSource Demo.src) Demo.rec1 := by
  have e : (DB.asSource Demo.src).immsOf Demo.rec1 = [(18, .int 42)] := by decide +kernel
  refine ⟨Demo.rec1_ok.has, fun p hp => (Demo.rec1_ok.imm p hp).1, ?_⟩
  rw [e]
  intro p hp
  simp at hp
  subst hp
  decide +kernel

/-- what Python returns for the example: the path `main/fo=o,` and `count=42`, and globals -/
example : (DB.asSource Demo.src).Sound Demo.F ∧ MetaOK Demo.F (DB.asSource Demo.src) ∧ RecordOK Demo.F (DB.asSource Demo.src) Demo.rec1 ∧
    readContents (caliFile Demo.F (DB.asSource Demo.src) [(.snapshot, Demo.rec1), (.globals, [⟨some 18, .int 7⟩]), (.snapshot, [])]) =
      some ([[(.text (str "region"), .many [.text (str "main"), .text (str "fo=o,")]), (.text (str "path"), .many [.text (str "main"), .text (str "fo=o,")]),
              (.text (str "count"), .one (.text (str "42")))], []],
            [(.text (str "count"), .one (.text (str "7")))]) :=
  ⟨Demo.src_sound, demo_meta, demo_rec, by decide +kernel⟩

/-! ## limits -/

/-- a string attribute and a number attribute stored as values, and a nested attribute called `path` -/
def pyOdd : DB :=
  let db := (DB.init.createAttribute (str "tag") .string 1 [] 14 13).1
  let db := (db.createAttribute (str "count") .int 1 [] 14 13).1
  let db := (db.createAttribute (str "path") .string 256 [] 14 13).1
  let db := (db.createAttribute (str "file") .string 0 [] 14 13).1
  let db := (db.mergeNode 50 20 invN (.string (str "a"))).1
  let db := (db.mergeNode 51 22 invN (.string (str "x "))).1
  (db.mergeNode 52 22 invN (.string (str "y"))).1

/-- limit of C103: if the last immediate entry of a record has an empty text, all immediate entries of the record are lost -/
theorem C103_empty_last_violated :
    readContents (caliFile Demo.F (DB.asSource pyOdd) [(.snapshot, [⟨some 18, .int 42⟩, ⟨some 16, .string []⟩])]) = some ([[]], []) ∧
    readContents (caliFile Demo.F (DB.asSource pyOdd) [(.snapshot, [⟨some 16, .string []⟩, ⟨some 18, .int 42⟩])]) =
      some ([[(.text (str "tag"), .one (.text [])), (.text (str "count"), .one (.text (str "42")))]], []) := by
  constructor <;> decide +kernel

/-- limit of C103: blanks at the end of the last text of a line are lost -/
theorem C103_trailing_blank_violated :
    readContents (caliFile Demo.F (DB.asSource pyOdd) [(.snapshot, [⟨some 18, .int 1⟩, ⟨some 16, .string (str "a ")⟩]), (.snapshot, [⟨some 24, .inv⟩])]) =
      some ([[(.text (str "count"), .one (.text (str "1"))), (.text (str "tag"), .one (.text (str "a")))],
             [(.text (str "file"), .one (.text (str "x")))]], []) := by
  decide +kernel

/-- limit of C103: of two paths with the same attribute only the last one's values are kept -/
theorem C103_two_paths_violated :
    readContents (caliFile Demo.F (DB.asSource pyOdd) [(.snapshot, [⟨some 24, .inv⟩, ⟨some 25, .inv⟩])]) =
      some ([[(.text (str "file"), .one (.text (str "y")))]], []) := by
  decide +kernel

/-- limit of C103: a nested attribute called `path` makes the reader raise an exception, for the whole file -/
theorem C103_path_attribute_violated :
    readContents (caliFile Demo.F (DB.asSource pyOdd) [(.snapshot, [⟨some 18, .int 1⟩]), (.snapshot, [⟨some 23, .inv⟩])]) = none := by
  decide +kernel

/-- limit of C103: the type of an attribute is reported by name for the built-in types, but as `t` for pointers, whose type
node the writer includes in the file -/
theorem C103_pointer_type_violated :
    let file := caliFile Demo.F (DB.asSource (DB.init.createAttribute (str "p") .ptr 1 [] 14 13).1) [(.snapshot, [⟨some 16, .inv⟩])]
    (pyRead true file).bind (fun st => (lookup (.text (str "p")) st.db.names).bind st.db.attrType) = some (str "t") ∧
    let file := caliFile Demo.F (DB.asSource (DB.init.createAttribute (str "p") .addr 1 [] 14 13).1) [(.snapshot, [⟨some 16, .addr 3⟩])]
    (pyRead true file).bind (fun st => (lookup (.text (str "p")) st.db.names).bind st.db.attrType) = some (str "addr") := by
  constructor <;> decide +kernel

/-- limit of C103: a blank line, which the C++ reader skips, makes the Python reader raise an exception -/
theorem C103_blank_line_violated (F : DblFmt) (db : DB) : readContents (str "\n") = none ∧ readCali F db (str "\n") = some ⟨db, [], false, []⟩ := by
  refine ⟨by decide +kernel, ?_⟩
  have p : parseFile (str "\n") = [] := by decide +kernel
  rw [readCali, p]
  rfl

end Verif
