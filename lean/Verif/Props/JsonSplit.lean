import Verif.Query.JsonSplitLemmas
/-!
# C70: the json-split output
-/
namespace Verif
open Verif.Cali Verif.Query Verif.Query.Json

variable {F : DblFmt}

/-- a node in the output -/
def nodeJ (n : HNode) : JVal :=
  .obj ((str "label", .string (clean n.label)) :: (str "column", .string (clean n.column)) ::
    match n.parent with
    | some p => [(str "parent", .num (dec p))]
    | none => [])

theorem label_pair (k : String) (hk : PlainName (str k)) (s : Str) :
    PairReads (str "\"" ++ str k ++ str "\": \"" ++ writeJsonEsc s ++ str "\"") (str k, .string (clean s)) := by
  refine ⟨str k, [ch ' '] ++ (ch '"' :: (writeJsonEsc s ++ [ch '"'])), ?_, plainName_keyText hk, (reads_string (keyText_esc _)).ws (by decide)⟩
  have h1 : str "\"" = [ch '"'] := rfl
  have h2 : str "\": \"" = [ch '"', ch ':', ch ' ', ch '"'] := rfl
  simp [h1, h2]

theorem node_reads (n : HNode) : Reads (nodeText n) (nodeJ n) := by
  have l1 := label_pair "label" (by unfold PlainName; decide) n.label
  have l2 := label_pair "column" (by unfold PlainName; decide) n.column
  have l3 : ∀ p, PairReads (str "\"parent\": " ++ dec p) (str "parent", .num (dec p)) := by
    intro p
    exact ⟨str "parent", [ch ' '] ++ dec p, rfl, plainName_keyText (by unfold PlainName; decide), (reads_dec p).ws (by decide)⟩
  let l : List (List Byte × (Str × JVal)) :=
    (str "\"" ++ str "label" ++ str "\": \"" ++ writeJsonEsc n.label ++ str "\"", (str "label", .string (clean n.label))) ::
    (str "\"" ++ str "column" ++ str "\": \"" ++ writeJsonEsc n.column ++ str "\"", (str "column", .string (clean n.column))) ::
    (match n.parent with
    | some p => [(str "\"parent\": " ++ dec p, (str "parent", JVal.num (dec p)))]
    | none => [])
  have hl : ∀ x ∈ l, PairReads x.1 x.2 := by
    intro x hx
    simp only [l, List.mem_cons] at hx
    rcases hx with rfl | rfl | hx
    · exact l1
    · exact l2
    · cases hp : n.parent with
      | none => rw [hp] at hx; cases hx
      | some p =>
        rw [hp] at hx
        simp only [List.mem_singleton] at hx
        subst hx
        exact l3 p
  have := obj_seq_reads (sep := ch ',' :: [ch ' ']) (first := []) (pre := []) (w := [ch ' ']) (w0 := [ch ' ']) rfl (by decide) (by decide)
    (by decide) (by decide) (by decide) hl
  have e1 : str "{ \"label\": \"" = ch '{' :: ch ' ' :: (str "\"" ++ str "label" ++ str "\": \"") := rfl
  have e2 : str ", \"column\": \"" = ch ',' :: ch ' ' :: (str "\"" ++ str "column" ++ str "\": \"") := rfl
  have e3 : str ", \"parent\": " = ch ',' :: ch ' ' :: str "\"parent\": " := rfl
  have e4 : str " }" = [ch ' '] ++ [ch '}'] := rfl
  unfold nodeText nodeJ
  rw [e1, e2, e4]
  cases hp : n.parent with
  | none =>
    simp only [l, hp] at this
    simpa [writeSeq] using this
  | some p =>
    simp only [l, hp] at this
    rw [e3]
    simpa [writeSeq] using this

theorem nodePath_of {H : Hier} {P : List (List Str)} (h : HInv H P) (i : Nat) (q : List Str) (hi : P[i]? = some q) :
    NodePath (H.map nodeJ) i (q.map clean) := by
  induction i using Nat.strongRecOn generalizing q with
  | _ i ih =>
    have hlt : i < H.length := by rw [← h.len]; exact (List.getElem?_eq_some_iff.1 hi).1
    have hn := List.getElem?_eq_getElem hlt
    generalize H[i] = n at hn
    have hn' : (H.map nodeJ)[i]? = some (nodeJ n) := by rw [List.getElem?_map, hn]; rfl
    rcases h.node i n hn with ⟨h1, h2⟩ | ⟨p, q', h1, h2, h3, h4⟩
    · rw [hi] at h2; cases h2
      refine .root (c := clean n.column) ?_
      rw [hn', nodeJ, h1]
    · rw [hi] at h4; cases h4
      have := ih p h2 q' h3
      rw [List.map_append]
      refine .child (c := clean n.column) (j := p) ?_ this
      rw [hn', nodeJ, h1]

/-- a run of comma-separated pairs -/
theorem flatMap_seq {α : Type} (sep : List Byte) (f : α → List Byte) (l : List α) :
    (l.flatMap fun x => sep ++ f x) = writeSeq sep sep [] (l.map f) := by
  induction l with
  | nil => rfl
  | cons x l ih => rw [List.flatMap_cons, List.map_cons, writeSeq, ih]; simp

theorem metaAttrs_eq (q : SQuery) (D : SDB) (hnd : D.attrs.Nodup) (c : SCol) (hc : c ∈ specCols q D) :
    (c.col q D).attrs = D.attrs.filter fun b => decide (Selected q (D.info b)) && decide (c.Has q D b) := by
  have single : ∀ a, a ∈ shown q D → [a] = D.attrs.filter fun b => decide (Selected q (D.info b)) && decide (b = a) := by
    intro a ha
    obtain ⟨h1, h2⟩ := List.mem_filter.1 ha
    have e : D.attrs.filter (fun b => decide (Selected q (D.info b)) && decide (b = a)) = D.attrs.filter fun b => b == a := by
      refine List.filter_congr fun b _ => ?_
      rw [Bool.eq_iff_iff]
      simp only [Bool.and_eq_true, decide_eq_true_eq, beq_iff_eq]
      constructor
      · exact fun h => h.2
      · rintro rfl; exact ⟨of_decide_eq_true h2, rfl⟩
    rw [e, List.filter_beq, List.count_eq_one_of_mem hnd h1]
    rfl
  have hmem : ∀ a, (c = .value a ∨ c = .tree a) → a ∈ shown q D := by
    intro a ha
    unfold specCols at hc
    rcases List.mem_append.1 hc with hc | hc
    · obtain ⟨b, hb, he⟩ := List.mem_map.1 hc
      have : b = a := by
        split at he <;> rcases ha with ha | ha <;> rw [ha] at he <;> cases he <;> rfl
      rw [← this]; exact (List.mem_filter.1 hb).1
    · split at hc
      · simp only [List.mem_singleton] at hc
        rcases ha with ha | ha <;> rw [hc] at ha <;> cases ha
      · cases hc
  cases c with
  | value a => exact single a (hmem a (.inl rfl))
  | tree a => exact single a (hmem a (.inr rfl))
  | path =>
    simp only [SCol.col, SCol.Has, shown, List.filter_filter]
    refine List.filter_congr fun b hb => ?_
    rw [Bool.eq_iff_iff]
    simp only [Bool.and_eq_true, decide_eq_true_eq, List.mem_filter]
    tauto

theorem meta_reads (q : SQuery) (D : SDB) (hnd : D.attrs.Nodup) (c : SCol) (hc : c ∈ specCols q D) :
    Reads (str "{ " ++ colMetaText F D (c.col q D) ++ str " }") (.obj (specMeta F q D c)) := by
  have hb : (c.col q D).hier = !c.isValue := by cases c <;> rfl
  have hm : metaPairs D (c.col q D) = attrMeta D (D.attrs.filter fun b => decide (Selected q (D.info b)) && decide (c.Has q D b)) := by
    rw [← metaAttrs_eq q D hnd c hc]
    unfold metaPairs attrMeta
    generalize (c.col q D).attrs = l
    have key : ∀ a, (D.path a).tail.filter (fun n => !(decide (n.1 < 12) || (D.info n.1).hidden)) =
        (D.path a).tail.filter fun n => decide (12 ≤ n.1) && !(D.info n.1).hidden := by
      intro a
      refine List.filter_congr fun n _ => ?_
      rw [Bool.eq_iff_iff]
      simp
    rcases l with _ | ⟨a, _ | ⟨b, l⟩⟩
    · rfl
    · exact key a
    · rfl
  let l : List (List Byte × (Str × JVal)) :=
    (str "\"is_value\": " ++ (if c.isValue then str "true" else str "false"), (str "is_value", .bool c.isValue)) ::
    (metaPairs D (c.col q D)).map fun n =>
      (str "\"" ++ writeJsonEsc (D.info n.1).name ++ str "\": " ++ str "\"" ++ writeJsonEsc (n.2.toStr F) ++ str "\"",
        ((clean (D.info n.1).name, .string (clean (n.2.toStr F))) : Str × JVal))
  have hl : ∀ x ∈ l, PairReads x.1 x.2 := by
    intro x hx
    simp only [l, List.mem_cons, List.mem_map] at hx
    rcases hx with rfl | ⟨n, -, rfl⟩
    · exact ⟨str "is_value", [ch ' '] ++ (if c.isValue then str "true" else str "false"), rfl, plainName_keyText (by unfold PlainName; decide),
        (reads_bool _).ws (by decide)⟩
    · refine ⟨writeJsonEsc (D.info n.1).name, [ch ' '] ++ (ch '"' :: (writeJsonEsc (n.2.toStr F) ++ [ch '"'])), ?_, keyText_esc _,
        (reads_string (keyText_esc _)).ws (by decide)⟩
      have h1 : str "\"" = [ch '"'] := rfl
      have h2 : str "\": " = [ch '"', ch ':', ch ' '] := rfl
      simp [h1, h2]
  have hr := obj_seq_reads (sep := ch ',' :: [ch ' ']) (first := []) (pre := []) (w := [ch ' ']) (w0 := [ch ' ']) rfl (by decide) (by decide)
    (by decide) (by decide) (by decide) hl
  have hsnd : l.map Prod.snd = specMeta F q D c := by
    simp only [l, List.map_cons, List.map_map, Function.comp_def, specMeta]
    rw [hm]
  rw [hsnd] at hr
  have e1 : str "{ " = ch '{' :: [ch ' '] := rfl
  have e2 : str " }" = [ch ' '] ++ [ch '}'] := rfl
  have e3 : str ", \"" = (ch ',' :: [ch ' ']) ++ str "\"" := rfl
  have e4 : colMetaText F D (c.col q D) = writeSeq [] (ch ',' :: [ch ' ']) [] (l.map Prod.fst) := by
    unfold colMetaText
    simp only [l, List.map_cons, writeSeq, List.map_map, Function.comp_def]
    rw [← flatMap_seq, hb]
    cases c.isValue <;> simp [e3]
  rw [e1, e2, e4]
  simpa using hr

theorem metaSeq_eq (ts : List (List Byte)) :
    writeSeq (str " { ") (str " }, { ") [] ts ++ (if ts ≠ [] then str " } " else []) =
      writeSeq (str " ") (str ", ") [] (ts.map fun t => str "{ " ++ t ++ str " }") ++ (if ts ≠ [] then str " " else []) := by
  have key : ∀ (ts : List (List Byte)), writeSeq (str " }, { ") (str " }, { ") [] ts ++ str " }" =
      str " }" ++ writeSeq (str ", ") (str ", ") [] (ts.map fun t => str "{ " ++ t ++ str " }") := by
    intro ts
    induction ts with
    | nil => simp [writeSeq]
    | cons t ts ih =>
      rw [List.map_cons, writeSeq, writeSeq]
      have e : str " }, { " = str " }" ++ str ", " ++ str "{ " := rfl
      simp only [List.append_assoc, ih]
      rw [e]
      simp
  cases ts with
  | nil => rfl
  | cons t ts =>
    have e1 : str " } " = str " }" ++ str " " := rfl
    have e2 : str " { " = str " " ++ str "{ " := rfl
    rw [if_pos (by simp), if_pos (by simp), List.map_cons, writeSeq, writeSeq, e1, e2]
    have := key ts
    simp only [List.append_assoc, List.append_nil, List.nil_append] at this ⊢
    rw [← List.append_assoc (writeSeq (str " }, { ") (str " }, { ") [] ts), this]
    simp

theorem hierCell_inv (D : SDB) (H : Hier) (r : List QEnt) (c : Column) (h : ∃ P, HInv H P) : ∃ P, HInv (splitCell F D r H c).1 P := by
  unfold splitCell
  split
  · obtain ⟨P, hP⟩ := h
    obtain ⟨P', h1, -⟩ := getId_inv hP ((hierPath D r c.attrs).map (·.toStr F)) c.title
    unfold hierCell
    rcases hg : H.getId ((hierPath D r c.attrs).map (·.toStr F)) c.title with ⟨H', o⟩
    rw [hg] at h1 ⊢
    cases o <;> exact ⟨P', h1⟩
  · exact h

theorem thread_inv {α : Type} (f : Hier → α → Hier × List Byte) (hf : ∀ H x, (∃ P, HInv H P) → ∃ P, HInv (f H x).1 P) (l : List α) (H : Hier)
    (h : ∃ P, HInv H P) : ∃ P, HInv (thread f H l).1 P := by
  induction l generalizing H with
  | nil => exact h
  | cons x l ih => rw [thread]; exact ih _ (hf H x h)

/-- the records that were added -/
def addedRecs (ops : List SOp) : List (List QEnt) := ops.filterMap fun o => match o with | .add r => some r | .flush _ => none

theorem run_facts (C : SCfg) (ops : List SOp) :
    (splitRun F C ops).recs = addedRecs ops ∧ (∃ P, HInv (splitRun F C ops).hier P) ∧
    ((∀ D, SOp.flush D ∉ ops) → (splitRun F C ops).hier = []) := by
  induction ops using List.reverseRecOn with
  | nil => exact ⟨rfl, ⟨[], HInv.nil⟩, fun _ => rfl⟩
  | append_singleton ops o ih =>
    obtain ⟨h1, h2, h3⟩ := ih
    have e : splitRun F C (ops ++ [o]) = match o with
      | .add r => (splitRun F C ops).add r
      | .flush D => ((splitRun F C ops).flush F C D).1 := by
      unfold splitRun
      rw [List.foldl_append, List.foldl_cons, List.foldl_nil]
      cases o <;> rfl
    rw [e]
    cases o with
    | add r =>
      refine ⟨?_, h2, fun hh => h3 fun D hD => hh D (by simp [hD])⟩
      simp only [SState.add, addedRecs, List.filterMap_append] at h1 ⊢
      rw [h1]; rfl
    | flush D =>
      refine ⟨?_, ?_, fun hh => absurd (by simp) (hh D)⟩
      · simp only [SState.flush, addedRecs, List.filterMap_append] at h1 ⊢
        rw [h1]; simp
      · exact thread_inv _ (fun H r h => thread_inv _ (fun H c h => hierCell_inv D H r c h) _ H h) _ _ h2

theorem globals_shown {D : SDB} (hnd : ((items D.globals).map fun x => x.2.1).Nodup) :
    GlobalsShown F D ((globalVals F D.globals).map fun e => (clean (D.info e.1).name, .string (clean e.2))) := by
  constructor
  · rw [List.length_map, globalVals_items]
    generalize items D.globals = l at hnd
    have key : (l.foldl (addGItem F) []).length = l.length ∧ ∀ k, k ∈ (l.foldl (addGItem F) []).map Prod.fst → k ∈ l.map fun x => x.2.1 := by
      induction l using List.reverseRecOn with
      | nil => simp
      | append_singleton l x ih =>
        rw [List.map_append, List.nodup_append] at hnd
        obtain ⟨i1, i2⟩ := ih hnd.1
        rw [List.foldl_append, List.foldl_cons, List.foldl_nil]
        generalize l.foldl (addGItem F) [] = m at i1 i2
        have hk : x.2.1 ∉ m.map Prod.fst := fun hk => hnd.2.2 _ (i2 _ hk) x.2.1 (by simp) rfl
        have hins : ∀ (k : Nat) (v : Str) (m : GMap), (m.ins k v).length = m.length + 1 := by
          intro k v m
          induction m with
          | nil => rfl
          | cons y m ih => unfold GMap.ins; split <;> simp [ih]
        have hadd : ∃ v, addGItem F m x = m.ins x.2.1 v := by
          have hs : ∀ v, m.set x.2.1 v = m.ins x.2.1 v := fun v => if_neg hk
          unfold addGItem addGlobalNode
          simp only [hs]
          split
          · exact ⟨_, rfl⟩
          · exact ⟨_, rfl⟩
        obtain ⟨v, hv⟩ := hadd
        rw [hv]
        refine ⟨by rw [hins, i1]; simp, ?_⟩
        intro k hk'
        obtain ⟨y, hy, rfl⟩ := List.mem_map.1 hk'
        rcases GMap.mem_ins.1 hy with rfl | hy
        · simp
        · rw [List.map_append]; exact List.mem_append_left _ (i2 _ (List.mem_map_of_mem hy))
    exact key.1
  · intro k w
    rw [List.mem_map]
    constructor
    · rintro ⟨e, he, heq⟩
      obtain ⟨x, hx, rfl⟩ := (globalVals_mem hnd e).1 he
      simp only [Prod.mk.injEq] at heq
      exact ⟨x, hx, heq.1.symm, heq.2.symm⟩
    · rintro ⟨x, hx, rfl, rfl⟩
      exact ⟨(x.2.1, x.2.2.toStr F), (globalVals_mem hnd _).2 ⟨x, hx, rfl⟩, rfl⟩

theorem forall2_map {α : Type} (l : List α) (f : α → List Byte) (g : α → JVal) (h : ∀ x ∈ l, Reads (f x) (g x)) :
    List.Forall₂ Reads (l.map f) (l.map g) := by
  induction l with
  | nil => exact .nil
  | cons x l ih => exact .cons (h x (by simp)) (ih fun y hy => h y (by simp [hy]))

theorem pair_of (k : String) (hk : PlainName (str k)) {t : List Byte} {v : JVal} (h : Reads t v) :
    PairReads (str "\"" ++ str k ++ str "\": " ++ t) (str k, v) := by
  refine ⟨str k, [ch ' '] ++ t, ?_, plainName_keyText hk, h.ws (by decide)⟩
  have h1 : str "\"" = [ch '"'] := rfl
  have h2 : str "\": " = [ch '"', ch ':', ch ' '] := rfl
  simp [h1, h2]

/-- the whole text -/
theorem doc_reads (D : SDB) (gv : GMap) {t1 t2 t3 t4 : List Byte} {v1 v2 v3 v4 : JVal} (h1 : Reads t1 v1) (h2 : Reads t2 v2) (h3 : Reads t3 v3)
    (h4 : Reads t4 v4) :
    parseJson (str "{\n  \"data\": " ++ t1 ++ str ",\n  \"columns\": " ++ t2 ++ str ",\n  \"column_metadata\": " ++ t3 ++
      str ",\n  \"nodes\": " ++ t4 ++ writeSeq (str ",\n  ") (str ",\n  ") [] (gv.map (globalKV D.info)) ++ str "\n}" ++ str "\n") =
    some (.obj ((str "data", v1) :: (str "columns", v2) :: (str "column_metadata", v3) :: (str "nodes", v4) ::
      gv.map fun e => (clean (D.info e.1).name, .string (clean e.2)))) := by
  let l : List (List Byte × (Str × JVal)) :=
    (str "\"" ++ str "data" ++ str "\": " ++ t1, (str "data", v1)) ::
    (str "\"" ++ str "columns" ++ str "\": " ++ t2, (str "columns", v2)) ::
    (str "\"" ++ str "column_metadata" ++ str "\": " ++ t3, (str "column_metadata", v3)) ::
    (str "\"" ++ str "nodes" ++ str "\": " ++ t4, (str "nodes", v4)) ::
    gv.map fun e => (globalKV D.info e, ((clean (D.info e.1).name, .string (clean e.2)) : Str × JVal))
  have hl : ∀ x ∈ l, PairReads x.1 x.2 := by
    intro x hx
    simp only [l, List.mem_cons, List.mem_map] at hx
    rcases hx with rfl | rfl | rfl | rfl | ⟨e, -, rfl⟩
    · exact pair_of "data" (by unfold PlainName; decide) h1
    · exact pair_of "columns" (by unfold PlainName; decide) h2
    · exact pair_of "column_metadata" (by unfold PlainName; decide) h3
    · exact pair_of "nodes" (by unfold PlainName; decide) h4
    · exact global_pair e
  have hr := obj_seq_reads (sep := str ",\n  ") (ws := str "\n  ") (first := str "\n  ") (pre := []) (w := str "\n") (w0 := []) rfl
    (str_ws (by decide)) (str_ws (by decide)) (by simp) (str_ws (by decide)) (by simp) hl
  have hsnd : l.map Prod.snd = (str "data", v1) :: (str "columns", v2) :: (str "column_metadata", v3) :: (str "nodes", v4) ::
      gv.map fun e => (clean (D.info e.1).name, .string (clean e.2)) := by simp [l, Function.comp_def]
  rw [hsnd] at hr
  have := parseJson_reads hr (str_ws (s := "\n") (by decide))
  rw [← this]
  congr 1
  simp only [l, List.map_cons, writeSeq, List.map_map, Function.comp_def]
  have e1 : str "{\n  \"data\": " = ch '{' :: (str "\n  " ++ (str "\"" ++ (str "data" ++ str "\": "))) := rfl
  have e2 : str ",\n  \"columns\": " = str ",\n  " ++ (str "\"" ++ (str "columns" ++ str "\": ")) := rfl
  have e3 : str ",\n  \"column_metadata\": " = str ",\n  " ++ (str "\"" ++ (str "column_metadata" ++ str "\": ")) := rfl
  have e4 : str ",\n  \"nodes\": " = str ",\n  " ++ (str "\"" ++ (str "nodes" ++ str "\": ")) := rfl
  have e5 : str "\n}" = str "\n" ++ [ch '}'] := rfl
  rw [e1, e2, e3, e4, e5]
  simp only [List.append_assoc, List.cons_append, List.nil_append, List.append_nil]

/-- **C70.**  Whatever records were added and however often it was written before, the output of the json-split formatter is a JSON object.  `columns`
has the titles of the columns the query selects, `column_metadata` their metadata; `data` has a row for each record, in order, with a cell for each
column: the value of the attribute, null, or the number of an entry of `nodes`.  Following the parents from that entry gives the record's path in the
column.  Different nodes have different paths, so two cells have the same number exactly if their paths are equal.  The remaining members are the global
values.  If there is a single column of tree values, the nodes written by a new formatter name it.

Missing: values that are not finite numbers (`C70_violation_nan`), records whose values have tree-column attributes as metadata
(`C70_violation_metadata`), several tree columns: a node has the name of one of them (`C70_violation_column`); global attributes with several values;
global attributes named like one of the four sections repeat its name (`C70_violation_section`). -/
theorem C70_split_partial (q : SQuery) (ops : List SOp) (D : SDB) (hok : SplitOk F q D (addedRecs ops)) :
    ∃ (rows : List (List JVal)) (nodes : List JVal) (gs : List (Str × JVal)) (path : Nat → Option (List Str)),
      parseJson ((splitRun F (splitConfig q) ops).flush F (splitConfig q) D).2 = some (.obj (
        (str "data", .arr (rows.map .arr)) ::
        (str "columns", .arr ((specCols q D).map fun c => .string (clean (c.title q D)))) ::
        (str "column_metadata", .arr ((specCols q D).map fun c => .obj (specMeta F q D c))) ::
        (str "nodes", .arr nodes) :: gs)) ∧
      List.Forall₂ (fun r ws => List.Forall₂ (CellShows F q D path r) (specCols q D) ws) (addedRecs ops) rows ∧
      (∀ i, i < nodes.length ↔ (path i).isSome) ∧
      (∀ i p, path i = some p → NodePath nodes i (p.map clean)) ∧
      (∀ i j p, path i = some p → path j = some p → i = j) ∧
      GlobalsShown F D gs ∧
      ((∀ D', SOp.flush D' ∉ ops) → ∀ t, (∀ c ∈ specCols q D, (∀ a, c ≠ .value a) → c.title q D = t) →
        ∀ n ∈ nodes, ∃ l rest, n = .obj ((str "label", l) :: (str "column", .string (clean t)) :: rest)) := by
  obtain ⟨hrecs, ⟨P, hP⟩, hnew⟩ := run_facts (F := F) (splitConfig q) ops
  obtain ⟨P', h1, h2, h3, rows, h4, h5⟩ := rows_reads hok (addedRecs ops) (fun _ h => h) hP
  generalize hs : splitRun F (splitConfig q) ops = s at *
  unfold SState.flush
  rw [hrecs, initColumns_eq]
  rcases ht : thread (splitRow F D ((specCols q D).map (SCol.col q D))) s.hier (addedRecs ops) with ⟨H', ts⟩
  rw [ht] at h1 h3 h4
  simp only at h1 h3 h4 ⊢
  refine ⟨rows, H'.map nodeJ, (globalVals F D.globals).map fun e => (clean (D.info e.1).name, .string (clean e.2)), fun i => P'[i]?, ?_,
    h5 P' List.prefix_rfl, ?_, fun i p hp => nodePath_of h1 i p hp, ?_, globals_shown hok.oneGlobal, ?_⟩
  · -- the text
    have hdata := arr_seq_reads (ws := str "\n    ") (first := str "\n    ") (w := str "\n  ") (w0 := []) (str_ws (by decide)) (str_ws (by decide))
      (str_ws (by decide)) (by simp) h4
    have hcols := arr_seq_reads (ws := str " ") (first := str " ") (w := str " ") (w0 := []) (str_ws (by decide)) (str_ws (by decide))
      (str_ws (by decide)) (by simp)
      (forall2_map (specCols q D) (fun c => str "\"" ++ writeJsonEsc (c.title q D) ++ str "\"") (fun c => .string (clean (c.title q D))) (by
        intro c _
        have := reads_string (keyText_esc (c.title q D))
        have e : str "\"" = [ch '"'] := rfl
        simpa [e] using this))
    have hmeta := arr_seq_reads (ws := str " ") (first := str " ") (w := (if (specCols q D) ≠ [] then str " " else []) ++ str " ") (w0 := [])
      (str_ws (by decide)) (str_ws (by decide)) (by
        intro c hc
        rcases List.mem_append.1 hc with hc | hc
        · split at hc
          · exact str_ws (s := " ") (by decide) c hc
          · cases hc
        · exact str_ws (s := " ") (by decide) c hc) (by simp)
      (forall2_map (specCols q D) (fun c => str "{ " ++ colMetaText F D (c.col q D) ++ str " }") (fun c => .obj (specMeta F q D c))
        (fun c hc => meta_reads q D hok.ids c hc))
    have hnodes := arr_seq_reads (ws := str " ") (first := str " ") (w := str " ") (w0 := []) (str_ws (by decide)) (str_ws (by decide))
      (str_ws (by decide)) (by simp) (forall2_map H' nodeText nodeJ (fun n _ => node_reads n))
    refine (congrArg parseJson ?_).trans (doc_reads D (globalVals F D.globals) hdata hcols hmeta hnodes)
    have hg : splitGlobalsText F D = writeSeq (str ",\n  ") (str ",\n  ") [] ((globalVals F D.globals).map (globalKV D.info)) := by
      rw [← flatMap_seq]
      unfold splitGlobalsText
      have e : str ",\n  \"" = str ",\n  " ++ str "\"" := rfl
      simp only [globalKV, e, List.append_assoc]
    have hm := metaSeq_eq (((specCols q D).map (SCol.col q D)).map (colMetaText F D))
    simp only [List.map_map, Function.comp_def, ne_eq, List.map_eq_nil_iff] at hm
    have htitle : ∀ c : SCol, (c.col q D).title = c.title q D := by intro c; cases c <;> rfl
    unfold splitMetaText nodesText
    simp only [List.map_map, Function.comp_def, htitle, ne_eq, List.map_eq_nil_iff]
    rw [hg]
    have e2 : str "\n  ]" = str "\n  " ++ [ch ']'] := rfl
    have e5 : str " ],\n  \"column_metadata\": [" = str " " ++ ch ']' :: (str ",\n  \"column_metadata\": " ++ [ch '[']) := rfl
    have e5' : str " ],\n  " = str " " ++ ch ']' :: str ",\n  " := rfl
    have e6 : str "\"nodes\": [" = str "\"nodes\": " ++ [ch '['] := rfl
    have e7 : str " ]" = str " " ++ [ch ']'] := rfl
    have e8 : str "{\n  \"data\": [" = str "{\n  \"data\": " ++ [ch '['] := rfl
    have e3 : str ",\n  \"columns\": [" = str ",\n  \"columns\": " ++ [ch '['] := rfl
    have e9 : ch ',' :: str "\n    " = str ",\n    " := rfl
    have e10 : ch ',' :: str " " = str ", " := rfl
    have e11 : str ",\n  \"nodes\": " = str ",\n  " ++ str "\"nodes\": " := rfl
    simp only [e2, e3, e5, e5', e6, e7, e8, e9, e10, e11]
    have hm' : ∀ rest, writeSeq (str " { ") (str " }, { ") [] ((specCols q D).map fun c => colMetaText F D (c.col q D)) ++
        ((if ¬specCols q D = [] then str " } " else []) ++ rest) = writeSeq (str " ") (str ", ") []
          ((specCols q D).map fun c => str "{ " ++ colMetaText F D (c.col q D) ++ str " }") ++
          ((if ¬specCols q D = [] then str " " else []) ++ rest) := by
      intro rest
      rw [← List.append_assoc, hm, List.append_assoc]
    simp only [List.append_assoc, List.cons_append, List.nil_append, List.append_nil] at hm' ⊢
    rw [hm', ht]
  · intro i
    rw [List.length_map, ← h1.len]
    simp
  · intro i j p hi hj
    have hi' := (List.getElem?_eq_some_iff.1 hi).1
    have hj' := (List.getElem?_eq_some_iff.1 hj).1
    have hd := List.nodup_iff_getElem?_ne_getElem?.1 h1.nodup
    by_contra hne
    rcases Nat.lt_or_gt_of_ne hne with hh | hh
    · exact hd i j hh hj' (by simp only at hi hj; rw [hi, hj])
    · exact hd j i hh hi' (by simp only at hi hj; rw [hi, hj])
  · intro hf t ht' n hn
    obtain ⟨m, hm, rfl⟩ := List.mem_map.1 hn
    obtain ⟨e, he, hcol⟩ := h3
    rw [hnew hf, List.nil_append] at he
    have := hcol m (he ▸ hm)
    unfold treeTitles at this
    obtain ⟨c, hc, hct⟩ := List.mem_map.1 this
    obtain ⟨hc1, hc2⟩ := List.mem_filter.1 hc
    have hv : ∀ a, c ≠ .value a := by rintro a rfl; cases hc2
    rw [ht' c hc1 hv] at hct
    exact ⟨_, _, by rw [nodeJ, ← hct]⟩

/-! ## Hypotheses are met -/

/-- attributes: nested regions `function` and `loop`, `kernel` and `phase` in the tree, `time` (double) with a unit, `count` (int), `msg` (string), a
global attribute `app` -/
def c70Info : Nat → AInfo
  | 20 => ⟨str "function", .string, false, false, true⟩
  | 21 => ⟨str "loop", .string, false, false, true⟩
  | 22 => ⟨str "kernel", .string, false, false, false⟩
  | 23 => ⟨str "time", .double, false, false, false⟩
  | 24 => ⟨str "count", .int, false, false, false⟩
  | 25 => ⟨str "msg", .string, false, false, false⟩
  | 26 => ⟨str "app", .string, false, true, false⟩
  | 27 => ⟨str "unit", .string, false, false, false⟩
  | 28 => ⟨str "phase", .string, false, false, false⟩
  | 29 => ⟨str "nodes", .string, false, true, false⟩
  | _ => ⟨str "hidden", .string, true, false, false⟩

def c70DB : SDB where
  attrs := [20, 21, 22, 23, 24, 25, 26, 27, 28]
  info := c70Info
  asValue := fun a => a == 23 || a == 24 || a == 25
  path := fun a => if a = 23 then [(8, .string (str "time")), (27, .string (str "nsec")), (9, .string (str "x"))] else [(8, .string (c70Info a).name)]
  globals := [.imm 26 (.string (str "lulesh"))]

/-- `SELECT path,kernel,time,msg` with an alias for `time` -/
def c70Query : SQuery := ⟨.list, [str "kernel", str "time", str "msg"], true, .dflt, [], false, [], fun n => if n = str "time" then some (str "t") else none⟩

def c70Recs : List (List QEnt) :=
  [[.ref [(21, .string (str "l\"1\"")), (20, .string (str "main"))], .imm 23 (.double 0), .imm 25 (.string (str "a"))],
   [.ref [(20, .string (str "main"))], .ref [(22, .string (str "k"))]], [.imm 24 (.int 3)]]

def c70Ops : List SOp := [.add (c70Recs.getD 0 []), .flush c70DB, .add (c70Recs.getD 1 []), .add (c70Recs.getD 2 [])]

theorem c70_ok : SplitOk c56Fmt c70Query c70DB (addedRecs c70Ops) := by
  have hr : addedRecs c70Ops = c70Recs := rfl
  have hs : shown c70Query c70DB = [20, 21, 22, 23, 25] := by decide
  have hc : specCols c70Query c70DB = [.tree 22, .value 23, .value 25, .path] := by decide
  rw [hr]
  refine ⟨by decide, ?_, ?_, by decide⟩
  · intro r hr a ha hn v hv
    rw [hs] at ha
    simp only [List.mem_cons, List.not_mem_nil, or_false] at ha
    have : a = 23 := by
      rcases ha with rfl | rfl | rfl | rfl | rfl
      · exact absurd hn (by decide)
      · exact absurd hn (by decide)
      · exact absurd hn (by decide)
      · rfl
      · exact absurd hn (by decide)
    subst this
    simp only [c70Recs, List.mem_cons, List.not_mem_nil, or_false] at hr
    rcases hr with rfl | rfl | rfl
    · have h : valueOf [.ref [(21, .string (str "l\"1\"")), (20, .string (str "main"))], .imm 23 (.double 0), .imm 25 (.string (str "a"))] 23 =
        some (.double 0) := rfl
      rw [h] at hv; cases hv; decide
    · have h : valueOf [.ref [(20, .string (str "main"))], .ref [(22, .string (str "k"))]] 23 = none := rfl
      rw [h] at hv; cases hv
    · have h : valueOf [.imm 24 (.int 3)] 23 = none := rfl
      rw [h] at hv; cases hv
  · intro r hr a v ha n hn c hc' hv
    rw [hc] at hc'
    have hn' : n.1 = 8 ∨ n.1 = 27 ∨ n.1 = 9 := by
      simp only [c70DB] at hn
      split at hn
      · simp only [List.mem_cons, List.not_mem_nil, or_false] at hn
        rcases hn with rfl | rfl | rfl <;> simp
      · simp only [List.mem_singleton] at hn; subst hn; simp
    simp only [List.mem_cons, List.not_mem_nil, or_false] at hc'
    rcases hc' with rfl | rfl | rfl | rfl <;> rcases hn' with h | h | h <;> rw [h] <;> decide

/-- the output for the example -/
example : ((splitRun c56Fmt (splitConfig c70Query) c70Ops).flush c56Fmt (splitConfig c70Query) c70DB).2 =
    str "{\n  \"data\": [\n    [ null, 0.500000, \"a\", 1 ],\n    [ 2, null, null, 0 ],\n    [ null, null, null, null ]\n  ],\n  \"columns\": [ \"kernel\", \"t\", \"msg\", \"path\" ],\n  \"column_metadata\": [ { \"is_value\": false }, { \"is_value\": true, \"unit\": \"nsec\" }, { \"is_value\": true }, { \"is_value\": false }  ],\n  \"nodes\": [ { \"label\": \"main\", \"column\": \"path\" }, { \"label\": \"l\\\"1\\\"\", \"column\": \"path\", \"parent\": 0 }, { \"label\": \"k\", \"column\": \"kernel\" } ],\n  \"app\": \"lulesh\"\n}\n" := by
  decide +kernel

/-! ## Violations -/

/-- **Violation (column).**  A path that occurs in two columns has one node, and the node names only one of the columns: the row of the second record
has node 0 in column `phase`, but node 0 is said to be in column `kernel`. -/
theorem C70_violation_column :
    let q : SQuery := { c70Query with selList := [str "kernel", str "phase"], selPath := false }
    ((splitRun c56Fmt (splitConfig q) [.add [.ref [(22, .string (str "x"))]], .add [.ref [(28, .string (str "x"))]]]).flush c56Fmt (splitConfig q)
        { c70DB with globals := [] }).2 =
      str "{\n  \"data\": [\n    [ 0, null ],\n    [ null, 0 ]\n  ],\n  \"columns\": [ \"kernel\", \"phase\" ],\n  \"column_metadata\": [ { \"is_value\": false }, { \"is_value\": false }  ],\n  \"nodes\": [ { \"label\": \"x\", \"column\": \"kernel\" } ]\n}\n" := by
  decide +kernel

/-- **Violation (metadata).**  A record with a time value only: the column `unit` shows the unit of the attribute `time`, although the record has no
value of the attribute `unit`. -/
theorem C70_violation_metadata :
    let q : SQuery := { c70Query with selList := [str "unit"], selPath := false }
    let r : List QEnt := [.imm 23 (.double 0)]
    treeVals q c70DB r (.tree 27) = [] ∧
    ((splitRun c56Fmt (splitConfig q) [.add r]).flush c56Fmt (splitConfig q) { c70DB with globals := [] }).2 =
      str "{\n  \"data\": [\n    [ 0 ]\n  ],\n  \"columns\": [ \"unit\" ],\n  \"column_metadata\": [ { \"is_value\": false }  ],\n  \"nodes\": [ { \"label\": \"nsec\", \"column\": \"unit\" } ]\n}\n" := by
  decide +kernel

/-- **Violation (literals).**  Infinite values are written as they are: the output is not JSON. -/
theorem C70_violation_nan :
    let q : SQuery := { c70Query with selList := [str "time"], selPath := false }
    (parseJson ((splitRun c56Fmt (splitConfig q) [.add [.imm 23 (.double 1)]]).flush c56Fmt (splitConfig q) { c70DB with globals := [] }).2).isNone = true := by
  decide +kernel

/-- **Violation (sections).**  A global attribute with the name `nodes`: the object has two members of this name, and readers that take the last one
lose the nodes. -/
theorem C70_violation_section :
    let q : SQuery := { c70Query with selList := [str "kernel"], selPath := false }
    ((splitRun c56Fmt (splitConfig q) [.add [.ref [(22, .string (str "x"))]]]).flush c56Fmt (splitConfig q)
        { c70DB with globals := [.imm 29 (.string (str "16"))] }).2 =
      str "{\n  \"data\": [\n    [ 0 ]\n  ],\n  \"columns\": [ \"kernel\" ],\n  \"column_metadata\": [ { \"is_value\": false }  ],\n  \"nodes\": [ { \"label\": \"x\", \"column\": \"kernel\" } ],\n  \"nodes\": \"16\"\n}\n" := by
  decide +kernel

end Verif
