import Verif.Query.JsonContents
/-!
# C56: the JSON output is valid JSON with the contents of the records
-/
namespace Verif
open Verif.Cali Verif.Query Verif.Query.Json

variable {F : DblFmt} {info : Nat → AInfo}

/-- the literal with this text -/
def litOf (t : Str) : JVal := if t = str "true" then .bool true else if t = str "false" then .bool false else .num t

theorem litOf_toStr {v : Val} (h : HasLiteral F v) : litOf (v.toStr F) = plainJ F v := by
  have key : ∀ t, validNum t = true → litOf t = .num t := by
    intro t ht
    have h1 : t ≠ str "true" := by rintro rfl; revert ht; decide
    have h2 : t ≠ str "false" := by rintro rfl; revert ht; decide
    simp only [litOf, if_neg h1, if_neg h2]
  cases v with
  | int i => exact key _ (validNum_int i)
  | uint u => exact key _ (validNum_digits u.toNat)
  | double d => exact key _ h
  | bool b => cases b <;> rfl
  | _ => exact h.elim

/-- members of the object of a record -/
def membersOf (kv : KVs) : List (Str × JVal) :=
  kv.quote.map (fun e => (clean e.1, .string (clean e.2))) ++ kv.noquote.map fun e => (clean e.1, litOf e.2)

theorem quoted_pair (e : Str × Str) : PairReads (quotedKV e) (clean e.1, .string (clean e.2)) := by
  refine ⟨writeJsonEsc e.1, ch '"' :: (writeJsonEsc e.2 ++ [ch '"']), ?_, keyText_esc _, reads_string (keyText_esc _)⟩
  have h1 : str "\"" = [ch '"'] := rfl
  have h2 : str "\":" = [ch '"', ch ':'] := rfl
  simp [quotedKV, h1, h2]

theorem plain_pair (e : Str × Str) {v : Val} (he : e.2 = v.toStr F) (h : HasLiteral F v) : PairReads (plainKV e) (clean e.1, litOf e.2) := by
  refine ⟨writeJsonEsc e.1, writeJsonEsc e.2, ?_, keyText_esc _, ?_⟩
  · have h1 : str "\"" = [ch '"'] := rfl
    have h2 : str "\":" = [ch '"', ch ':'] := rfl
    simp [plainKV, h1, h2]
  · rw [he, litOf_toStr h]; exact litVal_reads F h

theorem labelled_eq (C : JCfg) (r : List QEnt) (k : Str) : labelled info C r k = lab info C (items r) k := rfl

theorem record_contents {C : JCfg} {r : List QEnt} (h : RecordOk F info C r) : Contents F info C (items r) (collect F info C r) := by
  rw [collect_items]; exact contents_all _ h.same

theorem nonEmpty_iff (C : JCfg) (r : List QEnt) : nonEmpty info C r = true ↔ ∃ k, labelled info C r k ≠ [] := by
  unfold nonEmpty labelled
  rw [List.any_eq_true]
  constructor
  · rintro ⟨x, hx, h⟩
    refine ⟨label C (info x.2.1), ?_⟩
    have : x ∈ (items r).filter fun y => decide (HasLabel info C (label C (info x.2.1)) y) :=
      List.mem_filter.2 ⟨hx, h⟩
    exact List.ne_nil_of_mem this
  · rintro ⟨k, h⟩
    obtain ⟨x, hx⟩ := List.exists_mem_of_ne_nil _ h
    obtain ⟨h1, h2⟩ := List.mem_filter.1 hx
    simp only [decide_eq_true_eq] at h2
    refine ⟨x, h1, ?_⟩
    rw [h2.2.1]
    simpa using h2

theorem collect_nonEmpty {C : JCfg} {r : List QEnt} (h : RecordOk F info C r) :
    (collect F info C r).noquote.length + (collect F info C r).quote.length > 0 ↔ nonEmpty info C r = true := by
  have hc := record_contents h
  rw [nonEmpty_iff]
  constructor
  · intro hl
    by_cases hq : (collect F info C r).quote = []
    · have : (collect F info C r).noquote ≠ [] := by rintro e; rw [hq, e] at hl; simp at hl
      obtain ⟨e, he⟩ := List.exists_mem_of_ne_nil _ this
      obtain ⟨a, v, -, -, -, h1⟩ := ((hc.p e.1 e.2).1 he).2.elim
      exact ⟨e.1, h1⟩
    · obtain ⟨e, he⟩ := List.exists_mem_of_ne_nil _ hq
      exact ⟨e.1, ((hc.q e.1 e.2).1 he).2.ne⟩
  · rintro ⟨k, hk⟩
    have hk0 : k ≠ [] := by
      obtain ⟨x, hx⟩ := List.exists_mem_of_ne_nil _ hk
      have := (List.mem_filter.1 hx).2
      simp only [decide_eq_true_eq] at this
      exact this.2.2
    rw [labelled_eq] at hk
    cases hlast : (lab info C (items r) k).getLast? with
    | none => simp at hlast; exact absurd hlast hk
    | some x =>
      have hxm := List.mem_of_getLast? hlast
      obtain ⟨b, a, v⟩ := x
      have some_mem : (∃ e, e ∈ (collect F info C r).quote) ∨ (∃ e, e ∈ (collect F info C r).noquote) := by
        cases b with
        | true =>
          refine .inl ⟨_, (hc.q k _).2 ⟨hk0, .path hk fun y hy => ?_⟩⟩
          exact (h.same k y hy _ hxm).1
        | false =>
          by_cases hq : Quoted info C (false, a, v)
          · exact .inl ⟨_, (hc.q k _).2 ⟨hk0, .imm a v hlast hq⟩⟩
          · exact .inr ⟨_, (hc.p k _).2 ⟨hk0, .imm a v hlast hq⟩⟩
      rcases some_mem with ⟨e, he⟩ | ⟨e, he⟩
      · have := List.length_pos_of_mem he; omega
      · have := List.length_pos_of_mem he; omega

theorem str_ws {s : String} (h : (str s).all isWs = true) : ∀ c ∈ str s, isWs c = true := fun c hc => List.all_eq_true.1 h c hc

theorem ws_if (b : Bool) {s : String} (h : (str s).all isWs = true) : ∀ c ∈ (if b then str s else []), isWs c = true := by
  cases b
  · simp
  · exact str_ws h

theorem record_reads {C : JCfg} {r : List QEnt} (h : RecordOk F info C r) (hne : nonEmpty info C r = true) :
    Reads (recordText C (collect F info C r)) (.obj (membersOf (collect F info C r))) := by
  have hc := record_contents h
  have hlen := (collect_nonEmpty h).2 hne
  generalize collect F info C r = kv at *
  let l : List (List Byte × (Str × JVal)) := kv.quote.map (fun e => (quotedKV e, (clean e.1, .string (clean e.2)))) ++
    kv.noquote.map fun e => (plainKV e, (clean e.1, litOf e.2))
  have hl1 : l.map Prod.fst = kv.quote.map quotedKV ++ kv.noquote.map plainKV := by simp [l, Function.comp_def]
  have hl2 : l.map Prod.snd = membersOf kv := by simp [l, Function.comp_def, membersOf]
  have hl : l ≠ [] := by
    intro e
    have : l.length = 0 := by rw [e]; rfl
    simp only [l, List.length_append, List.length_map] at this
    omega
  have hp : ∀ x ∈ l, PairReads x.1 x.2 := by
    intro x hx
    rcases List.mem_append.1 hx with hx | hx
    · obtain ⟨e, -, rfl⟩ := List.mem_map.1 hx
      exact quoted_pair e
    · obtain ⟨e, he, rfl⟩ := List.mem_map.1 hx
      obtain ⟨a, v, h1, h2, ht, -⟩ := ((hc.p e.1 e.2).1 he).2.elim
      exact plain_pair e ht (h.literal e.1 _ (List.mem_of_getLast? h1) h2)
  have := mreads_seq (sep := str ",") (first := []) (pre := if C.pretty then str "\n\t" else []) (w := if C.pretty then str "\n" else [])
    ⟨[], rfl, by simp⟩ (by simp) (ws_if _ (by decide)) (ws_if _ (by decide)) hl hp
  rw [hl1, hl2] at this
  have := reads_obj this
  have e : recordText C kv = ch '{' :: (writeSeq [] (str ",") (if C.pretty then str "\n\t" else [])
      (kv.quote.map quotedKV ++ kv.noquote.map plainKV) ++ ((if C.pretty then str "\n" else []) ++ [ch '}'])) := by
    have h1 : str "{" = [ch '{'] := rfl
    have h2 : str "}" = [ch '}'] := rfl
    simp [recordText, h1, h2]
  rw [e]; exact this

/-- an object shows a record -/
def Shows (F : DblFmt) (info : Nat → AInfo) (C : JCfg) (r : List QEnt) (ms : List (Str × JVal)) : Prop :=
  (ms.map Prod.fst).Nodup ∧ ∀ k w, (k, w) ∈ ms ↔ Gives F info C r k w

theorem key_facts {C : JCfg} {r : List QEnt} (h : RecordOk F info C r) :
    (∀ e ∈ (collect F info C r).quote, clean e.1 = e.1) ∧ (∀ e ∈ (collect F info C r).noquote, clean e.1 = e.1) := by
  have hc := record_contents h
  constructor
  · intro e he
    exact h.ascii _ ((hc.q e.1 e.2).1 he).2.ne
  · intro e he
    obtain ⟨a, v, -, -, -, h1⟩ := ((hc.p e.1 e.2).1 he).2.elim
    exact h.ascii _ h1

theorem record_shows {C : JCfg} {r : List QEnt} (h : RecordOk F info C r) : Shows F info C r (membersOf (collect F info C r)) := by
  have hc := record_contents h
  obtain ⟨kq, kp⟩ := key_facts h
  generalize collect F info C r = kv at *
  have disj : ∀ k, ∀ t, QText F info C (lab info C (items r) k) t → ∀ t', ¬PText F info C (lab info C (items r) k) t' := by
    rintro k t hq t' ⟨a, v, h1, h2⟩
    have hm := List.mem_of_getLast? h1
    rcases hq with ⟨-, h3⟩ | ⟨a', v', h3, h4⟩
    · have := h3 _ hm; cases this
    · rw [h1] at h3
      simp only [Option.some.injEq, Prod.mk.injEq, true_and] at h3
      rw [← h3.1, ← h3.2] at h4; exact h2 h4
  constructor
  · have e1 : kv.quote.map (fun e => clean e.1) = kv.quote.map Prod.fst := List.map_congr_left kq
    have e2 : kv.noquote.map (fun e => clean e.1) = kv.noquote.map Prod.fst := List.map_congr_left kp
    simp only [membersOf, List.map_append, List.map_map, Function.comp_def]
    rw [e1, e2, List.nodup_append]
    refine ⟨hc.qok, hc.pok, ?_⟩
    rintro k hk k' hk' rfl
    obtain ⟨x, hx, rfl⟩ := List.mem_map.1 hk
    obtain ⟨y, hy, hxy⟩ := List.mem_map.1 hk'
    obtain ⟨-, h1⟩ := (hc.q x.1 x.2).1 hx
    obtain ⟨-, h2⟩ := (hc.p y.1 y.2).1 hy
    rw [hxy] at h2
    exact disj _ _ h1 _ h2
  · intro k w
    simp only [membersOf, List.mem_append, List.mem_map]
    constructor
    · rintro (⟨e, he, heq⟩ | ⟨e, he, heq⟩)
      · obtain ⟨-, hq⟩ := (hc.q e.1 e.2).1 he
        simp only [Prod.mk.injEq] at heq
        obtain ⟨rfl, rfl⟩ := heq
        rw [kq e he]
        generalize e.2 = t at hq
        rcases hq with ⟨h1, h2⟩ | ⟨a, v, h1, h2⟩
        · exact .path h1 h2
        · exact .quoted a v h1 h2
      · obtain ⟨-, hp⟩ := (hc.p e.1 e.2).1 he
        simp only [Prod.mk.injEq] at heq
        obtain ⟨rfl, rfl⟩ := heq
        rw [kp e he]
        generalize e.2 = t at hp
        obtain ⟨a, v, h1, h2⟩ := hp
        rw [litOf_toStr (h.literal _ _ (List.mem_of_getLast? h1) h2)]
        exact .plain a v h1 h2
    · intro hg
      have hne : labelled info C r k ≠ [] := by
        rcases hg with ⟨h1, -⟩ | ⟨a, v, h1, -⟩ | ⟨a, v, h1, -⟩
        · exact h1
        · intro hh; rw [hh] at h1; simp at h1
        · intro hh; rw [hh] at h1; simp at h1
      have hk0 : k ≠ [] := by
        obtain ⟨x, hx⟩ := List.exists_mem_of_ne_nil _ hne
        have := (List.mem_filter.1 hx).2
        simp only [decide_eq_true_eq] at this
        exact this.2.2
      have hcl := h.ascii k hne
      rcases hg with ⟨h1, h2⟩ | ⟨a, v, h1, h2⟩ | ⟨a, v, h1, h2⟩
      · exact .inl ⟨(k, _), (hc.q k _).2 ⟨hk0, .path h1 h2⟩, by simp only [hcl, labelled_eq]⟩
      · exact .inl ⟨(k, _), (hc.q k _).2 ⟨hk0, .imm a v h1 h2⟩, by simp only [hcl]⟩
      · refine .inr ⟨(k, _), (hc.p k _).2 ⟨hk0, .imm a v h1 h2⟩, ?_⟩
        simp only [hcl, litOf_toStr (h.literal k _ (List.mem_of_getLast? h1) h2)]

/-- the text of the records -/
theorem print_all (C : JCfg) (recs : List (List QEnt)) (h : ∀ r ∈ recs, RecordOk F info C r) :
    (recs.foldl (JState.print F info C) ⟨[], 0⟩).out =
      writeSeq (beginText C.layout) (str ",\n") [] ((recs.filter (nonEmpty info C)).map fun r => recordText C (collect F info C r)) ∧
    (recs.foldl (JState.print F info C) ⟨[], 0⟩).num = (recs.filter (nonEmpty info C)).length := by
  have seq_snoc : ∀ (f sep : List Byte) (l : List (List Byte)) (x : List Byte),
      writeSeq f sep [] (l ++ [x]) = writeSeq f sep [] l ++ (if l = [] then f else sep) ++ x := by
    intro f sep l x
    induction l generalizing f with
    | nil => simp [writeSeq]
    | cons y l ih =>
      rw [List.cons_append, writeSeq, ih, writeSeq]
      simp
  induction recs using List.reverseRecOn with
  | nil => exact ⟨rfl, rfl⟩
  | append_singleton recs r ih =>
    obtain ⟨h1, h2⟩ := ih fun x hx => h x (by simp [hx])
    rw [List.foldl_append, List.foldl_cons, List.foldl_nil, List.filter_append]
    generalize recs.foldl (JState.print F info C) ⟨[], 0⟩ = s at h1 h2
    unfold JState.print
    by_cases hne : nonEmpty info C r = true
    · have hl := (collect_nonEmpty (h r (by simp))).2 hne
      simp only [hl, if_true]
      rw [List.filter_cons, if_pos hne, List.filter_nil, List.map_append, List.map_singleton, seq_snoc, h1, h2, List.length_append]
      refine ⟨?_, rfl⟩
      by_cases hnil : recs.filter (nonEmpty info C) = []
      · simp [hnil]
      · have : 0 < (recs.filter (nonEmpty info C)).length := List.length_pos_of_ne_nil hnil
        have h0 : ¬(recs.filter (nonEmpty info C)).length = 0 := by omega
        simp only [h0, if_false, this, if_true, List.map_eq_nil_iff, hnil, List.append_nil]
    · have hl : ¬((collect F info C r).noquote.length + (collect F info C r).quote.length > 0) :=
        fun hh => hne ((collect_nonEmpty (h r (by simp))).1 hh)
      simp only [hl, if_false]
      rw [List.filter_cons, if_neg hne, List.filter_nil, List.append_nil]
      exact ⟨h1, h2⟩

theorem ereads_seq {ws first w : List Byte} (hws : ∀ c ∈ ws, isWs c = true) (hf : ∀ c ∈ first, isWs c = true)
    (hw : ∀ c ∈ w, isWs c = true) {l : List (List Byte × JVal)} (hl : l ≠ [])
    (h : ∀ x ∈ l, Reads x.1 x.2) : EReads (writeSeq first (ch ',' :: ws) [] (l.map Prod.fst) ++ (w ++ [ch ']'])) (l.map Prod.snd) := by
  induction l generalizing first with
  | nil => exact absurd rfl hl
  | cons x l ih =>
    by_cases hl' : l = []
    · subst hl'
      have := ereads_last (w2 := w) ((h x (by simp)).ws hf) hw
      simpa [writeSeq] using this
    · have ih' := ih (first := ws) hws hl' fun y hy => h y (by simp [hy])
      have e : writeSeq (ch ',' :: ws) (ch ',' :: ws) [] (l.map Prod.fst) =
          ch ',' :: writeSeq ws (ch ',' :: ws) [] (l.map Prod.fst) := by
        cases l with
        | nil => exact absurd rfl hl'
        | cons y l => simp [writeSeq]
      have := ereads_cons (w2 := []) ((h x (by simp)).ws hf) (by simp) ih'
      rw [List.map_cons, List.map_cons, writeSeq, e]
      simpa using this

/-- the array of records -/
def arrText (C : JCfg) (texts : List (List Byte)) : List Byte :=
  ch '[' :: ((if texts = [] then str "\n" else []) ++ writeSeq (str "\n") (str ",\n") [] texts ++ str "\n]")

theorem arr_reads {C : JCfg} {recs : List (List QEnt)} (h : ∀ r ∈ recs, RecordOk F info C r) :
    Reads (arrText C ((recs.filter (nonEmpty info C)).map fun r => recordText C (collect F info C r)))
      (.arr ((recs.filter (nonEmpty info C)).map fun r => .obj (membersOf (collect F info C r)))) := by
  have h' : ∀ r ∈ recs.filter (nonEmpty info C), RecordOk F info C r ∧ nonEmpty info C r = true :=
    fun r hr => ⟨h r (List.mem_filter.1 hr).1, (List.mem_filter.1 hr).2⟩
  generalize recs.filter (nonEmpty info C) = rs at h'
  have hend : str "\n]" = str "\n" ++ [ch ']'] := rfl
  by_cases hrs : rs = []
  · subst hrs
    have := reads_emptyArr (w := str "\n" ++ str "\n") (by
      intro c hc
      have : (str "\n" ++ str "\n").all isWs = true := by decide
      exact List.all_eq_true.1 this c hc)
    simpa [arrText, writeSeq, hend] using this
  · let l := rs.map fun r => (recordText C (collect F info C r), JVal.obj (membersOf (collect F info C r)))
    have hl1 : l.map Prod.fst = rs.map fun r => recordText C (collect F info C r) := by simp [l, Function.comp_def]
    have hl2 : l.map Prod.snd = rs.map fun r => JVal.obj (membersOf (collect F info C r)) := by simp [l, Function.comp_def]
    have hp : ∀ x ∈ l, Reads x.1 x.2 := by
      intro x hx
      obtain ⟨r, hr, rfl⟩ := List.mem_map.1 hx
      exact record_reads (h' r hr).1 (h' r hr).2
    have := ereads_seq (ws := str "\n") (first := str "\n") (w := str "\n") (str_ws (by decide)) (str_ws (by decide)) (str_ws (by decide))
      (l := l) (by simpa [l] using hrs) hp
    rw [hl1, hl2] at this
    have := reads_arr this
    have hm : (rs.map fun r => recordText C (collect F info C r)) ≠ [] := by simpa using hrs
    simp only [arrText, if_neg hm, List.nil_append, hend]
    exact this

theorem shows_all {C : JCfg} {recs : List (List QEnt)} (h : ∀ r ∈ recs, RecordOk F info C r) :
    List.Forall₂ (Shows F info C) (recs.filter (nonEmpty info C))
      ((recs.filter (nonEmpty info C)).map fun r => membersOf (collect F info C r)) := by
  rw [List.forall₂_map_right_iff]
  refine List.forall₂_same.2 fun r hr => ?_
  exact record_shows (h r (List.mem_filter.1 hr).1)

/-- **C56, records.**  The output of the JSON formatter for any stream of records is a JSON text: an array with an object for each record of which
something is selected, in order; its members are exactly the selected values by their labels.

Missing: records with values without JSON literal outside of quotes (`C56_violation_addr`), and with values of different kinds under the same
label (`C56_violation_duplicate`). -/
theorem C56_records_partial {C : JCfg} (hl : C.layout = .records) (globals : List QEnt) (attrs : List JAttr) {recs : List (List QEnt)}
    (h : ∀ r ∈ recs, RecordOk F info C r) :
    ∃ objs, parseJson (jsonOutput F info C globals attrs recs) = some (.arr (objs.map .obj)) ∧
      List.Forall₂ (Shows F info C) (recs.filter (nonEmpty info C)) objs := by
  refine ⟨(recs.filter (nonEmpty info C)).map fun r => membersOf (collect F info C r), ?_, shows_all h⟩
  have hr := arr_reads h
  obtain ⟨h1, h2⟩ := print_all C recs h
  have e : jsonOutput F info C globals attrs recs =
      arrText C ((recs.filter (nonEmpty info C)).map fun r => recordText C (collect F info C r)) ++ str "\n" := by
    unfold jsonOutput JState.flush
    rw [h1, h2, hl]
    unfold arrText
    generalize recs.filter (nonEmpty info C) = rs
    cases rs with
    | nil => rfl
    | cons r rs =>
      have hb : beginText .records = ch '[' :: str "\n" := rfl
      simp [writeSeq, hb, endText]
  rw [e, parseJson_reads hr (str_ws (by decide)), List.map_map]
  rfl

/-! ## the object layout -/

theorem GMap.mem_ins {k : Nat} {v : Str} {m : GMap} {e : Nat × Str} : e ∈ m.ins k v ↔ e = (k, v) ∨ e ∈ m := by
  induction m with
  | nil => simp [GMap.ins]
  | cons x m ih =>
    unfold GMap.ins
    split
    · simp
    · simp only [List.mem_cons, ih]
      constructor
      · rintro (h | h | h) <;> simp [h]
      · rintro (h | h | h) <;> simp [h]

theorem GMap.mem_set_new {k : Nat} {v : Str} {m : GMap} (hk : k ∉ m.map Prod.fst) {e : Nat × Str} : e ∈ m.set k v ↔ e = (k, v) ∨ e ∈ m := by
  unfold GMap.set
  rw [if_neg hk, GMap.mem_ins]

/-- one item of the global values -/
def addGItem (F : DblFmt) (m : GMap) (x : Bool × Nat × Val) : GMap := if x.1 then addGlobalNode F m x.2 else m.set x.2.1 (x.2.2.toStr F)

theorem globalVals_items (globals : List QEnt) : globalVals F globals = (items globals).foldl (addGItem F) [] := by
  unfold globalVals items
  generalize ([] : GMap) = m
  induction globals generalizing m with
  | nil => rfl
  | cons e r ih =>
    rw [List.foldl_cons, List.flatMap_cons, List.foldl_append, ih]
    congr 1
    cases e with
    | imm a v => rfl
    | ref path =>
      simp only
      induction path generalizing m with
      | nil => rfl
      | cons n path ihp =>
        simp only [List.foldl_cons, List.map_cons]
        rw [← ihp]
        rfl

/-- with one value per attribute -/
theorem globalVals_mem {globals : List QEnt} (hnd : ((items globals).map fun x => x.2.1).Nodup) (e : Nat × Str) :
    e ∈ globalVals F globals ↔ ∃ x ∈ items globals, e = (x.2.1, x.2.2.toStr F) := by
  rw [globalVals_items]
  generalize items globals = l at *
  have : (∀ e, e ∈ l.foldl (addGItem F) [] ↔ ∃ x ∈ l, e = (x.2.1, x.2.2.toStr F)) := by
    induction l using List.reverseRecOn with
    | nil => simp
    | append_singleton l x ih =>
      rw [List.map_append, List.nodup_append] at hnd
      have ih' := ih hnd.1
      rw [List.foldl_append, List.foldl_cons, List.foldl_nil]
      have hk : x.2.1 ∉ (l.foldl (addGItem F) []).map Prod.fst := by
        intro hk
        obtain ⟨y, hy, hyx⟩ := List.mem_map.1 hk
        obtain ⟨z, hz, rfl⟩ := (ih' y).1 hy
        exact hnd.2.2 _ (List.mem_map_of_mem hz) x.2.1 (by simp) hyx
      generalize hm : l.foldl (addGItem F) [] = m at hk ih' ⊢
      have hget : GMap.get m x.2.1 = none := by
        unfold GMap.get
        rw [Option.map_eq_none_iff, List.find?_eq_none]
        intro y hy hyx
        simp only [decide_eq_true_eq] at hyx
        exact hk (hyx ▸ List.mem_map_of_mem hy)
      have hset : addGItem F m x = m.set x.2.1 (x.2.2.toStr F) := by
        unfold addGItem
        split
        · simp [addGlobalNode, hget]
        · rfl
      intro e
      rw [hset, GMap.mem_set_new hk, ih' e]
      constructor
      · rintro (rfl | ⟨y, hy, rfl⟩)
        · exact ⟨x, by simp, rfl⟩
        · exact ⟨y, by simp [hy], rfl⟩
      · rintro ⟨y, hy, rfl⟩
        rcases List.mem_append.1 hy with hy | hy
        · exact .inr ⟨y, hy, rfl⟩
        · obtain rfl := List.mem_singleton.1 hy; exact .inl rfl
  exact this e

/-- an object written with separators; it may be empty -/
theorem obj_seq_reads {sep first pre w : List Byte} {ws : List Byte} (hsep : sep = ch ',' :: ws) (hws : ∀ c ∈ ws, isWs c = true)
    (hf : ∀ c ∈ first, isWs c = true)
    (hpre : ∀ c ∈ pre, isWs c = true) (hw : ∀ c ∈ w, isWs c = true) {w0 : List Byte} (hw0 : ∀ c ∈ w0, isWs c = true)
    {l : List (List Byte × (Str × JVal))}
    (h : ∀ x ∈ l, PairReads x.1 x.2) : Reads (ch '{' :: (w0 ++ writeSeq first sep pre (l.map Prod.fst) ++ (w ++ [ch '}']))) (.obj (l.map Prod.snd)) := by
  by_cases hl : l = []
  · subst hl
    have := reads_emptyObj (w := w0 ++ w) (by
      intro c hc
      rcases List.mem_append.1 hc with hc | hc
      · exact hw0 c hc
      · exact hw c hc)
    simpa [writeSeq] using this
  · have e : w0 ++ writeSeq first sep pre (l.map Prod.fst) = writeSeq (w0 ++ first) sep pre (l.map Prod.fst) := by
      cases l with
      | nil => exact absurd rfl hl
      | cons x l => simp [writeSeq]
    rw [e]
    refine reads_obj (mreads_seq ⟨ws, hsep, hws⟩ ?_ hpre hw hl h)
    intro c hc
    rcases List.mem_append.1 hc with hc | hc
    · exact hw0 c hc
    · exact hf c hc

/-- names that need no escapes -/
def PlainName (s : Str) : Prop := ∀ c ∈ s, 0x20 ≤ c.toNat ∧ c.toNat < 0x80 ∧ c ≠ ch '"' ∧ c ≠ ch '\\'

theorem plainName_keyText {s : Str} (h : PlainName s) : KeyText s s := by
  have h1 : writeJsonEsc s = s := by
    induction s with
    | nil => rfl
    | cons c s ih =>
      have e : writeJsonEsc (c :: s) = escChar c ++ writeJsonEsc s := by simp [writeJsonEsc]
      rw [e, ih fun x hx => h x (by simp [hx])]
      obtain ⟨a1, a2, a3, a4⟩ := h c (by simp)
      rcases escChar_cases c with ⟨rfl, -⟩ | ⟨hc, -⟩ | ⟨-, -, -, -, -, hh⟩ | ⟨-, hh, -⟩
      · exact absurd a1 (by decide)
      · rcases hc with hc | hc
        · exact absurd hc a4
        · exact absurd hc a3
      · rw [hh]; rfl
      · exact absurd ⟨a1, a2⟩ hh
  have h2 : clean s = s := by
    unfold clean
    rw [List.filter_eq_self]
    intro c hc
    obtain ⟨a1, a2, -, -⟩ := h c hc
    simp [a1, a2]
  have := keyText_esc s
  rwa [h1, h2] at this

/-- the description of an attribute -/
def attrJson (F : DblFmt) (info : Nat → AInfo) (a : JAttr) : JVal :=
  .obj ((str "is_global", .bool (info a.id).isGlobal) :: (str "is_nested", .bool (info a.id).nested) ::
    a.path.map fun n => (clean (info n.1).name, .string (clean (n.2.toStr F))))

theorem attr_pair (a : JAttr) (h : PlainName (info a.id).name) : PairReads (attrText F info a) ((info a.id).name, attrJson F info a) := by
  have cs : ∀ (s : String) (c : Char) (r : String), str s = ch c :: str r ↔ str s = ch c :: str r := fun _ _ _ => Iff.rfl
  let l : List (List Byte × (Str × JVal)) :=
    (str "\"is_global\": " ++ (if (info a.id).isGlobal then str "true" else str "false"), (str "is_global", .bool (info a.id).isGlobal)) ::
    (str "\"is_nested\": " ++ (if (info a.id).nested then str "true" else str "false"), (str "is_nested", .bool (info a.id).nested)) ::
    a.path.map fun n => (str "\"" ++ writeJsonEsc (info n.1).name ++ str "\": " ++ str "\"" ++ writeJsonEsc (n.2.toStr F) ++ str "\"",
      (clean (info n.1).name, .string (clean (n.2.toStr F))))
  have hw1 : ∀ c ∈ [ch ' '], isWs c = true := by decide
  have hl : ∀ x ∈ l, PairReads x.1 x.2 := by
    intro x hx
    simp only [l, List.mem_cons, List.mem_map] at hx
    rcases hx with rfl | rfl | ⟨n, -, rfl⟩
    · refine ⟨str "is_global", [ch ' '] ++ (if (info a.id).isGlobal then str "true" else str "false"), ?_, plainName_keyText (by unfold PlainName; decide),
        (reads_bool _).ws hw1⟩
      rfl
    · refine ⟨str "is_nested", [ch ' '] ++ (if (info a.id).nested then str "true" else str "false"), ?_, plainName_keyText (by unfold PlainName; decide),
        (reads_bool _).ws hw1⟩
      rfl
    · refine ⟨writeJsonEsc (info n.1).name, [ch ' '] ++ (ch '"' :: (writeJsonEsc (n.2.toStr F) ++ [ch '"'])), ?_, keyText_esc _,
        (reads_string (keyText_esc _)).ws hw1⟩
      have h1 : str "\"" = [ch '"'] := rfl
      have h2 : str "\": " = [ch '"', ch ':', ch ' '] := rfl
      simp [h1, h2]
  have hr := obj_seq_reads (sep := [ch ',']) (first := []) (pre := []) (w := []) (w0 := []) rfl (by simp) (by simp) (by simp) (by simp) (by simp) hl
  have hsnd : l.map Prod.snd = (str "is_global", .bool (info a.id).isGlobal) :: (str "is_nested", .bool (info a.id).nested) ::
    a.path.map fun n => (clean (info n.1).name, .string (clean (n.2.toStr F))) := by simp [l, Function.comp_def]
  have hflat : ∀ path : List (Nat × Val), (path.flatMap fun n => str ",\"" ++ writeJsonEsc (info n.1).name ++ str "\": " ++ str "\"" ++
      writeJsonEsc (n.2.toStr F) ++ str "\"") = writeSeq [ch ','] [ch ','] [] (path.map fun n =>
        str "\"" ++ writeJsonEsc (info n.1).name ++ str "\": " ++ str "\"" ++ writeJsonEsc (n.2.toStr F) ++ str "\"") := by
    intro path
    have h3 : str ",\"" = ch ',' :: str "\"" := rfl
    induction path with
    | nil => rfl
    | cons n path ih =>
      rw [List.flatMap_cons, List.map_cons, writeSeq, ih, h3]
      simp
  rw [hsnd] at hr
  refine ⟨(info a.id).name, [ch ' '] ++ _, ?_, plainName_keyText h, hr.ws hw1⟩
  have h1 : str "\"" = [ch '"'] := rfl
  have h2 : str "\": {" = [ch '"', ch ':', ch ' ', ch '{'] := rfl
  have h3 : str ",\"is_nested\": " = ch ',' :: str "\"is_nested\": " := rfl
  have h4 : str "}" = [ch '}'] := rfl
  have e : l.map Prod.fst = (str "\"is_global\": " ++ (if (info a.id).isGlobal then str "true" else str "false")) ::
      (str "\"is_nested\": " ++ (if (info a.id).nested then str "true" else str "false")) ::
      a.path.map fun n => str "\"" ++ writeJsonEsc (info n.1).name ++ str "\": " ++ str "\"" ++ writeJsonEsc (n.2.toStr F) ++ str "\"" := by
    simp [l, Function.comp_def]
  rw [e, writeSeq, writeSeq, ← hflat]
  unfold attrText
  rw [h2, h3, h4, h1]
  simp only [List.append_assoc, List.cons_append, List.nil_append]

theorem global_pair (e : Nat × Str) : PairReads (globalKV info e) (clean (info e.1).name, .string (clean e.2)) := by
  refine ⟨writeJsonEsc (info e.1).name, [ch ' '] ++ (ch '"' :: (writeJsonEsc e.2 ++ [ch '"'])), ?_, keyText_esc _,
    (reads_string (keyText_esc _)).ws (by decide)⟩
  have h1 : str "\"" = [ch '"'] := rfl
  have h2 : str "\": " = [ch '"', ch ':', ch ' '] := rfl
  simp [globalKV, h1, h2]

/-- **C56, objects.**  In the object layout the output is a JSON object with the records as above, the global values, and the descriptions of the
attributes.

Missing: as above; global attributes with several values; attribute names with quotes, backslashes or other special characters
(`C56_violation_names`). -/
theorem C56_object_partial {C : JCfg} (hl : C.layout = .object) {globals : List QEnt} (hg : ((items globals).map fun x => x.2.1).Nodup)
    {attrs : List JAttr} (ha : ∀ a ∈ attrs, PlainName (info a.id).name) {recs : List (List QEnt)} (h : ∀ r ∈ recs, RecordOk F info C r) :
    ∃ objs gs as, parseJson (jsonOutput F info C globals attrs recs) =
        some (.obj [(str "records", .arr (objs.map .obj)), (str "globals", .obj gs), (str "attributes", .obj as)]) ∧
      List.Forall₂ (Shows F info C) (recs.filter (nonEmpty info C)) objs ∧
      (∀ k w, (k, w) ∈ gs ↔ ∃ x ∈ items globals, k = clean (info x.2.1).name ∧ w = .string (clean (x.2.2.toStr F))) ∧
      as = (attrs.filter fun a => (C.sepNested || !(info a.id).nested) && !(info a.id).hidden).map
        fun a => ((info a.id).name, attrJson F info a) := by
  refine ⟨(recs.filter (nonEmpty info C)).map fun r => membersOf (collect F info C r),
    (globalVals F globals).map fun e => (clean (info e.1).name, .string (clean e.2)), _, ?_, shows_all h, ?_, rfl⟩
  · have hr := arr_reads h
    obtain ⟨h1, h2⟩ := print_all C recs h
    let lg := (globalVals F globals).map fun e => (globalKV info e, ((clean (info e.1).name, .string (clean e.2)) : Str × JVal))
    have hlg : ∀ x ∈ lg, PairReads x.1 x.2 := by
      intro x hx
      obtain ⟨e, -, rfl⟩ := List.mem_map.1 hx
      exact global_pair e
    let la := (shownAttrs info C attrs).map fun a => (attrText F info a, (((info a.id).name, attrJson F info a) : Str × JVal))
    have hla : ∀ x ∈ la, PairReads x.1 x.2 := by
      intro x hx
      obtain ⟨a, hma, rfl⟩ := List.mem_map.1 hx
      exact attr_pair a (ha a (List.mem_filter.1 (List.mem_filter.1 hma).1).1)
    have rg := obj_seq_reads (sep := str ",\n") (ws := str "\n") (first := []) (pre := if C.pretty then str "\t" else []) (w := str "\n")
      (w0 := str "\n") rfl (str_ws (by decide)) (by simp) (ws_if _ (by decide)) (str_ws (by decide)) (str_ws (by decide)) hlg
    have ra := obj_seq_reads (sep := str ",\n") (ws := str "\n") (first := str "\n") (pre := if C.pretty then str "\t" else []) (w := str "\n")
      (w0 := []) rfl (str_ws (by decide)) (str_ws (by decide)) (ws_if _ (by decide)) (str_ws (by decide)) (by simp) hla
    have e1 : lg.map Prod.fst = (globalVals F globals).map (globalKV info) := by simp [lg, Function.comp_def]
    have e2 : lg.map Prod.snd = (globalVals F globals).map fun e => (clean (info e.1).name, .string (clean e.2)) := by simp [lg, Function.comp_def]
    have e3 : la.map Prod.fst = (shownAttrs info C attrs).map (attrText F info) := by simp [la, Function.comp_def]
    have e4 : la.map Prod.snd = (attrs.filter fun a => (C.sepNested || !(info a.id).nested) && !(info a.id).hidden).map
        fun a => ((info a.id).name, attrJson F info a) := by
      simp only [la, List.map_map, Function.comp_def, shownAttrs, List.filter_filter]
      congr 1
      apply List.filter_congr
      intro a _
      rw [Bool.and_comm]
    rw [e1, e2] at rg
    rw [e3, e4] at ra
    have hn := fun (s : String) (hs : PlainName (str s)) => plainName_keyText hs
    have sp : ∀ c ∈ [ch ' '], isWs c = true := by decide
    have p1 : PairReads (str "\"records\": " ++ arrText C ((recs.filter (nonEmpty info C)).map fun r => recordText C (collect F info C r)))
        (str "records", .arr ((recs.filter (nonEmpty info C)).map fun r => .obj (membersOf (collect F info C r)))) :=
      ⟨str "records", [ch ' '] ++ _, rfl, hn _ (by unfold PlainName; decide), hr.ws sp⟩
    have p2 := fun t v (ht : Reads t v) => (⟨str "globals", [ch ' '] ++ t, rfl, hn _ (by unfold PlainName; decide), ht.ws sp⟩ :
      PairReads (str "\"globals\": " ++ t) (str "globals", v))
    have p3 := fun t v (ht : Reads t v) => (⟨str "attributes", [ch ' '] ++ t, rfl, hn _ (by unfold PlainName; decide), ht.ws sp⟩ :
      PairReads (str "\"attributes\": " ++ t) (str "attributes", v))
    have nl : ∀ c ∈ str "\n", isWs c = true := str_ws (by decide)
    have m3 := mreads_last (p3 _ _ ra) nl nl
    have m2 := mreads_cons (p2 _ _ rg) nl (w2 := []) (by simp) m3
    have m1 := mreads_cons p1 nl (w2 := []) (by simp) m2
    have hj := parseJson_reads (reads_obj m1) nl
    have e : jsonOutput F info C globals attrs recs = ch '{' :: (str "\n" ++ ((str "\"records\": " ++
        arrText C ((recs.filter (nonEmpty info C)).map fun r => recordText C (collect F info C r))) ++ ([] ++ ch ',' :: (str "\n" ++
        ((str "\"globals\": " ++ (ch '{' :: (str "\n" ++ writeSeq [] (str ",\n") (if C.pretty then str "\t" else [])
          ((globalVals F globals).map (globalKV info)) ++ (str "\n" ++ [ch '}'])))) ++ ([] ++ ch ',' :: (str "\n" ++
        ((str "\"attributes\": " ++ (ch '{' :: ([] ++ writeSeq (str "\n") (str ",\n") (if C.pretty then str "\t" else [])
          ((shownAttrs info C attrs).map (attrText F info)) ++ (str "\n" ++ [ch '}'])))) ++ (str "\n" ++ [ch '}']))))))))) ++ str "\n" := by
      unfold jsonOutput JState.flush
      rw [h1, h2, hl]
      have hb : beginText .object = ch '{' :: (str "\n" ++ str "\"records\": " ++ ch '[' :: str "\n") := rfl
      have t1 : str ",\n\"globals\": {\n" = ch ',' :: (str "\n" ++ str "\"globals\": " ++ ch '{' :: str "\n") := rfl
      have t2 : str ",\n\"attributes\": {" = ch ',' :: (str "\n" ++ str "\"attributes\": " ++ [ch '{']) := rfl
      have t3 : str "\n}" = str "\n" ++ [ch '}'] := rfl
      unfold arrText globalsText attrsText
      generalize recs.filter (nonEmpty info C) = rs
      rw [if_pos rfl, t1, t2, t3]
      cases rs with
      | nil => simp [writeSeq, hb, endText]
      | cons r rs => simp [writeSeq, hb, endText]
    rw [e, hj, List.map_map]
    rfl
  · intro k w
    rw [List.mem_map]
    constructor
    · rintro ⟨e, he, heq⟩
      obtain ⟨x, hx, rfl⟩ := (globalVals_mem hg e).1 he
      simp only [Prod.mk.injEq] at heq
      exact ⟨x, hx, heq.1.symm, heq.2.symm⟩
    · rintro ⟨x, hx, rfl, rfl⟩
      exact ⟨(x.2.1, x.2.2.toStr F), (globalVals_mem hg _).2 ⟨x, hx, rfl⟩, rfl⟩

/-! ## Hypotheses are met -/

def c56Fmt : DblFmt := ⟨fun _ => [], fun d => if d = 1 then str "inf" else str "0.500000", fun _ => none⟩

/-- attributes: nested regions `function` and `loop`, time (double), count (int), address, message (string), a global `app` -/
def c56Info : Nat → AInfo
  | 1 => ⟨str "function", .string, false, false, true⟩
  | 2 => ⟨str "loop", .string, false, false, true⟩
  | 3 => ⟨str "time", .double, false, false, false⟩
  | 4 => ⟨str "count", .int, false, false, false⟩
  | 5 => ⟨str "addr", .addr, false, false, false⟩
  | 6 => ⟨str "msg", .string, false, false, false⟩
  | 7 => ⟨str "app", .string, false, true, false⟩
  | 8 => ⟨str "a\"b", .string, false, false, false⟩
  | _ => ⟨str "hidden", .string, true, false, false⟩

def c56Cfg : JCfg := ⟨[], false, false, false, .records, fun n => if n = str "time" then some (str "Time (s)") else none⟩

def c56Rec : List QEnt :=
  [.ref [(2, .string (str "l\"1\"")), (1, .string (str "main"))], .imm 3 (.double 0), .imm 4 (.int 3), .imm 6 (.string (str "a\nb"))]

/-- label of each attribute of the example -/
theorem c56_labels (k : Str) : labelled c56Info c56Cfg c56Rec k =
    (if k = str "path" then [(true, 2, .string (str "l\"1\"")), (true, 1, .string (str "main"))] else
     if k = str "Time (s)" then [(false, 3, .double 0)] else if k = str "count" then [(false, 4, .int 3)] else
     if k = str "msg" then [(false, 6, .string (str "a\nb"))] else []) := by
  have i : items c56Rec = [(true, 2, .string (str "l\"1\"")), (true, 1, .string (str "main")), (false, 3, .double 0), (false, 4, .int 3),
    (false, 6, .string (str "a\nb"))] := rfl
  unfold labelled
  rw [i]
  have h : ∀ x ∈ ([(true, 2, .string (str "l\"1\"")), (true, 1, .string (str "main")), (false, 3, .double 0), (false, 4, .int 3),
      (false, 6, .string (str "a\nb"))] : List (Bool × Nat × Val)),
      decide (HasLabel c56Info c56Cfg k x) = decide (k = label c56Cfg (c56Info x.2.1)) := by
    intro x hx
    have hs : IsShown c56Cfg (c56Info x.2.1) ∧ label c56Cfg (c56Info x.2.1) ≠ [] := by
      simp only [List.mem_cons, List.not_mem_nil, or_false] at hx
      rcases hx with rfl | rfl | rfl | rfl | rfl <;> exact ⟨.inr (by decide), by decide⟩
    unfold HasLabel
    by_cases hk : k = label c56Cfg (c56Info x.2.1)
    · subst hk; simp [hs.1, hs.2]
    · simp [hk, Ne.symm hk]
  rw [List.filter_congr h]
  by_cases h1 : k = str "path"
  · subst h1; decide
  by_cases h2 : k = str "Time (s)"
  · subst h2; decide
  by_cases h3 : k = str "count"
  · subst h3; decide
  by_cases h4 : k = str "msg"
  · subst h4; decide
  have l1 : label c56Cfg (c56Info 1) = str "path" := by decide
  have l2 : label c56Cfg (c56Info 2) = str "path" := by decide
  have l3 : label c56Cfg (c56Info 3) = str "Time (s)" := by decide
  have l4 : label c56Cfg (c56Info 4) = str "count" := by decide
  have l6 : label c56Cfg (c56Info 6) = str "msg" := by decide
  simp [l1, l2, l3, l4, l6, h1, h2, h3, h4]

theorem c56Rec_ok : RecordOk c56Fmt c56Info c56Cfg c56Rec := by
  refine ⟨?_, ?_, ?_⟩
  · intro k x hx y hy
    rw [c56_labels] at hx hy
    by_cases h1 : k = str "path"
    · rw [if_pos h1] at hx hy
      simp only [List.mem_cons, List.not_mem_nil, or_false] at hx hy
      rcases hx with rfl | rfl <;> rcases hy with rfl | rfl <;> exact ⟨rfl, by decide⟩
    rw [if_neg h1] at hx hy
    by_cases h2 : k = str "Time (s)"
    · rw [if_pos h2] at hx hy
      simp only [List.mem_singleton] at hx hy; rw [hx, hy]; exact ⟨rfl, Iff.rfl⟩
    rw [if_neg h2] at hx hy
    by_cases h3 : k = str "count"
    · rw [if_pos h3] at hx hy
      simp only [List.mem_singleton] at hx hy; rw [hx, hy]; exact ⟨rfl, Iff.rfl⟩
    rw [if_neg h3] at hx hy
    by_cases h4 : k = str "msg"
    · rw [if_pos h4] at hx hy
      simp only [List.mem_singleton] at hx hy; rw [hx, hy]; exact ⟨rfl, Iff.rfl⟩
    rw [if_neg h4] at hx; cases hx
  · intro k hk
    rw [c56_labels] at hk
    by_cases h1 : k = str "path"
    · subst h1; decide
    by_cases h2 : k = str "Time (s)"
    · subst h2; decide
    by_cases h3 : k = str "count"
    · subst h3; decide
    by_cases h4 : k = str "msg"
    · subst h4; decide
    simp [h1, h2, h3, h4] at hk
  · intro k x hx hq
    rw [c56_labels] at hx
    split at hx
    · simp only [List.mem_cons, List.not_mem_nil, or_false] at hx
      rcases hx with rfl | rfl <;> exact absurd (.inl rfl) hq
    · split at hx
      · simp only [List.mem_singleton] at hx; subst hx
        show validNum (c56Fmt.toStr 0) = true
        decide
      · split at hx
        · simp only [List.mem_singleton] at hx; subst hx; exact trivial
        · split at hx
          · simp only [List.mem_singleton] at hx; subst hx
            exact absurd (.inr (.inr (.inl (by decide)))) hq
          · cases hx

/-- the output for the example -/
example : jsonOutput c56Fmt c56Info c56Cfg [] [] [c56Rec, [], c56Rec] =
    str "[\n{\"msg\":\"a\\nb\",\"path\":\"main/l\\\"1\\\"\",\"Time (s)\":0.500000,\"count\":3},\n{\"msg\":\"a\\nb\",\"path\":\"main/l\\\"1\\\"\",\"Time (s)\":0.500000,\"count\":3}\n]\n" := by
  decide +kernel

example : PlainName (c56Info 1).name ∧ (((items [.imm 7 (.string (str "x")), .ref [(6, .string (str "y"))]]).map fun x => x.2.1).Nodup) := by
  unfold PlainName; decide

/-! ## Violations -/

/-- **Violation (literals).**  Addresses and infinite values are written without quotes: the output is not JSON. -/
theorem C56_violation_addr :
    jsonOutput c56Fmt c56Info c56Cfg [] [] [[.imm 5 (.addr 0xff)]] = str "[\n{\"addr\":ff}\n]\n" ∧
    (parseJson (str "[\n{\"addr\":ff}\n]\n")).isNone = true ∧
    jsonOutput c56Fmt c56Info c56Cfg [] [] [[.imm 3 (.double 1)]] = str "[\n{\"Time (s)\":inf}\n]\n" ∧
    (parseJson (str "[\n{\"Time (s)\":inf}\n]\n")).isNone = true := by
  refine ⟨by decide +kernel, by decide +kernel, by decide +kernel, by decide +kernel⟩

/-- **Violation (duplicates).**  A label used for values of different kinds is written twice in the same object. -/
theorem C56_violation_duplicate :
    let C : JCfg := { c56Cfg with alias_ := fun _ => some (str "x") }
    jsonOutput c56Fmt c56Info C [] [] [[.imm 6 (.string (str "a")), .imm 4 (.int 3)]] = str "[\n{\"x\":\"a\",\"x\":3}\n]\n" := by
  decide +kernel

/-- **Violation (characters).**  Bytes outside of ASCII are dropped: different names give the same output. -/
theorem C56_violation_utf8 (s : Str) :
    writeJsonEsc (s ++ [0xC3, 0xA9]) = writeJsonEsc s := by
  have : writeJsonEsc [0xC3, 0xA9] = [] := by decide
  simp only [writeJsonEsc, List.flatMap_append] at *
  rw [this, List.append_nil]

/-- **Violation (layout).**  The split layout writes a list of objects without brackets: two records are not a JSON text. -/
theorem C56_violation_split :
    jsonOutput c56Fmt c56Info { c56Cfg with layout := .split } [] [] [[.imm 4 (.int 3)], [.imm 4 (.int 4)]] =
      str "{\"count\":3},\n{\"count\":4}\n" ∧
    (parseJson (str "{\"count\":3},\n{\"count\":4}\n")).isNone = true := by
  refine ⟨by decide +kernel, by decide +kernel⟩

/-- **Violation (names).**  Attribute names are not escaped in the attributes section. -/
theorem C56_violation_names :
    (parseJson (jsonOutput c56Fmt c56Info { c56Cfg with layout := .object } [] [⟨8, []⟩] [])).isNone = true := by
  decide +kernel

end Verif
