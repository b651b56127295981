import Verif.Cali.TextLemmas
/-!
# Lines of a `.cali` file

Model of `write_node_content`, `write_record_content` (`/repo/src/reader/CaliWriter.cpp`) and of the line parser in
`/repo/src/reader/CaliReader.cpp`.
-/
namespace Verif.Cali
open Verif

/-- `CALI_INV_ID` -/
def invId : U64 := 0xFFFFFFFFFFFFFFFF#64

/-- `write_node_content` (`CaliWriter.cpp:24-35`) without the final newline; `text` is the value as written by
`write_cali`, `parent` is absent for root nodes -/
def nodeLine (id attr : U64) (text : List Byte) (parent : Option U64) : List Byte :=
  str "__rec=node,id=" ++ writeUint id ++ (str ",attr=" ++ writeUint attr) ++ (str ",data=" ++ text) ++
    (match parent with
     | some p => str ",parent=" ++ writeUint p
     | none => [])

/-- `=x=y=z` -/
def eqList (ts : List (List Byte)) : List Byte := ts.flatMap fun t => ch '=' :: t

/-- `RecordKind` (`CaliWriter.cpp:22`) -/
inductive Kind where
  | snapshot | globals
  deriving DecidableEq, Repr

/-- record header (`CaliWriter.cpp:44-47`) -/
def Kind.header : Kind → List Byte
  | .snapshot => str "__rec=ctx"
  | .globals => str "__rec=globals"

/-- `write_record_content` (`CaliWriter.cpp:37-67`) without the final newline -/
def recLine (k : Kind) (refs : List U64) (imms : List (U64 × List Byte)) : List Byte :=
  k.header ++
  (if refs = [] then [] else str ",ref" ++ eqList (refs.map writeUint)) ++
  (if imms = [] then [] else str ",attr" ++ eqList (imms.map fun e => writeUint e.1) ++ (str ",data" ++ eqList (imms.map (·.2))))

/-- `fast_istringstream::matches(N, key)` (`CaliReader.cpp:46-55`).  The comparison `it_ + N < end_` is strict. -/
def matchKey (key s : List Byte) : Option (List Byte) :=
  if key.length < s.length ∧ s.take key.length = key then some (s.drop key.length) else none

/-- `fast_istringstream::matches(c)` (`CaliReader.cpp:35-44`) -/
def matchCh (c : Byte) : List Byte → Option (List Byte)
  | x :: xs => if c = x then some xs else none
  | [] => none

/-- `read_id_list` / `read_string_list` (`CaliReader.cpp:105-129`); `fuel` bounds the number of elements (each further
element consumes a `=`) -/
def readList {α : Type} (rd : List Byte → α × List Byte) : Nat → List Byte → List α × List Byte
  | 0, s => ([], s)
  | fuel + 1, s =>
    let r := rd s
    match matchCh (ch '=') r.2 with
    | some s' => let q := readList rd fuel s'; (r.1 :: q.1, q.2)
    | none => ([r.1], r.2)

/-- fields of a node record -/
structure NodeFields where
  attr : U64
  id : U64
  parent : U64
  data : List Byte
  deriving DecidableEq, Repr

/-- one field of a node record (`CaliReader.cpp:152-161`): `none` = unknown key (`break`) -/
def nodeField (f : NodeFields) (s : List Byte) : Option (NodeFields × List Byte) :=
  match matchKey (str "attr=") s with
  | some s => let r := readUint s 0; some ({ f with attr := r.1 }, r.2)
  | none =>
    match matchKey (str "data=") s with
    | some s => let r := readEsc s; some ({ f with data := r.1 }, r.2)
    | none =>
      match matchKey (str "id=") s with
      | some s => let r := readUint s 0; some ({ f with id := r.1 }, r.2)
      | none =>
        match matchKey (str "parent=") s with
        | some s => let r := readUint s 0; some ({ f with parent := r.1 }, r.2)
        | none => none

/-- fields of a context or globals record -/
structure RecFields where
  refs : List U64
  attr : List U64
  data : List (List Byte)
  deriving DecidableEq, Repr

/-- one field of a context record (`CaliReader.cpp:184-192`, `222-230`) -/
def recField (f : RecFields) (s : List Byte) : Option (RecFields × List Byte) :=
  match matchKey (str "ref=") s with
  | some s => let r := readList (fun s => readUint s 0) (s.length + 1) s; some ({ f with refs := r.1 }, r.2)
  | none =>
    match matchKey (str "attr=") s with
    | some s => let r := readList (fun s => readUint s 0) (s.length + 1) s; some ({ f with attr := r.1 }, r.2)
    | none =>
      match matchKey (str "data=") s with
      | some s => let r := readList readEsc (s.length + 1) s; some ({ f with data := r.1 }, r.2)
      | none => none

/-- `do { field } while (is.matches(','))`; `fuel` bounds the number of fields -/
def fields {σ : Type} (fld : σ → List Byte → Option (σ × List Byte)) : Nat → σ → List Byte → σ
  | 0, f, _ => f
  | fuel + 1, f, s =>
    match fld f s with
    | none => f
    | some (f', s') =>
      match matchCh (ch ',') s' with
      | some s'' => fields fld fuel f' s''
      | none => f'

/-- outcome of parsing a line (`read_record`, `CaliReader.cpp:239-257`): a node record, a context/globals record
(of which the reader uses the first `min` attribute/data pairs), or an error -/
inductive Parsed where
  | node (f : NodeFields)
  | record (k : Kind) (f : RecFields)
  | bad
  deriving DecidableEq, Repr

/-- `read_record` with `read_node`, `read_snapshot`, `read_globals` up to the database calls (`CaliReader.cpp:143-257`) -/
def parseLine (s : List Byte) : Parsed :=
  match matchKey (str "__rec=node,") s with
  | some s =>
    let f := fields nodeField (s.length + 1) ⟨invId, invId, invId, []⟩ s
    if f.id = invId ∨ f.attr = invId then .bad else .node f
  | none =>
    match matchKey (str "__rec=ctx,") s with
    | some s => .record .snapshot (fields recField (s.length + 1) ⟨[], [], []⟩ s)
    | none =>
      match matchKey (str "__rec=globals,") s with
      | some s => .record .globals (fields recField (s.length + 1) ⟨[], [], []⟩ s)
      | none => .bad

/-- `std::getline` loop (`CaliReader.cpp:261-267`): the lines of a file; a last line without newline counts, an empty
rest does not -/
def splitLines : List Byte → List Byte → List (List Byte)
  | [], cur => if cur = [] then [] else [cur]
  | c :: cs, cur => if c = ch '\n' then cur :: splitLines cs [] else splitLines cs (cur ++ [c])

/-- the parsed lines of a file; empty lines are skipped (`CaliReader.cpp:262-263`) -/
def parseFile (s : List Byte) : List Parsed := ((splitLines s []).filter (· ≠ [])).map parseLine

/-! ## parsing what was written -/

theorem str_append (a b : String) : str (a ++ b) = str a ++ str b := by simp [str]

theorem matchKey_append (key rest : List Byte) (h : rest ≠ []) : matchKey key (key ++ rest) = some rest := by
  unfold matchKey
  have : 0 < rest.length := List.length_pos_iff.2 h
  rw [if_pos (by simp; exact this)]
  simp

/-- the first `k` characters differ -/
theorem matchKey_ne (key s : List Byte) (i : Nat) (hi : i < key.length) (h : s[i]? ≠ key[i]?) : matchKey key s = none := by
  unfold matchKey
  rw [if_neg]
  rintro ⟨_, h2⟩
  apply h
  rw [← h2, List.getElem?_take]
  rw [if_pos hi]

theorem matchKey_short (key s : List Byte) (h : s.length ≤ key.length) : matchKey key s = none := by
  unfold matchKey
  rw [if_neg (by omega)]

/-- text whose reading is `w`, whatever separator follows -/
def TextOf (t w : List Byte) : Prop := ∀ rest, SepStart rest → readEscLoop (t ++ rest) false = (w, rest)

theorem TextOf.nil {w : List Byte} (h : TextOf [] w) : w = [] := by
  have := h [] (.inl rfl)
  simp [readEscLoop] at this
  exact this

theorem sepStart_comma (s : List Byte) : SepStart (ch ',' :: s) := .inr ⟨_, _, rfl, .inr rfl⟩
theorem sepStart_eq (s : List Byte) : SepStart (ch '=' :: s) := .inr ⟨_, _, rfl, .inl rfl⟩

theorem writeUint_ne_nil (u : U64) : writeUint u ≠ [] := digits_ne_nil 10 (by omega) _

theorem nodeField_id (f : NodeFields) (v : U64) (rest : List Byte) (hr : SepStart rest) :
    nodeField f (str "id=" ++ (writeUint v ++ rest)) = some ({ f with id := v }, rest) := by
  unfold nodeField
  rw [matchKey_ne (str "attr=") _ 0 (by decide) (by simp [str]; decide)]
  rw [matchKey_ne (str "data=") _ 0 (by decide) (by simp [str]; decide)]
  rw [matchKey_append _ _ (by simp [writeUint_ne_nil])]
  simp only [readUint_writeUint v rest hr]

theorem nodeField_attr (f : NodeFields) (v : U64) (rest : List Byte) (hr : SepStart rest) :
    nodeField f (str "attr=" ++ (writeUint v ++ rest)) = some ({ f with attr := v }, rest) := by
  unfold nodeField
  rw [matchKey_append _ _ (by simp [writeUint_ne_nil])]
  simp only [readUint_writeUint v rest hr]

theorem nodeField_parent (f : NodeFields) (v : U64) (rest : List Byte) (hr : SepStart rest) :
    nodeField f (str "parent=" ++ (writeUint v ++ rest)) = some ({ f with parent := v }, rest) := by
  unfold nodeField
  rw [matchKey_ne (str "attr=") _ 0 (by decide) (by simp [str]; decide)]
  rw [matchKey_ne (str "data=") _ 0 (by decide) (by simp [str]; decide)]
  rw [matchKey_ne (str "id=") _ 0 (by decide) (by simp [str]; decide)]
  rw [matchKey_append _ _ (by simp [writeUint_ne_nil])]
  simp only [readUint_writeUint v rest hr]

theorem nodeField_data (f : NodeFields) (t w rest : List Byte) (hr : SepStart rest) (ht : TextOf t w) (hne : t ++ rest ≠ []) :
    nodeField f (str "data=" ++ (t ++ rest)) = some ({ f with data := w }, rest) := by
  unfold nodeField
  rw [matchKey_ne (str "attr=") _ 0 (by decide) (by simp [str]; decide)]
  rw [matchKey_append _ _ hne]
  simp only [readEsc, ht rest hr]

theorem nodeField_data_empty (f : NodeFields) : nodeField f (str "data=") = none := by
  unfold nodeField
  rw [matchKey_ne (str "attr=") _ 0 (by decide) (by decide)]
  rw [matchKey_short (str "data=") _ (by decide)]
  rw [matchKey_ne (str "id=") _ 0 (by decide) (by decide)]
  rw [matchKey_ne (str "parent=") _ 0 (by decide) (by decide)]

theorem fields_step {σ : Type} (fld : σ → List Byte → Option (σ × List Byte)) (n : Nat) (f f' : σ) (s rest : List Byte)
    (h : fld f s = some (f', ch ',' :: rest)) : fields fld (n + 1) f s = fields fld n f' rest := by
  simp [fields, h, matchCh]

theorem fields_last {σ : Type} (fld : σ → List Byte → Option (σ × List Byte)) (n : Nat) (f f' : σ) (s : List Byte)
    (h : fld f s = some (f', [])) : fields fld (n + 1) f s = f' := by
  simp [fields, h, matchCh]

theorem fields_none {σ : Type} (fld : σ → List Byte → Option (σ × List Byte)) (n : Nat) (f : σ) (s : List Byte)
    (h : fld f s = none) : fields fld (n + 1) f s = f := by
  simp [fields, h]

/-- a written node line is parsed into the same fields -/
theorem parse_nodeLine (id attr : U64) (t w : List Byte) (parent : Option U64) (ht : TextOf t w)
    (hid : id ≠ invId) (hattr : attr ≠ invId) :
    parseLine (nodeLine id attr t parent) = .node ⟨attr, id, parent.getD invId, w⟩ := by
  have e : nodeLine id attr t parent = str "__rec=node," ++ (str "id=" ++ (writeUint id ++ (ch ',' ::
      (str "attr=" ++ (writeUint attr ++ (ch ',' :: (str "data=" ++ (t ++
        (match parent with | some p => ch ',' :: (str "parent=" ++ (writeUint p ++ [])) | none => []))))))))) := by
    unfold nodeLine
    have h1 : str "__rec=node,id=" = str "__rec=node," ++ str "id=" := by decide
    have h2 : str ",attr=" = ch ',' :: str "attr=" := by decide
    have h3 : str ",data=" = ch ',' :: str "data=" := by decide
    have h4 : str ",parent=" = ch ',' :: str "parent=" := by decide
    rw [h1, h2, h3, h4]
    cases parent <;> simp
  unfold parseLine
  rw [e, matchKey_append _ _ (by simp [str])]
  simp only []
  have hlen : ∀ (A : List Byte), ∃ k, (str "id=" ++ A).length + 1 = k + 4 := by
    intro A; exact ⟨A.length, by simp [str]⟩
  obtain ⟨k, hk⟩ := hlen _
  rw [hk]
  rw [fields_step _ _ _ _ _ _ (nodeField_id _ id _ (sepStart_comma _))]
  rw [fields_step _ _ _ _ _ _ (nodeField_attr _ attr _ (sepStart_comma _))]
  cases parent with
  | some p =>
    simp only []
    rw [fields_step _ _ _ _ _ _ (nodeField_data _ t w _ (sepStart_comma _) ht (by simp))]
    rw [fields_last _ _ _ _ _ (nodeField_parent _ p [] (.inl rfl))]
    simp [hid, hattr]
  | none =>
    simp only []
    by_cases h0 : t = []
    · subst h0
      have := ht.nil
      subst this
      rw [List.nil_append, List.append_nil, fields_none _ _ _ _ (nodeField_data_empty _)]
      simp [hid, hattr]
    · rw [fields_last _ _ _ _ _ (nodeField_data _ t w [] (.inl rfl) ht (by simpa using h0))]
      simp [hid, hattr]

/-- items separated by `=` are read back -/
theorem readList_items {α β : Type} (rd : List Byte → α × List Byte) (txt : β → List Byte) (val : β → α) (rest : List Byte)
    (hrest : rest = [] ∨ ∃ s, rest = ch ',' :: s) (b : β) (bs : List β)
    (hrd : ∀ x ∈ b :: bs, ∀ r, SepStart r → rd (txt x ++ r) = (val x, r)) : ∀ (n : Nat), bs.length < n →
    readList rd n (txt b ++ (eqList (bs.map txt) ++ rest)) = ((b :: bs).map val, rest) := by
  have hsr : SepStart rest := by
    rcases hrest with h | ⟨s, h⟩
    · exact .inl h
    · rw [h]; exact sepStart_comma s
  induction bs generalizing b with
  | nil =>
    intro n hn
    obtain ⟨m, rfl⟩ : ∃ m, n = m + 1 := ⟨n - 1, by simp at hn; omega⟩
    simp only [List.map_nil, eqList, List.flatMap_nil, List.nil_append, readList]
    rw [hrd b (by simp) rest hsr]
    have : matchCh (ch '=') rest = none := by
      rcases hrest with rfl | ⟨s, rfl⟩
      · rfl
      · simp [matchCh]; decide
    simp only [this, List.map_cons, List.map_nil]
  | cons c bs ih =>
    intro n hn
    obtain ⟨m, rfl⟩ : ∃ m, n = m + 1 := ⟨n - 1, by simp at hn; omega⟩
    have e : eqList ((c :: bs).map txt) ++ rest = ch '=' :: (txt c ++ (eqList (bs.map txt) ++ rest)) := by
      simp [eqList]
    rw [e]
    simp only [readList]
    rw [hrd b (by simp) _ (sepStart_eq _)]
    simp only [matchCh, if_true]
    rw [ih c (fun x hx => hrd x (List.mem_cons_of_mem _ hx)) m (by simp at hn; omega)]
    simp

theorem eqList_length (ts : List (List Byte)) : ts.length ≤ (eqList ts).length := by
  induction ts with
  | nil => simp
  | cons t ts ih => simp [eqList] at ih ⊢; omega

theorem eqList_cons (t : List Byte) (ts : List (List Byte)) : eqList (t :: ts) = ch '=' :: (t ++ eqList ts) := by
  simp [eqList]

theorem readIds (u : U64) (us : List U64) (rest : List Byte) (hrest : rest = [] ∨ ∃ s, rest = ch ',' :: s) (n : Nat)
    (hn : us.length < n) :
    readList (fun s => readUint s 0) n (writeUint u ++ (eqList (us.map writeUint) ++ rest)) = (u :: us, rest) := by
  have := readList_items (fun s => readUint s 0) writeUint id rest hrest u us
    (fun x _ r hr => readUint_writeUint x r hr) n hn
  simpa using this

theorem recField_ref (f : RecFields) (u : U64) (us : List U64) (rest : List Byte) (hrest : rest = [] ∨ ∃ s, rest = ch ',' :: s) :
    recField f (str "ref=" ++ (writeUint u ++ (eqList (us.map writeUint) ++ rest))) = some ({ f with refs := u :: us }, rest) := by
  unfold recField
  rw [matchKey_append _ _ (by simp [writeUint_ne_nil])]
  simp only []
  rw [readIds u us rest hrest _ (by
    have := eqList_length (us.map writeUint)
    simp only [List.length_map] at this
    simp only [List.length_append]
    omega)]

theorem recField_attr (f : RecFields) (u : U64) (us : List U64) (rest : List Byte) (hrest : rest = [] ∨ ∃ s, rest = ch ',' :: s) :
    recField f (str "attr=" ++ (writeUint u ++ (eqList (us.map writeUint) ++ rest))) = some ({ f with attr := u :: us }, rest) := by
  unfold recField
  rw [matchKey_ne (str "ref=") _ 0 (by decide) (by simp [str]; decide)]
  rw [matchKey_append _ _ (by simp [writeUint_ne_nil])]
  simp only []
  rw [readIds u us rest hrest _ (by
    have := eqList_length (us.map writeUint)
    simp only [List.length_map] at this
    simp only [List.length_append]
    omega)]

theorem recField_data (f : RecFields) (t : List Byte × List Byte) (ts : List (List Byte × List Byte))
    (ht : ∀ x ∈ t :: ts, TextOf x.1 x.2) (hne : t.1 ++ eqList (ts.map (·.1)) ≠ []) :
    recField f (str "data=" ++ (t.1 ++ eqList (ts.map (·.1)))) = some ({ f with data := (t :: ts).map (·.2) }, []) := by
  unfold recField
  rw [matchKey_ne (str "ref=") _ 0 (by decide) (by simp [str]; decide)]
  rw [matchKey_ne (str "attr=") _ 0 (by decide) (by simp [str]; decide)]
  rw [matchKey_append _ _ hne]
  simp only []
  have := readList_items readEsc (fun x : List Byte × List Byte => x.1) (fun x => x.2) [] (.inl rfl) t ts (fun x hx r hr => ht x hx r hr)
    ((t.1 ++ eqList (ts.map (·.1))).length + 1) (by
      have := eqList_length (ts.map (·.1))
      simp only [List.length_map] at this
      simp only [List.length_append]
      omega)
  rw [List.append_nil] at this
  rw [this]

/-- the fields of a record body, as parsed -/
theorem fields_rec (refs : List U64) (imms : List (U64 × List Byte × List Byte)) (h0 : refs ≠ [] ∨ imms ≠ [])
    (ht : ∀ e ∈ imms, TextOf e.2.1 e.2.2) (h1 : ∀ e, imms = [e] → e.2.1 ≠ []) (body : List Byte)
    (hb : ch ',' :: body = (if refs = [] then [] else str ",ref" ++ eqList (refs.map writeUint)) ++
      (if imms = [] then [] else str ",attr" ++ eqList (imms.map fun e => writeUint e.1) ++ (str ",data" ++ eqList (imms.map fun e => e.2.1)))) :
    body ≠ [] ∧ ∀ n, 3 ≤ n → fields recField n ⟨[], [], []⟩ body = ⟨refs, imms.map (·.1), imms.map fun e => e.2.2⟩ := by
  have k1 : str ",ref" = ch ',' :: str "ref" := by decide
  have k2 : str ",attr" = ch ',' :: str "attr" := by decide
  have k3 : str ",data" = ch ',' :: str "data" := by decide
  have q1 : ∀ A : List Byte, str "ref" ++ ch '=' :: A = str "ref=" ++ A := by intro A; rw [show str "ref=" = str "ref" ++ [ch '='] by decide]; simp
  have q2 : ∀ A : List Byte, str "attr" ++ ch '=' :: A = str "attr=" ++ A := by intro A; rw [show str "attr=" = str "attr" ++ [ch '='] by decide]; simp
  have q3 : ∀ A : List Byte, str "data" ++ ch '=' :: A = str "data=" ++ A := by intro A; rw [show str "data=" = str "data" ++ [ch '='] by decide]; simp
  -- body of the immediates
  have himm : ∀ (e : U64 × List Byte × List Byte) (es : List (U64 × List Byte × List Byte)), imms = e :: es →
      ∃ b2, str ",attr" ++ eqList (imms.map fun e => writeUint e.1) ++ (str ",data" ++ eqList (imms.map fun e => e.2.1)) = ch ',' :: b2 ∧
        b2 ≠ [] ∧ ∀ (f : RecFields) n, 2 ≤ n → fields recField n f b2 = { f with attr := imms.map (·.1), data := imms.map fun e => e.2.2 } := by
    intro e es he
    refine ⟨str "attr=" ++ (writeUint e.1 ++ (eqList ((es.map (·.1)).map writeUint) ++ (ch ',' :: (str "data=" ++ (e.2.1 ++ eqList (es.map fun e => e.2.1)))))), ?_, ?_, ?_⟩
    · rw [he, k2, k3]
      simp only [List.map_cons, eqList_cons, List.cons_append]
      rw [← q2, ← q3]
      simp [Function.comp_def]
    · simp [str]
    · intro f n hn
      obtain ⟨m, rfl⟩ : ∃ m, n = m + 1 + 1 := ⟨n - 2, by omega⟩
      rw [fields_step _ _ _ _ _ _ (recField_attr f e.1 (es.map (·.1)) _ (.inr ⟨_, rfl⟩))]
      have hd := recField_data { f with attr := e.1 :: es.map (·.1) } e.2 (es.map (·.2))
        (by intro x hx
            simp only [List.mem_cons, List.mem_map] at hx
            rcases hx with rfl | ⟨y, hy, rfl⟩
            · exact ht e (by rw [he]; simp)
            · exact ht y (by rw [he]; simp [hy]))
        (by
          intro hnil
          simp only [List.append_eq_nil_iff] at hnil
          cases es with
          | nil => exact h1 e he hnil.1
          | cons c cs => simp [eqList] at hnil)
      simp only [List.map_map, Function.comp_def] at hd
      rw [fields_last _ _ _ _ _ hd]
      rw [he]
      simp
  cases hr : refs with
  | nil =>
    subst hr
    rcases h0 with h0 | h0
    · exact absurd rfl h0
    cases hi : imms with
    | nil => exact absurd hi h0
    | cons e es =>
      obtain ⟨b2, e1, e2, e3⟩ := himm e es hi
      rw [if_pos rfl, if_neg h0, List.nil_append, e1] at hb
      have : body = b2 := (List.cons.inj hb).2
      subst this
      rw [← hi]
      refine ⟨e2, fun n hn => ?_⟩
      rw [e3 _ n (by omega)]
  | cons u us =>
    rw [hr, if_neg (by simp)] at hb
    cases hi : imms with
    | nil =>
      rw [hi, if_pos rfl, List.append_nil, k1] at hb
      simp only [List.map_cons, eqList_cons, List.cons_append] at hb
      have := (List.cons.inj hb).2
      rw [q1] at this
      subst this
      refine ⟨by simp [str], fun n hn => ?_⟩
      obtain ⟨m, rfl⟩ : ∃ m, n = m + 1 := ⟨n - 1, by omega⟩
      have hh := recField_ref ⟨[], [], []⟩ u us [] (.inl rfl)
      rw [List.append_nil] at hh
      rw [fields_last _ _ _ _ _ hh]
      simp
    | cons e es =>
      obtain ⟨b2, e1, e2, e3⟩ := himm e es hi
      rw [← hi]
      rw [if_neg (by simp [hi]), e1, k1] at hb
      simp only [List.map_cons, eqList_cons, List.cons_append] at hb
      have := (List.cons.inj hb).2
      rw [show str "ref" ++ ch '=' :: (writeUint u ++ eqList (us.map writeUint)) ++ ch ',' :: b2 =
        str "ref=" ++ (writeUint u ++ (eqList (us.map writeUint) ++ ch ',' :: b2)) by rw [← q1]; simp] at this
      subst this
      refine ⟨by simp [str], fun n hn => ?_⟩
      obtain ⟨m, rfl⟩ : ∃ m, n = m + 1 := ⟨n - 1, by omega⟩
      rw [fields_step _ _ _ _ _ _ (recField_ref ⟨[], [], []⟩ u us _ (.inr ⟨_, rfl⟩))]
      rw [e3 _ m (by omega)]

/-- a written record line is parsed into the same ids and words, unless the record is empty or consists of immediates
only whose single text is empty -/
theorem parse_recLine (k : Kind) (refs : List U64) (imms : List (U64 × List Byte × List Byte)) (h0 : refs ≠ [] ∨ imms ≠ [])
    (ht : ∀ e ∈ imms, TextOf e.2.1 e.2.2) (h1 : ∀ e, imms = [e] → e.2.1 ≠ []) :
    parseLine (recLine k refs (imms.map fun e => (e.1, e.2.1))) =
      .record k ⟨refs, imms.map (·.1), imms.map fun e => e.2.2⟩ := by
  have hbody : ∃ body, ch ',' :: body = (if refs = [] then [] else str ",ref" ++ eqList (refs.map writeUint)) ++
      (if imms = [] then [] else str ",attr" ++ eqList (imms.map fun e => writeUint e.1) ++ (str ",data" ++ eqList (imms.map fun e => e.2.1))) := by
    by_cases hr : refs = []
    · have hi : imms ≠ [] := by rcases h0 with h | h; · exact absurd hr h
                                · exact h
      rw [if_pos hr, if_neg hi, show str ",attr" = ch ',' :: str "attr" by decide]
      simp only [List.nil_append, List.cons_append]
      exact ⟨_, rfl⟩
    · rw [if_neg hr, show str ",ref" = ch ',' :: str "ref" by decide]
      simp only [List.cons_append]
      exact ⟨_, rfl⟩
  obtain ⟨body, hb⟩ := hbody
  obtain ⟨hne, hf⟩ := fields_rec refs imms h0 ht h1 body hb
  have hlen : 3 ≤ body.length + 1 := by
    have := congrArg List.length hb
    simp only [List.length_cons, List.length_append] at this
    by_cases hr : refs = []
    · have hi : imms ≠ [] := by rcases h0 with h | h; · exact absurd hr h
                                · exact h
      rw [if_neg hi] at this
      simp only [List.length_append] at this
      have e5 : (str ",attr").length = 5 := by decide
      omega
    · rw [if_neg hr] at this
      simp only [List.length_append] at this
      have e5 : (str ",ref").length = 4 := by decide
      omega
  have e : recLine k refs (imms.map fun e => (e.1, e.2.1)) = k.header ++ ch ',' :: body := by
    unfold recLine
    rw [hb]
    simp [Function.comp_def]
  rw [e]
  have hb1 : body ≠ [] := hne
  cases k with
  | snapshot =>
    rw [show Kind.snapshot.header ++ ch ',' :: body = str "__rec=ctx," ++ body by
      rw [show str "__rec=ctx," = str "__rec=ctx" ++ [ch ','] by decide]; simp [Kind.header]]
    unfold parseLine
    rw [matchKey_ne (str "__rec=node,") _ 6 (by decide) (by
      rw [List.getElem?_append_left (by decide)]; decide)]
    rw [matchKey_append _ _ hb1]
    simp only []
    rw [hf _ hlen]
  | globals =>
    rw [show Kind.globals.header ++ ch ',' :: body = str "__rec=globals," ++ body by
      rw [show str "__rec=globals," = str "__rec=globals" ++ [ch ','] by decide]; simp [Kind.header]]
    unfold parseLine
    rw [matchKey_ne (str "__rec=node,") _ 6 (by decide) (by
      rw [List.getElem?_append_left (by decide)]; decide)]
    rw [matchKey_ne (str "__rec=ctx,") _ 6 (by decide) (by
      rw [List.getElem?_append_left (by decide)]; decide)]
    rw [matchKey_append _ _ hb1]
    simp only []
    rw [hf _ hlen]

/-! ## splitting into lines -/

theorem splitLines_line (l rest cur : List Byte) (h : ∀ c ∈ l, c ≠ ch '\n') :
    splitLines (l ++ ch '\n' :: rest) cur = (cur ++ l) :: splitLines rest [] := by
  induction l generalizing cur with
  | nil => simp [splitLines]
  | cons c cs ih =>
    simp only [List.cons_append, splitLines]
    rw [if_neg (h c (by simp)), ih _ (fun x hx => h x (List.mem_cons_of_mem _ hx))]
    simp

/-- a file made of lines -/
def fileText (ls : List (List Byte)) : List Byte := ls.flatMap fun l => l ++ [ch '\n']

theorem parseFile_lines (ls : List (List Byte)) (h : ∀ l ∈ ls, l ≠ [] ∧ ∀ c ∈ l, c ≠ ch '\n') :
    parseFile (fileText ls) = ls.map parseLine := by
  have : ∀ ls : List (List Byte), (∀ l ∈ ls, l ≠ [] ∧ ∀ c ∈ l, c ≠ ch '\n') → splitLines (fileText ls) [] = ls := by
    intro ls
    induction ls with
    | nil => intro _; simp [fileText, splitLines]
    | cons l ls ih =>
      intro h
      have e : fileText (l :: ls) = l ++ ch '\n' :: fileText ls := by simp [fileText]
      rw [e, splitLines_line _ _ _ (h l (by simp)).2, ih fun x hx => h x (List.mem_cons_of_mem _ hx)]
      simp
  unfold parseFile
  rw [this ls h, List.filter_eq_self.2]
  intro l hl
  simpa using (h l hl).1

end Verif.Cali
