import Verif.Py.Lemmas
/-!
# What the Python reader makes of the lines of a written file
-/
namespace Verif.Py
open Verif Verif.Cali

theorem scans_str (s : String) (h : (str s).all (fun c => decide (c ≠ ch '=' ∧ c ≠ ch ',' ∧ c ≠ ch '\\')) = true) : Scans (str s) (str s) :=
  scans_plain fun c hc => by have := List.all_eq_true.1 h c hc; simpa using this

theorem scans_uint (u : U64) : Scans (writeUint u) (writeUint u) :=
  scans_plain fun c hc => ⟨(writeUint_plain u c hc).1, (writeUint_plain u c hc).2.1, (writeUint_plain u c hc).2.2.1⟩

theorem scan_end {s : List Byte} (hs : s ≠ []) (r : RawRec) (e : List (List Byte)) : scan [] r e s = some (put r (e ++ [s])) := by
  rw [scan.eq_def]; simp [hs]

/-- the raw record of a node line -/
def nodeRaw (id attr : U64) (w : List Byte) (parent : Option U64) : RawRec :=
  [(str "__rec", [str "node"]), (str "id", [writeUint id]), (str "attr", [writeUint attr])] ++
    (match parent with
     | some p => [(str "data", [w]), (str "parent", [writeUint p])]
     | none => if w = [] then [] else [(str "data", [w])])

theorem kne : str "__rec" ≠ str "id" ∧ str "__rec" ≠ str "attr" ∧ str "__rec" ≠ str "data" ∧ str "__rec" ≠ str "parent" ∧
    str "__rec" ≠ str "ref" ∧ str "id" ≠ str "attr" ∧ str "id" ≠ str "data" ∧ str "id" ≠ str "parent" ∧ str "attr" ≠ str "data" ∧
    str "attr" ≠ str "parent" ∧ str "data" ≠ str "parent" ∧ str "ref" ≠ str "attr" ∧ str "ref" ≠ str "data" := by decide

theorem put_new (r : RawRec) (k : List Byte) (vs : List (List Byte)) (h : lookup k r = none) : put r (k :: vs) = r ++ [(k, vs)] := by
  simp only [put]
  induction r with
  | nil => rfl
  | cons p r ih =>
    obtain ⟨a, b⟩ := p
    simp only [lookup] at h
    split at h
    · cases h
    · rename_i hn
      simp only [dset, if_neg hn, List.cons_append, ih h]

theorem readRecord_nodeLine (id attr : U64) (t w : List Byte) (parent : Option U64) (ht : Scans t w) (he : parent = none → EndOK t) :
    readRecord (nodeLine id attr t parent) = some (nodeRaw id attr w parent) := by
  have hs : strip (nodeLine id attr t parent) = nodeLine id attr t parent := by
    have e : nodeLine id attr t parent = ch '_' :: (str "_rec=node,id=" ++ writeUint id ++ (str ",attr=" ++ writeUint attr) ++ (str ",data=" ++ t) ++
        (match parent with
         | some p => str ",parent=" ++ writeUint p
         | none => [])) := by
      unfold nodeLine
      rw [show str "__rec=node,id=" = ch '_' :: str "_rec=node,id=" by decide]
      cases parent <;> simp
    rw [e]
    refine strip_id (by decide) ?_
    cases parent with
    | some p =>
      simp only
      have : str ",parent=" ++ writeUint p ≠ [] := by simp [writeUint_ne_nil]
      rw [← List.cons_append]
      exact endOK_append this (endOK_append (writeUint_ne_nil p) (endOK_of_all (writeUint_space p)))
    | none =>
      simp only [List.append_nil]
      rw [← List.cons_append]
      by_cases h0 : t = []
      · subst h0
        rw [List.append_nil]
        exact endOK_append (by decide) (endOK_of_all (by decide))
      · exact endOK_append (by simp [h0]) (endOK_append h0 (he rfl))
  unfold readRecord
  rw [hs]
  unfold nodeLine
  rw [show str "__rec=node,id=" = str "__rec" ++ (ch '=' :: (str "node" ++ (ch ',' :: (str "id" ++ [ch '='])))) by decide,
    show str ",attr=" = ch ',' :: (str "attr" ++ [ch '=']) by decide, show str ",data=" = ch ',' :: (str "data" ++ [ch '=']) by decide,
    show str ",parent=" = ch ',' :: (str "parent" ++ [ch '=']) by decide]
  simp only [List.append_assoc, List.cons_append, List.nil_append]
  rw [scans_str "__rec" (by decide), scan_eq, scans_str "node" (by decide), scan_comma, scans_str "id" (by decide), scan_eq, scans_uint,
    scan_comma, scans_str "attr" (by decide), scan_eq, scans_uint, scan_comma, scans_str "data" (by decide), scan_eq]
  simp only [List.nil_append, List.cons_append]
  cases parent with
  | some p =>
    simp only
    rw [ht, List.nil_append, scan_comma, scans_str "parent" (by decide), scan_eq]
    have := scans_uint p [] 
    rw [List.append_nil] at this
    rw [this, scan_end (by simpa using writeUint_ne_nil p)]
    simp only [List.nil_append, List.cons_append]
    simp [nodeRaw, put, dset, kne]
  | none =>
    simp only
    rw [ht]
    simp only [List.nil_append]
    by_cases h0 : w = []
    · subst h0
      rw [scan.eq_def]
      simp [nodeRaw, put, dset, kne]
    · rw [scan_end h0]
      simp only [List.nil_append, List.cons_append]
      simp [nodeRaw, h0, put, dset, kne]

/-- `=x=y=z` in the middle of a line: the words are appended to the entry, except for the last one -/
theorem scan_eqList (ts : List (List Byte × List Byte)) (h : ∀ x ∈ ts, Scans x.1 x.2) : ∀ (rest : List Byte) (r : RawRec)
    (e : List (List Byte)) (s : List Byte),
    scan (eqList (ts.map (·.1)) ++ rest) r e s = scan rest r ((e ++ [s] ++ ts.map (·.2)).dropLast) ((e ++ [s] ++ ts.map (·.2)).getLast (by simp)) := by
  induction ts with
  | nil => intro rest r e s; simp [eqList]
  | cons x ts ih =>
    intro rest r e s
    simp only [List.map_cons, eqList_cons, List.cons_append, List.append_assoc]
    rw [scan_eq, h x (by simp), ih fun y hy => h y (List.mem_cons_of_mem _ hy)]
    simp only [List.nil_append]
    congr 1
    · simp
    · congr 1; simp

theorem scan_key_comma (k : String) (hk : (str k).all (fun c => decide (c ≠ ch '=' ∧ c ≠ ch ',' ∧ c ≠ ch '\\')) = true)
    (ts : List (List Byte × List Byte)) (h : ∀ x ∈ ts, Scans x.1 x.2) (rest : List Byte) (r : RawRec) :
    scan (str k ++ (eqList (ts.map (·.1)) ++ (ch ',' :: rest))) r [] [] = scan rest (put r (str k :: ts.map (·.2))) [] [] := by
  rw [scans_str k hk, scan_eqList ts h, scan_comma]
  congr 2
  rw [List.dropLast_concat_getLast]
  simp

theorem scan_key_end (k : String) (hk : (str k).all (fun c => decide (c ≠ ch '=' ∧ c ≠ ch ',' ∧ c ≠ ch '\\')) = true) (hk0 : str k ≠ [])
    (ts : List (List Byte × List Byte)) (h : ∀ x ∈ ts, Scans x.1 x.2) (hl : ∀ x, ts.getLast? = some x → x.2 ≠ []) (r : RawRec) :
    scan (str k ++ eqList (ts.map (·.1))) r [] [] = some (put r (str k :: ts.map (·.2))) := by
  have := scan_eqList ts h [] r [] (str k)
  rw [List.append_nil] at this
  rw [scans_str k hk, List.nil_append, this, scan_end]
  · rw [List.dropLast_concat_getLast]
    simp
  · cases ts using List.reverseRecOn with
    | nil => simpa using hk0
    | append_singleton l x =>
      have := hl x (by simp)
      simpa using this

/-- the raw record of a record line -/
def recRaw (k : Kind) (refs : List U64) (imms : List (U64 × List Byte)) : RawRec :=
  (str "__rec", [match k with | .snapshot => str "ctx" | .globals => str "globals"]) ::
    ((if refs = [] then [] else [(str "ref", refs.map writeUint)]) ++
     (if imms = [] then [] else [(str "attr", imms.map fun e => writeUint e.1), (str "data", imms.map (·.2))]))

theorem endOK_eqList {ts : List (List Byte)} (h : ∀ t, ts.getLast? = some t → t ≠ [] ∧ EndOK t) (h0 : ts ≠ []) : eqList ts ≠ [] ∧ EndOK (eqList ts) := by
  cases ts using List.reverseRecOn with
  | nil => exact absurd rfl h0
  | append_singleton l x =>
    have := h x (by simp)
    have e : eqList (l ++ [x]) = (eqList l ++ [ch '=']) ++ x := by simp [eqList]
    rw [e]
    exact ⟨by simp, endOK_append this.1 this.2⟩

theorem readRecord_recLine (k : Kind) (refs : List U64) (imms : List (U64 × List Byte × List Byte))
    (ht : ∀ e ∈ imms, Scans e.2.1 e.2.2) (hl : ∀ e, imms.getLast? = some e → e.2.1 ≠ [] ∧ e.2.2 ≠ [] ∧ EndOK e.2.1) :
    readRecord (recLine k refs (imms.map fun e => (e.1, e.2.1))) = some (recRaw k refs (imms.map fun e => (e.1, e.2.2))) := by
  -- the end of the line
  have hend : EndOK (recLine k refs (imms.map fun e => (e.1, e.2.1))) := by
    unfold recLine
    by_cases hi : imms = []
    · subst hi
      simp only [List.map_nil, if_true, List.append_nil]
      by_cases hr : refs = []
      · subst hr
        simp only [if_true, List.append_nil]
        cases k <;> exact endOK_of_all (by decide)
      · rw [if_neg hr]
        obtain ⟨a, b⟩ := endOK_eqList (ts := refs.map writeUint) (by
          intro t ht
          have := List.mem_of_getLast? ht
          obtain ⟨u, _, rfl⟩ := List.mem_map.1 this
          exact ⟨writeUint_ne_nil u, endOK_of_all (writeUint_space u)⟩) (by simpa using hr)
        exact endOK_append (by simp [a]) (endOK_append a b)
    · have hi' : (imms.map fun e => (e.1, e.2.1)) ≠ [] := by simpa using hi
      rw [if_neg hi']
      obtain ⟨a, b⟩ := endOK_eqList (ts := (imms.map fun e => (e.1, e.2.1)).map (·.2)) (by
          intro t ht
          simp only [List.map_map, List.getLast?_map, Option.map_eq_some_iff] at ht
          obtain ⟨e, he, rfl⟩ := ht
          exact ⟨(hl e he).1, (hl e he).2.2⟩) (by simpa using hi)
      rw [← List.append_assoc (str ",attr" ++ _), ← List.append_assoc]
      exact endOK_append a b
  have hs : strip (recLine k refs (imms.map fun e => (e.1, e.2.1))) = recLine k refs (imms.map fun e => (e.1, e.2.1)) := by
    have : ∃ r, recLine k refs (imms.map fun e => (e.1, e.2.1)) = ch '_' :: r := by
      unfold recLine
      cases k
      · exact ⟨_, by rw [show Kind.snapshot.header = ch '_' :: str "_rec=ctx" by decide]; rfl⟩
      · exact ⟨_, by rw [show Kind.globals.header = ch '_' :: str "_rec=globals" by decide]; rfl⟩
    obtain ⟨r, hr⟩ := this
    rw [hr] at hend ⊢
    exact strip_id (by decide) hend
  unfold readRecord
  rw [hs]
  -- the header
  obtain ⟨kw, hkw, hkc, hkn, hh⟩ : ∃ kw : String, (match k with | .snapshot => str "ctx" | .globals => str "globals") = str kw ∧
      (str kw).all (fun c => decide (c ≠ ch '=' ∧ c ≠ ch ',' ∧ c ≠ ch '\\')) = true ∧ str kw ≠ [] ∧ k.header = str "__rec" ++ eqList [str kw] := by
    cases k
    · exact ⟨"ctx", rfl, by decide, by decide, by decide⟩
    · exact ⟨"globals", rfl, by decide, by decide, by decide⟩
  have hhs : ∀ x ∈ [(str kw, str kw)], Scans x.1 x.2 := by simp; exact scans_str kw hkc
  have hrs : ∀ x ∈ refs.map (fun u => (writeUint u, writeUint u)), Scans x.1 x.2 := by
    intro x hx; obtain ⟨u, _, rfl⟩ := List.mem_map.1 hx; exact scans_uint u
  have hre : refs.map writeUint = (refs.map (fun u => (writeUint u, writeUint u))).map (·.1) := by simp [Function.comp_def]
  have has : ∀ x ∈ imms.map (fun e => (writeUint e.1, writeUint e.1)), Scans x.1 x.2 := by
    intro x hx; obtain ⟨u, _, rfl⟩ := List.mem_map.1 hx; exact scans_uint _
  have hae : (imms.map fun e => (e.1, e.2.1)).map (fun e => writeUint e.1) = (imms.map (fun e => (writeUint e.1, writeUint e.1))).map (·.1) := by
    simp [Function.comp_def]
  have hds : ∀ x ∈ imms.map (fun e => e.2), Scans x.1 x.2 := by
    intro x hx; obtain ⟨u, hu, rfl⟩ := List.mem_map.1 hx; exact ht _ hu
  have hde : (imms.map fun e => (e.1, e.2.1)).map (·.2) = (imms.map (fun e => e.2)).map (·.1) := by simp [Function.comp_def]
  unfold recLine recRaw
  rw [hkw, hh, hre, hae, hde]
  have ek : [str kw] = [(str kw, str kw)].map (·.1) := rfl
  rw [ek]
  rw [show str ",ref" = ch ',' :: str "ref" by decide, show str ",attr" = ch ',' :: str "attr" by decide,
    show str ",data" = ch ',' :: str "data" by decide]
  have p0 : ∀ vs : List (List Byte), put [] (str "__rec" :: vs) = [(str "__rec", vs)] := fun vs => put_new [] _ _ rfl
  by_cases hr : refs = []
  · subst hr
    by_cases hi : imms = []
    · subst hi
      simp only [List.map_nil, if_true, List.append_nil]
      rw [scan_key_end "__rec" (by decide) (by decide) _ hhs (by simp [hkn])]
      simp [p0]
    · rw [if_pos rfl, if_neg (by simpa using hi), if_pos rfl, if_neg (by simpa using hi)]
      simp only [List.append_nil, List.append_assoc, List.cons_append, List.nil_append]
      rw [scan_key_comma "__rec" (by decide) _ hhs, scan_key_comma "attr" (by decide) _ has,
        scan_key_end "data" (by decide) (by decide) _ hds (by
          intro x hx
          rw [List.getLast?_map, Option.map_eq_some_iff] at hx
          obtain ⟨e, he, rfl⟩ := hx
          exact (hl e he).2.1)]
      simp [Function.comp_def, put, dset, kne]
  · rw [if_neg hr, if_neg hr]
    by_cases hi : imms = []
    · subst hi
      simp only [List.map_nil, if_true, List.append_nil, List.append_assoc, List.cons_append, List.nil_append]
      rw [scan_key_comma "__rec" (by decide) _ hhs, scan_key_end "ref" (by decide) (by decide) _ hrs (by
          intro x hx
          rw [List.getLast?_map, Option.map_eq_some_iff] at hx
          obtain ⟨e, he, rfl⟩ := hx
          exact writeUint_ne_nil e)]
      simp [Function.comp_def, put, dset, kne]
    · rw [if_neg (by simpa using hi), if_neg (by simpa using hi)]
      simp only [List.append_assoc, List.cons_append, List.nil_append]
      rw [scan_key_comma "__rec" (by decide) _ hhs, scan_key_comma "ref" (by decide) _ hrs, scan_key_comma "attr" (by decide) _ has,
        scan_key_end "data" (by decide) (by decide) _ hds (by
          intro x hx
          rw [List.getLast?_map, Option.map_eq_some_iff] at hx
          obtain ⟨e, he, rfl⟩ := hx
          exact (hl e he).2.1)]
      simp [Function.comp_def, put, dset, kne]

end Verif.Py
