import Verif.Query.JsonSplitSpec
import Verif.Props.Json
/-!
# Lemmas about the json-split formatter
-/
namespace Verif.Query.Json
open Verif Verif.Cali Verif.Query

/-! ### the hierarchy -/

/-- `P` are the paths of the nodes of `H`: no two are equal, and every node extends the path of its parent. -/
structure HInv (H : Hier) (P : List (List Str)) : Prop where
  len : P.length = H.length
  nodup : P.Nodup
  node : ∀ (i : Nat) (n : HNode), H[i]? = some n → (n.parent = none ∧ P[i]? = some [n.label]) ∨
    ∃ p q, n.parent = some p ∧ p < i ∧ P[p]? = some q ∧ P[i]? = some (q ++ [n.label])

theorem HInv.nil : HInv [] [] := ⟨rfl, List.nodup_nil, by simp⟩

theorem HInv.ne {H : Hier} {P : List (List Str)} (h : HInv H P) {i : Nat} {q : List Str} (hi : P[i]? = some q) : q ≠ [] := by
  have hlt : i < H.length := by rw [← h.len]; exact (List.getElem?_eq_some_iff.1 hi).1
  rcases h.node i _ (List.getElem?_eq_getElem hlt) with ⟨-, h2⟩ | ⟨p, q', -, -, -, h2⟩
  · rw [hi] at h2; cases h2; simp
  · rw [hi] at h2; cases h2; simp

/-- a position in the hierarchy: the root or a node -/
def AtPath (P : List (List Str)) (o : Option Nat) (q : List Str) : Prop :=
  match o with
  | none => q = []
  | some i => P[i]? = some q

theorem find_child {H : Hier} {o : Option Nat} {l : Str} {i : Nat}
    (h : (H.children o).find? (fun i => decide ((H[i]?.map HNode.label) = some l)) = some i) :
    ∃ n, H[i]? = some n ∧ n.parent = o ∧ n.label = l := by
  have h1 := List.find?_some h
  have h2 := List.mem_of_find?_eq_some h
  simp only [decide_eq_true_eq] at h1
  simp only [Hier.children, List.mem_reverse, List.mem_filter, decide_eq_true_eq] at h2
  obtain ⟨n, hn, hl⟩ := Option.map_eq_some_iff.1 h1
  obtain ⟨n', hn', hp⟩ := Option.map_eq_some_iff.1 h2.2
  rw [hn] at hn'; cases hn'
  exact ⟨n, hn, hp, hl⟩

theorem no_child {H : Hier} {o : Option Nat} {l : Str}
    (h : (H.children o).find? (fun i => decide ((H[i]?.map HNode.label) = some l)) = none) (i : Nat) (n : HNode) (hn : H[i]? = some n)
    (hp : n.parent = o) : n.label ≠ l := by
  intro hl
  rw [List.find?_eq_none] at h
  have hlt := (List.getElem?_eq_some_iff.1 hn).1
  have := h i (by
    simp only [Hier.children, List.mem_reverse, List.mem_filter, decide_eq_true_eq, List.mem_range]
    exact ⟨hlt, by rw [hn, Option.map_some, hp]⟩)
  rw [hn] at this
  simp [hl] at this

/-- the columns of the nodes that were added -/
def NewCols (H H' : Hier) (column : Str) : Prop := ∃ e, H' = H ++ e ∧ ∀ n ∈ e, n.column = column

theorem NewCols.refl (H : Hier) (c : Str) : NewCols H H c := ⟨[], by simp, by simp⟩
theorem NewCols.trans {H H' H'' : Hier} {c : Str} (h : NewCols H H' c) (h' : NewCols H' H'' c) : NewCols H H'' c := by
  obtain ⟨e, rfl, h1⟩ := h
  obtain ⟨e', rfl, h2⟩ := h'
  exact ⟨e ++ e', by simp, fun n hn => (List.mem_append.1 hn).elim (h1 n) (h2 n)⟩

theorem step_inv {H : Hier} {P : List (List Str)} (h : HInv H P) {o : Option Nat} {q : List Str} (ho : AtPath P o q) (column l : Str) :
    ∃ P', HInv (Hier.step column (H, o) l).1 P' ∧ P <+: P' ∧ NewCols H (Hier.step column (H, o) l).1 column ∧
      ∃ i, (Hier.step column (H, o) l).2 = some i ∧ P'[i]? = some (q ++ [l]) := by
  unfold Hier.step
  split
  · rename_i i hf
    obtain ⟨n, hn, hp, hl⟩ := find_child hf
    refine ⟨P, h, List.prefix_rfl, NewCols.refl _ _, i, rfl, ?_⟩
    rcases h.node i n hn with ⟨h1, h2⟩ | ⟨p, q', h1, -, h3, h4⟩
    · rw [hp] at h1
      simp only at h1
      subst h1
      rw [h2, hl]
      simp only [AtPath] at ho
      rw [ho]; rfl
    · rw [hp] at h1
      simp only at h1
      subst h1
      simp only [AtPath] at ho
      rw [ho] at h3; cases h3
      rw [h4, hl]
  · rename_i hf
    have hnot : q ++ [l] ∉ P := by
      intro hm
      obtain ⟨i, hi⟩ := List.getElem?_of_mem hm
      have hlt : i < H.length := by rw [← h.len]; exact (List.getElem?_eq_some_iff.1 hi).1
      have hn := List.getElem?_eq_getElem hlt
      generalize H[i] = n at hn
      refine no_child hf i n hn ?_ ?_
      · rcases h.node i n hn with ⟨h1, h2⟩ | ⟨p, q', h1, -, h3, h4⟩
        · rw [hi] at h2
          simp only [Option.some.injEq] at h2
          have : q = [] := by
            have := congrArg List.length h2
            simp at this; exact this
          cases o with
          | none => exact h1
          | some j =>
            exact absurd this (h.ne ho)
        · rw [hi] at h4
          simp only [Option.some.injEq] at h4
          have hq : q = q' := (List.append_inj' h4 rfl).1
          subst hq
          cases o with
          | none =>
            simp only [AtPath] at ho
            exact absurd ho (h.ne h3)
          | some j =>
            simp only [AtPath] at ho
            have hj := (List.getElem?_eq_some_iff.1 ho).1
            have hp := (List.getElem?_eq_some_iff.1 h3).1
            have : j = p := (List.nodup_iff_getElem?_ne_getElem?.1 h.nodup |> fun hd => by
              by_contra hne
              rcases Nat.lt_or_gt_of_ne hne with hh | hh
              · exact hd j p hh hp (by rw [ho, h3])
              · exact hd p j hh hj (by rw [ho, h3]))
            rw [h1, this]
      · rcases h.node i n hn with ⟨h1, h2⟩ | ⟨p, q', h1, -, h3, h4⟩
        · rw [hi] at h2
          simp only [Option.some.injEq] at h2
          have h2' : q ++ [l] = [] ++ [n.label] := h2
          have := (List.append_inj' h2' rfl).2
          simpa using this.symm
        · rw [hi] at h4
          simp only [Option.some.injEq] at h4
          have := (List.append_inj' h4 rfl).2
          simpa using this.symm
    refine ⟨P ++ [q ++ [l]], ⟨by simp [h.len], ?_, ?_⟩, List.prefix_append _ _, ⟨[⟨l, column, o⟩], rfl, by simp⟩, H.length, rfl, ?_⟩
    · rw [List.nodup_append]
      refine ⟨h.nodup, by simp, ?_⟩
      intro a ha b hb hab
      simp only [List.mem_singleton] at hb
      rw [hab, hb] at ha
      exact hnot ha
    · intro i n hn
      simp only at hn
      by_cases hlt : i < H.length
      · rw [List.getElem?_append_left hlt] at hn
        have hltP : i < P.length := by rw [h.len]; exact hlt
        rw [List.getElem?_append_left hltP]
        rcases h.node i n hn with h1 | ⟨p, q', h1, h2, h3, h4⟩
        · exact .inl h1
        · refine .inr ⟨p, q', h1, h2, ?_, h4⟩
          rw [List.getElem?_append_left (by omega)]; exact h3
      · have hi := (List.getElem?_eq_some_iff.1 hn).1
        simp only [List.length_append, List.length_singleton] at hi
        have hie : i = H.length := by omega
        subst hie
        simp only [List.getElem?_concat_length, Option.some.injEq] at hn
        subst hn
        rw [← h.len, List.getElem?_concat_length]
        cases o with
        | none =>
          simp only [AtPath] at ho
          subst ho
          exact .inl ⟨rfl, rfl⟩
        | some p =>
          simp only [AtPath] at ho
          have hp := (List.getElem?_eq_some_iff.1 ho).1
          exact .inr ⟨p, q, rfl, hp, by rw [List.getElem?_append_left hp]; exact ho, rfl⟩
    · rw [← h.len, List.getElem?_concat_length]

theorem getElem?_prefix {P P' : List (List Str)} (h : P <+: P') {i : Nat} {q : List Str} (hi : P[i]? = some q) : P'[i]? = some q := by
  obtain ⟨e, rfl⟩ := h
  rw [List.getElem?_append_left (List.getElem?_eq_some_iff.1 hi).1, hi]

theorem fold_inv (column : Str) (path : List Str) {H : Hier} {P : List (List Str)} (h : HInv H P) {o : Option Nat} {q : List Str}
    (ho : AtPath P o q) :
    ∃ P', HInv (path.foldl (Hier.step column) (H, o)).1 P' ∧ P <+: P' ∧ NewCols H (path.foldl (Hier.step column) (H, o)).1 column ∧
      AtPath P' (path.foldl (Hier.step column) (H, o)).2 (q ++ path) := by
  induction path generalizing H P o q with
  | nil => exact ⟨P, h, List.prefix_rfl, NewCols.refl _ _, by simpa using ho⟩
  | cons l path ih =>
    obtain ⟨P1, h1, h2, h2', i, h3, h4⟩ := step_inv h ho column l
    rw [List.foldl_cons]
    rcases hs : Hier.step column (H, o) l with ⟨H1, o1⟩
    rw [hs] at h1 h3 h2'
    simp only at h1 h3 h2'
    subst h3
    obtain ⟨P2, g1, g2, g2', g3⟩ := ih h1 (o := some i) (q := q ++ [l]) h4
    exact ⟨P2, g1, h2.trans g2, h2'.trans g2', by simpa using g3⟩

theorem getId_inv {H : Hier} {P : List (List Str)} (h : HInv H P) (path : List Str) (column : Str) :
    ∃ P', HInv (H.getId path column).1 P' ∧ P <+: P' ∧ NewCols H (H.getId path column).1 column ∧
      AtPath P' (H.getId path column).2 path := by
  simpa [Hier.getId] using fold_inv column path h (o := none) (q := []) rfl

/-! ### columns -/

theorem splitAttrs_eq (q : SQuery) (D : SDB) : splitAttrs (splitConfig q) D = shown q D := by
  have key : ∀ a, decide (Selected q (D.info a)) = if (splitConfig q).all = true then !((D.info a).hidden || (D.info a).isGlobal) else
      ((splitConfig q).path && (D.info a).nested) || decide ((D.info a).name ∈ (splitConfig q).names) := by
    intro a
    rw [Bool.eq_iff_iff, decide_eq_true_eq]
    obtain ⟨sel, sl, sp, grp, gl, gp, an, al⟩ := q
    cases sel <;> simp only [Selected, splitConfig]
    · by_cases hg : grp = .list
      · simp [hg]; tauto
      · simp [hg]
    · by_cases hg : grp = .list
      · simp [hg]; tauto
      · simp [hg]
    · simp
    · simp only [Bool.or_eq_true, Bool.and_eq_true, Bool.false_eq_true, if_false]
      constructor
      · rintro (h | h)
        · exact .inr (decide_eq_true h)
        · exact .inl h
      · rintro (h | h)
        · exact .inr h
        · exact .inl (of_decide_eq_true h)
  unfold splitAttrs shown
  split
  · rename_i h
    refine List.filter_congr fun a _ => ?_
    rw [key, if_pos h]
  · rename_i h
    refine List.filter_congr fun a _ => ?_
    rw [key, if_neg h]

/-- the column that the formatter makes -/
def SCol.col (q : SQuery) (D : SDB) : SCol → Column
  | .value a => ⟨SCol.title q D (.value a), [a], false⟩
  | .tree a => ⟨SCol.title q D (.tree a), [a], true⟩
  | .path => ⟨str "path", (shown q D).filter fun a => (D.info a).nested, true⟩

theorem config_alias (q : SQuery) : (splitConfig q).alias_ = q.alias_ := by
  unfold splitConfig
  cases q.sel <;> simp only
  · split <;> rfl
  · split <;> rfl

theorem initColumns_eq (q : SQuery) (D : SDB) : initColumns (splitConfig q) D = (specCols q D).map (SCol.col q D) := by
  unfold initColumns specCols
  simp only [splitAttrs_eq]
  rw [List.map_append, List.map_map]
  congr 1
  · refine List.map_congr_left fun a _ => ?_
    simp only [Function.comp, attrColumn, config_alias]
    have e : (q.alias_ (D.info a).name).getD (D.info a).name = SCol.title q D (.value a) := by
      simp only [SCol.title]; cases q.alias_ (D.info a).name <;> rfl
    by_cases h : D.asValue a = true
    · simp only [if_pos h, SCol.col, h, e]; rfl
    · simp only [if_neg h, SCol.col]
      have h' : D.asValue a = false := by simpa using h
      rw [h', e]; rfl
  · by_cases h : (shown q D).any (fun a => (D.info a).nested) = true
    · rw [if_pos h]
      have : (shown q D).filter (fun a => (D.info a).nested) ≠ [] := by
        obtain ⟨a, ha, hn⟩ := List.any_eq_true.1 h
        exact List.ne_nil_of_mem (List.mem_filter.2 ⟨ha, hn⟩)
      rw [if_pos this]; rfl
    · rw [if_neg h]
      have : (shown q D).filter (fun a => (D.info a).nested) = [] := by
        rw [List.filter_eq_nil_iff]
        intro a ha hn
        exact h (List.any_eq_true.2 ⟨a, ha, hn⟩)
      rw [if_neg (by simpa using this)]; rfl

theorem col_has (q : SQuery) (D : SDB) (c : SCol) (b : Nat) : b ∈ (c.col q D).attrs ↔ c.Has q D b := by
  cases c <;> simp [SCol.col, SCol.Has]

/-! ### cells -/

theorem reads_null : Reads (str "null") .null := by
  intro n rest hn _
  obtain ⟨n, rfl⟩ : ∃ k, n = k + 1 := ⟨n - 1, by omega⟩
  show parseVal (n + 1) (ch 'n' :: ch 'u' :: ch 'l' :: ch 'l' :: rest) = _
  rw [parseVal, skipWs_cons (by decide)]
  rfl

theorem reads_dec (i : Nat) : Reads (dec i) (.num (dec i)) := reads_num (validNum_digits i)

theorem valueOf_eq (r : List QEnt) (a : Nat) :
    valueOf r a = ((r.filterMap entTop).find? fun e => decide (e.1 = a)).map Prod.snd := by
  unfold valueOf
  induction r with
  | nil => rfl
  | cons e r ih =>
    rw [List.findSome?_cons]
    cases e with
    | imm b v =>
      rw [List.filterMap_cons_some (f := entTop) (b := (b, v)) rfl, List.find?_cons]
      by_cases h : b = a
      · simp [h]
      · simp only [if_neg h]
        rw [ih]
        simp [h]
    | ref p =>
      cases p with
      | nil => rw [List.filterMap_cons_none rfl]; exact ih
      | cons n p =>
        obtain ⟨b, v⟩ := n
        rw [List.filterMap_cons_some (f := entTop) (b := (b, v)) rfl, List.find?_cons]
        by_cases h : b = a
        · simp [h]
        · simp only [if_neg h]
          rw [ih]
          simp [h]

variable {F : DblFmt}

theorem immCell_reads {q : SQuery} {D : SDB} {r : List QEnt} {a : Nat} {P : Nat → Option (List Str)}
    (h : Numeric (D.info a) → ∀ v, valueOf r a = some v → validNum (v.toStr F) = true) :
    ∃ w, Reads (immCell F D r a) w ∧ CellShows F q D P r (.value a) w := by
  unfold immCell
  have hv := valueOf_eq r a
  cases hf : (r.filterMap entTop).find? fun e => decide (e.1 = a) with
  | none =>
    rw [hf] at hv
    exact ⟨.null, reads_null, .noValue hv⟩
  | some e =>
    rw [hf] at hv
    simp only [Option.map_some] at hv
    simp only
    by_cases hn : Numeric (D.info a)
    · have : (!((decide ((D.info a).ty = .int) || decide ((D.info a).ty = .uint)) || decide ((D.info a).ty = .double))) = false := by
        unfold Numeric at hn
        simp only [Bool.not_eq_false', Bool.or_eq_true, decide_eq_true_eq]
        tauto
      rw [if_neg (by rw [this]; simp)]
      exact ⟨_, reads_num (h hn _ hv), .number hv hn⟩
    · have : (!((decide ((D.info a).ty = .int) || decide ((D.info a).ty = .uint)) || decide ((D.info a).ty = .double))) = true := by
        unfold Numeric at hn
        simp only [Bool.not_eq_true', Bool.or_eq_false_iff, decide_eq_false_iff_not]
        tauto
      rw [if_pos this]
      refine ⟨_, ?_, .string hv hn⟩
      have h1 : str "\"" = [ch '"'] := rfl
      have := reads_string (keyText_esc (e.2.toStr F))
      simpa [h1] using this

theorem hierPath_eq {q : SQuery} {D : SDB} {r : List QEnt} {c : SCol} (h : ∀ a v, QEnt.imm a v ∈ r → ∀ n ∈ D.path a, ¬c.Has q D n.1) :
    hierPath D r (c.col q D).attrs = treeVals q D r c := by
  unfold hierPath treeVals
  rw [List.map_reverse, List.map_reverse]
  congr 1
  unfold items
  induction r with
  | nil => rfl
  | cons e r ih =>
    rw [List.flatMap_cons, List.flatMap_cons, List.filter_append, List.filter_append, List.map_append, List.map_append,
      ih fun a v ha => h a v (by simp [ha])]
    congr 1
    cases e with
    | imm a v =>
      have h1 : (entNodes D (.imm a v)).filter (fun n => decide (n.1 ∈ (c.col q D).attrs)) = [] := by
        rw [List.filter_eq_nil_iff]
        intro n hn
        rw [decide_eq_true_eq, col_has]
        exact h a v (by simp) n hn
      rw [h1]
      simp
    | ref p =>
      simp only [entNodes, List.filter_map, List.map_map, Function.comp_def, Bool.true_and]
      congr 1
      refine List.filter_congr fun n _ => ?_
      rw [Bool.eq_iff_iff, decide_eq_true_eq, decide_eq_true_eq, col_has]

theorem hierCell_reads {q : SQuery} {D : SDB} {r : List QEnt} {c : SCol} (hc : ∀ a, c ≠ .value a)
    (h : ∀ a v, QEnt.imm a v ∈ r → ∀ n ∈ D.path a, ¬c.Has q D n.1) {H : Hier} {P : List (List Str)} (hi : HInv H P) :
    ∃ P', HInv (hierCell F D H r (c.col q D)).1 P' ∧ P <+: P' ∧ NewCols H (hierCell F D H r (c.col q D)).1 (c.col q D).title ∧
      ∃ w, Reads (hierCell F D H r (c.col q D)).2 w ∧ ∀ Q : List (List Str), P' <+: Q → CellShows F q D (fun i => Q[i]?) r c w := by
  unfold hierCell
  rw [hierPath_eq h]
  obtain ⟨P', h1, h2, h3, h4⟩ := getId_inv hi ((treeVals q D r c).map (·.toStr F)) (c.col q D).title
  rcases hg : H.getId ((treeVals q D r c).map (·.toStr F)) (c.col q D).title with ⟨H', o⟩
  rw [hg] at h1 h3 h4 ⊢
  cases o with
  | none =>
    simp only [AtPath] at h4
    refine ⟨P', h1, h2, h3, .null, reads_null, fun Q _ => .noNode hc ?_⟩
    simpa using h4
  | some i =>
    simp only [AtPath] at h4
    refine ⟨P', h1, h2, h3, .num (dec i), reads_dec i, fun Q hQ => .node hc ?_ ?_⟩
    · have := h1.ne h4
      simpa using this
    · exact getElem?_prefix hQ h4

/-- every node added has the title of one of the tree columns -/
def NewColsIn (H H' : Hier) (titles : List Str) : Prop := ∃ e, H' = H ++ e ∧ ∀ n ∈ e, n.column ∈ titles

theorem NewColsIn.refl (H : Hier) (c : List Str) : NewColsIn H H c := ⟨[], by simp, by simp⟩
theorem NewColsIn.trans {H H' H'' : Hier} {c : List Str} (h : NewColsIn H H' c) (h' : NewColsIn H' H'' c) : NewColsIn H H'' c := by
  obtain ⟨e, rfl, h1⟩ := h
  obtain ⟨e', rfl, h2⟩ := h'
  exact ⟨e ++ e', by simp, fun n hn => (List.mem_append.1 hn).elim (h1 n) (h2 n)⟩

/-- titles of the columns of tree values -/
def treeTitles (q : SQuery) (D : SDB) (cs : List SCol) : List Str :=
  (cs.filter fun c => match c with | .value _ => false | _ => true).map (SCol.title q D)

/-- the cells of a row -/
theorem cells_reads {q : SQuery} {D : SDB} {r : List QEnt} (cs0 cs : List SCol) (hsub : ∀ c ∈ cs, c ∈ cs0)
    (hl : ∀ a, SCol.value a ∈ cs → Numeric (D.info a) → ∀ v, valueOf r a = some v → validNum (v.toStr F) = true)
    (hm : ∀ a v, QEnt.imm a v ∈ r → ∀ n ∈ D.path a, ∀ c ∈ cs, (∀ b, c ≠ .value b) → ¬c.Has q D n.1)
    {H : Hier} {P : List (List Str)} (hi : HInv H P) :
    ∃ P', HInv (thread (splitCell F D r) H (cs.map (SCol.col q D))).1 P' ∧ P <+: P' ∧
      NewColsIn H (thread (splitCell F D r) H (cs.map (SCol.col q D))).1 (treeTitles q D cs0) ∧
      ∃ ws, List.Forall₂ Reads (thread (splitCell F D r) H (cs.map (SCol.col q D))).2 ws ∧
        ∀ Q : List (List Str), P' <+: Q → List.Forall₂ (CellShows F q D (fun i => Q[i]?) r) cs ws := by
  induction cs generalizing H P with
  | nil => exact ⟨P, hi, List.prefix_rfl, NewColsIn.refl _ _, [], .nil, fun _ _ => .nil⟩
  | cons c cs ih =>
    have step : ∃ P', HInv (splitCell F D r H (c.col q D)).1 P' ∧ P <+: P' ∧ NewColsIn H (splitCell F D r H (c.col q D)).1 (treeTitles q D cs0) ∧
        ∃ w, Reads (splitCell F D r H (c.col q D)).2 w ∧ ∀ Q : List (List Str), P' <+: Q → CellShows F q D (fun i => Q[i]?) r c w := by
      by_cases hc : ∀ a, c ≠ .value a
      · have hh : (c.col q D).hier = true := by
          cases c with
          | value a => exact absurd rfl (hc a)
          | tree a => rfl
          | path => rfl
        have ht : (c.col q D).title = c.title q D := by cases c <;> rfl
        unfold splitCell
        rw [if_pos hh]
        obtain ⟨P', h1, h2, ⟨e, h3, h4⟩, h5⟩ := hierCell_reads (F := F) hc (fun a v ha n hn => hm a v ha n hn c (by simp) hc) hi
        refine ⟨P', h1, h2, ⟨e, h3, fun n hn => ?_⟩, h5⟩
        rw [h4 n hn, ht]
        unfold treeTitles
        refine List.mem_map_of_mem (List.mem_filter.2 ⟨hsub c (by simp), ?_⟩)
        cases c with
        | value a => exact absurd rfl (hc a)
        | tree a => rfl
        | path => rfl
      · obtain ⟨a, rfl⟩ : ∃ a, c = .value a := by
          by_contra hh
          exact hc fun a ha => hh ⟨a, ha⟩
        unfold splitCell
        rw [if_neg (by simp [SCol.col])]
        obtain ⟨w, h1, -⟩ := immCell_reads (q := q) (P := fun _ => none) (hl a (by simp))
        refine ⟨P, hi, List.prefix_rfl, NewColsIn.refl _ _, w, h1, fun Q _ => ?_⟩
        obtain ⟨w', h1', h2'⟩ := immCell_reads (q := q) (P := fun i => Q[i]?) (hl a (by simp))
        have : w = w' := by
          have e1 := h1 ((immCell F D r a).length + 1) [] (by omega) (by intro c hc; cases hc)
          have e2 := h1' ((immCell F D r a).length + 1) [] (by omega) (by intro c hc; cases hc)
          rw [e1] at e2
          simpa using e2
        rw [this]; exact h2'
    obtain ⟨P1, h1, h2, h3, w, h4, h5⟩ := step
    obtain ⟨P2, g1, g2, g3, ws, g4, g5⟩ := ih (fun c hc => hsub c (by simp [hc])) (fun a ha => hl a (by simp [ha]))
      (fun a v ha n hn c hc => hm a v ha n hn c (by simp [hc])) h1
    rw [List.map_cons, thread]
    exact ⟨P2, g1, h2.trans g2, h3.trans g3, w :: ws, .cons h4 g4, fun Q hQ => .cons (h5 Q (g2.trans hQ)) (g5 Q hQ)⟩

/-- an array written with separators; it may be empty -/
theorem arr_seq_reads {ws first w w0 : List Byte} (hws : ∀ c ∈ ws, isWs c = true) (hf : ∀ c ∈ first, isWs c = true)
    (hw : ∀ c ∈ w, isWs c = true) (hw0 : ∀ c ∈ w0, isWs c = true) {ts : List (List Byte)} {vs : List JVal} (h : List.Forall₂ Reads ts vs) :
    Reads (ch '[' :: (w0 ++ writeSeq first (ch ',' :: ws) [] ts ++ (w ++ [ch ']']))) (.arr vs) := by
  by_cases hl : ts = []
  · subst hl
    cases h
    have := reads_emptyArr (w := w0 ++ w) (by
      intro c hc
      rcases List.mem_append.1 hc with hc | hc
      · exact hw0 c hc
      · exact hw c hc)
    simpa [writeSeq] using this
  · have e : w0 ++ writeSeq first (ch ',' :: ws) [] ts = writeSeq (w0 ++ first) (ch ',' :: ws) [] ts := by
      cases ts with
      | nil => exact absurd rfl hl
      | cons x l => simp [writeSeq]
    rw [e]
    have hlen := h.length_eq
    have h1 : (ts.zip vs).map Prod.fst = ts := List.map_fst_zip (by omega)
    have h2 : (ts.zip vs).map Prod.snd = vs := List.map_snd_zip (by omega)
    have := ereads_seq (ws := ws) (first := w0 ++ first) (w := w) hws (by
      intro c hc
      rcases List.mem_append.1 hc with hc | hc
      · exact hw0 c hc
      · exact hf c hc) hw (l := ts.zip vs) (by
        intro hz
        rw [hz] at h1
        exact hl h1.symm) (by
        intro x hx
        obtain ⟨a, b⟩ := x; exact (List.forall₂_iff_zip.1 h).2 hx)
    rw [h1, h2] at this
    exact reads_arr this

theorem row_reads {q : SQuery} {D : SDB} {recs : List (List QEnt)} (hok : SplitOk F q D recs) {r : List QEnt} (hr : r ∈ recs)
    {H : Hier} {P : List (List Str)} (hi : HInv H P) :
    ∃ P', HInv (splitRow F D ((specCols q D).map (SCol.col q D)) H r).1 P' ∧ P <+: P' ∧
      NewColsIn H (splitRow F D ((specCols q D).map (SCol.col q D)) H r).1 (treeTitles q D (specCols q D)) ∧
      ∃ ws, Reads (splitRow F D ((specCols q D).map (SCol.col q D)) H r).2 (.arr ws) ∧
        ∀ Q : List (List Str), P' <+: Q → List.Forall₂ (CellShows F q D (fun i => Q[i]?) r) (specCols q D) ws := by
  obtain ⟨P', h1, h2, h3, ws, h4, h5⟩ := cells_reads (F := F) (q := q) (D := D) (r := r) (specCols q D) (specCols q D) (fun _ h => h)
    (by
      intro a ha
      refine hok.literal r hr a ?_
      unfold specCols at ha
      rcases List.mem_append.1 ha with ha | ha
      · obtain ⟨b, hb, he⟩ := List.mem_map.1 ha
        split at he
        · cases he; exact (List.mem_filter.1 hb).1
        · cases he
      · split at ha <;> simp at ha)
    (fun a v ha n hn c hc hv => hok.noMeta r hr a v ha n hn c hc hv) hi
  refine ⟨P', h1, h2, h3, ws, ?_, h5⟩
  have := arr_seq_reads (ws := [ch ' ']) (first := []) (w := [ch ' ']) (w0 := [ch ' ']) (by decide) (by decide) (by decide) (by decide) h4
  have e1 : str "[ " = [ch '[', ch ' '] := rfl
  have e2 : str ", " = ch ',' :: [ch ' '] := rfl
  have e3 : str " ]" = [ch ' '] ++ [ch ']'] := rfl
  simp only [splitRow, e1, e2, e3]
  simpa using this

theorem rows_reads {q : SQuery} {D : SDB} {recs : List (List QEnt)} (hok : SplitOk F q D recs) (rs : List (List QEnt)) (hrs : ∀ r ∈ rs, r ∈ recs)
    {H : Hier} {P : List (List Str)} (hi : HInv H P) :
    ∃ P', HInv (thread (splitRow F D ((specCols q D).map (SCol.col q D))) H rs).1 P' ∧ P <+: P' ∧
      NewColsIn H (thread (splitRow F D ((specCols q D).map (SCol.col q D))) H rs).1 (treeTitles q D (specCols q D)) ∧
      ∃ rows : List (List JVal), List.Forall₂ Reads (thread (splitRow F D ((specCols q D).map (SCol.col q D))) H rs).2 (rows.map .arr) ∧
        ∀ Q : List (List Str), P' <+: Q →
          List.Forall₂ (fun r ws => List.Forall₂ (CellShows F q D (fun i => Q[i]?) r) (specCols q D) ws) rs rows := by
  induction rs generalizing H P with
  | nil => exact ⟨P, hi, List.prefix_rfl, NewColsIn.refl _ _, [], .nil, fun _ _ => .nil⟩
  | cons r rs ih =>
    obtain ⟨P1, h1, h2, h3, w, h4, h5⟩ := row_reads hok (hrs r (by simp)) hi
    obtain ⟨P2, g1, g2, g3, ws, g4, g5⟩ := ih (fun c hc => hrs c (by simp [hc])) h1
    rw [thread]
    exact ⟨P2, g1, h2.trans g2, h3.trans g3, w :: ws, .cons h4 g4, fun Q hQ => .cons (h5 Q (g2.trans hQ)) (g5 Q hQ)⟩

end Verif.Query.Json
