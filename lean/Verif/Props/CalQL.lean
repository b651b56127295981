import Verif.Query.CalQLRun3
/-!
# C61: CalQL queries mean what is written
-/
namespace Verif.Query.CalQL
open Verif Verif.Cali Verif.Parse

theorem written_length {cs : List Clause} {ts : List Tok} (h : Written cs ts) : cs.length ≤ ts.length := by
  induction h with
  | nil => exact Nat.le_refl _
  | cons h _ ih =>
    obtain ⟨w, t, us, rfl, _⟩ := clause_run h
    simp; omega

/-- the parser applies the clauses one after the other -/
theorem parse_run {cs : List Clause} {ts : List Tok} {text : Str} (hw : Written cs ts) (hl : Lay ts text)
    (hp : ((cs.flatMap Clause.letSpecs).map LetSpec.target).Nodup) :
    parse text = (let x := (cs.flatMap Clause.atoms).foldl updAtom Spec.init
      ({ x with selPath := (extractPath x.sel).1, sel := (extractPath x.sel).2, grpPath := (extractPath x.grp).1, grp := (extractPath x.grp).2 }, false)) := by
  have ha : At ts ⟨text, true⟩ := .inl ⟨rfl, hl⟩
  have key : ∃ s', (let r := readWord sep0 ⟨text, true⟩
      let p : P := ⟨Spec.init, false, r.2⟩
      if r.1 = [] then p else clausesL (text.length + 1) r.1 p) = ⟨(cs.flatMap Clause.atoms).foldl updAtom Spec.init, false, s'⟩ ∧ At [] s' := by
    cases hw with
    | nil =>
      have := read_word_end (sep := sep0) ha
      refine ⟨⟨[], false⟩, ?_, at_end⟩
      rw [this]; rfl
    | @cons c cs ts us hc hcs =>
      obtain ⟨w, t, vs, rfl, ht, hk, hne, hf, hrun⟩ := clause_run hc
      obtain ⟨s1, h1, h2⟩ := read_word ha ht (follow_append hf hne _)
      have hlen := lay_length hl
      have hlen2 := written_length hcs
      simp only [h1]
      rw [if_neg (text_ne ht)]
      exact clauses_run hrun hcs h2 rfl (by simp at hlen; omega) hp
  obtain ⟨s', h1, h2⟩ := key
  unfold parse
  simp only at h1 ⊢
  rw [h1]
  simp only [read_char_end h2]
  simp

/-- **C61** A written query — clauses in any order and number, keywords in any case, any white space, names plain or in quotes — is accepted, and
the parsed query says what was written. -/
theorem C61_parse_partial (cs : List Clause) (ts : List Tok) (text : List Byte) (hw : Written cs ts) (hl : Lay ts text) (hs : Sensible cs) :
    (parse text).2 = false ∧ Means cs (parse text).1 := by
  have hrun := parse_run hw hl hs.lets
  have h_aggs := foldl_app Spec.aggs Atom.calls (by
    intro x a
    cases a with
    | sel i =>
      simp only [updAtom]
      rw [updSel_get Spec.aggs (fun _ _ => rfl) (fun _ _ => rfl)]
      cases i with
      | call d args as un => simp only [updSel0, Atom.calls]; split <;> rfl
      | _ => simp [updSel0, Atom.calls]
    | agg a => rfl
    | _ => simp [updAtom, Atom.calls, updGrp, updSort, updFil, updLet]) (cs.flatMap Clause.atoms) Spec.init
  have h_aggSel := foldl_flag Spec.aggSel Atom.calls (by
    intro x a
    cases a with
    | sel i =>
      simp only [updAtom]
      rw [updSel_get Spec.aggSel (fun _ _ => rfl) (fun _ _ => rfl)]
      cases i with
      | call d args as un => simp only [updSel0, Atom.calls]; split <;> rfl
      | _ => simp [updSel0, Atom.calls]
    | _ => simp [updAtom, Atom.calls, updAgg, updGrp, updSort, updFil, updLet]) (cs.flatMap Clause.atoms) Spec.init
  have h_fil := foldl_app Spec.fil Atom.conds (by
    intro x a
    cases a with
    | sel i =>
      simp only [updAtom]
      rw [updSel_get Spec.fil (fun _ _ => rfl) (fun _ _ => rfl)]
      cases i with
      | call d args as un => simp only [updSel0, Atom.conds, List.append_nil]; split <;> rfl
      | _ => simp [updSel0, Atom.conds]
    | _ => simp [updAtom, Atom.conds, updAgg, updGrp, updSort, updFil, updLet]) (cs.flatMap Clause.atoms) Spec.init
  have h_filSel := foldl_flag Spec.filSel Atom.conds (by
    intro x a
    cases a with
    | sel i =>
      simp only [updAtom]
      rw [updSel_get Spec.filSel (fun _ _ => rfl) (fun _ _ => rfl)]
      cases i with
      | call d args as un => simp only [updSel0, Atom.conds, if_true]; split <;> rfl
      | _ => simp [updSel0, Atom.conds]
    | _ => simp [updAtom, Atom.conds, updAgg, updGrp, updSort, updFil, updLet]) (cs.flatMap Clause.atoms) Spec.init
  have h_sort := foldl_app Spec.sort Atom.sorts (by
    intro x a
    cases a with
    | sel i =>
      simp only [updAtom]
      rw [updSel_get Spec.sort (fun _ _ => rfl) (fun _ _ => rfl)]
      cases i with
      | call d args as un => simp only [updSel0, Atom.sorts, List.append_nil]; split <;> rfl
      | _ => simp [updSel0, Atom.sorts]
    | _ => simp [updAtom, Atom.sorts, updAgg, updGrp, updSort, updFil, updLet]) (cs.flatMap Clause.atoms) Spec.init
  have h_sortSel := foldl_flag Spec.sortSel Atom.sorts (by
    intro x a
    cases a with
    | sel i =>
      simp only [updAtom]
      rw [updSel_get Spec.sortSel (fun _ _ => rfl) (fun _ _ => rfl)]
      cases i with
      | call d args as un => simp only [updSel0, Atom.sorts, if_true]; split <;> rfl
      | _ => simp [updSel0, Atom.sorts]
    | _ => simp [updAtom, Atom.sorts, updAgg, updGrp, updSort, updFil, updLet]) (cs.flatMap Clause.atoms) Spec.init
  have h_lets := foldl_app Spec.lets Atom.lets (by
    intro x a
    cases a with
    | sel i =>
      simp only [updAtom]
      rw [updSel_get Spec.lets (fun _ _ => rfl) (fun _ _ => rfl)]
      cases i with
      | call d args as un => simp only [updSel0, Atom.lets, List.append_nil]; split <;> rfl
      | _ => simp [updSel0, Atom.lets]
    | _ => simp [updAtom, Atom.lets, updAgg, updGrp, updSort, updFil, updLet]) (cs.flatMap Clause.atoms) Spec.init
  have h_grp := foldl_app Spec.grp Atom.groups (by
    intro x a
    cases a with
    | sel i =>
      simp only [updAtom]
      rw [updSel_get Spec.grp (fun _ _ => rfl) (fun _ _ => rfl)]
      cases i with
      | call d args as un => simp only [updSel0, Atom.groups, List.append_nil]; split <;> rfl
      | _ => simp [updSel0, Atom.groups]
    | _ => simp [updAtom, Atom.groups, updAgg, updGrp, updSort, updFil, updLet]) (cs.flatMap Clause.atoms) Spec.init
  have h_grpSel := foldl_flag Spec.grpSel Atom.groups (by
    intro x a
    cases a with
    | sel i =>
      simp only [updAtom]
      rw [updSel_get Spec.grpSel (fun _ _ => rfl) (fun _ _ => rfl)]
      cases i with
      | call d args as un => simp only [updSel0, Atom.groups, if_true]; split <;> rfl
      | _ => simp [updSel0, Atom.groups]
    | _ => simp [updAtom, Atom.groups, updAgg, updGrp, updSort, updFil, updLet]) (cs.flatMap Clause.atoms) Spec.init
  have h_sel := foldl_act (fun x : Spec => (x.selSel, x.sel)) selAct Atom.items atom_sel (cs.flatMap Clause.atoms) Spec.init
  have h_alias := foldl_act Spec.aliases (fun m (x : Str × Str) => mapSet m x.1 x.2) (fun a => a.items.filterMap Item.alias) (by
    intro x a
    cases a with
    | sel i =>
      simp only [updAtom, updSel]
      have e : ∀ x n u, (setUnit x n u).aliases = x.aliases := by intro x n u; cases u <;> rfl
      rw [e]
      cases i with
      | star => rfl
      | attr a as un => cases as <;> rfl
      | call d args as un =>
        cases as
        · simp only [setAs, Item.as, updSel0]
          split <;> rfl
        · simp only [setAs, Item.as, updSel0]
          split <;> rfl
    | _ => rfl) (cs.flatMap Clause.atoms) Spec.init
  have h_unit := foldl_act Spec.units (fun m (x : Str × Str) => mapSet m x.1 x.2) (fun a => a.items.filterMap Item.unit) (by
    intro x a
    cases a with
    | sel i =>
      simp only [updAtom, updSel]
      have e : (setAs (updSel0 x i) i.name i.as).units = x.units := by
        have e1 : ∀ x n u, (setAs x n u).units = x.units := by intro x n u; cases u <;> rfl
        rw [e1]
        cases i with
        | call d args as un => simp only [updSel0]; split <;> rfl
        | _ => rfl
      cases i with
      | star => rfl
      | attr a as un =>
        cases un with
        | none => exact e
        | some v => simp only [setUnit, Item.un, e]; rfl
      | call d args as un =>
        cases un with
        | none => exact e
        | some v => simp only [setUnit, Item.un, e]; rfl
    | _ => rfl) (cs.flatMap Clause.atoms) Spec.init
  have h_fmt : ∀ (as : List Atom) (x : Spec), (as.foldl updAtom x).fmt = match (as.flatMap Atom.fmts).getLast? with
      | none => x.fmt
      | some (d, l) => some (d, kwargsOf d l) := by
    intro as
    induction as with
    | nil => intro x; rfl
    | cons a as ih =>
      intro x
      rw [List.foldl_cons, ih, List.flatMap_cons]
      cases a with
      | fmt d l =>
        simp only [Atom.fmts, List.singleton_append, List.getLast?_cons]
        cases (as.flatMap Atom.fmts).getLast? with
        | none => rfl
        | some y => rfl
      | sel i =>
        simp only [Atom.fmts, List.nil_append, updAtom]
        have e : (updSel0 x i).fmt = x.fmt := by
          cases i with
          | call d args as un => simp only [updSel0]; split <;> rfl
          | _ => rfl
        rw [updSel_get Spec.fmt (fun _ _ => rfl) (fun _ _ => rfl), e]
      | _ => rfl
  have h_fmt := h_fmt (cs.flatMap Clause.atoms) Spec.init
  rw [flat_fmts, ← lastFormat_eq] at h_fmt
  rw [flat_calls] at h_aggs h_aggSel
  rw [flat_conds] at h_fil h_filSel
  rw [flat_sorts] at h_sort h_sortSel
  rw [flat_lets] at h_lets
  rw [flat_groups] at h_grp h_grpSel
  rw [flat_items] at h_sel
  have fm : ∀ (q : Item → Option (Str × Str)), (cs.flatMap Clause.atoms).flatMap (fun a => a.items.filterMap q) = (cs.flatMap Clause.items).filterMap q := by
    intro q
    rw [← flat_items, List.filterMap_flatMap]
  rw [fm] at h_alias h_unit
  rw [hrun]
  generalize (cs.flatMap Clause.atoms).foldl updAtom Spec.init = x at *
  refine ⟨rfl, ?_⟩
  have sel1 := congrArg Prod.fst h_sel
  have sel2 := congrArg Prod.snd h_sel
  simp only at sel1 sel2
  constructor
  · exact ⟨by rw [h_aggs]; rfl, h_aggSel⟩
  · exact ⟨by rw [h_fil]; rfl, h_filSel⟩
  · exact ⟨by rw [h_sort]; rfl, h_sortSel⟩
  · simp only; rw [h_lets]; rfl
  · have hg : x.grp = cs.flatMap Clause.groups := by rw [h_grp]; rfl
    have := extract_spec (cs.flatMap Clause.groups) hs.grp
    simp only [hg]
    exact ⟨this.1, this.2, h_grpSel⟩
  · intro h
    simp only
    rw [sel1]
    exact sel_star _ hs.star h _
  · intro h
    have e := sel_list (cs.flatMap Clause.items) h (Spec.init.selSel, Spec.init.sel) (by decide)
    rw [e] at sel1 sel2
    have hsel : x.sel = (cs.flatMap Clause.items).map Item.name := by rw [sel2]; rfl
    have := extract_spec _ hs.sel
    simp only [hsel]
    exact ⟨this.1, this.2, sel1⟩
  · intro k
    simp only
    rw [h_alias, foldl_mapSet]
    exact Option.or_none
  · intro k
    simp only
    rw [h_unit, foldl_mapSet]
    exact Option.or_none
  · intro h
    simp only
    rw [h_fmt, h]; rfl
  · intro d l h
    refine ⟨kwargsOf d l, ?_, ?_⟩
    · simp only
      rw [h_fmt, h]
    · intro k
      unfold kwargsOf
      rw [foldl_mapSet]
      exact Option.or_none

/-! ### a query -/

/-- tokens with a space before each -/
def render (ts : List Tok) : Str := ts.flatMap fun x => match x with
  | .w t => ch ' ' :: t
  | .p c => [ch ' ', c]

theorem lay_render (ts : List Tok) (h : ∀ t, Tok.w t ∈ ts → t ≠ []) : Lay ts (render ts) := by
  have sp : Spaces [ch ' '] := by unfold Spaces; decide
  induction ts with
  | nil => exact .nil (by intro c hc; cases hc)
  | cons x ts ih =>
    have ih := ih fun t ht => h t (by simp [ht])
    cases x with
    | p c => exact Lay.p (ws := [ch ' ']) sp ih
    | w t =>
      refine Lay.w (ws := [ch ' ']) sp (h t (by simp)) ih ?_
      cases ts with
      | nil => exact .inl rfl
      | cons y ts => cases y <;> exact .inr (.inl ⟨_, _, rfl, by decide⟩)

/-- `select count() as n, "a b" where not y=1 order by n DESC group by path format json(pretty,records=x)
let q=ratio(a,b) if c<2 aggregate sum(t)` -/
def exQ : List Clause :=
  [.select [.call ⟨0, str "count", 0, 0, []⟩ [] (some (str "n")) none, .attr (str "a b") none none],
   .wher [⟨true, str "y", some (.eq, str "1")⟩],
   .orderBy [(str "n", some true)],
   .groupBy [str "path"],
   .format ⟨1, str "json", 0, 6, [str "object", str "pretty", str "quote-all", str "separate-nested", str "records", str "split"]⟩
     [.flag (str "pretty"), .kv (str "records") (str "x")],
   .lets [⟨str "q", ⟨0, str "ratio", 2, 3, [str "numerator", str "denominator", str "scale"]⟩, [str "a", str "b"], some ⟨false, str "c", some (.lt, str "2")⟩⟩],
   .aggregate [(⟨1, str "sum", 1, 1, [str "attribute"]⟩, [str "t"])]]

private def W (s : String) : Tok := .w (str s)
private def C (c : Char) : Tok := .p (ch c)

def exToks : List Tok :=
  [W "select", W "count", C '(', C ')', W "as", W "n", C ',', W "\"a b\""] ++ ([W "where", W "not", W "y", C '=', W "1"] ++
   ([W "order", W "by", W "n", W "DESC"] ++ ([W "group", W "by", W "path"] ++
   ([W "format", W "json", C '(', W "pretty", C ',', W "records=x", C ')'] ++
   ([W "let", W "q", C '=', W "ratio", C '(', W "a", C ',', W "b", C ')', W "if", W "c", C '<', W "2"] ++
   ([W "aggregate", W "sum", C '(', W "t", C ')'] ++ []))))))

private theorem wd {sep : Str} {w t : String} (h : IsText sep (str w) (str t)) : Word sep (str w) [W t] := ⟨str t, rfl, h⟩
private theorem kw {k t : String} (h : IsText sep0 (str t) (str t)) (hl : lower (str t) = str k) : Kw k [W t] := ⟨str t, ⟨str t, rfl, h⟩, hl⟩

local macro "txt" : tactic => `(tactic| (unfold IsText Parse.Plain; decide +kernel))

theorem ex_written : Written exQ exToks := by
  refine .cons ?_ (.cons ?_ (.cons ?_ (.cons ?_ (.cons ?_ (.cons ?_ (.cons ?_ .nil))))))
  · refine ⟨[W "select"], _, rfl, kw (by txt) (by decide), .cons (ts := [W "count", C '(', C ')', W "as", W "n"]) ?_ (.one ?_)⟩
    · refine ⟨[W "count", C '(', C ')'], [W "as", W "n"], rfl, ⟨by decide +kernel, by decide, by decide, [W "count"], [C '(', C ')'], rfl, ?_, [], rfl, .inl ⟨rfl, rfl⟩⟩,
        [W "as", W "n"], [], rfl, ⟨[W "as"], [W "n"], rfl, kw (by txt) (by decide), wd (by txt)⟩, rfl⟩
      exact ⟨str "count", wd (by txt), by decide⟩
    · refine ⟨?_, [W "\"a b\""], [], rfl, wd (by txt), [], [], rfl, rfl, rfl⟩
      intro t ht
      simp only [List.head?_cons, Option.some.injEq, W, Tok.w.injEq] at ht
      subst ht
      decide
  · refine ⟨[W "where"], _, rfl, kw (by txt) (by decide), .one ?_⟩
    exact ⟨[W "not"], _, rfl, kw (by txt) (by decide), [W "y"], _, rfl, wd (by txt), [W "1"], rfl, wd (by txt)⟩
  · refine ⟨[W "order", W "by"], _, rfl, ⟨[W "order"], [W "by"], rfl, kw (by txt) (by decide), kw (by txt) (by decide)⟩, .one ?_⟩
    exact ⟨[W "n"], [W "DESC"], rfl, wd (by txt), kw (by txt) (by decide)⟩
  · refine ⟨[W "group", W "by"], _, rfl, ⟨[W "group"], [W "by"], rfl, kw (by txt) (by decide), kw (by txt) (by decide)⟩, .one (wd (by txt))⟩
  · refine ⟨[W "format"], _, rfl, kw (by txt) (by decide), [str "pretty", str "records=x"], ?_, .inl ⟨by decide +kernel, by decide, by decide, [W "json"], _, rfl,
      ⟨str "json", wd (by txt), by decide⟩, [W "pretty", C ',', W "records=x"], rfl, .inr (.cons (ts := [W "pretty"]) (wd (by txt)) (.one (wd (by txt))))⟩⟩
    refine .cons ⟨rfl, by unfold Simple; decide +kernel, by decide +kernel⟩ (.cons ⟨by decide +kernel, by unfold Simple; decide +kernel, by unfold Simple; decide +kernel, by decide +kernel⟩ .nil)
  · refine ⟨[W "let"], _, rfl, kw (by txt) (by decide), .one ⟨[W "q"], _, rfl, wd (by txt), _, rfl, [W "ratio", C '(', W "a", C ',', W "b", C ')'], _, rfl, ?_, ?_⟩⟩
    · exact .inl ⟨by decide +kernel, by decide, by decide, [W "ratio"], _, rfl, ⟨str "ratio", wd (by txt), by decide⟩, [W "a", C ',', W "b"], rfl,
        .inr (.cons (ts := [W "a"]) (wd (by txt)) (.one (wd (by txt))))⟩
    · exact ⟨[W "if"], _, rfl, kw (by txt) (by decide), [], _, rfl, ⟨rfl, by decide⟩, [W "c"], _, rfl, wd (by txt), [W "2"], rfl, wd (by txt)⟩
  · refine ⟨[W "aggregate"], _, rfl, kw (by txt) (by decide), .one (.inl ⟨by decide +kernel, by decide, by decide, [W "sum"], _, rfl, ⟨str "sum", wd (by txt), by decide⟩,
      [W "t"], rfl, .inr (.one (wd (by txt)))⟩)⟩

theorem path_cases {P : Str → Prop} (h1 : P (str "path")) (h2 : P (str "prop:nested")) : ∀ n, isPath n → P n := by
  rintro n (rfl | rfl)
  · exact h1
  · exact h2

theorem ex_sensible : Sensible exQ :=
  ⟨by decide +kernel, by unfold exQ; simp [Clause.items, Item.isStar], path_cases (by decide +kernel) (by decide +kernel), path_cases (by decide +kernel) (by decide +kernel)⟩

/-- the hypotheses are met by a query with all clauses -/
theorem C61_example : ∃ text, Written exQ exToks ∧ Lay exToks text ∧ Sensible exQ ∧ (parse text).1.aggs.map (fun a => a.1.name) = [str "count", str "sum"] := by
  refine ⟨render exToks, ex_written, lay_render _ ?_, ex_sensible, by decide +kernel⟩
  intro t ht
  have : ∀ x ∈ exToks, (match x with | .w t => t ≠ [] | _ => True) := by
    have e : ∀ x ∈ exToks, (match x with | .w t => !t.isEmpty | _ => true) = true := by
      rw [← List.all_eq_true]; decide +kernel
    intro x hx
    have := e x hx
    cases x with
    | w t => simpa using this
    | p c => trivial
  exact this _ ht

/-! ### queries that are not understood -/

/-- **C61** violated: `SELECT *,x` shows `x` only -/
theorem C61_violation_star : ∃ cs ts, Written cs ts ∧ Lay ts (str " SELECT * , x") ∧ (parse (str " SELECT * , x")).2 = false ∧ ¬Means cs (parse (str " SELECT * , x")).1 := by
  refine ⟨[.select [.star, .attr (str "x") none none]], [W "SELECT", C '*', C ',', W "x"] ++ [], .cons ?_ .nil, ?_, by decide +kernel, fun h => ?_⟩
  · refine ⟨[W "SELECT"], _, rfl, kw (by txt) (by decide), .cons (ts := [C '*']) rfl (.one ⟨?_, [W "x"], [], rfl, wd (by txt), [], [], rfl, rfl, rfl⟩)⟩
    intro t ht
    simp only [List.head?_cons, Option.some.injEq, W, Tok.w.injEq] at ht
    subst ht
    decide
  · refine lay_render ([W "SELECT", C '*', C ',', W "x"] ++ []) ?_
    intro t ht
    simp only [W, C, List.append_nil, List.mem_cons, Tok.w.injEq, List.not_mem_nil, or_false, reduceCtorEq, false_or] at ht
    rcases ht with rfl | rfl <;> decide
  · have := h.star ⟨.star, by simp [Clause.items], rfl⟩
    revert this
    decide +kernel

/-- **C61** violated: a quoted formatter argument is cut off at the first space -/
theorem C61_violation_format : (parse (str "FORMAT format(\"%a% %b%\")")).2 = false ∧
    (parse (str "FORMAT format(\"%a% %b%\")")).1.fmt.map Prod.snd = some [(str "format", str "%a%")] := by decide +kernel

/-- **C61** violated: an attribute named like a keyword cannot be used, even in quotes -/
theorem C61_violation_quoted_not : (parse (str "WHERE \"not\"")).2 = true := by decide +kernel

/-- **C61** violated: the second `path` is taken for an attribute -/
theorem C61_violation_path : (parse (str "GROUP BY path,path")).2 = false ∧ (parse (str "GROUP BY path,path")).1.grp = [str "path"] := by decide +kernel

/-- **C61** (functions): the functions, formatters and operators that can be called are the documented ones, with their documented numbers
and names of arguments, and the result of an aggregation function has the documented name, for all arguments. Keywords and function names are
compared after replacing `A` to `Z` by `a` to `z`. -/
theorem C61_documented :
    (aggDefs.map fun d => (d.name, d.min, d.max, d.args)) = AggFunctions.map (fun f => (str f.1, f.2.1, f.2.2.1.length, f.2.2.1.map str)) ∧
    (fmtDefs.map fun d => (d.name, d.min, d.max, d.args)) = Formatters.map (fun f => (str f.1, f.2.1, f.2.2.length, f.2.2.map str)) ∧
    (letDefs.map fun d => (d.name, d.min, d.max)) = LetOperators.map (fun f => (str f.1, f.2.1, f.2.2)) ∧
    (∀ args, aggDefs.map (fun d => aggName d args) = AggFunctions.map (fun f => Column f args)) ∧
    (∀ i : Fin 26, toLower (BitVec.ofNat 8 (65 + i)) = BitVec.ofNat 8 (97 + i)) ∧
    (∀ c : Byte, (c.toNat < 65 ∨ 90 < c.toNat) → toLower c = c) := by
  refine ⟨by decide +kernel, by decide +kernel, by decide +kernel, fun args => ?_, by decide +kernel, by decide +kernel⟩
  simp [aggDefs, AggFunctions, Column, aggName]

/-- **C61** (malformed queries): what cannot be completed to a clause is an error -/
theorem C61_malformed : ∀ t ∈ ["WHERE a=", "WHERE a<", "WHERE a>,b", "WHERE NOT", "WHERE", "AGGREGATE nope(x)", "AGGREGATE sum()", "FORMAT nope",
    "LET x", "LET x=nope(y)", "SELECT sum()", "GROUP x", "nope"], (parse (str t)).2 = true := by
  decide +kernel

end Verif.Query.CalQL
