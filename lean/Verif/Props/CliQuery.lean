import Verif.Cli.QuerySpec
import Verif.Query.CalQLRun
import Verif.Props.Cli
/-!
# C88: the report options of cali-query
-/
namespace Verif.Cli
open Verif Verif.Cali Verif.Parse Verif.Query
open Verif.Query.CalQL (Sig Spec Sel SortBy Tok Lay SepBy Word At Follow read_word read_word_p read_char_p read_char_end lay_length text_ne mapSet)

/-! ## lists -/

theorem split_piece (sep : Byte) (p : Str) (hp : sep ∉ p) : ∀ (acc r : Str), splitLoop sep (p ++ sep :: r) acc = (acc ++ p) :: splitLoop sep r [] := by
  induction p with
  | nil => intro acc r; simp [splitLoop]
  | cons c p ih =>
    intro acc r
    have h1 : c ≠ sep := fun e => hp (by simp [e])
    rw [List.cons_append, splitLoop, if_neg h1, ih (fun h => hp (by simp [h]))]
    simp

theorem split_last (sep : Byte) (p : Str) (hp : sep ∉ p) : ∀ (acc : Str), splitLoop sep p acc = if acc ++ p = [] then [] else [acc ++ p] := by
  induction p with
  | nil => intro acc; simp [splitLoop]
  | cons c p ih =>
    intro acc
    have h1 : c ≠ sep := fun e => hp (by simp [e])
    rw [splitLoop, if_neg h1, ih (fun h => hp (by simp [h]))]
    simp

theorem split_commas {l : List Str} {t : Str} (h : Commas l t) : splitLoop (ch ',') t [] = l := by
  obtain ⟨h0, rfl, h1⟩ := h
  induction l with
  | nil => exact absurd rfl h0
  | cons p l ih =>
    obtain ⟨a, b⟩ := h1 p (by simp)
    cases l with
    | nil =>
      rw [show List.intercalate [ch ','] [p] = p by simp [List.intercalate], split_last _ _ b]
      simp [a]
    | cons q l =>
      have e : List.intercalate [ch ','] (p :: q :: l) = p ++ ch ',' :: List.intercalate [ch ','] (q :: l) := by simp [List.intercalate]
      rw [e, split_piece _ _ b, ih (by simp) fun x hx => h1 x (by simp [hx])]
      rfl

/-! ## conditions -/

theorem parse_cond {c : SCond} (h : c.Ok) : parseClause c.text = c.cond ∧ c.cond.op ≠ .none := by
  obtain ⟨n, a, v⟩ := c
  obtain ⟨h1, h2, h3, h4⟩ := h
  simp only at h1 h2 h3 h4
  have hall : ∀ x ∈ a, (!(decide (x = ch '<') || decide (x = ch '>') || decide (x = ch '='))) = true := by
    intro x hx
    obtain ⟨p, q, r⟩ := h2 x hx
    simp [p, q, r]
  have htw : ∀ r, (a ++ r).takeWhile (fun c => !(decide (c = ch '<') || decide (c = ch '>') || decide (c = ch '='))) =
      a ++ r.takeWhile (fun c => !(decide (c = ch '<') || decide (c = ch '>') || decide (c = ch '='))) := fun r => List.takeWhile_append_of_pos hall
  have hdw : ∀ r, (a ++ r).dropWhile (fun c => !(decide (c = ch '<') || decide (c = ch '>') || decide (c = ch '='))) =
      r.dropWhile (fun c => !(decide (c = ch '<') || decide (c = ch '>') || decide (c = ch '='))) := fun r => List.dropWhile_append_of_pos hall
  have htw0 := htw []
  have hdw0 := hdw []
  rw [List.append_nil] at htw0 hdw0
  simp only [List.takeWhile_nil, List.dropWhile_nil, List.append_nil] at htw0 hdw0
  have htw' := htw; have hdw' := hdw; have htw0' := htw0; have hdw0' := hdw0
  simp only [Bool.not_or] at htw' hdw' htw0' hdw0'
  have em : str "-" = [ch '-'] := rfl
  have ee : str "=" = [ch '='] := rfl
  cases n with
  | true =>
    cases v with
    | none => simp [parseClause, SCond.text, SCond.cond, em, htw0', hdw0', h1]
    | some v =>
      have hv := h4 v rfl
      obtain ⟨x, v, rfl⟩ := List.exists_cons_of_ne_nil hv
      simp [parseClause, SCond.text, SCond.cond, em, ee, htw', hdw', h1]
  | false =>
    have hh := h3 rfl
    obtain ⟨x, a, rfl⟩ := List.exists_cons_of_ne_nil h1
    have hx : x ≠ ch '-' := by simpa using hh
    cases v with
    | none =>
      rw [show SCond.text ⟨false, x :: a, none⟩ = x :: a by simp [SCond.text]]
      unfold parseClause
      simp only [htw0, hdw0]
      simp [SCond.cond, hx, htw0', hdw0']
    | some v =>
      have hv := h4 v rfl
      obtain ⟨y, v, rfl⟩ := List.exists_cons_of_ne_nil hv
      have e : SCond.text ⟨false, x :: a, some (y :: v)⟩ = (x :: a) ++ ch '=' :: y :: v := by simp [SCond.text, ee]
      have hneg : ¬ ((x :: a) ++ ch '=' :: y :: v).head? = some (ch '-') := by simpa using hx
      rw [e]
      unfold parseClause
      rw [if_neg (by simp)]
      simp only [hneg, if_false]
      rw [htw, hdw]
      simp [SCond.cond]

/-- **C31/C88** (selectors).  A list of conditions `[-]attribute[=value]`, separated by commas, is read as these conditions, in this order. -/
theorem C31_selector_string {l : List SCond} {t : Str} (h : Commas (l.map SCond.text) t) (hok : ∀ c ∈ l, c.Ok) : parseSelector t = l.map SCond.cond := by
  unfold parseSelector
  rw [split_commas h, List.map_map]
  have : (l.map (parseClause ∘ SCond.text)) = l.map SCond.cond := List.map_congr_left fun c hc => (parse_cond (hok c hc)).1
  rw [this, List.filter_eq_self]
  intro c hc
  obtain ⟨d, hd, rfl⟩ := List.mem_map.1 hc
  exact decide_eq_true (parse_cond (hok d hd)).2

/-! ## calls -/

theorem followC (c : Byte) (ts : List Tok) (h : c = ch ',' ∨ c = ch ')' ∨ c = ch '(') : Follow sepC (.p c :: ts) := by
  rcases h with rfl | rfl | rfl <;> exact .inr ⟨by decide, by decide, by decide⟩

theorem argsC_run {args : List Str} {us : List Tok} (h : SepBy (Word sepC) args us) (rest : List Tok) (s : IS) (ret : List Str) (f : Nat)
    (hf : us.length < f) (ha : At (us ++ .p (ch ')') :: rest) s) : ∃ r, argsC f s ret = (ret ++ args, ch ')', ⟨r, true⟩) ∧ Lay rest r := by
  induction h generalizing s ret f with
  | @one w ts hw =>
    obtain ⟨t, rfl, ht⟩ := hw
    cases f with
    | zero => omega
    | succ f =>
      obtain ⟨s', h1, h2⟩ := read_word ha ht (followC _ _ (.inr (.inl rfl)))
      obtain ⟨r, h3, h4⟩ := read_char_p h2 (by decide)
      refine ⟨r, ?_, h4⟩
      rw [argsC]
      simp only [h1, h3]
      simp [text_ne ht, show ¬ ch ')' = ch ',' by decide]
  | @cons w l ts us hw _ ih =>
    obtain ⟨t, rfl, ht⟩ := hw
    cases f with
    | zero => omega
    | succ f =>
      rw [List.append_assoc, List.cons_append] at ha
      obtain ⟨s', h1, h2⟩ := read_word ha ht (followC _ _ (.inl rfl))
      obtain ⟨r, h3, h4⟩ := read_char_p h2 (by decide)
      have hl : us.length < f := by simp at hf; omega
      obtain ⟨r', h5, h6⟩ := ih ⟨r, true⟩ (ret ++ [w]) f hl (.inl ⟨rfl, h4⟩)
      refine ⟨r', ?_, h6⟩
      rw [argsC]
      simp only [h1, h3]
      simp [text_ne ht, h5]

theorem arglist_run {args : List Str} {ts : List Tok} (h : ArgsC args ts) (rest : List Tok) (s : IS) (ha : At (ts ++ rest) s) :
    ∃ r, arglist s = (args, ⟨r, true⟩) ∧ Lay rest r := by
  obtain ⟨us, rfl, h⟩ := h
  rw [List.cons_append, List.append_assoc] at ha
  obtain ⟨r, h1, h2⟩ := read_char_p ha (by decide)
  have key : ∃ r', argsC (r.length + 1) ⟨r, true⟩ [] = (args, ch ')', ⟨r', true⟩) ∧ Lay rest r' := by
    have hlen := lay_length h2
    rcases h with ⟨rfl, rfl⟩ | h
    · have ha' : At (.p (ch ')') :: rest) ⟨r, true⟩ := .inl ⟨rfl, h2⟩
      obtain ⟨s', h3, h4⟩ := read_word_p (sep := sepC) ha' (by decide) (by decide) (by decide) (by decide)
      obtain ⟨r', h5, h6⟩ := read_char_p h4 (by decide)
      refine ⟨r', ?_, h6⟩
      rw [argsC]
      simp only [h3, h5]
      simp [show ¬ ch ')' = ch ',' by decide]
    · have := argsC_run h rest ⟨r, true⟩ [] (r.length + 1) (by simp at hlen; omega) (.inl ⟨rfl, h2⟩)
      simpa using this
  obtain ⟨r', h3, h4⟩ := key
  refine ⟨r', ?_, h4⟩
  unfold arglist
  simp only [h1]
  simp [h3]

/-- at the end, or before a comma -/
def EndC (ts : List Tok) : Prop := ts = [] ∨ ∃ us, ts = .p (ch ',') :: us

theorem arglist_none {rest : List Tok} (hr : EndC rest) {s : IS} (ha : At rest s) : ∃ s', arglist s = ([], s') ∧ At rest s' := by
  rcases hr with rfl | ⟨us, rfl⟩
  · refine ⟨⟨[], false⟩, ?_, .inr ⟨rfl, rfl⟩⟩
    unfold arglist
    simp only [read_char_end ha]
    rfl
  · obtain ⟨r, h1, h2⟩ := read_char_p ha (by decide)
    refine ⟨⟨ch ',' :: r, true⟩, ?_, .inl ⟨rfl, Lay.p (ws := []) (by intro x hx; cases hx) h2⟩⟩
    unfold arglist
    simp only [h1]
    rw [if_neg (by simp), if_pos (by decide)]
    rfl

theorem aggDefs_find {d : Sig} (h : d ∈ CalQL.aggDefs) : (CalQL.aggDefs.find? fun e => decide (d.name = e.name)) = some d := by
  revert d
  decide +kernel

theorem call_run {x : Sig × List Str} {ts : List Tok} (h : CallC x ts) (rest : List Tok) (hr : EndC rest) (s : IS) (ha : At (ts ++ rest) s) :
    ∃ s', functioncall CalQL.aggDefs s = (some x, s') ∧ At rest s' := by
  obtain ⟨h1, h2, h3, fs, as, rfl, ⟨t, rfl, ht⟩, h5⟩ := h
  have hfol : Follow sepC (as ++ rest) := by
    rcases h5 with ⟨us, rfl, -⟩ | ⟨-, rfl⟩
    · exact followC _ _ (.inr (.inr rfl))
    · rcases hr with rfl | ⟨us, rfl⟩
      · trivial
      · exact followC _ _ (.inl rfl)
  obtain ⟨s1, r1, a1⟩ := read_word (by simpa using ha) ht hfol
  have key : ∃ s2, arglist s1 = (x.2, s2) ∧ At rest s2 := by
    rcases h5 with h5 | ⟨h5, rfl⟩
    · obtain ⟨r, h6, h7⟩ := arglist_run h5 rest s1 a1
      exact ⟨_, h6, .inl ⟨rfl, h7⟩⟩
    · rw [h5]; exact arglist_none hr a1
  obtain ⟨s2, r2, a2⟩ := key
  refine ⟨s2, ?_, a2⟩
  unfold functioncall
  simp only [r1]
  rw [if_neg (text_ne ht), aggDefs_find h1]
  simp only [r2]
  rw [if_neg (by omega)]

theorem ops_run {l : List (Sig × List Str)} {ts : List Tok} (h : SepBy CallC l ts) (f : Nat) (hf : ts.length < f) (s : IS) (ha : At ts s) (acc : List (Sig × List Str)) :
    opsL CalQL.aggDefs f s acc = acc ++ l := by
  induction h generalizing f s acc with
  | @one x ts hx =>
    cases f with
    | zero => omega
    | succ f =>
      obtain ⟨s', r, a⟩ := call_run hx [] (.inl rfl) s (by simpa using ha)
      rw [opsL]
      simp only [r, read_char_end a]
      simp
  | @cons x l ts us hx _ ih =>
    cases f with
    | zero => omega
    | succ f =>
      obtain ⟨s', r, a⟩ := call_run hx _ (.inr ⟨us, rfl⟩) s ha
      obtain ⟨q, h3, h4⟩ := read_char_p a (by decide)
      rw [opsL]
      simp only [r, h3]
      rw [if_pos (by simp), ih f (by simp at hf; omega) ⟨q, true⟩ (.inl ⟨rfl, h4⟩)]
      simp

/-- the aggregation operators are read as written -/
theorem ops_calls {l : List (Sig × List Str)} {t : Str} (h : Calls l t) : t ≠ [] ∧ opsL CalQL.aggDefs (t.length + 1) ⟨t, true⟩ [] = l := by
  obtain ⟨ts, h1, h2⟩ := h
  have hl := lay_length h2
  refine ⟨?_, by simpa using ops_run h1 (t.length + 1) (by omega) ⟨t, true⟩ (.inl ⟨rfl, h2⟩) []⟩
  rintro rfl
  have : ts.length = 0 := by simpa using hl
  have hne : ∀ x ts, CallC x ts → ts ≠ [] := by
    rintro x ts ⟨-, -, -, fs, as, rfl, ⟨t, rfl, -⟩, -⟩ e
    simp at e
  cases h1 with
  | one h => exact hne _ _ h (List.length_eq_zero_iff.1 this)
  | cons h _ => simp at this

/-! ## formatters -/

theorem mapSet_value (m : List (Str × Str)) (a v k : Str) : valueIn (mapSet m a v) k = if a = k then some v else valueIn m k := by
  induction m with
  | nil => by_cases e : a = k <;> simp [mapSet, valueIn, e]
  | cons x m ih =>
    unfold valueIn at ih ⊢
    rw [mapSet]
    split
    · rename_i e
      by_cases e2 : a = k
      · simp [e2]
      · have : x.1 ≠ k := by rw [e]; exact e2
        simp [e2, this]
    · rename_i e
      by_cases e2 : x.1 = k
      · have : a ≠ k := fun c => e (e2.trans c.symm)
        simp [e2, this]
      · rw [List.find?_cons, decide_eq_false e2, ih, List.find?_cons, decide_eq_false e2]

theorem mapSet_ne (m : List (Str × Str)) (a v : Str) : mapSet m a v ≠ [] := by
  cases m with
  | nil => simp [mapSet]
  | cons x m => rw [mapSet]; split <;> simp

theorem fmtArgs_value (o : Str → Option Str) (as : List Str) (k : Str) : ∀ m : List (Str × Str),
    valueIn (as.foldl (fun m a => match o a with
      | some v => mapSet m a v
      | none => m) m) k = (if k ∈ as then o k else none).or (valueIn m k) := by
  induction as with
  | nil => intro m; simp
  | cons a as ih =>
    intro m
    rw [List.foldl_cons, ih]
    by_cases e : k ∈ as
    · rw [if_pos e, if_pos (by simp [e])]
      cases hk : o k with
      | some v => simp
      | none =>
        simp only [Option.none_or]
        cases ha : o a with
        | none => rfl
        | some v =>
          simp only
          rw [mapSet_value]
          have : a ≠ k := by rintro rfl; rw [hk] at ha; cases ha
          rw [if_neg this]
    · rw [if_neg e, Option.none_or]
      by_cases e2 : k = a
      · subst e2
        rw [if_pos (by simp)]
        cases hk : o k with
        | none => simp
        | some v => simp only; rw [mapSet_value]; simp
      · rw [if_neg (by simp [e, e2]), Option.none_or]
        cases ha : o a with
        | none => rfl
        | some v => simp only; rw [mapSet_value, if_neg (Ne.symm e2)]

theorem fmtDefs_args {d : Sig} (h : d ∈ CalQL.fmtDefs) : d.args.take d.max = d.args ∧ (0 < d.min → d.min = 1 ∧ d.name ∈ d.args) := by
  revert d
  decide +kernel

theorem format_run (o : Str → Option Str) (h1 : o (str "cali") = none) (h2 : o (str "json-split") = none) (s : Spec) :
    ∃ s', withFormat o s = some s' ∧ (∃ x, s' = { s with fmt := x }) ∧ Formatted o s s' := by
  have hm : (CalQL.fmtDefs.find? fun d => (o d.name).isSome).map Sig.name = formatters.find? fun n => (o n).isSome := by
    simp only [CalQL.fmtDefs, formatters, List.find?_cons, List.find?_nil]
    simp only [h1, h2, Option.isSome_none]
    cases (o (str "json")).isSome <;> cases (o (str "expand")).isSome <;> cases (o (str "format")).isSome <;> cases (o (str "table")).isSome <;> cases (o (str "tree")).isSome <;> rfl
  unfold withFormat
  cases hf : CalQL.fmtDefs.find? fun d => (o d.name).isSome with
  | none =>
    rw [hf] at hm
    refine ⟨s, rfl, ⟨s.fmt, rfl⟩, .inl ⟨fun n hn => ?_, rfl⟩⟩
    have := List.find?_eq_none.1 hm.symm n hn
    simpa using this
  | some d =>
    rw [hf] at hm
    have hd := List.mem_of_find?_eq_some hf
    have hs : (o d.name).isSome = true := by
      have := List.find?_some hf
      exact this
    obtain ⟨a1, a2⟩ := fmtDefs_args hd
    have hv : ∀ k, valueIn (fmtArgs o d ((s.fmt.map Prod.snd).getD [])) k = (if k ∈ d.args then o k else none).or (valueIn ((s.fmt.map Prod.snd).getD []) k) := by
      intro k
      unfold fmtArgs
      rw [a1]
      exact fmtArgs_value o d.args k _
    have hlen : ¬ (fmtArgs o d ((s.fmt.map Prod.snd).getD [])).length < d.min := by
      intro hlt
      obtain ⟨b1, b2⟩ := a2 (by omega)
      have e0 : fmtArgs o d ((s.fmt.map Prod.snd).getD []) = [] := List.length_eq_zero_iff.1 (by omega)
      have := hv d.name
      obtain ⟨v, hvv⟩ := Option.isSome_iff_exists.1 hs
      rw [e0, if_pos b2, hvv] at this
      simp [valueIn] at this
    simp only
    rw [if_neg hlen]
    refine ⟨_, rfl, ⟨_, rfl⟩, .inr ⟨d.name, d, _, hm.symm, rfl, hd, rfl, hv⟩⟩

theorem erase_self {l : List Str} {a : Str} (h : a ∉ l) : l.erase a = l := List.erase_of_not_mem h

/-! ## all options -/

/-- Whenever the options say what the user asks for (in the documented notation, but with commas) and the CalQL query, if there is one, is correct, the query that is
run is the one asked for: the filter replaces that of the CalQL query, attributes, aggregations, aggregation key and sort attributes are added to those of the CalQL query in the order given, and
the formatter is the most important one of those set, with its arguments. -/
theorem options_to_query (w : Wish) (o : Str → Option Str) (file : Str → Option Str) (hw : w.Says o) (h1 : o (str "cali") = none) (h2 : o (str "json-split") = none)
    (b : Spec) (hb : base o file = some b) : ∃ s, queryArgs o file = some s ∧ w.Meets o b s := by
  obtain ⟨cs, as, os, ks, ss⟩ := w
  obtain ⟨c1, c2, c3, c4, c5⟩ := hw
  simp only at c1 c2 c3 c4 c5
  -- select
  have s1 : ∃ f l, withSelect o b = { b with filSel := f, fil := l } ∧ Replaced b.filSel b.fil f l (cs.map fun l => l.map SCond.cond) := by
    unfold withSelect
    cases cs with
    | none => simp only [SetTo] at c1; rw [c1]; exact ⟨_, _, rfl, rfl, rfl⟩
    | some l =>
      obtain ⟨t, e, ht, hl⟩ := c1
      rw [e]
      exact ⟨_, _, rfl, rfl, C31_selector_string ht hl⟩
  obtain ⟨f1, l1, e1, m1⟩ := s1
  -- attributes
  have s2 : ∃ f l, withAttributes o { b with filSel := f1, fil := l1 } = { b with filSel := f1, fil := l1, selSel := f, sel := l } ∧ Added b.selSel b.sel f l as := by
    unfold withAttributes
    cases as with
    | none => simp only [SetTo] at c2; rw [c2]; exact ⟨_, _, rfl, rfl, rfl⟩
    | some l =>
      obtain ⟨t, e, ht⟩ := c2
      rw [e]
      exact ⟨_, _, rfl, rfl, by rw [split_commas ht]⟩
  obtain ⟨f2, l2, e2, m2⟩ := s2
  -- aggregations
  have s3 : ∃ f l g gl gp, withAggregate o { b with filSel := f1, fil := l1, selSel := f2, sel := l2 } =
        { b with filSel := f1, fil := l1, selSel := f2, sel := l2, aggSel := f, aggs := l, grpSel := g, grp := gl, grpPath := gp } ∧
      Added b.aggSel b.aggs f l os ∧ Grouped b { b with grpSel := g, grp := gl, grpPath := gp } os ks := by
    unfold withAggregate
    cases os with
    | none =>
      simp only [SetTo] at c3
      rw [c3]
      exact ⟨_, _, _, _, _, rfl, ⟨rfl, rfl⟩, rfl, rfl, rfl⟩
    | some k =>
      obtain ⟨t, e, ht⟩ := c3
      obtain ⟨t0, t1⟩ := ops_calls ht
      rw [e]
      simp only
      rw [if_neg t0, t1]
      unfold withKey
      cases ks with
      | none =>
        simp only [SetTo] at c4
        rw [c4]
        exact ⟨_, _, _, _, _, rfl, ⟨rfl, rfl⟩, rfl, rfl, rfl⟩
      | some q =>
        obtain ⟨u, e', hu, hq⟩ := c4
        rw [e']
        have hun : u ≠ str "none" := by
          rintro rfl
          apply hq
          rw [← split_commas hu]
          decide
        simp only
        rw [if_neg hun, split_commas hu]
        by_cases hp : str "path" ∈ b.grp ++ q
        · simp only [if_pos hp]
          by_cases hn : str "prop:nested" ∈ (b.grp ++ q).erase (str "path")
          · rw [if_pos hn]
            exact ⟨_, _, _, _, _, rfl, ⟨rfl, rfl⟩, rfl, rfl, by simp [List.mem_append.1 hp]⟩
          · rw [if_neg hn]
            exact ⟨_, _, _, _, _, rfl, ⟨rfl, rfl⟩, rfl, (erase_self hn).symm, by simp [List.mem_append.1 hp]⟩
        · simp only [if_neg hp]
          by_cases hn : str "prop:nested" ∈ b.grp ++ q
          · rw [if_pos hn]
            exact ⟨_, _, _, _, _, rfl, ⟨rfl, rfl⟩, rfl, by rw [erase_self hp], ⟨fun _ => .inr hn, fun _ => rfl⟩⟩
          · rw [if_neg hn]
            exact ⟨_, _, _, _, _, rfl, ⟨rfl, rfl⟩, rfl, by rw [erase_self hp, erase_self hn], ⟨(fun c => nomatch c), fun c => absurd c (not_or.2 ⟨hp, hn⟩)⟩⟩
  obtain ⟨f3, l3, g3, gl3, gp3, e3, m3, m3'⟩ := s3
  -- sort
  have s4 : ∀ x : Spec, x.sortSel = b.sortSel → x.sort = b.sort → ∃ f l, withSort o x = { x with sortSel := f, sort := l } ∧ Added b.sortSel b.sort f l (ss.map fun l => l.map fun a => ⟨a, false⟩) := by
    intro x x1 x2
    unfold withSort
    cases ss with
    | none => simp only [SetTo] at c5; rw [c5]; exact ⟨_, _, rfl, x1, x2⟩
    | some l =>
      obtain ⟨t, e, ht⟩ := c5
      rw [e]
      exact ⟨_, _, rfl, rfl, by rw [split_commas ht, x2]⟩
  obtain ⟨f4, l4, e4, m4⟩ := s4 { b with filSel := f1, fil := l1, selSel := f2, sel := l2, aggSel := f3, aggs := l3, grpSel := g3, grp := gl3, grpPath := gp3 } rfl rfl
  -- formatter
  obtain ⟨s, e5, ⟨x, hx⟩, m5⟩ := format_run o h1 h2 { b with filSel := f1, fil := l1, selSel := f2, sel := l2, aggSel := f3, aggs := l3, grpSel := g3, grp := gl3, grpPath := gp3, sortSel := f4, sort := l4 }
  refine ⟨s, ?_, ?_⟩
  · unfold queryArgs
    rw [hb]
    simp only
    rw [e1, e2, e3, e4, e5]
  · subst hx
    exact ⟨m1, ⟨rfl, m2⟩, m3, m3', m4, m5, rfl, rfl, rfl⟩

/-- the options of a parsed command line are the ones given -/
theorem optOf_items {T : List Opt} (h : Table T) (items : List Item) (hok : ∀ it ∈ items, it.Ok T) (tail : Option (List Str)) :
    optOf T (parse T (items.flatMap Item.text ++ dashed tail)).1 = valueOf items := by
  funext n
  unfold optOf
  by_cases hn : ∃ o ∈ T, o.name = n
  · obtain ⟨o, ho, rfl⟩ := hn
    obtain ⟨-, -, h3⟩ := C87_options_partial h items hok tail
    obtain ⟨h4, h5⟩ := h3 o ho []
    rw [h4, h5]
    cases valueOf items o.name <;> simp
  · have h1 : findName T n = none := by
      unfold findName
      rw [List.findIdx?_eq_none_iff]
      intro o ho
      exact decide_eq_false fun e => hn ⟨o, ho, e⟩
    have h2 : valueOf items n = none := by
      unfold valueOf
      rw [Option.map_eq_none_iff, List.find?_eq_none]
      intro x hx e
      obtain ⟨it, h3, h4⟩ := List.mem_flatMap.1 hx
      obtain ⟨p, hp, hpn⟩ := options_names (hok it h3) x h4
      exact hn ⟨p, hp, hpn.trans (of_decide_eq_true e)⟩
    rw [h2]
    simp [isSet, h1]

/-- **C88** (command line to query).  Take any `cali-query` command line made of valid options and file names.  If the values of the report options are what the user asks for in the documented
notation (with commas), and the CalQL query or query file, if there is one, is correct, then the query that is run is the one asked for: `--select` replaces the filter of the CalQL query;
attributes, aggregations, aggregation key and sort attributes are added to those of the CalQL query, in the order given; the formatter is the most important one of those given, with its
arguments. -/
theorem C88_command_line_partial (items : List Item) (hok : ∀ it ∈ items, it.Ok queryTable) (tail : Option (List Str)) (file : Str → Option Str) (w : Wish) (hw : w.Says (valueOf items))
    (b : Spec) (hb : base (valueOf items) file = some b) :
    ∃ s, queryArgs (optOf queryTable (parse queryTable (items.flatMap Item.text ++ dashed tail)).1) file = some s ∧ w.Meets (valueOf items) b s := by
  have hno : ∀ n, (∀ o ∈ queryTable, o.name ≠ n) → valueOf items n = none := by
    intro n hn
    unfold valueOf
    rw [Option.map_eq_none_iff, List.find?_eq_none]
    intro x hx e
    obtain ⟨it, h3, h4⟩ := List.mem_flatMap.1 hx
    obtain ⟨p, hp, hpn⟩ := options_names (hok it h3) x h4
    exact hn p hp (hpn.trans (of_decide_eq_true e))
  rw [optOf_items queryTable_ok items hok tail]
  exact options_to_query w _ file hw (hno _ (by decide +kernel)) (hno _ (by decide +kernel)) b hb

/-- without a query the options start from the query that passes everything through -/
theorem C88_no_query (o : Str → Option Str) (file : Str → Option Str) (h1 : o (str "query") = none) (h2 : o (str "query-file") = none) : base o file = some Spec0 := by
  simp [base, h1, h2]

/-- an incorrect query, an incorrect query file or a query file that cannot be read is reported, whatever the other options -/
theorem C88_bad_query (o : Str → Option Str) (file : Str → Option Str)
    (h : (∃ q, o (str "query") = some q ∧ (CalQL.parse q).2 = true) ∨
      (o (str "query") = none ∧ ∃ f, o (str "query-file") = some f ∧ ∀ q, file f = some q → (CalQL.parse q).2 = true)) : queryArgs o file = none := by
  have : base o file = none := by
    unfold base
    rcases h with ⟨q, h1, h2⟩ | ⟨h0, f, h1, h2⟩
    · simp [h1, h2]
    · rw [h0, h1]
      cases hf : file f with
      | none => simp [hf]
      | some q => simp [hf, h2 q hf]
  simp [queryArgs, this]

/-! ## what goes wrong -/

/-- **C88** (violation: separators).  The help text separates attributes by colons (`attribute[:...]`), the code by commas: a list written as documented is one attribute whose name contains
colons. -/
theorem C88_violation_colon (a b : Str) (ha : ch ',' ∉ a) (hb : ch ',' ∉ b) (o : Str → Option Str) (ho : o (str "attributes") = some (a ++ str ":" ++ b)) (s : Spec) :
    (withAttributes o s).sel = s.sel ++ [a ++ str ":" ++ b] := by
  unfold withAttributes
  rw [ho]
  simp only
  congr 1
  have hc : ch ',' ∉ str ":" := by decide
  rw [split_last _ _ (by simp [ha, hb, hc]), if_neg (by simp [show str ":" = [ch ':'] from rfl]), List.nil_append]

/-- **C88** (violation: unknown functions).  An aggregation function that does not exist is not an error, and all aggregations after it are dropped with it: `foo(x),sum(y)` aggregates nothing,
while `sum(y),foo(x)` computes the sum; a colon, as in the help text, has the same effect. -/
theorem C88_violation_unknown_function :
    opsL CalQL.aggDefs 20 ⟨str "foo(x),sum(y)", true⟩ [] = [] ∧
    (opsL CalQL.aggDefs 20 ⟨str "sum(y),foo(x)", true⟩ []).map (fun x => (x.1.name, x.2)) = [(str "sum", [str "y"])] ∧
    (opsL CalQL.aggDefs 20 ⟨str "sum(x):sum(y)", true⟩ []).map (fun x => (x.1.name, x.2)) = [(str "sum", [str "x"])] := by decide +kernel

/-- **C88** (violation: the query's filter).  With `--select`, the conditions of the CalQL query given with `-q` are dropped. -/
theorem C88_violation_where_dropped (o : Str → Option Str) (t : Str) (h : o (str "select") = some t) (s : Spec) (fil : List Cond) :
    withSelect o { s with fil := fil } = withSelect o { s with fil := [] } := by
  simp [withSelect, h]

/-- **C88** (violation: ignored key).  `--aggregate-key` without `--aggregate` has no effect, even if the aggregations are given in a CalQL query. -/
theorem C88_violation_key_ignored (o o' : Str → Option Str) (file : Str → Option Str) (h : o (str "aggregate") = none) (h' : ∀ n, n ≠ str "aggregate-key" → o' n = o n) :
    queryArgs o' file = queryArgs o file := by
  have e : ∀ n, n ≠ str "aggregate-key" → o' n = o n := h'
  have hb : base o' file = base o file := by
    unfold base
    rw [e _ (by decide), e _ (by decide)]
  have h1 : withSelect o' = withSelect o := by funext s; unfold withSelect; rw [e _ (by decide)]
  have h2 : withAttributes o' = withAttributes o := by funext s; unfold withAttributes; rw [e _ (by decide)]
  have h3 : withSort o' = withSort o := by funext s; unfold withSort; rw [e _ (by decide)]
  have h4 : withAggregate o' = withAggregate o := by
    funext s
    unfold withAggregate
    rw [e _ (by decide), h]
  have h5 : withFormat o' = withFormat o := by
    funext s
    unfold withFormat
    have hk : ∀ d ∈ CalQL.fmtDefs, d.name ≠ str "aggregate-key" ∧ ∀ a ∈ d.args.take d.max, a ≠ str "aggregate-key" := by decide +kernel
    have hfind : (CalQL.fmtDefs.find? fun d => (o' d.name).isSome) = CalQL.fmtDefs.find? fun d => (o d.name).isSome := by
      simp only [CalQL.fmtDefs, List.find?_cons, List.find?_nil]
      rw [e (str "cali") (by decide), e (str "json") (by decide), e (str "expand") (by decide), e (str "format") (by decide), e (str "table") (by decide), e (str "tree") (by decide),
        e (str "json-split") (by decide)]
    rw [hfind]
    cases hf : CalQL.fmtDefs.find? fun d => (o d.name).isSome with
    | none => rfl
    | some d =>
      have hd := List.mem_of_find?_eq_some hf
      have : ∀ m, fmtArgs o' d m = fmtArgs o d m := by
        intro m
        unfold fmtArgs
        apply List.foldl_ext
        intro m a ha
        rw [e _ ((hk d hd).2 a ha)]
      simp only [this]
  unfold queryArgs
  rw [hb, h1, h2, h3, h4, h5]

/-! ## an example -/

/-- `cali-query -s=-a=1,b --aggregate "count, sum( t )" --aggregate-key=path,b -tS t prof.cali` -/
def cmdItems : List Item := [.shortEq [qo 0] (str "-a=1,b"), .sep (qo 1) (str "count, sum( t )"), .eq (qo 2) (str "path,b"), .shortSep [qo 8, qo 5] (str "t"), .arg (str "prof.cali")]

theorem cmd_items_ok : ∀ it ∈ cmdItems, it.Ok queryTable := by
  intro it hit
  simp only [cmdItems, List.mem_cons, List.not_mem_nil, or_false] at hit
  rcases hit with rfl | rfl | rfl | rfl | rfl <;> simp only [Item.Ok] <;> decide +kernel

/-- what it asks for -/
def cmdWish : Wish := ⟨some [⟨true, str "a", some (str "1")⟩, ⟨false, str "b", none⟩], none,
  some [(CalQL.aggDefs.getD 0 ⟨0, [], 0, 0, []⟩, []), (CalQL.aggDefs.getD 1 ⟨0, [], 0, 0, []⟩, [str "t"])], some [str "path", str "b"], some [str "t"]⟩

theorem commas_dec {l : List Str} {t : Str} (h : (decide (l ≠ []) && decide (t = List.intercalate [ch ','] l) && l.all fun p => decide (p ≠ [] ∧ ch ',' ∉ p)) = true) : Commas l t := by
  simp only [Bool.and_eq_true, decide_eq_true_eq, List.all_eq_true] at h
  exact ⟨h.1.1, h.1.2, h.2⟩

theorem word_plain {w : Str} (h0 : w ≠ []) (h : ∀ c ∈ w, c ≠ ch '\\' ∧ c ≠ ch '"' ∧ isSpace c = false ∧ sepC.contains c = false) : Word sepC w [.w w] :=
  ⟨w, rfl, h0, .inr ⟨rfl, h⟩⟩

theorem cmd_calls : Calls [(CalQL.aggDefs.getD 0 ⟨0, [], 0, 0, []⟩, []), (CalQL.aggDefs.getD 1 ⟨0, [], 0, 0, []⟩, [str "t"])] (str "count, sum( t )") := by
  refine ⟨[.w (str "count"), .p (ch ','), .w (str "sum"), .p (ch '('), .w (str "t"), .p (ch ')')], ?_, ?_⟩
  · refine SepBy.cons (ts := [.w (str "count")]) ⟨by decide +kernel, by decide, by decide, [.w (str "count")], [], rfl, word_plain (by decide) (by decide +kernel), .inr ⟨rfl, rfl⟩⟩ (SepBy.one ?_)
    exact ⟨by decide +kernel, by decide, by decide, [.w (str "sum")], _, rfl, word_plain (by decide) (by decide +kernel),
      .inl ⟨[.w (str "t")], rfl, .inr (.one (word_plain (by decide) (by decide +kernel)))⟩⟩
  · have sp : CalQL.Spaces [] := by intro c hc; cases hc
    have sp1 : CalQL.Spaces (str " ") := by intro c hc; revert c; decide
    have e6 := Lay.p (ws := str " ") (c := ch ')') sp1 (Lay.nil sp)
    have e5 := Lay.w (t := str "t") sp1 (by decide) e6 (.inr (.inl ⟨_, _, rfl, by decide⟩))
    have e4 := Lay.p (ws := []) (c := ch '(') sp e5
    have e3 := Lay.w (t := str "sum") sp1 (by decide) e4 (.inr (.inr ⟨_, _, _, rfl, by decide, rfl⟩))
    have e2 := Lay.p (ws := []) (c := ch ',') sp e3
    exact Lay.w (t := str "count") sp (by decide) e2 (.inr (.inr ⟨_, _, _, rfl, by decide, rfl⟩))

theorem cmd_says : cmdWish.Says (valueOf cmdItems) where
  conds := by
    refine ⟨str "-a=1,b", by decide +kernel, commas_dec (by decide +kernel), ?_⟩
    intro c hc
    simp only [List.mem_cons, List.not_mem_nil, or_false] at hc
    rcases hc with rfl | rfl
    · exact ⟨by decide, by decide, by decide, fun v hv => by cases hv; decide⟩
    · exact ⟨by decide, by decide, by decide, fun v hv => by cases hv⟩
  attrs := by show valueOf cmdItems (str "attributes") = none; decide +kernel
  ops := ⟨_, by decide +kernel, cmd_calls⟩
  key := ⟨str "path,b", by decide +kernel, commas_dec (by decide +kernel), by decide⟩
  sort := ⟨str "t", by decide +kernel, commas_dec (by decide +kernel)⟩

/-- the hypotheses of `C88_command_line_partial` can be met -/
example (file : Str → Option Str) : ∃ s, queryArgs (optOf queryTable (parse queryTable (cmdItems.flatMap Item.text ++ dashed none)).1) file = some s ∧
    cmdWish.Meets (valueOf cmdItems) Spec0 s :=
  C88_command_line_partial cmdItems cmd_items_ok none file cmdWish cmd_says Spec0 (C88_no_query _ file (by decide +kernel) (by decide +kernel))

end Verif.Cli
