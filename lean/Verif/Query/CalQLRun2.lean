import Verif.Query.CalQLRun
/-!
# The parser on written queries: SELECT, ORDER BY, LET, FORMAT
-/
namespace Verif.Query.CalQL
open Verif Verif.Cali Verif.Parse

/-- the next keyword, if there is one -/
theorem kw_run {rest : List Tok} {s : IS} (hn : Next rest) (ha : At rest s) : ∃ w s', readWord sep0 s = (w, s') ∧ Done (lower w) rest s' := by
  rcases hn with (rfl | ⟨w, t, us, rfl, ht, hk, hf⟩) | ⟨us, rfl⟩
  · exact ⟨_, _, read_word_end ha, .inl ⟨rfl, at_end⟩⟩
  · obtain ⟨s', h1, h2⟩ := read_word ha ht hf
    exact ⟨w, s', h1, .inr ⟨w, t, us, rfl, ht, rfl, hk, h2⟩⟩
  · obtain ⟨s', h1, h2⟩ := read_word_p (sep := sep0) ha (by decide) (by decide) (by decide) (by decide)
    exact ⟨[], s', h1, .inl ⟨rfl, h2⟩⟩

theorem Done.kw {kw : Str} {rest : List Tok} {s : IS} (h : Done kw rest s) : kw = [] ∨ kw ∈ keywords := by
  rcases h with ⟨h, _⟩ | ⟨w, t, us, _, _, rfl, h, _⟩
  · exact .inl h
  · exact .inr h

theorem Done.ne {kw : Str} {rest : List Tok} {s : IS} (h : Done kw rest s) {k : Str} (hk : k ≠ [] ∧ k ∉ keywords) : kw ≠ k := by
  rintro rfl
  rcases h.kw with h | h
  · exact hk.1 h
  · exact hk.2 h

theorem Done.comma {kw : Str} {us : List Tok} {s : IS} (h : Done kw (.p (ch ',') :: us) s) : kw = [] ∧ At (.p (ch ',') :: us) s := by
  rcases h with h | ⟨w, t, us, h, _⟩
  · exact h
  · cases h

theorem keywords_ne : ∀ k ∈ keywords, k ≠ [] := by decide

/-! ### SELECT -/

/-- `AS` and `UNIT` parts -/
def AsW (v : Str) : List Tok → Prop := Seq (Kw "as") (Word sep0 v)
def UnitW (v : Str) : List Tok → Prop := Seq (Kw "unit") (Word sepU v)

def setUnit (x : Spec) (name : Str) : Option Str → Spec
  | none => x
  | some v => { x with units := mapSet x.units name v }

def setAs (x : Spec) (name : Str) : Option Str → Spec
  | none => x
  | some v => { x with aliases := mapSet x.aliases name v }

theorem unit_run {un : Option Str} {b : List Tok} (hb : Opt UnitW un b) (rest : List Tok) (hn : Next rest) (s : IS) (x : Spec) (name : Str)
    (ha : At (b ++ rest) s) : ∃ w s1, readWord sep0 s = (w, s1) ∧ lower w ≠ str "as" ∧
      ∃ s' kw, selUnit ⟨x, false, s1⟩ name (lower w) = (⟨setUnit x name un, false, s'⟩, kw) ∧ Done kw rest s' := by
  cases un with
  | none =>
    obtain rfl : b = [] := hb
    obtain ⟨w, s', h1, h2⟩ := kw_run hn (by simpa using ha)
    refine ⟨w, s', h1, h2.ne (by decide), s', lower w, ?_, h2⟩
    unfold selUnit
    rw [if_neg fun h => h2.ne (by decide) h.2]
    rfl
  | some v =>
    obtain ⟨b1, b2, rfl, ⟨w, ⟨t, rfl, ht⟩, hw⟩, ⟨tv, rfl, htv⟩⟩ : UnitW v b := hb
    simp only [List.cons_append, List.nil_append] at ha
    obtain ⟨s1, h1, h2⟩ := read_word ha ht trivial
    refine ⟨w, s1, h1, by rw [hw]; decide, ?_⟩
    obtain ⟨s2, h3, h4⟩ := read_word h2 htv hn.followU
    obtain ⟨w', s3, h5, h6⟩ := kw_run hn h4
    refine ⟨s3, lower w', ?_, h6⟩
    unfold selUnit
    rw [if_pos ⟨rfl, hw⟩]
    simp only [h3]
    rw [if_neg (text_ne htv)]
    simp only [h5]
    rfl

/-- the parts after a selection -/
def selOpts (p : P) (name : Str) : P × Str :=
  let t := readWord sep0 p.is
  let a := selAs { p with is := t.2 } name (lower t.1)
  selUnit a.1 name a.2

theorem opt_follow {un : Option Str} {b : List Tok} (hb : Opt UnitW un b) {rest : List Tok} (hn : Next rest) : Follow sep0 (b ++ rest) := by
  cases un with
  | none => obtain rfl : b = [] := hb; exact hn.follow
  | some v =>
    obtain ⟨b1, b2, rfl, ⟨w, ⟨t, rfl, ht⟩, hw⟩, ⟨tv, rfl, htv⟩⟩ : UnitW v b := hb
    trivial

theorem opts_run {as un : Option Str} {a b : List Tok} (hb1 : Opt AsW as a) (hb : Opt UnitW un b) (rest : List Tok) (hn : Next rest) (s : IS)
    (x : Spec) (name : Str) (ha : At (a ++ (b ++ rest)) s) :
    ∃ s' kw, selOpts ⟨x, false, s⟩ name = (⟨setUnit (setAs x name as) name un, false, s'⟩, kw) ∧ Done kw rest s' := by
  cases as with
  | none =>
    obtain rfl : a = [] := hb1
    obtain ⟨w, s1, h1, h2, s', kw, h3, h4⟩ := unit_run hb rest hn s x name (by simpa using ha)
    refine ⟨s', kw, ?_, h4⟩
    unfold selOpts selAs
    simp only [h1]
    rw [if_neg fun h => h2 h.2]
    exact h3
  | some v =>
    obtain ⟨b1, b2, rfl, ⟨w, ⟨t, rfl, ht⟩, hw⟩, ⟨tv, rfl, htv⟩⟩ : AsW v a := hb1
    simp only [List.cons_append, List.nil_append] at ha
    obtain ⟨s1, h1, h2⟩ := read_word ha ht trivial
    obtain ⟨s2, h3, h4⟩ := read_word h2 htv (opt_follow hb hn)
    obtain ⟨w', s3, h5, h6, s', kw, h7, h8⟩ := unit_run hb rest hn s2 (setAs x name (some v)) name h4
    refine ⟨s', kw, ?_, h8⟩
    unfold selOpts selAs
    simp only [h1]
    rw [if_pos ⟨trivial, hw⟩]
    simp only [h3]
    rw [if_neg (text_ne htv)]
    simp only [h5]
    exact h7

def Item.as : Item → Option Str
  | .star => none
  | .attr _ a _ => a
  | .call _ _ a _ => a

def Item.un : Item → Option Str
  | .star => none
  | .attr _ _ u => u
  | .call _ _ _ u => u

/-- effect of a selection, without `AS` and `UNIT` -/
def updSel0 (x : Spec) : Item → Spec
  | .star => { x with selSel := .all }
  | .attr a _ _ => { x with selSel := .list, sel := x.sel ++ [a] }
  | .call d args _ _ =>
    let x := { x with aggSel := .list, aggs := x.aggs ++ [(d, args)] }
    if x.selSel ≠ .all then { x with selSel := .list, sel := x.sel ++ [aggName d args] } else x

def updSel (x : Spec) (i : Item) : Spec := setUnit (setAs (updSel0 x i) i.name i.as) i.name i.un

/-- what follows the name of a selection -/
theorem tail_ok {as un : Option Str} {a b : List Tok} (hb1 : Opt AsW as a) (hb : Opt UnitW un b) {rest : List Tok} (hn : Next rest) :
    Ok (a ++ (b ++ rest)) ∧ ∀ c us, a ++ (b ++ rest) = .p c :: us → c = ch ',' := by
  cases as with
  | some v =>
    obtain ⟨b1, b2, rfl, ⟨w, ⟨t, rfl, ht⟩, hw⟩, ⟨tv, rfl, htv⟩⟩ : AsW v a := hb1
    constructor
    · intro x us hx; cases hx; exact ⟨w, ht⟩
    · intro c us hx; cases hx
  | none =>
    obtain rfl : a = [] := hb1
    cases un with
    | some v =>
      obtain ⟨b1, b2, rfl, ⟨w, ⟨t, rfl, ht⟩, hw⟩, ⟨tv, rfl, htv⟩⟩ : UnitW v b := hb
      constructor
      · intro x us hx; cases hx; exact ⟨w, ht⟩
      · intro c us hx; cases hx
    | none =>
      obtain rfl : b = [] := hb
      exact ⟨hn.ok, hn.comma⟩

theorem fn_head {d : Sig} (hd : d ∈ aggDefs) {w t : Str} (ht : IsText sep0 w t) (hw : lower w = d.name) : t.head? ≠ some (ch '*') := by
  obtain ⟨c, cs, rfl, _, h⟩ := text_head ht
  intro hc
  simp only [List.head?_cons, Option.some.injEq] at hc
  subst hc
  rcases h with h | ⟨_, h⟩
  · revert h; decide
  · cases w with
    | nil => cases h
    | cons c w =>
      simp only [List.head?_cons, Option.some.injEq] at h
      subst h
      have : ∀ d ∈ aggDefs, d.name.head? ≠ some (toLower (ch '*')) := by decide +kernel
      exact this d hd (by rw [← hw]; rfl)

/-- reading the name of a selection: it does not begin with `*`, and is read again -/
theorem selName {sep w t : Str} {us : List Tok} {s : IS} (ht : IsText sep0 w t) (hstar : t.head? ≠ some (ch '*')) (hf : Follow sep0 us) (ha : At (.w t :: us) s) :
    (readChar s).1 ≠ ch '*' ∧ ∃ s1, readWord sep0 ((readChar s).2.unget (readChar s).1) = (w, s1) ∧ At us s1 := by
  obtain ⟨c, cs, rfl, hc, -⟩ := text_head ht
  obtain ⟨r, h1, h2⟩ := read_char_w ha hc
  rw [h1]
  refine ⟨fun h => hstar (by rw [← h]; rfl), ?_⟩
  exact read_word (s := IS.unget ⟨r, true⟩ c) (.inl ⟨rfl, h2⟩) ht hf

theorem item_run {i : Item} {ts : List Tok} (h : ItemW i ts) : ∃ ts1 a b, ts = ts1 ++ (a ++ b) ∧ Opt AsW i.as a ∧ Opt UnitW i.un b ∧
    ∀ rest s x, Next rest → At (ts1 ++ (a ++ (b ++ rest))) s → ∃ s', selItem ⟨x, false, s⟩ = (⟨updSel0 x i, false, s'⟩, i.name) ∧ At (a ++ (b ++ rest)) s' := by
  cases i with
  | star =>
    obtain rfl : ts = [.p (ch '*')] := h
    refine ⟨[.p (ch '*')], [], [], rfl, rfl, rfl, ?_⟩
    intro rest s x hn ha
    obtain ⟨r, h1, h2⟩ := read_char_p ha (by decide)
    refine ⟨⟨r, true⟩, ?_, .inl ⟨rfl, h2⟩⟩
    unfold selItem
    simp only [h1]
    rfl
  | attr a as un =>
    obtain ⟨hstar, ts1, ts2, rfl, ⟨t, rfl, ht⟩, ta, tb, rfl, h1, h2⟩ := h
    refine ⟨[.w t], ta, tb, rfl, h1, h2, ?_⟩
    intro rest s x hn ha
    obtain ⟨hok, hcomma⟩ := tail_ok h1 h2 hn
    have hf : Follow sep0 (ta ++ (tb ++ rest)) := follow0 fun c us hx => .inr (by rw [hcomma c us hx]; decide)
    obtain ⟨g1, s1, g2, g3⟩ := selName (sep := sep0) ht (hstar t rfl) hf ha
    obtain ⟨c, s2, g4, g5, g6, -⟩ := peek hok g3
    have hc : c ≠ ch '(' := by
      generalize ta ++ (tb ++ rest) = tl at *
      cases tl with
      | nil => rw [show c = eofc from g5]; decide
      | cons x us =>
        cases x with
        | w t => rintro rfl; exact absurd (show sep0.contains (ch '(') = false from g5) (by decide)
        | p d =>
          rintro rfl
          have h1 : ch '(' = d := g5
          have h2 := hcomma d us rfl
          rw [← h1] at h2
          revert h2; decide
    refine ⟨_, ?_, g6⟩
    unfold selItem
    simp only
    rw [if_neg g1]
    simp only [g2, g4]
    rw [if_neg hc, if_neg (text_ne ht)]
    rfl
  | call d args as un =>
    obtain ⟨ts1, ts2, rfl, ⟨hd, hmin, hmax, tf, tg, rfl, ⟨w, ⟨t, rfl, ht⟩, hw⟩, hargs⟩, ta, tb, rfl, h1, h2⟩ := h
    refine ⟨[.w t] ++ tg, ta, tb, rfl, h1, h2, ?_⟩
    intro rest s x hn ha
    have hargs' := hargs
    obtain ⟨us, rfl, _⟩ := hargs
    obtain ⟨g1, s1, g2, g3⟩ := selName (sep := sep0) ht (fn_head hd ht hw) (show Follow sep0 (.p (ch '(') :: _) from .inr ⟨by decide, by decide, by decide⟩) ha
    obtain ⟨r, g4, g5⟩ := read_char_p g3 (by decide)
    have g6 : At ((.p (ch '(') :: (us ++ [.p (ch ')')])) ++ (ta ++ (tb ++ rest))) (IS.unget ⟨r, true⟩ (ch '(')) :=
      .inl ⟨rfl, Lay.p (ws := []) (by intro x hx; cases hx) g5⟩
    obtain ⟨r', g7, g8⟩ := parseArgs_run hargs' _ _ g6
    refine ⟨⟨r', true⟩, ?_, .inl ⟨rfl, g8⟩⟩
    unfold selItem
    simp only
    rw [if_neg g1]
    simp only [g2, g4]
    rw [if_pos trivial]
    unfold selAgg
    rw [findDef_of (text_ne ht) hd hw agg_unique]
    simp only [g7]
    rw [if_neg (by omega)]
    unfold updSel0
    simp only [ne_eq, ite_not, Item.name]
    by_cases hall : x.selSel = .all
    · rw [if_pos hall, if_pos hall]; rfl
    · rw [if_neg hall, if_neg hall]; rfl

/-- the end of an iteration -/
def endL (u : P × Str) (again : P → P × Str) : P × Str :=
  if u.1.err = false ∧ u.2 ≠ [] then u
  else
    let k := readChar u.1.is
    if u.1.err = false ∧ k.2.good = true ∧ k.1 = ch ',' then again { u.1 with is := k.2 }
    else ({ u.1 with is := if k.1 ≠ 0 then k.2.unget k.1 else k.2 }, [])

theorem done_end {kw : Str} {rest : List Tok} {s : IS} (hr : Rest rest) (h : Done kw rest s) (q : Spec) (again : P → P × Str) :
    ∃ s' kw', endL (⟨q, false, s⟩, kw) again = (⟨q, false, s'⟩, kw') ∧ Done kw' rest s' := by
  unfold endL
  by_cases hk : kw = []
  · subst hk
    have ha : At rest s := by
      rcases h with h | ⟨w, t, us, rfl, ht, h1, h2, _⟩
      · exact h.2
      · rw [← h1] at h2; exact absurd rfl (keywords_ne _ h2)
    have := comma_end hr ha
    refine ⟨_, [], ?_, .inl ⟨rfl, this.2⟩⟩
    rw [if_neg (by simp)]
    simp only
    rw [if_neg (by rw [this.1]; simp)]
  · exact ⟨s, kw, by rw [if_pos ⟨rfl, hk⟩], h⟩

theorem done_comma {kw : Str} {us : List Tok} {s : IS} (h : Done kw (.p (ch ',') :: us) s) (q : Spec) (again : P → P × Str) :
    ∃ s', endL (⟨q, false, s⟩, kw) again = again ⟨q, false, s'⟩ ∧ At us s' := by
  obtain ⟨rfl, ha⟩ := h.comma
  obtain ⟨r, h1, h2⟩ := read_char_p ha (by decide)
  refine ⟨⟨r, true⟩, ?_, .inl ⟨rfl, h2⟩⟩
  unfold endL
  rw [if_neg (by simp)]
  simp only [h1]
  rw [if_pos (by simp)]

theorem select_item {i : Item} {ts rest : List Tok} {s : IS} (x : Spec) (h : ItemW i ts) (hn : Next rest) (ha : At (ts ++ rest) s) :
    ∃ s1 kw, selOpts (selItem ⟨x, false, s⟩).1 (selItem ⟨x, false, s⟩).2 = (⟨updSel x i, false, s1⟩, kw) ∧ Done kw rest s1 := by
  obtain ⟨ts1, a, b, rfl, h1, h2, h3⟩ := item_run h
  rw [List.append_assoc, List.append_assoc] at ha
  obtain ⟨s', g1, g2⟩ := h3 rest s x hn ha
  rw [g1]
  exact opts_run h1 h2 rest hn s' _ _ g2

theorem selectL_eq (f : Nat) (p : P) : selectL (f + 1) p = endL (selOpts (selItem p).1 (selItem p).2) (selectL f) := rfl

theorem select_run {l : List Item} {ts : List Tok} (h : SepBy ItemW l ts) (rest : List Tok) (f : Nat) (s : IS) (x : Spec) (hrest : Rest rest)
    (hf : ts.length < f) (ha : At (ts ++ rest) s) : ∃ s' kw, selectL f ⟨x, false, s⟩ = (⟨l.foldl updSel x, false, s'⟩, kw) ∧ Done kw rest s' := by
  have hp : ∀ (l : List Item) x, PreAll updSel (fun _ _ => True) l x := by
    intro l; induction l with
    | nil => intro x; trivial
    | cons a l ih => intro x; exact ⟨trivial, ih _⟩
  refine loop_run selectL ItemW updSel (fun _ _ => True) ?_ ?_ h rest f s x hrest hf ha (hp l x)
  · intro a ts us f s x h ha _
    obtain ⟨s1, kw, h1, h2⟩ := select_item x h (.inr ⟨us, rfl⟩) ha
    rw [selectL_eq, h1]
    exact done_comma h2 _ _
  · intro a ts rest f s x h hr ha _
    obtain ⟨s1, kw, h1, h2⟩ := select_item x h (.inl hr) ha
    rw [selectL_eq, h1]
    exact done_end hr h2 _ _

/-! ### ORDER BY -/

def updSort (x : Spec) (a : Str × Option Bool) : Spec := { x with sortSel := .list, sort := x.sort ++ [⟨a.1, a.2.getD false⟩] }

theorem sort_item {a : Str × Option Bool} {ts rest : List Tok} {s : IS} (f : Nat) (x : Spec) (h : SortW a ts) (hn : Next rest)
    (ha : At (ts ++ rest) s) : ∃ s1 kw, sortL (f + 1) ⟨x, false, s⟩ = endL (⟨updSort x a, false, s1⟩, kw) (sortL f) ∧ Done kw rest s1 := by
  obtain ⟨n, o⟩ := a
  obtain ⟨t1, t2, rfl, ⟨t, rfl, ht⟩, ho⟩ := h
  simp only [List.append_assoc, List.cons_append, List.nil_append] at ha
  have hkw : ∀ d : Bool, (∃ w, Word sep0 w t2 ∧ lower w = str (if d then "desc" else "asc")) → o = some d →
      ∃ s1 kw, sortL (f + 1) ⟨x, false, s⟩ = endL (⟨updSort x (n, o), false, s1⟩, kw) (sortL f) ∧ Done kw rest s1 := by
    rintro d ⟨w, ⟨t', rfl, ht'⟩, hw⟩ rfl
    obtain ⟨s1, h1, h2⟩ := read_word ha ht trivial
    obtain ⟨s2, h3, h4⟩ := read_word h2 ht' hn.follow
    refine ⟨s2, [], ?_, .inl ⟨rfl, h4⟩⟩
    rw [sortL]
    simp only [h1, h3]
    rw [if_neg (text_ne ht), hw]
    cases d with
    | false => rfl
    | true => rfl
  cases o with
  | none =>
    obtain rfl : t2 = [] := ho
    obtain ⟨s1, h1, h2⟩ := read_word ha ht hn.follow
    obtain ⟨w, s2, h3, h4⟩ := kw_run hn h2
    refine ⟨s2, lower w, ?_, h4⟩
    rw [sortL]
    simp only [h1, h3]
    rw [if_neg (text_ne ht)]
    have e1 : lower w ≠ str "asc" := h4.ne (by decide)
    have e2 : lower w ≠ str "desc" := h4.ne (by decide)
    simp only [if_neg e1, if_neg e2]
    unfold endL
    by_cases hk : lower w = []
    · rw [if_neg (show ¬(lower w ≠ [] ∧ lower w ≠ str "asc" ∧ lower w ≠ str "desc") from fun h => h.1 hk)]
      simp only
      rw [if_neg (show ¬(True ∧ lower w ≠ []) from fun h => h.2 hk)]
      rfl
    · rw [if_pos (show lower w ≠ [] ∧ lower w ≠ str "asc" ∧ lower w ≠ str "desc" from ⟨hk, e1, e2⟩)]
      simp only
      rw [if_pos (show True ∧ lower w ≠ [] from ⟨trivial, hk⟩)]
      rfl
  | some d =>
    refine hkw d ?_ rfl
    cases d with
    | false => exact ho
    | true => exact ho

theorem sort_run {l : List (Str × Option Bool)} {ts : List Tok} (h : SepBy SortW l ts) (rest : List Tok) (f : Nat) (s : IS) (x : Spec)
    (hrest : Rest rest) (hf : ts.length < f) (ha : At (ts ++ rest) s) :
    ∃ s' kw, sortL f ⟨x, false, s⟩ = (⟨l.foldl updSort x, false, s'⟩, kw) ∧ Done kw rest s' := by
  have hp : ∀ (l : List (Str × Option Bool)) x, PreAll updSort (fun _ _ => True) l x := by
    intro l; induction l with
    | nil => intro x; trivial
    | cons a l ih => intro x; exact ⟨trivial, ih _⟩
  refine loop_run sortL SortW updSort (fun _ _ => True) ?_ ?_ h rest f s x hrest hf ha (hp l x)
  · intro a ts us f s x h ha _
    obtain ⟨s1, kw, h1, h2⟩ := sort_item f x h (.inr ⟨us, rfl⟩) ha
    rw [h1]
    exact done_comma h2 _ _
  · intro a ts rest f s x h hr ha _
    obtain ⟨s1, kw, h1, h2⟩ := sort_item f x h (.inl hr) ha
    rw [h1]
    exact done_end hr h2 _ _

/-! ### LET -/

def WLet.spec (x : WLet) : LetSpec := ⟨x.target, x.op, x.args, match x.cond with | none => ⟨.none, [], []⟩ | some c => c.cond⟩
def updLet (x : Spec) (a : WLet) : Spec := { x with lets := x.lets ++ [a.spec] }

theorem let_item {a : WLet} {ts rest : List Tok} {s : IS} (f : Nat) (x : Spec) (h : LetW a ts) (hn : Next rest) (ha : At (ts ++ rest) s)
    (hnew : ∀ l ∈ x.lets, l.target ≠ a.target) :
    ∃ s1 kw, letL (f + 1) ⟨x, false, s⟩ = endL (⟨updLet x a, false, s1⟩, kw) (letL f) ∧ Done kw rest s1 := by
  obtain ⟨t1, t2, rfl, ⟨t, rfl, ht⟩, us, rfl, c1, c2, rfl, hcall, hcond⟩ := h
  simp only [List.append_assoc, List.cons_append, List.nil_append] at ha
  obtain ⟨s1, h1, h2⟩ := read_word ha ht (show Follow sep0 (.p (ch '=') :: _) from .inr ⟨by decide, by decide, by decide⟩)
  obtain ⟨r, h3, h4⟩ := read_char_p h2 (by decide)
  have hok : Ok (c2 ++ rest) ∧ ∀ c us, c2 ++ rest = .p c :: us → c = ch ',' := by
    cases hc : a.cond with
    | none => rw [hc] at hcond; obtain rfl : c2 = [] := hcond; exact ⟨hn.ok, hn.comma⟩
    | some c =>
      rw [hc] at hcond
      obtain ⟨b1, b2, rfl, ⟨w, ⟨t', rfl, ht'⟩, hw⟩, _⟩ := hcond
      constructor
      · intro x us hx; cases hx; exact ⟨w, ht'⟩
      · intro c us hx; cases hx
  obtain ⟨o, s2, s3, g1, g2, g3, g4, g5⟩ := call_run let_unique hcall (c2 ++ rest) hok.1 hok.2 ⟨r, true⟩ (.inl ⟨rfl, h4⟩)
  have hbad : decide (a.op.min > a.args.length ∨ a.op.max < a.args.length) = false := by simpa using g5
  have hdup : (x.lets.any fun l => decide (l.target = a.target)) = false := by
    rw [List.any_eq_false]
    intro l hl
    simpa using hnew l hl
  have key : ∃ s1 kw, (let t := readWord sep0 s3
      let kw := lower t.1
      let c := if kw = str "if" then filterClause t.2 else (⟨.none, [], []⟩, false, t.2)
      let kw := if kw = str "if" then [] else kw
      (c, kw)) = ((a.spec.cond, false, s1), kw) ∧ Done kw rest s1 := by
    cases hc : a.cond with
    | none =>
      rw [hc] at hcond
      obtain rfl : c2 = [] := hcond
      obtain ⟨w, s', e1, e2⟩ := kw_run hn (by simpa using g4)
      refine ⟨s', lower w, ?_, e2⟩
      have e3 : lower w ≠ str "if" := e2.ne (by decide)
      simp only [e1, if_neg e3]
      unfold WLet.spec
      rw [hc]
    | some c =>
      rw [hc] at hcond
      obtain ⟨b1, b2, rfl, ⟨w, ⟨t', rfl, ht'⟩, hw⟩, hcw⟩ := hcond
      simp only [List.append_assoc, List.cons_append, List.nil_append] at g4
      have hfol : Follow sep0 (b2 ++ rest) := by
        obtain ⟨x1, x2, rfl, hx, y1, y2, rfl, ⟨ty, rfl, _⟩, _⟩ := hcw
        cases hg : c.neg with
        | true => rw [hg] at hx; obtain ⟨w, ⟨t, rfl, _⟩, _⟩ := hx; trivial
        | false => rw [hg] at hx; obtain ⟨rfl, _⟩ := hx; trivial
      obtain ⟨s4, e1, e2⟩ := read_word g4 ht' hfol
      obtain ⟨s5, e3, e4⟩ := filter_run hcw rest hn s4 e2
      refine ⟨s5, [], ?_, .inl ⟨rfl, e4⟩⟩
      simp only [e1, if_pos hw, e3]
      unfold WLet.spec
      rw [hc]
  obtain ⟨s4, kw, k1, k2⟩ := key
  refine ⟨s4, kw, ?_, k2⟩
  simp only [Prod.mk.injEq] at k1
  obtain ⟨k1, k3⟩ := k1
  rw [letL]
  simp only [h1, h3]
  rw [if_neg (by simp)]
  simp only [g1, g2, g3, hbad, hdup, Bool.or_false]
  rw [if_neg (by simp)]
  simp only [k1, k3, Bool.or_false, if_true]
  unfold endL
  simp only
  rfl

def Fresh (a : WLet) (x : Spec) : Prop := ∀ l ∈ x.lets, l.target ≠ a.target

theorem fresh_all (l : List WLet) (x : Spec) (h : ((x.lets ++ l.map WLet.spec).map LetSpec.target).Nodup) : PreAll updLet Fresh l x := by
  induction l generalizing x with
  | nil => trivial
  | cons a l ih =>
    refine ⟨?_, ih _ (by simpa [updLet] using h)⟩
    intro b hb hab
    simp only [List.map_append, List.map_cons, List.nodup_append] at h
    exact h.2.2 b.target (List.mem_map_of_mem hb) a.target (by simp [WLet.spec]) hab

theorem let_run {l : List WLet} {ts : List Tok} (h : SepBy LetW l ts) (rest : List Tok) (f : Nat) (s : IS) (x : Spec)
    (hrest : Rest rest) (hf : ts.length < f) (ha : At (ts ++ rest) s) (hp : ((x.lets ++ l.map WLet.spec).map LetSpec.target).Nodup) :
    ∃ s' kw, letL f ⟨x, false, s⟩ = (⟨l.foldl updLet x, false, s'⟩, kw) ∧ Done kw rest s' := by
  refine loop_run letL LetW updLet Fresh ?_ ?_ h rest f s x hrest hf ha (fresh_all l x hp)
  · intro a ts us f s x h ha hp
    obtain ⟨s1, kw, h1, h2⟩ := let_item f x h (.inr ⟨us, rfl⟩) ha hp
    rw [h1]
    exact done_comma h2 _ _
  · intro a ts rest f s x h hr ha hp
    obtain ⟨s1, kw, h1, h2⟩ := let_item f x h (.inl hr) ha hp
    rw [h1]
    exact done_end hr h2 _ _

/-! ### FORMAT -/

theorem keyval_pos {v : Str} (h0 : v ≠ []) (h : Simple v) : getKeyval v = ([], v) := by
  have ht : IsText [ch '='] v v := ⟨h0, .inr ⟨rfl, fun c hc => ⟨(h c hc).1, (h c hc).2.1, (h c hc).2.2.2.2, by simpa using (h c hc).2.2.1⟩⟩⟩
  have := readWord_text ht [] [] (by simp) (.inl rfl)
  simp only [List.nil_append, List.append_nil] at this
  unfold getKeyval
  simp only [this]
  rfl

theorem keyval_kv {k v : Str} (h0 : k ≠ []) (hk : Simple k) (hv : Simple v) : getKeyval (k ++ ch '=' :: v) = (k, v) := by
  have ht : IsText [ch '='] k k := ⟨h0, .inr ⟨rfl, fun c hc => ⟨(hk c hc).1, (hk c hc).2.1, (hk c hc).2.2.2.2, by simpa using (hk c hc).2.2.1⟩⟩⟩
  have h1 := readWord_text ht [] (ch '=' :: v) (by simp) (.inr ⟨_, _, rfl, by decide, by decide, by decide⟩)
  simp only [List.nil_append, List.isEmpty_cons, Bool.not_false] at h1
  have h2 : (readWord [ch ','] ⟨v, true⟩).1 = v := by
    by_cases hv0 : v = []
    · subst hv0; rfl
    · have ht : IsText [ch ','] v v := ⟨hv0, .inr ⟨rfl, fun c hc => ⟨(hv c hc).1, (hv c hc).2.1, (hv c hc).2.2.2.2, by simpa using (hv c hc).2.2.2.1⟩⟩⟩
      have := readWord_text ht [] [] (by simp) (.inl rfl)
      simp only [List.nil_append, List.append_nil] at this
      rw [this]
  unfold getKeyval
  simp only [h1]
  have h3 : readChar ⟨ch '=' :: v, true⟩ = (ch '=', ⟨v, true⟩) := rfl
  rw [h3]
  simp only [if_true, h2]

/-- the pairs of the arguments from position `i` on -/
def pairsFrom (d : Sig) (i : Nat) : List KArg → List (Str × Str)
  | [] => []
  | a :: l => a.pair d i :: pairsFrom d (i + 1) l

theorem pairsFrom_eq (d : Sig) (l : List KArg) (i : Nat) : pairsFrom d i l = l.mapIdx fun j a => a.pair d (i + j) := by
  induction l generalizing i with
  | nil => rfl
  | cons a l ih =>
    rw [pairsFrom, ih, List.mapIdx_cons]
    congr 2
    funext j a
    rw [show i + 1 + j = i + (j + 1) by omega]

theorem kwargs_run {d : Sig} (hd : ∀ k ∈ d.args, k ≠ []) {l : List KArg} {ws : List Str} (h : List.Forall₂ (KArg.word d) l ws) (hw : ∀ w ∈ ws, w ≠ []) (i : Nat)
    (m : List (Str × Str)) : kwargsL d i ws m = ((pairsFrom d i l).foldl (fun m x => mapSet m x.1 x.2) m, false) := by
  induction h generalizing i m with
  | nil => rfl
  | @cons a w l ws ha _ ih =>
    have hw0 := hw w (by simp)
    have ih := fun i m => ih (fun w hw' => hw w (by simp [hw'])) i m
    rw [kwargsL, pairsFrom, List.foldl_cons, ← ih]
    cases a with
    | pos v =>
      obtain ⟨rfl, hs, hn⟩ := ha
      simp only [keyval_pos hw0 hs, if_true]
      rw [if_neg hn]; rfl
    | flag v =>
      obtain ⟨rfl, hs, hn⟩ := ha
      simp only [keyval_pos hw0 hs, if_true]
      rw [if_pos hn]; rfl
    | kv k v =>
      obtain ⟨rfl, hk, hv, hn⟩ := ha
      have hk0 := hd k hn
      simp only [keyval_kv hk0 hk hv]
      rw [if_neg hk0, if_pos hn]; rfl

theorem fmt_args : ∀ d ∈ fmtDefs, ∀ k ∈ d.args, k ≠ [] := by decide +kernel

def kwargsOf (d : Sig) (l : List KArg) : List (Str × Str) := (l.mapIdx fun i a => a.pair d i).foldl (fun m x => mapSet m x.1 x.2) []

theorem sepBy_ne {sep : Str} {l : List Str} {ts : List Tok} (h : SepBy (Word sep) l ts) : ∀ w ∈ l, w ≠ [] := by
  induction h with
  | one h => obtain ⟨t, _, ht⟩ := h; intro w hw; simp only [List.mem_singleton] at hw; subst hw; exact text_ne ht
  | cons h _ ih =>
    obtain ⟨t, _, ht⟩ := h
    intro w hw
    rcases List.mem_cons.1 hw with rfl | hw
    · exact text_ne ht
    · exact ih w hw

theorem callOpt_ne {defs : List Sig} {d : Sig} {args : List Str} {ts : List Tok} (h : CallOpt defs d args ts) : d ∈ defs ∧ ∀ w ∈ args, w ≠ [] := by
  rcases h with ⟨hd, _, _, t1, t2, rfl, _, us, rfl, h⟩ | ⟨hd, _, rfl, _⟩
  · refine ⟨hd, ?_⟩
    rcases h with ⟨rfl, _⟩ | h
    · simp
    · exact sepBy_ne h
  · exact ⟨hd, by simp⟩

theorem format_run {d : Sig} {l : List KArg} {ws : List Str} {ts : List Tok} (hl : List.Forall₂ (KArg.word d) l ws) (h : CallOpt fmtDefs d ws ts)
    (rest : List Tok) (s : IS) (x : Spec) (hrest : Rest rest) (ha : At (ts ++ rest) s) :
    ∃ s', format ⟨x, false, s⟩ = ⟨{ x with fmt := some (d, kwargsOf d l) }, false, s'⟩ ∧ At rest s' := by
  have hn : Next rest := .inl hrest
  obtain ⟨w, s1, s2, h1, h2, h3, h4, h5⟩ := call_run fmt_unique h rest hn.ok hn.comma s ha
  obtain ⟨hd, hw⟩ := callOpt_ne h
  refine ⟨s2, ?_, h4⟩
  unfold format
  simp only [h1, h2, h3]
  rw [if_neg h5]
  unfold makeKwargs
  rw [List.take_of_length_le (by omega), kwargs_run (fmt_args d hd) hl hw, pairsFrom_eq]
  simp only [Nat.zero_add]
  rfl

end Verif.Query.CalQL
