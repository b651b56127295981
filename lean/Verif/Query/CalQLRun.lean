import Verif.Query.CalQLLemmas
/-!
# The parser on written queries
-/
namespace Verif.Query.CalQL
open Verif Verif.Cali Verif.Parse

/-! ### argument lists -/

theorem followA (c : Byte) (ts : List Tok) (h : c = ch ',' ∨ c = ch ')') : Follow sepA (.p c :: ts) := by
  rcases h with rfl | rfl <;> exact .inr ⟨by decide, by decide, by decide⟩

theorem follow0 {ts : List Tok} (h : ∀ c us, ts = .p c :: us → c = ch '*' ∨ c ∈ str ",=<>()") : Follow sep0 ts := by
  cases ts with
  | nil => trivial
  | cons x ts =>
    cases x with
    | w t => trivial
    | p c =>
      rcases h c ts rfl with h | h
      · exact .inl h
      · have : ∀ c ∈ str ",=<>()", sep0.contains c = true ∧ c ≠ ch '\\' ∧ c ≠ ch '"' := by decide
        exact .inr (this c h)

theorem text_ne {sep w t : Str} (h : IsText sep w t) : w ≠ [] := h.1

theorem argsL_run {args : List Str} {us : List Tok} (h : SepBy (Word sepA) args us) (rest : List Tok) (s : IS) (ret : List Str) (f : Nat)
    (hf : us.length < f) (ha : At (us ++ .p (ch ')') :: rest) s) : ∃ r, argsL f s ret = (ret ++ args, ch ')', ⟨r, true⟩) ∧ Lay rest r := by
  induction h generalizing s ret f with
  | @one w ts hw =>
    obtain ⟨t, rfl, ht⟩ := hw
    cases f with
    | zero => omega
    | succ f =>
      obtain ⟨s', h1, h2⟩ := read_word ha ht (followA _ _ (.inr rfl))
      obtain ⟨r, h3, h4⟩ := read_char_p h2 (by decide)
      refine ⟨r, ?_, h4⟩
      rw [argsL]
      simp only [h1, h3]
      simp [text_ne ht, show ¬ ch ')' = ch ',' by decide]
  | @cons w l ts us hw _ ih =>
    obtain ⟨t, rfl, ht⟩ := hw
    cases f with
    | zero => omega
    | succ f =>
      rw [List.append_assoc, List.cons_append] at ha
      obtain ⟨s', h1, h2⟩ := read_word ha ht (followA _ _ (.inl rfl))
      obtain ⟨r, h3, h4⟩ := read_char_p h2 (by decide)
      have hl : us.length < f := by simp at hf; omega
      obtain ⟨r', h5, h6⟩ := ih ⟨r, true⟩ (ret ++ [w]) f hl (.inl ⟨rfl, h4⟩)
      refine ⟨r', ?_, h6⟩
      rw [argsL]
      simp only [h1, h3]
      simp [text_ne ht, h5]

theorem parseArgs_run {args : List Str} {ts : List Tok} (h : Args args ts) (rest : List Tok) (s : IS) (ha : At (ts ++ rest) s) :
    ∃ r, parseArgs s = (args, false, ⟨r, true⟩) ∧ Lay rest r := by
  obtain ⟨us, rfl, h⟩ := h
  rw [List.cons_append, List.append_assoc] at ha
  obtain ⟨r, h1, h2⟩ := read_char_p ha (by decide)
  have key : ∃ r', argsL (r.length + 1) ⟨r, true⟩ [] = (args, ch ')', ⟨r', true⟩) ∧ Lay rest r' := by
    have hlen := lay_length h2
    rcases h with ⟨rfl, rfl⟩ | h
    · have ha' : At (.p (ch ')') :: rest) ⟨r, true⟩ := .inl ⟨rfl, h2⟩
      obtain ⟨s', h3, h4⟩ := read_word_p (sep := sepA) ha' (by decide) (by decide) (by decide) (by decide)
      obtain ⟨r', h5, h6⟩ := read_char_p h4 (by decide)
      refine ⟨r', ?_, h6⟩
      rw [argsL]
      simp only [h3, h5]
      simp [show ¬ ch ')' = ch ',' by decide]
    · have := argsL_run h rest ⟨r, true⟩ [] (r.length + 1) (by simp at hlen; omega) (.inl ⟨rfl, h2⟩)
      simpa using this
  obtain ⟨r', h3, h4⟩ := key
  refine ⟨r', ?_, h4⟩
  unfold parseArgs
  simp only [h1]
  simp [h3]

/-- tokens that can be looked at: words in the usual form -/
def Ok (ts : List Tok) : Prop := ∀ x us, ts = x :: us → match x with
  | .w t => ∃ w, IsText sep0 w t
  | .p c => isSpace c = false

/-- what looking ahead gives -/
def Ahead (c : Byte) : List Tok → Prop
  | [] => c = eofc
  | .w _ :: _ => sep0.contains c = false
  | .p d :: _ => c = d

theorem peek {ts : List Tok} {s : IS} (ho : Ok ts) (h : At ts s) :
    ∃ c s', readChar s = (c, s') ∧ Ahead c ts ∧ At ts (s'.unget c) ∧ (s'.good = false → At ts s') := by
  cases ts with
  | nil => rw [read_char_end h]; exact ⟨_, _, rfl, rfl, at_end, fun _ => at_end⟩
  | cons x us =>
    cases x with
    | p d =>
      have hd : isSpace d = false := ho _ _ rfl
      obtain ⟨r, h1, h2⟩ := read_char_p h hd
      exact ⟨d, _, h1, rfl, .inl ⟨rfl, Lay.p (ws := []) (by intro x hx; cases hx) h2⟩, by simp⟩
    | w t =>
      obtain ⟨w, hw⟩ : ∃ w, IsText sep0 w t := ho _ _ rfl
      obtain ⟨c, cs, rfl, hc, hx⟩ := text_head hw
      obtain ⟨r, h1, h2⟩ := read_char_w h hc
      refine ⟨c, _, h1, ?_, .inl ⟨rfl, h2⟩, by simp⟩
      rcases hx with rfl | ⟨hx, _⟩
      · show sep0.contains _ = false; decide
      · exact hx

/-- no argument list follows -/
theorem parseArgs_none {ts : List Tok} {s : IS} (ho : Ok ts) (hn : ∀ us, ts ≠ .p (ch '(') :: us) (h : At ts s) :
    ∃ s', parseArgs s = ([], false, s') ∧ At ts s' := by
  obtain ⟨c, s', h1, h2, h3, h4⟩ := peek ho h
  have hc : c ≠ ch '(' := by
    cases ts with
    | nil => rw [show c = eofc from h2]; decide
    | cons x us =>
      cases x with
      | w t => rintro rfl; exact absurd (show sep0.contains (ch '(') = false from h2) (by decide)
      | p d =>
        rintro rfl
        have : ch '(' = d := h2
        exact hn us (by rw [this])
  unfold parseArgs
  simp only [h1]
  cases hg : s'.good with
  | false => exact ⟨s', by simp, h4 hg⟩
  | true => exact ⟨s'.unget c, by simp [hc], h3⟩

/-- what follows an item of a list -/
def Next (ts : List Tok) : Prop := Rest ts ∨ ∃ us, ts = .p (ch ',') :: us

theorem Next.ok {ts : List Tok} (h : Next ts) : Ok ts := by
  intro x us hx
  rcases h with (rfl | ⟨w, t, vs, rfl, ht, _⟩) | ⟨vs, rfl⟩
  · cases hx
  · cases hx; exact ⟨w, ht⟩
  · cases hx; show isSpace (ch ',') = false; decide

theorem Next.follow {ts : List Tok} (h : Next ts) : Follow sep0 ts := by
  refine follow0 fun c us hx => ?_
  rcases h with (rfl | ⟨w, t, vs, rfl, ht, _⟩) | ⟨vs, rfl⟩
  · cases hx
  · cases hx
  · cases hx; exact .inr (by decide)

theorem Next.followU {ts : List Tok} (h : Next ts) : Follow sepU ts := by
  rcases h with (rfl | ⟨w, t, vs, rfl, ht, _⟩) | ⟨vs, rfl⟩
  · trivial
  · trivial
  · exact .inr ⟨by decide, by decide, by decide⟩

/-- the keyword read ahead, if any -/
def Done (kw : Str) (rest : List Tok) (s : IS) : Prop :=
  (kw = [] ∧ At rest s) ∨ ∃ w t us, rest = .w t :: us ∧ IsText sep0 w t ∧ kw = lower w ∧ lower w ∈ keywords ∧ At us s

theorem next_comma {us : List Tok} {p : P} (h : At (.p (ch ',') :: us) p.is) (he : p.err = false) (again : P → P) :
    ∃ s', next p again = again { p with is := s' } ∧ At us s' := by
  obtain ⟨r, h1, h2⟩ := read_char_p h (by decide)
  refine ⟨⟨r, true⟩, ?_, .inl ⟨rfl, h2⟩⟩
  unfold next
  simp only [h1]
  simp [he]

theorem comma_end {rest : List Tok} {s : IS} (hr : Rest rest) (h : At rest s) :
    ((readChar s).2.good = true ∧ (readChar s).1 = ch ',') = False ∧
    At rest (if (readChar s).1 ≠ 0 then (readChar s).2.unget (readChar s).1 else (readChar s).2) := by
  obtain ⟨c, s', h1, h2, h3, h4⟩ := rest_char hr h
  have hc : c ≠ ch ',' := by rintro rfl; revert h3; decide
  rw [h1]
  refine ⟨by simp [hc], ?_⟩
  simp only
  rw [if_pos h2]
  exact h4

theorem next_rest {rest : List Tok} {p : P} (hr : Rest rest) (h : At rest p.is) (again : P → P) :
    ∃ s', next p again = { p with is := s' } ∧ At rest s' := by
  have := comma_end hr h
  refine ⟨_, ?_, this.2⟩
  unfold next
  simp only
  rw [if_neg (by rw [this.1]; simp)]

/-! ### loops -/

/-- the conditions hold when the items are processed in order -/
def PreAll {α : Type} (upd : Spec → α → Spec) (Pre : α → Spec → Prop) : List α → Spec → Prop
  | [], _ => True
  | a :: l, s => Pre a s ∧ PreAll upd Pre l (upd s a)

theorem loop_run {α : Type} (L : Nat → P → P × Str) (R : α → List Tok → Prop) (upd : Spec → α → Spec) (Pre : α → Spec → Prop)
    (hc : ∀ a ts us f s x, R a ts → At (ts ++ .p (ch ',') :: us) s → Pre a x → ∃ s', L (f + 1) ⟨x, false, s⟩ = L f ⟨upd x a, false, s'⟩ ∧ At us s')
    (hr : ∀ a ts rest f s x, R a ts → Rest rest → At (ts ++ rest) s → Pre a x → ∃ s' kw, L (f + 1) ⟨x, false, s⟩ = (⟨upd x a, false, s'⟩, kw) ∧ Done kw rest s')
    {l : List α} {ts : List Tok} (h : SepBy R l ts) (rest : List Tok) (f : Nat) (s : IS) (x : Spec) (hrest : Rest rest) (hf : ts.length < f)
    (ha : At (ts ++ rest) s) (hp : PreAll upd Pre l x) : ∃ s' kw, L f ⟨x, false, s⟩ = (⟨l.foldl upd x, false, s'⟩, kw) ∧ Done kw rest s' := by
  induction h generalizing f s x with
  | one hw =>
    cases f with
    | zero => omega
    | succ f => exact hr _ _ _ f s x hw hrest ha hp.1
  | cons hw _ ih =>
    cases f with
    | zero => omega
    | succ f =>
      rw [List.append_assoc, List.cons_append] at ha
      obtain ⟨s', h1, h2⟩ := hc _ _ _ f s x hw ha hp.1
      rw [h1]
      exact ih f s' _ (by simp at hf; omega) h2 hp.2

/-- loops that end with `next` -/
theorem next_loop {α : Type} (L : Nat → P → P) (item : P → P) (R : α → List Tok → Prop) (upd : Spec → α → Spec)
    (hL : ∀ f p, L (f + 1) p = next (item p) (L f))
    (hi : ∀ a ts rest s x, R a ts → Next rest → At (ts ++ rest) s → ∃ s', item ⟨x, false, s⟩ = ⟨upd x a, false, s'⟩ ∧ At rest s')
    {l : List α} {ts : List Tok} (h : SepBy R l ts) (rest : List Tok) (f : Nat) (s : IS) (x : Spec) (hrest : Rest rest) (hf : ts.length < f)
    (ha : At (ts ++ rest) s) : ∃ s', L f ⟨x, false, s⟩ = ⟨l.foldl upd x, false, s'⟩ ∧ At rest s' := by
  induction h generalizing f s x with
  | one hw =>
    cases f with
    | zero => omega
    | succ f =>
      obtain ⟨s', h1, h2⟩ := hi _ _ rest s x hw (.inl hrest) ha
      rw [hL, h1]
      exact next_rest (p := ⟨_, false, s'⟩) hrest h2 _
  | cons hw _ ih =>
    cases f with
    | zero => omega
    | succ f =>
      rw [List.append_assoc, List.cons_append] at ha
      obtain ⟨s', h1, h2⟩ := hi _ _ _ s x hw (.inr ⟨_, rfl⟩) ha
      rw [hL, h1]
      obtain ⟨s2, h3, h4⟩ := next_comma (p := ⟨_, false, s'⟩) h2 rfl (L f)
      rw [h3]
      exact ih f s2 _ (by simp at hf; omega) h4

/-! ### functions -/

theorem findDef_of {w : Str} {d : Sig} {defs : List Sig} (hw : w ≠ []) (hd : d ∈ defs) (hn : lower w = d.name)
    (hu : ∀ d ∈ defs, (defs.find? fun x => decide (d.name = x.name)) = some d) : findDef w defs = some d := by
  unfold findDef
  rw [if_neg hw, hn]
  exact hu d hd

theorem agg_unique : ∀ d ∈ aggDefs, (aggDefs.find? fun x => decide (d.name = x.name)) = some d := by decide +kernel
theorem fmt_unique : ∀ d ∈ fmtDefs, (fmtDefs.find? fun x => decide (d.name = x.name)) = some d := by decide +kernel
theorem let_unique : ∀ d ∈ letDefs, (letDefs.find? fun x => decide (d.name = x.name)) = some d := by decide +kernel

/-- a function name followed by an optional argument list -/
theorem call_run {defs : List Sig} (hu : ∀ d ∈ defs, (defs.find? fun x => decide (d.name = x.name)) = some d) {d : Sig} {args : List Str}
    {ts : List Tok} (h : CallOpt defs d args ts) (rest : List Tok) (ho : Ok rest) (hn : ∀ c us, rest = .p c :: us → c = ch ',') (s : IS)
    (ha : At (ts ++ rest) s) :
    ∃ w s1 s2, readWord sep0 s = (w, s1) ∧ findDef w defs = some d ∧ parseArgs s1 = (args, false, s2) ∧ At rest s2 ∧
      ¬(d.min > args.length ∨ d.max < args.length) := by
  rcases h with ⟨hd, hmin, hmax, ts1, ts2, rfl, ⟨w, ⟨t, rfl, ht⟩, hw⟩, hargs⟩ | ⟨hd, hmin, rfl, ⟨w, ⟨t, rfl, ht⟩, hw⟩⟩
  · rw [List.append_assoc] at ha
    have hfol : Follow sep0 (ts2 ++ rest) := by
      obtain ⟨us, rfl, _⟩ := hargs
      exact .inr ⟨by decide, by decide, by decide⟩
    obtain ⟨s1, h1, h2⟩ := read_word ha ht hfol
    obtain ⟨r, h3, h4⟩ := parseArgs_run hargs rest s1 h2
    exact ⟨w, s1, _, h1, findDef_of (text_ne ht) hd hw hu, h3, .inl ⟨rfl, h4⟩, by omega⟩
  · have hfol : Follow sep0 rest := follow0 fun c us hx => .inr (by rw [hn c us hx]; decide)
    obtain ⟨s1, h1, h2⟩ := read_word ha ht hfol
    obtain ⟨s2, h3, h4⟩ := parseArgs_none ho (fun us hx => absurd (hn _ _ hx) (by decide)) h2
    exact ⟨w, s1, s2, h1, findDef_of (text_ne ht) hd hw hu, h3, h4, by simp [hmin]⟩

theorem Next.comma {ts : List Tok} (h : Next ts) : ∀ c us, ts = .p c :: us → c = ch ',' := by
  intro c us hx
  rcases h with (rfl | ⟨w, t, vs, rfl, ht, _⟩) | ⟨vs, rfl⟩
  · cases hx
  · cases hx
  · cases hx; rfl

/-! ### AGGREGATE, GROUP BY, WHERE -/

def updAgg (x : Spec) (a : Sig × List Str) : Spec := { x with aggSel := .list, aggs := x.aggs ++ [a] }
def updGrp (x : Spec) (n : Str) : Spec := { x with grpSel := .list, grp := x.grp ++ [n] }
def updFil (x : Spec) (c : WCond) : Spec := { x with filSel := .list, fil := x.fil ++ [c.cond] }

theorem aggregate_run {l : List (Sig × List Str)} {ts : List Tok} (h : SepBy (fun x => CallOpt aggDefs x.1 x.2) l ts) (rest : List Tok) (f : Nat)
    (s : IS) (x : Spec) (hrest : Rest rest) (hf : ts.length < f) (ha : At (ts ++ rest) s) :
    ∃ s', aggregateL f ⟨x, false, s⟩ = ⟨l.foldl updAgg x, false, s'⟩ ∧ At rest s' := by
  refine next_loop aggregateL (fun p => addAgg { p with is := (parseArgs (readWord sep0 p.is).2).2.2, err := p.err || (parseArgs (readWord sep0 p.is).2).2.1 }
    (readWord sep0 p.is).1 (parseArgs (readWord sep0 p.is).2).1) _ updAgg (fun f p => rfl) ?_ h rest f s x hrest hf ha
  intro a ts rest s x hc hn ha
  obtain ⟨w, s1, s2, h1, h2, h3, h4, h5⟩ := call_run agg_unique hc rest hn.ok hn.comma s ha
  refine ⟨s2, ?_, h4⟩
  simp only [h1, h3]
  unfold addAgg
  rw [h2]
  simp only
  rw [if_neg h5]
  rfl

theorem groupby_run {l : List Str} {ts : List Tok} (h : SepBy (Word sep0) l ts) (rest : List Tok) (f : Nat)
    (s : IS) (x : Spec) (hrest : Rest rest) (hf : ts.length < f) (ha : At (ts ++ rest) s) :
    ∃ s', groupbyL f ⟨x, false, s⟩ = ⟨l.foldl updGrp x, false, s'⟩ ∧ At rest s' := by
  refine next_loop groupbyL (fun p => if (readWord sep0 p.is).1 ≠ [] then { p with is := (readWord sep0 p.is).2, spec := { p.spec with grpSel := .list, grp := p.spec.grp ++ [(readWord sep0 p.is).1] } } else { p with is := (readWord sep0 p.is).2 }) _ updGrp (fun f p => rfl) ?_ h rest f s x hrest hf ha
  intro a ts rest s x hw hn ha
  obtain ⟨t, rfl, ht⟩ := hw
  obtain ⟨s1, h1, h2⟩ := read_word ha ht hn.follow
  refine ⟨s1, ?_, h2⟩
  simp only [h1]
  rw [if_pos (text_ne ht)]
  rfl

/-- what follows a condition -/
theorem filter_run {c : WCond} {ts : List Tok} (h : CondW c ts) (rest : List Tok) (hn : Next rest) (s : IS) (ha : At (ts ++ rest) s) :
    ∃ s', filterClause s = (c.cond, false, s') ∧ At rest s' := by
  obtain ⟨a, b, rfl, hneg, b1, b2, rfl, ⟨t, rfl, ht⟩, hcmp⟩ := h
  have hfol : Follow sep0 (b2 ++ rest) := by
    cases hc : c.cmp with
    | none => rw [hc] at hcmp; simp only at hcmp; subst hcmp; exact hn.follow
    | some kv =>
      rw [hc] at hcmp
      obtain ⟨us, rfl, _⟩ := hcmp
      refine follow0 fun d vs hx => .inr ?_
      cases hx
      cases kv.1 <;> decide
  -- reading `[NOT] attr`
  have hhead : ∃ s1, (let r := readWord sep0 s
      let neg := decide (lower r.1 = str "not")
      (neg, if neg then readWord sep0 r.2 else r)) = (c.neg, (c.attr, s1)) ∧ At (b2 ++ rest) s1 := by
    cases hg : c.neg with
    | true =>
      rw [hg] at hneg
      obtain ⟨w, ⟨t', rfl, ht'⟩, hw⟩ := hneg
      simp only [List.cons_append, List.nil_append] at ha
      obtain ⟨s0, h1, h2⟩ := read_word ha ht' trivial
      obtain ⟨s1, h3, h4⟩ := read_word h2 ht hfol
      exact ⟨s1, by simp [h1, hw, h3], h4⟩
    | false =>
      rw [hg] at hneg
      obtain ⟨rfl, hw⟩ := hneg
      simp only [List.cons_append, List.nil_append] at ha
      obtain ⟨s1, h3, h4⟩ := read_word ha ht hfol
      exact ⟨s1, by simp [h3, hw], h4⟩
  obtain ⟨s1, h1, h2⟩ := hhead
  simp only [Prod.mk.injEq] at h1
  obtain ⟨hneg', hr⟩ := h1
  rw [hneg'] at hr
  unfold filterClause
  simp only [hneg', hr]
  rw [if_neg (text_ne ht)]
  cases hc : c.cmp with
  | none =>
    rw [hc] at hcmp
    simp only at hcmp
    subst hcmp
    rw [List.nil_append] at h2
    obtain ⟨ch', s2, h3, h4, h5, -⟩ := peek hn.ok h2
    have hno : ∀ d ∈ [ch '=', ch '<', ch '>'], ch' ≠ d := by
      intro d hd
      rcases hn with (rfl | ⟨w, t, vs, rfl, _⟩) | ⟨vs, rfl⟩
      · rw [show ch' = eofc from h4]; revert d; decide
      · rintro rfl
        have : sep0.contains ch' = false := h4
        have h' : ∀ d ∈ [ch '=', ch '<', ch '>'], sep0.contains d = true := by decide
        rw [h' _ hd] at this
        cases this
      · rw [show ch' = ch ',' from h4]; revert d; decide
    refine ⟨s2.unget ch', ?_, h5⟩
    simp only [h3]
    rw [if_neg (hno _ (by simp)), if_neg (hno _ (by simp)), if_neg (hno _ (by simp))]
    unfold WCond.cond
    rw [hc]
    cases c.neg <;> rfl
  | some kv =>
    obtain ⟨k, v⟩ := kv
    rw [hc] at hcmp
    obtain ⟨us, rfl, ⟨tv, rfl, htv⟩⟩ := hcmp
    rw [List.cons_append] at h2
    obtain ⟨r, h3, h4⟩ := read_char_p h2 (by cases k <;> decide)
    obtain ⟨s2, h5, h6⟩ := read_word (.inl ⟨rfl, h4⟩ : At _ ⟨r, true⟩) htv hn.follow
    refine ⟨s2, ?_, h6⟩
    simp only [h3]
    have hv := text_ne htv
    have arg : ∀ op, cmpArg ⟨r, true⟩ c.attr op = (⟨op, c.attr, v⟩, false, s2) := by
      intro op; unfold cmpArg; simp only [h5]; rw [if_neg hv]
    unfold WCond.cond
    rw [hc]
    cases k with
    | eq => rw [if_pos (show Cmp.eq.char = ch '=' from rfl), arg]; cases c.neg <;> rfl
    | lt => rw [if_neg (show ¬Cmp.lt.char = ch '=' by decide), if_pos (show Cmp.lt.char = ch '<' from rfl), arg]; cases c.neg <;> rfl
    | gt => rw [if_neg (show ¬Cmp.gt.char = ch '=' by decide), if_neg (show ¬Cmp.gt.char = ch '<' by decide), if_pos (show Cmp.gt.char = ch '>' from rfl), arg]; cases c.neg <;> rfl

theorem cond_op (c : WCond) : c.cond.op ≠ .none := by
  unfold WCond.cond
  rcases c with ⟨n, a, _ | ⟨k, v⟩⟩
  · cases n <;> simp
  · cases k <;> cases n <;> simp

theorem where_run {l : List WCond} {ts : List Tok} (h : SepBy CondW l ts) (rest : List Tok) (f : Nat)
    (s : IS) (x : Spec) (hrest : Rest rest) (hf : ts.length < f) (ha : At (ts ++ rest) s) :
    ∃ s', whereL f ⟨x, false, s⟩ = ⟨l.foldl updFil x, false, s'⟩ ∧ At rest s' := by
  refine next_loop whereL (fun p =>
    let r := filterClause p.is
    let p := { p with is := r.2.2, err := p.err || r.2.1 }
    if p.err = false ∧ r.1.op ≠ .none then { p with spec := { p.spec with filSel := .list, fil := p.spec.fil ++ [r.1] } } else p) _ updFil (fun f p => rfl) ?_ h rest f s x hrest hf ha
  intro a ts rest s x hw hn ha
  obtain ⟨s1, h1, h2⟩ := filter_run hw rest hn s ha
  refine ⟨s1, ?_, h2⟩
  simp only [h1]
  rw [if_pos ⟨rfl, cond_op a⟩]
  rfl

end Verif.Query.CalQL
