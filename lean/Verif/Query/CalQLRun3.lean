import Verif.Query.CalQLRun2
/-!
# The parser on written queries: clauses and whole queries
-/
namespace Verif.Query.CalQL
open Verif Verif.Cali Verif.Parse

/-- effects on the query -/
inductive Atom where
  | agg (a : Sig × List Str)
  | fmt (d : Sig) (l : List KArg)
  | grp (n : Str)
  | sel (i : Item)
  | sort (a : Str × Option Bool)
  | fil (c : WCond)
  | let_ (a : WLet)

def updAtom (x : Spec) : Atom → Spec
  | .agg a => updAgg x a
  | .fmt d l => { x with fmt := some (d, kwargsOf d l) }
  | .grp n => updGrp x n
  | .sel i => updSel x i
  | .sort a => updSort x a
  | .fil c => updFil x c
  | .let_ a => updLet x a

def Clause.atoms : Clause → List Atom
  | .aggregate l => l.map .agg
  | .format d l => [.fmt d l]
  | .groupBy l => l.map .grp
  | .select l => l.map .sel
  | .orderBy l => l.map .sort
  | .wher l => l.map .fil
  | .lets l => l.map .let_

theorem letSpecs_eq (l : List WLet) : Clause.letSpecs (.lets l) = l.map WLet.spec := rfl

/-- no LET name of the clause has been defined -/
def PreC (c : Clause) (x : Spec) : Prop := ((x.lets ++ c.letSpecs).map LetSpec.target).Nodup

theorem lower_lower (w : Str) : lower (lower w) = lower w := by
  unfold lower
  rw [List.map_map]
  congr 1
  funext c
  have : ∀ c : Byte, toLower (toLower c) = toLower c := by decide +kernel
  exact this c

theorem follow_append {ts : List Tok} (h : Follow sep0 ts) (hn : ts ≠ []) (rest : List Tok) : Follow sep0 (ts ++ rest) := by
  cases ts with
  | nil => exact absurd rfl hn
  | cons x ts => cases x <;> exact h

theorem fn_follow {d : Sig} {ts : List Tok} (h : Fn d ts) : ∃ t, ts = [.w t] := by
  obtain ⟨w, ⟨t, rfl, _⟩, _⟩ := h
  exact ⟨t, rfl⟩

theorem call_follow {defs : List Sig} {d : Sig} {args : List Str} {ts : List Tok} (h : Call defs d args ts) : ∃ t us, ts = .w t :: us := by
  obtain ⟨_, _, _, t1, t2, rfl, h, _⟩ := h
  obtain ⟨t, rfl⟩ := fn_follow h
  exact ⟨t, _, rfl⟩

theorem callOpt_follow {defs : List Sig} {d : Sig} {args : List Str} {ts : List Tok} (h : CallOpt defs d args ts) : ∃ t us, ts = .w t :: us := by
  rcases h with h | ⟨_, _, _, h⟩
  · exact call_follow h
  · obtain ⟨t, rfl⟩ := fn_follow h
    exact ⟨t, _, rfl⟩

theorem cond_follow {c : WCond} {ts : List Tok} (h : CondW c ts) : ∃ t us, ts = .w t :: us := by
  obtain ⟨a, b, rfl, hneg, b1, b2, rfl, ⟨t, rfl, ht⟩, hcmp⟩ := h
  cases hg : c.neg with
  | true => rw [hg] at hneg; obtain ⟨w, ⟨t, rfl, _⟩, _⟩ := hneg; exact ⟨_, _, rfl⟩
  | false => rw [hg] at hneg; obtain ⟨rfl, _⟩ := hneg; exact ⟨_, _, rfl⟩

theorem item_follow {i : Item} {ts : List Tok} (h : ItemW i ts) : Follow sep0 ts ∧ ts ≠ [] := by
  cases i with
  | star => obtain rfl : ts = [.p (ch '*')] := h; exact ⟨.inl rfl, by simp⟩
  | attr a as un =>
    obtain ⟨_, ts1, ts2, rfl, ⟨t, rfl, ht⟩, _⟩ := h
    exact ⟨trivial, by simp⟩
  | call d args as un =>
    obtain ⟨ts1, ts2, rfl, h, _⟩ := h
    obtain ⟨t, us, rfl⟩ := call_follow h
    exact ⟨trivial, by simp⟩

theorem sepBy_follow {α : Type} {R : α → List Tok → Prop} (hR : ∀ a ts, R a ts → Follow sep0 ts ∧ ts ≠ []) {l : List α} {ts : List Tok} (h : SepBy R l ts) :
    Follow sep0 ts ∧ ts ≠ [] := by
  cases h with
  | one h => exact hR _ _ h
  | cons h _ =>
    obtain ⟨h1, h2⟩ := hR _ _ h
    exact ⟨follow_append h1 h2 _, by simp⟩

theorem w_follow {ts : List Tok} (h : ∃ t us, ts = .w t :: us) : Follow sep0 ts ∧ ts ≠ [] := by
  obtain ⟨t, us, rfl⟩ := h
  exact ⟨trivial, by simp⟩

theorem word_follow {w : Str} {ts : List Tok} (h : Word sep0 w ts) : ∃ t us, ts = .w t :: us := by
  obtain ⟨t, rfl, _⟩ := h
  exact ⟨t, _, rfl⟩

/-- the parser on a clause, after its keyword -/
def Runs (c : Clause) (w : Str) (us : List Tok) : Prop :=
  ∀ rest s x w', lower w' = lower w → Rest rest → At (us ++ rest) s → PreC c x →
    ∃ s' kw, clause ⟨x, false, s⟩ w' = (⟨c.atoms.foldl updAtom x, false, s'⟩, kw) ∧ Done kw rest s'

theorem clause_run {c : Clause} {ts : List Tok} (h : ClauseW c ts) :
    ∃ w t us, ts = .w t :: us ∧ IsText sep0 w t ∧ lower w ∈ keywords ∧ us ≠ [] ∧ Follow sep0 us ∧ Runs c w us := by
  cases c with
  | aggregate l =>
    obtain ⟨t1, us, rfl, ⟨w, ⟨t, rfl, ht⟩, hw⟩, hl⟩ := h
    obtain ⟨f1, f2⟩ := sepBy_follow (fun a ts h => w_follow (callOpt_follow h)) hl
    refine ⟨w, t, us, rfl, ht, by rw [hw]; decide, f2, f1, ?_⟩
    intro rest s x w' hw' hr ha _
    have hlen := ha.length
    rw [List.length_append] at hlen
    obtain ⟨s', h1, h2⟩ := aggregate_run hl rest (s.rest.length + 1) s x hr (by omega) ha
    refine ⟨s', [], ?_, .inl ⟨rfl, h2⟩⟩
    unfold clause
    simp only [hw', hw, if_true, h1, Clause.atoms, List.foldl_map]
    rfl
  | format d l =>
    obtain ⟨t1, us, rfl, ⟨w, ⟨t, rfl, ht⟩, hw⟩, ws, hl, hc⟩ := h
    obtain ⟨f1, f2⟩ := w_follow (callOpt_follow hc)
    refine ⟨w, t, us, rfl, ht, by rw [hw]; decide, f2, f1, ?_⟩
    intro rest s x w' hw' hr ha _
    obtain ⟨s', h1, h2⟩ := format_run hl hc rest s x hr ha
    refine ⟨s', [], ?_, .inl ⟨rfl, h2⟩⟩
    unfold clause
    simp only [hw', hw, h1, Clause.atoms]
    rw [if_neg (by decide), if_pos trivial]
    rfl
  | groupBy l =>
    obtain ⟨t1, us, rfl, ⟨t2, t3, rfl, ⟨w, ⟨t, rfl, ht⟩, hw⟩, ⟨w2, ⟨tb, rfl, htb⟩, hw2⟩⟩, hl⟩ := h
    obtain ⟨f1, f2⟩ := sepBy_follow (fun a ts h => w_follow (word_follow h)) hl
    refine ⟨w, t, _, rfl, ht, by rw [hw]; decide, by simp, trivial, ?_⟩
    intro rest s x w' hw' hr ha _
    have hlen := ha.length
    have ha : At (.w tb :: (us ++ rest)) s := ha
    have hlen : us.length + rest.length + 1 ≤ s.rest.length := by simpa using hlen
    obtain ⟨s1, g1, g2⟩ := read_word ha htb (follow_append f1 f2 _)
    obtain ⟨s', h1, h2⟩ := groupby_run hl rest (s.rest.length + 1) s1 x hr (by omega) g2
    refine ⟨s', [], ?_, .inl ⟨rfl, h2⟩⟩
    unfold clause
    simp only [hw', hw, Clause.atoms, List.foldl_map]
    rw [if_neg (by decide), if_neg (by decide), if_pos (by decide)]
    simp only [g1]
    rw [if_neg (by simp [hw2]), if_pos trivial, h1]
    rfl
  | select l =>
    obtain ⟨t1, us, rfl, ⟨w, ⟨t, rfl, ht⟩, hw⟩, hl⟩ := h
    obtain ⟨f1, f2⟩ := sepBy_follow (fun a ts h => item_follow h) hl
    refine ⟨w, t, us, rfl, ht, by rw [hw]; decide, f2, f1, ?_⟩
    intro rest s x w' hw' hr ha _
    have hlen := ha.length
    rw [List.length_append] at hlen
    obtain ⟨s', kw, h1, h2⟩ := select_run hl rest (s.rest.length + 1) s x hr (by omega) ha
    refine ⟨s', kw, ?_, h2⟩
    unfold clause
    simp only [hw', hw, Clause.atoms, List.foldl_map]
    rw [if_neg (by decide), if_neg (by decide), if_neg (by decide), if_pos trivial, h1]
    rfl
  | orderBy l =>
    obtain ⟨t1, us, rfl, ⟨t2, t3, rfl, ⟨w, ⟨t, rfl, ht⟩, hw⟩, ⟨w2, ⟨tb, rfl, htb⟩, hw2⟩⟩, hl⟩ := h
    obtain ⟨f1, f2⟩ := sepBy_follow (fun a ts h => w_follow (by obtain ⟨a, b, rfl, h, _⟩ := h; obtain ⟨t, rfl, _⟩ := h; exact ⟨t, _, rfl⟩)) hl
    refine ⟨w, t, _, rfl, ht, by rw [hw]; decide, by simp, trivial, ?_⟩
    intro rest s x w' hw' hr ha _
    have hlen := ha.length
    have ha : At (.w tb :: (us ++ rest)) s := ha
    have hlen : us.length + rest.length + 1 ≤ s.rest.length := by simpa using hlen
    obtain ⟨s1, g1, g2⟩ := read_word ha htb (follow_append f1 f2 _)
    obtain ⟨s', kw, h1, h2⟩ := sort_run hl rest (s.rest.length + 1) s1 x hr (by omega) g2
    refine ⟨s', kw, ?_, h2⟩
    unfold clause
    simp only [hw', hw, Clause.atoms, List.foldl_map]
    rw [if_neg (by decide), if_neg (by decide), if_pos (by decide)]
    simp only [g1]
    rw [if_neg (by simp [hw2]), if_neg (by decide), h1]
    rfl
  | wher l =>
    obtain ⟨t1, us, rfl, ⟨w, ⟨t, rfl, ht⟩, hw⟩, hl⟩ := h
    obtain ⟨f1, f2⟩ := sepBy_follow (fun a ts h => w_follow (cond_follow h)) hl
    refine ⟨w, t, us, rfl, ht, by rw [hw]; decide, f2, f1, ?_⟩
    intro rest s x w' hw' hr ha _
    have hlen := ha.length
    rw [List.length_append] at hlen
    obtain ⟨s', h1, h2⟩ := where_run hl rest (s.rest.length + 1) s x hr (by omega) ha
    refine ⟨s', [], ?_, .inl ⟨rfl, h2⟩⟩
    unfold clause
    simp only [hw', hw, h1, Clause.atoms, List.foldl_map]
    rw [if_neg (by decide), if_neg (by decide), if_neg (by decide), if_neg (by decide), if_pos trivial]
    rfl
  | lets l =>
    obtain ⟨t1, us, rfl, ⟨w, ⟨t, rfl, ht⟩, hw⟩, hl⟩ := h
    obtain ⟨f1, f2⟩ := sepBy_follow (fun a ts h => w_follow (by obtain ⟨a, b, rfl, h, _⟩ := h; obtain ⟨t, rfl, _⟩ := h; exact ⟨t, _, rfl⟩)) hl
    refine ⟨w, t, us, rfl, ht, by rw [hw]; decide, f2, f1, ?_⟩
    intro rest s x w' hw' hr ha hp
    have hlen := ha.length
    rw [List.length_append] at hlen
    obtain ⟨s', kw, h1, h2⟩ := let_run hl rest (s.rest.length + 1) s x hr (by omega) ha hp
    refine ⟨s', kw, ?_, h2⟩
    unfold clause
    simp only [hw', hw, Clause.atoms, List.foldl_map]
    rw [if_neg (by decide), if_neg (by decide), if_neg (by decide), if_neg (by decide), if_neg (by decide), if_pos trivial, h1]
    rfl

theorem written_rest {cs : List Clause} {ts : List Tok} (h : Written cs ts) : Rest ts := by
  cases h with
  | nil => exact .inl rfl
  | cons h _ =>
    obtain ⟨w, t, us, rfl, ht, hk, hne, hf, _⟩ := clause_run h
    exact .inr ⟨w, t, _, rfl, ht, hk, follow_append hf hne _⟩

theorem atoms_lets (c : Clause) (x : Spec) : (c.atoms.foldl updAtom x).lets = x.lets ++ c.letSpecs := by
  have gen : ∀ (as : List Atom) (x : Spec), (as.foldl updAtom x).lets = x.lets ++ as.flatMap (fun a => match a with | .let_ a => [a.spec] | _ => []) := by
    intro as
    induction as with
    | nil => intro x; simp
    | cons a as ih =>
      intro x
      rw [List.foldl_cons, ih, List.flatMap_cons, ← List.append_assoc]
      congr 1
      cases a with
      | sel i =>
        simp only [List.append_nil, updAtom]
        unfold updSel
        cases i.as <;> cases i.un <;> cases i <;> simp [setUnit, setAs, updSel0] <;> split <;> rfl
      | _ => simp [updAtom, updAgg, updGrp, updSort, updFil, updLet]
  rw [gen]
  congr 1
  cases c with
  | lets l => rw [letSpecs_eq]; simp only [Clause.atoms, List.flatMap_map]; exact (List.map_eq_flatMap).symm
  | _ => simp [Clause.atoms, Clause.letSpecs, List.flatMap_map]

theorem clauses_run {cs : List Clause} : ∀ {c : Clause} {w : Str} {us rest : List Tok} {x : Spec} {s : IS} {f : Nat} {w' : Str}, Runs c w us → Written cs rest →
    At (us ++ rest) s → lower w' = lower w → cs.length < f → ((x.lets ++ (c :: cs).flatMap Clause.letSpecs).map LetSpec.target).Nodup →
    ∃ s', clausesL f w' ⟨x, false, s⟩ = ⟨((c :: cs).flatMap Clause.atoms).foldl updAtom x, false, s'⟩ ∧ At [] s' := by
  induction cs with
  | nil =>
    intro c w us rest x s f w' hrun hwr ha hw hf hp
    cases f with
    | zero => simp at hf
    | succ f =>
      cases hwr
      obtain ⟨s', kw, h1, h2⟩ := hrun [] s x w' hw (.inl rfl) ha (by unfold PreC; simpa using hp)
      rcases h2 with ⟨rfl, h2⟩ | ⟨_, _, _, h, _⟩
      · rw [clausesL]
        simp only [h1]
        rw [if_neg (by simp)]
        have e := read_word_end (sep := sep0) h2
        simp only [e, List.flatMap_cons, List.flatMap_nil, List.append_nil]
        by_cases hg : false = true ∨ s'.good = false
        · exact ⟨s', by rw [if_pos (by simpa using hg)], h2⟩
        · exact ⟨_, by rw [if_neg (by simpa using hg), if_pos trivial], at_end⟩
      · cases h
  | cons c2 cs ih =>
    intro c w us rest x s f w' hrun hwr ha hw hf hp
    cases f with
    | zero => simp at hf
    | succ f =>
      have hrest := written_rest hwr
      obtain ⟨s', kw, h1, h2⟩ := hrun rest s x w' hw hrest ha (by
        unfold PreC
        refine hp.sublist ?_
        rw [List.flatMap_cons, ← List.append_assoc]
        exact (List.sublist_append_left _ _).map _)
      cases hwr with
      | @cons _ _ ts us2 hc hwr =>
        obtain ⟨w2, t2, vs, rfl, ht2, hk2, hne2, hf2, hrun2⟩ := clause_run hc
        have hp2 : (((c.atoms.foldl updAtom x).lets ++ (c2 :: cs).flatMap Clause.letSpecs).map LetSpec.target).Nodup := by
          rw [atoms_lets]
          simpa [List.flatMap_cons, List.append_assoc] using hp
        have hlen : cs.length < f := by simp at hf; omega
        rw [clausesL]
        simp only [h1]
        rw [List.flatMap_cons, List.foldl_append]
        rcases h2 with ⟨rfl, h2⟩ | ⟨w3, t3, us3, he, ht3, rfl, hk3, h2⟩
        · rw [if_neg (by simp)]
          have hg : s'.good = true := by
            rcases h2 with h2 | h2
            · exact h2.1
            · cases h2.1
          rw [if_neg (by simp [hg])]
          obtain ⟨s2, g1, g2⟩ := read_word h2 ht2 (follow_append hf2 hne2 _)
          simp only [g1]
          rw [if_neg (text_ne ht2)]
          exact ih hrun2 hwr g2 rfl hlen hp2
        · rw [if_pos (keywords_ne _ hk3)]
          simp only [List.cons_append, List.cons.injEq, Tok.w.injEq] at he
          obtain ⟨rfl, rfl⟩ := he
          have hww : w3 = w2 := by
            have e1 := readWordL_text ht3 []
            have e2 := readWordL_text ht2 []
            rw [e1] at e2
            simp only [Prod.mk.injEq] at e2
            exact List.append_cancel_right e2.1
          subst hww
          exact ih hrun2 hwr h2 (lower_lower _) hlen hp2

/-! ### the query -/

theorem foldl_app {β : Type} (g : Spec → List β) (h : Atom → List β) (H : ∀ x a, g (updAtom x a) = g x ++ h a) (as : List Atom) (x : Spec) :
    g (as.foldl updAtom x) = g x ++ as.flatMap h := by
  induction as generalizing x with
  | nil => simp
  | cons a as ih => rw [List.foldl_cons, ih, H, List.flatMap_cons, List.append_assoc]

theorem foldl_flag {β : Type} (g : Spec → Sel) (h : Atom → List β) (H : ∀ x a, g (updAtom x a) = if h a = [] then g x else .list) (as : List Atom) (x : Spec) :
    g (as.foldl updAtom x) = if as.flatMap h = [] then g x else .list := by
  induction as generalizing x with
  | nil => simp
  | cons a as ih =>
    rw [List.foldl_cons, ih, H, List.flatMap_cons]
    by_cases h1 : h a = [] <;> by_cases h2 : as.flatMap h = [] <;> simp [h1, h2]

theorem foldl_act {σ β : Type} (g : Spec → σ) (act : σ → β → σ) (h : Atom → List β) (H : ∀ x a, g (updAtom x a) = (h a).foldl act (g x)) (as : List Atom)
    (x : Spec) : g (as.foldl updAtom x) = (as.flatMap h).foldl act (g x) := by
  induction as generalizing x with
  | nil => simp
  | cons a as ih => rw [List.foldl_cons, ih, H, List.flatMap_cons, List.foldl_append]

def Atom.calls : Atom → List (Sig × List Str)
  | .agg a => [a]
  | .sel (.call d args _ _) => [(d, args)]
  | _ => []
def Atom.conds : Atom → List Cond
  | .fil c => [c.cond]
  | _ => []
def Atom.sorts : Atom → List SortBy
  | .sort a => [⟨a.1, a.2.getD false⟩]
  | _ => []
def Atom.lets : Atom → List LetSpec
  | .let_ a => [a.spec]
  | _ => []
def Atom.groups : Atom → List Str
  | .grp n => [n]
  | _ => []
def Atom.items : Atom → List Item
  | .sel i => [i]
  | _ => []
def Atom.fmts : Atom → List (Sig × List KArg)
  | .fmt d l => [(d, l)]
  | _ => []

theorem flat {β : Type} (cs : List Clause) (h : Atom → List β) (k : Clause → List β) (H : ∀ c : Clause, c.atoms.flatMap h = k c) :
    (cs.flatMap Clause.atoms).flatMap h = cs.flatMap k := by
  rw [List.flatMap_assoc]
  congr 1
  funext c
  exact H c

theorem flat_nil {α β : Type} (l : List α) : (l.flatMap fun _ => ([] : List β)) = [] := by simp

theorem flat_calls (cs : List Clause) : (cs.flatMap Clause.atoms).flatMap Atom.calls = cs.flatMap Clause.calls := by
  refine flat cs _ _ fun c => ?_
  cases c with
  | aggregate l => simp only [Clause.atoms, List.flatMap_map, Clause.calls, Atom.calls]; simp
  | select l =>
    simp only [Clause.atoms, List.flatMap_map, Clause.calls]
    induction l with
    | nil => rfl
    | cons i l ih => rw [List.flatMap_cons, List.filterMap_cons, ih]; cases i <;> rfl
  | format d l => rfl
  | _ l => simp [Clause.atoms, List.flatMap_map, Clause.calls, Atom.calls]

theorem flat_conds (cs : List Clause) : (cs.flatMap Clause.atoms).flatMap Atom.conds = cs.flatMap Clause.conds := by
  refine flat cs _ _ fun c => ?_
  cases c with
  | wher l => simp only [Clause.atoms, List.flatMap_map, Clause.conds, Atom.conds]; exact (List.map_eq_flatMap).symm
  | format d l => rfl
  | _ l => simp [Clause.atoms, List.flatMap_map, Clause.conds, Atom.conds]

theorem flat_sorts (cs : List Clause) : (cs.flatMap Clause.atoms).flatMap Atom.sorts = cs.flatMap Clause.sorts := by
  refine flat cs _ _ fun c => ?_
  cases c with
  | orderBy l => simp only [Clause.atoms, List.flatMap_map, Clause.sorts, Atom.sorts]; exact (List.map_eq_flatMap).symm
  | format d l => rfl
  | _ l => simp [Clause.atoms, List.flatMap_map, Clause.sorts, Atom.sorts]

theorem flat_lets (cs : List Clause) : (cs.flatMap Clause.atoms).flatMap Atom.lets = cs.flatMap Clause.letSpecs := by
  refine flat cs _ _ fun c => ?_
  cases c with
  | lets l => rw [letSpecs_eq]; simp only [Clause.atoms, List.flatMap_map, Atom.lets]; exact (List.map_eq_flatMap).symm
  | format d l => rfl
  | _ l => simp [Clause.atoms, List.flatMap_map, Clause.letSpecs, Atom.lets]

theorem flat_groups (cs : List Clause) : (cs.flatMap Clause.atoms).flatMap Atom.groups = cs.flatMap Clause.groups := by
  refine flat cs _ _ fun c => ?_
  cases c with
  | groupBy l => simp [Clause.atoms, List.flatMap_map, Clause.groups, Atom.groups]
  | format d l => rfl
  | _ l => simp [Clause.atoms, List.flatMap_map, Clause.groups, Atom.groups]

theorem flat_items (cs : List Clause) : (cs.flatMap Clause.atoms).flatMap Atom.items = cs.flatMap Clause.items := by
  refine flat cs _ _ fun c => ?_
  cases c with
  | select l => simp [Clause.atoms, List.flatMap_map, Clause.items, Atom.items]
  | format d l => rfl
  | _ l => simp [Clause.atoms, List.flatMap_map, Clause.items, Atom.items]

def Clause.fmts : Clause → List (Sig × List KArg)
  | .format d l => [(d, l)]
  | _ => []

theorem flat_fmts (cs : List Clause) : (cs.flatMap Clause.atoms).flatMap Atom.fmts = cs.flatMap Clause.fmts := by
  refine flat cs _ _ fun c => ?_
  cases c with
  | format d l => rfl
  | _ l => simp [Clause.atoms, List.flatMap_map, Clause.fmts, Atom.fmts]

theorem lastFormat_eq (cs : List Clause) : lastFormat cs = (cs.flatMap Clause.fmts).getLast? := by
  unfold lastFormat
  congr 1
  induction cs with
  | nil => rfl
  | cons c cs ih => cases c <;> simp [Clause.fmts, ih]

/-! the fields that a selection leaves alone or changes -/

theorem updSel_get {β : Type} (g : Spec → β) (h1 : ∀ x v, g { x with units := v } = g x) (h2 : ∀ x v, g { x with aliases := v } = g x) (x : Spec) (i : Item) :
    g (updSel x i) = g (updSel0 x i) := by
  unfold updSel
  have e2 : g (setAs (updSel0 x i) i.name i.as) = g (updSel0 x i) := by
    cases i.as with
    | none => rfl
    | some v => exact h2 _ _
  cases i.un with
  | none => exact e2
  | some v => exact (h1 _ _).trans e2

/-- effect on the selection -/
def selAct (y : Sel × List Str) : Item → Sel × List Str
  | .star => (.all, y.2)
  | .attr a _ _ => (.list, y.2 ++ [a])
  | .call d args _ _ => if y.1 ≠ .all then (.list, y.2 ++ [aggName d args]) else y

theorem atom_sel (x : Spec) (a : Atom) : ((updAtom x a).selSel, (updAtom x a).sel) = a.items.foldl selAct (x.selSel, x.sel) := by
  cases a with
  | sel i =>
    simp only [updAtom, Atom.items, List.foldl_cons, List.foldl_nil]
    rw [updSel_get Spec.selSel (fun _ _ => rfl) (fun _ _ => rfl), updSel_get Spec.sel (fun _ _ => rfl) (fun _ _ => rfl)]
    cases i with
    | call d args as un =>
      simp only [updSel0, selAct, ne_eq, ite_not]
      by_cases h : x.selSel = .all
      · rw [if_pos h, if_pos h]
      · rw [if_neg h, if_neg h]
    | _ => rfl
  | _ => rfl

theorem sel_list (l : List Item) (h : ∀ i ∈ l, i.isStar = false) (y : Sel × List Str) (hy : y.1 ≠ .all) :
    l.foldl selAct y = (if l = [] then y.1 else .list, y.2 ++ l.map Item.name) := by
  induction l generalizing y with
  | nil => simp
  | cons i l ih =>
    have hl : ∀ i ∈ l, i.isStar = false := fun j hj => h j (by simp [hj])
    have : selAct y i = (.list, y.2 ++ [i.name]) := by
      cases i with
      | star => exact absurd (h .star (by simp)) (by decide)
      | attr => rfl
      | call d args as un => simp only [selAct]; rw [if_pos hy]; rfl
    rw [List.foldl_cons, this, ih hl _ (by simp)]
    simp

theorem sel_all (l : List Item) (h : ∀ j ∈ l, j.isAttr = false) (n : List Str) : (l.foldl selAct (.all, n)).1 = .all := by
  induction l with
  | nil => rfl
  | cons i l ih =>
    have : selAct (.all, n) i = (.all, n) := by
      cases i with
      | star => rfl
      | attr => exact absurd (h _ (List.mem_cons_self ..)) (by simp [Item.isAttr])
      | call d args as un => simp [selAct]
    rw [List.foldl_cons, this]
    exact ih fun j hj => h j (by simp [hj])

theorem sel_star (l : List Item) (hp : l.Pairwise fun i j => i.isStar = true → j.isAttr = false) (h : ∃ i ∈ l, i.isStar = true) (y : Sel × List Str) :
    (l.foldl selAct y).1 = .all := by
  induction l generalizing y with
  | nil => obtain ⟨i, hi, _⟩ := h; cases hi
  | cons i l ih =>
    rw [List.pairwise_cons] at hp
    rw [List.foldl_cons]
    cases hi : i.isStar with
    | true =>
      have : selAct y i = (.all, y.2) := by cases i <;> simp [Item.isStar] at hi <;> rfl
      rw [this]
      exact sel_all l (fun j hj => hp.1 j hj hi) _
    | false =>
      refine ih hp.2 ?_ _
      obtain ⟨j, hj, hs⟩ := h
      rcases List.mem_cons.1 hj with rfl | hj
      · rw [hi] at hs; cases hs
      · exact ⟨j, hj, hs⟩

theorem mapSet_lookup (m : List (Str × Str)) (k v q : Str) : (mapSet m k v).lookup q = if q = k then some v else m.lookup q := by
  induction m with
  | nil =>
    rw [mapSet, List.lookup_cons]
    by_cases h : q = k
    · simp [h]
    · simp [h, show (q == k) = false by simpa using h]
  | cons x m ih =>
    obtain ⟨xk, xv⟩ := x
    rw [mapSet]
    by_cases hx : xk = k
    · subst hx
      rw [if_pos rfl, List.lookup_cons, List.lookup_cons]
      by_cases h : q = xk
      · simp [h]
      · simp [h, show (q == xk) = false by simpa using h]
    · rw [if_neg hx, List.lookup_cons, List.lookup_cons, ih]
      by_cases h : q = xk
      · subst h; simp [hx]
      · simp [show (q == xk) = false by simpa using h]

theorem foldl_mapSet (l : List (Str × Str)) (m : List (Str × Str)) (q : Str) :
    (l.foldl (fun m x => mapSet m x.1 x.2) m).lookup q = (lastFor l q).or (m.lookup q) := by
  induction l generalizing m with
  | nil => rfl
  | cons x l ih =>
    rw [List.foldl_cons, ih, mapSet_lookup]
    unfold lastFor
    rw [List.reverse_cons, List.find?_append]
    cases l.reverse.find? fun y => decide (y.1 = q) with
    | some y => rfl
    | none =>
      by_cases h : q = x.1
      · simp [h]
      · simp [h, show ¬ x.1 = q from fun e => h e.symm]

theorem erase_filter (l : List Str) (a : Str) (h : l.count a ≤ 1) : l.erase a = l.filter fun n => ¬n = a := by
  induction l with
  | nil => rfl
  | cons x l ih =>
    by_cases hx : x = a
    · subst hx
      rw [List.erase_cons_head, List.filter_cons_of_neg (by simp)]
      rw [List.count_cons_self] at h
      have : x ∉ l := List.count_eq_zero.1 (by omega)
      rw [List.filter_eq_self.2]
      intro y hy
      simp only [decide_eq_true_eq]
      rintro rfl
      exact this hy
    · rw [List.erase_cons_tail (by simpa using hx), List.filter_cons_of_pos (by simpa using hx), ih]
      rw [List.count_cons_of_ne hx] at h
      exact h

theorem extract_spec (l : List Str) (h : ∀ n, isPath n → l.count n ≤ 1) :
    (extractPath l).2 = l.filter (fun n => ¬isPath n) ∧ ((extractPath l).1 = true ↔ ∃ n ∈ l, isPath n) := by
  have h1 := erase_filter l (str "path") (h _ (.inl rfl))
  have h2 : ((l.erase (str "path")).count (str "prop:nested")) ≤ 1 :=
    Nat.le_trans ((List.erase_sublist).count_le _) (h _ (.inr rfl))
  have h3 := erase_filter _ _ h2
  unfold extractPath
  simp only
  rw [h3, h1, List.filter_filter]
  constructor
  · congr 1
    funext n
    unfold isPath
    rw [← Bool.decide_and]
    congr 1
    rw [not_or]
    exact propext ⟨fun h => ⟨h.2, h.1⟩, fun h => ⟨h.2, h.1⟩⟩
  · simp only [Bool.or_eq_true, decide_eq_true_eq, List.mem_filter]
    constructor
    · rintro (h | h)
      · exact ⟨_, h, .inl rfl⟩
      · exact ⟨_, h.1, .inr rfl⟩
    · rintro ⟨n, hn, rfl | rfl⟩
      · exact .inl hn
      · exact .inr ⟨hn, by decide⟩

end Verif.Query.CalQL
