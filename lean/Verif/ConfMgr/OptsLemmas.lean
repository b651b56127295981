import Verif.ConfMgr.OptsSpec
import Verif.ConfMgr.SpecLemmas
import Mathlib.Data.List.Nodup
/-!
# Options: lemmas
-/
namespace Verif.ConfMgr
open Verif Verif.Cali Verif.Parse

/-! ## inherited options -/

theorem expandsL_of_fold (D : List (Str × Opt)) (n : Nat) (ih : ∀ k l, inherited D n k = some l → Expands D k l) (is : List Str) (acc res : List Str)
    (h : is.foldlM (fun ret inh => (inherited D n inh).map fun tmp => ret ++ tmp ++ [inh]) acc = some res) :
    ∃ r, res = acc ++ r ∧ ExpandsL D is r := by
  induction is generalizing acc with
  | nil =>
    simp only [List.foldlM_nil, pure, Option.some.injEq] at h
    exact ⟨[], by simp [h], .nil⟩
  | cons i is ihl =>
    rw [List.foldlM_cons] at h
    cases hi : inherited D n i with
    | none => rw [hi] at h; cases h
    | some l =>
      rw [hi] at h
      obtain ⟨r, h1, h2⟩ := ihl (acc ++ l ++ [i]) h
      exact ⟨l ++ i :: r, by rw [h1]; simp, .cons (ih i l hi) h2⟩

theorem expands_of_inherited (D : List (Str × Opt)) (n : Nat) (k : Str) (l : List Str) (h : inherited D n k = some l) : Expands D k l := by
  induction n generalizing k l with
  | zero => cases h
  | succ n ih =>
    rw [inherited] at h
    cases hk : D.lookup k with
    | none =>
      rw [hk] at h
      simp only [Option.some.injEq] at h
      rw [← h]; exact .unknown hk
    | some o =>
      rw [hk] at h
      obtain ⟨r, h1, h2⟩ := expandsL_of_fold D n ih o.inherited [] l h
      rw [h1, List.nil_append]
      exact .known hk h2

mutual
theorem expands_mem (D : List (Str × Opt)) : ∀ {k : Str} {l : List Str}, Expands D k l → ∀ x, x ∈ l ↔ Relation.TransGen (Inh D) k x
  | k, _, .unknown h => fun x => by
    refine ⟨fun h => (by cases h), fun ht => ?_⟩
    obtain ⟨y, ⟨o, ho, _⟩, _⟩ := Relation.TransGen.head'_iff.1 ht
    rw [h] at ho; cases ho
  | k, l, .known (o := o) h hl => fun x => by
    rw [expandsL_mem D hl x]
    constructor
    · rintro ⟨i, hi, hx⟩
      exact Relation.TransGen.head' ⟨o, h, hi⟩ hx
    · intro ht
      obtain ⟨y, ⟨o', ho, hy⟩, hx⟩ := Relation.TransGen.head'_iff.1 ht
      rw [h] at ho
      cases ho
      exact ⟨y, hy, hx⟩
theorem expandsL_mem (D : List (Str × Opt)) : ∀ {is : List Str} {l : List Str}, ExpandsL D is l → ∀ x, x ∈ l ↔ ∃ i ∈ is, Relation.ReflTransGen (Inh D) i x
  | _, _, .nil => fun x => by simp
  | _, _, .cons (i := i) (l := l) (is := is) (r := r) h hr => fun x => by
    rw [List.mem_append, List.mem_cons, expands_mem D h x, expandsL_mem D hr x]
    simp only [List.mem_cons, exists_eq_or_imp, Relation.reflTransGen_iff_eq_or_transGen (a := i)]
    tauto
end

mutual
theorem expands_unique (D : List (Str × Opt)) : ∀ {k : Str} {l l' : List Str}, Expands D k l → Expands D k l' → l = l'
  | _, _, _, .unknown h, .unknown _ => rfl
  | _, _, _, .unknown h, .known h' _ => by rw [h] at h'; cases h'
  | _, _, _, .known h _, .unknown h' => by rw [h] at h'; cases h'
  | _, _, _, .known h hl, .known h' hl' => by
    rw [h] at h'; cases h'
    exact expandsL_unique D hl hl'
theorem expandsL_unique (D : List (Str × Opt)) : ∀ {is l l' : List Str}, ExpandsL D is l → ExpandsL D is l' → l = l'
  | _, _, _, .nil, .nil => rfl
  | _, _, _, .cons h hr, .cons h' hr' => by rw [expands_unique D h h', expandsL_unique D hr hr']
end

theorem foldlM_mono (D : List (Str × Opt)) (n m : Nat) (ih : ∀ k l, inherited D n k = some l → inherited D m k = some l) (is : List Str) (acc res : List Str)
    (h : is.foldlM (fun ret inh => (inherited D n inh).map fun tmp => ret ++ tmp ++ [inh]) acc = some res) :
    is.foldlM (fun ret inh => (inherited D m inh).map fun tmp => ret ++ tmp ++ [inh]) acc = some res := by
  induction is generalizing acc with
  | nil => exact h
  | cons i is ihl =>
    rw [List.foldlM_cons] at h ⊢
    cases hi : inherited D n i with
    | none => rw [hi] at h; cases h
    | some l => rw [hi] at h; rw [ih i l hi]; exact ihl _ h

theorem inherited_mono (D : List (Str × Opt)) {n m : Nat} (hnm : n ≤ m) (k : Str) (l : List Str) (h : inherited D n k = some l) : inherited D m k = some l := by
  induction n generalizing m k l with
  | zero => cases h
  | succ n ih =>
    obtain ⟨m, rfl⟩ : ∃ m', m = m' + 1 := ⟨m - 1, by omega⟩
    rw [inherited] at h ⊢
    cases hk : D.lookup k with
    | none => rw [hk] at h; exact h
    | some o =>
      rw [hk] at h
      exact foldlM_mono D n m (fun k l => ih (by omega) k l) o.inherited [] l h

theorem foldlM_some (D : List (Str × Opt)) (n : Nat) (is : List Str) (h : ∀ i ∈ is, ∃ l, inherited D n i = some l) (acc : List Str) :
    ∃ res, is.foldlM (fun ret inh => (inherited D n inh).map fun tmp => ret ++ tmp ++ [inh]) acc = some res := by
  induction is generalizing acc with
  | nil => exact ⟨acc, rfl⟩
  | cons i is ihl =>
    obtain ⟨l, hl⟩ := h i (by simp)
    rw [List.foldlM_cons, hl]
    exact ihl (fun j hj => h j (by simp [hj])) _

theorem inherited_some (D : List (Str × Opt)) (rank : Str → Nat) (hr : ∀ a b, Inh D a b → rank b < rank a) (n : Nat) (k : Str) (hn : rank k < n) :
    ∃ l, inherited D n k = some l := by
  induction n generalizing k with
  | zero => omega
  | succ n ih =>
    rw [inherited]
    cases hk : D.lookup k with
    | none => exact ⟨[], rfl⟩
    | some o => exact foldlM_some D n o.inherited (fun i hi => ih i (by have := hr k i ⟨o, hk, hi⟩; omega)) []

/-! ## options that are on -/

theorem enables_iff (o : Opt) (v : Str) : enables o v = true ↔ TurnsOn o v := by
  unfold enables TurnsOn
  by_cases h : o.type = str "bool"
  · rw [if_pos h]
    simp only [h, true_implies]
    cases toBoolStr v <;> simp
  · rw [if_neg h]; simp [h]

theorem listed_of_vec (D : List (Str × Opt)) (n : Nat) (args : Args) (acc res : List Str)
    (h : args.foldlM (fun vec (a : Str × Str) =>
      match D.lookup a.1 with
      | none => some vec
      | some o => if enables o a.2 then (inherited D n a.1).map fun tmp => vec ++ [a.1] ++ tmp else some vec) acc = some res) :
    ∃ l, res = acc ++ l ∧ Listed D args l := by
  induction args generalizing acc with
  | nil =>
    simp only [List.foldlM_nil, pure, Option.some.injEq] at h
    exact ⟨[], by simp [h], .nil⟩
  | cons a args ih =>
    obtain ⟨k, v⟩ := a
    rw [List.foldlM_cons] at h
    cases hk : D.lookup k with
    | none =>
      simp only [hk] at h
      obtain ⟨l, h1, h2⟩ := ih acc h
      exact ⟨l, h1, .off (fun o ho => by rw [hk] at ho; cases ho) h2⟩
    | some o =>
      simp only [hk] at h
      by_cases he : enables o v = true
      · rw [if_pos he] at h
        cases hi : inherited D n k with
        | none => rw [hi] at h; cases h
        | some x =>
          rw [hi] at h
          obtain ⟨l, h1, h2⟩ := ih (acc ++ [k] ++ x) h
          exact ⟨k :: (x ++ l), by rw [h1]; simp, .on hk ((enables_iff o v).1 he) (expands_of_inherited D n k x hi) h2⟩
      · rw [if_neg he] at h
        obtain ⟨l, h1, h2⟩ := ih acc h
        exact ⟨l, h1, .off (fun o' ho => by rw [hk] at ho; cases ho; exact fun ht => he ((enables_iff o v).2 ht)) h2⟩

theorem listed_mem {D : List (Str × Opt)} {args : Args} {l : List Str} (h : Listed D args l) (x : Str) : x ∈ l ↔ On D args x := by
  induction h with
  | nil =>
    refine ⟨fun h => (by cases h), ?_⟩
    rintro ⟨a, v, o, h, _⟩; cases h
  | @off k v args l hoff _ ih =>
    rw [ih]
    constructor
    · rintro ⟨a, w, o, h, hr⟩; exact ⟨a, w, o, by simp [h], hr⟩
    · rintro ⟨a, w, o, h, ho, ht, hr⟩
      rcases List.mem_cons.1 h with h | h
      · cases h; exact absurd ht (hoff o ho)
      · exact ⟨a, w, o, h, ho, ht, hr⟩
  | @on k v o args x' l ho ht hx _ ih =>
    rw [List.mem_cons, List.mem_append, ih, expands_mem D hx]
    constructor
    · rintro (h | h | ⟨a, w, o', h, hr⟩)
      · exact ⟨k, v, o, by simp, ho, ht, by rw [h]⟩
      · exact ⟨k, v, o, by simp, ho, ht, h.to_reflTransGen⟩
      · exact ⟨a, w, o', by simp [h], hr⟩
    · rintro ⟨a, w, o', h, ho', ht', hr⟩
      rcases List.mem_cons.1 h with h | h
      · cases h
        rcases Relation.reflTransGen_iff_eq_or_transGen.1 hr with h | h
        · exact .inl h
        · exact .inr (.inl h)
      · exact .inr (.inr ⟨a, w, o', h, ho', ht', hr⟩)

theorem dedup_firsts (l : List Str) : Firsts l (dedup l) := by
  have key : ∀ (l p acc : List Str), Firsts p acc → Firsts (p ++ l) (l.foldl (fun ret x => if x ∈ ret then ret else ret ++ [x]) acc) := by
    intro l
    induction l with
    | nil => intro p acc h; simpa using h
    | cons x l ih =>
      intro p acc h
      rw [List.foldl_cons, show p ++ x :: l = (p ++ [x]) ++ l by simp]
      refine ih _ _ ?_
      have hidx : ∀ y ∈ p, (p ++ [x]).idxOf y = p.idxOf y := fun y hy => by rw [List.idxOf_append, if_pos hy]
      by_cases hx : x ∈ acc
      · rw [if_pos hx]
        refine ⟨fun y => ?_, ?_⟩
        · rw [h.1, List.mem_append, List.mem_singleton]
          exact ⟨.inl, fun hy => hy.elim id fun e => by rw [e]; exact (h.1 x).1 hx⟩
        · refine h.2.imp_of_mem ?_
          intro a b ha hb hab
          rw [hidx a ((h.1 a).1 ha), hidx b ((h.1 b).1 hb)]; exact hab
      · rw [if_neg hx]
        refine ⟨fun y => by rw [List.mem_append, List.mem_append, h.1], ?_⟩
        rw [List.pairwise_append]
        refine ⟨h.2.imp_of_mem ?_, List.pairwise_singleton _ _, ?_⟩
        · intro a b ha hb hab
          rw [hidx a ((h.1 a).1 ha), hidx b ((h.1 b).1 hb)]; exact hab
        · intro a ha b hb
          rw [List.mem_singleton] at hb
          subst hb
          have hb : b ∉ p := fun e => hx ((h.1 b).2 e)
          rw [hidx a ((h.1 a).1 ha), List.idxOf_append, if_neg hb]
          have := List.idxOf_lt_length_of_mem ((h.1 a).1 ha)
          omega
  have := key l [] [] ⟨fun x => Iff.rfl, .nil⟩
  exact this

theorem make_some {n : Nat} {D : List (Str × Opt)} {args : Args} {o : Opts} (h : Opts.make n D args = some o) :
    o.data = D ∧ o.args = args ∧ ∃ l, Listed D args l ∧ Firsts l o.enabled := by
  unfold Opts.make at h
  cases hv : enabledVec D n args with
  | none => rw [hv] at h; cases h
  | some v =>
    rw [hv] at h
    simp only [Option.map_some, Option.some.injEq] at h
    obtain ⟨l, h1, h2⟩ := listed_of_vec D n args [] v hv
    rw [List.nil_append] at h1
    rw [← h]
    exact ⟨rfl, rfl, l, h2, by rw [h1]; exact dedup_firsts l⟩

theorem enabledVec_some (D : List (Str × Opt)) (n : Nat) (args : Args) (h : ∀ a ∈ args, ∃ l, inherited D n a.1 = some l) : ∃ v, enabledVec D n args = some v := by
  suffices key : ∀ acc : List Str, ∃ v, args.foldlM (fun vec (a : Str × Str) =>
      match D.lookup a.1 with
      | none => some vec
      | some o => if enables o a.2 then (inherited D n a.1).map fun tmp => vec ++ [a.1] ++ tmp else some vec) acc = some v from key []
  intro acc
  induction args generalizing acc with
  | nil => exact ⟨acc, rfl⟩
  | cons a args ih =>
    obtain ⟨l, hl⟩ := h a (by simp)
    rw [List.foldlM_cons]
    have hs : ∃ acc', (match D.lookup a.1 with
      | none => some acc
      | some o => if enables o a.2 then (inherited D n a.1).map fun tmp => acc ++ [a.1] ++ tmp else some acc) = some acc' := by
      split
      · exact ⟨_, rfl⟩
      · split
        · rw [hl]; exact ⟨_, rfl⟩
        · exact ⟨_, rfl⟩
    obtain ⟨acc', hs⟩ := hs
    rw [hs]
    exact ih (fun b hb => h b (by simp [hb])) acc'

/-! ## services, settings, queries -/

theorem sortUnique_spec (l : List Str) : (sortUnique l).Pairwise (fun a b => Query.Json.strLt a b = true) ∧ ∀ s, s ∈ sortUnique l ↔ s ∈ l := by
  have h : l.foldl (fun (m : List (Str × Unit)) s => mset m s ()) [] = setAll [] (l.map fun s => (s, ())) := by
    unfold setAll; rw [List.foldl_map]
  have hm := mapOf_setAll (l.map fun s => (s, ()))
  unfold sortUnique
  rw [h]
  refine ⟨?_, fun s => ?_⟩
  · rw [List.pairwise_map]; exact hm.1
  · have h1 : s ∈ (setAll [] (l.map fun s => (s, ()))).map Prod.fst ↔ ((setAll [] (l.map fun s => (s, ()))).lookup s).isSome = true := by
      generalize setAll [] (l.map fun s => (s, ())) = m
      induction m with
      | nil => simp
      | cons e m ih =>
        rw [List.lookup_cons]
        by_cases hk : s = e.1
        · subst hk; simp
        · rw [show (s == e.1) = false by simpa using hk]
          simp only [List.map_cons, List.mem_cons, hk, false_or, ih]
    rw [h1, hm.2, lastVal]
    simp only [Option.isSome_map, List.find?_isSome, List.mem_reverse, List.mem_map, decide_eq_true_eq]
    constructor
    · rintro ⟨e, ⟨t, ht, rfl⟩, h⟩; simp only at h; rw [← h]; exact ht
    · intro h; exact ⟨_, ⟨s, h, rfl⟩, rfl⟩

theorem appendConfig_eq (o : Opts) (cfg : List (Str × Str)) : o.appendConfig cfg = setAll cfg (o.enabled.flatMap o.settings) := by
  unfold Opts.appendConfig setAll
  generalize o.enabled = l
  induction l generalizing cfg with
  | nil => rfl
  | cons e l ih =>
    rw [List.foldl_cons, List.flatMap_cons, List.foldl_append, ih]
    congr 1
    unfold Opts.settings
    cases o.data.lookup e with
    | none => rfl
    | some d => simp only; rw [List.foldl_map]
                cases o.args.lookup e <;> rfl

theorem buildQuery_eq (o : Opts) (level inp : Str) : o.buildQuery level inp = inp ++ o.enabled.flatMap (o.queryText level) := by
  unfold Opts.buildQuery
  generalize o.enabled = l
  induction l generalizing inp with
  | nil => simp
  | cons e l ih =>
    rw [List.foldl_cons, List.flatMap_cons, ih, ← List.append_assoc]
    congr 1
    unfold Opts.queryText
    cases o.data.lookup e with
    | none => simp
    | some d =>
      simp only [Option.bind_some]
      cases d.query.lookup level with
      | none => simp
      | some q => rfl

theorem expand_lit (v s : Str) (h : ch '{' ∉ s) (r : Str) : expand v (s ++ r) = s ++ expand v r := by
  induction s with
  | nil => rfl
  | cons c s ih =>
    rw [List.cons_append, expand.eq_def]
    simp only
    rw [if_neg (by intro e; apply h; rw [e]; simp), ih (fun h' => h (by simp [h']))]
    rfl

theorem expand_hole (v r : Str) : expand v (ch '{' :: ch '}' :: r) = v ++ expand v r := by
  rw [expand.eq_def]
  simp only [if_true]

theorem expand_pieces (v : Str) (l : List Str) (h : ∀ s ∈ l, ch '{' ∉ s) : expand v (List.intercalate (str "{}") l) = List.intercalate v l := by
  induction l with
  | nil => rw [expand.eq_def]; rfl
  | cons s l ih =>
    cases l with
    | nil =>
      have := expand_lit v s (h s (by simp)) []
      simp only [List.append_nil] at this
      rw [List.intercalate_singleton, List.intercalate_singleton, this, expand.eq_def]; simp
    | cons s' l =>
      rw [List.intercalate_cons_cons, List.intercalate_cons_cons, List.append_assoc, expand_lit v s (h s (by simp)),
        show str "{}" ++ List.intercalate (str "{}") (s' :: l) = ch '{' :: ch '}' :: List.intercalate (str "{}") (s' :: l) from rfl, expand_hole,
        ih (fun x hx => h x (by simp [hx])), List.append_assoc]

end Verif.ConfMgr
