import Verif.Cli.ArgsSpec
import Mathlib.Data.List.Nodup
import Mathlib.Data.List.Induction
/-!
# C87, C88: the command line of cali-query
-/
namespace Verif.Cli
open Verif Verif.Cali

/-! ## finding options -/

theorem find_pred {T : List Opt} {α : Type} [DecidableEq α] (f : Opt → Option α) (hn : (T.filterMap f).Nodup) {i : Nat} {o : Opt} (ho : T[i]? = some o) {n : α}
    (hf : f o = some n) : T.findIdx? (fun o => decide (f o = some n)) = some i := by
  induction T generalizing i with
  | nil => simp at ho
  | cons p T ih =>
    rw [List.findIdx?_cons]
    by_cases e : f p = some n
    · rw [if_pos (decide_eq_true e)]
      cases i with
      | zero => rfl
      | succ i =>
        exfalso
        rw [List.filterMap_cons, e] at hn
        have hm : o ∈ T := List.mem_of_getElem? (by simpa using ho)
        exact (List.nodup_cons.1 hn).1 (List.mem_filterMap.2 ⟨o, hm, hf⟩)
    · rw [if_neg (by simpa using e)]
      cases i with
      | zero =>
        simp only [List.getElem?_cons_zero, Option.some.injEq] at ho
        subst ho; exact absurd hf e
      | succ i =>
        have hn' : (T.filterMap f).Nodup := by
          rw [List.filterMap_cons] at hn
          split at hn
          · exact hn
          · exact (List.nodup_cons.1 hn).2
        rw [ih hn' (by simpa using ho)]; rfl

variable {T : List Opt}

theorem Table.findLong (h : Table T) {i : Nat} {o : Opt} (ho : T[i]? = some o) {n : Str} (hn : o.long = some n) : findLong T n = some i :=
  find_pred Opt.long h.longs ho hn

theorem Table.findShort (h : Table T) {i : Nat} {o : Opt} (ho : T[i]? = some o) {c : Byte} (hn : o.short = some c) : findShort T c = some i :=
  find_pred Opt.short h.shorts ho hn

theorem Table.findName (h : Table T) {i : Nat} {o : Opt} (ho : T[i]? = some o) : findName T o.name = some i := by
  have := find_pred (T := T) (fun o => some o.name) (by rw [List.filterMap_eq_map' ]; exact h.names) ho rfl
  unfold Cli.findName
  rw [← this]
  congr 1
  funext p
  simp

/-! ## one item -/

/-- the option list of the state that corresponds to a list of named options -/
def idxOf (T : List Opt) (n : Str) : Nat := (findName T n).getD 0

/-- set options by name -/
def St.sets (T : List Opt) (A : St) (l : List (Str × Str)) : St := l.foldl (fun A x => A.set (idxOf T x.1) x.2) A

theorem Table.idx (h : Table T) {i : Nat} {o : Opt} (ho : T[i]? = some o) : idxOf T o.name = i := by simp [idxOf, h.findName ho]

theorem before_long {n : Str} (hn : ch '=' ∉ n) (r : Str) : beforeEq (n ++ str "=" ++ r) = n ∧ afterEq (n ++ str "=" ++ r) = r := by
  have e : str "=" = [ch '='] := rfl
  have hall : ∀ c ∈ n, decide (c ≠ ch '=') = true := fun c hc => decide_eq_true fun e => hn (e ▸ hc)
  unfold beforeEq afterEq
  constructor
  · rw [List.append_assoc, List.takeWhile_append_of_pos hall, e]; simp
  · rw [List.append_assoc, List.dropWhile_append_of_pos hall, e]; simp

theorem before_none {n : Str} (hn : ch '=' ∉ n) : beforeEq n = n ∧ afterEq n = [] := by
  have hall : ∀ c ∈ n, decide (c ≠ ch '=') = true := fun c hc => decide_eq_true fun e => hn (e ▸ hc)
  unfold beforeEq afterEq
  constructor
  · have := List.takeWhile_append_of_pos (l₂ := []) hall
    simpa using this
  · have := List.dropWhile_append_of_pos (l₂ := []) hall
    rw [List.append_nil] at this
    rw [this]; rfl

/-- the short options of a group -/
theorem shortL_ok (h : Table T) (v : Option Str) (nx : Option Str) (os : List Opt) : ∀ (A : St), os ≠ [] → (∀ o ∈ os, o ∈ T ∧ o.short.isSome) →
    ∃ o, os.getLast? = some o ∧ shortL T v nx (shorts os) A =
      ((St.sets T A (os.dropLast.map fun o => (o.name, []))).set (idxOf T o.name) (match v with
          | some v => v
          | none => if o.hasArg then nx.getD [] else []),
        some (decide (v = none) && o.hasArg && nx.isSome)) := by
  induction os with
  | nil => intro A hn; exact absurd rfl hn
  | cons o os ih =>
    intro A _ hok
    obtain ⟨hT, hs⟩ := hok o (by simp)
    obtain ⟨c, hc⟩ := Option.isSome_iff_exists.1 hs
    obtain ⟨i, hi⟩ := List.mem_iff_getElem?.1 hT
    have hsh : shorts (o :: os) = c :: shorts os := by simp [shorts, hc]
    have hx := h.idx hi
    have htk : takes T i = o.hasArg := by simp [takes, hi]
    rw [hsh]
    simp only [shortL, h.findShort hi hc]
    cases os with
    | nil =>
      refine ⟨o, rfl, ?_⟩
      simp only [shorts, List.filterMap_nil, if_true, List.dropLast_singleton, List.map_nil, St.sets, List.foldl_nil, hx, htk]
      cases v with
      | some v => simp
      | none => cases o.hasArg <;> cases nx <;> simp
    | cons o' os =>
      have hne : shorts (o' :: os) ≠ [] := by
        obtain ⟨-, hs'⟩ := hok o' (by simp)
        obtain ⟨c', hc'⟩ := Option.isSome_iff_exists.1 hs'
        simp [shorts, hc']
      rw [if_neg hne]
      obtain ⟨q, q1, q2⟩ := ih (A.set i []) (by simp) fun p hp => hok p (by simp [hp])
      refine ⟨q, by simpa using q1, ?_⟩
      rw [q2]
      simp only [List.dropLast_cons₂, List.map_cons, St.sets, List.foldl_cons, hx]

theorem shorts_ok (h : Table T) {os : List Opt} (hne : os ≠ []) (hok : ∀ o ∈ os, o ∈ T ∧ o.short.isSome) :
    shorts os ≠ [] ∧ ch '=' ∉ shorts os ∧ (shorts os).head? ≠ some (ch '-') := by
  have hm : ∀ c ∈ shorts os, c ≠ ch '=' ∧ c ≠ ch '-' := by
    intro c hc
    obtain ⟨o, ho, e⟩ := List.mem_filterMap.1 hc
    exact h.short o (hok o ho).1 c e
  refine ⟨?_, fun hc => (hm _ hc).1 rfl, ?_⟩
  · cases os with
    | nil => exact absurd rfl hne
    | cons o os =>
      obtain ⟨-, hs'⟩ := hok o (by simp)
      obtain ⟨c', hc'⟩ := Option.isSome_iff_exists.1 hs'
      simp [shorts, hc']
  · intro hc
    exact (hm _ (List.mem_of_mem_head? hc)).2 rfl

theorem step_arg (i : Nat) (rest : List Str) (A : St) {a : Str} (h0 : a ≠ []) (h1 : a.head? ≠ some (ch '-')) :
    parseL T i (a :: rest) A = parseL T (i + 1) rest { A with args := A.args ++ [a] } := by
  have e1 : (str "-").isPrefixOf a = false := by
    cases a with
    | nil => rfl
    | cons c a =>
      have : c ≠ ch '-' := fun e => h1 (by simp [e])
      have h45 : ¬ ch '-' = c := fun e => this e.symm
      simp [str, List.isPrefixOf, h45]
  have e2 : (str "--").isPrefixOf a = false := by
    cases a with
    | nil => rfl
    | cons c a =>
      have : c ≠ ch '-' := fun e => h1 (by simp [e])
      have h45 : ¬ ch '-' = c := fun e => this e.symm
      simp [str, List.isPrefixOf, h45]
  have e3 : a ≠ str "--" := fun e => by subst e; revert e2; decide
  cases rest with
  | nil => simp [parseL, h0, e1, e2, e3]
  | cons b rest => simp [parseL, h0, e1, e2, e3]

theorem long_pre (x : Str) : (str "--").isPrefixOf (str "--" ++ x) = true ∧ (str "--" ++ x).drop 2 = x ∧ str "--" ++ x ≠ [] ∧ (x ≠ [] → str "--" ++ x ≠ str "--") ∧
    afterEq (str "--" ++ x) = afterEq x := by
  refine ⟨?_, ?_, ?_, ?_, ?_⟩
  · exact List.isPrefixOf_iff_prefix.2 (List.prefix_append _ _)
  · rfl
  · intro e; cases e
  · intro hx e; exact hx (by simpa using e)
  · rfl

theorem step_long (i : Nat) (rest : List Str) (A : St) {x : Str} {o : Nat} (hx : x ≠ []) (ho : findLong T (beforeEq x) = some o) (hv : takes T o = false ∨ afterEq x ≠ []) :
    parseL T i ((str "--" ++ x) :: rest) A = parseL T (i + 1) rest (A.set o (afterEq x)) := by
  obtain ⟨p1, p2, p3, p4, p5⟩ := long_pre x
  have hv' : ¬ (takes T o = true ∧ afterEq x = []) := by
    rcases hv with hv | hv <;> simp [hv]
  cases rest with
  | nil => conv_lhs => rw [parseL, if_neg p3, if_neg (p4 hx), if_pos p1, p2, ho, p5]
           rfl
  | cons b rest => rw [parseL, if_neg p3, if_neg (p4 hx), if_pos p1, p2, ho, p5]; exact if_neg hv'

theorem step_sep (i : Nat) (b : Str) (rest : List Str) (A : St) {x : Str} {o : Nat} (hx : x ≠ []) (ho : findLong T (beforeEq x) = some o) (hv : takes T o = true)
    (he : afterEq x = []) : parseL T i ((str "--" ++ x) :: b :: rest) A = parseL T (i + 2) rest (A.set o b) := by
  obtain ⟨p1, p2, p3, p4, p5⟩ := long_pre x
  rw [parseL, if_neg p3, if_neg (p4 hx), if_pos p1, p2, ho, p5]; exact if_pos ⟨hv, he⟩

theorem short_pre {x : Str} (hx : x.head? ≠ some (ch '-')) : (str "-").isPrefixOf (str "-" ++ x) = true ∧ (str "--").isPrefixOf (str "-" ++ x) = false ∧
    (str "-" ++ x).drop 1 = x ∧ str "-" ++ x ≠ [] ∧ str "-" ++ x ≠ str "--" ∧ afterEq (str "-" ++ x) = afterEq x ∧ (ch '=' ∈ str "-" ++ x ↔ ch '=' ∈ x) := by
  have e2 : (str "--").isPrefixOf (str "-" ++ x) = false := by
    cases x with
    | nil => rfl
    | cons c a =>
      have : c ≠ ch '-' := fun e => hx (by simp [e])
      have h45 : ¬ ch '-' = c := fun e => this e.symm
      simp [str, List.isPrefixOf, h45]
  refine ⟨?_, e2, rfl, ?_, ?_, rfl, ?_⟩
  · exact List.isPrefixOf_iff_prefix.2 (List.prefix_append _ _)
  · intro e; cases e
  · intro e; rw [e] at e2; revert e2; decide
  · have : ch '=' ∉ str "-" := by decide
    simp [this]

theorem step_short (i : Nat) (rest : List Str) (A A' : St) {x : Str} (hx : x.head? ≠ some (ch '-'))
    (ho : shortL T (if ch '=' ∈ x then some (afterEq x) else none) rest.head? (beforeEq x) A = (A', some false)) :
    parseL T i ((str "-" ++ x) :: rest) A = parseL T (i + 1) rest A' := by
  obtain ⟨p1, p2, p3, p4, p5, p6, p7⟩ := short_pre hx
  cases rest with
  | nil =>
    conv_lhs => rw [parseL, if_neg p4, if_neg p5, if_neg (by simp [p2]), if_pos p1, p3, p6]
    simp only [p7]
    simp only [List.head?_nil] at ho
    rw [ho]; rfl
  | cons b rest =>
    rw [parseL, if_neg p4, if_neg p5, if_neg (by simp [p2]), if_pos p1, p3, p6]
    simp only [p7]
    simp only [List.head?_cons] at ho
    rw [ho]

theorem step_shortSep (i : Nat) (b : Str) (rest : List Str) (A A' : St) {x : Str} (hx : x.head? ≠ some (ch '-'))
    (ho : shortL T (if ch '=' ∈ x then some (afterEq x) else none) (some b) (beforeEq x) A = (A', some true)) :
    parseL T i ((str "-" ++ x) :: b :: rest) A = parseL T (i + 2) rest A' := by
  obtain ⟨p1, p2, p3, p4, p5, p6, p7⟩ := short_pre hx
  rw [parseL, if_neg p4, if_neg p5, if_neg (by simp [p2]), if_pos p1, p3, p6]
  simp only [p7]
  rw [ho]

theorem set_args (A : St) (i : Nat) (v : Str) : (A.set i v).args = A.args := by
  unfold St.set; split <;> rfl

theorem sets_args (l : List (Str × Str)) : ∀ A : St, (St.sets T A l).args = A.args := by
  induction l with
  | nil => intro A; rfl
  | cons x l ih => intro A; rw [St.sets, List.foldl_cons]; exact (ih _).trans (set_args ..)

theorem sets_append (l l' : List (Str × Str)) (A : St) : St.sets T A (l ++ l') = St.sets T (St.sets T A l) l' := by simp [St.sets]

theorem dropLast_map_last {os : List Opt} {q : Opt} (hq : os.getLast? = some q) : os.map (fun o => (o.name, ([] : Str))) =
    os.dropLast.map (fun o => (o.name, [])) ++ [(q.name, [])] := by
  have hne : os ≠ [] := by rintro rfl; simp at hq
  have : os.getLast hne = q := by rw [List.getLast?_eq_some_getLast hne] at hq; simpa using hq
  conv_lhs => rw [← List.dropLast_append_getLast hne, this]
  simp

/-- after an item: the next items, or the end -/
theorem item_ok (h : Table T) (it : Item) (hit : it.Ok T) (i : Nat) (rest : List Str) (A : St) :
    parseL T i (it.text ++ rest) A = parseL T (i + it.text.length) rest { St.sets T A it.options with args := A.args ++ it.args } := by
  have hsa : ∀ l, ({ St.sets T A l with args := A.args ++ [] } : St) = St.sets T A l := by
    intro l
    have := sets_args (T := T) l A
    rw [List.append_nil, ← this]
  cases it with
  | flag o =>
    obtain ⟨ho, hl, ha⟩ := hit
    obtain ⟨n, hn⟩ := Option.isSome_iff_exists.1 hl
    obtain ⟨k, hk⟩ := List.mem_iff_getElem?.1 ho
    obtain ⟨l1, l2⟩ := h.long o ho n hn
    obtain ⟨b1, b2⟩ := before_none l2
    simp only [Item.text, Item.options, Item.args, hn, Option.getD_some, hsa, List.length_cons, List.length_nil, Nat.zero_add, List.singleton_append]
    rw [step_long i rest A l1 (o := k) (by rw [b1]; exact h.findLong hk hn) (Or.inl (by simp [takes, hk, ha])), b2]
    simp [St.sets, h.idx hk]
  | eq o v =>
    obtain ⟨ho, hl, ha⟩ := hit
    obtain ⟨n, hn⟩ := Option.isSome_iff_exists.1 hl
    obtain ⟨k, hk⟩ := List.mem_iff_getElem?.1 ho
    obtain ⟨l1, l2⟩ := h.long o ho n hn
    obtain ⟨b1, b2⟩ := before_long l2 v
    simp only [Item.text, Item.options, Item.args, hn, Option.getD_some, hsa, List.length_cons, List.length_nil, Nat.zero_add, List.singleton_append]
    rw [List.append_assoc, List.append_assoc]
    rw [List.append_assoc] at b1 b2
    rw [step_long i rest A (by simp [l1]) (o := k) (by rw [b1]; exact h.findLong hk hn) (Or.inr (by rw [b2]; exact ha)), b2]
    simp [St.sets, h.idx hk]
  | sep o v =>
    obtain ⟨ho, hl, ha⟩ := hit
    obtain ⟨n, hn⟩ := Option.isSome_iff_exists.1 hl
    obtain ⟨k, hk⟩ := List.mem_iff_getElem?.1 ho
    obtain ⟨l1, l2⟩ := h.long o ho n hn
    obtain ⟨b1, b2⟩ := before_none l2
    simp only [Item.text, Item.options, Item.args, hn, Option.getD_some, hsa, List.length_cons, List.length_nil, Nat.zero_add, List.cons_append, List.nil_append]
    rw [step_sep i v rest A l1 (o := k) (by rw [b1]; exact h.findLong hk hn) (by simp [takes, hk, ha]) b2]
    simp [St.sets, h.idx hk]
  | short os =>
    obtain ⟨hne, hok, ha⟩ := hit
    obtain ⟨s1, s2, s3⟩ := shorts_ok h hne hok
    obtain ⟨b1, b2⟩ := before_none s2
    obtain ⟨q, q1, q2⟩ := shortL_ok h none rest.head? os A hne hok
    have hq : q.hasArg = false := ha q q1
    simp only [Item.text, Item.options, Item.args, hsa, List.length_cons, List.length_nil, Nat.zero_add, List.singleton_append]
    rw [step_short i rest A _ s3 (by rw [if_neg s2, b1, q2, hq]; rfl), dropLast_map_last q1, sets_append]
    rfl
  | shortEq os v =>
    obtain ⟨hne, hok, ha⟩ := hit
    obtain ⟨s1, s2, s3⟩ := shorts_ok h hne hok
    obtain ⟨b1, b2⟩ := before_long s2 v
    obtain ⟨q, q1, q2⟩ := shortL_ok h (some v) rest.head? os A hne hok
    simp only [Item.text, Item.options, Item.args, hsa, List.length_cons, List.length_nil, Nat.zero_add, List.singleton_append]
    rw [List.append_assoc, List.append_assoc]
    rw [List.append_assoc] at b1 b2
    have hh : (shorts os ++ (str "=" ++ v)).head? ≠ some (ch '-') := by
      cases hs : shorts os with
      | nil => exact absurd hs s1
      | cons c r => rw [hs] at s3; simpa using s3
    have hm : ch '=' ∈ shorts os ++ (str "=" ++ v) := by
      have : ch '=' ∈ str "=" := by decide
      simp [this]
    rw [step_short i rest A _ hh (by rw [if_pos hm, b1, b2, q2]; rfl), q1, sets_append]
    rfl
  | shortSep os v =>
    obtain ⟨hne, hok, ha⟩ := hit
    obtain ⟨s1, s2, s3⟩ := shorts_ok h hne hok
    obtain ⟨b1, b2⟩ := before_none s2
    obtain ⟨q, q1, q2⟩ := shortL_ok h none (some v) os A hne hok
    have hq : q.hasArg = true := ha q q1
    simp only [Item.text, Item.options, Item.args, hsa, List.length_cons, List.length_nil, Nat.zero_add, List.cons_append, List.nil_append]
    rw [step_shortSep i v rest A _ s3 (by rw [if_neg s2, b1, q2, hq]; rfl), q1, sets_append]
    rfl
  | arg s =>
    obtain ⟨h0, h1⟩ := hit
    simp only [Item.text, Item.options, Item.args, List.length_cons, List.length_nil, Nat.zero_add, List.singleton_append]
    rw [step_arg i rest A h0 h1]
    rfl

/-- all items of a command line -/
theorem items_ok (h : Table T) (items : List Item) : (∀ it ∈ items, it.Ok T) → ∀ (i : Nat) (rest : List Str) (A : St),
    parseL T i (items.flatMap Item.text ++ rest) A = parseL T (i + (items.flatMap Item.text).length) rest
      { St.sets T A (items.flatMap Item.options) with args := A.args ++ items.flatMap Item.args } := by
  induction items with
  | nil => intro _ i rest A; simp [St.sets]
  | cons it items ih =>
    intro hok i rest A
    rw [List.flatMap_cons, List.append_assoc, item_ok h it (hok it (by simp)), ih fun x hx => hok x (by simp [hx])]
    rw [List.flatMap_cons, List.flatMap_cons, sets_append, List.length_append, ← Nat.add_assoc, List.append_assoc]
    have : ∀ (l : List (Str × Str)) (B : St) (a b : List Str), ({ St.sets T { B with args := a } l with args := b } : St) = { St.sets T B l with args := b } := by
      intro l
      induction l with
      | nil => intro B a b; rfl
      | cons x l ihl =>
        intro B a b
        have e : St.set { B with args := a } (idxOf T x.1) x.2 = { B.set (idxOf T x.1) x.2 with args := a } := by
          unfold St.set
          split <;> simp_all
        simp only [St.sets, List.foldl_cons]
        rw [e]
        exact ihl _ _ _
    rw [this]

/-! ## reading options -/

theorem set_find (A : St) (i j : Nat) (v : Str) : ((A.set i v).active.find? fun x => decide (x.1 = j)) =
    ((A.active.find? fun x => decide (x.1 = j)).or (if i = j then some (i, v) else none)) := by
  unfold St.set
  split
  · rename_i hx
    by_cases e : i = j
    · subst e
      obtain ⟨x, h1, h2⟩ := List.any_eq_true.1 hx
      cases hf : A.active.find? (fun x => decide (x.1 = i)) with
      | none => exact absurd h2 (by simpa using List.find?_eq_none.1 hf x h1)
      | some y => simp
    · rw [if_neg e]; simp
  · rw [List.find?_append]
    congr 1
    by_cases e : i = j <;> simp [e]

theorem sets_find (h : Table T) {j : Nat} {o : Opt} (ho : T[j]? = some o) (l : List (Str × Str)) : ∀ A : St, (∀ x ∈ l, ∃ p ∈ T, p.name = x.1) →
    ((St.sets T A l).active.find? fun x => decide (x.1 = j)).map Prod.snd =
    ((A.active.find? fun x => decide (x.1 = j)).map Prod.snd).or ((l.find? fun x => decide (x.1 = o.name)).map Prod.snd) := by
  induction l with
  | nil => intro A _; simp [St.sets]
  | cons x l ih =>
    intro A hl
    rw [St.sets, List.foldl_cons]
    have := ih (A.set (idxOf T x.1) x.2) fun y hy => hl y (by simp [hy])
    rw [St.sets] at this
    rw [this, set_find]
    obtain ⟨p, hp, hpn⟩ := hl x (by simp)
    obtain ⟨k, hk⟩ := List.mem_iff_getElem?.1 hp
    have hki : idxOf T x.1 = k := by rw [← hpn]; exact h.idx hk
    have hiff : (k = j) ↔ x.1 = o.name := by
      constructor
      · rintro rfl
        rw [hk] at ho
        rw [← hpn, Option.some.inj ho]
      · intro e
        have h1 := h.findName hk
        have h2 := h.findName ho
        rw [hpn, e, h2] at h1
        exact (Option.some.inj h1).symm
    rw [hki, List.find?_cons]
    by_cases e : k = j
    · rw [if_pos e, decide_eq_true (hiff.1 e)]
      cases A.active.find? (fun x => decide (x.1 = j)) <;> simp
    · rw [if_neg e, decide_eq_false (fun c => e (hiff.2 c))]
      simp

theorem options_names {it : Item} (hok : it.Ok T) : ∀ x ∈ it.options, ∃ p ∈ T, p.name = x.1 := by
  intro x hx
  have hlast : ∀ (os : List Opt) (v : Str), (∀ o ∈ os, o ∈ T ∧ o.short.isSome) →
      x ∈ (os.dropLast.map fun o => (o.name, ([] : Str))) ++ (os.getLast?.toList.map fun o => (o.name, v)) → ∃ p ∈ T, p.name = x.1 := by
    intro os v ho hx
    rcases List.mem_append.1 hx with hx | hx
    · obtain ⟨o, h1, rfl⟩ := List.mem_map.1 hx
      exact ⟨o, (ho o (List.dropLast_subset _ h1)).1, rfl⟩
    · obtain ⟨o, h1, rfl⟩ := List.mem_map.1 hx
      exact ⟨o, (ho o (List.mem_of_getLast? (Option.mem_toList.1 h1))).1, rfl⟩
  cases it with
  | flag o => simp only [Item.options, List.mem_singleton] at hx; subst hx; exact ⟨o, hok.1, rfl⟩
  | eq o v => simp only [Item.options, List.mem_singleton] at hx; subst hx; exact ⟨o, hok.1, rfl⟩
  | sep o v => simp only [Item.options, List.mem_singleton] at hx; subst hx; exact ⟨o, hok.1, rfl⟩
  | short os =>
    obtain ⟨o, h1, rfl⟩ := List.mem_map.1 hx
    exact ⟨o, (hok.2.1 o h1).1, rfl⟩
  | shortEq os v => exact hlast os v hok.2.1 hx
  | shortSep os v => exact hlast os v hok.2.1 hx
  | arg s => simp [Item.options] at hx

/-- the value found in the state is the first value given -/
theorem value_find (h : Table T) {items : List Item} (hok : ∀ it ∈ items, it.Ok T) (a : List Str) {o : Opt} (ho : o ∈ T) (d : Str) :
    get T { St.sets T St.init (items.flatMap Item.options) with args := a } o.name d = (valueOf items o.name).getD d ∧
    isSet T { St.sets T St.init (items.flatMap Item.options) with args := a } o.name = (valueOf items o.name).isSome := by
  obtain ⟨j, hj⟩ := List.mem_iff_getElem?.1 ho
  have hl : ∀ x ∈ items.flatMap Item.options, ∃ p ∈ T, p.name = x.1 := by
    intro x hx
    obtain ⟨it, h1, h2⟩ := List.mem_flatMap.1 hx
    exact options_names (hok it h1) x h2
  have key := sets_find h hj _ St.init hl
  have e0 : (St.init.active.find? fun x => decide (x.1 = j)) = none := rfl
  rw [e0] at key
  simp only [Option.map_none, Option.none_or] at key
  constructor
  · simp only [get, h.findName hj, key, valueOf]
  · simp only [isSet, h.findName hj, valueOf]
    rw [← key, Option.isSome_map]
    rw [Bool.eq_iff_iff, List.any_eq_true, List.find?_isSome]

/-- **C87** (options).  Let the options of `T` have different names, long names and letters.  Write a command line out of long options (`--opt`, `--opt=value`, `--opt value`), groups of
short options (`-abc`, `-abc=value`, `-abc value`) and plain arguments, in any order and number, and after them possibly `--` and anything else.  Then it is accepted, every option has exactly
the value given for it (the first one if it is given more than once) and is set exactly if it is given, and the list of arguments is the plain arguments, followed by everything after `--`,
in the order of the command line. -/
theorem C87_options_partial (h : Table T) (items : List Item) (hok : ∀ it ∈ items, it.Ok T) (tail : Option (List Str)) :
    let argv := items.flatMap Item.text ++ dashed tail
    accepted T argv = true ∧ (parse T argv).1.args = items.flatMap Item.args ++ tail.getD [] ∧
    ∀ o ∈ T, ∀ d, get T (parse T argv).1 o.name d = (valueOf items o.name).getD d ∧ isSet T (parse T argv).1 o.name = (valueOf items o.name).isSome := by
  intro argv
  have hp : parse T argv = ({ St.sets T St.init (items.flatMap Item.options) with args := items.flatMap Item.args ++ tail.getD [] }, (parse T argv).2) ∧
      argv.length + 1 ≤ (parse T argv).2 := by
    by_cases h0 : argv = []
    · have h1 : items.flatMap Item.text = [] ∧ tail = none := by
        have := List.append_eq_nil_iff.1 h0
        refine ⟨this.1, ?_⟩
        cases tail with
        | none => rfl
        | some r => exact absurd this.2 (by simp [dashed])
      have h2 : items = [] := by
        cases items with
        | nil => rfl
        | cons it items =>
          have := (List.append_eq_nil_iff.1 ((List.flatMap_cons).symm.trans h1.1)).1
          cases it <;> simp [Item.text] at this
      subst h2
      rw [h1.2, h0]
      exact ⟨rfl, Nat.le_refl _⟩
    · unfold parse
      rw [if_neg h0]
      have hi := items_ok h items hok 1 (dashed tail) St.init
      have ha : parseL T 1 argv St.init = _ := hi
      rw [ha]
      have hlen : argv.length = (items.flatMap Item.text).length + (dashed tail).length := List.length_append
      have ei : St.init.args = [] := rfl
      rw [ei, List.nil_append]
      cases tail with
      | none =>
        simp only [dashed, List.length_nil, Nat.add_zero] at hlen
        simp only [dashed, parseL, Option.getD_none, List.append_nil]
        exact ⟨trivial, by omega⟩
      | some r =>
        cases r with
        | nil =>
          simp only [dashed, List.length_cons, List.length_nil] at hlen
          simp only [dashed]
          have e1 : ∀ (k : Nat) (A : St), parseL T k [str "--"] A = (A, k + 1) := fun k A => rfl
          rw [e1]
          simp only [Option.getD_some, List.append_nil]
          exact ⟨trivial, by omega⟩
        | cons b r =>
          simp only [dashed, List.length_cons] at hlen
          simp only [dashed]
          have e1 : ∀ (k : Nat) (A : St), parseL T k (str "--" :: b :: r) A = ({ A with args := A.args ++ b :: r }, k + 2 + r.length) := fun k A => rfl
          rw [e1]
          exact ⟨rfl, by simp only; omega⟩
  have e1 : (parse T argv).1 = { St.sets T St.init (items.flatMap Item.options) with args := items.flatMap Item.args ++ tail.getD [] } := by rw [hp.1]
  refine ⟨decide_eq_true hp.2, by rw [e1], fun o ho d => ?_⟩
  rw [e1]
  exact value_find h hok _ ho d

/-- an element of a command line that looks like an option but is none: `--` or `-` followed by something the table does not have -/
def Unknown (T : List Opt) (a : Str) : Prop :=
  (∃ n, a = str "--" ++ n ∧ n ≠ [] ∧ ∀ o ∈ T, o.long ≠ some (n.takeWhile fun c => decide (c ≠ ch '='))) ∨
  ∃ os : List Opt, ∃ (c : Byte) (r : Str), (∀ o ∈ os, o ∈ T ∧ o.short.isSome) ∧ a = str "-" ++ shorts os ++ c :: r ∧ c ≠ ch '=' ∧ c ≠ ch '-' ∧ ∀ o ∈ T, o.short ≠ some c

theorem find_none {α : Type} [DecidableEq α] (f : Opt → Option α) {n : α} (hn : ∀ o ∈ T, f o ≠ some n) : T.findIdx? (fun o => decide (f o = some n)) = none := by
  rw [List.findIdx?_eq_none_iff]
  intro o ho
  exact decide_eq_false (hn o ho)

theorem shortL_bad (h : Table T) (v : Option Str) (nx : Option Str) {c : Byte} (hc : ∀ o ∈ T, o.short ≠ some c) (r : Str) (os : List Opt) :
    ∀ A : St, (∀ o ∈ os, o ∈ T ∧ o.short.isSome) → (shortL T v nx (shorts os ++ c :: r) A).2 = none := by
  induction os with
  | nil =>
    intro A _
    have : findShort T c = none := find_none Opt.short hc
    simp [shorts, shortL, this]
  | cons o os ih =>
    intro A hok
    obtain ⟨hT, hs⟩ := hok o (by simp)
    obtain ⟨c', hc'⟩ := Option.isSome_iff_exists.1 hs
    obtain ⟨i, hi⟩ := List.mem_iff_getElem?.1 hT
    have hsh : shorts (o :: os) = c' :: shorts os := by simp [shorts, hc']
    rw [hsh, List.cons_append, shortL, h.findShort hi hc']
    simp only
    rw [if_neg (by simp)]
    exact ih _ fun p hp => hok p (by simp [hp])

theorem step_unknown (h : Table T) {a : Str} (ha : Unknown T a) (i : Nat) (rest : List Str) (A : St) : (parseL T i (a :: rest) A).2 = i := by
  rcases ha with ⟨n, rfl, hn, hu⟩ | ⟨os, c, r, hos, rfl, hc, hc', hu⟩
  · obtain ⟨p1, p2, p3, p4, p5⟩ := long_pre n
    have hf : findLong T (beforeEq n) = none := find_none Opt.long hu
    cases rest with
    | nil => rw [parseL, if_neg p3, if_neg (p4 hn), if_pos p1, p2, hf]
    | cons b rest => rw [parseL, if_neg p3, if_neg (p4 hn), if_pos p1, p2, hf]
  · rw [List.append_assoc]
    have hall : ∀ x ∈ shorts os ++ [c], x ≠ ch '=' ∧ x ≠ ch '-' := by
      intro x hx
      rcases List.mem_append.1 hx with hx | hx
      · obtain ⟨o, ho, e⟩ := List.mem_filterMap.1 hx
        exact h.short o (hos o ho).1 x e
      · rw [List.mem_singleton.1 hx]; exact ⟨hc, hc'⟩
    have hh : (shorts os ++ c :: r).head? ≠ some (ch '-') := by
      intro e
      cases hs : shorts os with
      | nil => rw [hs] at e; exact hc' (by simpa using e)
      | cons x l => rw [hs] at e; exact (hall x (by simp [hs])).2 (by simpa using e)
    obtain ⟨p1, p2, p3, p4, p5, p6, p7⟩ := short_pre hh
    obtain ⟨t, ht⟩ : ∃ t, beforeEq (shorts os ++ c :: r) = shorts os ++ c :: t := by
      refine ⟨beforeEq r, ?_⟩
      have : shorts os ++ c :: r = (shorts os ++ [c]) ++ r := by simp
      unfold beforeEq
      rw [this, List.takeWhile_append_of_pos fun x hx => decide_eq_true (hall x hx).1]
      simp
    cases rest with
    | nil =>
      rw [parseL, if_neg p4, if_neg p5, if_neg (by simp [p2]), if_pos p1, p3, p6, ht]
      have := shortL_bad h (if ch '=' ∈ str "-" ++ (shorts os ++ c :: r) then some (afterEq (shorts os ++ c :: r)) else none) none hu t os A hos
      split
      · rfl
      · rename_i e; rw [e] at this; cases this
    | cons b rest =>
      rw [parseL, if_neg p4, if_neg p5, if_neg (by simp [p2]), if_pos p1, p3, p6, ht]
      have := shortL_bad h (if ch '=' ∈ str "-" ++ (shorts os ++ c :: r) then some (afterEq (shorts os ++ c :: r)) else none) (some b) hu t os A hos
      split
      · rfl
      · rename_i e; rw [e] at this; cases this
      · rename_i e; rw [e] at this; cases this

/-- **C87** (unknown options).  If the first thing on the command line that is not a valid item looks like an option and is not one of the table, then the command line is not accepted, and
the position reported is the position of that element, whatever follows it. -/
theorem C87_unknown (h : Table T) (items : List Item) (hok : ∀ it ∈ items, it.Ok T) {a : Str} (ha : Unknown T a) (rest : List Str) :
    accepted T (items.flatMap Item.text ++ a :: rest) = false ∧ (parse T (items.flatMap Item.text ++ a :: rest)).2 = (items.flatMap Item.text).length + 1 := by
  have hp : (parse T (items.flatMap Item.text ++ a :: rest)).2 = (items.flatMap Item.text).length + 1 := by
    unfold parse
    rw [if_neg (by simp), items_ok h items hok, step_unknown h ha]
    omega
  refine ⟨decide_eq_false ?_, hp⟩
  rw [hp]
  simp only [List.length_append, List.length_cons]
  omega

/-! ## what goes wrong -/

/-- **C87** (violation: dropped arguments).  A lone `-` (by convention, the standard input) and an empty argument are dropped: they are neither reported nor in the list of arguments. -/
theorem C87_violation_dropped (T : List Opt) (f : Str) (hf : f ≠ []) (hd : f.head? ≠ some (ch '-')) :
    (∀ a, a = str "-" ∨ a = [] → accepted T [a, f] = true ∧ (parse T [a, f]).1.args = [f]) := by
  intro a ha
  have e : parseL T 1 [a, f] St.init = parseL T 2 [f] St.init := by
    rcases ha with rfl | rfl
    · rfl
    · rfl
  have e2 := step_arg (T := T) 2 [] St.init hf hd
  have e3 : parse T [a, f] = (⟨[], [f]⟩, 4) := by
    unfold parse
    rw [if_neg (by simp), e, e2]
    rfl
  constructor
  · unfold accepted; rw [e3]; exact decide_eq_true (by simp)
  · rw [e3]

/-- **C87** (violation: empty values).  An option that needs a value and gets an empty one takes the next argument instead: `--opt= file` sets `opt` to `file`, and `file` is not in the list of
arguments any more. -/
theorem C87_violation_empty_value (h : Table T) {o : Opt} (ho : o ∈ T) {n : Str} (hn : o.long = some n) (ha : o.hasArg = true) (f : Str) :
    accepted T [str "--" ++ n ++ str "=", f] = true ∧ get T (parse T [str "--" ++ n ++ str "=", f]).1 o.name [] = f ∧ (parse T [str "--" ++ n ++ str "=", f]).1.args = [] := by
  obtain ⟨k, hk⟩ := List.mem_iff_getElem?.1 ho
  obtain ⟨l1, l2⟩ := h.long o ho n hn
  obtain ⟨b1, b2⟩ := before_long l2 []
  rw [List.append_nil] at b1 b2
  have e := step_sep (T := T) 1 f [] St.init (x := n ++ str "=") (o := k) (by simp [l1]) (by rw [b1]; exact h.findLong hk hn) (by simp [takes, hk, ha]) b2
  have e3 : parse T [str "--" ++ n ++ str "=", f] = (⟨[(k, f)], []⟩, 4) := by
    unfold parse
    rw [if_neg (by simp), List.append_assoc, e]
    rfl
  rw [e3]
  refine ⟨?_, ?_, rfl⟩
  · unfold accepted; rw [e3]; exact decide_eq_true (by simp)
  · simp [get, h.findName hk]

/-! ## the table of cali-query -/

/-- the option table of `cali-query` (`/repo/src/tools/cali-query/cali-query.cpp:38-106`) -/
def queryTable : List Opt :=
  [⟨str "select", some (str "select"), some (ch 's'), true⟩, ⟨str "aggregate", some (str "aggregate"), none, true⟩,
   ⟨str "aggregate-key", some (str "aggregate-key"), none, true⟩, ⟨str "expand", some (str "expand"), some (ch 'e'), false⟩,
   ⟨str "attributes", some (str "print-attributes"), none, true⟩, ⟨str "sort", some (str "sort-by"), some (ch 'S'), true⟩,
   ⟨str "format", some (str "format"), some (ch 'f'), true⟩, ⟨str "title", some (str "title"), none, true⟩,
   ⟨str "table", some (str "table"), some (ch 't'), false⟩, ⟨str "tree", some (str "tree"), some (ch 'T'), false⟩,
   ⟨str "path-attributes", some (str "path-attributes"), none, true⟩, ⟨str "json", some (str "json"), some (ch 'j'), false⟩,
   ⟨str "query", some (str "query"), some (ch 'q'), true⟩, ⟨str "query-file", some (str "query-file"), some (ch 'Q'), true⟩,
   ⟨str "caliper-config", some (str "caliper-config"), some (ch 'P'), true⟩, ⟨str "verbose", some (str "verbose"), some (ch 'v'), false⟩,
   ⟨str "version", some (str "version"), some (ch 'V'), false⟩, ⟨str "output", some (str "output"), some (ch 'o'), true⟩,
   ⟨str "help", some (str "help"), some (ch 'h'), true⟩, ⟨str "list-attributes", some (str "list-attributes"), none, false⟩,
   ⟨str "list-globals", some (str "list-globals"), some (ch 'G'), false⟩]

theorem queryTable_ok : Table queryTable where
  names := by decide +kernel
  longs := by decide +kernel
  shorts := by decide +kernel
  long := by
    have : ∀ o ∈ queryTable, (o.long.all fun n => decide (n ≠ [] ∧ ch '=' ∉ n)) = true := by decide +kernel
    intro o ho n hn
    have := this o ho
    rw [hn] at this
    exact of_decide_eq_true this
  short := by
    have : ∀ o ∈ queryTable, (o.short.all fun n => decide (n ≠ ch '=' ∧ n ≠ ch '-')) = true := by decide +kernel
    intro o ho n hn
    have := this o ho
    rw [hn] at this
    exact of_decide_eq_true this

/-- option number `i` of `cali-query` -/
def qo (i : Nat) : Opt := queryTable.getD i ⟨[], none, none, false⟩

/-- `cali-query -vt --select=a=1 prof.cali -q "SELECT *" -- -x` -/
def exampleItems : List Item := [.short [qo 15, qo 8], .eq (qo 0) (str "a=1"), .arg (str "prof.cali"), .shortSep [qo 12] (str "SELECT *")]

theorem example_items_ok : ∀ it ∈ exampleItems, it.Ok queryTable := by
  intro it hit
  simp only [exampleItems, List.mem_cons, List.not_mem_nil, or_false] at hit
  rcases hit with rfl | rfl | rfl | rfl <;> simp only [Item.Ok] <;> decide +kernel

/-- the hypotheses of `C87_options_partial` can be met, and its conclusion says something -/
example : exampleItems.flatMap Item.text ++ dashed (some [str "-x"]) =
      [str "-vt", str "--select=a=1", str "prof.cali", str "-q", str "SELECT *", str "--", str "-x"] ∧
    (parse queryTable (exampleItems.flatMap Item.text ++ dashed (some [str "-x"]))).1.args = [str "prof.cali", str "-x"] ∧
    get queryTable (parse queryTable (exampleItems.flatMap Item.text ++ dashed (some [str "-x"]))).1 (str "select") [] = str "a=1" := by
  obtain ⟨-, h2, h3⟩ := C87_options_partial queryTable_ok exampleItems example_items_ok (some [str "-x"])
  refine ⟨by decide +kernel, ?_, ?_⟩
  · rw [h2]; decide +kernel
  · have e : str "select" = (qo 0).name := by decide +kernel
    rw [e, (h3 (qo 0) (by decide +kernel) []).1]
    decide +kernel

/-- `-xyz` and `--nope` are unknown -/
example : Unknown queryTable (str "--nope=1") ∧ Unknown queryTable (str "-vxt") := by
  refine ⟨Or.inl ⟨str "nope=1", by decide +kernel, by decide +kernel, by decide +kernel⟩, Or.inr ⟨[qo 15], ch 'x', str "t", by decide +kernel, by decide +kernel, by decide +kernel,
    by decide +kernel, by decide +kernel⟩⟩

end Verif.Cli
