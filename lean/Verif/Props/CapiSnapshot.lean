import Verif.Capi.SnapshotLemmas
import Verif.Props.Globals
/-!
# C77: snapshots in the C interface
-/
namespace Verif.Capi
open Verif MTree RT CSR

variable {σ : Type}

/-- packing and reading back any entries with at most four references -/
theorem read_entries {W : Words} {t t' : Tree} (I : Inv t) (I' : Inv t') (x : Ext t t') (hsz : t.numBlocks * t.npb ≤ invId) (es : List Entry)
    (hd : ∀ e ∈ es, ∃ d, Den t e d) (hw : ∀ e ∈ es, isImmediate t e = true → W.Reads e.val)
    (h4 : (es.filter fun e => !isImmediate t e).length ≤ 4) (h120 : es.length ≤ 120) (L : Nat) (r : Rec)
    (hr : (Rec.init L).append (es.map (packEntry W t)) = some r) (hle : r.neededLen ≤ L) :
    entriesOf W t' r.buffer = some ((es.filter fun e => !isImmediate t e) ++ es.filter fun e => isImmediate t e, r.neededLen) := by
  have hp : ∀ e ∈ es, resolve W t' (packEntry W t e) = some e ∧ e.isReference t = !isImmediate t e ∧ packEntry W t e ≠ .empty := by
    intro e he
    obtain ⟨d, hd⟩ := hd e he
    exact resolve_pack I I' x hsz hd (hw e he)
  obtain ⟨e1, e2⟩ := refs_pack W t es fun e he => (hp e he).2
  have l1 : (refs (es.map (packEntry W t))).length = (es.filter fun e => !isImmediate t e).length := by
    simpa using congrArg List.length e1
  have l2 : (imms (es.map (packEntry W t))).length = (es.filter fun e => isImmediate t e).length := by
    simpa using congrArg List.length e2
  have l3 : (es.filter fun e => isImmediate t e).length ≤ es.length := List.length_filter_le ..
  have hL : 2 ≤ L := by
    obtain ⟨r', hr', _, _, hn⟩ := C20_append_in_bounds L (es.map (packEntry W t))
    rw [hr] at hr'
    cases hr'
    omega
  have hv : ∀ e ∈ imms (es.map (packEntry W t)), ValidVar e.2 := by
    intro e he
    have : SEntry.imm e.1 e.2 ∈ (es.filter fun e => isImmediate t e).map (packEntry W t) := by
      rw [← e2]; exact List.mem_map.2 ⟨e, he, rfl⟩
    obtain ⟨y, hy, hye⟩ := List.mem_map.1 this
    obtain ⟨y1, y2⟩ := List.mem_filter.1 hy
    have hr2 := (hw y y1 y2).2
    unfold packEntry at hye
    split at hye
    · cases hye
    · split at hye
      · cases hye
      · injection hye with _ h2
        unfold ValidVar
        rw [← h2]; exact hr2
  obtain ⟨r', hr', hread⟩ := read_all L hL (es.map (packEntry W t)) (by rw [l1]; exact h4) hv (by rw [l2]; omega)
  rw [hr] at hr'
  cases hr'
  obtain ⟨v, v1, v2⟩ := hread hle
  unfold entriesOf
  rw [v1]
  simp only [Option.bind_eq_bind, Option.bind_some]
  rw [v2, e1, e2, ← List.map_append]
  simp only [Option.bind_some]
  rw [mapM_resolve _ (fun e he => by
    rcases List.mem_append.1 he with he | he
    · exact (hp e (List.mem_filter.1 he).1).1
    · exact (hp e (List.mem_filter.1 he).1).1)]
  rfl

theorem forall2_append' {α β : Type} {R : α → β → Prop} {l₁ l₂ : List α} {m₁ m₂ : List β} (h : List.Forall₂ R l₁ m₁) (g : List.Forall₂ R l₂ m₂) :
    List.Forall₂ R (l₁ ++ l₂) (m₁ ++ m₂) := by
  induction h with
  | nil => exact g
  | cons a _ ih => exact .cons a ih

theorem forall2_imp {α β : Type} {R S : α → β → Prop} {l : List α} {m : List β} (h : List.Forall₂ R l m) (f : ∀ a b, R a b → S a b) :
    List.Forall₂ S l m := by
  induction h with
  | nil => exact .nil
  | cons a _ ih => exact .cons (f _ _ a) ih

theorem forall2_filter {es : List Entry} {ds : List (List (Nat × Verif.Val))} {op : σ → Entry → σ × Bool} {cb : Proc σ} {f : Nat × Verif.Val → Bool}
    (h : List.Forall₂ (fun e d => ∀ x, op x e = feedB cb (d.filter f) x) es ds) (x : σ) :
    forEach op es x = feed cb (ds.flatten.filter f) x := by
  have : List.Forall₂ (fun e d => ∀ x, op x e = feedB cb d x) es (ds.map fun d => d.filter f) := by
    induction h with
    | nil => exact .nil
    | cons a _ ih => exact .cons a ih
  rw [forEach_feed cb op es _ this x, List.filter_flatten]

/-- C77, partial.  In every reachable state without hidden attributes in which at most 120 entries are to be recorded, a snapshot pulled into
a buffer of any length: nothing is written beyond the buffer; if the returned size is not larger than the buffer, then, after any
further annotation calls, `cali_unpack_snapshot` runs the callback on exactly what was annotated on the thread and on the process and
what the services measured - until the callback stops it -, `cali_find_first_in_snapshot` returns the first of these values for the
attribute, `cali_find_all_in_snapshot` runs the callback on exactly these values for the attribute (unless the attribute describes
attributes), and each of them reports the size as number of bytes read.
Missing: more than 120 entries (`C77_violated_limit`), attributes that describe attributes (`C77_violated_find_all`), unknown channels
(`C77_violated_no_channel`), services that record references. -/
theorem C77_pull_and_read_partial {s : State} (h : RtReachV s) (th : Nat) (W : Words) (extra : List Entry)
    (hsz : s.tree.numBlocks * s.tree.npb ≤ invId)
    (hex : ∀ e ∈ extra, (∃ k, ImmEntry s.tree e k) ∧ W.Reads e.val)
    (hval : ∀ l, l = .thread th ∨ l = .process → ∀ k v, CurrentValue s l k v → W.Reads v)
    (hlen : extra.length + (BB.snapshot (s.board (.thread th))).length + (BB.snapshot (s.board .process)).length ≤ 120) (L : Nat) :
    ∃ buf n, pull W s th true extra L = some (buf, n) ∧ buf.length = L ∧
      (n ≤ L → ∃ D, Annotated s th (extra.map fun e => (e.attribute s.tree, e.val)) D ∧
        ∀ (ops : List Op), (∀ op ∈ ops, op.attr.Valid s.tree) → NoLoss s (run s ops) →
          (∀ {σ : Type} (cb : Proc σ) (x : σ), unpackSnapshot W (run s ops).tree buf cb x = some (feed cb D x, n)) ∧
          (∀ a, a ≠ invId → findFirst W (run s ops).tree buf a = some ((firstOf a D).getD Val.empty, n)) ∧
          (∀ a, NotMeta (run s ops).tree a → ∀ {σ : Type} (cb : Proc σ) (x : σ),
            findAll W (run s ops).tree buf a cb x = some (feed cb (D.filter fun y => decide (y.1 = a)) x, n))) := by
  obtain ⟨c, Rs⟩ := h.toReach.rel
  have I := Rs.inv
  obtain ⟨⟨dt, t1, t2⟩, t3, t4, t5⟩ := board_entries h (.thread th)
  obtain ⟨⟨dp, p1, p2⟩, p3, p4, p5⟩ := board_entries h .process
  generalize hT : BB.snapshot (s.board (.thread th)) = T at *
  generalize hP : BB.snapshot (s.board .process) = P at *
  have hes : snapEntries s th extra = extra ++ T ++ P := by
    unfold snapEntries
    rw [hT, hP, List.take_of_length_le (l := P) (by omega), List.take_of_length_le]
    simp only [List.length_append]; omega
  have exImm : ∀ e ∈ extra, isImmediate s.tree e = true := fun e he => by
    obtain ⟨⟨k, hk⟩, _⟩ := hex e he
    exact (imm_is hk).1
  have exF : (extra.filter fun e => isImmediate s.tree e) = extra := List.filter_eq_self.2 exImm
  have exF' : (extra.filter fun e => !isImmediate s.tree e) = [] := List.filter_eq_nil_iff.2 (by intro e he; simp [exImm e he])
  have denOf : ∀ {X : List Entry} {d1 d2 : List (List (Nat × Verif.Val))}, List.Forall₂ (Den s.tree) (X.filter fun e => !isImmediate s.tree e) d1 →
      List.Forall₂ (Den s.tree) (X.filter fun e => isImmediate s.tree e) d2 → ∀ e ∈ X, ∃ d, Den s.tree e d := by
    intro X d1 d2 f1 f2 e he
    have aux : ∀ {Y : List Entry} {d : List (List (Nat × Verif.Val))}, List.Forall₂ (Den s.tree) Y d → ∀ e ∈ Y, ∃ d, Den s.tree e d := by
      intro Y d f
      induction f with
      | nil => intro e he; simp at he
      | cons a _ ih =>
        intro e he
        rcases List.mem_cons.1 he with rfl | he
        · exact ⟨_, a⟩
        · exact ih e he
    cases hi : isImmediate s.tree e with
    | true => exact aux f2 e (List.mem_filter.2 ⟨he, hi⟩)
    | false => exact aux f1 e (List.mem_filter.2 ⟨he, by simp [hi]⟩)
  have hd : ∀ e ∈ extra ++ T ++ P, ∃ d, Den s.tree e d := by
    intro e he
    rcases List.mem_append.1 he with he | he
    · rcases List.mem_append.1 he with he | he
      · obtain ⟨⟨k, hk⟩, _⟩ := hex e he
        exact ⟨_, .imm hk⟩
      · exact denOf t1 t4 e he
    · exact denOf p1 p4 e he
  have wv : ∀ l, (l = .thread th ∨ l = .process) → ∀ X : List Entry, ValuesOf s l ((X.filter fun e => isImmediate s.tree e).map (immOf s.tree)) →
      ∀ e ∈ X, isImmediate s.tree e = true → W.Reads e.val := by
    intro l hl X hX e he hi
    have : (e.attribute s.tree, e.val) ∈ (X.filter fun e => isImmediate s.tree e).map (immOf s.tree) :=
      List.mem_map.2 ⟨e, List.mem_filter.2 ⟨he, hi⟩, rfl⟩
    exact hval l hl _ _ ((hX.2 _ _).1 this)
  have hw : ∀ e ∈ extra ++ T ++ P, isImmediate s.tree e = true → W.Reads e.val := by
    intro e he hi
    rcases List.mem_append.1 he with he | he
    · rcases List.mem_append.1 he with he | he
      · exact (hex e he).2
      · exact wv (.thread th) (.inl rfl) T t5 e he hi
    · exact wv .process (.inr rfl) P p5 e he hi
  obtain ⟨r, hr, hrl, _, _⟩ := C20_append_in_bounds L ((extra ++ T ++ P).map (packEntry W s.tree))
  refine ⟨r.buffer, r.neededLen, ?_, hrl, ?_⟩
  · unfold pull
    rw [if_pos rfl, hes, hr]
    rfl
  intro hle
  let D := dt.flatten ++ dp.flatten ++ (extra.map (immOf s.tree) ++ (T.filter fun e => isImmediate s.tree e).map (immOf s.tree) ++
    (P.filter fun e => isImmediate s.tree e).map (immOf s.tree))
  let ds := dt ++ dp ++ (extra.map (fun e => [immOf s.tree e]) ++ (T.filter fun e => isImmediate s.tree e).map (fun e => [immOf s.tree e]) ++
    (P.filter fun e => isImmediate s.tree e).map (fun e => [immOf s.tree e]))
  have hD : ds.flatten = D := by
    have aux : ∀ X : List Entry, (X.map fun e => [immOf s.tree e]).flatten = X.map (immOf s.tree) := by
      intro X
      induction X with
      | nil => rfl
      | cons a X ih => simpa using ih
    simp only [ds, D, List.flatten_append, aux]
  have hex2 : List.Forall₂ (Den s.tree) extra (extra.map fun e => [immOf s.tree e]) := by
    apply forall2_of
    intro e he
    obtain ⟨⟨k, hk⟩, _⟩ := hex e he
    simp only [immOf, (imm_is hk).2]
    exact .imm hk
  refine ⟨D, ⟨dt.flatten, dp.flatten, _, _, t2, p2, t5, p5, rfl⟩, ?_⟩
  intro ops hv nl
  have S := run_sim Rs hv nl
  have hall := read_entries I S.1.inv S.2.1 hsz (extra ++ T ++ P) hd hw
    (by simp only [List.filter_append, exF', List.length_append, List.length_nil]; omega)
    (by simp only [List.length_append]; omega) L r hr hle
  simp only [List.filter_append, exF, exF', List.nil_append] at hall
  have hden : List.Forall₂ (Den (run s ops).tree) (((T.filter fun e => !isImmediate s.tree e) ++ (P.filter fun e => !isImmediate s.tree e)) ++
      ((extra ++ (T.filter fun e => isImmediate s.tree e)) ++ (P.filter fun e => isImmediate s.tree e))) ds :=
    forall2_imp (forall2_append' (forall2_append' t1 p1) (forall2_append' (forall2_append' hex2 t4) p4)) (fun _ _ h => h.ext S.2.1)
  refine ⟨?_, ?_, ?_⟩
  · intro σ cb x
    unfold unpackSnapshot
    rw [hall, Option.map_some]
    rw [forEach_feed cb _ _ ds (forall2_imp hden fun e d hed x => unpackOp_den S.1.inv cb hed x), hD]
  · intro a ha
    unfold findFirst
    rw [hall, Option.map_some, forEach_first S.1.inv ha hden, hD]
  · intro a ha σ cb x
    unfold findAll
    rw [hall, Option.map_some]
    rw [forall2_filter (ds := ds) (f := fun y => decide (y.1 = a)) (forall2_imp hden fun e d hed x => attrOp_den S.1.inv ha cb hed x), hD]

/-- for a region attribute, the first value in what was annotated on the thread is the one of the innermost open region -/
theorem C77_first_is_innermost {s : State} {th : Nat} {extra D : List (Nat × Verif.Val)} (hD : Annotated s th extra D) {a : Nat} {R U : PathL}
    (h : RtReach s) (hR : OpenRegions s (.thread th) R) (hU : OpenUnaligned s (.thread th) U) (hu : ∀ x ∈ U, x.1 ≠ a) {v : Verif.Val}
    (hv : innermost a R = some v) : firstOf a D = some v := by
  obtain ⟨c, Rs⟩ := h.rel
  obtain ⟨Bt, Bp, It, Ip, ⟨R', U', r1, u1, hB⟩, _, _, _, rfl⟩ := hD
  have e1 : R' = R := by rw [(Rs.regions _ _).1 r1, (Rs.regions _ _).1 hR]
  have e2 : U' = U := by rw [(Rs.unaligned _ _).1 u1, (Rs.unaligned _ _).1 hU]
  subst e1 e2
  have h1 : firstOf a R'.reverse = some v := hv
  have h2 : firstOf a U'.reverse = none := by
    simp only [firstOf, Option.map_eq_none_iff, List.find?_eq_none]
    intro y hy
    simpa using hu y (by simpa using hy)
  rw [firstOf_append, firstOf_append]
  rcases hB with rfl | rfl <;> rw [firstOf_append, h1, h2] <;> rfl

/-- The documentation of `cali_channel_pull_snapshot` says that it returns zero if no snapshot was taken; for an unknown channel it takes
none and returns two. -/
theorem C77_violated_no_channel (W : Words) (s : State) (th : Nat) (extra : List Entry) (L : Nat) :
    pull W s th false extra L = some (List.replicate L 0, 2) := by
  simp only [pull, Bool.false_eq_true, if_false, List.map_nil]
  simp [Rec.append, Rec.appendLoop, Rec.appendNodes, Rec.appendImm, Rec.init]

/-- numbers and their two words -/
def intW : Words where
  enc v := ⟨BitVec.ofNat 64 v.ty.code, match v.c with | .inr w => w | .inl _ => 0⟩
  dec c := ⟨c.type, .inr c.val⟩

/-- a callback that collects what it is given -/
def collect : Proc (List (Nat × Verif.Val)) := fun x a v => (x ++ [(a, v)], true)

/-- pulling into a buffer of exactly the needed size and reading back -/
theorem pull_exact {W : Words} {s : State} (I : Inv s.tree) (hsz : s.tree.numBlocks * s.tree.npb ≤ invId) (th : Nat) (extra : List Entry)
    (hd : ∀ e ∈ snapEntries s th extra, ∃ d, Den s.tree e d)
    (hw : ∀ e ∈ snapEntries s th extra, isImmediate s.tree e = true → W.Reads e.val)
    (h4 : ((snapEntries s th extra).filter fun e => !isImmediate s.tree e).length ≤ 4) :
    ∃ buf n, pull W s th true extra n = some (buf, n) ∧ entriesOf W s.tree buf =
      some (((snapEntries s th extra).filter fun e => !isImmediate s.tree e) ++ (snapEntries s th extra).filter fun e => isImmediate s.tree e, n) := by
  obtain ⟨_, _, _, _, h0⟩ := C20_append_in_bounds 0 ((snapEntries s th extra).map (packEntry W s.tree))
  obtain ⟨r, hr, _, _, h1⟩ := C20_append_in_bounds (2 + ((refs ((snapEntries s th extra).map (packEntry W s.tree))).flatMap vlenc).length
        + ((imms ((snapEntries s th extra).map (packEntry W s.tree))).flatMap fun e => vlenc e.1 ++ variantPack e.2).length)
        ((snapEntries s th extra).map (packEntry W s.tree))
  rw [← h1] at hr
  refine ⟨r.buffer, r.neededLen, ?_, ?_⟩
  · unfold pull
    rw [if_pos rfl, hr]
    rfl
  · exact read_entries I I (Ext.refl _) hsz _ hd hw h4 (by unfold snapEntries; simp only [List.length_take]; omega) _ r hr (Nat.le_refl _)

/-- a state with one value of an as-value attribute (id 15, described by the node with attribute 8 (`cali.attribute.name`)) -/
def oneS : State := run exS [.set 3 exW (.ofInt 5)]

/-- `cali_find_all_in_snapshot` reports, for an attribute that describes attributes, nodes of the *description* of an as-value entry:
the snapshot holds the value 5 for attribute 15 only, `cali_unpack_snapshot` and `cali_find_first_in_snapshot` find nothing for
attribute 8 (`cali.attribute.name`), but `cali_find_all_in_snapshot` does. -/
theorem C77_violated_find_all : RtReachV oneS ∧ ∃ buf n, pull intW oneS 3 true [] n = some (buf, n) ∧
    unpackSnapshot intW oneS.tree buf collect [] = some ([(15, .ofInt 5)], n) ∧
    findFirst intW oneS.tree buf 8 = some (Val.empty, n) ∧
    findAll intW oneS.tree buf 8 collect [] = some ([(8, .ofInt 4)], n) := by
  have h : RtReachV oneS := by
    refine run_reachV (s := exS) (.init RT.exTree_reach [7] (fun c => c == 7)) [.set 3 exW (.ofInt 5)] ?_ (by decide) (noLoss_of _ _ [.process] (by decide) (by decide) (by decide))
    intro op ho
    simp only [List.mem_cons, List.not_mem_nil, or_false] at ho
    subst ho
    exact exValid.2.2.2
  refine ⟨h, ?_⟩
  obtain ⟨c, Rs⟩ := h.toReach.rel
  have he : snapEntries oneS 3 [] = [⟨some (.cell 0 15), .ofInt 5⟩] := by decide +kernel
  obtain ⟨buf, n, h1, h2⟩ := pull_exact (W := intW) Rs.inv (by decide +kernel) 3 []
    (by rw [he]; intro e he; simp only [List.mem_singleton] at he; subst he
        exact ⟨_, .imm (k := 15) ⟨.cell 0 15, rfl, .inr (by decide +kernel), by decide, by decide, by decide⟩⟩)
    (by rw [he]; intro e he _; simp only [List.mem_singleton] at he; subst he
        unfold Words.Reads; decide +kernel)
    (by rw [he]; decide +kernel)
  rw [he] at h2
  refine ⟨buf, n, h1, ?_, ?_, ?_⟩ <;> simp only [unpackSnapshot, findFirst, findAll, h2, Option.map_some, Option.some.injEq, Prod.mk.injEq,
    and_true] <;> decide +kernel

/-- 121 measurements -/
def manyE : List Entry := (List.range 121).map fun i => ⟨some (.cell 0 15), .ofInt (BitVec.ofNat 32 i)⟩

/-- A snapshot with more than 120 entries loses entries although it fits into the buffer: 121 measurements, 120 are read. -/
theorem C77_violated_limit : RtReachV exS ∧ (∀ e ∈ manyE, (∃ k, ImmEntry exS.tree e k) ∧ intW.Reads e.val) ∧ manyE.length = 121 ∧
    ∃ buf n D, pull intW exS 3 true manyE n = some (buf, n) ∧ unpackSnapshot intW exS.tree buf collect [] = some (D, n) ∧ D.length = 120 := by
  have h : RtReachV exS := .init RT.exTree_reach _ _
  have hm : ∀ e ∈ manyE, (∃ k, ImmEntry exS.tree e k) ∧ intW.Reads e.val := by
    intro e he
    obtain ⟨i, hi, rfl⟩ := List.mem_map.1 he
    refine ⟨⟨15, .cell 0 15, rfl, .inr (by decide +kernel), by decide, by decide, by decide⟩, ?_, ?_⟩
    · simp only [intW, Val.ofInt, CVar.type]
      rfl
    · show ((2#64 &&& 0xFF#64).toNat ≤ 9)
      decide
  refine ⟨h, hm, by decide, ?_⟩
  obtain ⟨c, Rs⟩ := h.toReach.rel
  have he : snapEntries exS 3 manyE = manyE.take 120 := by decide +kernel
  have hsub : ∀ e ∈ manyE.take 120, e ∈ manyE := fun e he => List.mem_of_mem_take he
  obtain ⟨buf, n, h1, h2⟩ := pull_exact (W := intW) Rs.inv (by decide +kernel) 3 manyE
    (by rw [he]; intro e he; obtain ⟨⟨k, hk⟩, _⟩ := hm e (hsub e he)
        exact ⟨_, .imm hk⟩)
    (by rw [he]; intro e he _; exact (hm e (hsub e he)).2)
    (by rw [he]; decide +kernel)
  rw [he] at h2
  refine ⟨buf, n, (List.range 120).map fun i => (15, .ofInt (BitVec.ofNat 32 i)), h1, ?_, ?_⟩
  · simp only [unpackSnapshot, h2, Option.map_some, Option.some.injEq, Prod.mk.injEq, and_true]
    decide +kernel
  · decide

/-- `NotMeta` can be checked node by node -/
theorem notMeta_of {t : Tree} (I : Inv t) (hc : ∀ b < t.nextBlock, ∀ i < t.npb, ∀ r ∈ t.node b i, r.attr < 12 → r.parent ≠ .root → t.attrOf r.parent < 12) {a : Nat} (ha : 12 ≤ a) :
    NotMeta t a := by
  intro p l hp hl
  have key : t.attrOf p < 12 → ∀ x ∈ l, x.1 < 12 := by
    clear hp
    induction hl with
    | root => intro _ x hx; simp at hx
    | @cell b i r l hn hpar ih =>
      intro h x hx
      have hat : r.attr < 12 := by simpa [Tree.attrOf, Tree.get?, hn] using h
      have hs := (I.alloc b i).1 (by simp [hn])
      rcases List.mem_append.1 hx with hx | hx
      · by_cases hr : r.parent = .root
        · rw [hr] at hpar
          cases hpar
          simp at hx
        · exact ih (hc b hs.1 i (Nat.lt_of_lt_of_le hs.2 (I.idx b hs.1)) r hn hat hr) x hx
      · simp only [List.mem_singleton] at hx
        rw [hx]; exact hat
  intro x hx e
  have := key (by rw [hp]; decide) x hx
  omega

/-- the hypotheses of `C77_pull_and_read_partial` are met: regions and an unaligned value on the thread, a value on the process, two
measurements, a buffer that is large enough -/
example : RtReachV (run exS exOps) ∧ (run exS exOps).tree.numBlocks * (run exS exOps).tree.npb ≤ invId ∧
    (∀ e ∈ manyE.take 2, (∃ k, ImmEntry (run exS exOps).tree e k) ∧ intW.Reads e.val) ∧
    (∀ l, l = .thread 3 ∨ l = .process → ∀ k v, CurrentValue (run exS exOps) l k v → intW.Reads v) ∧
    (manyE.take 2).length + (BB.snapshot ((run exS exOps).board (.thread 3))).length + (BB.snapshot ((run exS exOps).board .process)).length = 5 ∧
    NotMeta (run exS exOps).tree 12 ∧ ∃ L buf n, pull intW (run exS exOps) 3 true (manyE.take 2) L = some (buf, n) ∧ n ≤ L := by
  have h : RtReachV (run exS exOps) := by
    exact run_reachV (s := exS) (.init RT.exTree_reach [7] (fun c => c == 7)) exOps exOps_valid (by decide) (noLoss_of _ _ [.thread 3, .thread 5, .process] (by decide) (by decide) (by decide))
  refine ⟨h, by decide +kernel, ?_, ?_, by decide +kernel, ?_, ?_⟩
  · intro e he
    have : e = ⟨some (.cell 0 15), .ofInt 0⟩ ∨ e = ⟨some (.cell 0 15), .ofInt 1⟩ := by
      have : manyE.take 2 = [⟨some (.cell 0 15), .ofInt 0⟩, ⟨some (.cell 0 15), .ofInt 1⟩] := by decide +kernel
      rw [this] at he
      simpa using he
    rcases this with rfl | rfl <;>
      exact ⟨⟨15, .cell 0 15, rfl, .inr (by decide +kernel), by decide, by decide +kernel, by decide +kernel⟩, by unfold Words.Reads; decide +kernel⟩
  · intro l hl k v hv
    obtain ⟨_, _, _, hx⟩ := board_entries h l
    have hm := (hx.2 k v).2 hv
    obtain ⟨e, he, hee⟩ := List.mem_map.1 hm
    have he := List.mem_of_mem_filter he
    have key : ∀ e ∈ BB.snapshot ((run exS exOps).board (.thread 3)) ++ BB.snapshot ((run exS exOps).board .process),
        isImmediate (run exS exOps).tree e = true → intW.Reads e.val := by
      unfold Words.Reads; decide +kernel
    have hv : v = e.val := by cases hee; rfl
    rw [hv]
    refine key e ?_ (List.mem_filter.1 (by assumption)).2
    rcases hl with rfl | rfl
    · exact List.mem_append_left _ he
    · exact List.mem_append_right _ he
  · exact notMeta_of h.toReach.rel.choose_spec.inv (by decide +kernel) (by decide)
  · obtain ⟨r, hr, _, _, h1⟩ := C20_append_in_bounds
        (2 + ((refs ((snapEntries (run exS exOps) 3 (manyE.take 2)).map (packEntry intW (run exS exOps).tree))).flatMap vlenc).length
        + ((imms ((snapEntries (run exS exOps) 3 (manyE.take 2)).map (packEntry intW (run exS exOps).tree))).flatMap
          fun e => vlenc e.1 ++ variantPack e.2).length)
        ((snapEntries (run exS exOps) 3 (manyE.take 2)).map (packEntry intW (run exS exOps).tree))
    refine ⟨_, r.buffer, r.neededLen, ?_, Nat.le_of_eq h1⟩
    unfold pull
    rw [if_pos rfl, hr]
    rfl

end Verif.Capi
