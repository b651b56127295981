import Verif.E2E.Report
import Verif.Props.Pipeline
/-!
# C86: from annotation calls to the report of `cali-query`
-/
namespace Verif.E2E
open Verif Verif.Cali Verif.Query Verif.Query.Pre Verif.Query.Pipe Verif.Prof

/-- the region paths of the report: those the thread was in at one of its calls, and those around them -/
def Shown (th : Nat) (st : MTree.PathL) (h : List (Nat × RT.Op)) (P : MTree.PathL) : Prop :=
  P ∈ visits th st h ∨ P ≠ [] ∧ ∃ V ∈ visits th st h, P <+: V

variable {F : DblFmt} {S : Src} {conv : Verif.Val → Cali.Val} {nm : Nat → Str} {t : MTree.Tree} {I : Ids} {info : Agg.Info} {rd : Agg.ResAttr}
  {th : Nat} {st : MTree.PathL} {h : List (Nat × RT.Op)} {db : DB}

theorem shown_mem {P : MTree.PathL} (hs : Shown th st h P) : ∃ V ∈ visits th st h, P <+: V := by
  rcases hs with hs | ⟨-, hs⟩
  · exact ⟨P, hs, List.prefix_refl _⟩
  · exact hs

/-- the rows of the query, by name -/
theorem named_row (M : Metadata F S conv nm t I info rd th st h) (ok : db.OK) {ta : PAttr} (hdb : DbOk (pdbOf db) ta) (L : List MTree.PathL) (hn : L.Nodup)
    (hL : ∀ P, P ∈ L ↔ P ∈ visits th st h) (hc : ∀ V ∈ L, ∀ x ∈ V, Corr S db x.1 (cOf S db x.1)) {P : MTree.PathL} (hP : Shown th st h P) :
    named (D2 (pdbOf db) ta) (rowOf (pdbOf db) (L.map fun V => (pathF S db conv V, BitVec.ofNat 64 (spent th V st 0 h))) (pathF S db conv P)) =
      row conv nm th st h P := by
  obtain ⟨V0, hV0, hpre⟩ := shown_mem hP
  have inj : ∀ V ∈ L, ∀ x ∈ P, ∀ y ∈ V, (cOf S db x.1, conv x.2) = (cOf S db y.1, conv y.2) → x = y := by
    intro V hV x hx y hy e
    simp only [Prod.mk.injEq] at e
    have hx0 := hpre.subset hx
    obtain ⟨⟨q, hq⟩, -⟩ := M.region V0 hV0 x hx0
    obtain ⟨⟨q', hq'⟩, -⟩ := M.region V ((hL V).1 hV) y hy
    have c1 := hc V0 ((hL V0).2 hV0) x hx0
    rw [e.1] at c1
    have h1 := c1.inj M.uniq (hc V hV y hy) hq hq' rfl rfl
    exact Prod.ext h1 (M.inj V0 hV0 x hx0 V ((hL V).1 hV) y hy e.2)
  have heq : ∀ V ∈ L, (pathF S db conv P = pathF S db conv V ↔ P = V) := fun V hV => map_injOn _ P V (inj V hV)
  have hpr : ∀ V ∈ L, (pathF S db conv P <+: pathF S db conv V ↔ P <+: V) := fun V hV => map_prefix _ P V (inj V hV)
  have hnil : pathF S db conv P = [] ↔ P = [] := by simp [pathF]
  have f1 : ((L.map fun V => (pathF S db conv V, BitVec.ofNat 64 (spent th V st 0 h))).filter fun y => decide (pathF S db conv P = y.1)).map Prod.snd =
      if P ∈ visits th st h then [BitVec.ofNat 64 (spent th P st 0 h)] else [] := by
    rw [List.filter_map, List.map_map]
    have : L.filter ((fun y => decide (pathF S db conv P = y.1)) ∘ fun V => (pathF S db conv V, BitVec.ofNat 64 (spent th V st 0 h))) = L.filter fun V => decide (P = V) := by
      apply List.filter_congr
      intro V hV
      simp only [Function.comp, heq V hV]
    rw [this, filter_eq_one P L hn]
    by_cases e : P ∈ L
    · rw [if_pos e, if_pos ((hL P).1 e)]; rfl
    · rw [if_neg e, if_neg fun hc => e ((hL P).2 hc)]; rfl
  have f2 : ∃ ns : List Nat, ns ≠ [] ∧ ((L.map fun V => (pathF S db conv V, BitVec.ofNat 64 (spent th V st 0 h))).filter fun y => decide (counts (pathF S db conv P) y)).map Prod.snd =
      ns.map (BitVec.ofNat 64) ∧ ns.sum = if P = [] then spent th [] st 0 h else within th P st 0 h := by
    refine ⟨(L.filter fun V => decide (P = V ∨ P ≠ [] ∧ P <+: V)).map fun V => spent th V st 0 h, ?_, ?_, ?_⟩
    · intro hc
      rw [List.map_eq_nil_iff, List.filter_eq_nil_iff] at hc
      have hP' : ∃ V ∈ visits th st h, P = V ∨ P ≠ [] ∧ P <+: V := by
        rcases hP with hP | ⟨h1, V, h2, h3⟩
        · exact ⟨P, hP, .inl rfl⟩
        · exact ⟨V, h2, .inr ⟨h1, h3⟩⟩
      obtain ⟨V, h1, h2⟩ := hP'
      exact hc V ((hL V).2 h1) (decide_eq_true h2)
    · rw [List.filter_map, List.map_map, List.map_map]
      have : L.filter ((fun y => decide (counts (pathF S db conv P) y)) ∘ fun V => (pathF S db conv V, BitVec.ofNat 64 (spent th V st 0 h))) =
          L.filter fun V => decide (P = V ∨ P ≠ [] ∧ P <+: V) := by
        apply List.filter_congr
        intro V hV
        simp only [Function.comp, decide_eq_decide, counts, heq V hV, hpr V hV, Ne, hnil]
      rw [this]; rfl
    · by_cases e : P = []
      · subst e
        rw [if_pos rfl]
        have : (L.filter fun V => decide (([] : MTree.PathL) = V ∨ ([] : MTree.PathL) ≠ [] ∧ [] <+: V)) = L.filter fun V => decide (([] : MTree.PathL) = V) := by
          apply List.filter_congr; intro V _; simp
        rw [this, filter_eq_one _ L hn]
        have hv : [] ∈ L := by
          rcases hP with hP | ⟨h1, -⟩
          · exact (hL _).2 hP
          · exact absurd rfl h1
        rw [if_pos hv]; simp
      · rw [if_neg e]
        have : (L.filter fun V => decide (P = V ∨ P ≠ [] ∧ P <+: V)) = L.filter fun V => decide (P <+: V) := by
          apply List.filter_congr
          intro V _
          rw [decide_eq_decide]
          constructor
          · rintro (rfl | h)
            · exact List.prefix_refl _
            · exact h.2
          · exact fun h => .inr ⟨e, h⟩
        rw [this]
        exact within_sum th P L hn h st 0 fun V hV => (hL V).2 hV
  obtain ⟨ns, hns, f2, f3⟩ := f2
  obtain ⟨n1, n2⟩ := nameIn_new (ta := ta) hdb.wf
  have hnm : ∀ x ∈ P, nameIn (D2 (pdbOf db) ta) (cOf S db x.1) = some (nm x.1) := by
    intro x hx
    have hx0 := hpre.subset hx
    obtain ⟨⟨q, hq⟩, A, hA, -⟩ := M.region V0 hV0 x hx0
    exact nameIn_D2 (byId_of_mem ((hc V0 ((hL V0).2 hV0) x hx0).attr ok hA hq))
  unfold rowOf row named
  simp only [f1, f2, List.map_eq_nil_iff, hns, if_false]
  have hsum : (ns.map (BitVec.ofNat 64)).foldl (· + ·) 0 = BitVec.ofNat 64 (if P = [] then spent th [] st 0 h else within th P st 0 h) := by
    rw [← f3]
    have := foldl_ofNat ns 0
    rw [Nat.zero_add] at this
    exact this
  rw [hsum, List.flatMap_append, List.flatMap_append]
  congr 1
  · congr 1
    · by_cases e : P = []
      · rw [if_pos (hnil.2 e), e]; rfl
      · rw [if_neg fun hc => e (hnil.1 hc)]
        simp only [List.flatMap_cons, List.flatMap_nil, List.append_nil, pathF, ← List.map_reverse, List.map_map]
        apply List.map_congr_left
        intro x hx
        simp only [Function.comp, hnm x (List.mem_reverse.1 hx)]
    · by_cases e : P ∈ visits th st h
      · rw [if_pos e, if_pos e]
        simp [n1]
      · rw [if_neg e, if_neg e]; rfl
  · simp [n2]

/-- **C86** A thread makes properly nested begin and end calls while a channel profiles it (the situation of C79); the profile is flushed to a
`.cali` file; the file is read by `cali-query`, which runs
`AGGREGATE sum(sum#time.duration.ns),inclusive_sum(sum#time.duration.ns) GROUP BY path`.  Then there is exactly one row for every region path the thread
was in at one of its calls and for every path around one; the row shows the regions, the time spent with exactly these regions open (if
the thread was there at a call) and the time spent with these regions open, possibly with more inside; no sum overflows. -/
theorem C86_end_to_end_partial {raw : BitVec 64 → List Byte} {C : Serv.Cfg} {attrs : List Serv.AttrInfo} {E : Agg.Env} {rc : Agg.ResAttr} {ch : Nat} {s : RT.State}
    (Su : Setup raw C attrs E I info rd rc ch th s st h) (O : Agg.DblOps) (sk : DEnt) (th0 : Nat) (Q : Pipe.Env)
    (M : Metadata F S conv nm (RT.run s (h.map Prod.snd)).tree I info rd th st h)
    (hsize : ∀ out, profile raw C I conv ch O E info sk th s (Serv.State.init C th0 attrs) h = some out →
      DB.init.nodes.length + fileCost S (out.map fun r => (.snapshot, r)) + 2 ≤ invN) :
    ∃ out D rows Ps, profile raw C I conv ch O E info sk th s (Serv.State.init C th0 attrs) h = some out ∧
      queryFile F Q reportQuery (profileFile F S out) = some (D, rows) ∧
      Ps.Nodup ∧ (∀ P, P ∈ Ps ↔ Shown th st h P) ∧ List.Forall₂ (fun P r => named D r = row conv nm th st h P) Ps rows ∧
      ∀ P, spent th P st 0 h < 2 ^ 64 ∧ within th P st 0 h < 2 ^ 64 := by
  obtain ⟨recs, reps, Ys, e, hf, hY, hsub, hn, hv, hi⟩ := profile_reports Su O conv sk th0
  have hw := rowsWritten M O hi Su.env Su.info hf hY hsub
  generalize hout : (reps.mapIdx fun i r => E.report (Agg.kernStats O) info recs r i) = out at e hw
  generalize hL : Ys.map Prod.fst = L at hw hn hv
  have hok : ∀ r ∈ out, S.RecOK F r := by
    intro r hr
    obtain ⟨i, hi1, rfl⟩ := List.mem_iff_getElem.1 hr
    have g := List.forall₂_iff_get.1 hw
    obtain ⟨r0, l, w⟩ := g.2 i (by rw [g.1]; exact hi1) hi1
    exact w.recOK
  have hsz := hsize out e
  obtain ⟨s', r1, ok, ext, same, orig, hlen⟩ := read_back (F := F) M.sound out hok (by omega)
  have hq : queryFile F Q reportQuery (profileFile F S out) =
      some (query (envOf Q s'.db) reportQuery (pdbOf s'.db) (s'.recs.map fun r => .record (r.map (entQ s'.db)))) := by
    unfold queryFile profileFile; rw [r1]; rfl
  have hlt : ∀ P, spent th P st 0 h < 2 ^ 64 ∧ within th P st 0 h < 2 ^ 64 := fun P =>
    ⟨by have := spent_lt th P h st 0 Su.times; omega, by have := within_lt th P h st 0 Su.times; omega⟩
  rw [f2_map_left] at same
  by_cases hemp : out = []
  · -- no call of the thread
    subst hemp
    cases hw
    cases hs' : s'.recs with
    | cons a b => rw [hs'] at same; cases same
    | nil =>
      rw [hs'] at hq
      have hvn : ∀ P, P ∉ visits th st h := fun P hP => by have := (hv P).2 hP; simp at this
      refine ⟨_, _, _, [], e, hq, .nil, ?_, .nil, hlt⟩
      intro P
      simp only [List.not_mem_nil, false_iff]
      intro hP
      obtain ⟨V, hV, -⟩ := shown_mem hP
      exact hvn V hV
  · -- the target attribute
    have hcorr : ∃ j, Corr S s'.db rd.sum j := by
      cases hw with
      | nil => exact absurd rfl hemp
      | cons w _ =>
        cases hs' : s'.recs with
        | nil => rw [hs'] at same; cases same
        | cons a b =>
          rw [hs'] at same
          cases same with
          | cons sm _ =>
            obtain ⟨r, l, w⟩ := w
            exact w.corr sm
    obtain ⟨j, hj⟩ := hcorr
    have hrs : rd.sum ∈ resIds (info.aggr.zip info.res) ++ [info.countA, info.slotA] :=
      List.mem_append_left _ (List.mem_flatMap.2 ⟨(I.dur, rd), Su.info.dur, by simp⟩)
    obtain ⟨hnn, A, hA, -⟩ := M.result _ hrs
    have hdb := target_ok M ok ext orig hj hA hnn
    generalize hta : (⟨j, T, A.attrType, decide (A.attrProp &&& 256#32 ≠ 0)⟩ : PAttr) = ta at hdb
    have hja : Corr S s'.db rd.sum ta.id := by rw [← hta]; exact hj
    -- the records
    have hgood : List.Forall₂ (fun P r' => Good (pdbOf s'.db) ta (r'.map (entQ s'.db)) (pathF S s'.db conv P).reverse (BitVec.ofNat 64 (spent th P st 0 h)) ∧
        ∀ x ∈ P, Corr S s'.db x.1 (cOf S s'.db x.1)) L s'.recs := by
      have g1 := List.forall₂_iff_get.1 hw
      have g2 := List.forall₂_iff_get.1 same
      apply List.forall₂_iff_get.2
      refine ⟨g1.1.trans g2.1, ?_⟩
      intro i h1 h2
      have ho : i < out.length := by rw [← g1.1]; exact h1
      obtain ⟨r, l, w⟩ := g1.2 i h1 ho
      have hreg : ∀ x ∈ L.get ⟨i, h1⟩, (∃ n q, S.node x.1 = some ⟨8, .string n, q⟩) ∧ ∃ A, Denotes S.node x.1 A ∧ A.attrProp &&& 256#32 ≠ 0#32 := by
        intro x hx
        obtain ⟨⟨q, a1⟩, a2⟩ := M.region _ ((hv _).1 (List.get_mem L ⟨i, h1⟩)) x hx
        exact ⟨⟨_, q, a1⟩, a2⟩
      exact good_of ok M.tree M.uniq w.path w.refs w.out (g2.2 i ho h2) w.nodup w.sum
        (fun x hx => by obtain ⟨⟨q, a1⟩, -⟩ := w.attrs x hx; exact ⟨_, q, a1⟩) hja hreg
    have hcor : ∀ V ∈ L, ∀ x ∈ V, Corr S s'.db x.1 (cOf S s'.db x.1) := by
      intro V hV
      obtain ⟨i, hi1, rfl⟩ := List.mem_iff_getElem.1 hV
      have g := List.forall₂_iff_get.1 hgood
      exact (g.2 i hi1 (by rw [← g.1]; exact hi1)).2
    have hne : (s'.recs.map fun r => r.map (entQ s'.db)) ≠ [] := by
      intro hc
      rw [List.map_eq_nil_iff] at hc
      rw [hc] at same
      cases same
      exact hemp rfl
    obtain ⟨Ps', p1, p2, p3⟩ := query_rows (E := envOf Q s'.db) hdb (meta_ok Q ok) (by show s'.db.nodes.length + 2 ≤ invN; omega)
      (s'.recs.map fun r => r.map (entQ s'.db)) (L.map fun V => (pathF S s'.db conv V, BitVec.ofNat 64 (spent th V st 0 h))) (by
        rw [List.forall₂_map_left_iff, List.forall₂_map_right_iff]
        have := hgood.flip
        refine this.imp ?_
        intro a b hab
        exact hab.1) hne
    rw [List.map_map] at p3
    have p3' : query (envOf Q s'.db) reportQuery (pdbOf s'.db) (s'.recs.map fun r => .record (r.map (entQ s'.db))) = _ := p3
    rw [p3'] at hq
    have inj : ∀ P P', Shown th st h P → Shown th st h P' → pathF S s'.db conv P = pathF S s'.db conv P' → P = P' := by
      intro P P' hP hP' he
      obtain ⟨V, hV, hpre⟩ := shown_mem hP
      obtain ⟨V', hV', hpre'⟩ := shown_mem hP'
      refine (map_injOn _ P P' ?_).1 he
      intro x hx y hy e
      simp only [Prod.mk.injEq] at e
      have hx0 := hpre.subset hx
      have hy0 := hpre'.subset hy
      obtain ⟨⟨q, hq⟩, -⟩ := M.region V hV x hx0
      obtain ⟨⟨q', hq'⟩, -⟩ := M.region V' hV' y hy0
      have c1 := hcor V ((hv V).2 hV) x hx0
      rw [e.1] at c1
      have h1 := c1.inj M.uniq (hcor V' ((hv V').2 hV') y hy0) hq hq' rfl rfl
      exact Prod.ext h1 (M.inj V hV x hx0 V' hV' y hy0 e.2)
    have hsh : ∀ P, Shown th st h P → pathF S s'.db conv P ∈ Ps' := by
      intro P hP
      rw [p2]
      rcases hP with hP | ⟨h1, V, h2, h3⟩
      · exact ⟨_, List.mem_map.2 ⟨P, (hv P).2 hP, rfl⟩, .inl rfl⟩
      · exact ⟨_, List.mem_map.2 ⟨V, (hv V).2 h2, rfl⟩, .inr ⟨by simp [pathF, h1], h3.map _⟩⟩
    obtain ⟨Ps, q1, q2⟩ := exists_map (pathF S s'.db conv) (Shown th st h) Ps' (by
      intro P' hP'
      obtain ⟨y, hy, hc⟩ := (p2 P').1 hP'
      obtain ⟨V, hV, rfl⟩ := List.mem_map.1 hy
      rcases hc with hc | ⟨hc1, hc2⟩
      · exact ⟨V, .inl ((hv V).1 hV), hc.symm⟩
      · simp only at hc2
        refine ⟨V.take P'.length, .inr ⟨?_, V, (hv V).1 hV, List.take_prefix _ _⟩, ?_⟩
        · intro hz
          have hl := hc2.length_le
          simp only [pathF, List.length_map] at hl
          have := congrArg List.length hz
          simp only [List.length_take, List.length_nil] at this
          apply hc1
          apply List.eq_nil_of_length_eq_zero
          omega
        · rw [List.prefix_iff_eq_take] at hc2
          rw [hc2]
          simp only [pathF, List.map_take, List.length_take, List.length_map]
          congr 1
          have hl : P'.length ≤ V.length := by
            have := congrArg List.length hc2
            simp only [pathF, List.length_take, List.length_map] at this
            omega
          omega)
    refine ⟨out, _, _, Ps, e, hq, ?_, ?_, ?_, hlt⟩
    · exact List.Nodup.of_map _ (by rw [q1]; exact p1)
    · intro P
      constructor
      · exact q2 P
      · intro hP
        have := hsh P hP
        rw [← q1] at this
        obtain ⟨P2, h1, h2⟩ := List.mem_map.1 this
        rw [← inj P2 P (q2 P2 h1) hP h2]
        exact h1
    · rw [← q1, List.map_map, List.forall₂_map_right_iff, List.forall₂_same]
      intro P hP
      exact named_row M ok hdb L hn hv hcor (q2 P hP)

/-! ## A concrete case -/

/-- metadata given by a table -/
def tabSrc (tab : List (Nat × Nd)) : Src := ⟨fun i => if i < 12 then bootNodes[i]? else (tab.find? fun x => decide (x.1 = i)).map Prod.snd, id⟩

/-- what a node of a table stands for -/
def deepOf (tab : List (Nat × Nd)) : Nat → Nat → Option Deep
  | 0, _ => none
  | fuel + 1, i =>
    if i < 12 then some (.boot i) else
    match (tabSrc tab).node i with
    | none => none
    | some n =>
      match deepOf tab fuel n.attr, n.parent with
      | none, _ => none
      | some A, none => some (.root A n.data)
      | some A, some p => (deepOf tab fuel p).map fun P => .child A n.data P

theorem deepOf_sound (tab : List (Nat × Nd)) (fuel : Nat) : ∀ i D, deepOf tab fuel i = some D → Denotes (tabSrc tab).node i D := by
  induction fuel with
  | zero => intro i D h; simp [deepOf] at h
  | succ k ih =>
    intro i D h
    simp only [deepOf] at h
    split at h
    · rename_i hi
      cases h
      exact .boot hi (by simp [tabSrc, hi])
    · rename_i hi
      split at h
      · cases h
      · rename_i n hn
        obtain ⟨a, v, q⟩ := n
        simp only at h
        split at h
        · cases h
        · rename_i A hA
          cases h
          exact .root (by omega) hn (ih _ _ hA)
        · rename_i A p hA
          cases hP : deepOf tab k p with
          | none => rw [hP] at h; cases h
          | some P =>
            rw [hP] at h
            cases h
            exact .child (by omega) hn (ih _ _ hA) (ih _ _ hP)

/-- sufficient conditions that can be computed -/
def tabOk (tab : List (Nat × Nd)) : Bool :=
  tab.all fun x => decide (12 ≤ x.1 ∧ x.1 < 2000) && decide (x.2 ∉ bootNodes) && decide (x.2.attr < x.1) && decide ((x.2.parent.getD 0) < x.1) &&
    ((tabSrc tab).node x.2.attr).isSome && ((x.2.parent.map fun p => ((tabSrc tab).node p).isSome).getD true) &&
    (match deepOf tab 9 x.2.attr with
      | none => false
      | some A => decide (x.2.data.ty = A.attrType) && decide (A.attrProp &&& 128#32 = 0) &&
        (match A with
          | .boot i => decide ((bootNodes[i]?).map (·.attr) = some 8)
          | .root B _ => decide (B = .boot 8)
          | .child B _ _ => decide (B = .boot 8))) &&
    (match x.2.data with
      | .int _ => true
      | .string bs => bs.all keep
      | _ => false)

theorem tab_mem {tab : List (Nat × Nd)} {i : Nat} {n : Nd} (h : (tabSrc tab).node i = some n) (hi : 12 ≤ i) : (i, n) ∈ tab := by
  simp only [tabSrc, if_neg (show ¬ i < 12 by omega)] at h
  cases hf : tab.find? fun x => decide (x.1 = i) with
  | none => rw [hf] at h; cases h
  | some x =>
    rw [hf] at h
    cases h
    have h1 := List.mem_of_find?_eq_some hf
    have h2 := List.find?_some hf
    obtain ⟨a, b⟩ := x
    have : a = i := of_decide_eq_true h2
    rw [← this]; exact h1

theorem tab_sound {F : DblFmt} {tab : List (Nat × Nd)} (h : tabOk tab = true) : (tabSrc tab).Sound F := by
  have hx : ∀ i n, (tabSrc tab).node i = some n → 12 ≤ i → _ := fun i n hn hi => List.all_eq_true.1 h (i, n) (tab_mem hn hi)
  have h11 : ∀ i n, (tabSrc tab).node i = some n → i = 11 → n.attr = 9 ∧ n.parent = none := by
    rintro i n hn rfl
    have : (tabSrc tab).node 11 = some ⟨9, .type .ptr, none⟩ := rfl
    rw [this] at hn
    cases hn; exact ⟨rfl, rfl⟩
  refine ⟨⟨?_, ?_⟩, ?_, ?_, ?_, ?_⟩
  · intro i n hn hi
    by_cases e : i = 11
    · exact .inl (by rw [(h11 i n hn e).1]; omega)
    · have := hx i n hn (by omega)
      simp only [Bool.and_eq_true, decide_eq_true_eq] at this
      exact .inr ⟨this.1.1.1.2, this.1.1.1.1.1.2⟩
  · intro i n p hn hi hp
    by_cases e : i = 11
    · rw [(h11 i n hn e).2] at hp; cases hp
    · have := hx i n hn (by omega)
      simp only [Bool.and_eq_true, decide_eq_true_eq, hp, Option.getD_some, Option.map_some] at this
      exact .inr ⟨this.1.1.2, this.1.1.1.1.2⟩
  · intro i n hn
    by_cases e : i < 12
    · unfold invN; omega
    · have := hx i n hn (by omega)
      simp only [Bool.and_eq_true, decide_eq_true_eq] at this
      have := this.1.1.1.1.1.1.1.2
      unfold invN; omega
  · intro i hi
    simp [tabSrc, hi]
  · intro i n hn hi
    have := hx i n hn hi
    simp only [Bool.and_eq_true, decide_eq_true_eq] at this
    have hd := this.1.2
    have hs := this.2
    cases hA : deepOf tab 9 n.attr with
    | none => rw [hA] at hd; cases hd
    | some A =>
      rw [hA] at hd
      simp only [Bool.and_eq_true, decide_eq_true_eq] at hd
      refine ⟨A, deepOf_sound _ _ _ _ hA, ?_, hd.1.1, ?_, hd.1.2⟩
      · cases A with
        | boot i => simpa [Deep.isOf] using hd.2
        | root B v => simpa [Deep.isOf] using hd.2
        | child B v P => simpa [Deep.isOf] using hd.2
      · cases hv : n.data <;> rw [hv] at hs <;> first | trivial | cases hs | skip
        exact fun c hc => List.all_eq_true.1 hs c hc
  · intro i n hn hi
    have := hx i n hn hi
    simp only [Bool.and_eq_true, decide_eq_true_eq] at this
    exact this.1.1.1.1.1.1.2

/-- a context tree with two nested string attributes, `function` and `loop` -/
def eTree : MTree.Tree :=
  let t := MTree.init 64 4 (fun _ => 0)
  let t := (MTree.getChild t 0 10 (.ofInt 276) (some (.cell 0 3))).1
  let t := (MTree.getChild t 0 8 (.ofString "function") (some (.cell 0 12))).1
  (MTree.getChild t 0 8 (.ofString "loop") (some (.cell 0 12))).1

theorem eTree_reach : MTree.Reach eTree := by
  have h0 : MTree.Reach (MTree.init 64 4 (fun _ => 0)) := .init (by omega) (by omega)
  have h1 := MTree.Reach.step (q := .getChild 0 10 (.ofInt 276) (some (.cell 0 3))) h0 (.inr (by decide)) (by decide)
  have h2 := MTree.Reach.step (q := .getChild 0 8 (.ofString "function") (some (.cell 0 12))) h1 (.inr (by decide)) (by decide)
  exact MTree.Reach.step (q := .getChild 0 8 (.ofString "loop") (some (.cell 0 12))) h2 (.inr (by decide)) (by decide)

@[inherit_doc eTree]
def eA : RT.Attr := ⟨.cell 0 13, 13, 276#32⟩
@[inherit_doc eTree]
def eB : RT.Attr := ⟨.cell 0 14, 14, 276#32⟩
/-- one active channel -/
def eS : RT.State := RT.init eTree [7] (fun c => c == 7)

/-- thread 3: `main`, in it twice the loop `x`; thread 5 opens a region in between -/
def eHist : List (Nat × RT.Op) :=
  [(10, .begin 3 eA (.ofString "main")), (15, .begin 3 eB (.ofString "x")), (17, .begin 5 eA (.ofString "main")), (25, .endCheck 3 eB (.ofString "x")),
   (31, .begin 3 eB (.ofString "x")), (33, .endR 3 eB), (40, .endR 3 eA)]
@[inherit_doc eHist]
def eFinal : MTree.Tree := (RT.run eS (eHist.map Prod.snd)).tree
@[inherit_doc eHist]
def eAttrs : List Serv.AttrInfo := [⟨13, [], 0, false, false⟩, ⟨14, [], 0, false, false⟩]

theorem eValid : eA.Valid eTree ∧ eB.Valid eTree :=
  ⟨⟨.inr (by decide), by decide, by decide, by decide, by decide, by decide⟩, ⟨.inr (by decide), by decide, by decide, by decide, by decide, by decide⟩⟩

theorem eHist_valid : ∀ x ∈ eHist, x.2.attr.Valid eS.tree := by
  intro x hx
  have := eValid
  simp only [eHist, List.mem_cons, List.not_mem_nil, or_false] at hx
  rcases hx with rfl | rfl | rfl | rfl | rfl | rfl | rfl <;> first | exact this.1 | exact this.2

theorem eHist_noLoss : RT.NoLoss eS (RT.run eS (eHist.map Prod.snd)) :=
  RT.noLoss_of _ _ [.thread 3, .thread 5] (by decide) (by decide +kernel) (by decide +kernel)

theorem eInv : MTree.Inv eFinal := by
  have hr : RT.RtReachV eS := .init eTree_reach _ _
  obtain ⟨c, R⟩ := hr.toReach.rel
  exact (RT.run_sim R (fun op ho => by
    obtain ⟨x, hx, rfl⟩ := List.mem_map.1 ho; exact eHist_valid x hx) eHist_noLoss).1.inv

theorem eSetup : Setup (fun _ => []) exCfg eAttrs (exEnvOf eFinal) exIds exInfoP ⟨1020, 1021, 1022, 1023⟩ ⟨1010, 1011, 1012, 1013⟩ 7 3 eS [] eHist := by
  have hr : RT.RtReachV eS := .init eTree_reach _ _
  obtain ⟨c, R⟩ := hr.toReach.rel
  have hc : ∀ l k v, ¬ RT.CurrentValue eS l k v := by
    have R0 : RT.RelS eS RT.Abs.init := RT.RelS.init R.inv R.tdead _ _
    intro l k v h
    rw [currentValue_iff R0] at h
    exact absurd h.2.2.2 (by simp [RT.Abs.init, RT.Ctx.empty])
  exact
    { reach := hr, active := by decide, noErr := by decide
      regions := ⟨default, by decide, .root⟩, unaligned := ⟨default, by decide, .root⟩
      pregions := ⟨default, by decide, .root⟩, punaligned := ⟨default, by decide, .root⟩
      values := ⟨[], [], ⟨by simp, fun k v => by simpa using hc _ k v⟩, ⟨by simp, fun k v => by simpa using hc _ k v⟩, by simp, by simp⟩
      valid := eHist_valid, visible := by decide, noLoss := eHist_noLoss
      proper := by
        simp only [eHist, Proper, after]
        refine ⟨by decide, by decide, by decide, trivial, by decide, by decide, by decide, trivial, by decide,
          by decide, by decide, by decide, ⟨[(13, .ofString "main")], rfl⟩, by decide, by decide, by decide, trivial,
          by decide, by decide, by decide, ⟨[(13, .ofString "main")], _, rfl⟩, by decide, by decide, by decide, ⟨[], _, rfl⟩, trivial⟩
      times := by simp [eHist, Times]
      noBranch := by decide, noInfo := by decide
      announced := by
        intro x hx hth
        simp only [eHist, List.mem_cons, List.not_mem_nil, or_false] at hx
        rcases hx with rfl | rfl | rfl | rfl | rfl | rfl | rfl
        · exact ⟨⟨13, [], 0, false, false⟩, rfl, ⟨by decide, rfl, .inl rfl, by decide⟩, .inl ⟨rfl, .inl (by simp [eAttrs])⟩⟩
        · exact ⟨⟨14, [], 0, false, false⟩, rfl, ⟨by decide, rfl, .inl rfl, by decide⟩, .inl ⟨rfl, .inl (by simp [eAttrs])⟩⟩
        · exact absurd hth (by decide)
        · exact ⟨⟨14, [], 0, false, false⟩, rfl, ⟨by decide, rfl, .inl rfl, by decide⟩, .inl ⟨rfl, .inl (by simp [eAttrs])⟩⟩
        · exact ⟨⟨14, [], 0, false, false⟩, rfl, ⟨by decide, rfl, .inl rfl, by decide⟩, .inl ⟨rfl, .inl (by simp [eAttrs])⟩⟩
        · exact ⟨⟨14, [], 0, false, false⟩, rfl, ⟨by decide, rfl, .inl rfl, by decide⟩, .inl ⟨rfl, .inl (by simp [eAttrs])⟩⟩
        · exact ⟨⟨13, [], 0, false, false⟩, rfl, ⟨by decide, rfl, .inl rfl, by decide⟩, .inl ⟨rfl, .inl (by simp [eAttrs])⟩⟩
      passes := by intro x _ h; simp [exCfg] at h
      env := exEnvOf_ok eInv
      ids := ⟨by decide +kernel, by decide +kernel, by decide +kernel, by decide, by decide, by decide⟩
      info := ⟨rfl, by decide, by decide, by decide, by decide +kernel⟩ }

/-- the values of the tree as values of the file -/
def eConv (v : Verif.Val) : Cali.Val :=
  match v.ty, v.c with
  | .string, .inl bs => .string bs
  | .int, .inr w => .int w
  | .type, .inr w => if w = 1 then .type .usr else if w = 2 then .type .int else if w = 3 then .type .uint else if w = 4 then .type .string
    else if w = 5 then .type .addr else if w = 6 then .type .double else if w = 7 then .type .bool else if w = 8 then .type .type else .type .ptr
  | _, _ => .inv

/-- the metadata of the program, with the result attributes of the aggregation service -/
def eTab : List (Nat × Nd) :=
  [(12, ⟨10, .int 276, some 3⟩), (13, ⟨8, .string (str "function"), some 12⟩), (14, ⟨8, .string (str "loop"), some 12⟩),
   (64, ⟨13, .string (str "main"), none⟩), (65, ⟨14, .string (str "x"), some 64⟩),
   (1010, ⟨8, .string (str "min#region.count"), some 2⟩), (1011, ⟨8, .string (str "max#region.count"), some 2⟩),
   (1012, ⟨8, .string (str "sum#region.count"), some 2⟩), (1013, ⟨8, .string (str "avg#region.count"), some 2⟩),
   (1020, ⟨8, .string (str "min#time.duration.ns"), some 2⟩), (1021, ⟨8, .string (str "max#time.duration.ns"), some 2⟩),
   (1022, ⟨8, .string (str "sum#time.duration.ns"), some 2⟩), (1023, ⟨8, .string (str "avg#time.duration.ns"), some 2⟩),
   (1030, ⟨8, .string (str "count"), some 2⟩), (1031, ⟨8, .string (str "aggregate.slot"), some 2⟩)]

/-- names of the attributes -/
def eNm (i : Nat) : Str := match ((tabSrc eTab).node i) with
  | some n => n.data.nameText
  | none => []

theorem eNodes : ∀ b < 4, ∀ i < 64, ∀ r ∈ eFinal.node b i,
    (tabSrc eTab).node r.id = some ⟨r.attr, eConv r.val, if r.parent = .root then none else some (eFinal.idOf r.parent)⟩ := by
  decide +kernel

theorem eUniq : ∀ x ∈ bootNodes.mapIdx (fun i n => (i, n)) ++ eTab, ∀ y ∈ bootNodes.mapIdx (fun i n => (i, n)) ++ eTab, x.2.attr = 8 → y.2.attr = 8 →
    x.2.data = y.2.data → x.1 = y.1 := by
  decide +kernel

theorem eOther : ∀ x ∈ bootNodes.mapIdx (fun i n => (i, n)) ++ eTab, x.2.data ≠ .string (str "sum#" ++ T) ∧ x.2.data ≠ .string (str "inclusive#" ++ T) := by
  decide +kernel

theorem eMem {i : Nat} {n : Nd} (h : (tabSrc eTab).node i = some n) : (i, n) ∈ bootNodes.mapIdx (fun i n => (i, n)) ++ eTab := by
  by_cases hi : i < 12
  · simp only [tabSrc, if_pos hi] at h
    apply List.mem_append_left
    rw [List.mem_iff_getElem]
    have hl := (List.getElem?_eq_some_iff.1 h)
    obtain ⟨h1, h2⟩ := hl
    exact ⟨i, by simpa using h1, by simp [h2]⟩
  · exact List.mem_append_right _ (tab_mem h (by omega))

theorem eAttrAt : ∀ i ∈ [1010, 1011, 1012, 1013, 1020, 1021, 1022, 1023, 1030, 1031],
    (tabSrc eTab).node i = some ⟨8, .string (eNm i), some 2⟩ ∧ ((deepOf eTab 9 i).map Deep.attrType) = some .uint := by
  decide +kernel

theorem eRegion : ∀ i ∈ [13, 14], (tabSrc eTab).node i = some ⟨8, .string (eNm i), some 12⟩ ∧ ((deepOf eTab 9 i).map fun A => decide (A.attrProp &&& 256#32 ≠ 0#32)) = some true := by
  decide +kernel

theorem eVisits : ∀ V ∈ visits 3 [] eHist, ∀ x ∈ V, x ∈ [(13, Verif.Val.ofString "main"), (14, Verif.Val.ofString "x")] := by decide +kernel

/-- the hypotheses of `C86_end_to_end_partial` are met -/
theorem eMetadata (F : DblFmt) : Metadata F (tabSrc eTab) eConv eNm eFinal exIds exInfoP ⟨1020, 1021, 1022, 1023⟩ 3 [] eHist :=
  { sound := tab_sound (by decide +kernel)
    tree := by
      intro p r hr
      cases p with
      | root => cases hr
      | cell b i =>
        have h1 := (eInv.alloc b i).1 (by show ((eFinal.node b i)).isSome; rw [show eFinal.node b i = some r from hr]; rfl)
        have h2 : eFinal.nextBlock ≤ 4 := by decide +kernel
        have h3 := eInv.idx b h1.1
        have h4 : eFinal.npb = 64 := by decide +kernel
        exact eNodes b (by omega) i (by omega) r hr
    uniq := fun i j n m h1 h2 h3 h4 h5 => eUniq _ (eMem h1) _ (eMem h2) h3 h4 h5
    aggr := by decide
    result := by
      intro i hi
      have hi : i ∈ [1010, 1011, 1012, 1013, 1020, 1021, 1022, 1023, 1030, 1031] := hi
      obtain ⟨a, b⟩ := eAttrAt i hi
      refine ⟨⟨_, a⟩, ?_⟩
      cases hd : deepOf eTab 9 i with
      | none => rw [hd] at b; cases b
      | some A =>
        rw [hd] at b
        exact ⟨A, deepOf_sound _ _ _ _ hd, by simpa using b⟩
    sum := by decide +kernel
    other := fun i n q h => by
      have := eOther _ (eMem h)
      exact ⟨fun e => this.1 (by rw [e]), fun e => this.2 (by rw [e])⟩
    region := by
      intro V hV x hx
      have hm := eVisits V hV x hx
      have hx1 : x.1 ∈ [13, 14] := by
        simp only [List.mem_cons, List.not_mem_nil, or_false] at hm
        rcases hm with rfl | rfl <;> simp
      obtain ⟨a, b⟩ := eRegion _ hx1
      refine ⟨⟨_, a⟩, ?_⟩
      cases hd : deepOf eTab 9 x.1 with
      | none => rw [hd] at b; cases b
      | some A =>
        rw [hd] at b
        exact ⟨A, deepOf_sound _ _ _ _ hd, of_decide_eq_true (by simpa using b)⟩
    inj := by
      intro V hV x hx V' hV' y hy
      have h1 := eVisits V hV x hx
      have h2 := eVisits V' hV' y hy
      have : ∀ a ∈ [(13, Verif.Val.ofString "main"), (14, Verif.Val.ofString "x")], ∀ b ∈ [(13, Verif.Val.ofString "main"), (14, Verif.Val.ofString "x")],
          eConv a.2 = eConv b.2 → a.2 = b.2 := by decide +kernel
      exact this x h1 y h2 }

/-- the profile of the example -/
def eOut : List (List DEnt) :=
  [[⟨some 1020, .uint 10⟩, ⟨some 1021, .uint 10⟩, ⟨some 1022, .uint 10⟩, ⟨some 1023, .uint 10⟩, ⟨some 1030, .uint 1⟩, ⟨some 1031, .uint 0⟩],
   [⟨some 64, .string (str "main")⟩, ⟨some 1010, .uint 1⟩, ⟨some 1011, .uint 1⟩, ⟨some 1012, .uint 1⟩, ⟨some 1013, .uint 1⟩,
    ⟨some 1020, .uint 5⟩, ⟨some 1021, .uint 7⟩, ⟨some 1022, .uint 18⟩, ⟨some 1023, .uint 6⟩, ⟨some 1030, .uint 3⟩, ⟨some 1031, .uint 1⟩],
   [⟨some 65, .string (str "x")⟩, ⟨some 1010, .uint 1⟩, ⟨some 1011, .uint 1⟩, ⟨some 1012, .uint 2⟩, ⟨some 1013, .uint 1⟩,
    ⟨some 1020, .uint 2⟩, ⟨some 1021, .uint 10⟩, ⟨some 1022, .uint 12⟩, ⟨some 1023, .uint 6⟩, ⟨some 1030, .uint 2⟩, ⟨some 1031, .uint 2⟩]]

theorem eProfile : profile (fun _ => []) exCfg exIds eConv 7 Agg.exOps (exEnvOf eFinal) exInfoP ⟨some 1, .inv⟩ 3 eS (Serv.State.init exCfg 0 eAttrs) eHist = some eOut := by
  decide +kernel

theorem eSize : DB.init.nodes.length + fileCost (tabSrc eTab) (eOut.map fun r => (.snapshot, r)) + 2 ≤ invN := by
  decide +kernel

/-- the theorem applies, with every number format -/
example (F : DblFmt) : ∃ out D rows Ps, profile (fun _ => []) exCfg exIds eConv 7 Agg.exOps (exEnvOf eFinal) exInfoP ⟨some 1, .inv⟩ 3 eS
      (Serv.State.init exCfg 0 eAttrs) eHist = some out ∧
    queryFile F PipeDemo.env reportQuery (profileFile F (tabSrc eTab) out) = some (D, rows) ∧
    Ps.Nodup ∧ (∀ P, P ∈ Ps ↔ Shown 3 [] eHist P) ∧ List.Forall₂ (fun P r => named D r = row eConv eNm 3 [] eHist P) Ps rows ∧
    ∀ P, spent 3 P [] 0 eHist < 2 ^ 64 ∧ within 3 P [] 0 eHist < 2 ^ 64 :=
  C86_end_to_end_partial eSetup Agg.exOps ⟨some 1, .inv⟩ 0 PipeDemo.env (eMetadata F) fun out h => by
    rw [eProfile] at h
    cases h
    exact eSize

/-- the rows -/
example : row eConv eNm 3 [] eHist [] = [(some (str "sum#sum#time.duration.ns"), .uint 10), (some (str "inclusive#sum#time.duration.ns"), .uint 10)] ∧
    row eConv eNm 3 [] eHist [(13, .ofString "main")] =
      [(some (str "function"), .string (str "main")), (some (str "sum#sum#time.duration.ns"), .uint 18), (some (str "inclusive#sum#time.duration.ns"), .uint 30)] ∧
    row eConv eNm 3 [] eHist [(13, .ofString "main"), (14, .ofString "x")] =
      [(some (str "loop"), .string (str "x")), (some (str "function"), .string (str "main")), (some (str "sum#sum#time.duration.ns"), .uint 12),
       (some (str "inclusive#sum#time.duration.ns"), .uint 12)] := by
  decide +kernel

end Verif.E2E
