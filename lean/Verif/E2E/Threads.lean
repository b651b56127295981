import Verif.E2E.ThreadsSpec
import Verif.E2E.Report
import Verif.Query.SnapTreeSpec
import Verif.Props.Pipeline
import Verif.Props.RegionProfile
/-!
# From the rows of several profiles to the rows of the report
-/
namespace Verif.E2E
open Verif Verif.Cali Verif.Query Verif.Query.Pre Verif.Query.Pipe Verif.Prof

/-- regions `P` are shown for the profile rows `Y` -/
def cnt (P : MTree.PathL) (y : MTree.PathL × Nat) : Prop := P = y.1 ∨ P ≠ [] ∧ P <+: y.1

/-- the row for the regions `P`, by the rows `Y` of the profile -/
def gRow (conv : Verif.Val → Cali.Val) (nm : Nat → Str) (Y : List (MTree.PathL × Nat)) (P : MTree.PathL) : List (Option Str × Cali.Val) :=
  P.reverse.map (fun x => (some (nm x.1), conv x.2)) ++
  (if ∃ y ∈ Y, P = y.1 then [(some (str "sum#sum#time.duration.ns"), Cali.Val.uint (BitVec.ofNat 64 ((Y.filter fun y => decide (P = y.1)).map Prod.snd).sum))] else []) ++
  [(some (str "inclusive#sum#time.duration.ns"), Cali.Val.uint (BitVec.ofNat 64 ((Y.filter fun y => P = y.1 ∨ P ≠ [] ∧ P <+: y.1).map Prod.snd).sum))]

/-- what is required of the regions in the rows -/
structure RegOk (S : Src) (conv : Verif.Val → Cali.Val) (nm : Nat → Str) (Y : List (MTree.PathL × Nat)) : Prop where
  region : ∀ y ∈ Y, ∀ x ∈ y.1, (∃ q, S.node x.1 = some ⟨8, .string (nm x.1), q⟩) ∧ ∃ A, Denotes S.node x.1 A ∧ A.attrProp &&& 256#32 ≠ 0#32
  inj : ∀ y ∈ Y, ∀ x ∈ y.1, ∀ y' ∈ Y, ∀ x' ∈ y'.1, conv x.2 = conv x'.2 → x.2 = x'.2

variable {F : DblFmt} {S : Src} {conv : Verif.Val → Cali.Val} {nm : Nat → Str} {t : MTree.Tree} {I : Ids} {info : Agg.Info} {rd : Agg.ResAttr}
  {th : Nat} {st : MTree.PathL} {h : List (Nat × RT.Op)} {db : DB}

theorem cnt_pre {P : MTree.PathL} {y : MTree.PathL × Nat} (hs : cnt P y) : P <+: y.1 := by
  rcases hs with rfl | ⟨-, hs⟩
  · exact List.prefix_refl _
  · exact hs

theorem gRow_named (huniq : ∀ i j n m, S.node i = some n → S.node j = some m → n.attr = 8 → m.attr = 8 → n.data = m.data → i = j)
    (Y : List (MTree.PathL × Nat)) (R : RegOk S conv nm Y) (ok : db.OK) {ta : PAttr} (hdb : DbOk (pdbOf db) ta)
    (hc : ∀ y ∈ Y, ∀ x ∈ y.1, Corr S db x.1 (cOf S db x.1)) {P : MTree.PathL} (hP : ∃ y ∈ Y, cnt P y) :
    named (D2 (pdbOf db) ta) (rowOf (pdbOf db) (Y.map fun y => (pathF S db conv y.1, BitVec.ofNat 64 y.2)) (pathF S db conv P)) = gRow conv nm Y P := by
  obtain ⟨y0, hy0, hcn⟩ := hP
  have hpre := cnt_pre hcn
  have inj : ∀ y ∈ Y, ∀ x ∈ P, ∀ x' ∈ y.1, (cOf S db x.1, conv x.2) = (cOf S db x'.1, conv x'.2) → x = x' := by
    intro y hy x hx x' hx' e
    simp only [Prod.mk.injEq] at e
    have hx0 := hpre.subset hx
    obtain ⟨⟨q, hq⟩, -⟩ := R.region y0 hy0 x hx0
    obtain ⟨⟨q', hq'⟩, -⟩ := R.region y hy x' hx'
    have c1 := hc y0 hy0 x hx0
    rw [e.1] at c1
    have h1 := c1.inj huniq (hc y hy x' hx') hq hq' rfl rfl
    exact Prod.ext h1 (R.inj y0 hy0 x hx0 y hy x' hx' e.2)
  have heq : ∀ y ∈ Y, (pathF S db conv P = pathF S db conv y.1 ↔ P = y.1) := fun y hy => map_injOn _ P y.1 (inj y hy)
  have hpr : ∀ y ∈ Y, (pathF S db conv P <+: pathF S db conv y.1 ↔ P <+: y.1) := fun y hy => map_prefix _ P y.1 (inj y hy)
  have hnil : pathF S db conv P = [] ↔ P = [] := by simp [pathF]
  have f1 : ((Y.map fun y => (pathF S db conv y.1, BitVec.ofNat 64 y.2)).filter fun y => decide (pathF S db conv P = y.1)).map Prod.snd =
      ((Y.filter fun y => decide (P = y.1)).map Prod.snd).map (BitVec.ofNat 64) := by
    rw [List.filter_map, List.map_map, List.map_map]
    have : Y.filter ((fun y => decide (pathF S db conv P = y.1)) ∘ fun y => (pathF S db conv y.1, BitVec.ofNat 64 y.2)) = Y.filter fun y => decide (P = y.1) := by
      apply List.filter_congr
      intro y hy
      simp only [Function.comp, heq y hy]
    rw [this]; rfl
  have f2 : ((Y.map fun y => (pathF S db conv y.1, BitVec.ofNat 64 y.2)).filter fun y => decide (counts (pathF S db conv P) y)).map Prod.snd =
      ((Y.filter fun y => decide (P = y.1 ∨ P ≠ [] ∧ P <+: y.1)).map Prod.snd).map (BitVec.ofNat 64) := by
    rw [List.filter_map, List.map_map, List.map_map]
    have : Y.filter ((fun y => decide (counts (pathF S db conv P) y)) ∘ fun y => (pathF S db conv y.1, BitVec.ofNat 64 y.2)) =
        Y.filter fun y => decide (P = y.1 ∨ P ≠ [] ∧ P <+: y.1) := by
      apply List.filter_congr
      intro y hy
      simp only [Function.comp, decide_eq_decide, counts, heq y hy, hpr y hy, Ne, hnil]
    rw [this]; rfl
  have hne2 : Y.filter (fun y => decide (P = y.1 ∨ P ≠ [] ∧ P <+: y.1)) ≠ [] := by
    intro hc
    rw [List.filter_eq_nil_iff] at hc
    exact hc y0 hy0 (decide_eq_true hcn)
  have hne1 : Y.filter (fun y => decide (P = y.1)) = [] ↔ ¬ ∃ y ∈ Y, P = y.1 := by
    rw [List.filter_eq_nil_iff]
    simp only [decide_eq_true_eq, not_exists, not_and]
  obtain ⟨n1, n2⟩ := nameIn_new (ta := ta) hdb.wf
  have hnm : ∀ x ∈ P, nameIn (D2 (pdbOf db) ta) (cOf S db x.1) = some (nm x.1) := by
    intro x hx
    have hx0 := hpre.subset hx
    obtain ⟨⟨q, hq⟩, A, hA, -⟩ := R.region y0 hy0 x hx0
    exact nameIn_D2 (byId_of_mem ((hc y0 hy0 x hx0).attr ok hA hq))
  have hsum : ∀ ns : List Nat, (ns.map (BitVec.ofNat 64)).foldl (· + ·) 0 = BitVec.ofNat 64 ns.sum := by
    intro ns
    have := foldl_ofNat ns 0
    rw [Nat.zero_add] at this
    exact this
  unfold rowOf gRow named
  simp only [f1, f2, List.map_eq_nil_iff, hne2, if_false, hsum, hne1]
  rw [List.flatMap_append, List.flatMap_append]
  congr 1
  · congr 1
    · by_cases e : P = []
      · rw [if_pos (hnil.2 e), e]; rfl
      · rw [if_neg fun hc => e (hnil.1 hc)]
        simp only [List.flatMap_cons, List.flatMap_nil, List.append_nil, pathF, ← List.map_reverse, List.map_map]
        apply List.map_congr_left
        intro x hx
        simp only [Function.comp, hnm x (List.mem_reverse.1 hx)]
    · by_cases e : ∃ y ∈ Y, P = y.1
      · rw [if_neg (not_not.2 e), if_pos e]
        simp [n1]
      · rw [if_pos e, if_neg e]; rfl
  · simp [n2]

/-- a known attribute; those that are not nested are the results, which were made last -/
def Flag (D : PDB) (a : Nat) : Prop :=
  ∃ A, D.byId a = some A ∧ A.nested = decide (A.name ≠ str "sum#" ++ T ∧ A.name ≠ str "inclusive#" ++ T) ∧
    (A.name = str "sum#" ++ T → a + 2 = D.next) ∧ (A.name = str "inclusive#" ++ T → a + 1 = D.next)

/-- the attributes of a row are known; the region attribute `a` has the id `c a` -/
structure Flags (conv : Verif.Val → Cali.Val) (c : Nat → Nat) (D : PDB) (P : MTree.PathL) (r : List QEnt) : Prop where
  known : ∀ x ∈ Tree.pairs r, Flag D x.1
  path : ∃ Z, Tree.pairs r = P.reverse.map (fun x => (c x.1, conv x.2)) ++ Z

theorem gRow_flags (hother : ∀ i n q, S.node i = some ⟨8, .string n, q⟩ → n ≠ str "sum#" ++ T ∧ n ≠ str "inclusive#" ++ T)
    (Y : List (MTree.PathL × Nat)) (R : RegOk S conv nm Y) (ok : db.OK) {ta : PAttr} (hdb : DbOk (pdbOf db) ta)
    (hc : ∀ y ∈ Y, ∀ x ∈ y.1, Corr S db x.1 (cOf S db x.1)) {P : MTree.PathL} (hP : ∃ y ∈ Y, cnt P y) :
    Flags conv (cOf S db) (D2 (pdbOf db) ta) P (rowOf (pdbOf db) (Y.map fun y => (pathF S db conv y.1, BitVec.ofNat 64 y.2)) (pathF S db conv P)) := by
  obtain ⟨y0, hy0, hcn⟩ := hP
  have hpre := cnt_pre hcn
  have h0 : ∀ k, (pdbOf db).next ≤ k → (pdbOf db).attrs.find? (fun a => decide (a.id = k)) = none := by
    intro k hk
    rw [List.find?_eq_none]
    intro a ha
    have := hdb.wf a ha
    simp; omega
  have k1 : (D2 (pdbOf db) ta).byId (pdbOf db).next = some (sumA (pdbOf db) ta) := by
    unfold PDB.byId D2
    simp only [List.append_assoc, List.find?_append, h0 _ (Nat.le_refl _), Option.none_or, List.find?_cons, sumA, decide_true, Option.some_or]
  have k2 : (D2 (pdbOf db) ta).byId ((pdbOf db).next + 1) = some (inclA (pdbOf db) ta) := by
    unfold PDB.byId D2
    have : decide ((sumA (pdbOf db) ta).id = (pdbOf db).next + 1) = false := by simp [sumA]
    simp only [List.append_assoc, List.find?_append, h0 _ (Nat.le_succ _), Option.none_or, List.find?_cons, this, inclA, decide_true, List.find?_nil]
  have hreg : ∀ x ∈ P, Flag (D2 (pdbOf db) ta) (cOf S db x.1) := by
    intro x hx
    have hx0 := hpre.subset hx
    obtain ⟨⟨q, hq⟩, A, hA, hA2⟩ := R.region y0 hy0 x hx0
    have hb := byId_of_mem ((hc y0 hy0 x hx0).attr ok hA hq)
    refine ⟨⟨cOf S db x.1, nm x.1, A.attrType, decide (A.attrProp &&& 256#32 ≠ 0)⟩, ?_, ?_, fun hc => absurd hc (hother _ _ _ hq).1, fun hc => absurd hc (hother _ _ _ hq).2⟩
    · unfold PDB.byId D2 at *
      simp only [List.append_assoc, List.find?_append, hb, Option.some_or]
    · exact (decide_eq_true hA2).trans (decide_eq_true (hother _ _ _ hq)).symm
  have hn1 : decide ((sumA (pdbOf db) ta).name ≠ str "sum#" ++ T ∧ (sumA (pdbOf db) ta).name ≠ str "inclusive#" ++ T) = false := by
    simp [sumA]
  have hn2 : decide ((inclA (pdbOf db) ta).name ≠ str "sum#" ++ T ∧ (inclA (pdbOf db) ta).name ≠ str "inclusive#" ++ T) = false := by
    simp [inclA]
  refine ⟨?_, ?_⟩
  rotate_left
  · unfold rowOf Tree.pairs
    rw [List.append_assoc, List.flatMap_append]
    refine ⟨_, congrArg (· ++ _) ?_⟩
    by_cases hz : P = []
    · subst hz; rfl
    · rw [if_neg (by simp [pathF, hz])]
      simp [pathF]
  intro x hx
  simp only [Tree.pairs, List.mem_flatMap] at hx
  obtain ⟨e, he, hx⟩ := hx
  simp only [rowOf, List.mem_append] at he
  rcases he with (he | he) | he
  · split at he
    · cases he
    · simp only [List.mem_singleton] at he
      subst he
      simp only [pathF, ← List.map_reverse, List.mem_map, List.mem_reverse] at hx
      obtain ⟨z, hz, rfl⟩ := hx
      exact hreg z hz
  · split at he
    · cases he
    · simp only [List.mem_singleton] at he
      subst he
      simp only [List.mem_singleton] at hx
      subst hx
      exact ⟨_, k1, by rw [hn1]; rfl, fun _ => rfl, fun hc => absurd hc names_ne⟩
  · split at he
    · cases he
    · simp only [List.mem_singleton] at he
      subst he
      simp only [List.mem_singleton] at hx
      subst hx
      exact ⟨_, k2, by rw [hn2]; rfl, fun hc => absurd hc.symm names_ne, fun _ => rfl⟩

/-- the query over a file with the rows `Y` -/
theorem gQuery {E : Agg.Env} (M : Metadata F S conv nm t I info rd th st h) (hdur : (I.dur, rd) ∈ info.aggr.zip info.res) (Q : Pipe.Env)
    (Y : List (MTree.PathL × Nat)) (R : RegOk S conv nm Y) (out : List (List DEnt))
    (hw : List.Forall₂ (fun y rep => ∃ r l, Wrow E S t nm rd (BitVec.ofNat 64 y.2) y.1 rep r l) Y out)
    (hsize : DB.init.nodes.length + fileCost S (out.map fun r => (.snapshot, r)) + 2 ≤ invN) :
    ∃ D rows Ps, ∃ c : Nat → Nat, queryFile F Q reportQuery (profileFile F S out) = some (D, rows) ∧ Ps.Nodup ∧ (∀ P, P ∈ Ps ↔ ∃ y ∈ Y, cnt P y) ∧
      List.Forall₂ (fun P r => named D r = gRow conv nm Y P ∧ Flags conv c D P r) Ps rows := by
  have hok : ∀ r ∈ out, S.RecOK F r := by
    intro r hr
    obtain ⟨i, hi1, rfl⟩ := List.mem_iff_getElem.1 hr
    have g := List.forall₂_iff_get.1 hw
    obtain ⟨r0, l, w⟩ := g.2 i (by rw [g.1]; exact hi1) hi1
    exact w.recOK
  obtain ⟨s', r1, ok, ext, same, orig, hlen⟩ := read_back (F := F) M.sound out hok (by omega)
  have hq : queryFile F Q reportQuery (profileFile F S out) =
      some (query (envOf Q s'.db) reportQuery (pdbOf s'.db) (s'.recs.map fun r => .record (r.map (entQ s'.db)))) := by
    unfold queryFile profileFile; rw [r1]; rfl
  rw [f2_map_left] at same
  by_cases hemp : out = []
  · subst hemp
    cases hw
    cases hs' : s'.recs with
    | cons a b => rw [hs'] at same; cases same
    | nil =>
      rw [hs'] at hq
      exact ⟨_, _, [], id, hq, .nil, fun P => by simp, .nil⟩
  · have hcorr : ∃ j, Corr S s'.db rd.sum j := by
      cases hw with
      | nil => exact absurd rfl hemp
      | cons w _ =>
        cases hs' : s'.recs with
        | nil => rw [hs'] at same; cases same
        | cons a b =>
          rw [hs'] at same
          cases same with
          | cons sm _ =>
            obtain ⟨r, l, w⟩ := w
            exact w.corr sm
    obtain ⟨j, hj⟩ := hcorr
    have hrs : rd.sum ∈ resIds (info.aggr.zip info.res) ++ [info.countA, info.slotA] :=
      List.mem_append_left _ (List.mem_flatMap.2 ⟨(I.dur, rd), hdur, by simp⟩)
    obtain ⟨hnn, A, hA, -⟩ := M.result _ hrs
    have hdb := target_ok M ok ext orig hj hA hnn
    generalize hta : (⟨j, T, A.attrType, decide (A.attrProp &&& 256#32 ≠ 0)⟩ : PAttr) = ta at hdb
    have hja : Corr S s'.db rd.sum ta.id := by rw [← hta]; exact hj
    have hgood : List.Forall₂ (fun y r' => Good (pdbOf s'.db) ta (r'.map (entQ s'.db)) (pathF S s'.db conv y.1).reverse (BitVec.ofNat 64 y.2) ∧
        ∀ x ∈ y.1, Corr S s'.db x.1 (cOf S s'.db x.1)) Y s'.recs := by
      have g1 := List.forall₂_iff_get.1 hw
      have g2 := List.forall₂_iff_get.1 same
      apply List.forall₂_iff_get.2
      refine ⟨g1.1.trans g2.1, ?_⟩
      intro i h1 h2
      have ho : i < out.length := by rw [← g1.1]; exact h1
      obtain ⟨r, l, w⟩ := g1.2 i h1 ho
      have hreg : ∀ x ∈ (Y.get ⟨i, h1⟩).1, (∃ n q, S.node x.1 = some ⟨8, .string n, q⟩) ∧ ∃ A, Denotes S.node x.1 A ∧ A.attrProp &&& 256#32 ≠ 0#32 := by
        intro x hx
        obtain ⟨⟨q, a1⟩, a2⟩ := R.region _ (List.get_mem Y ⟨i, h1⟩) x hx
        exact ⟨⟨_, q, a1⟩, a2⟩
      exact good_of ok M.tree M.uniq w.path w.refs w.out (g2.2 i ho h2) w.nodup w.sum
        (fun x hx => by obtain ⟨⟨q, a1⟩, -⟩ := w.attrs x hx; exact ⟨_, q, a1⟩) hja hreg
    have hcor : ∀ y ∈ Y, ∀ x ∈ y.1, Corr S s'.db x.1 (cOf S s'.db x.1) := by
      intro V hV
      obtain ⟨i, hi1, rfl⟩ := List.mem_iff_getElem.1 hV
      have g := List.forall₂_iff_get.1 hgood
      exact (g.2 i hi1 (by rw [← g.1]; exact hi1)).2
    have hne : (s'.recs.map fun r => r.map (entQ s'.db)) ≠ [] := by
      intro hc
      rw [List.map_eq_nil_iff] at hc
      rw [hc] at same
      cases same
      exact hemp rfl
    obtain ⟨Ps', p1, p2, p3⟩ := query_rows (E := envOf Q s'.db) hdb (meta_ok Q ok) (by show s'.db.nodes.length + 2 ≤ invN; omega)
      (s'.recs.map fun r => r.map (entQ s'.db)) (Y.map fun y => (pathF S s'.db conv y.1, BitVec.ofNat 64 y.2)) (by
        rw [List.forall₂_map_left_iff, List.forall₂_map_right_iff]
        have := hgood.flip
        refine this.imp ?_
        intro a b hab
        exact hab.1) hne
    rw [List.map_map] at p3
    have p3' : query (envOf Q s'.db) reportQuery (pdbOf s'.db) (s'.recs.map fun r => .record (r.map (entQ s'.db))) = _ := p3
    rw [p3'] at hq
    have inj : ∀ P P', (∃ y ∈ Y, cnt P y) → (∃ y ∈ Y, cnt P' y) → pathF S s'.db conv P = pathF S s'.db conv P' → P = P' := by
      rintro P P' ⟨V, hV, hp⟩ ⟨V', hV', hp'⟩ he
      have hpre := cnt_pre hp
      have hpre' := cnt_pre hp'
      refine (map_injOn _ P P' ?_).1 he
      intro x hx y hy e
      simp only [Prod.mk.injEq] at e
      have hx0 := hpre.subset hx
      have hy0 := hpre'.subset hy
      obtain ⟨⟨q, hq⟩, -⟩ := R.region V hV x hx0
      obtain ⟨⟨q', hq'⟩, -⟩ := R.region V' hV' y hy0
      have c1 := hcor V hV x hx0
      rw [e.1] at c1
      have h1 := c1.inj M.uniq (hcor V' hV' y hy0) hq hq' rfl rfl
      exact Prod.ext h1 (R.inj V hV x hx0 V' hV' y hy0 e.2)
    have hsh : ∀ P, (∃ y ∈ Y, cnt P y) → pathF S s'.db conv P ∈ Ps' := by
      rintro P ⟨y, hy, hP⟩
      rw [p2]
      rcases hP with hP | ⟨h1, h3⟩
      · exact ⟨_, List.mem_map.2 ⟨y, hy, rfl⟩, .inl (by rw [hP])⟩
      · exact ⟨_, List.mem_map.2 ⟨y, hy, rfl⟩, .inr ⟨by simp [pathF, h1], h3.map _⟩⟩
    obtain ⟨Ps, q1, q2⟩ := exists_map (pathF S s'.db conv) (fun P => ∃ y ∈ Y, cnt P y) Ps' (by
      intro P' hP'
      obtain ⟨y, hy, hc⟩ := (p2 P').1 hP'
      obtain ⟨V, hV, rfl⟩ := List.mem_map.1 hy
      rcases hc with hc | ⟨hc1, hc2⟩
      · exact ⟨V.1, ⟨V, hV, .inl rfl⟩, hc.symm⟩
      · simp only at hc2
        refine ⟨V.1.take P'.length, ⟨V, hV, .inr ⟨?_, List.take_prefix _ _⟩⟩, ?_⟩
        · intro hz
          have hl := hc2.length_le
          simp only [pathF, List.length_map] at hl
          have := congrArg List.length hz
          simp only [List.length_take, List.length_nil] at this
          apply hc1
          apply List.eq_nil_of_length_eq_zero
          omega
        · rw [List.prefix_iff_eq_take] at hc2
          rw [hc2]
          simp only [pathF, List.map_take, List.length_take, List.length_map]
          congr 1
          have hl : P'.length ≤ V.1.length := by
            have := congrArg List.length hc2
            simp only [pathF, List.length_take, List.length_map] at this
            omega
          omega)
    refine ⟨_, _, Ps, cOf S s'.db, hq, ?_, ?_, ?_⟩
    · exact List.Nodup.of_map _ (by rw [q1]; exact p1)
    · intro P
      constructor
      · exact q2 P
      · intro hP
        have := hsh P hP
        rw [← q1] at this
        obtain ⟨P2, h1, h2⟩ := List.mem_map.1 this
        rw [← inj P2 P (q2 P2 h1) hP h2]
        exact h1
    · rw [← q1, List.map_map, List.forall₂_map_right_iff, List.forall₂_same]
      intro P hP
      exact ⟨gRow_named M.uniq Y R ok hdb hcor (q2 P hP), gRow_flags M.other Y R ok hdb hcor (q2 P hP)⟩

/-- no time is spent in regions the thread is not in at a call -/
theorem spent_zero (th : Nat) (P : MTree.PathL) (h : List (Nat × RT.Op)) : ∀ st prev, P ∉ visits th st h → spent th P st prev h = 0 := by
  induction h with
  | nil => intro st prev _; rfl
  | cons y h ih =>
    obtain ⟨t, op⟩ := y
    intro st prev hv
    simp only [visits, spent] at hv ⊢
    by_cases e : op.thread = th
    · rw [if_pos e] at hv ⊢
      simp only [List.mem_cons, not_or] at hv
      rw [if_neg (fun e => hv.1 e.symm), ih _ _ hv.2]
    · rw [if_neg e] at hv ⊢
      exact ih _ _ hv

/-- the rows of one thread's profile -/
theorem rows_one {raw : BitVec 64 → List Byte} {C : Serv.Cfg} {attrs : List Serv.AttrInfo} {E : Agg.Env} {rc : Agg.ResAttr} {ch : Nat} {s : RT.State}
    (Su : Setup raw C attrs E I info rd rc ch th s st h) (O : Agg.DblOps) (sk : DEnt) (th0 : Nat)
    (M : Metadata F S conv nm (RT.run s (h.map Prod.snd)).tree I info rd th st h) :
    ∃ out Y, profile raw C I conv ch O E info sk th s (Serv.State.init C th0 attrs) h = some out ∧
      List.Forall₂ (fun (y : MTree.PathL × Nat) rep => ∃ r l, Wrow E S (RT.run s (h.map Prod.snd)).tree nm rd (BitVec.ofNat 64 y.2) y.1 rep r l) Y out ∧
      (∀ P, (∃ y ∈ Y, P = y.1) ↔ P ∈ visits th st h) ∧
      (∀ P, ((Y.filter fun y => decide (P = y.1)).map Prod.snd).sum = spent th P st 0 h) ∧
      (∀ P, P ≠ [] → ((Y.filter fun y => decide (P <+: y.1)).map Prod.snd).sum = within th P st 0 h) := by
  obtain ⟨recs, reps, Ys, e, hf, hY, hsub, hn, hv, hi⟩ := profile_reports Su O conv sk th0
  have hw := rowsWritten M O hi Su.env Su.info hf hY hsub
  generalize hL : Ys.map Prod.fst = L at hw hn hv
  refine ⟨_, L.map fun V => (V, spent th V st 0 h), e, ?_, ?_, ?_, ?_⟩
  · rw [List.forall₂_map_left_iff]; exact hw
  · intro P
    rw [← hv]
    constructor
    · rintro ⟨y, hy, rfl⟩
      obtain ⟨V, hV, rfl⟩ := List.mem_map.1 hy
      exact hV
    · intro hP
      exact ⟨_, List.mem_map.2 ⟨P, hP, rfl⟩, rfl⟩
  · intro P
    rw [List.filter_map, List.map_map]
    have : L.filter ((fun y : MTree.PathL × Nat => decide (P = y.1)) ∘ fun V => (V, spent th V st 0 h)) = L.filter fun V => decide (P = V) := rfl
    rw [this, filter_eq_one P L hn]
    by_cases hP : P ∈ L
    · rw [if_pos hP]; simp
    · rw [if_neg hP, spent_zero th P h st 0 fun hc => hP ((hv P).2 hc)]; rfl
  · intro P _
    rw [List.filter_map, List.map_map]
    exact within_sum th P L hn h st 0 fun V hV => (hv V).2 hV

/-- the rows of all profiles -/
theorem rows_all {raw : BitVec 64 → List Byte} {C : Serv.Cfg} {attrs : List Serv.AttrInfo} {E : Agg.Env} {rc : Agg.ResAttr} {ch : Nat} {s : RT.State}
    (O : Agg.DblOps) (sk : DEnt) (th0 : Nat) (Ts : List (Nat × MTree.PathL))
    (Su : ∀ x ∈ Ts, Setup raw C attrs E I info rd rc ch x.1 s x.2 h)
    (M : ∀ x ∈ Ts, Metadata F S conv nm (RT.run s (h.map Prod.snd)).tree I info rd x.1 x.2 h) :
    ∃ out Y, profileAll raw C I conv ch O E info sk s (Serv.State.init C th0 attrs) h (Ts.map Prod.fst) = some out ∧
      List.Forall₂ (fun (y : MTree.PathL × Nat) rep => ∃ r l, Wrow E S (RT.run s (h.map Prod.snd)).tree nm rd (BitVec.ofNat 64 y.2) y.1 rep r l) Y out ∧
      (∀ P, (∃ y ∈ Y, P = y.1) ↔ ∃ x ∈ Ts, P ∈ visits x.1 x.2 h) ∧
      (∀ P, ((Y.filter fun y => decide (P = y.1)).map Prod.snd).sum = (Ts.map fun x => spent x.1 P x.2 0 h).sum) ∧
      (∀ P, P ≠ [] → ((Y.filter fun y => decide (P <+: y.1)).map Prod.snd).sum = (Ts.map fun x => within x.1 P x.2 0 h).sum) := by
  induction Ts with
  | nil => exact ⟨[], [], rfl, .nil, by simp, by simp, by simp⟩
  | cons x Ts ih =>
    obtain ⟨out, Y, e, a1, a2, a3, a4⟩ := rows_one (Su x (by simp)) O sk th0 (M x (by simp))
    obtain ⟨outs, Ys, es, b1, b2, b3, b4⟩ := ih (fun y hy => Su y (by simp [hy])) (fun y hy => M y (by simp [hy]))
    refine ⟨out ++ outs, Y ++ Ys, ?_, List.rel_append a1 b1, ?_, ?_, ?_⟩
    · simp only [List.map_cons, profileAll, e, es, Option.bind_some, Option.map_some]
    · intro P
      have h1 := a2 P
      have h2 := b2 P
      simp only [List.mem_append, List.mem_cons]
      constructor
      · rintro ⟨y, hy | hy, e⟩
        · exact ⟨x, .inl rfl, h1.1 ⟨y, hy, e⟩⟩
        · obtain ⟨x', hx', hv⟩ := h2.1 ⟨y, hy, e⟩
          exact ⟨x', .inr hx', hv⟩
      · rintro ⟨x', rfl | hx', hv⟩
        · obtain ⟨y, hy, e⟩ := h1.2 hv
          exact ⟨y, .inl hy, e⟩
        · obtain ⟨y, hy, e⟩ := h2.2 ⟨x', hx', hv⟩
          exact ⟨y, .inr hy, e⟩
    · intro P
      rw [List.filter_append, List.map_append, List.sum_append, a3, b3, List.map_cons, List.sum_cons]
    · intro P hP
      rw [List.filter_append, List.map_append, List.sum_append, a4 P hP, b4 P hP, List.map_cons, List.sum_cons]

end Verif.E2E
