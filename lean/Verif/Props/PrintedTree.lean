import Verif.E2E.Tree
import Verif.Query.SnapTreeFull
import Verif.Props.EndToEndThreads
import Verif.Props.TreeFmt
/-!
# C86: the printed tree
-/
namespace Verif.E2E
open Verif Verif.Cali Verif.Query Verif.Query.Pre Verif.Query.Pipe Verif.Prof Verif.Query.Tree

theorem named_pairs (D : PDB) (r : List QEnt) : named D r = (Tree.pairs r).map (lab D) := by
  unfold named Tree.pairs
  rw [List.map_flatMap]
  apply List.flatMap_congr
  intro e _
  cases e <;> rfl

theorem firsts_id {l : List (Nat × Cali.Val)} (h : (l.map Prod.fst).Nodup) : firsts l = l := by
  induction l with
  | nil => rfl
  | cons p l ih =>
    rw [List.map_cons, List.nodup_cons] at h
    rw [firsts, ih h.2]
    congr 1
    rw [List.filter_eq_self]
    intro q hq
    simp only [ne_eq, decide_not, Bool.not_eq_eq_eq_not, Bool.not_true, decide_eq_false_iff_not]
    intro e
    exact h.1 (e ▸ List.mem_map_of_mem hq)

theorem f2_map_eq {α β γ : Type} {R : α → β → Prop} {f : α → γ} {g : β → γ} {l : List α} {m : List β} (h : List.Forall₂ R l m)
    (hfg : ∀ a b, R a b → f a = g b) : l.map f = m.map g := by
  induction h with
  | nil => rfl
  | cons h1 _ ih => rw [List.map_cons, List.map_cons, ih, hfg _ _ h1]

/-- what the tree formatter sees in a row -/
theorem row_read {W : FmtEnv} {s : CalQL.Spec} {D : PDB} {conv : Verif.Val → Cali.Val} {c : Nat → Nat} {P : MTree.PathL} {r : List QEnt} (hf : Flags conv c D P r) (hk : (treeCfg W s D).pathKeys = []) {X Y : List (Option Str × Cali.Val)}
    (hn : named D r = X.reverse ++ Y) (hX : ∀ x ∈ X, x.1 ≠ some (str "sum#" ++ T) ∧ x.1 ≠ some (str "inclusive#" ++ T))
    (hY : ∀ y ∈ Y, y.1 = some (str "sum#" ++ T) ∨ y.1 = some (str "inclusive#" ++ T)) (hd : (Y.map Prod.fst).Nodup) (hl : X.length = P.length) :
    recPath (treeCfg W s D) r = P.map (fun x => (c x.1, conv x.2)) ∧ (recPath (treeCfg W s D) r).map (lab D) = X ∧ (recData (treeCfg W s D) r).map (lab D) = Y ∧
      ∀ p ∈ recData (treeCfg W s D) r, Flag D p.1 := by
  rw [named_pairs] at hn
  obtain ⟨L1, L2, e, h1, h2⟩ := List.map_eq_append_iff.1 hn
  have hmem : ∀ x ∈ Tree.pairs r, (treeCfg W s D).isPath = fun ai => ai.nested := by
    intro x _
    funext ai
    simp only [TCfg.isPath, hk, if_true]
  have hpath : ∀ x ∈ Tree.pairs r, PathEntry (treeCfg W s D) x = decide (nameIn D x.1 ≠ some (str "sum#" ++ T) ∧ nameIn D x.1 ≠ some (str "inclusive#" ++ T)) ∧
      DataEntry (treeCfg W s D) x = !decide (nameIn D x.1 ≠ some (str "sum#" ++ T) ∧ nameIn D x.1 ≠ some (str "inclusive#" ++ T)) := by
    intro x hx
    obtain ⟨A, a1, a2, -⟩ := hf.known x hx
    have i1 : (treeCfg W s D).info x.1 = some ⟨A.name, A.ty, false, false, A.nested⟩ := by simp only [treeCfg, a1, Option.map_some]
    have i2 : nameIn D x.1 = some A.name := by unfold nameIn; rw [a1]; rfl
    unfold PathEntry DataEntry
    simp only [i1, hmem x hx, i2, a2, Option.some.injEq, ne_eq, and_self]
  have m1 : ∀ x ∈ L1, (nameIn D x.1 ≠ some (str "sum#" ++ T) ∧ nameIn D x.1 ≠ some (str "inclusive#" ++ T)) := by
    intro x hx
    have : lab D x ∈ X.reverse := h1 ▸ List.mem_map_of_mem hx
    exact hX _ (List.mem_reverse.1 this)
  have m2 : ∀ x ∈ L2, ¬ (nameIn D x.1 ≠ some (str "sum#" ++ T) ∧ nameIn D x.1 ≠ some (str "inclusive#" ++ T)) := by
    intro x hx hc
    have : lab D x ∈ Y := h2 ▸ List.mem_map_of_mem hx
    rcases hY _ this with h | h
    · exact hc.1 h
    · exact hc.2 h
  have f1 : (Tree.pairs r).filter (PathEntry (treeCfg W s D)) = L1 := by
    rw [e, List.filter_append, List.filter_eq_self.2, List.filter_eq_nil_iff.2, List.append_nil]
    · intro x hx
      rw [(hpath x (by rw [e]; simp [hx])).1, decide_eq_false (m2 x hx)]
      simp
    · intro x hx
      rw [(hpath x (by rw [e]; simp [hx])).1, decide_eq_true (m1 x hx)]
  have f2 : (Tree.pairs r).filter (DataEntry (treeCfg W s D)) = L2 := by
    rw [e, List.filter_append, List.filter_eq_nil_iff.2, List.nil_append, List.filter_eq_self.2]
    · intro x hx
      rw [(hpath x (by rw [e]; simp [hx])).2, decide_eq_false (m2 x hx)]
      rfl
    · intro x hx
      rw [(hpath x (by rw [e]; simp [hx])).2, decide_eq_true (m1 x hx)]
      simp
  have nd : (L2.map Prod.fst).Nodup := by
    have : (L2.map Prod.fst).map (nameIn D) = Y.map Prod.fst := by rw [← h2, List.map_map, List.map_map]; rfl
    exact List.Nodup.of_map (nameIn D) (this ▸ hd)
  have d : recData (treeCfg W s D) r = L2 := by unfold recData; rw [f2, firsts_id nd]
  refine ⟨?_, ?_, ?_, ?_⟩
  · obtain ⟨Z, hZ⟩ := hf.path
    unfold recPath
    rw [f1]
    rw [e] at hZ
    have hlen : L1.length = (P.reverse.map fun x => (c x.1, conv x.2)).length := by
      have := congrArg List.length h1
      simp only [List.length_map, List.length_reverse] at this ⊢
      omega
    rw [(List.append_inj hZ hlen).1, List.map_reverse, List.reverse_reverse]
  · unfold recPath
    rw [f1, List.map_reverse, h1, List.reverse_reverse]
  · rw [d, h2]
  · rw [d]
    intro p hp
    exact hf.known p (by rw [e]; simp [hp])

variable {F : DblFmt} {S : Src} {conv : Verif.Val → Cali.Val} {nm : Nat → Str} {I : Ids} {info : Agg.Info} {rd : Agg.ResAttr} {h : List (Nat × RT.Op)}

/-- the text asks for FORMAT tree without arguments and has no SELECT clause -/
structure TreeText (cs : List CalQL.Clause) (text : List Byte) : Prop extends ReportText cs text where
  tree : ∃ d, d ∈ CalQL.fmtDefs ∧ d.name = str "tree" ∧ CalQL.lastFormat cs = some (d, [])
  noSelect : cs.flatMap CalQL.Clause.items = []

/-- **C86, the printed tree** The threads `Ts` make properly nested begin and end calls in any interleaving while a channel profiles them; the profile of all of
them is flushed to a `.cali` file, and `cali-query` runs a text with `AGGREGATE sum(sum#time.duration.ns),inclusive_sum(sum#time.duration.ns) GROUP BY path FORMAT tree` and
possibly ORDER BY.  It prints a header and lines; every line has a label and values.  Read top to bottom - a label at level `n` replaces the current path from level `n` on -
there is exactly one line for each non-empty region path one of the threads was in at one of its calls, and for each path around one, and it shows the time all threads
together spent with exactly these regions open (if one of them was there at a call) and the time they spent with these regions open.  A line stands at the level of its depth;
the columns are the two times, in this order. -/
theorem C86_tree_partial {raw : BitVec 64 → List Byte} {C : Serv.Cfg} {attrs : List Serv.AttrInfo} {E : Agg.Env} {rc : Agg.ResAttr} {ch : Nat} {s : RT.State}
    (Ts : List (Nat × MTree.PathL)) (hT : Ts ≠ []) (Su : ∀ x ∈ Ts, Setup raw C attrs E I info rd rc ch x.1 s x.2 h) (O : Agg.DblOps) (sk : DEnt) (th0 : Nat) (Q : Pipe.Env)
    (M : ∀ x ∈ Ts, Metadata F S conv nm (RT.run s (h.map Prod.snd)).tree I info rd x.1 x.2 h)
    (hinj : ∀ t ∈ Ts, ∀ V ∈ visits t.1 t.2 h, ∀ x ∈ V, ∀ t' ∈ Ts, ∀ V' ∈ visits t'.1 t'.2 h, ∀ y ∈ V', conv x.2 = conv y.2 → x.2 = y.2)
    (hsize : ∀ out, profileAll raw C I conv ch O E info sk s (Serv.State.init C th0 attrs) h (Ts.map Prod.fst) = some out →
      DB.init.nodes.length + fileCost S (out.map fun r => (.snapshot, r)) + 2 ≤ invN)
    {cs : List CalQL.Clause} {text : List Byte} (ht : TreeText cs text) (num : Str → Option U64) (one : U64) (W : FmtEnv) (srt : Util.Sorter) :
    ∃ (out : List (List DEnt)) (printed : List Byte) (D : PDB) (K : TCfg) (cols : Cols) (pw : Nat) (columns : List Nat) (header : Str) (lines : List TRow) (Ps : List MTree.PathL),
      profileAll raw C I conv ch O E info sk s (Serv.State.init C th0 attrs) h (Ts.map Prod.fst) = some out ∧
      printTree F Q num one W srt text (profileFile F S out) = some printed ∧
      printed = header ++ lines.flatMap (K.renderRow cols pw columns) ∧
      (∀ l ∈ lines, l.label.isSome = true ∧ l.data.isSome = true) ∧
      labelLevels lines = (readPaths [] lines).map (fun q => q.length - 1) ∧
      Ps.Nodup ∧ (∀ P, P ∈ Ps ↔ P ≠ [] ∧ ShownBy Ts h P) ∧
      ((readRows [] lines).map fun e => (e.1.map (lab D), e.2.map (lab D))).Perm
        (Ps.map fun P => (P.map fun x => (some (nm x.1), conv x.2), dataAll Ts h P)) ∧
      (Ps ≠ [] → columns.map (nameIn D) = [some (str "sum#sum#time.duration.ns"), some (str "inclusive#sum#time.duration.ns")]) := by
  obtain ⟨out, D, rows, Ps, c, e, q1, q2, q3, q4⟩ := rowsAll Ts hT Su O sk th0 Q M hinj hsize
  have n1 : str "sum#sum#time.duration.ns" = str "sum#" ++ T := by decide +kernel
  have n2 : str "inclusive#sum#time.duration.ns" = str "inclusive#" ++ T := by decide +kernel
  have hne12 := names_ne
  -- the text
  obtain ⟨ts, hw, hl⟩ := ht.written
  obtain ⟨-, mean⟩ := CalQL.C61_parse_partial cs ts text hw hl ht.ok
  obtain ⟨d, d1, d2, d3⟩ := ht.tree
  obtain ⟨m, hm, hm2⟩ := mean.fmt d [] d3
  have hid : d.id = 5 := by
    have : ∀ d ∈ CalQL.fmtDefs, d.name = str "tree" → d.id = 5 := by decide +kernel
    exact this d d1 d2
  have hsel : (CalQL.parse text).1.selSel = .default := by
    have := (mean.sel (by rw [ht.noSelect]; intro i hi; cases hi)).2.2
    rw [ht.noSelect] at this
    exact this
  have hprint : printTree F Q num one W srt text (profileFile F S out) =
      some ((treeCfg W (CalQL.parse text).1 D).flush srt ((treeCfg W (CalQL.parse text).1 D).build rows)) := by
    unfold printTree
    simp only [hm, hid, if_true, C86_text ht.toReportText, q1, Option.map_some]
  have hkeys : (treeCfg W (CalQL.parse text).1 D).pathKeys = [] := by
    have : (treeCfg W (CalQL.parse text).1 D).pathNames = [] := by
      simp only [treeCfg, fmtArg, hm, Option.bind_some, hm2]
      rfl
    unfold TCfg.pathKeys
    rw [this]; rfl
  have hK : (treeCfg W (CalQL.parse text).1 D).select = none := by simp only [treeCfg, hsel]
  have hinfo : ∀ a ai, (treeCfg W (CalQL.parse text).1 D).info a = some ai → ai.hidden = false ∧ ai.isGlobal = false := by
    intro a ai ha
    simp only [treeCfg, Option.map_eq_some_iff] at ha
    obtain ⟨A, -, rfl⟩ := ha
    exact ⟨rfl, rfl⟩
  generalize hKe : treeCfg W (CalQL.parse text).1 D = K at *
  -- the rows
  have hreg : ∀ P ∈ Ps, ∀ x ∈ P, ∃ t ∈ Ts, ∃ V ∈ visits t.1 t.2 h, x ∈ V := by
    intro P hP x hx
    obtain ⟨t, ht, h1 | ⟨-, V, hV, hpre⟩⟩ := (q3 P).1 hP
    · exact ⟨t, ht, P, h1, hx⟩
    · exact ⟨t, ht, V, hV, hpre.subset hx⟩
  have hread : ∀ P r, P ∈ Ps → named D r = rowAll conv nm Ts h P → Flags conv c D P r →
      recPath K r = P.map (fun x => (c x.1, conv x.2)) ∧ (recPath K r).map (lab D) = P.map (fun x => (some (nm x.1), conv x.2)) ∧
      (P ≠ [] → (recData K r).map (lab D) = dataAll Ts h P) ∧ ∀ p ∈ recData K r, Flag D p.1 := by
    intro P r hP hn hf
    subst hKe
    obtain ⟨a1, a2, a3, a4⟩ := row_read (W := W) (s := (CalQL.parse text).1) hf hkeys (X := P.map (fun x => (some (nm x.1), conv x.2)))
      (Y := (if ∃ x ∈ Ts, P ∈ visits x.1 x.2 h then [(some (str "sum#sum#time.duration.ns"), Cali.Val.uint (BitVec.ofNat 64 (Ts.map fun x => spent x.1 P x.2 0 h).sum))] else []) ++
        [(some (str "inclusive#sum#time.duration.ns"),
        Cali.Val.uint (BitVec.ofNat 64 (if P = [] then (Ts.map fun x => spent x.1 [] x.2 0 h).sum else (Ts.map fun x => within x.1 P x.2 0 h).sum)))])
      (by rw [hn, rowAll, List.map_reverse, List.append_assoc])
      (by
        intro x hx
        obtain ⟨y, hy, rfl⟩ := List.mem_map.1 hx
        obtain ⟨t, ht, V, hV, hyV⟩ := hreg P hP y hy
        obtain ⟨⟨q, hq⟩, -⟩ := (M t ht).region V hV y hyV
        have := (M t ht).other _ _ _ hq
        simpa using this)
      (by
        intro y hy
        rcases List.mem_append.1 hy with hy | hy
        · split at hy
          · simp only [List.mem_singleton] at hy
            subst hy
            exact .inl (by rw [n1])
          · cases hy
        · simp only [List.mem_singleton] at hy
          subst hy
          exact .inr (by rw [n2]))
      (by
        split
        · simp only [List.cons_append, List.nil_append, List.map_cons, List.map_nil, List.nodup_cons, List.mem_singleton, Option.some.injEq, n1, n2]
          simp [hne12]
        · simp)
      (by simp)
    refine ⟨a1, a2, ?_, a4⟩
    intro hne
    rw [a3, dataAll, if_neg hne]
  have hinjP : ∀ P ∈ Ps, ∀ P' ∈ Ps, P.map (fun x => (some (nm x.1), conv x.2)) = P'.map (fun x => (some (nm x.1), conv x.2)) → P = P' := by
    intro P hP P' hP' he
    refine (map_injOn _ P P' ?_).1 he
    intro x hx y hy exy
    simp only [Prod.mk.injEq, Option.some.injEq] at exy
    obtain ⟨t, ht, V, hV, hxV⟩ := hreg P hP x hx
    obtain ⟨t', ht', V', hV', hyV⟩ := hreg P' hP' y hy
    obtain ⟨⟨q, hq⟩, -⟩ := (M t ht).region V hV x hxV
    obtain ⟨⟨q', hq'⟩, -⟩ := (M t' ht').region V' hV' y hyV
    exact Prod.ext ((M t ht).uniq _ _ _ _ hq hq' rfl rfl (by rw [exy.1])) (hinj t ht V hV x hxV t' ht' V' hV' y hyV exy.2)
  have hq4 : List.Forall₂ (fun P r => P ∈ Ps ∧ named D r = rowAll conv nm Ts h P ∧ Flags conv c D P r) Ps rows := by
    have g := List.forall₂_iff_get.1 q4
    refine List.forall₂_iff_get.2 ⟨g.1, fun i h1 h2 => ⟨List.get_mem _ _, g.2 i h1 h2⟩⟩
  have hpaths : Ps.map (fun P => P.map (fun x => (c x.1, conv x.2))) = rows.map (recPath K) :=
    f2_map_eq hq4 fun P r hr => (hread P r hr.1 hr.2.1 hr.2.2).1.symm
  have hnames : Ps.map (fun P => P.map (fun x => (some (nm x.1), conv x.2))) = (rows.map (recPath K)).map fun q => q.map (lab D) := by
    rw [List.map_map]
    exact f2_map_eq hq4 fun P r hr => (hread P r hr.1 hr.2.1 hr.2.2).2.1.symm
  have hnodup : (rows.map (recPath K)).Nodup := by
    apply List.Nodup.of_map fun q => q.map (lab D)
    rw [← hnames]
    exact q2.map_on hinjP
  have hfilter : List.Forall₂ (fun P r => P ∈ Ps ∧ named D r = rowAll conv nm Ts h P ∧ Flags conv c D P r)
      (Ps.filter fun P => decide (P ≠ [])) (rows.filter fun r => decide (recPath K r ≠ [])) := by
    refine filter_f2 hq4 ?_
    intro P r hr
    rw [(hread P r hr.1 hr.2.1 hr.2.2).1]
    simp
  have hrecs : (Ps.filter fun P => decide (P ≠ [])).map (fun P => (P.map fun x => (some (nm x.1), conv x.2), dataAll Ts h P)) =
      ((pathRecs K rows).map fun e => (e.1.map (lab D), e.2.map (lab D))) := by
    unfold pathRecs
    rw [List.map_map]
    have : List.Forall₂ (fun P r => P ≠ [] ∧ P ∈ Ps ∧ named D r = rowAll conv nm Ts h P ∧ Flags conv c D P r)
      (Ps.filter fun P => decide (P ≠ [])) (rows.filter fun r => decide (recPath K r ≠ [])) := by
      have g := List.forall₂_iff_get.1 hfilter
      refine List.forall₂_iff_get.2 ⟨g.1, fun i h1 h2 => ⟨?_, g.2 i h1 h2⟩⟩
      have := (List.mem_filter.1 (List.get_mem (Ps.filter fun P => decide (P ≠ [])) ⟨i, h1⟩)).2
      simpa using this
    exact f2_map_eq this fun P r hr => by
      obtain ⟨-, b2, b3, -⟩ := hread P r hr.2.1 hr.2.2.1 hr.2.2.2
      simp only [Function.comp, b2, b3 hr.1]
  -- the tree
  have hh := build_holds K rows
  obtain ⟨r1, r2⟩ := readRows_rowsL (sortTop srt K.dcmp K.sort (K.build rows).kids)
  obtain ⟨p1, p2⟩ := sortTop_perm srt K.dcmp K.sort [] (K.build rows).kids
  have hperm := p1.trans (build_perm K rows)
  have hclosed : ∀ q ∈ pathsL [] (K.build rows).kids, q ≠ [] ∧ q ∈ rows.map (recPath K) := by
    intro q hq
    obtain ⟨h0, r, hr, hpre⟩ := (hh.paths q).1 hq
    refine ⟨h0, ?_⟩
    have hm : recPath K r ∈ rows.map (recPath K) := List.mem_map_of_mem hr
    rw [← hpaths] at hm ⊢
    obtain ⟨P, hP, eP⟩ := List.mem_map.1 hm
    rw [← eP] at hpre
    have eq : q = (P.take q.length).map fun x => (c x.1, conv x.2) := by
      rw [List.map_take]; exact List.prefix_iff_eq_take.1 hpre
    refine List.mem_map.2 ⟨P.take q.length, ?_, eq.symm⟩
    have hne : P.take q.length ≠ [] := by
      intro hc
      rw [hc] at eq
      exact h0 eq
    rw [q3] at hP ⊢
    obtain ⟨t, ht, h1 | ⟨-, V, hV, hp⟩⟩ := hP
    · exact ⟨t, ht, .inr ⟨hne, P, h1, List.take_prefix _ _⟩⟩
    · exact ⟨t, ht, .inr ⟨hne, V, hV, (List.take_prefix _ _).trans hp⟩⟩
  have hfull : ∀ l ∈ rowsL 0 (sortTop srt K.dcmp K.sort (K.build rows).kids), l.full := by
    refine rowsL_full [] 0 _ ?_ ?_
    · rw [p2.nodup_iff]; exact pathsL_nodup [] _ hh.nodup hh.wf
    · intro q hq
      rw [p2.mem_iff] at hq
      obtain ⟨h0, hm⟩ := hclosed q hq
      rw [(hperm.map Prod.fst).count_eq]
      have e1 : (pathRecs K rows).map Prod.fst = (rows.map (recPath K)).filter fun q => decide (q ≠ []) := by
        unfold pathRecs
        rw [List.map_map, List.filter_map]
        rfl
      rw [e1, List.count_eq_one_of_mem (hnodup.filter _) (List.mem_filter.2 ⟨hm, by simpa using h0⟩)]
  refine ⟨out, _, D, K, (K.build rows).cols, K.pathWidth (K.build rows), K.attrs (K.build rows).cols, K.header (K.build rows),
    rowsL 0 (sortTop srt K.dcmp K.sort (K.build rows).kids), Ps.filter fun P => decide (P ≠ []), e, hprint, flush_text K srt rows, hfull, ?_, q2.filter _, ?_, ?_, ?_⟩
  · rw [r2]; exact rowsL_levels [] _
  · intro P
    rw [List.mem_filter, q3]
    simp only [decide_eq_true_eq]
    exact and_comm
  · rw [r1, hrecs]
    exact hperm.map _
  · intro hne
    have hcols : ∀ a, a ∈ K.attrs (K.build rows).cols ↔ a ∈ (allData K rows).map Prod.fst := by
      intro a
      rw [← (build_cols K rows).cols]
      unfold TCfg.attrs
      rw [hK]
      simp only [List.mem_filter, List.mem_map]
      constructor
      · exact fun hx => hx.1
      · intro hx
        refine ⟨hx, ?_⟩
        cases hi : K.info a with
        | none => simp
        | some ai => simp [(hinfo a ai hi).1, (hinfo a ai hi).2]
    have hsorted : (K.attrs (K.build rows).cols).Pairwise (· < ·) := by
      unfold TCfg.attrs
      rw [hK]
      exact (build_sorted K rows).filter _
    have hflag : ∀ a, Flag D a → (nameIn D a = some (str "sum#" ++ T) → a + 2 = D.next) ∧ (nameIn D a = some (str "inclusive#" ++ T) → a + 1 = D.next) := by
      rintro a ⟨A, a1, -, a3, a4⟩
      unfold nameIn
      rw [a1]
      simp only [Option.map_some, Option.some.injEq]
      exact ⟨a3, a4⟩
    obtain ⟨P0, hP0⟩ := List.exists_mem_of_ne_nil _ hne
    obtain ⟨hP0, hP0'⟩ := List.mem_filter.1 hP0
    have hP0ne : P0 ≠ [] := by simpa using hP0'
    obtain ⟨V, hV, hVne, hVv⟩ : ∃ V ∈ Ps, V ≠ [] ∧ ∃ x ∈ Ts, V ∈ visits x.1 x.2 h := by
      obtain ⟨t, ht, h1 | ⟨-, V, hV, hp⟩⟩ := (q3 P0).1 hP0
      · exact ⟨P0, hP0, hP0ne, t, ht, h1⟩
      · refine ⟨V, (q3 V).2 ⟨t, ht, .inl hV⟩, ?_, t, ht, hV⟩
        rintro rfl
        exact hP0ne (List.prefix_nil.1 hp)
    obtain ⟨r, hr, hVr⟩ : ∃ r ∈ rows, named D r = rowAll conv nm Ts h V ∧ Flags conv c D V r := by
      obtain ⟨i, hi, rfl⟩ := List.mem_iff_getElem.1 hV
      have g := List.forall₂_iff_get.1 q4
      exact ⟨rows[i]'(g.1 ▸ hi), List.getElem_mem _, g.2 i hi (g.1 ▸ hi)⟩
    obtain ⟨b1, b2, b3, b4⟩ := hread V r hV hVr.1 hVr.2
    have b5 := b3 hVne
    rw [dataAll, if_pos hVv] at b5
    obtain ⟨x, y, hxy⟩ : ∃ x y, recData K r = [x, y] := by
      generalize recData K r = l at b5
      obtain _ | ⟨x, _ | ⟨y, _ | ⟨z, l⟩⟩⟩ := l
      · simp at b5
      · simp at b5
      · exact ⟨x, y, rfl⟩
      · simp at b5
    rw [hxy] at b5 b4
    simp only [List.map_cons, List.map_nil, List.cons_append, List.nil_append, List.cons.injEq, and_true, lab, Prod.mk.injEq] at b5
    have x1 : nameIn D x.1 = some (str "sum#" ++ T) := by rw [b5.1.1, n1]
    have y1 : nameIn D y.1 = some (str "inclusive#" ++ T) := by rw [b5.2.1, n2]
    have x2 := (hflag x.1 (b4 x (by simp))).1 x1
    have y2 := (hflag y.1 (b4 y (by simp))).2 y1
    have hrne : recPath K r ≠ [] := by rw [b1]; simpa using hVne
    have htwo : K.attrs (K.build rows).cols = [x.1, y.1] := by
      refine sorted_two hsorted (by omega) ?_
      intro a
      rw [hcols]
      constructor
      · intro ha
        obtain ⟨p, hp, rfl⟩ := List.mem_map.1 ha
        obtain ⟨r', hr', hp'⟩ := List.mem_flatMap.1 hp
        obtain ⟨hr1, hr2⟩ := List.mem_filter.1 hr'
        obtain ⟨i, hi, rfl⟩ := List.mem_iff_getElem.1 hr1
        have g := List.forall₂_iff_get.1 hq4
        obtain ⟨g1, g2, g3⟩ := g.2 i (g.1 ▸ hi) hi
        obtain ⟨c1, -, c3, c4⟩ := hread _ _ g1 g2 g3
        have hPne : Ps.get ⟨i, g.1 ▸ hi⟩ ≠ [] := by
          intro hc
          rw [hc] at c1
          have : recPath K rows[i] = [] := c1
          rw [this] at hr2
          simp at hr2
        have hm : lab D p ∈ dataAll Ts h (Ps.get ⟨i, g.1 ▸ hi⟩) := c3 hPne ▸ List.mem_map_of_mem hp'
        have hfl := hflag p.1 (c4 p hp')
        unfold dataAll at hm
        rcases List.mem_append.1 hm with hm | hm
        · split at hm
          · simp only [List.mem_singleton, lab, Prod.mk.injEq] at hm
            have := hfl.1 (by rw [hm.1, n1])
            left; omega
          · cases hm
        · simp only [List.mem_singleton, lab, Prod.mk.injEq] at hm
          have := hfl.2 (by rw [hm.1, n2])
          right; omega
      · intro ha
        have : ∀ p ∈ recData K r, p.1 ∈ (allData K rows).map Prod.fst := fun p hp =>
          List.mem_map_of_mem (List.mem_flatMap.2 ⟨r, List.mem_filter.2 ⟨hr, by simpa using hrne⟩, hp⟩)
        rw [hxy] at this
        rcases ha with rfl | rfl
        · exact this x (by simp)
        · exact this y (by simp)
    rw [htwo]
    simp [b5.1.1, b5.2.1]

/-- the hypotheses on the text are met -/
theorem C86_tree_text_example : TreeText rClauses rText := ⟨C86_text_example, ⟨⟨5, str "tree", 0, 3, [str "path-attributes", str "column-width", str "print-globals"]⟩,
  by decide +kernel, rfl, by rfl⟩, by rfl⟩

/-! ## A concrete case: the threads 3 and 5 of the example of C86 -/

/-- the theorem applies, with every number format -/
example (F : DblFmt) (W : FmtEnv) (srt : Util.Sorter) : ∃ (out : List (List DEnt)) (printed : List Byte) (D : PDB) (K : TCfg) (cols : Cols) (pw : Nat) (columns : List Nat) (header : Str)
    (lines : List TRow) (Ps : List MTree.PathL),
    profileAll (fun _ => []) exCfg exIds eConv 7 Agg.exOps (exEnvOf eFinal) exInfoP ⟨some 1, .inv⟩ eS (Serv.State.init exCfg 0 eAttrs) eHist [3, 5] = some out ∧
    printTree F PipeDemo.env (fun _ => none) 0 W srt rText (profileFile F (tabSrc eTab) out) = some printed ∧
    printed = header ++ lines.flatMap (K.renderRow cols pw columns) ∧
    (∀ l ∈ lines, l.label.isSome = true ∧ l.data.isSome = true) ∧
    labelLevels lines = (readPaths [] lines).map (fun q => q.length - 1) ∧
    Ps.Nodup ∧ (∀ P, P ∈ Ps ↔ P ≠ [] ∧ ShownBy [(3, []), (5, [])] eHist P) ∧
    ((readRows [] lines).map fun e => (e.1.map (lab D), e.2.map (lab D))).Perm
      (Ps.map fun P => (P.map fun x => (some (eNm x.1), eConv x.2), dataAll [(3, []), (5, [])] eHist P)) ∧
    (Ps ≠ [] → columns.map (nameIn D) = [some (str "sum#sum#time.duration.ns"), some (str "inclusive#sum#time.duration.ns")]) := by
  refine C86_tree_partial (rd := ⟨1020, 1021, 1022, 1023⟩) (rc := ⟨1010, 1011, 1012, 1013⟩) [(3, []), (5, [])] (by simp) ?_ Agg.exOps ⟨some 1, .inv⟩ 0 PipeDemo.env ?_ eInj5 ?_
    C86_tree_text_example (fun _ => none) 0 W srt
  · intro x hx
    simp only [List.mem_cons, List.not_mem_nil, or_false] at hx
    rcases hx with rfl | rfl
    · exact eSetup
    · exact eSetup5
  · intro x hx
    simp only [List.mem_cons, List.not_mem_nil, or_false] at hx
    rcases hx with rfl | rfl
    · exact eMetadata F
    · exact eMetadata5 F
  · intro out h
    rw [show List.map Prod.fst [((3 : Nat), ([] : MTree.PathL)), (5, [])] = [3, 5] from rfl, eProfile5] at h
    cases h
    decide +kernel

/-- the text printed for the example -/
theorem C86_tree_example :
    printTree ⟨fun _ => [], fun _ => [], fun _ => none⟩ PipeDemo.env (fun _ => none) 0 ⟨fun _ => none, fun _ => none, ⟨fun _ => [], fun _ => [], fun _ => none⟩, fun _ _ => 0⟩
      Util.insertionSorter rText (profileFile ⟨fun _ => [], fun _ => [], fun _ => none⟩ (tabSrc eTab) eOut5) =
    some (str "Path sum#sum#time.duration.ns inclusive#sum#time.duration.ns \n" ++
      str "main                       18                             30 \n" ++
      str "  x                        12                             12 \n") := by
  decide +kernel

end Verif.E2E
