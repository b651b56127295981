import Verif.E2E.Threads
import Verif.Props.EndToEnd
import Verif.Props.Plan
/-!
# C86 for all threads
-/
namespace Verif.E2E
open Verif Verif.Cali Verif.Query Verif.Query.Pre Verif.Query.Pipe Verif.Prof

variable {F : DblFmt} {S : Src} {conv : Verif.Val → Cali.Val} {nm : Nat → Str} {I : Ids} {info : Agg.Info} {rd : Agg.ResAttr} {h : List (Nat × RT.Op)}

/-- the rows of the report; `C86_all_threads_partial` and the printed tree rest on this -/
theorem rowsAll {raw : BitVec 64 → List Byte} {C : Serv.Cfg} {attrs : List Serv.AttrInfo} {E : Agg.Env} {rc : Agg.ResAttr} {ch : Nat} {s : RT.State}
    (Ts : List (Nat × MTree.PathL)) (hT : Ts ≠ []) (Su : ∀ x ∈ Ts, Setup raw C attrs E I info rd rc ch x.1 s x.2 h) (O : Agg.DblOps) (sk : DEnt) (th0 : Nat) (Q : Pipe.Env)
    (M : ∀ x ∈ Ts, Metadata F S conv nm (RT.run s (h.map Prod.snd)).tree I info rd x.1 x.2 h)
    (hinj : ∀ t ∈ Ts, ∀ V ∈ visits t.1 t.2 h, ∀ x ∈ V, ∀ t' ∈ Ts, ∀ V' ∈ visits t'.1 t'.2 h, ∀ y ∈ V', conv x.2 = conv y.2 → x.2 = y.2)
    (hsize : ∀ out, profileAll raw C I conv ch O E info sk s (Serv.State.init C th0 attrs) h (Ts.map Prod.fst) = some out →
      DB.init.nodes.length + fileCost S (out.map fun r => (.snapshot, r)) + 2 ≤ invN) :
    ∃ out D rows Ps, ∃ c : Nat → Nat, profileAll raw C I conv ch O E info sk s (Serv.State.init C th0 attrs) h (Ts.map Prod.fst) = some out ∧
      queryFile F Q reportQuery (profileFile F S out) = some (D, rows) ∧
      Ps.Nodup ∧ (∀ P, P ∈ Ps ↔ ShownBy Ts h P) ∧ List.Forall₂ (fun P r => named D r = rowAll conv nm Ts h P ∧ Flags conv c D P r) Ps rows := by
  obtain ⟨out, Y, e, a1, a2, a3, a4⟩ := rows_all O sk th0 Ts Su M
  obtain ⟨x0, hx0⟩ := List.exists_mem_of_ne_nil Ts hT
  have hv : ∀ y ∈ Y, ∃ x ∈ Ts, y.1 ∈ visits x.1 x.2 h := fun y hy => (a2 y.1).1 ⟨y, hy, rfl⟩
  have R : RegOk S conv nm Y := by
    refine ⟨?_, ?_⟩
    · intro y hy
      obtain ⟨x, hx, h1⟩ := hv y hy
      exact (M x hx).region _ h1
    · intro y hy a ha y' hy' a' ha'
      obtain ⟨x, hx, h1⟩ := hv y hy
      obtain ⟨x', hx', h1'⟩ := hv y' hy'
      exact hinj x hx _ h1 a ha x' hx' _ h1' a' ha'
  obtain ⟨D, rows, Ps, c, q1, q2, q3, q4⟩ := gQuery (M x0 hx0) (Su x0 hx0).info.dur Q Y R out a1 (hsize out e)
  have hrow : ∀ P, gRow conv nm Y P = rowAll conv nm Ts h P := by
    intro P
    unfold gRow rowAll
    simp only [a2, a3]
    congr 5
    by_cases hP : P = []
    · rw [if_pos hP]
      subst hP
      rw [← a3 []]
      congr 2
      apply List.filter_congr
      intro y _
      simp
    · rw [if_neg hP, ← a4 P hP]
      congr 2
      apply List.filter_congr
      intro y _
      rw [decide_eq_decide]
      constructor
      · rintro (rfl | h)
        · exact List.prefix_refl _
        · exact h.2
      · exact fun h => .inr ⟨hP, h⟩
  refine ⟨out, D, rows, Ps, c, e, q1, q2, ?_, ?_⟩
  · intro P
    rw [q3]
    constructor
    · rintro ⟨y, hy, hc⟩
      obtain ⟨x, hx, h1⟩ := hv y hy
      rcases hc with hc | ⟨h2, h3⟩
      · exact ⟨x, hx, .inl (by rw [hc]; exact h1)⟩
      · exact ⟨x, hx, .inr ⟨h2, _, h1, h3⟩⟩
    · rintro ⟨x, hx, h1 | ⟨h2, V, h1, h3⟩⟩
      · obtain ⟨y, hy, e⟩ := (a2 P).2 ⟨x, hx, h1⟩
        exact ⟨y, hy, .inl e⟩
      · obtain ⟨y, hy, e⟩ := (a2 V).2 ⟨x, hx, h1⟩
        subst e
        exact ⟨y, hy, .inr ⟨h2, h3⟩⟩
  · exact q4.imp fun P r hr => ⟨hr.1.trans (hrow P), hr.2⟩

/-- **C86, several threads** The threads `Ts` make properly nested begin and end calls in any interleaving while a channel profiles them; the profiles of all of
them are flushed to a `.cali` file, and `cali-query` runs the query of C86.  Then there is exactly one row for every region path one of the
threads was in at one of its calls and for every path around one; the row shows the regions, the time all threads together spent with exactly these regions
open (if one of them was there at a call) and the time they spent with these regions open, possibly with more inside. -/
theorem C86_all_threads_partial {raw : BitVec 64 → List Byte} {C : Serv.Cfg} {attrs : List Serv.AttrInfo} {E : Agg.Env} {rc : Agg.ResAttr} {ch : Nat} {s : RT.State}
    (Ts : List (Nat × MTree.PathL)) (hT : Ts ≠ []) (Su : ∀ x ∈ Ts, Setup raw C attrs E I info rd rc ch x.1 s x.2 h) (O : Agg.DblOps) (sk : DEnt) (th0 : Nat) (Q : Pipe.Env)
    (M : ∀ x ∈ Ts, Metadata F S conv nm (RT.run s (h.map Prod.snd)).tree I info rd x.1 x.2 h)
    (hinj : ∀ t ∈ Ts, ∀ V ∈ visits t.1 t.2 h, ∀ x ∈ V, ∀ t' ∈ Ts, ∀ V' ∈ visits t'.1 t'.2 h, ∀ y ∈ V', conv x.2 = conv y.2 → x.2 = y.2)
    (hsize : ∀ out, profileAll raw C I conv ch O E info sk s (Serv.State.init C th0 attrs) h (Ts.map Prod.fst) = some out →
      DB.init.nodes.length + fileCost S (out.map fun r => (.snapshot, r)) + 2 ≤ invN) :
    ∃ out D rows Ps, profileAll raw C I conv ch O E info sk s (Serv.State.init C th0 attrs) h (Ts.map Prod.fst) = some out ∧
      queryFile F Q reportQuery (profileFile F S out) = some (D, rows) ∧
      Ps.Nodup ∧ (∀ P, P ∈ Ps ↔ ShownBy Ts h P) ∧ List.Forall₂ (fun P r => named D r = rowAll conv nm Ts h P) Ps rows := by
  obtain ⟨out, D, rows, Ps, c, e, q1, q2, q3, q4⟩ := rowsAll Ts hT Su O sk th0 Q M hinj hsize
  exact ⟨out, D, rows, Ps, e, q1, q2, q3, q4.imp fun _ _ hr => hr.1⟩

/-! ## The text of the query -/

/-- a text of the query of C86: it aggregates `sum(T)` and `inclusive_sum(T)`, groups by `path` and has no LET and WHERE; SELECT, ORDER BY and FORMAT
are for the formatter -/
structure ReportText (cs : List CalQL.Clause) (text : List Byte) : Prop where
  written : ∃ ts, CalQL.Written cs ts ∧ CalQL.Lay ts text
  ok : CalQL.Sensible cs
  calls : (cs.flatMap CalQL.Clause.calls).map (fun x => (x.1.name, x.2)) = [(str "sum", [T]), (str "inclusive_sum", [T])]
  groups : cs.flatMap CalQL.Clause.groups = [str "path"]
  lets : cs.flatMap CalQL.Clause.letSpecs = []
  conds : cs.flatMap CalQL.Clause.conds = []

/-- the query processor for such a text is the one of C86 -/
theorem report_does {cs : List CalQL.Clause} {text : List Byte} (h : ReportText cs text) (num : Str → Option U64) (one : U64) : Plan.Does num one cs reportQuery := by
  have hc := h.calls
  obtain ⟨x, y, e⟩ : ∃ x y, cs.flatMap CalQL.Clause.calls = [x, y] := by
    generalize cs.flatMap CalQL.Clause.calls = l at hc
    obtain _ | ⟨x, _ | ⟨y, _ | ⟨z, l⟩⟩⟩ := l
    · simp at hc
    · simp at hc
    · exact ⟨x, y, rfl⟩
    · simp at hc
  rw [e] at hc
  simp only [List.map_cons, List.map_nil, List.cons.injEq, Prod.mk.injEq, and_true] at hc
  obtain ⟨⟨x1, x2⟩, y1, y2⟩ := hc
  have k1 : CalQL.isPath (str "path") := .inl rfl
  refine ⟨?_, ?_, ?_, ?_, ?_, ?_, ?_⟩
  · rw [e]
    refine .cons ?_ (.cons ?_ .nil)
    · rw [x1, x2]; exact .sum T
    · rw [y1, y2]; exact .isum T
  · rw [e]; simp [reportQuery]
  · rw [h.lets]; exact .nil
  · rw [h.conds]; rfl
  · rw [h.groups]; simp [reportQuery]
  · rw [h.groups]; simp [reportQuery, k1]
  · rw [h.groups]; simp [reportQuery, k1]

/-- **C86, from the text of the query** `cali-query` with any text of the query gives the result `C86_end_to_end_partial` and `C86_all_threads_partial` speak about. -/
theorem C86_text {cs : List CalQL.Clause} {text : List Byte} (h : ReportText cs text) (num : Str → Option U64) (one : U64) (Q : Pipe.Env) (file : List Byte) :
    queryText F Q num one text file = queryFile F Q reportQuery file := by
  obtain ⟨ts, hw, hl⟩ := h.written
  have hc := h.calls
  unfold queryText queryFile
  cases readCali F DB.init file with
  | none => rfl
  | some s =>
    obtain ⟨q, hq, e⟩ := Plan.C92_text_partial cs ts text hw hl h.ok num one (by
      intro x hx
      have : (x.1.name, x.2) ∈ (cs.flatMap CalQL.Clause.calls).map (fun x => (x.1.name, x.2)) := List.mem_map_of_mem hx
      rw [hc] at this
      simp only [List.mem_cons, Prod.mk.injEq, List.not_mem_nil, or_false] at this
      rcases this with h | h <;> rw [h.1] <;> decide +kernel) (by rw [h.lets]; intro x hx; cases hx)
      (envOf Q s.db) (pdbOf s.db) (s.recs.map fun r => .record (r.map (entQ s.db)))
    have := Plan.C92_meaning_unique hq (report_does h num one) h.lets
    subst this
    exact e

/-- `Aggregate sum(sum#time.duration.ns), inclusive_sum( "sum#time.duration.ns") GROUP BY path FORMAT tree` -/
def rClauses : List CalQL.Clause :=
  [.aggregate [(⟨1, str "sum", 1, 1, [str "attribute"]⟩, [T]), (⟨4, str "inclusive_sum", 1, 1, [str "attribute"]⟩, [T])], .groupBy [str "path"],
   .format ⟨5, str "tree", 0, 3, [str "path-attributes", str "column-width", str "print-globals"]⟩ []]

def rText : List Byte := str " Aggregate sum ( sum#time.duration.ns ) , inclusive_sum ( \"sum#time.duration.ns\" ) GROUP BY path FORMAT tree"

private def W (s : String) : CalQL.Tok := .w (str s)
private def C (c : Char) : CalQL.Tok := .p (ch c)
private theorem wd {sep : Str} {w t : String} (h : Parse.IsText sep (str w) (str t)) : CalQL.Word sep (str w) [W t] := ⟨str t, rfl, h⟩
private theorem kw {k t : String} (h : Parse.IsText CalQL.sep0 (str t) (str t)) (hl : CalQL.lower (str t) = str k) : CalQL.Kw k [W t] := ⟨str t, ⟨str t, rfl, h⟩, hl⟩
local macro "txt" : tactic => `(tactic| (unfold Parse.IsText Parse.Plain; decide +kernel))

/-- the hypotheses of `C86_text` are met by this text -/
theorem C86_text_example : ReportText rClauses rText := by
  refine ⟨⟨[W "Aggregate", W "sum", C '(', W "sum#time.duration.ns", C ')', C ',', W "inclusive_sum", C '(', W "\"sum#time.duration.ns\"", C ')'] ++
    ([W "GROUP", W "BY", W "path"] ++ ([W "FORMAT", W "tree"] ++ [])), .cons ?_ (.cons ?_ (.cons ?_ .nil)), ?_⟩, ?_, by decide +kernel, by decide +kernel, by decide +kernel, by decide +kernel⟩
  · refine ⟨[W "Aggregate"], _, rfl, kw (by txt) (by decide), .cons (ts := [W "sum", C '(', W "sum#time.duration.ns", C ')']) ?_ (.one ?_)⟩
    · exact .inl ⟨by decide +kernel, by decide, by decide, [W "sum"], _, rfl, ⟨str "sum", wd (by txt), by decide⟩, [W "sum#time.duration.ns"], rfl, .inr (.one (wd (by txt)))⟩
    · exact .inl ⟨by decide +kernel, by decide, by decide, [W "inclusive_sum"], _, rfl, ⟨str "inclusive_sum", wd (by txt), by decide⟩,
        [W "\"sum#time.duration.ns\""], rfl, .inr (.one (wd (by txt)))⟩
  · exact ⟨[W "GROUP", W "BY"], _, rfl, ⟨[W "GROUP"], [W "BY"], rfl, kw (by txt) (by decide), kw (by txt) (by decide)⟩, .one (wd (by txt))⟩
  · exact ⟨[W "FORMAT"], _, rfl, kw (by txt) (by decide), [], .nil, .inr ⟨by decide +kernel, rfl, rfl, str "tree", wd (by txt), by decide⟩⟩
  · refine CalQL.lay_render ([W "Aggregate", W "sum", C '(', W "sum#time.duration.ns", C ')', C ',', W "inclusive_sum", C '(', W "\"sum#time.duration.ns\"", C ')'] ++
      ([W "GROUP", W "BY", W "path"] ++ ([W "FORMAT", W "tree"] ++ []))) ?_
    intro t ht
    simp only [W, C, List.cons_append, List.nil_append, List.mem_cons, CalQL.Tok.w.injEq, List.not_mem_nil, or_false, reduceCtorEq, false_or] at ht
    rcases ht with rfl | rfl | rfl | rfl | rfl | rfl | rfl | rfl | rfl | rfl <;> decide +kernel
  · exact ⟨by decide +kernel, by unfold rClauses; simp [CalQL.Clause.items], CalQL.path_cases (by decide +kernel) (by decide +kernel), CalQL.path_cases (by decide +kernel) (by decide +kernel)⟩

/-! ## A concrete case: the threads 3 and 5 of the example of C86 -/

theorem eSetup5 : Setup (fun _ => []) exCfg eAttrs (exEnvOf eFinal) exIds exInfoP ⟨1020, 1021, 1022, 1023⟩ ⟨1010, 1011, 1012, 1013⟩ 7 5 eS [] eHist := by
  have E := eSetup
  have hr : RT.RtReachV eS := .init eTree_reach _ _
  obtain ⟨c, R⟩ := hr.toReach.rel
  have hc : ∀ l k v, ¬ RT.CurrentValue eS l k v := by
    have R0 : RT.RelS eS RT.Abs.init := RT.RelS.init R.inv R.tdead _ _
    intro l k v h
    rw [currentValue_iff R0] at h
    exact absurd h.2.2.2 (by simp [RT.Abs.init, RT.Ctx.empty])
  exact
    { E with
      noErr := by decide
      regions := ⟨default, by decide, .root⟩, unaligned := ⟨default, by decide, .root⟩
      values := ⟨[], [], ⟨by simp, fun k v => by simpa using hc _ k v⟩, ⟨by simp, fun k v => by simpa using hc _ k v⟩, by simp, by simp⟩
      proper := by
        simp only [eHist, Proper, after]
        exact ⟨by decide, by decide, by decide, by decide, by decide, trivial, by decide, by decide, by decide, by decide, trivial⟩
      announced := by
        intro x hx hth
        simp only [eHist, List.mem_cons, List.not_mem_nil, or_false] at hx
        rcases hx with rfl | rfl | rfl | rfl | rfl | rfl | rfl
        · exact absurd hth (by decide)
        · exact absurd hth (by decide)
        · exact ⟨⟨13, [], 0, false, false⟩, rfl, ⟨by decide, rfl, .inl rfl, by decide⟩, .inl ⟨rfl, .inl (by simp [eAttrs])⟩⟩
        · exact absurd hth (by decide)
        · exact absurd hth (by decide)
        · exact absurd hth (by decide)
        · exact absurd hth (by decide)
      passes := by intro x _ h; simp [exCfg] at h }

theorem eVisits5 : ∀ V ∈ visits 5 [] eHist, ∀ x ∈ V, x ∈ [(13, Verif.Val.ofString "main"), (14, Verif.Val.ofString "x")] := by decide +kernel

theorem eMetadata5 (F : DblFmt) : Metadata F (tabSrc eTab) eConv eNm eFinal exIds exInfoP ⟨1020, 1021, 1022, 1023⟩ 5 [] eHist :=
  { eMetadata F with
    region := by
      intro V hV x hx
      have : visits 5 [] eHist = [[]] := by decide +kernel
      rw [this] at hV
      simp only [List.mem_singleton] at hV
      subst hV; cases hx
    inj := by
      intro V hV x hx
      have : visits 5 [] eHist = [[]] := by decide +kernel
      rw [this] at hV
      simp only [List.mem_singleton] at hV
      subst hV; cases hx }

/-- the profile of both threads -/
def eOut5 : List (List DEnt) :=
  eOut ++ [[⟨some 1020, .uint 17⟩, ⟨some 1021, .uint 17⟩, ⟨some 1022, .uint 17⟩, ⟨some 1023, .uint 17⟩, ⟨some 1030, .uint 1⟩, ⟨some 1031, .uint 0⟩]]

theorem eProfile5 : profileAll (fun _ => []) exCfg exIds eConv 7 Agg.exOps (exEnvOf eFinal) exInfoP ⟨some 1, .inv⟩ eS (Serv.State.init exCfg 0 eAttrs) eHist [3, 5] = some eOut5 := by
  decide +kernel

/-- different region values of the example are written differently -/
theorem eInj5 : ∀ t ∈ [((3 : Nat), ([] : MTree.PathL)), (5, [])], ∀ V ∈ visits t.1 t.2 eHist, ∀ x ∈ V, ∀ t' ∈ [((3 : Nat), ([] : MTree.PathL)), (5, [])],
    ∀ V' ∈ visits t'.1 t'.2 eHist, ∀ y ∈ V', eConv x.2 = eConv y.2 → x.2 = y.2 := by
  have key : ∀ t ∈ [((3 : Nat), ([] : MTree.PathL)), (5, [])], ∀ V ∈ visits t.1 t.2 eHist, ∀ x ∈ V, x ∈ [(13, Verif.Val.ofString "main"), (14, Verif.Val.ofString "x")] := by
    intro t ht
    simp only [List.mem_cons, List.not_mem_nil, or_false] at ht
    rcases ht with rfl | rfl
    · exact eVisits
    · exact eVisits5
  intro t ht V hV x hx t' ht' V' hV' y hy
  have h1 := key t ht V hV x hx
  have h2 := key t' ht' V' hV' y hy
  have : ∀ a ∈ [(13, Verif.Val.ofString "main"), (14, Verif.Val.ofString "x")], ∀ b ∈ [(13, Verif.Val.ofString "main"), (14, Verif.Val.ofString "x")],
      eConv a.2 = eConv b.2 → a.2 = b.2 := by decide +kernel
  exact this x h1 y h2

/-- the theorem applies, with every number format -/
example (F : DblFmt) : ∃ out D rows Ps, profileAll (fun _ => []) exCfg exIds eConv 7 Agg.exOps (exEnvOf eFinal) exInfoP ⟨some 1, .inv⟩ eS
      (Serv.State.init exCfg 0 eAttrs) eHist [3, 5] = some out ∧
    queryFile F PipeDemo.env reportQuery (profileFile F (tabSrc eTab) out) = some (D, rows) ∧
    Ps.Nodup ∧ (∀ P, P ∈ Ps ↔ ShownBy [(3, []), (5, [])] eHist P) ∧ List.Forall₂ (fun P r => named D r = rowAll eConv eNm [(3, []), (5, [])] eHist P) Ps rows := by
  refine C86_all_threads_partial (rd := ⟨1020, 1021, 1022, 1023⟩) (rc := ⟨1010, 1011, 1012, 1013⟩) [(3, []), (5, [])] (by simp) ?_ Agg.exOps ⟨some 1, .inv⟩ 0 PipeDemo.env ?_ ?_ ?_
  · intro x hx
    simp only [List.mem_cons, List.not_mem_nil, or_false] at hx
    rcases hx with rfl | rfl
    · exact eSetup
    · exact eSetup5
  · intro x hx
    simp only [List.mem_cons, List.not_mem_nil, or_false] at hx
    rcases hx with rfl | rfl
    · exact eMetadata F
    · exact eMetadata5 F
  · exact eInj5
  · intro out h
    rw [show List.map Prod.fst [((3 : Nat), ([] : MTree.PathL)), (5, [])] = [3, 5] from rfl, eProfile5] at h
    cases h
    decide +kernel

/-- rows: the time outside of regions is 10 of thread 3 and 17 of thread 5 -/
example : rowAll eConv eNm [(3, []), (5, [])] eHist [] = [(some (str "sum#sum#time.duration.ns"), .uint 27), (some (str "inclusive#sum#time.duration.ns"), .uint 27)] := by
  decide +kernel

end Verif.E2E
