import Verif.Cali.RoundTrip
/-!
# Every node of the database comes from the file
-/
namespace Verif.E2E
open Verif Verif.Cali

/-- nodes from `n0` on are nodes of the source -/
def Orig (S : Src) (n0 : Nat) (db : DB) : Prop :=
  ∀ j, n0 ≤ j → j < db.nodes.length → ∃ id D, Denotes S.node id D ∧ Denotes db.node? j D

theorem snap_line {F : DblFmt} {s s' : RState} {p : Parsed} (h : s.line F p = some s') (hn : s'.recs.length ≠ s.recs.length) :
    s'.db = s.db ∧ s'.idmap = s.idmap := by
  cases p with
  | bad => simp only [RState.line, Option.some.injEq] at h; subst h; exact absurd rfl hn
  | node f =>
    simp only [RState.line] at h
    split at h
    · cases h
    · cases h; exact absurd rfl hn
  | record k f =>
    cases k with
    | snapshot => simp only [RState.line, Option.some.injEq] at h; subst h; exact ⟨rfl, rfl⟩
    | globals => simp only [RState.line, Option.some.injEq] at h; subst h; exact absurd rfl hn

theorem read_orig {F : DblFmt} {S : Src} (hS : S.Sound F) (n0 : Nat) (all : List WLine) (hnd : (nodeIds all).Nodup)
    (hnode : ∀ id n, WLine.node id n ∈ all → S.node id = some n ∧ 11 ≤ id)
    (hdef : ∀ pre l post, all = pre ++ l :: post → Defined pre l)
    (hrec : ∀ k r i, WLine.record k r i ∈ all → k = .snapshot ∧ ∃ es, S.RecOK F es ∧ r = S.refsOf es ∧ i = S.immsOf es) :
    ∀ (post pre : List WLine) (s : RState), all = pre ++ post → RInv S pre s → Orig S n0 s.db →
      s.db.nodes.length + (post.map WLine.cost).sum ≤ invN →
      ∃ s', s.lines F (post.map fun l => parseLine (l.text F)) = some s' ∧ RInv S all s' ∧ Orig S n0 s'.db ∧
        s'.db.nodes.length ≤ s.db.nodes.length + (post.map WLine.cost).sum := by
  intro post
  induction post with
  | nil => intro pre s e h ho _; exact ⟨s, rfl, by rw [e, List.append_nil]; exact h, ho, by simp⟩
  | cons l post ih =>
    intro pre s e h ho hlen
    have hmem : l ∈ all := by rw [e]; simp
    have step : ∃ s1, s.line F (parseLine (l.text F)) = some s1 ∧ RInv S (pre ++ [l]) s1 ∧
        s1.db.nodes.length ≤ s.db.nodes.length + l.cost ∧ Orig S n0 s1.db := by
      cases l with
      | node id n =>
        obtain ⟨hn, h11⟩ := hnode id n hmem
        have hstep : ∃ s1, s.line F (parseLine ((WLine.node id n).text F)) = some s1 ∧ RInv S (pre ++ [.node id n]) s1 ∧
            s1.db.nodes.length ≤ s.db.nodes.length + 1 ∧ (s1.db.nodes.length = s.db.nodes.length ∨ mapId s1.idmap id = s.db.nodes.length) := by
          refine h.node hS hn h11 ?_ ?_ (hdef _ _ _ e) ?_
          · intro hc
            rw [e, nodeIds_append] at hnd
            exact (List.nodup_append.1 hnd).2.2 id hc id (by simp [nodeIds]) rfl
          · intro i hi
            obtain ⟨m, hm⟩ := mem_nodeIds.1 hi
            obtain ⟨k1, k2⟩ := hnode i m (by rw [e]; exact List.mem_append_left _ hm)
            exact ⟨k2, hS.small i m k1⟩
          · simp only [List.map_cons, List.sum_cons, WLine.cost] at hlen
            omega
        obtain ⟨s1, a, b, c, d⟩ := hstep
        refine ⟨s1, a, b, c, ?_⟩
        have hext := (RState.line_ok h.ok a).2.1
        intro j hj hlt
        rcases Nat.lt_or_ge j s.db.nodes.length with hj2 | hj2
        · obtain ⟨i, D, d1, d2⟩ := ho j hj hj2
          exact ⟨i, D, d1, hext.denotes d2⟩
        · obtain ⟨D, hD⟩ := hS.denotes _ id rfl (by rw [hn]; rfl)
          have hm := b.means id D (.inr (by rw [nodeIds_append]; exact List.mem_append_right _ (by simp [nodeIds]))) hD
          have : mapId s1.idmap id = j := by omega
          rw [this] at hm
          exact ⟨id, D, hD, hm⟩
      | record k r i =>
        obtain ⟨rfl, es, hes, rfl, rfl⟩ := hrec k r i hmem
        obtain ⟨s1, a, b, c⟩ := h.record hS hes (hdef _ _ _ e)
        refine ⟨s1, a, b, c, ?_⟩
        have l1 := b.recs.length_eq
        have l2 := h.recs.length_eq
        rw [snapsOf_append, List.length_append] at l1
        have l3 : (snapsOf [WLine.record .snapshot (S.refsOf es) (S.immsOf es)]).length = 1 := rfl
        rw [(snap_line a (by omega)).1]
        exact ho
    obtain ⟨s1, e1, h1, l1, o1⟩ := step
    obtain ⟨s', e2, h2, o2, l2⟩ := ih (pre ++ [l]) s1 (by rw [e]; simp) h1 o1 (by
      simp only [List.map_cons, List.sum_cons] at hlen
      omega)
    refine ⟨s', ?_, h2, o2, ?_⟩
    · simp only [List.map_cons, RState.lines, e1]
      exact e2
    · simp only [List.map_cons, List.sum_cons]; omega

/-- reading a written file into an empty database -/
theorem read_back {F : DblFmt} {S : Src} (hS : S.Sound F) (recs : List (List DEnt)) (hr : ∀ r ∈ recs, S.RecOK F r)
    (hlen : DB.init.nodes.length + fileCost S (recs.map fun r => (Kind.snapshot, r)) ≤ invN) :
    ∃ s, readCali F DB.init (caliFile F S (recs.map fun r => (Kind.snapshot, r))) = some s ∧ s.db.OK ∧ DB.init.Ext s.db ∧
      List.Forall₂ (SameRec S s.db) (recs.map fun r => (S.refsOf r, S.immsOf r)) s.recs ∧ Orig S DB.init.nodes.length s.db ∧
      s.db.nodes.length ≤ DB.init.nodes.length + fileCost S (recs.map fun r => (Kind.snapshot, r)) := by
  generalize hc : (recs.map fun r => (Kind.snapshot, r)) = calls at *
  have hr' : ∀ c ∈ calls, c.1 = .snapshot ∧ S.RecOK F c.2 := by
    intro c hc'
    rw [← hc] at hc'
    obtain ⟨r, h1, rfl⟩ := List.mem_map.1 hc'
    exact ⟨rfl, hr r h1⟩
  obtain ⟨hw, hrecs⟩ := writeAll_spec S hS.acyclic calls .init (WInv.init S) fun c hc => (hr' c hc).2.has
  have e0 : recsOf WState.init.lines = [] := rfl
  rw [e0, List.nil_append] at hrecs
  have hrec : ∀ k r i, WLine.record k r i ∈ (writeAll S .init calls).lines → k = .snapshot ∧ ∃ es, S.RecOK F es ∧ r = S.refsOf es ∧ i = S.immsOf es := by
    intro k r i hm
    have : (k, r, i) ∈ recsOf (writeAll S .init calls).lines := by
      simp only [recsOf, List.mem_filterMap]; exact ⟨_, hm, rfl⟩
    rw [hrecs] at this
    obtain ⟨c, hc, e⟩ := List.mem_map.1 this
    simp only [Prod.mk.injEq] at e
    exact ⟨by rw [← e.1]; exact (hr' c hc).1, c.2, (hr' c hc).2, e.2.1.symm, e.2.2.symm⟩
  have hids : (nodeIds (writeAll S .init calls).lines).Nodup := by rw [hw.ids]; exact hw.nodup
  obtain ⟨s, e, h, ho, hl⟩ := read_orig hS DB.init.nodes.length _ hids hw.lines hw.defd hrec _ [] ⟨DB.init, [], false, []⟩ rfl
    ⟨DB.init_ok, rfl, by simp, fun id D hi hD => by
      rcases hi with hi | hi
      · have : D = .boot id := hD.boot_iff.2 ⟨rfl, hi⟩
        subst this
        exact .boot hi (DB.init_ok.bootAt hi)
      · simp [nodeIds] at hi, .nil⟩ (fun j h1 h2 => absurd h2 (by simpa using h1)) hlen
  have hp : parseFile (caliFile F S calls) = (writeAll S .init calls).lines.map fun l => parseLine (l.text F) := by
    unfold caliFile
    rw [parseFile_lines, List.map_map]
    · rfl
    · intro l hl
      obtain ⟨x, hx, rfl⟩ := List.mem_map.1 hl
      exact text_line hS (fun id n e => hw.lines id n (e ▸ hx)) fun k r i e => (hrec k r i (e ▸ hx)).2
  refine ⟨s, by rw [readCali, hp, e], h.ok, (RState.lines_ok DB.init_ok e).2.1, ?_, ho, hl⟩
  have := h.recs
  rw [snapsOf_recsOf, hrecs, List.filterMap_map, ← hc, List.filterMap_map] at this
  simpa [Function.comp_def] using this

end Verif.E2E
