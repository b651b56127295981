import Verif.Serv.LoopSpec
import Verif.Cali.Text
/-!
# C59, C60: loop_monitor and loop_statistics
-/
namespace Verif
open RT

namespace Serv.Loop

/-! ### loop_monitor -/

/-- the iterations `p` since the last snapshot are what the counters say -/
def LM.Pending (s : LM) (p : List Int) : Prop := s.num = p.length ∧ s.start = p.head?.getD (-1)

theorem ev_skip (I : LInfo) (C : LMConf) (s : LM) {x : TEv} (h1 : x.e.kind ≠ .preBegin) (h2 : x.e.kind ≠ .preEnd) : LM.event I C s x = s := by
  unfold LM.event
  cases hk : x.e.kind <;> simp_all

theorem ev_begin (I : LInfo) (C : LMConf) (s : LM) {b e : TEv} {a : Nat} {v : Val} (h : Pair b e a v) : LM.event I C s b = s.begin I C a v := by
  obtain ⟨h1, h2, h3, -⟩ := h
  unfold LM.event; rw [h1, h2, h3]

theorem ev_end (I : LInfo) (C : LMConf) (s : LM) {b e : TEv} {a : Nat} {v : Val} (h : Pair b e a v) : LM.event I C s e = s.ends I C a e.due := by
  obtain ⟨-, -, -, h1, h2, -⟩ := h
  unfold LM.event; rw [h1, h2]

theorem run_wrap (I : LInfo) (C : LMConf) (s : LM) {b e : TEv} {a : Nat} {v : Val} (h : Pair b e a v) (w : List TEv) :
    (b :: (w ++ [e])).foldl (LM.event I C) s = (w.foldl (LM.event I C) (s.begin I C a v)).ends I C a e.due := by
  rw [List.foldl_cons, List.foldl_append, List.foldl_cons, List.foldl_nil, ev_begin I C s h, ev_end I C _ h]

/-- inside an inner loop of the target loop nothing is recorded -/
theorem deep_run (I : LInfo) (C : LMConf) {seq : Prop} {es : List TEv} {xs : List Int} (h : Body I seq es xs) (s : LM)
    (h0 : 0 ≤ s.target) (h1 : s.target < s.level) : es.foldl (LM.event I C) s = s := by
  induction h generalizing s with
  | nil => rfl
  | skip a b => exact ev_skip I C s a b
  | @other b e a v w xs hp ha hi _ ih =>
    have hb : s.begin I C a v = s := by unfold LM.begin; rw [if_neg ha, if_neg (by simp [hi])]
    rw [run_wrap I C s hp, hb, ih s h0 h1]
    unfold LM.ends; rw [if_neg ha, if_neg (by simp [hi])]
  | @iter b e a v w xs hp ha hi _ _ ih =>
    have hb : s.begin I C a v = s := by unfold LM.begin; rw [if_neg ha, if_neg (by omega)]
    rw [run_wrap I C s hp, hb, ih s h0 h1]
    unfold LM.ends; rw [if_neg ha, if_neg (by omega)]
  | loop hp _ ih =>
    have hb : ∀ v, s.begin I C I.loop v = { s with level := s.level + 1 } := by
      intro v; unfold LM.begin; rw [if_pos rfl, if_neg (by omega)]
    rw [run_wrap I C s hp, hb, ih { s with level := s.level + 1 } h0 (by simp only; omega)]
    unfold LM.ends
    rw [if_pos rfl]
    simp only
    rw [if_neg (by omega)]
    simp
  | append _ _ ih1 ih2 => rw [List.foldl_append, ih1 s h0 h1, ih2 s h0 h1]

theorem snapshot_pending {s : LM} {p : List Int} (h : s.Pending p) (hp : ∀ x ∈ p, 0 ≤ x) :
    s.snapshot = ⟨s.level, s.target, -1, 0, s.out ++ [covers p]⟩ := by
  unfold LM.snapshot covers
  congr 2
  rw [h.1, h.2]
  cases p with
  | nil => rfl
  | cons x p => have := hp x (List.mem_cons_self ..); simp [this]

/-- inside the target loop: the iterations so far are partitioned into those covered by snapshots and the pending ones -/
theorem body_run (I : LInfo) (C : LMConf) {seq : Prop} {es : List TEv} {xs : List Int} (h : Body I seq es xs) (hx : ∀ x ∈ xs, 0 ≤ x)
    (s : LM) (p : List Int) (h0 : 0 ≤ s.target) (h1 : s.level = s.target) (hp : s.Pending p) (hp0 : ∀ x ∈ p, 0 ≤ x) :
    ∃ cs p', p ++ xs = cs.flatten ++ p' ∧ (es.foldl (LM.event I C) s).Pending p' ∧
      (es.foldl (LM.event I C) s).level = s.level ∧ (es.foldl (LM.event I C) s).target = s.target ∧
      (es.foldl (LM.event I C) s).out = s.out ++ cs.map covers ∧ (xs = [] → cs = []) ∧
      (seq → (∀ x ∈ es, x.due = false) → 0 < C.interval → p.length < C.interval →
        (∀ c ∈ cs, c.length = C.interval) ∧ p'.length < C.interval) ∧
      ((∀ x ∈ es, x.due = false) → C.interval = 0 → cs = []) := by
  induction h generalizing s p with
  | nil => exact ⟨[], p, by simp, hp, rfl, rfl, by simp, by simp, by simp, by simp⟩
  | skip a b => 
    rw [List.foldl_cons, ev_skip I C s a b]
    exact ⟨[], p, by simp, hp, rfl, rfl, by simp, by simp, by simp, by simp⟩
  | @other b e a v w xs hpr ha hi _ ih =>
    have hb : s.begin I C a v = s := by unfold LM.begin; rw [if_neg ha, if_neg (by simp [hi])]
    have he : ∀ t : LM, t.ends I C a e.due = t := by intro t; unfold LM.ends; rw [if_neg ha, if_neg (by simp [hi])]
    rw [run_wrap I C s hpr, hb, he]
    obtain ⟨cs, p', a1, a2, a3, a4, a5, a6, a7, a8⟩ := ih hx s p h0 h1 hp hp0
    have hd : (∀ x ∈ b :: (w ++ [e]), x.due = false) → ∀ x ∈ w, x.due = false := fun h x hx => h x (by simp [hx])
    exact ⟨cs, p', a1, a2, a3, a4, a5, a6, fun hs hd' => a7 hs (hd hd'), fun hd' => a8 (hd hd')⟩
  | @iter b e a v w xs hpr ha hi hw hseq ih =>
    have hv : 0 ≤ I.toInt v := hx _ (List.mem_cons_self ..)
    have hb : s.begin I C a v = { s with num := s.num + 1, start := if s.start < 0 then I.toInt v else s.start } := by
      unfold LM.begin; rw [if_neg ha, if_pos ⟨h1, hi⟩]
    have hpb : (s.begin I C a v).Pending (p ++ [I.toInt v]) := by
      rw [hb]
      refine ⟨by simp [hp.1], ?_⟩
      simp only [hp.2]
      cases p with
      | nil => simp
      | cons y p => have := hp0 y (List.mem_cons_self ..); simp; omega
    rw [run_wrap I C s hpr]
    have hlev : (s.begin I C a v).level = s.level ∧ (s.begin I C a v).target = s.target ∧ (s.begin I C a v).out = s.out := by rw [hb]; exact ⟨rfl, rfl, rfl⟩
    obtain ⟨cs, p', a1, a2, a3, a4, a5, a6, a7, a8⟩ := ih (fun x hx' => hx x (List.mem_cons_of_mem _ hx')) (s.begin I C a v) (p ++ [I.toInt v])
      (by rw [hlev.2.1]; exact h0) (by rw [hlev.1, hlev.2.1]; exact h1) hpb
      (by intro x hx'; rcases List.mem_append.1 hx' with h | h; exact hp0 x h; simp at h; omega)
    rw [hlev.1] at a3; rw [hlev.2.1] at a4; rw [hlev.2.2] at a5
    have hall : ∀ x ∈ p ++ [I.toInt v] ++ xs, 0 ≤ x := by
      intro x hx'
      simp only [List.mem_append, List.mem_singleton] at hx'
      rcases hx' with (h | h) | h
      · exact hp0 x h
      · omega
      · exact hx x (List.mem_cons_of_mem _ h)
    have hp'0 : ∀ x ∈ p', 0 ≤ x := fun x hx' => hall x (by rw [a1]; exact List.mem_append_right _ hx')
    have hd : (∀ x ∈ b :: (w ++ [e]), x.due = false) → (∀ x ∈ w, x.due = false) ∧ e.due = false :=
      fun h => ⟨fun x hx => h x (by simp [hx]), h e (by simp)⟩
    generalize hT : w.foldl (LM.event I C) (s.begin I C a v) = t at a2 a3 a4 a5 ⊢
    have hte : t.ends I C a e.due = if (decide (0 < C.interval) && decide (t.num % C.interval = 0)) || e.due then t.snapshot else t := by
      unfold LM.ends; rw [if_neg ha, if_pos ⟨by rw [a3, a4]; exact h1, hi⟩]
    rw [hte]
    by_cases hc : ((decide (0 < C.interval) && decide (t.num % C.interval = 0)) || e.due) = true
    · rw [if_pos hc, snapshot_pending a2 hp'0]
      refine ⟨cs ++ [p'], [], ?_, ⟨rfl, rfl⟩, a3, a4, ?_, by simp, ?_, ?_⟩
      · simp only [List.flatten_append, List.flatten_cons, List.flatten_nil, List.append_nil]
        rw [← a1]; simp
      · simp [a5]
      · intro hs hdue hN hpl
        have hxs := hseq hs
        have hcs := a6 hxs
        subst hxs hcs
        obtain ⟨hd1, hd2⟩ := hd hdue
        simp only [List.flatten_nil, List.nil_append, List.append_nil] at a1
        rw [hd2, a2.1, ← a1] at hc
        simp only [Bool.or_false, Bool.and_eq_true, decide_eq_true_eq, List.length_append, List.length_singleton] at hc
        refine ⟨?_, by simpa using hN⟩
        intro c hcm
        simp at hcm
        subst hcm
        rw [← a1]
        simp only [List.length_append, List.length_singleton]
        have h2 := hc.2
        by_cases hlt : p.length + 1 < C.interval
        · rw [Nat.mod_eq_of_lt hlt] at h2; omega
        · omega
      · intro hdue hN
        rw [(hd hdue).2] at hc
        simp [hN] at hc
    · rw [if_neg hc]
      refine ⟨cs, p', by rw [← a1]; simp, a2, a3, a4, a5, by simp, ?_, fun hdue => a8 (hd hdue).1⟩
      intro hs hdue hN hpl
      have hxs := hseq hs
      have hcs := a6 hxs
      subst hxs hcs
      obtain ⟨hd1, hd2⟩ := hd hdue
      simp only [List.flatten_nil, List.nil_append, List.append_nil] at a1
      refine ⟨by simp, ?_⟩
      rw [hd2, a2.1, ← a1] at hc
      simp only [Bool.or_false, Bool.and_eq_true, decide_eq_true_eq, List.length_append, List.length_singleton, not_and] at hc
      have := hc hN
      rw [← a1]
      simp only [List.length_append, List.length_singleton]
      by_cases hlt : p.length + 1 = C.interval
      · rw [hlt, Nat.mod_self] at this; exact absurd rfl this
      · omega
  | @loop b e v w xs hpr hw ih =>
    have hb : s.begin I C I.loop v = { s with level := s.level + 1 } := by
      unfold LM.begin; rw [if_pos rfl, if_neg (by omega)]
    rw [run_wrap I C s hpr, hb, deep_run I C hw { s with level := s.level + 1 } h0 (by simp only; omega)]
    have he : LM.ends I C { s with level := s.level + 1 } I.loop e.due = s := by
      unfold LM.ends
      rw [if_pos rfl]
      simp only
      rw [if_neg (by omega)]
      simp
    rw [he]
    exact ⟨[], p, by simp, hp, rfl, rfl, by simp, by simp, fun _ _ _ h => ⟨by simp, h⟩, by simp⟩
  | @append u w xs ys _ _ ih1 ih2 =>
    obtain ⟨cs, p', a1, a2, a3, a4, a5, a6, a7, a8⟩ := ih1 (fun x hx' => hx x (List.mem_append_left _ hx')) s p h0 h1 hp hp0
    have hall : ∀ x ∈ p ++ xs, 0 ≤ x := by
      intro x hx'
      rcases List.mem_append.1 hx' with h | h
      · exact hp0 x h
      · exact hx x (List.mem_append_left _ h)
    obtain ⟨ds, q, b1, b2, b3, b4, b5, b6, b7, b8⟩ := ih2 (fun x hx' => hx x (List.mem_append_right _ hx')) (u.foldl (LM.event I C) s) p'
      (by rw [a4]; exact h0) (by rw [a3, a4]; exact h1) a2 (fun x hx' => hall x (by rw [a1]; exact List.mem_append_right _ hx'))
    rw [List.foldl_append]
    refine ⟨cs ++ ds, q, ?_, b2, b3.trans a3, b4.trans a4, ?_, ?_, ?_, ?_⟩
    · rw [← List.append_assoc, a1, List.append_assoc, b1]; simp
    · rw [b5, a5]; simp
    · intro h0
      rw [List.append_eq_nil_iff] at h0
      rw [a6 h0.1, b6 h0.2]; rfl
    · intro hs hdue hN hpl
      obtain ⟨c1, c2⟩ := a7 hs (fun x hx => hdue x (List.mem_append_left _ hx)) hN hpl
      obtain ⟨d1, d2⟩ := b7 hs (fun x hx => hdue x (List.mem_append_right _ hx)) hN c2
      refine ⟨?_, d2⟩
      intro c hc
      rcases List.mem_append.1 hc with h | h
      · exact c1 c h
      · exact d1 c h
    · intro hdue hN
      rw [a8 (fun x hx => hdue x (List.mem_append_left _ hx)) hN, b8 (fun x hx => hdue x (List.mem_append_right _ hx)) hN]; rfl

theorem prog_run (I : LInfo) (C : LMConf) {T : Val → Prop} {seq : Prop} {es : List TEv} {L : List (List Int)} (h : Prog I T seq es L)
    (hT : ∀ x ∈ es, x.e.kind = .preBegin → x.e.attr = I.loop → (isTarget I C x.e.val = true ↔ T x.e.val))
    (hx : ∀ xs ∈ L, ∀ x ∈ xs, 0 ≤ x) (s : LM) (h0 : s.target = -1) (h1 : 0 ≤ s.level) (hp : s.Pending []) :
    ∃ css : List (List (List Int)), css.map List.flatten = L ∧ (es.foldl (LM.event I C) s).Pending [] ∧
      (es.foldl (LM.event I C) s).level = s.level ∧ (es.foldl (LM.event I C) s).target = -1 ∧
      (es.foldl (LM.event I C) s).out = s.out ++ css.flatMap blocks ∧
      (seq → (∀ x ∈ es, x.due = false) → ∀ cs ∈ css, Even C.interval cs) := by
  induction h generalizing s with
  | nil => exact ⟨[], rfl, hp, rfl, h0, by simp, by simp⟩
  | skip a b => 
    rw [List.foldl_cons, ev_skip I C s a b]
    exact ⟨[], rfl, hp, rfl, h0, by simp, by simp⟩
  | @other b e a v w L hpr ha _ ih =>
    have hb : s.begin I C a v = s := by unfold LM.begin; rw [if_neg ha, if_neg (by omega)]
    rw [run_wrap I C s hpr, hb]
    obtain ⟨css, a1, a2, a3, a4, a5, a6⟩ := ih (fun x hx => hT x (by simp [hx])) hx s h0 h1 hp
    have he : (w.foldl (LM.event I C) s).ends I C a e.due = w.foldl (LM.event I C) s := by
      unfold LM.ends; rw [if_neg ha, if_neg (by omega)]
    rw [he]
    exact ⟨css, a1, a2, a3, a4, a5, fun hs hd => a6 hs fun x hx => hd x (by simp [hx])⟩
  | @loop b e v w L hpr hnT _ ih =>
    have hnt : isTarget I C v = false := by
      have := hT b (by simp) hpr.1 hpr.2.1
      rw [hpr.2.2.1] at this
      cases hc : isTarget I C v with
      | false => rfl
      | true => exact absurd (this.1 hc) hnT
    have hb : s.begin I C I.loop v = { s with level := s.level + 1 } := by
      unfold LM.begin; rw [if_pos rfl, if_neg (by simp [hnt])]
    rw [run_wrap I C s hpr, hb]
    obtain ⟨css, a1, a2, a3, a4, a5, a6⟩ := ih (fun x hx => hT x (by simp [hx])) hx { s with level := s.level + 1 } h0 (by simp only; omega) hp
    generalize w.foldl (LM.event I C) { s with level := s.level + 1 } = t at a2 a3 a4 a5 ⊢
    simp only at a3
    have he : t.ends I C I.loop e.due = { t with level := t.level - 1 } := by
      unfold LM.ends; rw [if_pos rfl, if_neg (by omega)]
    rw [he]
    refine ⟨css, a1, a2, ?_, a4, a5, fun hs hd => a6 hs fun x hx => hd x (by simp [hx])⟩
    simp only; omega
  | @target b e v w xs hpr hvT hw =>
    have ht : isTarget I C v = true := by
      have := hT b (by simp) hpr.1 hpr.2.1
      rw [hpr.2.2.1] at this
      exact this.2 hvT
    have hb : s.begin I C I.loop v = ⟨s.level + 1, s.level + 1, -1, 0, s.out ++ [covers []]⟩ := by
      unfold LM.begin
      rw [if_pos rfl, if_pos ⟨by omega, ht⟩, snapshot_pending (s := { s with target := s.level + 1 }) (p := []) hp (by simp)]
    rw [run_wrap I C s hpr, hb]
    obtain ⟨cs, p', a1, a2, a3, a4, a5, -, a7, a8⟩ := body_run I C hw (hx xs (by simp)) ⟨s.level + 1, s.level + 1, -1, 0, s.out ++ [covers []]⟩ []
      (by simp only; omega) rfl ⟨rfl, rfl⟩ (by simp)
    generalize w.foldl (LM.event I C) ⟨s.level + 1, s.level + 1, -1, 0, s.out ++ [covers []]⟩ = t at a2 a3 a4 a5 ⊢
    simp only [List.nil_append] at a1 a3 a4 a5
    have hp'0 : ∀ x ∈ p', 0 ≤ x := fun x hx' => hx xs (by simp) x (by rw [a1]; exact List.mem_append_right _ hx')
    have he : t.ends I C I.loop e.due = ⟨s.level, -1, -1, 0, t.out ++ [covers p']⟩ := by
      unfold LM.ends
      rw [if_pos rfl, if_pos (by rw [a3, a4]), snapshot_pending a2 hp'0]
      simp [a3]
    rw [he]
    refine ⟨[cs ++ [p']], by simp [a1], ⟨rfl, rfl⟩, rfl, rfl, by simp [a5, blocks], ?_⟩
    intro hs hd cs' hcs'
    simp at hcs'
    subst hcs'
    have hd' : ∀ x ∈ w, x.due = false := fun x hx => hd x (by simp [hx])
    exact ⟨cs, p', rfl, a8 hd', fun hN => a7 hs hd' hN hN⟩
  | @append u w L M _ _ ih1 ih2 =>
    obtain ⟨css, a1, a2, a3, a4, a5, a6⟩ := ih1 (fun x hx => hT x (List.mem_append_left _ hx)) (fun x hx' => hx x (List.mem_append_left _ hx')) s h0 h1 hp
    obtain ⟨dss, b1, b2, b3, b4, b5, b6⟩ := ih2 (fun x hx => hT x (List.mem_append_right _ hx)) (fun x hx' => hx x (List.mem_append_right _ hx'))
      (u.foldl (LM.event I C) s) a4 (by omega) a2
    rw [List.foldl_append]
    refine ⟨css ++ dss, by simp [a1, b1], b2, b3.trans a3, b4, by rw [b5, a5]; simp, ?_⟩
    intro hs hd cs hcs
    rcases List.mem_append.1 hcs with h | h
    · exact a6 hs (fun x hx => hd x (List.mem_append_left _ hx)) cs h
    · exact b6 hs (fun x hx => hd x (List.mem_append_right _ hx)) cs h

/-! ### loop_statistics -/

theorem ls_wrap (I : LInfo) (s : LS) {b e : TEv} {a : Nat} {v : Val} (h : Pair b e a v) (w : List TEv) :
    (b :: (w ++ [e])).foldl (LS.event I) s = (w.foldl (LS.event I) (s.begin I a b.now)).ends I a e.now := by
  obtain ⟨h1, h2, h3, h4, h5, -⟩ := h
  have hb : ∀ s, LS.event I s b = s.begin I a b.now := by intro s; unfold LS.event; rw [h1, h2]
  have he : ∀ s, LS.event I s e = s.ends I a e.now := by intro s; unfold LS.event; rw [h4, h5]
  rw [List.foldl_cons, List.foldl_append, List.foldl_cons, List.foldl_nil, hb, he]

theorem ls_skip (I : LInfo) (s : LS) {x : TEv} (h1 : x.e.kind ≠ .preBegin) (h2 : x.e.kind ≠ .preEnd) : LS.event I s x = s := by
  unfold LS.event
  cases hk : x.e.kind <;> simp_all

theorem stat_run (I : LInfo) {d : Bool} {es : List TEv} {n : Nat} {o : List SOut} (h : Stat I d es n o) (s : LS) :
    (d = false → s.info = [] → es.foldl (LS.event I) s = ⟨[], s.out ++ o⟩) ∧
    (d = true → ∀ t k r, s.info = (t, k) :: r → ∃ t', (n = 0 → t' = t) ∧ es.foldl (LS.event I) s = ⟨(t', k + n) :: r, s.out ++ o⟩) := by
  induction h generalizing s with
  | nil => rw [List.foldl_nil]; exact ⟨fun _ h => (by rw [List.append_nil, ← h]), fun _ t k r h => ⟨t, fun _ => rfl, (by rw [List.append_nil, Nat.add_zero, ← h])⟩⟩
  | skip a b =>
    rw [List.foldl_cons, List.foldl_nil, ls_skip I s a b]
    exact ⟨fun _ h => (by rw [List.append_nil, ← h]), fun _ t k r h => ⟨t, fun _ => rfl, (by rw [List.append_nil, Nat.add_zero, ← h])⟩⟩
  | @other d b e a v w n o hp ha hd _ ih =>
    rw [ls_wrap I s hp]
    have hb : (s.info = [] ∨ I.iter a = false) → s.begin I a b.now = s := by
      intro h; unfold LS.begin; rw [if_neg ha]
      rcases h with h | h
      · rw [h]
      · cases s.info <;> simp [h]
    have he : ∀ t : LS, (t.info = [] ∨ I.iter a = false) → t.ends I a e.now = t := by
      intro t h; unfold LS.ends
      rcases h with h | h
      · rw [h]
      · cases t.info with
        | nil => rfl
        | cons x r => simp only; rw [if_neg ha]; simp [h]
    constructor
    · intro hf h
      rw [hb (.inl h), (ih s).1 hf h, he _ (.inl rfl)]
    · intro ht t k r h
      have hi : I.iter a = false := by
        rcases hd with h | h
        · rw [ht] at h; cases h
        · exact h
      obtain ⟨t', h1, h2⟩ := (ih s).2 ht t k r h
      exact ⟨t', h1, by rw [hb (.inr hi), h2, he _ (.inr hi)]⟩
  | @iter b e a v w o hp ha hi _ ih =>
    rw [ls_wrap I s hp]
    refine ⟨fun h => (by cases h), fun _ t k r h => ⟨b.now, by simp, ?_⟩⟩
    have hb : s.begin I a b.now = ⟨(b.now, k + 1) :: r, s.out⟩ := by
      unfold LS.begin; rw [if_neg ha, h]; simp [hi]
    obtain ⟨t', h1, h2⟩ := (ih (s.begin I a b.now)).2 rfl b.now (k + 1) r (by rw [hb])
    rw [h2, h1 rfl]
    unfold LS.ends
    simp only
    rw [if_neg ha, if_pos hi, hb]
    simp
  | @loop d b e v w n o hp _ ih =>
    rw [ls_wrap I s hp]
    have hb : s.begin I I.loop b.now = ⟨(b.now, 0) :: s.info, s.out⟩ := by unfold LS.begin; rw [if_pos rfl]
    obtain ⟨t', h1, h2⟩ := (ih (s.begin I I.loop b.now)).2 rfl b.now 0 s.info (by rw [hb])
    have hr : (w.foldl (LS.event I) (s.begin I I.loop b.now)).ends I I.loop e.now = ⟨s.info, s.out ++ (o ++ [.count n])⟩ := by
      rw [h2]
      unfold LS.ends
      simp only
      rw [if_pos trivial, hb]
      simp
    rw [hr]
    exact ⟨fun _ h => by rw [h], fun _ t k r h => ⟨t, fun _ => rfl, by rw [h]; rfl⟩⟩
  | @append d u w m n o p _ _ ih1 ih2 =>
    rw [List.foldl_append]
    constructor
    · intro hd h
      rw [(ih1 s).1 hd h, (ih2 _).1 hd rfl]; simp
    · intro hd t k r h
      obtain ⟨t1, a1, a2⟩ := (ih1 s).2 hd t k r h
      obtain ⟨t2, b1, b2⟩ := (ih2 (u.foldl (LS.event I) s)).2 hd t1 (k + m) r (by rw [a2])
      refine ⟨t2, ?_, ?_⟩
      · intro h0
        rw [b1 (by omega), a1 (by omega)]
      · rw [b2, a2]; simp [Nat.add_assoc]

end Serv.Loop

open Serv.Loop

/-- **C59** (partial).  For all properly nested event sequences of one thread, iteration and time intervals and target lists: the snapshots
of each outermost target loop are one at its begin (no iterations), and then consecutive blocks that partition its iterations, each
with the number of iterations and the number of the first iteration of the block; with an iteration interval `N` and no time interval the
blocks have `N` iterations each except the last, shorter one at the end of the loop (none otherwise).  Iterations of inner loops and
outside the target loops are not counted.  Missing: loop names of which a target name is a proper prefix
(`C59_violation_prefix`), negative iteration numbers (`C59_violation_negative`), several threads (`C59_violation_threads`), and channels
that become active inside a loop (`C59_violation_midloop`). -/
theorem C59_blocks_partial (I : LInfo) (C : LMConf) (seq : Prop) (es : List TEv) (L : List (List Int)) (h : Prog I (named I C) seq es L)
    (hname : ∀ x ∈ es, x.e.attr = I.loop → ∀ s ∈ C.targets, s <+: I.text x.e.val → s = I.text x.e.val)
    (hpos : ∀ xs ∈ L, ∀ x ∈ xs, 0 ≤ x) :
    ∃ css : List (List (List Int)), css.map List.flatten = L ∧ monitor I C es = css.flatMap blocks ∧
      (seq → (∀ x ∈ es, x.due = false) → ∀ cs ∈ css, Even C.interval cs) := by
  have hT : ∀ x ∈ es, x.e.kind = .preBegin → x.e.attr = I.loop → (isTarget I C x.e.val = true ↔ named I C x.e.val) := by
    intro x hx _ ha
    unfold isTarget named prefixEq
    rw [Bool.or_eq_true, List.isEmpty_iff, List.any_eq_true]
    refine or_congr_right ?_
    constructor
    · rintro ⟨s, hs, hp⟩
      have := hname x hx ha s hs (List.isPrefixOf_iff_prefix.1 hp)
      rw [← this]; exact hs
    · intro hm
      exact ⟨_, hm, List.isPrefixOf_iff_prefix.2 (List.prefix_refl _)⟩
  obtain ⟨css, a1, -, -, -, a5, a6⟩ := prog_run I C h hT hpos LM.new rfl (by decide) ⟨rfl, rfl⟩
  refine ⟨css, a1, ?_, a6⟩
  unfold monitor
  rw [a5]; simp [LM.new]

/-- the total of `loop.iterations` is the number of iterations of the target loops -/
theorem C59_total_partial (I : LInfo) (C : LMConf) (seq : Prop) (es : List TEv) (L : List (List Int)) (h : Prog I (named I C) seq es L)
    (hname : ∀ x ∈ es, x.e.attr = I.loop → ∀ s ∈ C.targets, s <+: I.text x.e.val → s = I.text x.e.val)
    (hpos : ∀ xs ∈ L, ∀ x ∈ xs, 0 ≤ x) :
    ((monitor I C es).map Snap.iterations).sum = (L.map List.length).sum := by
  obtain ⟨css, a1, a2, -⟩ := C59_blocks_partial I C seq es L h hname hpos
  rw [a2, ← a1]
  clear a1 a2
  induction css with
  | nil => rfl
  | cons cs css ih =>
    simp only [List.flatMap_cons, List.map_append, List.sum_append, List.map_cons, List.sum_cons, ih, blocks, List.map_map, List.length_flatten]
    congr 1
    simp [covers, Function.comp_def]

/-- **C60** (partial).  For all properly nested event sequences of one thread in which iterations of one loop are not nested in each other:
loop_statistics records for every iteration of a loop the time from its begin to its end, and at the end of every loop the number of
iterations of that loop, at every nesting depth, and nothing else.  Missing: several threads (`C60_violation_threads`). -/
theorem C60_statistics_partial (I : LInfo) (es : List TEv) (n : Nat) (o : List SOut) (h : Stat I false es n o) : statistics I es = o := by
  have := (stat_run I h LS.new).1 rfl rfl
  unfold statistics
  rw [this]; simp [LS.new]

/-! ### examples and violations -/

/-- attribute 1 is `loop`, 2 and 3 are iteration attributes -/
def exLI : LInfo := ⟨1, fun a => a == 2 || a == 3, fun v => match v.c with | .inr x => x.toInt | .inl _ => -7, fun v => match v.c with | .inl t => t | .inr _ => []⟩

/-- begin and end events of thread `th` -/
def exB' (t a : Nat) (v : Val) (th : Nat := 0) : TEv := ⟨⟨.preBegin, 7, th, a, v⟩, t, false⟩
def exE' (t a : Nat) (v : Val) (th : Nat := 0) : TEv := ⟨⟨.preEnd, 7, th, a, v⟩, t, false⟩

/-- a target loop `main` with three iterations, the second one with an inner loop -/
def exLoop : List TEv :=
  exB' 0 1 (.ofString "main") ::
    (([exB' 1 2 (.ofInt 4)] ++ [] ++ [exE' 2 2 (.ofInt 4)]) ++
     ((exB' 3 2 (.ofInt 5) :: ((exB' 4 1 (.ofString "inner") :: ((exB' 5 3 (.ofInt 0) :: ([] ++ [exE' 8 3 (.ofInt 0)])) ++ [exE' 9 1 (.ofString "inner")])) ++ [exE' 10 2 (.ofInt 5)])) ++
      (exB' 11 2 (.ofInt 6) :: ([] ++ [exE' 15 2 (.ofInt 6)]))) ++ [exE' 16 1 (.ofString "main")])

/-- non-vacuity of C59 -/
example : Prog exLI (named exLI ⟨2, [Cali.str "main"]⟩) True exLoop [[4, 5, 6]] ∧
    (∀ x ∈ exLoop, x.e.attr = exLI.loop → ∀ s ∈ (⟨2, [Cali.str "main"]⟩ : LMConf).targets, s <+: exLI.text x.e.val → s = exLI.text x.e.val) ∧
    monitor exLI ⟨2, [Cali.str "main"]⟩ exLoop = [⟨0, none⟩, ⟨2, some 4⟩, ⟨1, some 6⟩] := by
  refine ⟨?_, by decide +kernel, by decide +kernel⟩
  have P : ∀ t t' a v, Pair (exB' t a v) (exE' t' a v) a v := fun _ _ _ _ => ⟨rfl, rfl, rfl, rfl, rfl, rfl⟩
  have b1 := Body.iter (I := exLI) (seq := True) (P 1 2 2 (.ofInt 4)) (by decide) rfl Body.nil (fun _ => rfl)
  have b2 := Body.iter (I := exLI) (seq := True) (P 5 8 3 (.ofInt 0)) (by decide) rfl Body.nil (fun _ => rfl)
  have b3 := Body.iter (I := exLI) (seq := True) (P 3 10 2 (.ofInt 5)) (by decide) rfl (Body.loop (P 4 9 1 (.ofString "inner")) b2) (fun _ => rfl)
  have b4 := Body.iter (I := exLI) (seq := True) (P 11 15 2 (.ofInt 6)) (by decide) rfl Body.nil (fun _ => rfl)
  have := Prog.target (T := named exLI ⟨2, [Cali.str "main"]⟩) (P 0 16 1 (.ofString "main")) (.inr (by decide +kernel)) (b1.append (b3.append b4))
  rw [show exLI.toInt (.ofInt 4) = 4 by decide, show exLI.toInt (.ofInt 5) = 5 by decide, show exLI.toInt (.ofInt 6) = 6 by decide] at this
  exact this

/-- non-vacuity of C60 -/
example : Stat exLI false exLoop 0 [.duration 1, .duration 3, .count 1, .duration 7, .duration 4, .count 3] := by
  have P : ∀ t t' a v, Pair (exB' t a v) (exE' t' a v) a v := fun _ _ _ _ => ⟨rfl, rfl, rfl, rfl, rfl, rfl⟩
  have b1 := Stat.iter (I := exLI) (P 1 2 2 (.ofInt 4)) (by decide) rfl Stat.nil
  have b2 := Stat.iter (I := exLI) (P 5 8 3 (.ofInt 0)) (by decide) rfl Stat.nil
  have b3 := Stat.iter (I := exLI) (P 3 10 2 (.ofInt 5)) (by decide) rfl (Stat.loop (P 4 9 1 (.ofString "inner")) b2)
  have b4 := Stat.iter (I := exLI) (P 11 15 2 (.ofInt 6)) (by decide) rfl Stat.nil
  exact Stat.loop (d := false) (P 0 16 1 (.ofString "main")) (b1.append (b3.append b4))

/-- **C59** is violated: loop `main2` is monitored although only `main` was asked for (`strncmp` with the length of the target name,
`LoopMonitor.cpp:51-53`). -/
theorem C59_violation_prefix :
    ¬ named exLI ⟨1, [Cali.str "main"]⟩ (.ofString "main2") ∧
    monitor exLI ⟨1, [Cali.str "main"]⟩ [exB' 0 1 (.ofString "main2"), exB' 1 2 (.ofInt 0), exE' 2 2 (.ofInt 0), exE' 3 1 (.ofString "main2")] ≠ [] := by
  refine ⟨?_, by decide +kernel⟩
  unfold named; decide +kernel

/-- **C59** is violated: a block that starts with iteration -1 is reported to start with iteration 0. -/
theorem C59_violation_negative :
    monitor exLI ⟨2, []⟩ [exB' 0 1 (.ofString "main"), exB' 1 2 (.ofInt (-1)), exE' 2 2 (.ofInt (-1)), exB' 1 2 (.ofInt 0), exE' 2 2 (.ofInt 0),
      exE' 3 1 (.ofString "main")] = [⟨0, none⟩, ⟨2, some 0⟩, ⟨0, none⟩] := by
  decide +kernel

/-- **C59** is violated: threads 0 and 1 each run a loop with one iteration; the monitor counts a single iteration for the first and none for the
other, because the level counter is shared by all threads. -/
theorem C59_violation_threads :
    let v := Val.ofString "main"
    let es := [exB' 0 1 v 0, exB' 0 1 v 1, exB' 1 2 (.ofInt 0) 0, exE' 2 2 (.ofInt 0) 0, exB' 1 2 (.ofInt 0) 1, exE' 2 2 (.ofInt 0) 1, exE' 3 1 v 0, exE' 3 1 v 1]
    (∀ th, th < 2 → monitor exLI ⟨0, []⟩ (es.filter fun x => x.e.th == th) = [⟨0, none⟩, ⟨1, some 0⟩]) ∧
    monitor exLI ⟨0, []⟩ es = [⟨0, none⟩, ⟨0, none⟩] := by
  decide +kernel

/-- **C59** is violated: if the channel becomes active inside a loop, the level is -1 after its end, which equals "no target": iterations outside any
loop are counted, and reported with the next target loop. -/
theorem C59_violation_midloop :
    monitor exLI ⟨0, [Cali.str "main"]⟩ [exE' 0 1 (.ofString "other"), exB' 1 2 (.ofInt 3), exE' 2 2 (.ofInt 3), exB' 3 1 (.ofString "main"), exE' 4 1 (.ofString "main")] =
      [⟨1, some 3⟩, ⟨0, none⟩] := by
  decide +kernel

/-- **C60** is violated: with loops of two threads interleaved, the iterations of one thread are counted for the other's loop. -/
theorem C60_violation_threads :
    let v := Val.ofString "main"
    let es := [exB' 0 1 v 0, exB' 0 1 v 1, exB' 1 2 (.ofInt 0) 0, exE' 2 2 (.ofInt 0) 0, exE' 6 1 v 1, exB' 7 2 (.ofInt 1) 0, exE' 8 2 (.ofInt 1) 0, exE' 9 1 v 0]
    statistics exLI (es.filter fun x => x.e.th == 0) = [.duration 1, .duration 1, .count 2] ∧
    statistics exLI (es.filter fun x => x.e.th == 1) = [.count 0] ∧
    statistics exLI es = [.duration 1, .count 1, .duration 1, .count 1] := by
  decide +kernel

end Verif
