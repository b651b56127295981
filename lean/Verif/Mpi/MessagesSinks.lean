import Verif.Mpi.MessagesLemmas
/-!
# Message tracing and message pattern: the sinks
-/
namespace Verif.MpiMsg
open Verif

/-! ## Tracing -/

theorem mkNode_desc (W : Nat) (ids : Nat → Nat) (c : Comm) : mkNode W c (ids c.uid) = record.desc W ids c := by
  unfold mkNode record.desc isWorld
  by_cases h : c.ranks = (List.range W).map Int.ofNat
  · rw [if_pos h, h]; simp
  · rw [if_neg h]; simp [h]

/-- what the tracer knows and has reported -/
def TInv (W : Nat) (U : Comm → Prop) (t : Trc) (evs : List MEv) : Prop :=
  ∃ ids : Nat → Nat,
    (∀ c, U c → ∀ n, t.comms c.handle = some n → n = record.desc W ids c ∧ ids c.uid < t.next) ∧
    (∀ c c', U c → U c' → t.comms c.handle ≠ none → t.comms c'.handle ≠ none → ids c.uid = ids c'.uid → c = c') ∧
    t.out = evs.filterMap (record W ids) ∧
    ∀ e ∈ evs, ∀ c, e.comm? = some c → U c ∧ t.comms c.handle ≠ none

/-- the communicator is known -/
def TKnow (U : Comm → Prop) (t : Trc) (c : Comm) (n : CNode) : Prop := U c ∧ t.comms c.handle = some n

theorem record_congr (W : Nat) {ids ids' : Nat → Nat} {e : MEv} (h : ∀ c, e.comm? = some c → ids c.uid = ids' c.uid) : record W ids e = record W ids' e := by
  have hd : ∀ c, e.comm? = some c → record.desc W ids c = record.desc W ids' c := by
    intro c hc
    unfold record.desc
    rw [h c hc]
  cases e with
  | sent c a b n => simp only [record, hd c rfl]
  | received c a b n => simp only [record, hd c rfl]
  | coll c k a b => cases k <;> simp only [record, hd c rfl]
  | begin => rfl
  | fin => rfl

theorem filterMap_congr' {α β : Type} {f g : α → Option β} (l : List α) (h : ∀ x ∈ l, f x = g x) : l.filterMap f = l.filterMap g := by
  induction l with
  | nil => rfl
  | cons x l ih =>
    simp only [List.filterMap_cons, h x (by simp)]
    rw [ih fun y hy => h y (by simp [hy])]

theorem tracing_ok (W : Nat) (U : Comm → Prop) (hU : ∀ x y, U x → U y → (x.handle = y.handle → x = y) ∧ (x.uid = y.uid → x = y)) :
    SinkOk (tracing W) U (TInv W U) (TKnow U) := by
  have push : ∀ (t : Trc) (evs : List MEv) (c : Comm) (e : MEv) (n : CNode) (ev : TEv), TInv W U t evs → TKnow U t c n → e.comm? = some c →
      (∀ ids, n = record.desc W ids c → record W ids e = some ev) → TInv W U { t with out := t.out ++ [ev] } (evs ++ [e]) := by
    rintro t evs c e n ev ⟨ids, i1, i2, i3, i4⟩ ⟨k1, k2⟩ he hr
    refine ⟨ids, i1, i2, ?_, ?_⟩
    · have := hr ids (i1 c k1 n k2).1
      simp [List.filterMap_append, i3, this]
    · intro e' he' c' hc'
      rcases List.mem_append.1 he' with h | h
      · exact i4 e' h c' hc'
      · simp only [List.mem_singleton] at h
        subst h
        rw [he] at hc'
        cases hc'
        exact ⟨k1, by show t.comms c.handle ≠ none; rw [k2]; simp⟩
  have mark : ∀ (t : Trc) (evs : List MEv) (e : MEv), TInv W U t evs → e.comm? = none → (∀ ids, record W ids e = none) → TInv W U t (evs ++ [e]) := by
    rintro t evs e ⟨ids, i1, i2, i3, i4⟩ he hr
    refine ⟨ids, i1, i2, by simp [List.filterMap_append, hr, i3], ?_⟩
    intro e' he' c' hc'
    rcases List.mem_append.1 he' with h | h
    · exact i4 e' h c' hc'
    · simp only [List.mem_singleton] at h
      subst h
      rw [he] at hc'
      cases hc'
  refine ⟨?_, ?_, ?_, ?_, ?_, ?_⟩
  · rintro t evs c ⟨ids, i1, i2, i3, i4⟩ hc
    show TInv W U (lookupComm W t c).1 evs ∧ TKnow U (lookupComm W t c).1 c (lookupComm W t c).2 ∧ Keeps (TKnow U) t (lookupComm W t c).1
    unfold lookupComm
    cases hl : t.comms c.handle with
    | some n => exact ⟨⟨ids, i1, i2, i3, i4⟩, ⟨hc, hl⟩, fun _ _ h => h⟩
    | none =>
      have hne : ∀ c', U c' → t.comms c'.handle ≠ none → c'.uid ≠ c.uid ∧ c'.handle ≠ c.handle := by
        intro c' hc' hn
        constructor
        · intro h
          have := (hU c' c hc' hc).2 h
          rw [this, hl] at hn
          exact hn rfl
        · intro h
          rw [h, hl] at hn
          exact hn rfl
      have hother : ∀ c', U c' → ∀ n, BB.upd t.comms c.handle (some (mkNode W c t.next)) c'.handle = some n →
          (c' = c ∧ n = mkNode W c t.next) ∨ (t.comms c'.handle = some n ∧ c'.uid ≠ c.uid ∧ c'.handle ≠ c.handle) := by
        intro c' hc' n h
        unfold BB.upd at h
        by_cases hh : c'.handle = c.handle
        · rw [if_pos hh] at h
          exact .inl ⟨(hU c' c hc' hc).1 hh, by simpa using h.symm⟩
        · rw [if_neg hh] at h
          exact .inr ⟨h, hne c' hc' (by rw [h]; simp)⟩
      refine ⟨⟨fun u => if u = c.uid then t.next else ids u, ?_, ?_, ?_, ?_⟩, ⟨hc, ?_⟩, ?_⟩
      · intro c' hc' n h
        rcases hother c' hc' n h with ⟨rfl, rfl⟩ | ⟨h1, h2, h3⟩
        · constructor
          · have := mkNode_desc W (fun u => if u = c'.uid then t.next else ids u) c'
            simpa using this
          · simp
        · obtain ⟨a, b⟩ := i1 c' hc' n h1
          constructor
          · rw [a]
            unfold record.desc
            simp [h2]
          · simp only [if_neg h2]
            show ids c'.uid < t.next + 1
            omega
      · intro c1 c2 hc1 hc2 h1 h2 he
        obtain ⟨n1, e1⟩ := Option.ne_none_iff_exists'.1 h1
        obtain ⟨n2, e2⟩ := Option.ne_none_iff_exists'.1 h2
        rcases hother c1 hc1 n1 e1 with ⟨rfl, -⟩ | ⟨a1, a2, -⟩ <;> rcases hother c2 hc2 n2 e2 with ⟨rfl, -⟩ | ⟨b1, b2, -⟩
        · rfl
        · have := (i1 c2 hc2 n2 b1).2
          simp [b2] at he
          omega
        · have := (i1 c1 hc1 n1 a1).2
          simp [a2] at he
          omega
        · simp only [if_neg a2, if_neg b2] at he
          exact i2 c1 c2 hc1 hc2 (by rw [a1]; simp) (by rw [b1]; simp) he
      · show t.out = _
        rw [i3]
        apply filterMap_congr'
        intro e he
        apply record_congr
        intro c' hc'
        obtain ⟨u, v⟩ := i4 e he c' hc'
        simp only [if_neg (hne c' u v).1]
      · intro e he c' hc'
        obtain ⟨u, v⟩ := i4 e he c' hc'
        refine ⟨u, ?_⟩
        show BB.upd t.comms c.handle _ c'.handle ≠ none
        unfold BB.upd
        rw [if_neg (hne c' u v).2]
        exact v
      · show BB.upd t.comms c.handle _ c.handle = _
        unfold BB.upd
        rw [if_pos rfl]
      · rintro c' n ⟨h1, h2⟩
        refine ⟨h1, ?_⟩
        show BB.upd t.comms c.handle _ c'.handle = _
        unfold BB.upd
        rw [if_neg (hne c' h1 (by rw [h2]; simp)).2]
        exact h2
  · intro t evs c k dst tag n hi hk
    exact ⟨push t evs c _ k _ hi hk rfl fun ids h => by rw [h]; rfl, fun _ _ h => h⟩
  · intro t evs c k dst tag n hi hk
    exact ⟨push t evs c _ k _ hi hk rfl fun ids h => by rw [h]; rfl, fun _ _ h => h⟩
  · intro t evs c k kd n root hi hk
    exact ⟨push t evs c _ k _ hi hk rfl fun ids h => by rw [h]; cases kd <;> rfl, fun _ _ h => h⟩
  · intro t evs hi
    exact ⟨mark t evs .begin hi rfl fun _ => rfl, fun _ _ h => h⟩
  · intro t evs hi
    exact ⟨mark t evs .fin hi rfl fun _ => rfl, fun _ _ h => h⟩

/-! ## Pattern -/

/-- one event -/
def pstep (p : Pat) : MEv → Pat
  | .sent _ d t n => pattern.send p () d t n
  | .received _ d t n => pattern.recv p () d t n
  | .coll _ k n r => pattern.coll p () k n r
  | .begin => pattern.begin p
  | .fin => pattern.fin p

theorem pattern_ok : SinkOk pattern (fun _ => True) (fun p evs => p = evs.foldl pstep {}) (fun _ _ _ => True) := by
  refine ⟨?_, ?_, ?_, ?_, ?_, ?_⟩
  · intro s evs c h _; exact ⟨h, trivial, fun _ _ h => h⟩
  all_goals
    intros
    rename_i h
    refine ⟨?_, fun _ _ h => h⟩
    first
      | (subst h; simp [List.foldl_append, pstep])
      | (rename_i h1; subst h1; simp [List.foldl_append, pstep])

theorem i32_add (a b : Int) : i32 (i32 a + b) = i32 (a + b) := by
  unfold i32
  simp

theorem mem_sins (x y : Int) (l : List Int) : y ∈ sins x l ↔ y = x ∨ y ∈ l := by
  unfold sins
  split
  · constructor
    · exact fun h => .inr h
    · rintro (rfl | h)
      · assumption
      · exact h
  · simp

theorem sins_nodup (x : Int) {l : List Int} (h : l.Nodup) : (sins x l).Nodup := by
  unfold sins
  split
  · exact h
  · rename_i hx; exact List.nodup_cons.2 ⟨hx, h⟩

/-- counters since the last begin -/
structure Cnt (p : Pat) (mid : List MEv) : Prop where
  sends : p.sends = i32 (totals mid).sends
  recvs : p.recvs = i32 (totals mid).recvs
  colls : p.colls = i32 (totals mid).colls
  sendSize : p.sendSize = i32 (totals mid).sendSize
  recvSize : p.recvSize = i32 (totals mid).recvSize
  collSize : p.collSize = i32 (totals mid).collSize
  srcs : p.srcs.Nodup ∧ ∀ x, x ∈ p.srcs ↔ ∃ c t n, .received c x t n ∈ mid
  dests : p.dests.Nodup ∧ ∀ x, x ∈ p.dests ↔ ∃ c t n, .sent c x t n ∈ mid

theorem cnt_nil (out : List Report) : Cnt { out := out } [] := by
  constructor <;> simp [totals, i32]

theorem cnt_step {p : Pat} {mid : List MEv} (h : Cnt p mid) {e : MEv} (he : e.isMark = false) : Cnt (pstep p e) (mid ++ [e]) := by
  cases e with
  | begin => simp [MEv.isMark] at he
  | fin => simp [MEv.isMark] at he
  | sent c d t n =>
    refine ⟨?_, ?_, ?_, ?_, ?_, ?_, ⟨h.srcs.1, ?_⟩, ⟨sins_nodup _ h.dests.1, ?_⟩⟩
    · show i32 (p.sends + 1) = _
      rw [h.sends, i32_add]; simp [totals]
    · show p.recvs = _
      rw [h.recvs]; simp [totals]
    · show p.colls = _
      rw [h.colls]; simp [totals]
    · show i32 (p.sendSize + n) = _
      rw [h.sendSize, i32_add]; simp [totals]
    · show p.recvSize = _
      rw [h.recvSize]; simp [totals]
    · show p.collSize = _
      rw [h.collSize]; simp [totals]
    · intro x; show x ∈ p.srcs ↔ _; rw [h.srcs.2]; simp
    · intro x; show x ∈ sins d p.dests ↔ _; rw [mem_sins, h.dests.2]
      constructor
      · rintro (rfl | ⟨c', t', n', hh⟩)
        · exact ⟨c, t, n, by simp⟩
        · exact ⟨c', t', n', by simp [hh]⟩
      · rintro ⟨c', t', n', hh⟩
        simp only [List.mem_append, List.mem_singleton, MEv.sent.injEq] at hh
        rcases hh with hh | hh
        · exact .inr ⟨c', t', n', hh⟩
        · exact .inl hh.2.1
  | received c d t n =>
    refine ⟨?_, ?_, ?_, ?_, ?_, ?_, ⟨sins_nodup _ h.srcs.1, ?_⟩, ⟨h.dests.1, ?_⟩⟩
    · show p.sends = _
      rw [h.sends]; simp [totals]
    · show i32 (p.recvs + 1) = _
      rw [h.recvs, i32_add]; simp [totals]
    · show p.colls = _
      rw [h.colls]; simp [totals]
    · show p.sendSize = _
      rw [h.sendSize]; simp [totals]
    · show i32 (p.recvSize + n) = _
      rw [h.recvSize, i32_add]; simp [totals]
    · show p.collSize = _
      rw [h.collSize]; simp [totals]
    · intro x; show x ∈ sins d p.srcs ↔ _; rw [mem_sins, h.srcs.2]
      constructor
      · rintro (rfl | ⟨c', t', n', hh⟩)
        · exact ⟨c, t, n, by simp⟩
        · exact ⟨c', t', n', by simp [hh]⟩
      · rintro ⟨c', t', n', hh⟩
        simp only [List.mem_append, List.mem_singleton, MEv.received.injEq] at hh
        rcases hh with hh | hh
        · exact .inr ⟨c', t', n', hh⟩
        · exact .inl hh.2.1
    · intro x; show x ∈ p.dests ↔ _; rw [h.dests.2]; simp
  | coll c k n r =>
    refine ⟨?_, ?_, ?_, ?_, ?_, ?_, ⟨h.srcs.1, ?_⟩, ⟨h.dests.1, ?_⟩⟩
    · show p.sends = _
      rw [h.sends]; simp [totals]
    · show p.recvs = _
      rw [h.recvs]; simp [totals]
    · show i32 (p.colls + 1) = _
      rw [h.colls, i32_add]; simp [totals]
    · show p.sendSize = _
      rw [h.sendSize]; simp [totals]
    · show p.recvSize = _
      rw [h.recvSize]; simp [totals]
    · show i32 (p.collSize + n) = _
      rw [h.collSize, i32_add]; simp [totals]
    · intro x; show x ∈ p.srcs ↔ _; rw [h.srcs.2]; simp
    · intro x; show x ∈ p.dests ↔ _; rw [h.dests.2]; simp

theorem cnt_run (mid : List MEv) : ∀ {p : Pat} {pre : List MEv}, Cnt p pre → (∀ e ∈ mid, e.isMark = false) → Cnt (mid.foldl pstep p) (pre ++ mid) := by
  induction mid with
  | nil => intro p pre h _; simpa using h
  | cons e mid ih =>
    intro p pre h hm
    have := ih (cnt_step h (hm e (by simp))) fun e' h' => hm e' (by simp [h'])
    simpa [List.append_assoc] using this

theorem pstep_out (p : Pat) (e : MEv) : e ≠ .fin → (pstep p e).out = p.out := by
  cases e <;> intro h <;> first | rfl | exact absurd rfl h

theorem fold_out (l : List MEv) : ∀ p : Pat, ∃ rs, (l.foldl pstep p).out = p.out ++ rs ∧ rs.length = l.countP (fun e => decide (e = .fin)) := by
  induction l with
  | nil => intro p; exact ⟨[], by simp, by simp⟩
  | cons e l ih =>
    intro p
    obtain ⟨rs, h1, h2⟩ := ih (pstep p e)
    by_cases he : e = .fin
    · subst he
      refine ⟨⟨p.sends, p.recvs, p.colls, p.dests.length, p.srcs.length, p.recvSize, p.sendSize, p.collSize⟩ :: rs, ?_, by simp [h2]⟩
      simp only [List.foldl_cons]
      rw [h1]
      simp [pstep, pattern]
    · refine ⟨rs, ?_, by simp [h2, he]⟩
      simp only [List.foldl_cons]
      rw [h1, pstep_out p e he]

theorem nodup_len {l l' : List Int} (h : l.Nodup) (h' : l'.Nodup) (he : ∀ x, x ∈ l ↔ x ∈ l') : l.length = l'.length :=
  ((List.perm_ext_iff_of_nodup h h').2 he).length_eq

theorem fold_report {evs pre mid post : List MEv} (he : evs = pre ++ .begin :: mid ++ .fin :: post) (hm : ∀ e ∈ mid, e.isMark = false) (hf : (totals mid).Fits) :
    (evs.foldl pstep {}).out[pre.countP (fun e => decide (e = .fin))]? = some (totals mid) := by
  subst he
  simp only [List.foldl_append, List.foldl_cons]
  obtain ⟨r1, a1, a2⟩ := fold_out pre {}
  have a1 : (pre.foldl pstep {}).out = r1 := by simpa using a1
  have hc := cnt_run mid (p := pstep (pre.foldl pstep {}) .begin) (pre := []) (by rw [show pstep (pre.foldl pstep {}) .begin = { out := (pre.foldl pstep {}).out } from rfl]; exact cnt_nil _) hm
  rw [List.nil_append] at hc
  have ho : ∀ (l : List MEv) (p : Pat), (∀ e ∈ l, e.isMark = false) → (l.foldl pstep p).out = p.out := by
    intro l
    induction l with
    | nil => intro p _; rfl
    | cons e l ih =>
      intro p h
      simp only [List.foldl_cons]
      rw [ih _ fun e' h' => h e' (by simp [h'])]
      apply pstep_out
      rintro rfl
      have := h .fin (by simp)
      simp [MEv.isMark] at this
  have ho := ho mid (pstep (pre.foldl pstep {}) .begin) hm
  have ho' : (pstep (pre.foldl pstep {}) .begin).out = r1 := a1
  rw [ho'] at ho
  generalize mid.foldl pstep (pstep (pre.foldl pstep {}) .begin) = p at hc ho
  obtain ⟨r2, b1, -⟩ := fold_out post (pstep p .fin)
  rw [b1]
  have : (pstep p .fin).out = r1 ++ [totals mid] := by
    show p.out ++ [_] = _
    rw [ho]
    congr 1
    obtain ⟨f1, f2, f3, f4, f5, f6⟩ := hf
    rw [hc.sends, hc.recvs, hc.colls, hc.sendSize, hc.recvSize, hc.collSize, i32_fits f1, i32_fits f2, i32_fits f3, i32_fits f4, i32_fits f5, i32_fits f6]
    have d1 : p.dests.length = (totals mid).dests := by
      apply nodup_len hc.dests.1 (List.nodup_dedup _)
      intro x
      rw [hc.dests.2, List.mem_dedup, List.mem_filterMap]
      constructor
      · rintro ⟨c, t, n, h⟩; exact ⟨_, h, rfl⟩
      · rintro ⟨e, h, h2⟩
        cases e <;> simp at h2
        subst h2
        exact ⟨_, _, _, h⟩
    have d2 : p.srcs.length = (totals mid).srcs := by
      apply nodup_len hc.srcs.1 (List.nodup_dedup _)
      intro x
      rw [hc.srcs.2, List.mem_dedup, List.mem_filterMap]
      constructor
      · rintro ⟨c, t, n, h⟩; exact ⟨_, h, rfl⟩
      · rintro ⟨e, h, h2⟩
        cases e <;> simp at h2
        subst h2
        exact ⟨_, _, _, h⟩
    rw [d1, d2]
  rw [this, ← a2, List.append_assoc]
  have e : (({} : Pat).out ++ r1) = r1 := by simp
  simp

end Verif.MpiMsg
