import Verif.Channel.Spec
import Verif.Props.Runtime
import Mathlib.Tactic.Tauto
/-!
# C40, C44: channels
-/
namespace Verif.Chan
open RT

theorem eraseFound_eq (l : List Nat) (c : Nat) : eraseFound l c = l.erase c := by
  unfold eraseFound
  rw [List.erase_eq_eraseIdx]
  simp only [List.idxOf?]
  cases List.findIdx? (fun x => x == c) l <;> rfl

theorem step_active (s : RT.State) (op : RT.Op) : (RT.step s op).active = s.active ∧ (RT.step s op).isActive = s.isActive := by
  have hend : ∀ th a ck, (endCore s th a ck).active = s.active ∧ (endCore s th a ck).isActive = s.isActive := by
    intro th a ck
    unfold endCore
    split
    · exact ⟨rfl, rfl⟩
    split
    · exact ⟨rfl, rfl⟩
    split
    · exact ⟨rfl, rfl⟩
    split
    · exact ⟨rfl, rfl⟩
    · simp
  unfold RT.step
  split
  · exact ⟨rfl, rfl⟩
  cases op with
  | endR th' a => exact hend th' a none
  | endCheck th' a v => exact hend th' a (some v)
  | begin th' a v =>
    simp only [begin]
    split
    · exact ⟨rfl, rfl⟩
    split <;> split <;> simp
  | set th' a v =>
    simp only [RT.set]
    split
    · exact ⟨rfl, rfl⟩
    split <;> simp
  | beginCh th' ch a v =>
    simp only [beginCh]
    split <;> simp
  | setCh th' ch a v => simp [setCh]
  | endCh th' ch a =>
    simp only [endCh]
    split
    · exact ⟨rfl, rfl⟩
    split
    · exact ⟨rfl, rfl⟩
    · simp

/-- the implementation's lists against the specification -/
structure Rel (s : State) (p : Spec) : Prop where
  next : s.next = p.n
  nodup : s.rt.active.Nodup
  on : ∀ c, c ∈ s.rt.active ↔ p.on c = true
  sorted : s.all.Pairwise (· < ·)
  alive : ∀ c, c ∈ s.all ↔ p.alive c = true
  bound : ∀ c ∈ s.all, c < s.next

theorem Rel.delete {s : State} {p : Spec} (R : Rel s p) (c : Nat) : Rel (delete s c) (p.step (.delete c)) := by
  have hn : s.all.Nodup := R.sorted.imp (fun h => by omega)
  refine ⟨R.next, ?_, ?_, ?_, ?_, ?_⟩
  · simp only [Chan.delete, eraseFound_eq]; exact R.nodup.erase _
  · intro x
    simp only [Chan.delete, eraseFound_eq, R.nodup.mem_erase_iff, Spec.step, BB.upd, R.on]
    by_cases h : x = c <;> simp [h]
  · simp only [Chan.delete, eraseFound_eq]; exact R.sorted.sublist List.erase_sublist
  · intro x
    simp only [Chan.delete, eraseFound_eq, hn.mem_erase_iff, Spec.step, BB.upd, R.alive]
    by_cases h : x = c <;> simp [h]
  · intro x hx
    simp only [Chan.delete, eraseFound_eq] at hx
    exact R.bound x (List.mem_of_mem_erase hx)

theorem finalize_rel {s : State} {p : Spec} (R : Rel s p) : ∀ fuel, s.all.length ≤ fuel →
    Rel (finalizeLoop fuel s) (p.step .finalize) ∧
      (finalizeLoop fuel s).life = s.life ++ s.all.flatMap fun c => [.preFinish c, .finish c] := by
  intro fuel
  induction fuel generalizing s p with
  | zero =>
    intro h
    have e : s.all = [] := by simpa using h
    have ha : ∀ c, p.alive c = false := by
      intro c
      have := R.alive c
      rw [e] at this
      simpa using this
    refine ⟨⟨R.next, R.nodup, ?_, by simp [finalizeLoop, e], ?_, R.bound⟩, by simp [finalizeLoop, e]⟩
    · intro c; simp [finalizeLoop, R.on, Spec.step, ha]
    · intro c; simp [finalizeLoop, e, Spec.step]
  | succ fuel ih =>
    intro h
    unfold finalizeLoop
    cases e : s.all with
    | nil =>
      have ha : ∀ c, p.alive c = false := by
        intro c
        have := R.alive c
        rw [e] at this
        simpa using this
      refine ⟨⟨R.next, R.nodup, ?_, by simp [e], ?_, R.bound⟩, by simp⟩
      · intro c; simp [R.on, Spec.step, ha]
      · intro c; simp [e, Spec.step]
    | cons c cs =>
      simp only
      have hall : (delete s c).all = cs := by simp [delete, eraseFound_eq, e]
      obtain ⟨h1, h2⟩ := ih (R.delete c) (by rw [hall]; rw [e] at h; simpa using h)
      have he : (p.step (.delete c)).step .finalize = p.step .finalize := by
        simp only [Spec.step]
        congr 1
        funext x
        simp only [BB.upd]
        by_cases hx : x = c
        · subst hx
          have := (R.alive x).1 (by rw [e]; simp)
          simp [this]
        · simp [hx]
      rw [he] at h1
      refine ⟨h1, ?_⟩
      rw [h2, hall]
      simp [delete]

theorem Rel.step {s : State} {p : Spec} (R : Rel s p) (op : Op) : Rel (Chan.step s op) (p.step op) := by
  cases op with
  | create =>
    refine ⟨by simp [Chan.step, create, Spec.step, R.next], R.nodup, R.on, ?_, ?_, ?_⟩
    · simp only [Chan.step, create, List.pairwise_append]
      exact ⟨R.sorted, by simp, fun a ha b hb => by simp at hb; subst hb; exact R.bound a ha⟩
    · intro c
      simp only [Chan.step, create, List.mem_append, List.mem_singleton, Spec.step, BB.upd, R.alive, R.next]
      by_cases h : c = p.n <;> simp [h]
    · intro c hc
      simp only [Chan.step, create, List.mem_append, List.mem_singleton] at hc ⊢
      rcases hc with hc | hc
      · have := R.bound c hc; omega
      · omega
  | activate c =>
    have ha : (Chan.step s (.activate c)).rt.active = if c ∈ s.rt.active then s.rt.active else s.rt.active ++ [c] := by
      simp only [Chan.step, activate]
      split
      · rename_i h
        rw [List.findIdx?_eq_none_iff] at h
        rw [if_neg]
        intro hc
        simpa using h c hc
      · rename_i i h
        rw [List.findIdx?_eq_some_iff_getElem] at h
        obtain ⟨hi, h1, _⟩ := h
        rw [if_pos]
        have : s.rt.active[i] = c := by simpa using h1
        rw [← this]
        exact List.getElem_mem _
    refine ⟨R.next, ?_, ?_, R.sorted, R.alive, R.bound⟩
    · rw [ha]
      split
      · exact R.nodup
      · rename_i h
        rw [List.nodup_append]
        exact ⟨R.nodup, by simp, fun a h1 b h2 e => by simp at h2; subst h2; subst e; exact h h1⟩
    · intro x
      rw [ha]
      simp only [Spec.step, BB.upd]
      by_cases h : x = c
      · subst h
        simp only [if_true, iff_true]
        split
        · assumption
        · simp
      · simp only [if_neg h, ← R.on]
        split
        · rfl
        · simp [h]
  | deactivate c =>
    refine ⟨R.next, ?_, ?_, R.sorted, R.alive, R.bound⟩
    · simp only [Chan.step, deactivate, eraseFound_eq]; exact R.nodup.erase _
    · intro x
      simp only [Chan.step, deactivate, eraseFound_eq, R.nodup.mem_erase_iff, Spec.step, BB.upd, R.on]
      by_cases h : x = c <;> simp [h]
  | delete c => exact R.delete c
  | releaseThread => exact ⟨R.next, R.nodup, R.on, R.sorted, R.alive, R.bound⟩
  | finalize => exact (finalize_rel R _ (Nat.le_refl _)).1
  | ann op =>
    have := (step_active s.rt op).1
    exact ⟨R.next, by simp only [Chan.step, this]; exact R.nodup, by intro c; simp only [Chan.step, this]; exact R.on c, R.sorted, R.alive, R.bound⟩

theorem rel_run (t : MTree.Tree) (ops : List Op) : Rel (run (init t) ops) (spec ops) := by
  have key : ∀ (ops : List Op) (s : State) (p : Spec), Rel s p → Rel (ops.foldl Chan.step s) (ops.foldl Spec.step p) := by
    intro ops
    induction ops with
    | nil => exact fun _ _ h => h
    | cons op ops ih => exact fun s p h => ih _ _ (h.step op)
  refine key ops _ _ ⟨rfl, List.nodup_nil, ?_, List.Pairwise.nil, ?_, by simp [init]⟩
  · intro c; simp [init, RT.init, Spec.init]
  · intro c; simp [init, Spec.init]


/-! ### events -/

theorem mapEvents_count {l : List Nat} (hn : l.Nodup) (k : EvKind) (th a : Nat) (v : Val) (e : Event) :
    (l.map fun ch => (⟨k, ch, th, a, v⟩ : Event)).count e =
      if e.ch ∈ l ∧ e.kind = k ∧ e.th = th ∧ e.attr = a ∧ e.val = v then 1 else 0 := by
  have hnd : (l.map fun ch => (⟨k, ch, th, a, v⟩ : Event)).Nodup := by
    rw [List.nodup_iff_pairwise_ne, List.pairwise_map]
    refine (List.nodup_iff_pairwise_ne.1 hn).imp ?_
    intro x y h e
    simp only [Event.mk.injEq] at e
    exact h e.2.1
  rw [hnd.count]
  congr 1
  simp only [List.mem_map, eq_iff_iff]
  constructor
  · rintro ⟨ch, h, rfl⟩; exact ⟨h, rfl, rfl, rfl, rfl⟩
  · rintro ⟨h, rfl, rfl, rfl, rfl⟩; exact ⟨e.ch, h, rfl⟩

/-- the events of one kind -/
def evs (s : State) (a : Attr) (th : Nat) (v : Val) (k : EvKind) : List Event :=
  if a.skipEvents then [] else s.rt.active.map fun ch => ⟨k, ch, th, a.id, v⟩

theorem evs_count {s : State} {p : Spec} (R : Rel s p) (a : Attr) (th : Nat) (v : Val) (k : EvKind) (e : Event) :
    (Due p.on a th v [k] e → (evs s a th v k).count e = 1) ∧ (¬ Due p.on a th v [k] e → (evs s a th v k).count e = 0) := by
  have hm := R.on e.ch
  unfold Due evs
  cases hsk : a.skipEvents with
  | true => simp
  | false =>
    simp only [Bool.false_eq_true, if_false, mapEvents_count R.nodup, List.mem_singleton]
    constructor
    · rintro ⟨h1, _, h2⟩
      rw [if_pos ⟨hm.2 h1, h2⟩]
    · intro h
      rw [if_neg]
      rintro ⟨h1, h2⟩
      exact h ⟨hm.1 h1, trivial, h2⟩

theorem evs_count2 {s : State} {p : Spec} (R : Rel s p) (a : Attr) (th : Nat) (v : Val) {k k' : EvKind} (hk : k ≠ k') (e : Event) :
    (Due p.on a th v [k, k'] e → (evs s a th v k ++ evs s a th v k').count e = 1) ∧
    (¬ Due p.on a th v [k, k'] e → (evs s a th v k ++ evs s a th v k').count e = 0) := by
  have h1 := evs_count R a th v k e
  have h2 := evs_count R a th v k' e
  rw [List.count_append]
  have hd : Due p.on a th v [k, k'] e ↔ Due p.on a th v [k] e ∨ Due p.on a th v [k'] e := by
    unfold Due
    simp only [List.mem_cons, List.not_mem_nil, or_false]
    tauto
  have hx : Due p.on a th v [k] e → ¬ Due p.on a th v [k'] e := by
    rintro ⟨_, _, x1, _⟩ ⟨_, _, x2, _⟩
    simp at x1 x2
    exact hk (x1.symm.trans x2)
  rw [hd]
  constructor
  · rintro (h | h)
    · rw [h1.1 h, h2.2 (hx h)]
    · rw [h2.1 h, h1.2 (fun hc => hx hc h)]
  · intro h
    rw [not_or] at h
    rw [h1.2 h.1, h2.2 h.2]

theorem log_put (s : RT.State) (l : Loc) (r : MTree.Tree × Option Board) : (s.put l r).log = s.log := by
  obtain ⟨t, o⟩ := r
  cases o <;> cases l <;> rfl

theorem emitAll_log (s : RT.State) (k th a v) :
    (s.emitAll k th a v).log = s.log ++ if a.skipEvents then [] else s.active.map fun ch => ⟨k, ch, th, a.id, v⟩ := by
  unfold State.emitAll; split <;> simp_all

/-- C40: an accepted `begin` invokes, on every channel that is on, one pre-begin and one post-begin callback with the attribute and value
of the call, and nothing else; after any history of channel calls and annotations. -/
theorem C40_begin (t : MTree.Tree) (ops : List Op) (th : Nat) (a : Attr) (v : Val) :
    let s := run (init t) ops
    let s' := Chan.step s (.ann (.begin th a v))
    s.rt.err th = false → s'.rt.dead = false →
      ExactlyDue s s' (Due (spec ops).on a th v [.preBegin, .postBegin]) := by
  intro s s' he hd
  have R := rel_run t ops
  have hdd : s.rt.dead = false := by
    cases h : s.rt.dead with
    | false => rfl
    | true =>
      have : s'.rt.dead = true := by simp [s', Chan.step, RT.step, h]
      rw [this] at hd; simp at hd
  refine ⟨evs s a th v .preBegin ++ evs s a th v .postBegin, ?_, evs_count2 R a th v (by decide)⟩
  have e : s'.rt = begin s.rt th a v := by simp [s', Chan.step, RT.step, hdd]
  rw [e] at hd ⊢
  have fin : ∀ s1 : RT.State, s1.log = (s.rt.emitAll .preBegin th a v).log → s1.active = s.rt.active →
      (if s1.dead = true then s1 else s1.emitAll .postBegin th a v).dead = false →
      (if s1.dead = true then s1 else s1.emitAll .postBegin th a v).log = s.rt.log ++ (evs s a th v .preBegin ++ evs s a th v .postBegin) := by
    intro s1 h1 h2 h3
    have hd1 : s1.dead = false := by
      cases hx : s1.dead with
      | false => rfl
      | true => simp [hx] at h3
    rw [hd1]
    simp only [Bool.false_eq_true, if_false]
    rw [emitAll_log, h1, emitAll_log, h2, List.append_assoc]
    rfl
  simp only [begin, he, Bool.false_eq_true, if_false] at hd ⊢
  cases hl : scopeLoc a th with
  | none =>
    rw [hl] at hd
    exact fin _ rfl (by simp) hd
  | some l =>
    rw [hl] at hd
    exact fin _ (log_put ..) (by simp) hd

/-- C40: an accepted `set` invokes one pre-set callback on every channel that is on, and nothing else. -/
theorem C40_set (t : MTree.Tree) (ops : List Op) (th : Nat) (a : Attr) (v : Val) :
    let s := run (init t) ops
    let s' := Chan.step s (.ann (.set th a v))
    s.rt.err th = false → s.rt.dead = false →
      ExactlyDue s s' (Due (spec ops).on a th v [.preSet]) := by
  intro s s' he hd
  have R := rel_run t ops
  refine ⟨evs s a th v .preSet, ?_, evs_count R a th v _⟩
  have e : s'.rt = RT.set s.rt th a v := by simp [s', Chan.step, RT.step, hd]
  rw [e]
  simp only [RT.set, he, Bool.false_eq_true, if_false]
  split
  · rw [emitAll_log]; rfl
  · rw [log_put, emitAll_log]; rfl

theorem end_events {s : State} {p : Spec} (R : Rel s p) (th : Nat) (a : Attr) (ck : Option Val) {l : Loc} (hl : scopeLoc a th = some l)
    (he : s.rt.err th = false) (hd : s.rt.dead = false) (hd' : (endCore s.rt th a ck).dead = false) :
    ((endCore s.rt th a ck).err th = true ∧ (endCore s.rt th a ck).log = s.rt.log) ∨
    ((endCore s.rt th a ck).err th = false ∧ ∃ v, Query s.rt th a = some (some v) ∧ (∀ w ∈ ck, w = v) ∧ ∃ new, (endCore s.rt th a ck).log = s.rt.log ++ new ∧
      ∀ e, (Due p.on a th v [.preEnd] e → new.count e = 1) ∧ (¬ Due p.on a th v [.preEnd] e → new.count e = 0)) := by
  unfold endCore at hd' ⊢
  simp only [he, Bool.false_eq_true, if_false, hl] at hd' ⊢
  cases hlc : loadCurrent s.rt.tree a (bbKey a) (s.rt.board l) with
  | none => rw [hlc] at hd'; simp at hd'
  | some me =>
    obtain ⟨merged, entry⟩ := me
    rw [hlc] at hd'
    simp only at hd' ⊢
    split
    · left; exact ⟨by simp [BB.upd], rfl⟩
    · rename_i hc
      right
      rw [not_or] at hc
      have hq : Query s.rt th a = some (some entry.val) := by
        unfold loadCurrent at hlc
        unfold Query getEntry
        rw [hl]
        simp only
        cases hg : BB.get (s.rt.board l) (bbKey a) with
        | none => rw [hg] at hlc; simp at hlc
        | some m =>
          rw [hg] at hlc
          simp only [Option.map_some, Option.some.injEq] at hlc ⊢
          have hne := hc.1
          have key : m.get s.rt.tree a.id = entry := by
            split at hlc
            · split at hlc
              · simp only [Prod.mk.injEq] at hlc; rw [← hlc.2] at hne; exact absurd rfl hne
              · split at hlc
                · simp only [Prod.mk.injEq] at hlc; rw [← hlc.2] at hne; exact absurd rfl hne
                · simp only [Prod.mk.injEq] at hlc; exact hlc.2
            · simp only [Prod.mk.injEq] at hlc; exact hlc.2
          rw [key]
          cases hn : entry.node with
          | none => exact absurd hn hne
          | some x => rfl
      refine ⟨?_, entry.val, hq, ?_, evs s a th entry.val .preEnd, ?_, evs_count R a th entry.val _⟩
      · have : ∀ (x : RT.State) l r, (x.put l r).err = x.err := by
          intro x l r
          obtain ⟨t, o⟩ := r
          cases o <;> cases l <;> rfl
        rw [this]
        simpa using he
      · intro w hw
        cases ck with
        | none => simp at hw
        | some d =>
          simp at hw
          subst hw
          simpa using hc.2
      · rw [log_put, emitAll_log]; rfl

/-- C40: an `end` (with or without expected value) is either refused, without any callback, or it invokes one pre-end callback with the value
being ended on every channel that is on, and nothing else. -/
theorem C40_end (t : MTree.Tree) (ops : List Op) (th : Nat) (a : Attr) (op : RT.Op) (hop : op = .endR th a ∨ ∃ v, op = .endCheck th a v) {l : Loc}
    (hl : scopeLoc a th = some l) :
    let s := run (init t) ops
    let s' := Chan.step s (.ann op)
    s.rt.err th = false → s'.rt.dead = false →
      (s'.rt.err th = true ∧ s'.rt.log = s.rt.log) ∨
      (s'.rt.err th = false ∧ ∃ v, Query s.rt th a = some (some v) ∧ ExactlyDue s s' (Due (spec ops).on a th v [.preEnd])) := by
  intro s s' he hd
  have R := rel_run t ops
  have hdd : s.rt.dead = false := by
    cases h : s.rt.dead with
    | false => rfl
    | true =>
      have : s'.rt.dead = true := by simp [s', Chan.step, RT.step, h]
      rw [this] at hd; simp at hd
  rcases hop with rfl | ⟨v, rfl⟩
  · have e : s'.rt = endCore s.rt th a none := by simp [s', Chan.step, RT.step, hdd, endR]
    rw [e] at hd
    rcases end_events R th a none hl he hdd hd with h | ⟨h1, v, h2, _, h3⟩
    · left; rw [e]; exact h
    · right; rw [e]; exact ⟨h1, v, h2, by unfold ExactlyDue; rw [e]; exact h3⟩
  · have e : s'.rt = endCore s.rt th a (some v) := by simp [s', Chan.step, RT.step, hdd, endCheck]
    rw [e] at hd
    rcases end_events R th a (some v) hl he hdd hd with h | ⟨h1, w, h2, _, h3⟩
    · left; rw [e]; exact h
    · right; rw [e]; exact ⟨h1, w, h2, by unfold ExactlyDue; rw [e]; exact h3⟩

/-- channels that are on exist, if calls are only made for existing channels -/
theorem on_alive {ops : List Op} (h : Proper Spec.init ops) (c : Nat) : (spec ops).on c = true → (spec ops).alive c = true := by
  have key : ∀ (ops : List Op) (p : Spec), (∀ c, p.on c = true → p.alive c = true) → Proper p ops →
      ∀ c, (ops.foldl Spec.step p).on c = true → (ops.foldl Spec.step p).alive c = true := by
    intro ops
    induction ops with
    | nil => exact fun p h _ => h
    | cons op ops ih =>
      intro p hp hq
      refine ih _ ?_ hq.2
      have hq1 := hq.1
      intro c
      cases op with
      | create =>
        simp only [Spec.step, BB.upd]
        intro h
        split
        · rfl
        · exact hp c h
      | activate c' =>
        simp only [Spec.step, BB.upd]
        simp only at hq1
        split
        · rename_i e; subst e; exact fun _ => hq1
        · exact hp c
      | deactivate c' =>
        simp only [Spec.step, BB.upd]
        split
        · simp
        · exact hp c
      | delete c' =>
        simp only [Spec.step, BB.upd]
        split
        · simp
        · exact hp c
      | releaseThread => exact hp c
      | finalize =>
        simp only [Spec.step]
        intro h
        simp only [Bool.and_eq_true, Bool.not_eq_true'] at h
        rw [hp c h.1] at h; simp at h
      | ann op => exact hp c
  exact key ops _ (by simp [Spec.init]) h c

/-- C40: a channel that was deleted, was switched off, or never existed gets no callback from a process-wide annotation call, whatever that call is. -/
theorem C40_no_events_for_deleted_partial (t : MTree.Tree) (ops : List Op) (h : Proper Spec.init ops) (op : RT.Op) (hp : op.plain = true) (c : Nat)
    (hc : (spec ops).alive c = false ∨ (spec ops).on c = false) (e : Event) (hec : e.ch = c) :
    let s := run (init t) ops
    let s' := Chan.step s (.ann op)
    s'.rt.log.count e = s.rt.log.count e := by
  intro s s'
  have R := rel_run t ops
  have hoff : c ∉ s.rt.active := by
    intro hm
    have h1 := (R.on c).1 hm
    rcases hc with hc | hc
    · rw [on_alive h c h1] at hc; simp at hc
    · rw [h1] at hc; simp at hc
  have hz : ∀ k th (a : Attr) v, (if a.skipEvents then [] else s.rt.active.map fun ch => (⟨k, ch, th, a.id, v⟩ : Event)).count e = 0 := by
    intro k th a v
    rw [List.count_eq_zero]
    split
    · simp
    · intro hm
      obtain ⟨ch, h1, rfl⟩ := List.mem_map.1 hm
      exact hoff (by rw [← hec]; exact h1)
  have hend : ∀ th a ck, (endCore s.rt th a ck).log.count e = s.rt.log.count e := by
    intro th a ck
    unfold endCore
    split
    · rfl
    split
    · rfl
    split
    · rfl
    split
    · rfl
    · simp only [log_put, emitAll_log, List.count_append, hz, Nat.add_zero]
  show (RT.step s.rt op).log.count e = _
  unfold RT.step
  split
  · rfl
  cases op with
  | beginCh => simp [RT.Op.plain] at hp
  | endCh => simp [RT.Op.plain] at hp
  | setCh => simp [RT.Op.plain] at hp
  | endR th a => exact hend th a none
  | endCheck th a v => exact hend th a (some v)
  | set th a v =>
    simp only [RT.set]
    split
    · rfl
    split
    · simp only [emitAll_log, List.count_append, hz, Nat.add_zero]
    · simp only [log_put, emitAll_log, List.count_append, hz, Nat.add_zero]
  | begin th a v =>
    simp only [begin]
    split
    · rfl
    split
    · split <;> simp only [emitAll_log, emitAll_active, List.count_append, hz, Nat.add_zero]
    · split <;> simp only [log_put, emitAll_log, put_active, emitAll_active, List.count_append, hz, Nat.add_zero]


/-- C40 is violated for calls on one channel: after `delete_channel`, a channel that was active still gets callbacks from channel-specific
annotation calls (`is_active` is not cleared). -/
theorem C40_violation_deleted_channel_call :
    ∃ ops op, Proper Spec.init ops ∧ (spec ops).alive 0 = false ∧
      (Chan.step (run (init exTree) ops) (.ann op)).rt.log.countP (fun e => e.ch = 0) ≠ (run (init exTree) ops).rt.log.countP (fun e => e.ch = 0) :=
  ⟨[.create, .activate 0, .delete 0], .beginCh 3 0 exA (.ofInt 1), ⟨trivial, by decide, by decide, trivial⟩, by decide, by decide⟩

theorem flag_bit (p : BitVec 32) (k : Nat) (hk : k < 32) : p &&& (BitVec.twoPow 32 k) ≠ 0#32 ↔ p.getLsbD k = true := by
  constructor
  · intro h
    by_contra hb
    apply h
    ext i hi
    simp only [BitVec.getElem_and, BitVec.getElem_twoPow, BitVec.getElem_zero]
    by_cases hik : k = i
    · subst hik
      have : p[k] = false := by rw [← BitVec.getLsbD_eq_getElem]; simpa using hb
      simp [this]
    · simp [Ne.symm hik]
  · intro h e
    have := congrArg (fun x => x.getLsbD k) e
    simp only [BitVec.getLsbD_and, h, BitVec.getLsbD_twoPow, hk, decide_true, Bool.and_self, BitVec.getLsbD_zero] at this
    cases this

/-- C40, C09, C10: the property bits of an attribute the runtime goes by (`cali_types.h`): as-value 1, skip-events 64, hidden 128,
unaligned 1024; process scope 12 and thread scope 20 in the scope bits. -/
theorem C40_attribute_flags (a : Attr) :
    (a.skipEvents = true ↔ a.prop.getLsbD 6 = true) ∧ (a.hidden = true ↔ a.prop.getLsbD 7 = true) ∧
    (a.unaligned = true ↔ a.prop.getLsbD 10 = true) ∧ (a.asValue = true ↔ a.prop.getLsbD 0 = true) ∧
    (∀ th, scopeLoc a th = some .process ↔ a.prop &&& 60#32 = 12#32) ∧
    (∀ th, scopeLoc a th = some (.thread th) ↔ a.prop &&& 60#32 = 20#32) := by
  refine ⟨?_, ?_, ?_, ?_, ?_, ?_⟩
  · rw [Attr.skipEvents, decide_eq_true_iff, show (64#32) = BitVec.twoPow 32 6 by decide]; exact flag_bit a.prop 6 (by omega)
  · rw [Attr.hidden, decide_eq_true_iff, show (128#32) = BitVec.twoPow 32 7 by decide]; exact flag_bit a.prop 7 (by omega)
  · rw [Attr.unaligned, decide_eq_true_iff, show (1024#32) = BitVec.twoPow 32 10 by decide]; exact flag_bit a.prop 10 (by omega)
  · rw [Attr.asValue, decide_eq_true_iff, show (1#32) = BitVec.twoPow 32 0 by decide]; exact flag_bit a.prop 0 (by omega)
  · intro th
    unfold scopeLoc Attr.scope scopeThread scopeProcess
    by_cases h : a.prop &&& 60#32 = 20#32
    · simp [h]
    · by_cases h' : a.prop &&& 60#32 = 12#32
      · simp [h']
      · simp [h, h']
  · intro th
    unfold scopeLoc Attr.scope scopeThread scopeProcess
    by_cases h : a.prop &&& 60#32 = 20#32
    · simp [h]
    · by_cases h' : a.prop &&& 60#32 = 12#32
      · simp [h']
      · simp [h, h']

/-- C40 is violated if a deleted channel is activated: process-wide annotations notify it again. -/
theorem C40_violation_reactivated_after_delete :
    ∃ ops op, (spec ops).alive 0 = false ∧ RT.Op.plain op = true ∧
      (Chan.step (run (init exTree) ops) (.ann op)).rt.log.countP (fun e => e.ch = 0) ≠ (run (init exTree) ops).rt.log.countP (fun e => e.ch = 0) :=
  ⟨[.create, .delete 0, .activate 0], .begin 3 exA (.ofInt 1), by decide, rfl, by decide⟩

/-- a history that exercises the hypotheses: three channels, one activated twice, one switched off, one deleted -/
def exHist : List Op := [.create, .create, .create, .activate 0, .activate 1, .activate 0, .activate 2, .ann (.begin 3 exA (.ofInt 1)),
  .deactivate 1, .delete 2]

example : Proper Spec.init exHist ∧ (run (init exTree) exHist).rt.err 3 = false ∧
    (Chan.step (run (init exTree) exHist) (.ann (.endR 3 exA))).rt.dead = false ∧
    (Chan.step (run (init exTree) exHist) (.ann (.endR 3 exA))).rt.err 3 = false ∧
    (spec exHist).on 0 = true ∧ (spec exHist).on 1 = false ∧ (spec exHist).alive 2 = false ∧
    (Chan.step (run (init exTree) exHist) (.ann (.endR 3 exA))).rt.log.drop 6 = [⟨.preEnd, 0, 3, 12, .ofInt 1⟩] := by
  refine ⟨⟨trivial, trivial, trivial, by decide, by decide, by decide, by decide, trivial, by decide, by decide, trivial⟩, ?_⟩
  decide

/-! ### C44: life cycle -/

/-- C44: `get_channel(id)` finds exactly the channels that were created and not deleted. -/
theorem C44_get_channel (t : MTree.Tree) (ops : List Op) (c : Nat) :
    getChannel (run (init t) ops) c = if (spec ops).alive c then some c else none := by
  have R := rel_run t ops
  unfold getChannel
  cases h : (spec ops).alive c with
  | true =>
    have hm := (R.alive c).2 h
    rw [if_pos rfl]
    cases hf : (run (init t) ops).all.find? (fun x => x == c) with
    | none =>
      rw [List.find?_eq_none] at hf
      exact absurd (by simp) (hf c hm)
    | some x =>
      have := List.find?_some hf
      simp only [beq_iff_eq] at this
      rw [this]
  | false =>
    simp only [Bool.false_eq_true, if_false, List.find?_eq_none, beq_iff_eq]
    intro x hx e
    subst e
    rw [(R.alive x).1 hx] at h
    simp at h

/-- C44: `get_all_channels` lists each existing channel once, in order of creation. -/
theorem C44_all_channels (t : MTree.Tree) (ops : List Op) :
    (run (init t) ops).all = (List.range (spec ops).n).filter (spec ops).alive := by
  have R := rel_run t ops
  have hn := R.next
  refine List.Perm.eq_of_pairwise (le := (· < ·)) ?_ R.sorted (List.Pairwise.filter _ List.pairwise_lt_range) ?_
  · intro a b _ _ h1 h2; omega
  · refine (List.perm_ext_iff_of_nodup (R.sorted.imp (fun h => by omega)) (List.nodup_range.filter _)).2 ?_
    intro c
    rw [List.mem_filter, List.mem_range, R.alive]
    constructor
    · intro h; exact ⟨by rw [← hn]; exact R.bound c ((R.alive c).2 h), h⟩
    · exact fun h => h.2

/-- C44: ids are never reused: the id of a new channel is different from those of all channels created before. -/
theorem C44_new_id (t : MTree.Tree) (ops : List Op) :
    (Chan.step (run (init t) ops) .create).all = (run (init t) ops).all ++ [(spec ops).n] ∧
    ∀ pre, pre <+: ops → ∀ c ∈ (run (init t) pre).all, c < (spec ops).n := by
  have R := rel_run t ops
  refine ⟨by simp [Chan.step, create, R.next], ?_⟩
  rintro pre ⟨suf, rfl⟩ c hc
  have R' := rel_run t pre
  have h1 := R'.bound c hc
  rw [R'.next] at h1
  have mono : ∀ (ops : List Op) (p : Spec), p.n ≤ (ops.foldl Spec.step p).n := by
    intro ops
    induction ops with
    | nil => exact fun _ => Nat.le_refl _
    | cons op ops ih =>
      intro p
      refine Nat.le_trans ?_ (ih _)
      cases op <;> simp [Spec.step]
  have := mono suf (spec pre)
  unfold spec at *
  rw [List.foldl_append]
  omega

/-- the counts of life-cycle callbacks -/
def LifeOk (s : State) (p : Spec) : Prop := ∀ c,
    s.life.count (.postInit c) = (if c < p.n then 1 else 0) ∧
    s.life.count (.preFinish c) = (if c < p.n ∧ p.alive c = false then 1 else 0) ∧
    s.life.count (.finish c) = (if c < p.n ∧ p.alive c = false then 1 else 0)

theorem alive_lt {s : State} {p : Spec} (R : Rel s p) {c : Nat} (h : p.alive c = true) : c < p.n := by
  rw [← R.next]; exact R.bound c ((R.alive c).2 h)

theorem lifeOk_delete {s : State} {p : Spec} (R : Rel s p) (h : LifeOk s p) {c : Nat} (hc : p.alive c = true) :
    LifeOk (Chan.delete s c) (p.step (.delete c)) := by
  intro x
  obtain ⟨h1, h2, h3⟩ := h x
  have := alive_lt R hc
  simp only [Chan.delete, List.count_append, h1, h2, h3, Spec.step, BB.upd]
  by_cases e : x = c
  · subst e; simp [this, hc]
  · have e' : c ≠ x := fun h => e h.symm
    simp [e, e', List.count_cons]
    rfl

theorem lifeOk_finalize {s : State} {p : Spec} (R : Rel s p) (h : LifeOk s p) : ∀ fuel, s.all.length ≤ fuel →
    LifeOk (finalizeLoop fuel s) (p.step .finalize) := by
  have hnil : ∀ {s : State} {p : Spec}, Rel s p → LifeOk s p → s.all = [] → LifeOk s (p.step .finalize) := by
    intro s p R h e x
    have ha : p.alive x = false := by
      have := R.alive x
      rw [e] at this
      simpa using this
    obtain ⟨h1, h2, h3⟩ := h x
    refine ⟨h1, ?_, ?_⟩
    · rw [h2]; simp only [ha, Spec.step]
    · rw [h3]; simp only [ha, Spec.step]
  intro fuel
  induction fuel generalizing s p with
  | zero => intro hl; simp only [finalizeLoop]; exact hnil R h (by simpa using hl)
  | succ fuel ih =>
    intro hl
    unfold finalizeLoop
    cases e : s.all with
    | nil => exact hnil R h e
    | cons c cs =>
      simp only
      have hc : p.alive c = true := (R.alive c).1 (by rw [e]; simp)
      have hall : (Chan.delete s c).all = cs := by simp [Chan.delete, eraseFound_eq, e]
      have := ih (R.delete c) (lifeOk_delete R h hc) (by rw [hall]; rw [e] at hl; simpa using hl)
      have he : (p.step (.delete c)).step .finalize = p.step .finalize := by
        simp only [Spec.step]
        congr 1
        funext x
        simp only [BB.upd]
        by_cases hx : x = c
        · subst hx; simp [hc]
        · simp [hx]
      rwa [he] at this

theorem lifeOk_run : ∀ (ops : List Op) (s : State) (p : Spec), Rel s p → LifeOk s p → Proper p ops →
    LifeOk (ops.foldl Chan.step s) (ops.foldl Spec.step p) := by
  intro ops
  induction ops with
  | nil => exact fun _ _ _ h _ => h
  | cons op ops ih =>
    intro s p R h hp
    refine ih _ _ (R.step op) ?_ hp.2
    have hp1 := hp.1
    cases op with
    | create =>
      intro x
      obtain ⟨h1, h2, h3⟩ := h x
      simp only [Chan.step, create, List.count_append, h1, h2, h3, Spec.step, BB.upd, R.next]
      by_cases e : x = p.n
      · subst e; simp
      · have e' : p.n ≠ x := fun h => e h.symm
        have e2 : x < p.n + 1 ↔ x < p.n := by omega
        simp [e, e', e2, List.count_cons]
    | activate c => exact h
    | deactivate c => exact h
    | delete c => exact lifeOk_delete R h hp1
    | releaseThread =>
      intro x
      obtain ⟨h1, h2, h3⟩ := h x
      have z : ∀ y : Life, (∀ c, y ≠ .releaseThread c) → (s.all.map Life.releaseThread).count y = 0 := by
        intro y hy
        rw [List.count_eq_zero]
        intro hm
        obtain ⟨c, _, rfl⟩ := List.mem_map.1 hm
        exact hy c rfl
      simp only [Chan.step, Chan.releaseThread, List.count_append, h1, h2, h3, Spec.step]
      rw [z _ (by simp), z _ (by simp), z _ (by simp)]
      exact ⟨rfl, rfl, rfl⟩
    | finalize => exact lifeOk_finalize R h _ (Nat.le_refl _)
    | ann op => exact h

/-- C44: if calls are made for existing channels only, every channel gets its post-init callback exactly once, at its creation, and its
pre-finish and finish callbacks exactly once, when it is deleted or Caliper is finalized. -/
theorem C44_life_cycle (t : MTree.Tree) (ops : List Op) (h : Proper Spec.init ops) (c : Nat) :
    (run (init t) ops).life.count (.postInit c) = (if c < (spec ops).n then 1 else 0) ∧
    (run (init t) ops).life.count (.preFinish c) = (if c < (spec ops).n ∧ (spec ops).alive c = false then 1 else 0) ∧
    (run (init t) ops).life.count (.finish c) = (if c < (spec ops).n ∧ (spec ops).alive c = false then 1 else 0) := by
  exact lifeOk_run ops _ _ (rel_run t []) (fun c => ⟨rfl, rfl, rfl⟩) h c

/-- what `is_active` should say -/
def FlagOk (s : State) (p : Spec) : Prop := (∀ c, p.alive c = true → s.rt.isActive c = p.on c) ∧ (∀ c, p.n ≤ c → s.rt.isActive c = false ∧ p.on c = false)

theorem finalize_isActive (fuel : Nat) (s : State) : (finalizeLoop fuel s).rt.isActive = s.rt.isActive := by
  induction fuel generalizing s with
  | zero => rfl
  | succ n ih =>
    unfold finalizeLoop
    cases s.all with
    | nil => rfl
    | cons c cs => simp only; rw [ih]; rfl

theorem flagOk_run : ∀ (ops : List Op) (s : State) (p : Spec), Rel s p → FlagOk s p → Proper p ops →
    FlagOk (ops.foldl Chan.step s) (ops.foldl Spec.step p) := by
  intro ops
  induction ops with
  | nil => exact fun _ _ _ h _ => h
  | cons op ops ih =>
    intro s p R h hp
    refine ih _ _ (R.step op) ?_ hp.2
    have hp1 := hp.1
    obtain ⟨h1, h2⟩ := h
    cases op with
    | create =>
      refine ⟨fun c hc => ?_, fun c hc => h2 c (by simp only [Spec.step] at hc; omega)⟩
      simp only [Spec.step, BB.upd] at hc ⊢
      by_cases e : c = p.n
      · have := h2 c (by omega)
        show s.rt.isActive c = p.on c
        rw [this.1, this.2]
      · rw [if_neg e] at hc; exact h1 c hc
    | activate c =>
      have hlt := alive_lt R hp1
      refine ⟨fun x hx => ?_, fun x hx => ?_⟩
      · simp only [Chan.step, activate, Spec.step, BB.upd]
        by_cases e : x = c
        · simp [e]
        · simp only [if_neg e]; exact h1 x hx
      · simp only [Chan.step, activate, Spec.step, BB.upd] at hx ⊢
        simp only [if_neg (show ¬ x = c by omega)]
        exact h2 x hx
    | deactivate c =>
      refine ⟨fun x hx => ?_, fun x hx => ?_⟩
      · simp only [Chan.step, deactivate, Spec.step, BB.upd]
        by_cases e : x = c
        · simp [e]
        · simp only [if_neg e]; exact h1 x hx
      · simp only [Chan.step, deactivate, Spec.step, BB.upd] at hx ⊢
        by_cases e : x = c
        · simp [e]
        · simp only [if_neg e]; exact h2 x hx
    | delete c =>
      refine ⟨fun x hx => ?_, fun x hx => ?_⟩
      · simp only [Chan.step, Chan.delete, Spec.step, BB.upd] at hx ⊢
        by_cases e : x = c
        · simp [e] at hx
        · simp only [if_neg e] at hx ⊢; exact h1 x hx
      · simp only [Chan.step, Chan.delete, Spec.step, BB.upd] at hx ⊢
        refine ⟨(h2 x hx).1, ?_⟩
        by_cases e : x = c
        · simp [e]
        · simp only [if_neg e]; exact (h2 x hx).2
    | releaseThread => exact ⟨h1, h2⟩
    | finalize =>
      refine ⟨fun x hx => by simp [Spec.step] at hx, fun x hx => ?_⟩
      simp only [Chan.step, Chan.finalize, finalize_isActive, Spec.step] at hx ⊢
      refine ⟨(h2 x hx).1, ?_⟩
      rw [(h2 x hx).2]; rfl
    | ann op =>
      have := (step_active s.rt op).2
      refine ⟨fun x hx => ?_, fun x hx => ?_⟩
      · show (RT.step s.rt op).isActive x = _
        rw [this]; exact h1 x hx
      · show (RT.step s.rt op).isActive x = _ ∧ _
        rw [this]; exact h2 x hx

/-- C44: if calls are made for existing channels only, an existing channel's `is_active` says whether it is switched on. -/
theorem C44_is_active (t : MTree.Tree) (ops : List Op) (h : Proper Spec.init ops) (c : Nat) (hc : (spec ops).alive c = true) :
    (run (init t) ops).rt.isActive c = (spec ops).on c :=
  (flagOk_run ops (init t) Spec.init (rel_run t []) ⟨fun c hc => (by cases hc), fun c _ => ⟨rfl, rfl⟩⟩ h).1 c hc

/-- C44: after finalization no channel exists and, if calls were made for existing channels only, none is on. -/
theorem C44_finalize (t : MTree.Tree) (ops : List Op) (h : Proper Spec.init ops) :
    (Chan.step (run (init t) ops) .finalize).all = [] ∧ (Chan.step (run (init t) ops) .finalize).rt.active = [] ∧
    (Chan.step (run (init t) ops) .finalize).life =
      (run (init t) ops).life ++ ((List.range (spec ops).n).filter (spec ops).alive).flatMap fun c => [.preFinish c, .finish c] := by
  have R := rel_run t ops
  obtain ⟨R', hl⟩ := finalize_rel R _ (Nat.le_refl _)
  refine ⟨?_, ?_, ?_⟩
  · rw [List.eq_nil_iff_forall_not_mem]
    intro c hc
    have := (R'.alive c).1 hc
    simp [Spec.step] at this
  · rw [List.eq_nil_iff_forall_not_mem]
    intro c hc
    have := (R'.on c).1 hc
    simp only [Spec.step, Bool.and_eq_true, Bool.not_eq_true'] at this
    rw [on_alive h c this.1] at this
    simp at this
  · rw [← C44_all_channels t ops]; exact hl

/-- `releaseThread`, `finalize` on the example history: channels 0 and 1 remain and are finished in order -/
example : (Chan.step (run (init exTree) exHist) .finalize).life =
    [.postInit 0, .postInit 1, .postInit 2, .preFinish 2, .finish 2, .preFinish 0, .finish 0, .preFinish 1, .finish 1] := by decide

end Verif.Chan
