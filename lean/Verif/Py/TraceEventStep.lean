import Verif.Py.TraceEventLemmas
/-! One record: what the converter does with it, in the terms of the specification. -/
namespace Verif.TraceEv
open Verif Verif.Cali Verif.Py Verif.TraceEv.Spec

/-! ## stack frames -/

theorem Spells.mono {fs fs' : List Frame} (h : fs <+: fs') {id : Nat} {p : List Data} (hs : Spells fs id p) : Spells fs' id p := by
  obtain ⟨e, rfl⟩ := h
  have up : ∀ {id : Nat} {f : Frame}, fs[id]? = some f → (fs ++ e)[id]? = some f := by
    intro id f h
    rw [List.getElem?_append_left ((List.getElem?_eq_some_iff.1 h).1), h]
  induction hs with
  | root h => exact .root (up h)
  | child h _ ih => exact .child (up h) ih

theorem Shows.mono {fs fs' : List Frame} (h : fs <+: fs') {p : Option PVal} {sf : Option Nat} (hs : Shows fs p sf) : Shows fs' p sf := by
  rcases p with - | d | ds
  · exact hs
  · obtain ⟨id, e, hs⟩ := hs; exact ⟨id, e, Spells.mono h hs⟩
  · obtain ⟨id, e, hs⟩ := hs; exact ⟨id, e, Spells.mono h hs⟩

theorem frameChild_spec {fs fs' : List Frame} {cat : List Byte} {q : Option Nat} {n : Data} {id : Nat}
    (h : frameChild fs cat q n = (fs', id)) : fs <+: fs' ∧ fs'[id]? = some ⟨n, cat, q⟩ := by
  unfold frameChild at h
  split at h
  · rename_i i hi
    simp only [Prod.mk.injEq] at h
    obtain ⟨rfl, rfl⟩ := h
    obtain ⟨hl, h2, -⟩ := List.findIdx?_eq_some_iff_getElem.1 hi
    refine ⟨List.prefix_refl _, ?_⟩
    rw [List.getElem?_eq_getElem hl]
    exact congrArg some (of_decide_eq_true h2)
  · simp only [Prod.mk.injEq] at h
    obtain ⟨rfl, rfl⟩ := h
    exact ⟨List.prefix_append _ _, by simp⟩

theorem framePath_spec (ns : List Data) : ∀ {fs fs' : List Frame} {id id' : Nat} {p : List Data},
    Spells fs id p → framePath fs (str "callstack") id ns = (fs', id') → fs <+: fs' ∧ Spells fs' id' (p ++ ns) := by
  induction ns with
  | nil =>
    intro fs fs' id id' p hs h
    simp only [framePath, Prod.mk.injEq] at h
    obtain ⟨rfl, rfl⟩ := h
    exact ⟨List.prefix_refl _, by simpa using hs⟩
  | cons n ns ih =>
    intro fs fs' id id' p hs h
    unfold framePath at h
    rcases hc : frameChild fs (str "callstack") (some id) n with ⟨f1, i1⟩
    rw [hc] at h
    obtain ⟨h1, h2⟩ := frameChild_spec hc
    obtain ⟨h3, h4⟩ := ih (.child h2 (Spells.mono h1 hs)) h
    exact ⟨h1.trans h3, by simpa using h4⟩

theorem frameId_spec {fs fs' : List Frame} {v : PVal} {id : Nat} (h : frameId fs v (str "callstack") = some (fs', id)) :
    fs <+: fs' ∧ Shows fs' (some v) (some id) := by
  have key : ∀ n ns, (match frameChild fs (str "callstack") none n with
      | (fs, id) => some (framePath fs (str "callstack") id ns)) = some (fs', id) → fs <+: fs' ∧ Spells fs' id (n :: ns) := by
    intro n ns h
    rcases hc : frameChild fs (str "callstack") none n with ⟨f1, i1⟩
    rw [hc] at h
    obtain ⟨h1, h2⟩ := frameChild_spec hc
    obtain ⟨h3, h4⟩ := framePath_spec ns (.root h2) (Option.some.inj h)
    exact ⟨h1.trans h3, h4⟩
  rcases v with d | ds
  · obtain ⟨h1, h2⟩ := key d [] h
    exact ⟨h1, id, rfl, h2⟩
  · cases ds with
    | nil => cases h
    | cons n ns =>
      obtain ⟨h1, h2⟩ := key n ns h
      exact ⟨h1, id, rfl, h2⟩

theorem stackframe_spec {T : Type} {c c' : Conv T} {r : Dict} {sf : Option Nat} (h : c.stackframe r = some (c', sf)) :
    ∃ fs, c' = { c with frames := fs } ∧ c.frames <+: fs ∧ Shows fs (val r (str "source.function#callpath.address")) sf := by
  unfold Conv.stackframe at h
  rw [rget_val] at h
  cases hv : val r (str "source.function#callpath.address") with
  | none =>
    rw [hv] at h
    simp only [Option.some.injEq, Prod.mk.injEq] at h
    obtain ⟨rfl, rfl⟩ := h
    exact ⟨_, rfl, List.prefix_refl _, rfl⟩
  | some v =>
    rw [hv] at h
    simp only [Option.map_eq_some_iff, Prod.exists, Prod.mk.injEq] at h
    obtain ⟨fs, id, h1, rfl, rfl⟩ := h
    obtain ⟨h2, h3⟩ := frameId_spec h1
    exact ⟨fs, rfl, h2, h3⟩

/-! ## counters -/

theorem counterArgs_spec {T : Type} (O : TimeOps T) (r : Dict) (l : List (List Byte)) : ∀ {args : List (List Byte × T)},
    counterArgs O r l = some args → args = l.filterMap fun a => ((text r a).bind O.float).map fun x => (a, x) := by
  induction l with
  | nil => intro args h; cases h; rfl
  | cons a l ih =>
    intro args h
    unfold counterArgs at h
    have e := toFloat_text O r a
    rw [List.filterMap_cons, ← e]
    cases hv : rget r a with
    | none => rw [hv] at h; simpa using ih h
    | some v =>
      rw [hv] at h
      simp only [Option.bind_eq_some_iff, Option.map_eq_some_iff] at h
      obtain ⟨x, h1, y, h2, rfl⟩ := h
      simp only [Option.bind_some, h1, Option.map_some]
      rw [← ih h2]

theorem counters_spec {T : Type} (O : TimeOps T) (r : Dict) (loc : Int × Int) (gs : List (List Byte × List (List Byte))) {t : T}
    (ht : Spec.time O r = some t) : ∀ {cs : List (TEv T)}, counters O r loc gs = some cs →
    cs = ((gs.map fun g => (g.1, g.2.filterMap fun a => ((text r a).bind O.float).map fun x => (a, x))).filter
        (fun g => g.2 ≠ [])).map (fun g => TEv.counter loc.1 loc.2 g.1 t g.2) := by
  induction gs with
  | nil => intro cs h; cases h; rfl
  | cons g gs ih =>
    obtain ⟨n, as⟩ := g
    intro cs h
    unfold counters at h
    simp only [Option.bind_eq_some_iff] at h
    obtain ⟨args, h1, h⟩ := h
    have e := counterArgs_spec O r as h1
    rw [List.map_cons, List.filter_cons]
    simp only [← e]
    by_cases ha : args = []
    · rw [if_pos ha] at h
      simp only [ha, ne_eq, not_true, decide_false]
      rw [if_neg (by simp)]
      simpa using ih h
    · rw [if_neg ha, recTime_time, ht] at h
      simp only [Option.bind_some, Option.map_eq_some_iff] at h
      obtain ⟨cs', h2, rfl⟩ := h
      rw [if_pos (by simpa using ha), List.map_cons, ← ih h2]

theorem filter_counters {T : Type} (gs : List (List Byte × List (List Byte × T))) (p q : Int) (t : T) (f : TEv T → Bool) (b : Bool)
    (hf : ∀ p q n t a, f (.counter p q n t a) = b) :
    ((gs.map fun g => TEv.counter p q g.1 t g.2).filter f) = if b then gs.map (fun g => TEv.counter p q g.1 t g.2) else [] := by
  induction gs with
  | nil => cases b <;> rfl
  | cons g gs ih => rw [List.map_cons, List.filter_cons, hf, ih]; cases b <;> rfl

/-! ## one record -/

/-- the region event of an ordinary record -/
theorem mark_of {T : Type} {O : TimeOps T} {cfg : Cfg} {r : Dict} {t : T} {p q : Int} (ht : Spec.time O r = some t)
    (hp : place cfg.pids r = some p) (hq : place cfg.tids r = some q) (hk : otherKinds.any (has r) = false) :
    mark O cfg.pids cfg.tids r = (eventKey r).map fun e => ⟨p, q, e.1, e.2.1, e.2.2, t, val r (str "source.function#callpath.address")⟩ := by
  unfold mark
  rw [eventKey_spec, ht, hp, hq]
  cases r.findSome? (fun p => (eventName p.1).map fun e => (e, p.2)) with
  | none => rfl
  | some e => obtain ⟨⟨b, a⟩, v⟩ := e; simp only [hk]; rfl

theorem mark_other {T : Type} {O : TimeOps T} {cfg : Cfg} {r : Dict} {k : List Byte} (hk : k ∈ otherKinds) (h : has r k = true) :
    mark O cfg.pids cfg.tids r = none := by
  have : otherKinds.any (has r) = true := List.any_eq_true.2 ⟨k, hk, h⟩
  unfold mark
  split
  · rw [if_pos this]
  · rfl

/-- the effect of one record -/
structure Eff {T : Type} (O : TimeOps T) (cfg : Cfg) (r : Dict) (c c' : Conv T) : Prop where
  frames : c.frames <+: c'.frames
  records : ∃ new, c'.records = c.records ++ new ∧ new.filter isCounter = countersOf O cfg r ∧
    new.filter isActivity = (activityOf O cfg r).toList ∧
    (mark O cfg.pids cfg.tids r = none → ∀ loc, new.filter (isRegionAt loc) = []) ∧
    (∀ m, mark O cfg.pids cfg.tids r = some m → m.isBegin = true → ∀ loc, new.filter (isRegionAt loc) = []) ∧
    (∀ m, mark O cfg.pids cfg.tids r = some m → m.isBegin = false → ∃ t0 st sf,
      c.rstack (m.pid, m.tid) m.attr = some (t0 :: st) ∧
      (∀ l a, c'.rstack l a = if l = (m.pid, m.tid) ∧ a = m.attr then some st else c.rstack l a) ∧
      Shows c'.frames m.stack sf ∧
      ∀ loc : Int × Int, new.filter (isRegionAt loc) = if loc = (m.pid, m.tid) then
        [.complete m.pid (.num m.tid) m.name (.one (.text m.attr)) t0 (O.sub m.time t0) sf] else [])
  quiet : mark O cfg.pids cfg.tids r = none → ∀ l a, a ≠ str "gputrace" → c'.rstack l a = c.rstack l a
  begins : ∀ m, mark O cfg.pids cfg.tids r = some m → m.isBegin = true →
    ∀ l a, c'.rstack l a = if l = (m.pid, m.tid) ∧ a = m.attr then some (m.time :: (c.rstack (m.pid, m.tid) m.attr).getD []) else c.rstack l a
  samples : ∃ ns, c'.samples = c.samples ++ ns ∧
    ((isSample O r = true ∧ ∃ s, ns = [s] ∧ IsSample O cfg c'.frames r s) ∨ (isSample O r = false ∧ ns = []))
  sync : c'.tsync = match syncOf O cfg r with
    | some p => dset c.tsync p.1 p.2
    | none => c.tsync

theorem sync_other {T : Type} {O : TimeOps T} {cfg : Cfg} {r : Dict} {k : List Byte} {s : List (Int × T)} (hk : k ∈ otherKinds.take 6)
    (h : has r k = true) : s = match syncOf O cfg r with
    | some p => dset s p.1 p.2
    | none => s := by
  have : (otherKinds.take 6).any (has r) = true := List.any_eq_true.2 ⟨k, hk, h⟩
  have e : syncOf O cfg r = none := by
    unfold syncOf
    split
    · rw [this]; simp
    · rfl
  rw [e]

theorem sync_none {T : Type} {O : TimeOps T} {cfg : Cfg} {r : Dict} {s : List (Int × T)} (h : has r (str "ts.sync") = false) :
    s = match syncOf O cfg r with
    | some p => dset s p.1 p.2
    | none => s := by
  have e : syncOf O cfg r = none := by
    unfold syncOf
    split
    · rw [h]; simp
    · rfl
  rw [e]

/-- an effect without a region event: all it needs -/
theorem Eff.other {T : Type} {O : TimeOps T} {cfg : Cfg} {r : Dict} {c c' : Conv T}
    (hm : mark O cfg.pids cfg.tids r = none) (new : List (TEv T)) (hr : c'.records = c.records ++ new)
    (hc : new.filter isCounter = countersOf O cfg r) (ha : new.filter isActivity = (activityOf O cfg r).toList)
    (hn : ∀ loc, new.filter (isRegionAt loc) = []) (hf : c.frames <+: c'.frames)
    (hs : ∀ l a, a ≠ str "gputrace" → c'.rstack l a = c.rstack l a)
    (hp : ∃ ns, c'.samples = c.samples ++ ns ∧
      ((isSample O r = true ∧ ∃ s, ns = [s] ∧ IsSample O cfg c'.frames r s) ∨ (isSample O r = false ∧ ns = [])))
    (hy : c'.tsync = match syncOf O cfg r with
    | some p => dset c.tsync p.1 p.2
    | none => c.tsync) :
    Eff O cfg r c c' where
  frames := hf
  records := ⟨new, hr, hc, ha, fun _ => hn, (fun m h => by rw [hm] at h; cases h), (fun m h => by rw [hm] at h; cases h)⟩
  quiet := fun _ => hs
  begins := fun m h => by rw [hm] at h; cases h
  samples := hp
  sync := hy

theorem counterOf_eq {T : Type} {O : TimeOps T} {cfg : Cfg} {r : Dict} {t : T} {p q : Int} {cs : List (TEv T)} (ht : Spec.time O r = some t)
    (hp : place cfg.pids r = some p) (hq : place cfg.tids r = some q) (hcs : counters O r (p, q) cfg.counters = some cs) :
    countersOf O cfg r = cs ++ (if has r (str "cupti.activity.kind") || has r (str "rocm.activity") then [] else
          match text r (str "umpire.alloc.name"), (text r (str "umpire.alloc.current.size")).bind O.float with
          | some n, some x => [.counter p q (str "Alloc " ++ n) t [(str "size", x)]]
          | _, _ => []) := by
  unfold countersOf
  rw [ht, hp, hq, counters_spec O r (p, q) cfg.counters ht hcs]
  rfl

theorem counters_filters {T : Type} {O : TimeOps T} {cfg : Cfg} {r : Dict} {t : T} {p q : Int} {cs : List (TEv T)} (ht : Spec.time O r = some t)
    (hcs : counters O r (p, q) cfg.counters = some cs) :
    cs.filter isCounter = cs ∧ cs.filter isActivity = [] ∧ ∀ loc, cs.filter (isRegionAt loc) = [] := by
  rw [counters_spec O r (p, q) cfg.counters ht hcs]
  refine ⟨?_, ?_, fun loc => ?_⟩
  · rw [filter_counters _ _ _ _ _ true (fun _ _ _ _ _ => rfl)]; rfl
  · rw [filter_counters _ _ _ _ _ false (fun _ _ _ _ _ => rfl)]; rfl
  · rw [filter_counters _ _ _ _ _ false (fun _ _ _ _ _ => rfl)]; rfl

theorem text_none {r : Dict} {k : List Byte} (h : has r k = false) : text r k = none := by
  unfold text; rw [val_none h]

theorem activity_spec {T : Type} {O : TimeOps T} {c c' : Conv T} {r : Dict} {p : Int} {kind start dur kernel tid : List Byte}
    (h : activity O c r p kind start dur kernel tid = some c') : ∃ k t d, val r kind = some k ∧ micros O r start = some t ∧
      micros O r dur = some d ∧
      c' = c.emit (.complete p (.name tid) (match val r kernel with | some n => n | none => k) k t d none) := by
  unfold activity at h
  rw [toFloat_text, toFloat_text, rget_val] at h
  simp only [Option.bind_eq_some_iff, Option.map_eq_some_iff] at h
  obtain ⟨k, h1, t, ⟨_, h2, h2'⟩, d, ⟨_, h3, h3'⟩, rfl⟩ := h
  refine ⟨k, O.milli t, O.milli d, h1, ?_, ?_, ?_⟩
  · unfold micros; rw [h2]; simp [h2']
  · unfold micros; rw [h3]; simp [h3']
  · rw [rget_val]; cases val r kernel <;> rfl

theorem processRecord_eff {T : Type} {O : TimeOps T} {cfg : Cfg} {c c' : Conv T} {r : Dict} {t : T} (ht : Spec.time O r = some t)
    (h : processRecord O cfg c r = some c') : Eff O cfg r c c' := by
  unfold processRecord at h
  rw [firstInt_place, firstInt_place] at h
  simp only [Option.bind_eq_some_iff] at h
  obtain ⟨p, hp, q, hq, cs, hcs, h⟩ := h
  obtain ⟨f1, f2, f3⟩ := counters_filters ht hcs
  have hce := counterOf_eq ht hp hq hcs
  unfold branch at h
  simp only [rget_val, ← has_val, recTime_time] at h
  have hsamp : ∀ b, isSample O r = b ↔ (has r (str "source.function#cali.sampler.pc") && !has r (str "cupti.activity.kind") &&
    !has r (str "rocm.activity") && !has r (str "umpire.alloc.name")) = b := by
    intro b; unfold isSample; rw [ht]; rfl
  have htime : (Spec.time O r).isSome = true := by rw [ht]; rfl
  split at h
  · -- cupti
    rename_i k1
    obtain ⟨k, t1, d, e1, e2, e3, rfl⟩ := activity_spec h
    refine Eff.other (mark_other (by decide +kernel) k1) (cs ++ [_]) (List.append_assoc _ _ _) ?_ ?_ ?_ (List.prefix_refl _) (fun _ _ _ => rfl)
      ⟨[], by simp [Conv.emit], .inr ⟨(hsamp _).2 (by simp [k1]), rfl⟩⟩ (sync_other (by decide +kernel) k1)
    · rw [hce, List.filter_append, f1, k1]; rfl
    · rw [List.filter_append, f2]
      simp only [activityOf, ht, k1, if_true, hp, e1, e2, e3]
      cases val r (str "cupti.kernel.name") <;> simp [isActivity]
    · intro loc; rw [List.filter_append, f3]; rfl
  rename_i k1
  simp only [Bool.not_eq_true] at k1
  split at h
  · -- rocm
    rename_i k2
    obtain ⟨k, t1, d, e1, e2, e3, rfl⟩ := activity_spec h
    refine Eff.other (mark_other (by decide +kernel) k2) (cs ++ [_]) (List.append_assoc _ _ _) ?_ ?_ ?_ (List.prefix_refl _) (fun _ _ _ => rfl)
      ⟨[], by simp [Conv.emit], .inr ⟨(hsamp _).2 (by simp [k2]), rfl⟩⟩ (sync_other (by decide +kernel) k2)
    · rw [hce, List.filter_append, f1, k2, Bool.or_true, if_pos rfl]; rfl
    · rw [List.filter_append, f2]
      simp only [activityOf, ht, k1, k2, if_true, hp, e1, e2, e3]
      cases val r (str "rocm.kernel.name") <;> simp [isActivity]
    · intro loc; rw [List.filter_append, f3]; rfl
  rename_i k2
  simp only [Bool.not_eq_true] at k2
  have hact : activityOf O cfg r = none := by simp [activityOf, ht, k1, k2]
  rw [k1, k2, Bool.or_self, if_neg (by simp)] at hce
  split at h
  · -- umpire
    rename_i k3
    unfold umpire at h
    rw [toFloat_text, toFloat_text, recTime_time, ht, rget_val] at h
    simp only [Option.bind_eq_some_iff, Option.map_some, Option.some.injEq] at h
    obtain ⟨n, ⟨nv, hv, hn⟩, x, ⟨xt, hx, hx'⟩, y, ⟨yt, hy, hy'⟩, rfl⟩ := h
    have hname : ∃ s, text r (str "umpire.alloc.name") = some s ∧ n = str "Alloc " ++ s := by
      unfold text; rw [hv]
      rcases nv with (s | ⟨_, _⟩) | ds
      · exact ⟨s, rfl, (Option.some.inj hn).symm⟩
      · cases hn
      · cases hn
    obtain ⟨s, hs, rfl⟩ := hname
    rw [hs, hx] at hce
    simp only [Option.bind_some, hx'] at hce
    refine Eff.other (mark_other (by decide +kernel) k3) (cs ++ [_]) (List.append_assoc _ _ _) ?_ ?_ ?_ (List.prefix_refl _) (fun _ _ _ => rfl)
      ⟨[], by simp [Conv.emit], .inr ⟨(hsamp _).2 (by simp [k3]), rfl⟩⟩ (sync_other (by decide +kernel) k3)
    · rw [hce, List.filter_append, f1]; rfl
    · rw [List.filter_append, f2, hact]; rfl
    · intro loc; rw [List.filter_append, f3]; rfl
  rename_i k3
  simp only [Bool.not_eq_true] at k3
  rw [text_none k3] at hce
  simp only [List.append_nil] at hce
  split at h
  · -- sample
    rename_i k4
    unfold sample at h
    rw [recTime_time, ht] at h
    simp only [Option.bind_some, Option.map_eq_some_iff, Prod.exists] at h
    obtain ⟨c1, sf, h1, rfl⟩ := h
    obtain ⟨fs, rfl, h2, h3⟩ := stackframe_spec h1
    refine Eff.other (mark_other (by decide +kernel) k4) cs rfl (by rw [hce, f1]) (by rw [f2, hact]; rfl) f3 h2 (fun _ _ _ => rfl)
      ⟨[_], rfl, .inl ⟨(hsamp _).2 (by simp [k1, k2, k3, k4]), _, rfl, hp, hq, ht, by rw [rget_val], h3⟩⟩ (sync_other (by decide +kernel) k4)
  rename_i k4
  simp only [Bool.not_eq_true] at k4
  have hns : isSample O r = false := (hsamp _).2 (by simp [k4])
  split at h
  · -- gputrace begin
    rename_i k5
    unfold gpuBegin at h
    simp only [Option.bind_eq_some_iff, Option.map_eq_some_iff] at h
    obtain ⟨b, -, x, -, rfl⟩ := h
    refine Eff.other (mark_other (by decide +kernel) k5) cs rfl (by rw [hce, f1]) (by rw [f2, hact]; rfl) f3 (List.prefix_refl _) ?_
      ⟨[], by simp [Conv.push], .inr ⟨hns, rfl⟩⟩ (sync_other (by decide +kernel) k5)
    intro l a ha
    simp only [Conv.push]
    rw [if_neg (fun h => ha h.2)]
  rename_i k5
  split at h
  · -- gputrace end
    rename_i k6
    unfold gpuEnd at h
    simp only [Option.bind_eq_some_iff, Option.map_eq_some_iff, Prod.exists] at h
    obtain ⟨bv, -, b, -, t0, c1, hpop, x, -, rfl⟩ := h
    unfold Conv.pop at hpop
    split at hpop
    · simp only [Option.some.injEq, Prod.mk.injEq] at hpop
      obtain ⟨rfl, rfl⟩ := hpop
      refine Eff.other (mark_other (by decide +kernel) k6) (cs ++ [_]) (List.append_assoc _ _ _) ?_ ?_ ?_ (List.prefix_refl _) ?_
        ⟨[], by simp [Conv.emit], .inr ⟨hns, rfl⟩⟩ (sync_other (by decide +kernel) k6)
      · rw [hce, List.filter_append, f1]; exact List.append_nil _
      · rw [List.filter_append, f2, hact]
        have e : ∀ n, decide (str "block." ++ n = str "cuda" ∨ str "block." ++ n = str "rocm") = false := by
          intro n
          have e1 : str "block." = ch 'b' :: str "lock." := by decide +kernel
          have e2 : str "cuda" = ch 'c' :: str "uda" := by decide +kernel
          have e3 : str "rocm" = ch 'r' :: str "ocm" := by decide +kernel
          have n1 : ch 'b' ≠ ch 'c' := by decide +kernel
          have n2 : ch 'b' ≠ ch 'r' := by decide +kernel
          rw [e1, e2, e3, decide_eq_false_iff_not]
          rintro (h | h)
          · exact n1 (List.cons.inj h).1
          · exact n2 (List.cons.inj h).1
        simp only [List.filter_cons, isActivity, e]; rfl
      · intro loc; rw [List.filter_append, f3]; rfl
      · intro l a ha
        simp only [Conv.emit]
        rw [if_neg (fun h => ha h.2)]
    · cases hpop
  rename_i k6
  split at h
  · -- sync
    rename_i k7
    simp only [ht, Option.map_some, Option.some.injEq] at h
    subst h
    simp only [Bool.not_eq_true] at k5 k6
    exact Eff.other (mark_other (by decide +kernel) k7) cs rfl (by rw [hce, f1]) (by rw [f2, hact]; rfl) f3 (List.prefix_refl _)
      (fun _ _ _ => rfl) ⟨[], by simp, .inr ⟨hns, rfl⟩⟩ (by
        have e : syncOf O cfg r = some (p, t) := by
          unfold syncOf otherKinds
          rw [ht, hp, k7]
          simp only [List.take_succ_cons, List.take_zero, List.any_cons, List.any_nil, k1, k2, k3, k4, k5, k6, Bool.or_self]
          rfl
        rw [e])
  rename_i k7
  simp only [Bool.not_eq_true] at k5 k6 k7
  have hk : otherKinds.any (has r) = false := by
    unfold otherKinds
    simp only [List.any_cons, List.any_nil, k1, k2, k3, k4, k5, k6, k7, Bool.or_self]
  have hm := mark_of ht hp hq hk
  cases hek : eventKey r with
  | none =>
    rw [hek] at h hm
    cases h
    exact Eff.other hm cs rfl (by rw [hce, f1]) (by rw [f2, hact]; rfl) f3 (List.prefix_refl _)
      (fun _ _ _ => rfl) ⟨[], by simp, .inr ⟨hns, rfl⟩⟩ (sync_none k7)
  | some e =>
    obtain ⟨b, a, v⟩ := e
    rw [hek] at h hm
    simp only [Option.map_some] at hm
    cases b with
    | true =>
      simp only [event, recTime_time, ht, Option.map_some, Option.some.injEq] at h
      subst h
      refine ⟨List.prefix_refl _, ⟨cs, rfl, by rw [hce, f1], by rw [f2, hact]; rfl, fun _ => f3, fun _ _ _ => f3, ?_⟩, ?_, ?_,
        ⟨[], by simp [Conv.push], .inr ⟨hns, rfl⟩⟩, sync_none k7⟩
      · intro m h hb; rw [hm] at h; cases h; cases hb
      · intro h; rw [hm] at h; cases h
      · intro m h _; rw [hm] at h; cases h; intro l a; rfl
    | false =>
      simp only [event, recTime_time, ht, Option.bind_some, Option.bind_eq_some_iff, Option.map_eq_some_iff, Prod.exists] at h
      obtain ⟨t0, c1, hpop, c2, sf, hsf, rfl⟩ := h
      obtain ⟨fs, rfl, g1, g2⟩ := stackframe_spec hsf
      unfold Conv.pop at hpop
      split at hpop
      · rename_i x st hst
        simp only [Option.some.injEq, Prod.mk.injEq] at hpop
        obtain ⟨rfl, rfl⟩ := hpop
        refine ⟨g1, ⟨cs ++ [_], List.append_assoc _ _ _, by rw [hce, List.filter_append, f1]; exact List.append_nil _, by rw [List.filter_append, f2, hact]; rfl, ?_, ?_, ?_⟩, ?_, ?_,
          ⟨[], by simp [Conv.emit], .inr ⟨hns, rfl⟩⟩, sync_none k7⟩
        · intro h; rw [hm] at h; cases h
        · intro m h hb; rw [hm] at h; cases h; cases hb
        · intro m h _
          rw [hm] at h
          cases h
          refine ⟨_, st, sf, hst, fun l a => rfl, g2, ?_⟩
          intro loc
          rw [List.filter_append, f3, List.nil_append, List.filter_cons]
          obtain ⟨l1, l2⟩ := loc
          simp only [isRegionAt, Prod.mk.injEq]
          by_cases e : l1 = p ∧ l2 = q
          · obtain ⟨rfl, rfl⟩ := e; simp
          · have e' : ¬ (p = l1 ∧ q = l2) := by rintro ⟨rfl, rfl⟩; exact e ⟨rfl, rfl⟩
            simp [e, e']
        · intro h; rw [hm] at h; cases h
        · intro m h hb; rw [hm] at h; cases h; cases hb
      · cases hpop

end Verif.TraceEv
