import Verif.Capi.ChannelsSpec
import Verif.Props.Channel
/-!
# C108: the channel functions of the C interface
-/
namespace Verif.Capi.Chn
open Verif Verif.Cali

theorem getChannel_some {s : Chan.State} {c : Nat} (h : c ∈ s.all) : Chan.getChannel s c = some c := by
  unfold Chan.getChannel
  cases hf : s.all.find? (fun x => x == c) with
  | none => have := List.find?_eq_none.1 hf c h; simp at this
  | some d => have := List.find?_some hf; simp at this; rw [this]

theorem getChannel_none {s : Chan.State} {c : Nat} (h : c ∉ s.all) : Chan.getChannel s c = none := by
  unfold Chan.getChannel
  rw [List.find?_eq_none]
  intro x hx e
  simp at e; subst e; exact h hx

theorem fillSet_eq : ∀ (l : List (Option Str × Option Str)) (m : Config), ((pairs l).map Prod.fst).Nodup →
    (∀ k ∈ (pairs l).map Prod.fst, m k = none) → ∀ x, fillSet m l x = (lookup x (pairs l)).or (m x)
  | [], m, _, _, x => by simp [fillSet, pairs, lookup]
  | (none, v) :: l, m, _, _, x => by simp [fillSet, pairs, lookup]
  | (some k, none) :: l, m, _, _, x => by simp [fillSet, pairs, lookup]
  | (some k, some v) :: l, m, hn, hm, x => by
    simp only [pairs, List.map_cons, List.nodup_cons] at hn
    simp only [pairs, List.map_cons, List.mem_cons, forall_eq_or_imp] at hm
    have ih := fillSet_eq l (insert m k v) hn.2 (by
      intro k' hk'
      have : k' ≠ k := fun e => hn.1 (e ▸ hk')
      simp only [insert, this, false_and, if_false]; exact hm.2 k' hk') x
    simp only [fillSet, ih, pairs, lookup, insert, hm.1, and_true]
    by_cases e : x = k
    · subst e
      have : lookup x (pairs l) = none := by
        have h1 := hn.1
        clear ih hn hm
        generalize pairs l = ps at h1 ⊢
        induction ps with
        | nil => rfl
        | cons p ps ihp =>
          obtain ⟨a, b⟩ := p
          simp only [List.map_cons, List.mem_cons, not_or] at h1
          show (if a = x then some b else lookup x ps) = none
          rw [if_neg (fun e => h1.1 (by rw [e]))]
          exact ihp h1.2
      simp [this]
    · have e' : ¬ k = x := fun h => e h.symm
      simp [e, e']

/-- the relation between the program's state and the table -/
structure Rel (s : State) (w : World) : Prop where
  ok : s.crashed = false
  next : s.ch.next = w.n
  nodup : s.ch.all.Nodup
  mem : ∀ i, i ∈ s.ch.all ↔ w.chans i ≠ none
  lt : ∀ i, w.n ≤ i → w.chans i = none
  fresh : ∀ i, w.n ≤ i → s.ch.rt.isActive i = false
  cfg : ∀ i c, w.chans i = some c → s.cfg i = (c.cfg, c.env) ∧ s.buf i = c.buf ∧ s.ch.rt.isActive i = c.on
  sets : s.sets = w.sets
  nsets : s.nsets = w.nsets
  out : s.out = w.out
  dflt : w.dflt = none ∨ w.dflt = some 0

theorem Rel.get {s : State} {w : World} (R : Rel s w) (i : Nat) : Chan.getChannel s.ch i = (w.chans i).map fun _ => i := by
  cases h : w.chans i with
  | none => exact getChannel_none fun hm => (R.mem i).1 hm h
  | some c => exact getChannel_some ((R.mem i).2 (by simp [h]))

theorem bit (f : BitVec 32) (k : Nat) (hk : k < 32) : (f &&& BitVec.twoPow 32 k = 0#32) ↔ f.getLsbD k = false := by
  have := Chan.flag_bit f k hk
  cases h : f.getLsbD k <;> simp [h] at this ⊢ <;> exact this

theorem bit0 (f : BitVec 32) : (f &&& 1#32 = 0#32) ↔ f.getLsbD 0 = false := bit f 0 (by decide)
theorem bit1 (f : BitVec 32) : (f &&& 2#32 = 0#32) ↔ f.getLsbD 1 = false := bit f 1 (by decide)

theorem flushOne_rel {s : State} {w : World} (R : Rel s w) {i : Nat} {c : Channel} (hc : w.chans i = some c) (o : BitVec 32) :
    Rel (flushOne s i o) (w.flush i (o.getLsbD 0)) := by
  have hb := (R.cfg i c hc).2.1
  unfold flushOne World.flush
  simp only [hc, World.modify, hb]
  by_cases h : o.getLsbD 0 = false
  · rw [if_neg (by rw [not_not]; exact (bit0 o).2 h)]
    exact ⟨R.ok, R.next, R.nodup, fun j => by rw [R.mem]; by_cases e : j = i <;> simp [e, hc],
      fun j hj => by by_cases e : j = i <;> simp [e, R.lt j hj]; subst e; exact R.lt _ hj, R.fresh,
      fun j d hd => by
        by_cases e : j = i
        · subst e; simp only [if_true, hc, Option.map_some, h, Option.some.injEq] at hd; subst hd; simpa using R.cfg j c hc
        · simp only [e, if_false] at hd; exact R.cfg j d hd,
      R.sets, R.nsets, by simp [R.out], R.dflt⟩
  · rw [if_pos (show o &&& 1#32 ≠ 0 from fun e => h ((bit0 o).1 e))]
    have h' : o.getLsbD 0 = true := by simpa using h
    exact ⟨R.ok, R.next, R.nodup, fun j => by rw [R.mem]; by_cases e : j = i <;> simp [e, hc],
      fun j hj => by by_cases e : j = i <;> simp [e, R.lt j hj]; subst e; exact R.lt _ hj, R.fresh,
      fun j d hd => by
        by_cases e : j = i
        · subst e; simp only [if_true, hc, Option.map_some, h', Option.some.injEq] at hd; subst hd
          simp only [BB.upd, if_true]; exact ⟨(R.cfg j c hc).1, trivial, (R.cfg j c hc).2.2⟩
        · simp only [e, if_false] at hd; simp only [BB.upd, e, if_false]; exact R.cfg j d hd,
      R.sets, R.nsets, by simp [R.out], R.dflt⟩

theorem pushLoop_eq (r : Snap) : ∀ (l : List Nat) (s : State), l.Nodup → ∃ b : Nat → List Snap, pushLoop r l s = { s with buf := b } ∧
    ∀ i, b i = if i ∈ l ∧ s.ch.rt.isActive i = true then s.buf i ++ [r] else s.buf i
  | [], s, _ => ⟨s.buf, rfl, by simp⟩
  | c :: cs, s, hn => by
    simp only [List.nodup_cons] at hn
    simp only [pushLoop]
    by_cases ha : s.ch.rt.isActive c = true
    · obtain ⟨b, h1, h2⟩ := pushLoop_eq r cs (pushOne s c r) hn.2
      refine ⟨b, by rw [if_pos ha, h1]; rfl, fun i => ?_⟩
      rw [h2 i]
      simp only [pushOne, BB.upd]
      by_cases e : i = c
      · subst e; simp [hn.1, ha]
      · simp [e]
    · obtain ⟨b, h1, h2⟩ := pushLoop_eq r cs s hn.2
      refine ⟨b, by rw [if_neg ha, h1], fun i => ?_⟩
      rw [h2 i]
      by_cases e : i = c
      · subst e; simp [ha]
      · simp [e]

theorem trigger_eq {n : Int} (h : n ≤ 64) (l : Snap) : trigger n l = l.take n.toNat := by
  unfold trigger
  have : (min (max n 0) 64).toNat = n.toNat := by omega
  rw [this]

theorem step_rel {s : State} {w : World} (R : Rel s w) (c : Call) (hf : Fine w c) :
    Rel (step s c).1 (w.step c).1 ∧ (step s c).2 = (w.step c).2 := by
  unfold step
  rw [if_neg (by simp [R.ok])]
  cases c with
  | newSet l =>
    simp only [newSet, World.step, R.nsets]
    refine ⟨⟨R.ok, R.next, R.nodup, R.mem, R.lt, R.fresh, R.cfg, ?_, rfl, R.out, R.dflt⟩, by trivial⟩
    funext i
    simp only [BB.upd, R.sets]
    by_cases e : i = w.nsets
    · simp only [e, if_true, Option.some.injEq]
      funext x
      cases l with
      | none => simp [pairs, lookup]
      | some l =>
        have := fillSet_eq l (fun _ => none) (by simpa [Fine] using hf) (by simp) x
        simp [this]
    · simp [e]
  | setSet h k v =>
    simp only [setSet, World.step, R.sets]
    cases hs : w.sets h with
    | none => exact absurd hs hf
    | some m =>
      refine ⟨⟨R.ok, R.next, R.nodup, R.mem, R.lt, R.fresh, R.cfg, ?_, R.nsets, R.out, R.dflt⟩, rfl⟩
      funext i
      by_cases e : i = h
      · simp [BB.upd, e, hs]
      · simp [BB.upd, e]
  | delSet h =>
    simp only [delSet, World.step, R.sets]
    cases hs : w.sets h with
    | none => exact absurd hs hf
    | some m =>
      refine ⟨⟨R.ok, R.next, R.nodup, R.mem, R.lt, R.fresh, R.cfg, ?_, R.nsets, R.out, R.dflt⟩, rfl⟩
      funext i
      by_cases e : i = h
      · simp [BB.upd, e]
      · simp [BB.upd, e]
  | create f h =>
    simp only [create, World.step, R.sets]
    cases hs : w.sets h with
    | none => exact absurd hs hf
    | some m =>
      have hnew : w.n ∉ s.ch.all := fun hm => (R.mem _).1 hm (R.lt _ (Nat.le_refl _))
      have hfr := R.fresh w.n (Nat.le_refl _)
      refine ⟨⟨?_, ?_, ?_, ?_, ?_, ?_, ?_, ?_, ?_, ?_, R.dflt⟩, ?_⟩
      · dsimp only; split <;> exact R.ok
      · dsimp only; split <;> simp [Chan.create, Chan.activate, R.next]
      · dsimp only
        split <;> simp only [Chan.create, Chan.activate, R.next] <;>
          exact List.nodup_append.2 ⟨R.nodup, by simp, by intro a ha b hb e; simp at hb; subst hb; subst e; exact hnew ha⟩
      · intro i
        dsimp only
        have : (i ∈ s.ch.all ++ [w.n]) ↔ (if i = w.n then some (⟨m, f.getLsbD 1, !f.getLsbD 0, []⟩ : Channel) else w.chans i) ≠ none := by
          by_cases e : i = w.n
          · simp [e]
          · simp only [List.mem_append, List.mem_singleton, e, or_false, if_false]; exact R.mem i
        split <;> simp only [Chan.create, Chan.activate, R.next] <;> exact this
      · intro i hi
        dsimp only at hi ⊢
        rw [if_neg (by omega)]
        exact R.lt i (by omega)
      · intro i hi
        dsimp only at hi ⊢
        have h1 := R.fresh i (by omega)
        split <;> simp only [Chan.create, Chan.activate, R.next]
        · simp only [BB.upd]; rw [if_neg (by omega)]; exact h1
        · exact h1
      · intro i d hd
        dsimp only at hd ⊢
        by_cases e : i = w.n
        · subst e
          simp only [if_true, Option.some.injEq] at hd
          subst hd
          have hb1 : decide (f &&& 2#32 ≠ 0#32) = f.getLsbD 1 := by
            cases h1 : f.getLsbD 1
            · simp [(bit1 f).2 h1]
            · have : ¬ (f &&& 2#32 = 0#32) := fun e => by rw [(bit1 f).1 e] at h1; cases h1
              simp [this]
          split
          case isTrue hx =>
            have := (bit0 f).1 hx
            simp only [Chan.create, Chan.activate, R.next, BB.upd, if_true, this]
            exact ⟨by rw [← hb1]; rfl, trivial, rfl⟩
          case isFalse hx =>
            have : f.getLsbD 0 = true := by
              cases h0 : f.getLsbD 0
              · exact absurd ((bit0 f).2 h0) hx
              · rfl
            simp only [Chan.create, R.next, BB.upd, if_true, this, hfr]
            exact ⟨by rw [← hb1]; rfl, trivial, rfl⟩
        · simp only [e, if_false] at hd
          have := R.cfg i d hd
          split <;> simp only [Chan.create, Chan.activate, R.next, BB.upd, e, if_false] <;> exact this
      · dsimp only; split <;> rfl
      · dsimp only; split <;> exact R.nsets
      · dsimp only; split <;> exact R.out
      · simp [R.next]
  | delete id =>
    simp only [delete, World.step, R.get]
    cases hc : w.chans id with
    | none =>
      refine ⟨?_, rfl⟩
      have : (fun i => if i = id then none else w.chans i) = w.chans := by
        funext i; by_cases e : i = id <;> simp [e, hc]
      dsimp only [Option.map_none]
      rw [this]; exact R
    | some c =>
      refine ⟨⟨R.ok, R.next, ?_, ?_, ?_, R.fresh, ?_, R.sets, R.nsets, R.out, R.dflt⟩, rfl⟩
      · simp only [Option.map_some, Chan.delete, Chan.eraseFound_eq]; exact R.nodup.erase _
      · intro i
        simp only [Option.map_some, Chan.delete, Chan.eraseFound_eq, R.nodup.mem_erase_iff, R.mem]
        by_cases e : i = id <;> simp [e]
      · intro i hi; dsimp only; split
        · rfl
        · exact R.lt i hi
      · intro i d hd
        dsimp only at hd
        split at hd
        · cases hd
        · exact R.cfg i d hd
  | activate id =>
    simp only [activate, World.step, R.get]
    cases hc : w.chans id with
    | none =>
      refine ⟨?_, rfl⟩
      have : (w.modify id fun c => { c with on := true }) = w := by
        unfold World.modify
        have : (fun i => if i = id then (w.chans i).map (fun c => { c with on := true }) else w.chans i) = w.chans := by
          funext i; by_cases e : i = id <;> simp [e, hc]
        rw [this]
      dsimp only [Option.map_none]
      rw [this]; exact R
    | some c =>
      have hlt : id < w.n := by
        by_contra h; have := R.lt id (by omega); rw [hc] at this; cases this
      refine ⟨⟨R.ok, R.next, R.nodup, ?_, ?_, ?_, ?_, R.sets, R.nsets, R.out, R.dflt⟩, rfl⟩
      · intro i
        simp only [Option.map_some, Chan.activate, World.modify]
        rw [R.mem]; by_cases e : i = id <;> simp [e, hc]
      · intro i hi; simp only [World.modify] at hi ⊢; rw [R.lt i hi]; split <;> rfl
      · intro i hi; simp only [World.modify] at hi
        simp only [Option.map_some, Chan.activate, BB.upd]; rw [if_neg (by omega)]; exact R.fresh i hi
      · intro i d hd
        simp only [World.modify] at hd
        simp only [Option.map_some, Chan.activate, BB.upd]
        by_cases e : i = id
        · subst e
          simp only [if_true, hc, Option.map_some, Option.some.injEq] at hd
          subst hd
          simp only [if_true]
          exact ⟨(R.cfg i c hc).1, (R.cfg i c hc).2.1, trivial⟩
        · simp only [e, if_false] at hd ⊢; exact R.cfg i d hd
  | deactivate id =>
    simp only [deactivate, World.step, R.get]
    cases hc : w.chans id with
    | none =>
      refine ⟨?_, rfl⟩
      have : (w.modify id fun c => { c with on := false }) = w := by
        unfold World.modify
        have : (fun i => if i = id then (w.chans i).map (fun c => { c with on := false }) else w.chans i) = w.chans := by
          funext i; by_cases e : i = id <;> simp [e, hc]
        rw [this]
      dsimp only [Option.map_none]
      rw [this]; exact R
    | some c =>
      refine ⟨⟨R.ok, R.next, R.nodup, ?_, ?_, ?_, ?_, R.sets, R.nsets, R.out, R.dflt⟩, rfl⟩
      · intro i
        simp only [Option.map_some, Chan.deactivate, World.modify]
        rw [R.mem]; by_cases e : i = id <;> simp [e, hc]
      · intro i hi; simp only [World.modify] at hi ⊢; rw [R.lt i hi]; split <;> rfl
      · intro i hi; simp only [World.modify] at hi
        simp only [Option.map_some, Chan.deactivate, BB.upd]; split
        · rfl
        · exact R.fresh i hi
      · intro i d hd
        simp only [World.modify] at hd
        simp only [Option.map_some, Chan.deactivate, BB.upd]
        by_cases e : i = id
        · subst e
          simp only [if_true, hc, Option.map_some, Option.some.injEq] at hd
          subst hd
          simp only [if_true]
          exact ⟨(R.cfg i c hc).1, (R.cfg i c hc).2.1, trivial⟩
        · simp only [e, if_false] at hd ⊢; exact R.cfg i d hd
  | isActive id =>
    simp only [isActive, World.step, R.get]
    cases hc : w.chans id with
    | none => exact ⟨R, rfl⟩
    | some c => exact ⟨R, by simp [(R.cfg id c hc).2.2]⟩
  | flush o =>
    simp only [flush, World.step]
    rcases R.dflt with hd | hd
    · exact absurd hd hf
    · simp only [hd, R.get]
      cases hc : w.chans 0 with
      | none => exact ⟨by simpa [World.flush, hc] using R, rfl⟩
      | some c => exact ⟨flushOne_rel R hc o, rfl⟩
  | chFlush id o =>
    simp only [chFlush, World.step, R.get]
    cases hc : w.chans id with
    | none => exact absurd hc hf
    | some c => exact ⟨flushOne_rel R hc o, rfl⟩
  | push n l =>
    have hf : n ≤ 64 := hf
    simp only [push, World.step, trigger_eq hf]
    obtain ⟨b, h1, h2⟩ := pushLoop_eq (l.take n.toNat) s.ch.all s R.nodup
    rw [h1]
    refine ⟨⟨R.ok, R.next, R.nodup, ?_, ?_, R.fresh, ?_, R.sets, R.nsets, R.out, R.dflt⟩, by trivial⟩
    · intro i; dsimp only; rw [R.mem]; cases w.chans i <;> simp
    · intro i hi; dsimp only; rw [R.lt i hi]; rfl
    · intro i d hd
      dsimp only at hd ⊢
      cases hc : w.chans i with
      | none => rw [hc] at hd; cases hd
      | some c =>
        rw [hc] at hd
        have hm := (R.mem i).2 (by simp [hc])
        obtain ⟨r1, r2, r3⟩ := R.cfg i c hc
        rw [h2 i, r2, r3]
        simp only [Option.map_some, Option.some.injEq] at hd
        cases hon : c.on <;> simp only [hon] at hd <;> subst hd <;> simp [hm, r1, hon]
  | chPush id n l =>
    have hf : n ≤ 64 := hf
    simp only [chPush, World.step, trigger_eq hf, R.get]
    cases hc : w.chans id with
    | none =>
      refine ⟨?_, rfl⟩
      have : (w.modify id fun c => if c.on then { c with buf := c.buf ++ [l.take n.toNat] } else c) = w := by
        unfold World.modify
        have : (fun i => if i = id then (w.chans i).map (fun c => if c.on then { c with buf := c.buf ++ [l.take n.toNat] } else c) else w.chans i) = w.chans := by
          funext i; by_cases e : i = id <;> simp [e, hc]
        rw [this]
      dsimp only [Option.map_none]
      rw [this]; exact R
    | some c =>
      obtain ⟨r1, r2, r3⟩ := R.cfg id c hc
      refine ⟨⟨?_, ?_, ?_, ?_, ?_, ?_, ?_, ?_, ?_, ?_, R.dflt⟩, rfl⟩
      · dsimp only [Option.map_some]; split <;> exact R.ok
      · dsimp only [Option.map_some]; split <;> exact R.next
      · dsimp only [Option.map_some]; split <;> exact R.nodup
      · intro i
        have : i ∈ s.ch.all ↔ (w.modify id fun c => if c.on then { c with buf := c.buf ++ [l.take n.toNat] } else c).chans i ≠ none := by
          rw [R.mem]; simp only [World.modify]; by_cases e : i = id <;> simp [e, hc]
        dsimp only [Option.map_some]; split <;> exact this
      · intro i hi; simp only [World.modify] at hi ⊢; rw [R.lt i hi]; split <;> rfl
      · dsimp only [Option.map_some]; split <;> exact R.fresh
      · intro i d hd
        simp only [World.modify] at hd
        by_cases e : i = id
        · subst e
          simp only [if_true, hc, Option.map_some, Option.some.injEq] at hd
          subst hd
          dsimp only [Option.map_some]
          rw [r3]
          cases hon : c.on
          · simp [r1, r2, r3, hon]
          · simp [pushOne, BB.upd, r1, r2, r3, hon]
        · simp only [e, if_false] at hd
          have := R.cfg i d hd
          dsimp only [Option.map_some]
          split
          · simp only [pushOne, BB.upd, e, if_false]; exact this
          · exact this
      · dsimp only [Option.map_some]; split <;> exact R.sets
      · dsimp only [Option.map_some]; split <;> exact R.nsets
      · dsimp only [Option.map_some]; split <;> exact R.out
  | report id q o =>
    have hf : o.getLsbD 0 = false := hf
    simp only [report, World.step, R.get]
    cases hc : w.chans id with
    | none => exact ⟨R, rfl⟩
    | some c =>
      simp only [Option.map_some, hf, Bool.false_and, (R.cfg id c hc).2.1]
      exact ⟨R, by trivial⟩

theorem run_rel : ∀ (cs : List Call) {s : State} {w : World}, Rel s w → AllFine w cs →
    Rel (run s cs).1 (w.run cs).1 ∧ (run s cs).2 = (w.run cs).2
  | [], _, _, R, _ => ⟨R, rfl⟩
  | c :: cs, s, w, R, hf => by
    have h1 := step_rel R c hf.1
    have h2 := run_rel cs h1.1 hf.2
    exact ⟨h2.1, by simp only [run, World.run]; rw [h1.2, h2.2]⟩

theorem init_rel (t : MTree.Tree) (d : Option Config) : Rel (init t d) (World.init d) := by
  cases d with
  | none => exact ⟨rfl, rfl, List.nodup_nil, fun i => by simp [init, Chan.init, World.init], fun i _ => by simp [World.init], fun i _ => rfl,
      fun i c h => by simp [World.init] at h, rfl, rfl, rfl, Or.inl rfl⟩
  | some m =>
    refine ⟨rfl, rfl, ?_, ?_, ?_, ?_, ?_, rfl, rfl, rfl, Or.inr rfl⟩
    · simp [init, Chan.init, Chan.create, Chan.activate]
    · intro i; simp [init, Chan.init, Chan.create, Chan.activate, World.init]
    · intro i hi; simp [World.init] at hi ⊢; omega
    · intro i hi
      simp only [World.init, Option.isSome_some, if_true] at hi
      simp only [init, Chan.activate, Chan.create, Chan.init, BB.upd]
      rw [if_neg (by omega)]; rfl
    · intro i c h
      simp only [World.init, Option.map_some] at h
      split at h
      case isTrue e =>
        subst e
        simp only [Option.some.injEq] at h
        subst h
        simp [init, Chan.activate, Chan.create, Chan.init, BB.upd]
      case isFalse => cases h

/-- C108: any history of channel calls whose calls are fine gives the results and the output of the table of channels, and does not
crash. -/
theorem C108_calls_partial (t : MTree.Tree) (d : Option Config) (cs : List Call) (h : AllFine (World.init d) cs) :
    (run (init t d) cs).2 = ((World.init d).run cs).2 ∧ (run (init t d) cs).1.out = ((World.init d).run cs).1.out ∧
      (run (init t d) cs).1.crashed = false ∧
      ∀ i c, ((World.init d).run cs).1.chans i = some c → (run (init t d) cs).1.cfg i = (c.cfg, c.env) := by
  have := run_rel cs (init_rel t d) h
  exact ⟨this.2, this.1.out, this.1.ok, fun i c hc => (this.1.cfg i c hc).1⟩

/-- the identifiers a history of calls has created channels under, in order -/
def created : List Call → List Res → List Nat
  | .create _ _ :: cs, .num n :: rs => n :: created cs rs
  | _ :: cs, _ :: rs => created cs rs
  | _, _ => []

theorem step_n (w : World) (c : Call) : w.n ≤ (w.step c).1.n := by
  cases c <;> simp only [World.step, World.modify, World.flush] <;> (repeat' split) <;> simp

theorem created_sorted : ∀ (cs : List Call) (w : World), (created cs (w.run cs).2).Pairwise (· < ·) ∧ ∀ i ∈ created cs (w.run cs).2, w.n ≤ i
  | [], _ => by simp [created]
  | c :: cs, w => by
    have ih := created_sorted cs (w.step c).1
    have hn := step_n w c
    simp only [World.run]
    have hgen : created cs ((w.step c).1.run cs).2 = created (c :: cs) ((w.step c).2 :: ((w.step c).1.run cs).2) ∨
        ∃ f h, c = .create f h ∧ w.sets h ≠ none := by
      cases c with
      | create f h =>
        cases hs : w.sets h with
        | none => left; simp [created, World.step, hs]
        | some m => right; exact ⟨f, h, rfl, by simp [hs]⟩
      | _ => left; simp [created]
    rcases hgen with he | ⟨f, h, rfl, hs⟩
    · rw [← he]; exact ⟨ih.1, fun i hi => Nat.le_trans hn (ih.2 i hi)⟩
    · cases hs' : w.sets h with
      | none => exact absurd hs' hs
      | some m =>
        simp only [World.step, hs', created] at ih ⊢
        refine ⟨List.pairwise_cons.2 ⟨fun i hi => ?_, ih.1⟩, ?_⟩
        · have := ih.2 i hi; omega
        · intro i hi
          rcases List.mem_cons.1 hi with e | hi
          · omega
          · have := ih.2 i hi; omega

/-- C108: identifiers of channels are never given out twice: they grow. -/
theorem C108_ids_partial (t : MTree.Tree) (d : Option Config) (cs : List Call) (h : AllFine (World.init d) cs) :
    (created cs (run (init t d) cs).2).Pairwise (· < ·) := by
  rw [(C108_calls_partial t d cs h).1]; exact (created_sorted cs _).1

/-- C108: flushing a channel that was deleted (or never created) ends the process, in any state. -/
theorem C108_flush_deleted_violated (t : MTree.Tree) (d : Option Config) (cs : List Call) (h : AllFine (World.init d) cs) (id : Nat) (o : BitVec 32)
    (hid : ((World.init d).run cs).1.chans id = none) : (step (run (init t d) cs).1 (.chFlush id o)).1.crashed = true := by
  have R := (run_rel cs (init_rel t d) h).1
  simp [step, R.ok, chFlush, R.get, hid]

/-- C108: without a default channel `cali_flush` writes and empties the first channel the program made itself. -/
theorem C108_flush_default_violated (t : MTree.Tree) (r : Snap) :
    (run (init t none) [.newSet none, .create 0#32 0, .push 1 [r.headD (0, ⟨.inv, .inr 0⟩)], .flush 1#32]).1.out =
      [(0, [[r.headD (0, ⟨.inv, .inr 0⟩)]])] ∧
    ((World.init none).run [.newSet none, .create 0#32 0, .push 1 [r.headD (0, ⟨.inv, .inr 0⟩)], .flush 1#32]).1.out = [] := ⟨rfl, rfl⟩

/-- C108: `write_report_for_query` does not empty the buffers although asked to: the second report has the records of the first again. -/
theorem C108_report_clear_violated (t : MTree.Tree) (d : Option Config) (cs : List Call) (h : AllFine (World.init d) cs) (id : Nat) (c : Channel)
    (hid : ((World.init d).run cs).1.chans id = some c) :
    (run (run (init t d) cs).1 [.report id true 1#32, .report id true 1#32]).2 = [.recs c.buf, .recs c.buf] ∧
      (((World.init d).run cs).1.run [.report id true 1#32, .report id true 1#32]).2 = [.recs c.buf, .recs []] := by
  have R := (run_rel cs (init_rel t d) h).1
  generalize (run (init t d) cs).1 = s at R
  generalize ((World.init d).run cs).1 = w at R hid
  have hs : step s (.report id true 1#32) = (s, .recs c.buf) := by
    simp [step, R.ok, report, R.get, hid, (R.cfg id c hid).2.1]
  refine ⟨by simp [run, hs], ?_⟩
  simp [World.run, World.step, hid, World.modify]

/-- C108: of two values given for a key in the list of a config set the first counts. -/
theorem C108_duplicate_key (t : MTree.Tree) (k v v' : Str) (_hv : v ≠ v') :
    ((run (init t none) [.newSet (some [(some k, some v), (some k, some v'), (none, none)])]).1.sets 0).map (fun m => m k) = some (some v) := by
  simp [run, step, init, newSet, fillSet, insert, BB.upd]

/-- C108: only the first 64 entries given to a snapshot call are recorded. -/
theorem C108_entries_cut_violated (t : MTree.Tree) (d : Option Config) (cs : List Call) (h : AllFine (World.init d) cs) (id : Nat) (c : Channel)
    (hid : ((World.init d).run cs).1.chans id = some c) (hon : c.on = true) (l : Snap) (hl : 64 < l.length) :
    (step (run (init t d) cs).1 (.chPush id l.length l)).1.buf id = c.buf ++ [l.take 64] ∧ l.take 64 ≠ l := by
  have R := (run_rel cs (init_rel t d) h).1
  obtain ⟨_, r2, r3⟩ := R.cfg id c hid
  refine ⟨?_, fun e => ?_⟩
  · have : (min (max (l.length : Int) 0) 64).toNat = 64 := by omega
    simp [step, R.ok, chPush, R.get, hid, r3, hon, pushOne, BB.upd, r2, trigger]
    omega
  · have := congrArg List.length e
    simp at this; omega

/-- a program with a default channel: a second channel left inactive, snapshots before and after its activation, flushes -/
def demoCalls : List Call :=
  [.newSet (some [(some [97], some [98]), (some [99], some [100]), (none, none), (some [101], some [102])]), .setSet 0 [97] [103], .create 1#32 0,
   .delSet 0, .push 1 [(7, ⟨.int, .inr 1⟩)], .activate 1, .push 2 [(7, ⟨.int, .inr 2⟩)], .isActive 1, .chFlush 1 1#32, .deactivate 0,
   .push (-3) [(7, ⟨.int, .inr 3⟩)], .flush 0#32, .report 1 true 0#32, .delete 1, .isActive 1, .newSet none, .create 2#32 1]

theorem demo_fine : AllFine (World.init (some fun _ => none)) demoCalls := by
  simp [demoCalls, AllFine, Fine, World.step, World.init, World.modify, World.flush, pairs]

theorem C108_demo (t : MTree.Tree) :
    (run (init t (some fun _ => none)) demoCalls).2 = [.num 0, .unit, .num 1, .unit, .unit, .unit, .unit, .num 1, .unit, .unit, .unit, .unit,
      .recs [[]], .unit, .num 0, .num 1, .num 2] ∧
    (run (init t (some fun _ => none)) demoCalls).1.out = [(1, [[(7, ⟨.int, .inr 2⟩)]]), (0, [[(7, ⟨.int, .inr 1⟩)], [(7, ⟨.int, .inr 2⟩)]])] :=
  ⟨(C108_calls_partial t _ _ demo_fine).1.trans (by decide +kernel), (C108_calls_partial t _ _ demo_fine).2.1.trans (by decide +kernel)⟩

end Verif.Capi.Chn
