import Verif.Serv.PapiSpec
import Mathlib.Data.List.Forall2
import Mathlib.Algebra.BigOperators.Group.List.Basic
/-!
# C110: hardware counters
-/
namespace Verif.Serv.Papi
open Verif Verif.Cali

/-- counters of a group list -/
def flat (gs : List Group) : List (Nat × Nat × Attr) :=
  gs.flatMap fun g => (List.zip g.codes g.attrs).map fun x => (g.comp, x.1, x.2)

/-- the parallel vectors of every group have equal, positive lengths -/
def Par (gs : List Group) : Prop := ∀ g ∈ gs, g.codes.length = g.attrs.length ∧ 0 < g.codes.length

theorem addTo_flat (comp code : Nat) (a : Attr) (gs : List Group) (h : Par gs) :
    (flat (addTo comp code a gs)).Perm (flat gs ++ [(comp, code, a)]) ∧ Par (addTo comp code a gs) := by
  induction gs with
  | nil => simp [addTo, flat, Par]
  | cons g gs ih =>
    have hp : Par gs := fun x hx => h x (by simp [hx])
    have hg := h g (by simp)
    unfold addTo
    by_cases h1 : comp = g.comp
    · subst h1
      simp only [if_true]
      constructor
      · simp only [flat, List.flatMap_cons]
        rw [List.zip_append hg.1, List.map_append, List.append_assoc, List.append_assoc]
        exact List.Perm.append_left _ (List.perm_append_comm (l₁ := [(g.comp, code, a)]))
      · intro x hx
        rcases List.mem_cons.mp hx with rfl | hx
        · simp [hg.1]
        · exact hp x hx
    · rw [if_neg h1]
      by_cases h2 : comp < g.comp
      · rw [if_pos h2]
        refine ⟨?_, ?_⟩
        · have : flat (⟨comp, [code], [a]⟩ :: g :: gs) = [(comp, code, a)] ++ flat (g :: gs) := by simp [flat]
          rw [this]; exact List.perm_append_comm
        · intro x hx
          rcases List.mem_cons.mp hx with rfl | hx
          · simp
          · exact h x hx
      · rw [if_neg h2]
        refine ⟨?_, ?_⟩
        · have e1 : ∀ l, flat (g :: l) = (List.zip g.codes g.attrs).map (fun x => (g.comp, x.1, x.2)) ++ flat l := fun l => by simp [flat]
          rw [e1, e1, List.append_assoc]
          exact List.Perm.append_left _ (ih hp).1
        · intro x hx
          rcases List.mem_cons.mp hx with rfl | hx
          · exact hg
          · exact (ih hp).2 x hx

/-- names PAPI gets unchanged -/
def Short (names : List Str) : Prop := ∀ n ∈ names, n.length ≤ 1023 ∧ (0 : Byte) ∉ n

theorem namebuf_short {n : Str} (h : n.length ≤ 1023 ∧ (0 : Byte) ∉ n) : namebuf n = n := by
  unfold namebuf
  have : ∀ l : Str, (0 : Byte) ∉ l → l.takeWhile (fun x => decide (x ≠ 0)) = l := by
    intro l
    induction l with
    | nil => intro _; rfl
    | cons x xs ih =>
      intro hx
      have h1 : x ≠ 0 := fun e => hx (by simp [e])
      rw [List.takeWhile_cons_of_pos (by simpa using h1), ih (fun h => hx (List.mem_cons_of_mem _ h))]
  rw [this n h.2, List.take_of_length_le h.1]

theorem addEvent_counter (lib : Lib) (st : List Group × Nat) (n : Str) (h : n.length ≤ 1023 ∧ (0 : Byte) ∉ n) :
    addEvent lib st n =
      if 32 ≤ st.2 then st else match counter lib n with
        | none => st
        | some x => (addTo x.1 x.2.1 x.2.2 st.1, st.2 + 1) := by
  unfold addEvent maxCounters counter
  rw [namebuf_short h]
  by_cases h32 : 32 ≤ st.2
  · simp [h32]
  · simp only [h32, if_false]
    cases hl : lib n with
    | none => rfl
    | some i =>
      obtain ⟨code, dt, comp⟩ := i
      cases dt <;> rfl

theorem setup_inv (lib : Lib) (names : List Str) (hs : Short names) (st : List Group × Nat) (hp : Par st.1) :
    let r := names.foldl (addEvent lib) st
    Par r.1 ∧ r.2 ≤ st.2 + names.length ∧
    (r.2 = st.2 + names.length → (∀ n ∈ names, (counter lib n).isSome) ∧ (flat r.1).Perm (flat st.1 ++ names.filterMap (counter lib)) ∧
      (names ≠ [] → st.2 + names.length ≤ 32)) ∧
    ((∀ n ∈ names, (counter lib n).isSome) → st.2 + names.length ≤ 32 → r.2 = st.2 + names.length) := by
  induction names generalizing st with
  | nil => simp [hp]
  | cons n ns ih =>
    have hsn : Short ns := fun x hx => hs x (by simp [hx])
    simp only [List.foldl_cons]
    rw [addEvent_counter lib st n (hs n (by simp))]
    by_cases h32 : 32 ≤ st.2
    · rw [if_pos h32]
      obtain ⟨i1, i2, i3, i4⟩ := ih hsn st hp
      refine ⟨i1, by simp only [List.length_cons]; omega, ?_, ?_⟩
      · intro e; simp only [List.length_cons] at e; omega
      · intro _ e; simp only [List.length_cons] at e; omega
    · rw [if_neg h32]
      cases hc : counter lib n with
      | none =>
        obtain ⟨i1, i2, i3, i4⟩ := ih hsn st hp
        refine ⟨i1, by simp only [List.length_cons]; omega, ?_, ?_⟩
        · intro e; simp only [List.length_cons] at e; omega
        · intro e; have := e n (by simp); simp [hc] at this
      | some x =>
        have ha := addTo_flat x.1 x.2.1 x.2.2 st.1 hp
        obtain ⟨i1, i2, i3, i4⟩ := ih hsn (addTo x.1 x.2.1 x.2.2 st.1, st.2 + 1) ha.2
        refine ⟨i1, by simp only [List.length_cons] at *; omega, ?_, ?_⟩
        · intro e
          obtain ⟨j1, j2, j3⟩ := i3 (by simp only [List.length_cons] at *; omega)
          refine ⟨?_, ?_, ?_⟩
          · intro m hm
            rcases List.mem_cons.mp hm with rfl | hm
            · simp [hc]
            · exact j1 m hm
          · rw [List.filterMap_cons_some hc]
            refine j2.trans ?_
            refine (List.Perm.append_right _ ha.1).trans ?_
            rw [List.append_assoc]; rfl
          · intro _
            simp only [List.length_cons]
            by_cases hn : ns = []
            · subst hn; simp; omega
            · have := j3 hn; simp only at this; omega
        · intro e1 e2
          have := i4 (fun m hm => e1 m (by simp [hm])) (by simp only [List.length_cons] at *; omega)
          simp only [List.length_cons] at *; omega

/-- event sets of an attached thread -/
def sets (t : Nat) (past : List Ev) (gs : List Group) : List ESet :=
  gs.map fun g => ⟨g.codes, g.codes.map fun c => BitVec.ofNat 64 (since t g.comp c past), true, g⟩

theorem makeSets_complete (gs : List Group) {ans : Nat → AddAns} (h : Complete ans) :
    makeSets gs ans = some (gs.map fun g => ⟨g.codes, List.replicate g.codes.length 0#64, false, g⟩) := by
  induction gs with
  | nil => rfl
  | cons g gs ih =>
    unfold makeSets
    simp [(h g.comp).1, (h g.comp).2, ih]

theorem startSets_ok (gs : List Group) {ok : Nat → Bool} (h : ∀ c, ok c = true) :
    startSets (gs.map fun g => ⟨g.codes, List.replicate g.codes.length 0#64, false, g⟩) ok =
      (gs.map fun g => ⟨g.codes, List.replicate g.codes.length 0#64, true, g⟩, true) := by
  induction gs with
  | nil => rfl
  | cons g gs ih =>
    simp only [List.map_cons]
    unfold startSets
    simp [h, ih]

theorem sets_zero (t : Nat) (past : List Ev) (gs : List Group) (h : ∀ comp c, since t comp c past = 0) :
    sets t past gs = gs.map fun g => ⟨g.codes, List.replicate g.codes.length 0#64, true, g⟩ := by
  unfold sets
  apply List.map_congr_left
  intro g _
  congr 1
  rw [List.eq_replicate_iff]
  constructor
  · simp
  · intro b hb
    simp only [List.mem_map] at hb
    obtain ⟨c, _, rfl⟩ := hb
    rw [h]

/-- a registered service after `past`: attached threads have event sets that show the occurrences, other threads nothing -/
def Inv (main : Nat) (gs : List Group) (past : List Ev) (s : State) : Prop :=
  s.groups = gs ∧ s.crashed = false ∧ ∀ t, (Attached main t past → s.thr t = some (sets t past gs)) ∧
    (¬ Attached main t past → s.thr t = none)

/-- event sets just started -/
def fresh (gs : List Group) : List ESet := gs.map fun g => ⟨g.codes, List.replicate g.codes.length 0#64, true, g⟩

theorem setup_start (s : State) (t : Nat) {ans : Nat → AddAns} {ok : Nat → Bool} (h : Complete ans) (hk : ∀ c, ok c = true) :
    ∃ s', setupThread s t ans = (s', true) ∧
      startThread s' t ok = { s with thr := fun u => if u = t then some (fresh s.groups) else s.thr u } := by
  refine ⟨_, by unfold setupThread; rw [makeSets_complete _ h], ?_⟩
  unfold startThread
  simp only [if_true]
  rw [startSets_ok _ hk]
  simp only [if_true]
  congr 1
  funext u
  by_cases hu : u = t
  · simp [hu, fresh]
  · simp [hu]

theorem occur_sets (t : Nat) (past : List Ev) (gs : List Group) (u c n : Nat) (hu : u = t) :
    (sets t past gs).map (fun e => e.occur c n) = sets t (.occur u c n :: past) gs := by
  unfold sets
  rw [List.map_map]
  apply List.map_congr_left
  intro g _
  simp only [Function.comp, ESet.occur, if_true]
  congr 1
  rw [List.zipWith_map_right, List.zipWith_self]
  apply List.map_congr_left
  intro k _
  by_cases hk : k = c
  · subst hk; simp [since, hu, BitVec.ofNat_add]
  · have : ¬ c = k := fun e => hk e.symm
    simp [since, hu, hk, this]

theorem readAll_sets (t : Nat) (past : List Ev) (gs : List Group) (hp : Par gs) (ans : Nat → ReadAns) (er : Errs) :
    (readAll (sets t past gs) ans er).1 = sets t (.snap t ans :: past) gs ∧
    (readAll (sets t past gs) ans er).2.2 = (flat gs).filterMap fun x =>
      if (ans x.1).read then some (x.2.2, BitVec.ofNat 64 (since t x.1 x.2.1 past)) else none := by
  induction gs generalizing er with
  | nil => simp [sets, readAll, flat]
  | cons g gs ih =>
    have hg := hp g (by simp)
    have e1 : sets t past (g :: gs) = ⟨g.codes, g.codes.map fun c => BitVec.ofNat 64 (since t g.comp c past), true, g⟩ :: sets t past gs := rfl
    have e2 : sets t (.snap t ans :: past) (g :: gs) =
        ⟨g.codes, g.codes.map fun c => BitVec.ofNat 64 (since t g.comp c (.snap t ans :: past)), true, g⟩ ::
          sets t (.snap t ans :: past) gs := rfl
    have e3 : flat (g :: gs) = (List.zip g.codes g.attrs).map (fun x => (g.comp, x.1, x.2)) ++ flat gs := by simp [flat]
    rw [e1, e2, e3]
    have ih' := fun er => ih (fun x hx => hp x (by simp [hx])) er
    unfold readAll
    simp only [List.filterMap_append]
    refine ⟨?_, ?_⟩
    · rw [(ih' _).1]
      congr 1
      unfold readEvents
      by_cases hr : (ans g.comp).read
      · simp only [hr]
        have hc : ¬ (g.codes.length = 0 ∨ g.attrs.length < g.codes.length) := by omega
        simp only [Bool.true_eq_false, if_false, if_neg hc]
        by_cases hz : (ans g.comp).reset
        · simp only [hz, if_true, ESet.occurs]
          congr 1
          symm
          rw [List.eq_replicate_iff]
          refine ⟨by simp, ?_⟩
          intro b hb
          simp only [List.mem_map] at hb
          obtain ⟨c, _, rfl⟩ := hb
          simp [since, hr, hz]
        · have hz' : (ans g.comp).reset = false := by simpa using hz
          simp only [hz', Bool.false_eq_true, if_false, ESet.occurs, if_true]
          congr 1
          rw [List.zipWith_map_right, List.zipWith_self]
          apply List.map_congr_left
          intro k _
          simp [since, hr, hz', BitVec.ofNat_add]
      · have hr' : (ans g.comp).read = false := by simpa using hr
        simp only [hr', if_true]
        congr 1
        apply List.map_congr_left
        intro k _
        simp [since, hr']
    · rw [(ih' _).2]
      congr 1
      unfold readEvents
      by_cases hr : (ans g.comp).read
      · simp only [hr]
        have hc : ¬ (g.codes.length = 0 ∨ g.attrs.length < g.codes.length) := by omega
        simp only [Bool.true_eq_false, if_false, if_neg hc]
        rw [List.take_of_length_le (by omega), List.take_of_length_le (by simp)]
        rw [List.zip_map_right, List.filterMap_map]
        have : ∀ (cs : List Nat) (as : List Attr),
            List.map (Prod.map id fun c => BitVec.ofNat 64 (since t g.comp c past)) (as.zip cs) =
            List.filterMap ((fun x : Nat × Nat × Attr => if (ans x.1).read then
              some (x.2.2, BitVec.ofNat 64 (since t x.1 x.2.1 past)) else none) ∘ fun x : Nat × Attr => (g.comp, x.1, x.2)) (cs.zip as) := by
          intro cs
          induction cs with
          | nil => intro as; simp
          | cons c cs ihc =>
            intro as
            cases as with
            | nil => simp
            | cons a as => simp [hr, ihc as]
        exact this g.codes g.attrs
      · have hr' : (ans g.comp).read = false := by simpa using hr
        simp only [hr', if_true]
        symm
        rw [List.filterMap_eq_nil_iff]
        intro x hx
        simp only [List.mem_map] at hx
        obtain ⟨y, _, rfl⟩ := hx
        simp [hr']

theorem sets_congr (t : Nat) (p q : List Ev) (gs : List Group) (h : ∀ comp c, since t comp c p = since t comp c q) :
    sets t p gs = sets t q gs := by
  unfold sets
  simp only [h]

theorem step_inv {main : Nat} {gs : List Group} {past : List Ev} {s : State} (hp : Par gs) (hi : Inv main gs past s) (e : Ev)
    (he : Proper main past [e]) :
    Inv main gs (e :: past) (step s e).1 ∧
    (step s e).2 = match e with
      | .snap t ans => [(t, (flat gs).filterMap fun x =>
          if (ans x.1).read then some (x.2.2, BitVec.ofNat 64 (since t x.1 x.2.1 past)) else none)]
      | _ => [] := by
  obtain ⟨hg, hc, ht⟩ := hi
  unfold step
  rw [hc]
  simp only [Bool.false_eq_true, if_false]
  cases e with
  | created t ans ok =>
    simp only [Proper, and_true] at he
    obtain ⟨s', h1, h2⟩ := setup_start s t he.1 he.2
    simp only [h1, h2]
    refine ⟨⟨hg, hc, ?_⟩, trivial⟩
    intro u
    by_cases hu : u = t
    · subst hu
      simp only [if_true, hg]
      refine ⟨fun _ => ?_, fun h => absurd (Or.inl rfl) h⟩
      rw [sets_zero _ _ _ (fun comp c => by simp [since])]
      rfl
    · have hut : ¬ t = u := fun e => hu e.symm
      simp only [hu, if_false]
      refine ⟨fun h => ?_, fun h => (ht u).2 fun h' => h (Or.inr h')⟩
      rcases h with h | h
      · exact absurd h hut
      · rw [(ht u).1 h]
        exact congrArg some (sets_congr _ _ _ _ fun comp c => by simp [since, hut])
  | released t =>
    refine ⟨?_, rfl⟩
    show Inv main gs _ (finishThread s t)
    unfold finishThread
    by_cases ha : Attached main t past
    · rw [(ht t).1 ha]
      refine ⟨hg, hc, ?_⟩
      intro u
      by_cases hu : u = t
      · subst hu
        exact ⟨fun h => absurd rfl h.1, fun _ => by simp⟩
      · simp only [hu, if_false]
        refine ⟨fun h => ?_, fun h => (ht u).2 fun h' => h ⟨fun e => hu e.symm, h'⟩⟩
        rw [(ht u).1 h.2]
        exact congrArg some (sets_congr _ _ _ _ fun comp c => by simp [since])
    · rw [(ht t).2 ha]
      refine ⟨hg, hc, ?_⟩
      intro u
      refine ⟨fun h => ?_, fun h => ?_⟩
      · simp only
        rw [(ht u).1 h.2]
        exact congrArg some (sets_congr _ _ _ _ fun comp c => by simp [since])
      · by_cases hu : u = t
        · subst hu; exact (ht u).2 ha
        · exact (ht u).2 fun h' => h ⟨fun e => hu e.symm, h'⟩
  | snap t ans =>
    simp only [Proper, and_true] at he
    have hr := fun er => readAll_sets t past gs hp ans er
    have e0 : snapshot s t ans = ({ s with thr := fun u => if u = t then some (readAll (sets t past gs) ans s.errs).1 else s.thr u, errs := (readAll (sets t past gs) ans s.errs).2.1 }, (readAll (sets t past gs) ans s.errs).2.2) := by
      unfold snapshot
      rw [(ht t).1 he]
    simp only [e0, hc, Bool.false_eq_true, if_false]
    refine ⟨⟨hg, rfl, ?_⟩, by rw [(hr _).2]⟩
    intro u
    by_cases hu : u = t
    · subst hu
      simp only [if_true]
      exact ⟨fun _ => by rw [(hr _).1], fun h => absurd he h⟩
    · have hut : ¬ t = u := fun e => hu e.symm
      simp only [hu, if_false]
      refine ⟨fun h => ?_, fun h => (ht u).2 h⟩
      rw [(ht u).1 h]
      exact congrArg some (sets_congr _ _ _ _ fun comp c => by simp [since, hut])
  | occur t c n =>
    refine ⟨?_, rfl⟩
    show Inv main gs _ (occur s t c n)
    refine ⟨hg, hc, ?_⟩
    intro u
    unfold occur
    by_cases hu : u = t
    · subst hu
      simp only [if_true]
      refine ⟨fun h => ?_, fun h => ?_⟩
      · rw [(ht u).1 h, Option.map_some, occur_sets _ _ _ _ _ _ rfl]
      · rw [(ht u).2 h, Option.map_none]
    · have hut : ¬ t = u := fun e => hu e.symm
      simp only [hu, if_false]
      refine ⟨fun h => ?_, fun h => (ht u).2 h⟩
      rw [(ht u).1 h]
      exact congrArg some (sets_congr _ _ _ _ fun comp k => by simp [since, hut])

theorem run_inv {main : Nat} {gs : List Group} (lib : Lib) (names : List Str) (hp : Par gs)
    (hf : (flat gs).Perm (names.filterMap (counter lib))) (h : List Ev) :
    ∀ (past : List Ev) (s : State), Inv main gs past s → Proper main past h →
      (run s h).1.crashed = false ∧ Same (run s h).2 (expected lib names past h) := by
  induction h with
  | nil => intro past s hi _; exact ⟨hi.2.1, List.Forall₂.nil⟩
  | cons e es ih =>
    intro past s hi hh
    have hs := step_inv hp hi e ⟨hh.1, trivial⟩
    obtain ⟨r1, r2⟩ := ih (e :: past) (step s e).1 hs.1 hh.2
    refine ⟨r1, ?_⟩
    show Same ((step s e).2 ++ (run (step s e).1 es).2) _
    rw [hs.2]
    cases e with
    | snap t ans =>
      refine List.Forall₂.cons ⟨rfl, ?_⟩ r2
      exact hf.filterMap _
    | created t ans ok => exact r2
    | released t => exact r2
    | occur t c n => exact r2

theorem register_inv {lib : Lib} {names : List Str} {main : Nat} {ans : Nat → AddAns} {ok : Nat → Bool} {s : State}
    (hs : Short names) (ha : Complete ans) (hk : ∀ c, ok c = true) (h : register lib names main ans ok = some s) :
    ∃ gs, Par gs ∧ (flat gs).Perm (names.filterMap (counter lib)) ∧ Inv main gs [] s ∧ names ≠ [] ∧ names.length ≤ 32 ∧
      ∀ n ∈ names, (counter lib n).isSome := by
  unfold register at h
  by_cases hn : names.isEmpty
  · simp [hn] at h
  · have hne : names ≠ [] := by intro e; simp [e] at hn
    simp only [hn] at h
    have hf := setup_inv lib names hs ([], 0) (by intro g hg; simp at hg)
    unfold setupEventInfo at h
    simp only at h hf
    obtain ⟨f1, f2, f3, f4⟩ := hf
    by_cases he : (names.foldl (addEvent lib) ([], 0)).2 = names.length
    · have f3' := f3 (by omega)
      simp only [he, beq_self_eq_true, if_true] at h
      obtain ⟨s', h1, h2⟩ := setup_start ⟨(names.foldl (addEvent lib) ([], 0)).1, fun _ => none, {}, false⟩ main ha hk
      simp only [Bool.false_eq_true, if_false, h1, h2, Option.some.injEq] at h
      refine ⟨_, f1, by simpa [flat] using f3'.2.1, ?_, hne, by have := f3'.2.2 hne; omega, f3'.1⟩
      subst h
      refine ⟨rfl, rfl, ?_⟩
      intro t
      simp only [Attached]
      by_cases htm : t = main
      · simp only [htm, if_true]
        exact ⟨fun _ => by rw [sets_zero _ _ _ (fun comp c => rfl)]; rfl, fun h => absurd trivial h⟩
      · simp [htm]
    · simp [he] at h

/-- **C110** (registration): the service is active exactly if at least one and at most 32 counters are requested and all of them are known
and of a supported type. -/
theorem C110_registered (lib : Lib) (names : List Str) (main : Nat) (ans : Nat → AddAns) (ok : Nat → Bool) (hs : Short names)
    (ha : Complete ans) (hk : ∀ c, ok c = true) :
    (register lib names main ans ok).isSome = true ↔
      names ≠ [] ∧ names.length ≤ 32 ∧ ∀ n ∈ names, (counter lib n).isSome = true := by
  constructor
  · intro h
    obtain ⟨s, hs'⟩ := Option.isSome_iff_exists.mp h
    obtain ⟨gs, _, _, _, h1, h2, h3⟩ := register_inv hs ha hk hs'
    exact ⟨h1, h2, h3⟩
  · rintro ⟨h1, h2, h3⟩
    have hf := setup_inv lib names hs ([], 0) (by intro g hg; simp at hg)
    simp only at hf
    have he := hf.2.2.2 h3 (by omega)
    unfold register setupEventInfo
    obtain ⟨s', e1, e2⟩ := setup_start ⟨(names.foldl (addEvent lib) ([], 0)).1, fun _ => none, {}, false⟩ main ha hk
    have hn : names.isEmpty = false := by cases names <;> simp_all
    simp only [hn, he, Nat.zero_add, beq_self_eq_true, if_true, Bool.false_eq_true, if_false, e1, Option.isSome_some]

/-- **C110** (values): in every history after registration in which the library makes and starts the event sets of new threads and snapshots
are made by attached threads, there is no crash and every snapshot has exactly one entry for each requested counter that can be read, with the
number of occurrences on this thread since the counter was last set to zero, modulo 2^64. -/
theorem C110_values_partial (lib : Lib) (names : List Str) (main : Nat) (ans : Nat → AddAns) (ok : Nat → Bool) (s : State) (h : List Ev)
    (hs : Short names) (ha : Complete ans) (hk : ∀ c, ok c = true) (hr : register lib names main ans ok = some s)
    (hh : Proper main [] h) :
    (run s h).1.crashed = false ∧ Same (run s h).2 (expected lib names [] h) := by
  obtain ⟨gs, h1, h2, h3, _⟩ := register_inv hs ha hk hr
  exact run_inv lib names h1 h2 h [] s h3 hh

theorem perm_sum {x y : List (BitVec 64)} (h : x.Perm y) : x.sum = y.sum := by
  induction h with
  | nil => rfl
  | cons a _ ih => simp [ih]
  | swap a b l => simp only [List.sum_cons, ← BitVec.add_assoc]; rw [BitVec.add_comm b a]
  | trans _ _ h1 h2 => exact h1.trans h2

/-- sums over the same snapshots agree -/
theorem reported_same (t : Nat) (a : Attr) {x y : List (Nat × Rec)} (h : Same x y) : reported t a x = reported t a y := by
  unfold Same at h
  induction h with
  | nil => rfl
  | @cons p q l m hpq _ ih =>
    obtain ⟨u, r⟩ := p
    obtain ⟨v, w⟩ := q
    simp only at hpq
    unfold reported
    rw [ih, hpq.1]
    congr 1
    split
    · exact perm_sum (hpq.2.filterMap _)
    · rfl

theorem sum_none (l : List (Nat × Nat × Attr)) (a : Attr) (f : Nat × Nat × Attr → BitVec 64) (h : a ∉ l.map (·.2.2)) :
    (((l.map fun x => (x.2.2, f x)).filterMap fun x => if x.1 = a then some x.2 else none) : List (BitVec 64)).sum = 0 := by
  induction l with
  | nil => rfl
  | cons y l ih =>
    simp only [List.map_cons, List.mem_cons, not_or] at h
    have h1 : ¬ y.2.2 = a := fun e => h.1 e.symm
    rw [List.map_cons, List.filterMap_cons_none (by simp [h1]), ih h.2]

theorem sum_one (l : List (Nat × Nat × Attr)) (z : Nat × Nat × Attr) (f : Nat × Nat × Attr → BitVec 64) (h : z ∈ l)
    (hn : (l.map (·.2.2)).Nodup) :
    (((l.map fun x => (x.2.2, f x)).filterMap fun x => if x.1 = z.2.2 then some x.2 else none) : List (BitVec 64)).sum = f z := by
  induction l with
  | nil => simp at h
  | cons y l ih =>
    simp only [List.map_cons, List.nodup_cons] at hn
    rcases List.mem_cons.mp h with rfl | h
    · have e1 : (fun x : Attr × BitVec 64 => if x.1 = z.2.2 then some x.2 else none) (z.2.2, f z) = some (f z) := by simp
      rw [List.map_cons, List.filterMap_cons_some (f := fun x : Attr × BitVec 64 => if x.1 = z.2.2 then some x.2 else none) e1, List.sum_cons, sum_none l _ f hn.1]
      simp
    · have h1 : ¬ y.2.2 = z.2.2 := fun e => hn.1 (e ▸ List.mem_map_of_mem h)
      rw [List.map_cons, List.filterMap_cons_none (by simp [h1]), ih h hn.2]

theorem attr_name {lib : Lib} {n : Str} {x : Nat × Nat × Attr} (h : counter lib n = some x) : x.2.2.1 = str "papi." ++ n := by
  unfold counter at h
  split at h <;> first | (cases h; rfl) | cases h

theorem counters_nodup (lib : Lib) (names : List Str) (hn : names.Nodup) :
    ((names.filterMap (counter lib)).map (·.2.2)).Nodup := by
  induction names with
  | nil => simp
  | cons n ns ih =>
    rw [List.nodup_cons] at hn
    cases hc : counter lib n with
    | none => rw [List.filterMap_cons_none hc]; exact ih hn.2
    | some x =>
      rw [List.filterMap_cons_some hc, List.map_cons, List.nodup_cons]
      refine ⟨?_, ih hn.2⟩
      intro h
      simp only [List.mem_map, List.mem_filterMap] at h
      obtain ⟨y, ⟨m, hm, hy⟩, e⟩ := h
      have h1 := attr_name hc
      have h2 := attr_name hy
      rw [e, h1] at h2
      exact hn.1 ((List.append_cancel_left h2) ▸ hm)

theorem expected_sum (lib : Lib) (names : List Str) (hn : names.Nodup) (t : Nat) (z : Nat × Nat × Attr)
    (hz : z ∈ names.filterMap (counter lib)) (h : List Ev) :
    ∀ past, Undisturbed t h →
      reported t z.2.2 (expected lib names past h) + BitVec.ofNat 64 (since t z.1 z.2.1 (h.reverse ++ past)) =
        BitVec.ofNat 64 (since t z.1 z.2.1 past + occurrences t z.2.1 h) := by
  induction h with
  | nil => intro past _; simp [expected, reported, occurrences]
  | cons e es ih =>
    intro past hu
    have er : (e :: es).reverse ++ past = es.reverse ++ (e :: past) := by simp
    rw [er]
    cases e with
    | created u ans ok =>
      have hi := ih (.created u ans ok :: past) hu.2
      have hut := hu.1
      simp only [expected, occurrences]
      rw [hi]; simp [since, hut]
    | released u =>
      have hi := ih (.released u :: past) hu.2
      simp only [expected, occurrences]
      rw [hi]; simp [since]
    | occur u c n =>
      have hi := ih (.occur u c n :: past) hu
      simp only [expected, occurrences]
      rw [hi]; simp only [since]; congr 1; omega
    | snap u ans =>
      have hi := ih (.snap u ans :: past) hu.2
      have ha := hu.1
      simp only [expected, occurrences, reported]
      rw [BitVec.add_assoc, hi]
      have e0 : entries lib names t ans past = (names.filterMap (counter lib)).map fun x => (x.2.2, BitVec.ofNat 64 (since t x.1 x.2.1 past)) := by
        unfold entries
        rw [← List.filterMap_eq_map]
        congr 1; funext x
        simp [(ha x.1).1]
      by_cases hut : u = t
      · subst hut
        rw [e0]
        simp only [if_true]
        rw [sum_one _ z (fun x => BitVec.ofNat 64 (since u x.1 x.2.1 past)) hz (counters_nodup lib names hn)]
        have : since u z.1 z.2.1 (.snap u ans :: past) = 0 := by simp [since, (ha z.1).1, (ha z.1).2.1]
        rw [this, ← BitVec.ofNat_add]
        simp
      · have : since t z.1 z.2.1 (.snap u ans :: past) = since t z.1 z.2.1 past := by simp [since, hut]
        rw [this]; simp [hut]

/-- **C110** (nothing lost, nothing twice): if library calls in snapshots do not fail and nothing is counted within a snapshot, then for every
requested counter of the thread that made the channel, the values of all its snapshots and what is still in the counter add up to the number
of occurrences, modulo 2^64. -/
theorem C110_total_partial (lib : Lib) (names : List Str) (main : Nat) (ans : Nat → AddAns) (ok : Nat → Bool) (s : State) (h : List Ev)
    (hs : Short names) (hn : names.Nodup) (ha : Complete ans) (hk : ∀ c, ok c = true) (hr : register lib names main ans ok = some s)
    (hh : Proper main [] h) (hu : Undisturbed main h) (name : Str) (hm : name ∈ names) (comp code : Nat) (a : Attr)
    (hc : counter lib name = some (comp, code, a)) :
    reported main a (run s h).2 + BitVec.ofNat 64 (since main comp code h.reverse) = BitVec.ofNat 64 (occurrences main code h) := by
  rw [reported_same main a (C110_values_partial lib names main ans ok s h hs ha hk hr hh).2]
  have := expected_sum lib names hn main (comp, code, a) (List.mem_filterMap.mpr ⟨name, hm, hc⟩) h [] hu
  simpa [since] using this

theorem expected_append (lib : Lib) (names : List Str) (a b : List Ev) : ∀ past,
    expected lib names past (a ++ b) = expected lib names past a ++ expected lib names (a.reverse ++ past) b := by
  induction a with
  | nil => intro past; rfl
  | cons e es ih =>
    intro past
    have er : (e :: es).reverse ++ past = es.reverse ++ (e :: past) := by simp
    rw [er]
    cases e <;> simp [expected, ih]

theorem reported_append (t : Nat) (a : Attr) (x y : List (Nat × Rec)) : reported t a (x ++ y) = reported t a x + reported t a y := by
  induction x with
  | nil => simp [reported]
  | cons p x ih => obtain ⟨u, r⟩ := p; simp [reported, ih, BitVec.add_assoc]

/-- **C110** (other threads): the same for a thread that starts later: the snapshots from its start on and what is still in the counter add
up to its occurrences from the start on. The snapshots before are those of the history up to the start. -/
theorem C110_thread_total_partial (lib : Lib) (names : List Str) (main : Nat) (ans : Nat → AddAns) (ok : Nat → Bool) (s : State)
    (pre h : List Ev) (t : Nat) (ans' : Nat → AddAns) (ok' : Nat → Bool)
    (hs : Short names) (hn : names.Nodup) (ha : Complete ans) (hk : ∀ c, ok c = true) (hr : register lib names main ans ok = some s)
    (hh : Proper main [] (pre ++ .created t ans' ok' :: h)) (hu : Undisturbed t h) (name : Str) (hm : name ∈ names) (comp code : Nat)
    (a : Attr) (hc : counter lib name = some (comp, code, a)) :
    reported t a (run s (pre ++ .created t ans' ok' :: h)).2 +
        BitVec.ofNat 64 (since t comp code (pre ++ .created t ans' ok' :: h).reverse) =
      reported t a (expected lib names [] pre) + BitVec.ofNat 64 (occurrences t code h) := by
  rw [reported_same t a (C110_values_partial lib names main ans ok s _ hs ha hk hr hh).2, expected_append, reported_append]
  have := expected_sum lib names hn t (comp, code, a) (List.mem_filterMap.mpr ⟨name, hm, hc⟩) h (.created t ans' ok' :: pre.reverse) hu
  have e1 : since t comp code (.created t ans' ok' :: pre.reverse) = 0 := by simp [since]
  simp only [e1, Nat.zero_add] at this
  have e2 : (pre ++ .created t ans' ok' :: h).reverse = h.reverse ++ .created t ans' ok' :: pre.reverse := by simp
  rw [e2, BitVec.add_assoc, ← this]
  simp [expected]

/-- answers without failures and without events in between -/
def quiet : Nat → ReadAns := fun _ => ⟨true, fun _ => 0, true⟩

/-- **C110 violated** (threads that exist already): a snapshot of a thread that used Caliper before the channel was made dereferences a null
pointer, whatever the counters. -/
theorem C110_existing_thread_violated (lib : Lib) (names : List Str) (main t : Nat) (ans : Nat → AddAns) (ok : Nat → Bool) (s : State)
    (hs : Short names) (ha : Complete ans) (hk : ∀ c, ok c = true) (hr : register lib names main ans ok = some s) (ht : t ≠ main)
    (a : Nat → ReadAns) : (run s [.snap t a]).1.crashed = true := by
  obtain ⟨gs, _, _, hi, _⟩ := register_inv hs ha hk hr
  have h0 := (hi.2.2 t).2 ht
  simp [run, step, hi.2.1, snapshot, h0]

/-- **C110 violated** (event sets that cannot be made): the same for a new thread whose event sets the library refuses. -/
theorem C110_refused_thread_violated (lib : Lib) (names : List Str) (main t : Nat) (ans : Nat → AddAns) (ok : Nat → Bool) (s : State)
    (hs : Short names) (ha : Complete ans) (hk : ∀ c, ok c = true) (hr : register lib names main ans ok = some s) (ht : t ≠ main)
    (ans' : Nat → AddAns) (hf : ∀ c, (ans' c).create = false) (ok' : Nat → Bool) (a : Nat → ReadAns) :
    (run s [.created t ans' ok', .snap t a]).1.crashed = true := by
  obtain ⟨gs, hp, hfl, hi, hne, _, hk3⟩ := register_inv hs ha hk hr
  have h0 := (hi.2.2 t).2 ht
  have h1 : makeSets s.groups ans' = none := by
    rw [hi.1]
    cases hgs : gs with
    | nil =>
      subst hgs
      obtain ⟨n, hn⟩ := List.exists_mem_of_ne_nil names hne
      obtain ⟨x, hx⟩ := Option.isSome_iff_exists.mp (hk3 n hn)
      have : x ∈ flat [] := hfl.mem_iff.mpr (List.mem_filterMap.mpr ⟨n, hn, hx⟩)
      simp [flat] at this
    | cons g l => simp [makeSets, hf]
  simp [run, step, hi.2.1, setupThread, h1, snapshot, h0]

/-- **C110 violated** (not atomic): what occurs between reading and resetting a counter is in no snapshot: the next one is zero. -/
theorem C110_gap_violated (lib : Lib) (names : List Str) (main : Nat) (ans : Nat → AddAns) (ok : Nat → Bool) (s : State)
    (hs : Short names) (ha : Complete ans) (hk : ∀ c, ok c = true) (hr : register lib names main ans ok = some s) (f : Nat → Nat) :
    Same (run s [.snap main (fun _ => ⟨true, f, true⟩), .snap main quiet]).2
      [(main, (names.filterMap (counter lib)).map fun x => (x.2.2, 0#64)), (main, (names.filterMap (counter lib)).map fun x => (x.2.2, 0#64))] := by
  have := (C110_values_partial lib names main ans ok s [.snap main (fun _ => ⟨true, f, true⟩), .snap main quiet] hs ha hk hr
    ⟨rfl, rfl, trivial⟩).2
  simpa [expected, entries, since, quiet, List.filterMap_eq_map', Function.comp_def] using this

/-- **C110 violated** (failing reset): occurrences are reported again in the next snapshot. -/
theorem C110_reset_violated (lib : Lib) (names : List Str) (main : Nat) (ans : Nat → AddAns) (ok : Nat → Bool) (s : State)
    (hs : Short names) (ha : Complete ans) (hk : ∀ c, ok c = true) (hr : register lib names main ans ok = some s) (code n : Nat) :
    Same (run s [.occur main code n, .snap main (fun _ => ⟨true, fun _ => 0, false⟩), .snap main quiet]).2
      [(main, (names.filterMap (counter lib)).map fun x => (x.2.2, if code = x.2.1 then BitVec.ofNat 64 n else 0#64)),
       (main, (names.filterMap (counter lib)).map fun x => (x.2.2, if code = x.2.1 then BitVec.ofNat 64 n else 0#64))] := by
  have := (C110_values_partial lib names main ans ok s [.occur main code n, .snap main (fun _ => ⟨true, fun _ => 0, false⟩), .snap main quiet] hs ha hk hr
    ⟨trivial, rfl, rfl, trivial⟩).2
  have hi : ∀ x : Nat, BitVec.ofNat 64 (if code = x then n else 0) = if code = x then BitVec.ofNat 64 n else 0#64 := by
    intro x; split <;> rfl
  simpa [expected, entries, since, quiet, List.filterMap_eq_map', Function.comp_def, hi] using this

/-! ### A concrete case -/

instance : DecidableEq (Nat × Rec) := instDecidableEqProd

/-- two events of component 0 and one of component 1 -/
def exLib : Lib := fun n =>
  if n = str "CYC" then some ⟨7, .int64, 1⟩ else if n = str "INS" then some ⟨8, .uint64, 0⟩ else if n = str "FLOP" then some ⟨9, .fp64, 0⟩ else none

/-- a library that does everything -/
def exAns : Nat → AddAns := fun _ => ⟨true, 0⟩

/-- a history of two threads -/
def exHist : List Ev :=
  [.occur 0 7 5, .created 1 exAns (fun _ => true), .occur 1 8 3, .snap 0 quiet, .occur 0 9 2, .snap 1 quiet, .occur 1 8 4, .snap 1 quiet, .released 1, .snap 0 quiet]

/-- the hypotheses hold for it -/
theorem C110_example_hyps : Short [str "CYC", str "INS", str "FLOP"] ∧ [str "CYC", str "INS", str "FLOP"].Nodup ∧ Complete exAns ∧
    Proper 0 [] exHist ∧ Undisturbed 0 exHist ∧ counter exLib (str "CYC") = some (1, 7, (str "papi.CYC", .uint)) := by
  refine ⟨by unfold Short; decide +kernel, by decide +kernel, fun _ => ⟨rfl, rfl⟩, ?_, ?_, by decide +kernel⟩
  · simp [exHist, Proper, Complete, Attached, exAns]
  · simp [exHist, Undisturbed, quiet]

/-- and its snapshots are these -/
theorem C110_example : ((register exLib [str "CYC", str "INS", str "FLOP"] 0 exAns (fun _ => true)).map fun s => (run s exHist).2) = some
    [(0, [((str "papi.INS", .uint), 0#64), ((str "papi.FLOP", .double), 0#64), ((str "papi.CYC", .uint), 5#64)]),
     (1, [((str "papi.INS", .uint), 3#64), ((str "papi.FLOP", .double), 0#64), ((str "papi.CYC", .uint), 0#64)]),
     (1, [((str "papi.INS", .uint), 4#64), ((str "papi.FLOP", .double), 0#64), ((str "papi.CYC", .uint), 0#64)]),
     (0, [((str "papi.INS", .uint), 0#64), ((str "papi.FLOP", .double), 2#64), ((str "papi.CYC", .uint), 0#64)])] := by
  decide +kernel

/-- **C110 violated** (one unknown counter): the service is dropped with all counters, although the others are known and the message says that
only the unknown one is. -/
theorem C110_unknown_violated : register exLib [str "CYC", str "NOPE"] 0 exAns (fun _ => true) = none ∧
    (register exLib [str "CYC"] 0 exAns (fun _ => true)).isSome = true := by
  decide +kernel

/-- **C110 violated** (too many counters): with 33 known counters all are dropped, although the message says that only the last is skipped;
with 32 the service is active. -/
theorem C110_many_violated :
    register (fun _ => some ⟨1, .int64, 0⟩) ((List.range 33).map fun i => [BitVec.ofNat 8 (i + 65)]) 0 exAns (fun _ => true) = none ∧
    (register (fun _ => some ⟨1, .int64, 0⟩) ((List.range 32).map fun i => [BitVec.ofNat 8 (i + 65)]) 0 exAns (fun _ => true)).isSome = true := by
  decide +kernel

end Verif.Serv.Papi
