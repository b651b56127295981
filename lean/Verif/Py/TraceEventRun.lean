import Verif.Py.TraceEventStep
/-! Whole files: invariants over the processed records. -/
namespace Verif.TraceEv
open Verif Verif.Cali Verif.Py Verif.TraceEv.Spec

/-! ## open regions -/

/-- the begins of an attribute that are not closed yet, innermost first -/
inductive Open {T : Type} (attr : List Byte) : List (Mark T) → List T → Prop
  | nil {h : List (Mark T)} : Balanced attr h → Open attr h []
  | push {h mid : List (Mark T)} {b : Mark T} {st : List T} : Open attr h st → b.isBegin = true → b.attr = attr → Balanced attr mid →
      Open attr (h ++ b :: mid) (b.time :: st)

theorem Open.append {T : Type} {attr : List Byte} {h l : List (Mark T)} {st : List T} (ho : Open attr h st) (hl : Balanced attr l) :
    Open attr (h ++ l) st := by
  cases ho with
  | nil hb => exact .nil (.append hb hl)
  | push ho hb ha hm =>
    rw [List.append_assoc, List.cons_append]
    exact .push ho hb ha (.append hm hl)

/-- number of begins minus number of ends -/
def depth {T : Type} (attr : List Byte) (l : List (Mark T)) : Int :=
  (l.map fun m => if m.attr = attr then (if m.isBegin then 1 else -1) else 0).sum

theorem depth_append {T : Type} (attr : List Byte) (k l : List (Mark T)) : depth attr (k ++ l) = depth attr k + depth attr l := by
  simp [depth]

theorem depth_cons {T : Type} (attr : List Byte) (m : Mark T) (l : List (Mark T)) :
    depth attr (m :: l) = (if m.attr = attr then (if m.isBegin then 1 else -1) else 0) + depth attr l := by
  simp [depth]

theorem Spec.Balanced.depth_eq {T : Type} {attr : List Byte} {l : List (Mark T)} (h : Balanced attr l) : depth attr l = 0 := by
  induction h with
  | nil => rfl
  | other m hm => simp [depth, hm]
  | append _ _ h1 h2 => rw [depth_append, h1, h2]; rfl
  | wrap hb ha he ha' _ ih =>
    rw [depth_append, depth_cons, depth_cons, ih, if_pos ha, if_pos ha', hb, he]; rfl

theorem Spec.Balanced.suffix {T : Type} {attr : List Byte} {l : List (Mark T)} (h : Balanced attr l) :
    ∀ x y, l = x ++ y → depth attr y ≤ 0 := by
  induction h with
  | nil => intro x y e; obtain ⟨-, rfl⟩ := List.append_eq_nil_iff.1 e.symm; simp [depth]
  | other m hm =>
    intro x y e
    cases x with
    | nil => rw [List.nil_append] at e; subst e; simp [depth, hm]
    | cons a x =>
      simp only [List.cons_append, List.cons.injEq] at e
      obtain ⟨-, rfl⟩ := List.append_eq_nil_iff.1 e.2.symm
      simp [depth]
  | @append k l hk hl h1 h2 =>
    intro x y e
    rcases List.append_eq_append_iff.1 e with ⟨z, e1, e2⟩ | ⟨z, e1, e2⟩
    · exact h2 z y e2
    · rw [e2, depth_append, hl.depth_eq]; have := h1 x z e1; omega
  | @wrap b e l hb ha he ha' hl ih =>
    intro x y e1
    cases x with
    | nil =>
      rw [List.nil_append] at e1
      rw [← e1]
      exact Int.le_of_eq (Balanced.wrap hb ha he ha' hl).depth_eq
    | cons a x =>
      simp only [List.cons_append, List.cons.injEq] at e1
      rcases List.append_eq_append_iff.1 e1.2 with ⟨z, e2, e3⟩ | ⟨z, e2, e3⟩
      · rcases z with - | ⟨w, z⟩
        · simp only [List.nil_append] at e3
          rw [← e3]
          simp [depth, he, ha']
        · simp only [List.cons_append, List.cons.injEq] at e3
          obtain ⟨-, rfl⟩ := List.append_eq_nil_iff.1 e3.2.symm
          simp [depth]
      · have := ih x z e2
        rw [e3, depth_append]
        have h2 : depth attr [e] = -1 := by simp [depth, he, ha']
        omega

/-- an end that has a begin finds an open region -/
theorem Open.ne_nil {T : Type} {attr : List Byte} {h : List (Mark T)} {st : List T} (ho : Open attr h st)
    {pre mid : List (Mark T)} {b : Mark T} (e : h = pre ++ b :: mid) (hb : b.isBegin = true) (ha : b.attr = attr)
    (hm : Balanced attr mid) : st ≠ [] := by
  rintro rfl
  cases ho with
  | nil hh =>
    have := hh.suffix pre (b :: mid) e
    rw [depth_cons, hm.depth_eq, if_pos ha, hb] at this
    simp at this

/-! ## the invariant -/

/-- state after the region events `es` of a thread -/
structure Inv {T : Type} (O : TimeOps T) (loc : Int × Int) (c : Conv T) (es : List (Mark T)) : Prop where
  stk : ∀ a, a ≠ str "gputrace" → Open a es ((c.rstack loc a).getD [])
  out : ∃ out, Pairs es out ∧ List.Forall₂ (IsRegion O c.frames) out (c.records.filter (isRegionAt loc))

theorem Inv.init {T : Type} (O : TimeOps T) (loc : Int × Int) : Inv O loc (Conv.init T) [] :=
  ⟨fun _ _ => .nil .nil, [], .nil, .nil⟩

theorem IsRegion.mono {T : Type} {O : TimeOps T} {fs fs' : List Frame} (h : fs <+: fs') {p : Mark T × Mark T} {o : TEv T}
    (ho : IsRegion O fs p o) : IsRegion O fs' p o := by
  obtain ⟨sf, h1, h2⟩ := ho
  exact ⟨sf, Shows.mono h h1, h2⟩

/-- the events of a record at a place -/
def markAt {T : Type} (O : TimeOps T) (cfg : Cfg) (loc : Int × Int) (r : Dict) : List (Mark T) :=
  (mark O cfg.pids cfg.tids r).toList.filter fun m => m.pid = loc.1 ∧ m.tid = loc.2

theorem forall₂_append {α β : Type} {R : α → β → Prop} {a c : List α} {b d : List β} (h : List.Forall₂ R a b) (k : List.Forall₂ R c d) :
    List.Forall₂ R (a ++ c) (b ++ d) := by
  induction h with
  | nil => exact k
  | cons h _ ih => exact .cons h ih

theorem Inv.step {T : Type} {O : TimeOps T} {cfg : Cfg} {loc : Int × Int} {c c' : Conv T} {es : List (Mark T)} {r : Dict}
    (hg : ∀ m, mark O cfg.pids cfg.tids r = some m → m.attr ≠ str "gputrace")
    (hi : Inv O loc c es) (h : Eff O cfg r c c') : Inv O loc c' (es ++ markAt O cfg loc r) := by
  obtain ⟨out, hP, hF⟩ := hi.out
  have hF' := hF.imp (fun a b h' => IsRegion.mono h.frames h')
  obtain ⟨new, hr, -, -, hn, hb, he⟩ := h.records
  cases hm : mark O cfg.pids cfg.tids r with
  | none =>
    have : markAt O cfg loc r = [] := by simp [markAt, hm]
    rw [this, List.append_nil]
    refine ⟨fun a ha => by rw [h.quiet hm _ _ ha]; exact hi.stk a ha, out, hP, ?_⟩
    rw [hr, List.filter_append, hn hm, List.append_nil]
    exact hF'
  | some m =>
    by_cases hl : m.pid = loc.1 ∧ m.tid = loc.2
    · have hl' : loc = (m.pid, m.tid) := Prod.ext hl.1.symm hl.2.symm
      have : markAt O cfg loc r = [m] := by simp [markAt, hm, hl]
      rw [this]
      cases hbe : m.isBegin with
      | true =>
        refine ⟨fun a ha => ?_, out, .start hP hbe, ?_⟩
        · rw [h.begins m hm hbe]
          by_cases e : a = m.attr
          · rw [if_pos ⟨hl', e⟩]
            subst e
            rw [← hl']
            exact .push (hi.stk _ ha) hbe rfl .nil
          · rw [if_neg (fun h => e h.2)]
            exact (hi.stk a ha).append (.other m (fun h => e h.symm))
        · rw [hr, List.filter_append, hb m hm hbe, List.append_nil]
          exact hF'
      | false =>
        obtain ⟨t0, st, sf, s1, s2, s3, s4⟩ := he m hm hbe
        have ho := hi.stk m.attr (hg m hm)
        rw [hl', s1] at ho
        simp only [Option.getD_some] at ho
        generalize hst : t0 :: st = st' at ho
        cases ho with
        | nil => cases hst
        | @push pre mid b st2 hop hbb hba hbm =>
          obtain ⟨rfl, rfl⟩ := List.cons.inj hst
          refine ⟨fun a ha => ?_, out ++ [(b, m)], .stop hP hbb hba hbe hbm, ?_⟩
          · rw [s2]
            by_cases e : a = m.attr
            · rw [if_pos ⟨hl', e⟩]
              subst e
              rw [List.append_assoc]
              exact hop.append (.wrap hbb hba hbe rfl hbm)
            · rw [if_neg (fun h => e h.2)]
              exact (hi.stk a ha).append (.other m (fun h => e h.symm))
          · rw [hr, List.filter_append, s4, if_pos hl']
            exact forall₂_append hF' (.cons ⟨sf, s3, rfl⟩ .nil)
    · have hl' : loc ≠ (m.pid, m.tid) := by rintro rfl; exact hl ⟨rfl, rfl⟩
      have : markAt O cfg loc r = [] := by simp [markAt, hm, hl]
      rw [this, List.append_nil]
      cases hbe : m.isBegin with
      | true =>
        refine ⟨fun a ha => ?_, out, hP, ?_⟩
        · rw [h.begins m hm hbe, if_neg (fun h => hl' h.1)]; exact hi.stk a ha
        · rw [hr, List.filter_append, hb m hm hbe, List.append_nil]; exact hF'
      | false =>
        obtain ⟨t0, st, sf, s1, s2, s3, s4⟩ := he m hm hbe
        refine ⟨fun a ha => ?_, out, hP, ?_⟩
        · rw [s2, if_neg (fun h => hl' h.1)]; exact hi.stk a ha
        · rw [hr, List.filter_append, s4, if_neg hl', List.append_nil]; exact hF'

theorem Inv.all {T : Type} {O : TimeOps T} {cfg : Cfg} {loc : Int × Int} (rs : List Dict) : ∀ {c c' : Conv T} {es : List (Mark T)},
    (∀ r ∈ rs, ∀ m, mark O cfg.pids cfg.tids r = some m → m.attr ≠ str "gputrace") → (∀ r ∈ rs, (Spec.time O r).isSome) →
    Inv O loc c es → processAll O cfg c rs = some c' → Inv O loc c' (es ++ rs.flatMap (markAt O cfg loc)) := by
  induction rs with
  | nil => intro c c' es _ _ hi h; cases h; simpa using hi
  | cons r rs ih =>
    intro c c' es hg ht hi h
    unfold processAll at h
    rw [Option.bind_eq_some_iff] at h
    obtain ⟨c1, h1, h2⟩ := h
    obtain ⟨t, ht1⟩ := Option.isSome_iff_exists.1 (ht r (List.mem_cons_self ..))
    have := ih (fun r h => hg r (List.mem_cons_of_mem _ h)) (fun r h => ht r (List.mem_cons_of_mem _ h))
      (hi.step (hg r (List.mem_cons_self ..)) (processRecord_eff ht1 h1)) h2
    rw [List.flatMap_cons, ← List.append_assoc]
    exact this

/-! ## sorting -/

theorem timed_spec {T : Type} {O : TimeOps T} (f : List Dict) : ∀ {l : List (T × Dict)}, timed O f = some l →
    l = f.filterMap fun r => (Spec.time O r).map fun t => (t, r) := by
  induction f with
  | nil => intro l h; cases h; rfl
  | cons r f ih =>
    intro l h
    unfold timed at h
    rw [timestamp_spec] at h
    simp only [Option.bind_eq_some_iff, Option.map_eq_some_iff] at h
    obtain ⟨o, ho, l', hl', rfl⟩ := h
    rw [List.filterMap_cons, ← ih hl']
    cases hc : clock r with
    | none =>
      rw [hc] at ho
      cases ho
      simp [Spec.time, hc]
    | some k =>
      rw [hc] at ho
      simp only [Option.map_eq_some_iff] at ho
      obtain ⟨t, ht, rfl⟩ := ho
      rw [ht]; rfl

theorem mark_time {T : Type} {O : TimeOps T} {cfg : Cfg} {r : Dict} {m : Mark T} (h : mark O cfg.pids cfg.tids r = some m) :
    Spec.time O r = some m.time := by
  unfold mark at h
  split at h
  · rename_i ht _ _ _
    split at h
    · cases h
    · cases h; exact ht
  · cases h

theorem insertTrace_perm {T : Type} (O : TimeOps T) (a : T × Dict) (l : List (T × Dict)) : (insertTrace O a l).Perm (a :: l) := by
  induction l with
  | nil => exact .refl _
  | cons b l ih =>
    unfold insertTrace
    split
    · exact .refl _
    · exact (List.Perm.cons b ih).trans (.swap ..)

theorem sortTrace_perm {T : Type} (O : TimeOps T) (l : List (T × Dict)) : (sortTrace O l).Perm l := by
  induction l with
  | nil => exact .nil
  | cons a l ih => exact (insertTrace_perm O a _).trans (.cons a ih)

theorem insertTrace_filter {T : Type} (O : TimeOps T) (a : T × Dict) (p : T × Dict → Bool) (l : List (T × Dict))
    (h : p a = true → ∀ b ∈ l, p b = true → O.le a.1 b.1 = true) :
    (insertTrace O a l).filter p = (a :: l).filter p := by
  induction l with
  | nil => rfl
  | cons b l ih =>
    unfold insertTrace
    split
    · rfl
    · rename_i hn
      rw [List.filter_cons, ih (fun ha b hb => h ha b (List.mem_cons_of_mem _ hb)), List.filter_cons, List.filter_cons, List.filter_cons]
      by_cases ha : p a = true
      · have : p b ≠ true := fun hb => hn (h ha b (List.mem_cons_self ..) hb)
        simp [ha, this]
      · simp [ha]

/-- a stable sort keeps what is sorted already -/
theorem filter_sort {T : Type} (O : TimeOps T) (l : List (T × Dict)) (p : T × Dict → Bool)
    (hs : (l.filter p).Pairwise fun a b => O.le a.1 b.1 = true) : (sortTrace O l).filter p = l.filter p := by
  induction l with
  | nil => rfl
  | cons a l ih =>
    rw [List.filter_cons] at hs
    have ih' : (sortTrace O l).filter p = l.filter p := by
      apply ih
      by_cases ha : p a = true
      · rw [if_pos ha] at hs; exact (List.pairwise_cons.1 hs).2
      · rwa [if_neg ha] at hs
    have : (insertTrace O a (sortTrace O l)).filter p = (a :: sortTrace O l).filter p := by
      apply insertTrace_filter
      intro ha b hb hpb
      rw [if_pos ha] at hs
      exact (List.pairwise_cons.1 hs).1 b (List.mem_filter.2 ⟨(sortTrace_perm O l).mem_iff.1 hb, hpb⟩)
    show (insertTrace O a (sortTrace O l)).filter p = _
    rw [this, List.filter_cons, ih', ← List.filter_cons]

/-- the region events of a thread in the processed order are those of the file -/
theorem marks_sorted {T : Type} {O : TimeOps T} {cfg : Cfg} {loc : Int × Int} {f : List Dict} {l : List (T × Dict)}
    (h : timed O f = some l) (hs : (marksAt O cfg.pids cfg.tids loc f).Pairwise fun a b => O.le a.time b.time = true) :
    ((sortTrace O l).map Prod.snd).flatMap (markAt O cfg loc) = marksAt O cfg.pids cfg.tids loc f := by
  let g : T × Dict → Option (Mark T) := fun p =>
    match mark O cfg.pids cfg.tids p.2 with
    | some m => if m.pid = loc.1 ∧ m.tid = loc.2 then some m else none
    | none => none
  have hg : ∀ p : T × Dict, markAt O cfg loc p.2 = (g p).toList := by
    intro p
    simp only [markAt, g]
    cases mark O cfg.pids cfg.tids p.2 with
    | none => rfl
    | some m => by_cases e : m.pid = loc.1 ∧ m.tid = loc.2 <;> simp [e]
  have hflat : ∀ l : List (T × Dict), (l.map Prod.snd).flatMap (markAt O cfg loc) = l.filterMap g := by
    intro l
    induction l with
    | nil => rfl
    | cons p l ih => rw [List.map_cons, List.flatMap_cons, hg, ih, List.filterMap_cons]; cases g p <;> rfl
  have hfile : l.filterMap g = marksAt O cfg.pids cfg.tids loc f := by
    rw [timed_spec f h, List.filterMap_filterMap, marksAt, List.filter_filterMap]
    apply List.filterMap_congr
    intro r _
    simp only [g]
    cases hm : mark O cfg.pids cfg.tids r with
    | none => cases Spec.time O r <;> simp [hm]
    | some m => rw [mark_time hm]; by_cases e : m.pid = loc.1 ∧ m.tid = loc.2 <;> simp [hm, e, Option.filter]
  have htimes : ∀ p ∈ l, Spec.time O p.2 = some p.1 := by
    rw [timed_spec f h]
    intro p hp
    obtain ⟨r, _, hr⟩ := List.mem_filterMap.1 hp
    obtain ⟨t, ht, rfl⟩ := Option.map_eq_some_iff.1 hr
    exact ht
  rw [hflat]
  have hsome : ∀ l : List (T × Dict), l.filterMap g = (l.filter fun p => (g p).isSome).filterMap g := by
    intro l
    rw [List.filterMap_filter]
    apply List.filterMap_congr
    intro p _
    cases hgp : g p <;> simp [hgp]
  rw [hsome, filter_sort, ← hsome, hfile]
  have hgt : ∀ p m, p ∈ l → g p = some m → m.time = p.1 := by
    intro p m hp hgp
    simp only [g] at hgp
    cases hm : mark O cfg.pids cfg.tids p.2 with
    | none => rw [hm] at hgp; cases hgp
    | some m' =>
      rw [hm] at hgp
      simp only at hgp
      split at hgp
      · cases hgp
        have := mark_time hm
        rw [htimes p hp] at this
        exact (Option.some.inj this).symm
      · cases hgp
  rw [← hfile, hsome, List.pairwise_filterMap] at hs
  refine hs.imp_of_mem ?_
  intro a b ha hb hab
  obtain ⟨ha1, ha2⟩ := List.mem_filter.1 ha
  obtain ⟨hb1, hb2⟩ := List.mem_filter.1 hb
  obtain ⟨x, hx⟩ := Option.isSome_iff_exists.1 ha2
  obtain ⟨y, hy⟩ := Option.isSome_iff_exists.1 hb2
  have := hab x hx y hy
  rw [hgt a x ha1 hx, hgt b y hb1 hy] at this
  exact this

theorem sorted_mem {T : Type} {O : TimeOps T} {f : List Dict} {l : List (T × Dict)} (h : timed O f = some l) :
    ∀ r ∈ (sortTrace O l).map Prod.snd, r ∈ f ∧ (Spec.time O r).isSome := by
  intro r hr
  obtain ⟨p, hp, rfl⟩ := List.mem_map.1 hr
  have hp' : p ∈ l := (sortTrace_perm O l).mem_iff.1 hp
  rw [timed_spec f h] at hp'
  obtain ⟨r, hrf, e⟩ := List.mem_filterMap.1 hp'
  obtain ⟨t, ht, rfl⟩ := Option.map_eq_some_iff.1 e
  exact ⟨hrf, by rw [ht]; rfl⟩

theorem Inv.convert {T : Type} {O : TimeOps T} {cfg : Cfg} {loc : Int × Int} (files : List (List Dict)) :
    ∀ {c c' : Conv T} {es : List (Mark T)},
    (∀ f ∈ files, ∀ r ∈ f, ∀ m, mark O cfg.pids cfg.tids r = some m → m.attr ≠ str "gputrace") →
    (∀ f ∈ files, (marksAt O cfg.pids cfg.tids loc f).Pairwise fun a b => O.le a.time b.time = true) →
    Inv O loc c es → TraceEv.convert O cfg c files = some c' →
    Inv O loc c' (es ++ files.flatMap (marksAt O cfg.pids cfg.tids loc)) := by
  induction files with
  | nil => intro c c' es _ _ hi h; cases h; simpa using hi
  | cons f files ih =>
    intro c c' es hg hs hi h
    unfold TraceEv.convert at h
    rw [Option.bind_eq_some_iff] at h
    obtain ⟨c1, h1, h2⟩ := h
    unfold readAndSort at h1
    rw [Option.bind_eq_some_iff] at h1
    obtain ⟨l, hl, h1⟩ := h1
    have := Inv.all _ (fun r hr => hg f (List.mem_cons_self ..) r (sorted_mem hl r hr).1) (fun r hr => (sorted_mem hl r hr).2) hi h1
    rw [marks_sorted hl (hs f (List.mem_cons_self ..))] at this
    have := ih (fun f h => hg f (List.mem_cons_of_mem _ h)) (fun f h => hs f (List.mem_cons_of_mem _ h)) this h2
    rw [List.flatMap_cons, ← List.append_assoc]
    exact this

/-! ## counters, activities, samples -/

/-- the other parts of the output, per processed record -/
structure Rest {T : Type} (O : TimeOps T) (cfg : Cfg) (c : Conv T) (rs : List Dict) : Prop where
  counters : c.records.filter isCounter = rs.flatMap (countersOf O cfg)
  activities : c.records.filter isActivity = rs.filterMap (activityOf O cfg)
  samples : List.Forall₂ (IsSample O cfg c.frames) (rs.filter (isSample O)) c.samples
  sync1 : ∀ pid t, (pid, t) ∈ c.tsync → ∃ r ∈ rs, syncOf O cfg r = some (pid, t)
  sync2 : ∀ r ∈ rs, ∀ pid t, syncOf O cfg r = some (pid, t) → (lookup pid c.tsync).isSome
  sync3 : (c.tsync.map Prod.fst).Nodup

theorem dset_mem {α β : Type} [DecidableEq α] {d : List (α × β)} {k : α} {v : β} {p : α × β} (h : p ∈ dset d k v) :
    p = (k, v) ∨ p ∈ d := by
  induction d with
  | nil => exact .inl (List.mem_singleton.1 h)
  | cons q l ih =>
    obtain ⟨a, b⟩ := q
    unfold dset at h
    split at h
    · rename_i e
      rcases List.mem_cons.1 h with h | h
      · subst e; exact .inl h
      · exact .inr (List.mem_cons_of_mem _ h)
    · rcases List.mem_cons.1 h with h | h
      · subst h; exact .inr (List.mem_cons_self ..)
      · rcases ih h with h | h
        · exact .inl h
        · exact .inr (List.mem_cons_of_mem _ h)

theorem dset_lookup {α β : Type} [DecidableEq α] (d : List (α × β)) (k j : α) (v : β) :
    (lookup j (dset d k v)).isSome = (decide (j = k) || (lookup j d).isSome) := by
  induction d with
  | nil =>
    by_cases e : k = j
    · subst e; simp [dset, lookup]
    · have e' : j ≠ k := Ne.symm e
      simp [dset, lookup, e, e']
  | cons q l ih =>
    obtain ⟨a, b⟩ := q
    unfold dset
    by_cases e : a = k
    · subst e
      by_cases e : a = j
      · subst e; simp [lookup]
      · have e' : j ≠ a := Ne.symm e
        simp [lookup, e, e']
    · rw [if_neg e]
      by_cases e1 : a = j
      · simp [lookup, e1]
      · simp only [lookup, if_neg e1, ih]

theorem dset_keys {α β : Type} [DecidableEq α] {d : List (α × β)} {k : α} {v : β} (h : (d.map Prod.fst).Nodup) :
    ((dset d k v).map Prod.fst).Nodup := by
  induction d with
  | nil => simp [dset]
  | cons q l ih =>
    obtain ⟨a, b⟩ := q
    rw [List.map_cons, List.nodup_cons] at h
    unfold dset
    split
    · rw [List.map_cons, List.nodup_cons]; exact h
    · rename_i e
      rw [List.map_cons, List.nodup_cons]
      refine ⟨?_, ih h.2⟩
      intro hm
      obtain ⟨p, hp, hp2⟩ := List.mem_map.1 hm
      rcases dset_mem hp with rfl | hp
      · exact e hp2.symm
      · exact h.1 (List.mem_map.2 ⟨p, hp, hp2⟩)

theorem Rest.step {T : Type} {O : TimeOps T} {cfg : Cfg} {c c' : Conv T} {rs : List Dict} {r : Dict}
    (hi : Rest O cfg c rs) (h : Eff O cfg r c c') : Rest O cfg c' (rs ++ [r]) := by
  obtain ⟨new, hr, hc, ha, -⟩ := h.records
  obtain ⟨ns, hs, hs2⟩ := h.samples
  have hy := h.sync
  refine ⟨?_, ?_, ?_, ?_, ?_, ?_⟩
  · rw [hr, List.filter_append, hi.counters, hc]; simp
  · rw [hr, List.filter_append, hi.activities, ha]
    simp only [List.filterMap_append, List.filterMap_cons, List.filterMap_nil]
    cases activityOf O cfg r <;> rfl
  · rw [hs, List.filter_append]
    have hF' := hi.samples.imp (fun (a : Dict) b (h' : IsSample O cfg c.frames a b) =>
      (⟨h'.1, h'.2.1, h'.2.2.1, h'.2.2.2.1, Shows.mono h.frames h'.2.2.2.2⟩ : IsSample O cfg c'.frames a b))
    refine forall₂_append hF' ?_
    rcases hs2 with ⟨h1, s, rfl, h2⟩ | ⟨h1, rfl⟩
    · rw [List.filter_cons, if_pos h1]; exact .cons h2 .nil
    · rw [List.filter_cons, if_neg (by rw [h1]; simp)]; exact .nil
  · intro pid t hm
    rw [hy] at hm
    cases hs : syncOf O cfg r with
    | none =>
      rw [hs] at hm
      obtain ⟨r', h1, h2⟩ := hi.sync1 pid t hm
      exact ⟨r', List.mem_append_left _ h1, h2⟩
    | some p =>
      rw [hs] at hm
      rcases dset_mem hm with e | hm
      · exact ⟨r, by simp, by rw [hs, e]⟩
      · obtain ⟨r', h1, h2⟩ := hi.sync1 pid t hm
        exact ⟨r', List.mem_append_left _ h1, h2⟩
  · intro r' hr' pid t e
    rw [hy]
    rcases List.mem_append.1 hr' with h1 | h1
    · have := hi.sync2 r' h1 pid t e
      cases syncOf O cfg r with
      | none => exact this
      | some p => simp only [dset_lookup, this, Bool.or_true]
    · rw [List.mem_singleton.1 h1] at e
      rw [e]
      simp [dset_lookup]
  · rw [hy]
    cases syncOf O cfg r with
    | none => exact hi.sync3
    | some p => exact dset_keys hi.sync3

theorem Rest.all {T : Type} {O : TimeOps T} {cfg : Cfg} (rs : List Dict) : ∀ {c c' : Conv T} {done : List Dict},
    (∀ r ∈ rs, (Spec.time O r).isSome) → Rest O cfg c done → processAll O cfg c rs = some c' → Rest O cfg c' (done ++ rs) := by
  induction rs with
  | nil => intro c c' done _ hi h; cases h; simpa using hi
  | cons r rs ih =>
    intro c c' done ht hi h
    unfold processAll at h
    rw [Option.bind_eq_some_iff] at h
    obtain ⟨c1, h1, h2⟩ := h
    obtain ⟨t, ht1⟩ := Option.isSome_iff_exists.1 (ht r (List.mem_cons_self ..))
    have := ih (fun r h => ht r (List.mem_cons_of_mem _ h)) (hi.step (processRecord_eff ht1 h1)) h2
    rwa [List.append_assoc] at this

/-- the records in processed order -/
theorem Rest.convert {T : Type} {O : TimeOps T} {cfg : Cfg} (files : List (List Dict)) : ∀ {c c' : Conv T} {done : List Dict},
    Rest O cfg c done → TraceEv.convert O cfg c files = some c' →
    ∃ rs, Rest O cfg c' (done ++ rs) ∧ rs.Perm (files.flatMap fun f => f.filter fun r => (Spec.time O r).isSome) := by
  induction files with
  | nil => intro c c' done hi h; cases h; exact ⟨[], by simpa using hi, .nil⟩
  | cons f files ih =>
    intro c c' done hi h
    unfold TraceEv.convert at h
    rw [Option.bind_eq_some_iff] at h
    obtain ⟨c1, h1, h2⟩ := h
    unfold readAndSort at h1
    rw [Option.bind_eq_some_iff] at h1
    obtain ⟨l, hl, h1⟩ := h1
    have h3 := Rest.all _ (fun r hr => (sorted_mem hl r hr).2) hi h1
    obtain ⟨rs, h4, h5⟩ := ih h3 h2
    refine ⟨_, by rw [← List.append_assoc]; exact h4, ?_⟩
    rw [List.flatMap_cons]
    refine List.Perm.append ?_ h5
    have e : l.map Prod.snd = f.filter fun r => (Spec.time O r).isSome := by
      rw [timed_spec f hl, List.map_filterMap, ← List.filterMap_eq_filter]
      apply List.filterMap_congr
      intro r _
      cases h : Spec.time O r <;> simp [Option.guard, h]
    rw [← e]
    exact (sortTrace_perm O l).map _

/-! ## no exception -/

theorem counterArgs_some {T : Type} {O : TimeOps T} {r : Dict} (l : List (List Byte))
    (h : ∀ a ∈ l, has r a = true → ((text r a).bind O.float).isSome) : ∃ x, counterArgs O r l = some x := by
  induction l with
  | nil => exact ⟨_, rfl⟩
  | cons a l ih =>
    obtain ⟨x, hx⟩ := ih (fun a h' => h a (List.mem_cons_of_mem _ h'))
    unfold counterArgs
    cases hh : has r a with
    | false => rw [rget_val, val_none hh]; exact ⟨x, hx⟩
    | true =>
      obtain ⟨v, hv⟩ := val_some hh
      have e := toFloat_text O r a
      obtain ⟨y, hy⟩ := Option.isSome_iff_exists.1 (h a (List.mem_cons_self ..) hh)
      rw [hy, rget_val, hv] at e
      simp only [Option.bind_some] at e
      rw [rget_val, hv]
      simp only [e, hx, Option.bind_some, Option.map_some]
      exact ⟨_, rfl⟩

theorem counters_some {T : Type} {O : TimeOps T} {r : Dict} {loc : Int × Int} {t : T} (ht : Spec.time O r = some t)
    (gs : List (List Byte × List (List Byte))) (h : ∀ g ∈ gs, ∀ a ∈ g.2, has r a = true → ((text r a).bind O.float).isSome) :
    ∃ x, counters O r loc gs = some x := by
  induction gs with
  | nil => exact ⟨_, rfl⟩
  | cons g gs ih =>
    obtain ⟨n, as⟩ := g
    obtain ⟨x, hx⟩ := ih (fun a h' => h a (List.mem_cons_of_mem _ h'))
    obtain ⟨y, hy⟩ := counterArgs_some as (h (n, as) (List.mem_cons_self ..))
    unfold counters
    rw [hy, hx, recTime_time, ht]
    simp only [Option.bind_some, Option.map_some]
    split <;> exact ⟨_, rfl⟩

theorem stackframe_some {T : Type} (c : Conv T) {r : Dict} (h : val r (str "source.function#callpath.address") ≠ some (.many [])) :
    ∃ x, c.stackframe r = some x := by
  unfold Conv.stackframe
  rw [rget_val]
  rcases hv : val r (str "source.function#callpath.address") with - | d | ds
  · exact ⟨_, rfl⟩
  · exact ⟨_, rfl⟩
  · cases ds with
    | nil => exact absurd hv h
    | cons n ns => exact ⟨_, rfl⟩

theorem processRecord_some {T : Type} {O : TimeOps T} {cfg : Cfg} {c : Conv T} {r : Dict} {t : T} (ht : Spec.time O r = some t)
    (hr : Readable O cfg r)
    (hst : ∀ m, mark O cfg.pids cfg.tids r = some m → m.isBegin = false → (c.rstack (m.pid, m.tid) m.attr).getD [] ≠ []) :
    ∃ c', processRecord O cfg c r = some c' := by
  obtain ⟨p, hp⟩ := Option.isSome_iff_exists.1 hr.pid
  obtain ⟨q, hq⟩ := Option.isSome_iff_exists.1 hr.tid
  obtain ⟨cs, hcs⟩ := counters_some (loc := (p, q)) ht cfg.counters hr.counters
  have hk := hr.plain
  have hm := mark_of (cfg := cfg) ht hp hq hk
  unfold otherKinds at hk
  simp only [List.any_cons, List.any_nil, Bool.or_eq_false_iff] at hk
  obtain ⟨k1, k2, k3, k4, k5, k6, k7, -⟩ := hk
  unfold processRecord
  rw [firstInt_place, firstInt_place, hp, hq]
  simp only [Option.bind_some, hcs]
  unfold branch
  simp only [rget_val, ← has_val, recTime_time, k1, k2, k3, k4, k5, k6, k7]
  simp only [Bool.false_eq_true, if_false]
  cases hek : eventKey r with
  | none => exact ⟨_, rfl⟩
  | some e =>
    obtain ⟨b, a, v⟩ := e
    rw [hek] at hm
    simp only [Option.map_some] at hm
    cases b with
    | true => simp only [event, recTime_time, ht, Option.map_some]; exact ⟨_, rfl⟩
    | false =>
      have := hst _ hm rfl
      simp only at this
      cases hs : c.rstack (p, q) a with
      | none => rw [hs] at this; simp at this
      | some st =>
        cases st with
        | nil => rw [hs] at this; simp at this
        | cons t0 st =>
          simp only [event, Conv.pop, hs, recTime_time, ht, Option.bind_some]
          obtain ⟨x, hx⟩ := stackframe_some { c with records := c.records ++ cs, rstack := fun l a' => if l = (p, q) ∧ a' = a then some st else c.rstack l a' } hr.stack
          rw [hx]
          exact ⟨_, rfl⟩

/-- every end of a thread has a begin -/
def Matched {T : Type} (es : List (Mark T)) : Prop := ∃ out, Pairs es out

theorem Spec.Pairs.split {T : Type} {es : List (Mark T)} {out : List (Mark T × Mark T)} (h : Pairs es out) :
    ∀ {x y : List (Mark T)} {m : Mark T}, es = x ++ m :: y → m.isBegin = false →
      ∃ pre mid b, x = pre ++ b :: mid ∧ b.isBegin = true ∧ b.attr = m.attr ∧ Balanced m.attr mid := by
  induction h with
  | nil => intro x y m e; simp at e
  | @start es out m' h hb ih =>
    intro x y m e hm
    rcases List.eq_nil_or_concat y with rfl | ⟨y', z, rfl⟩
    · have := List.append_inj_right' e rfl
      simp only [List.cons.injEq, and_true] at this
      subst this
      rw [hb] at hm; cases hm
    · rw [List.concat_eq_append, ← List.cons_append, ← List.append_assoc] at e
      exact ih (List.append_inj_left' e rfl) hm
  | @stop pre mid b e0 out h hb ha he hbal ih =>
    intro x y m e hm
    rcases List.eq_nil_or_concat y with rfl | ⟨y', z, rfl⟩
    · have h1 := List.append_inj_right' e rfl
      have h2 := List.append_inj_left' e rfl
      simp only [List.cons.injEq, and_true] at h1
      subst h1
      exact ⟨pre, mid, b, h2.symm, hb, ha, hbal⟩
    · rw [List.concat_eq_append, ← List.cons_append, ← List.append_assoc] at e
      exact ih (List.append_inj_left' e rfl) hm

theorem processAll_some {T : Type} {O : TimeOps T} {cfg : Cfg} (rs : List Dict) : ∀ {c : Conv T} {es : Int × Int → List (Mark T)}
    {rest : Int × Int → List (Mark T)},
    (∀ r ∈ rs, ∀ m, mark O cfg.pids cfg.tids r = some m → m.attr ≠ str "gputrace") → (∀ r ∈ rs, (Spec.time O r).isSome) →
    (∀ r ∈ rs, Readable O cfg r) → (∀ loc, Inv O loc c (es loc)) →
    (∀ loc, Matched (es loc ++ rs.flatMap (markAt O cfg loc) ++ rest loc)) →
    ∃ c', processAll O cfg c rs = some c' ∧ ∀ loc, Inv O loc c' (es loc ++ rs.flatMap (markAt O cfg loc)) := by
  induction rs with
  | nil => intro c es rest _ _ _ hi _; exact ⟨c, rfl, by simpa using hi⟩
  | cons r rs ih =>
    intro c es rest hg ht hr hi hM
    obtain ⟨t, ht1⟩ := Option.isSome_iff_exists.1 (ht r (List.mem_cons_self ..))
    obtain ⟨c1, h1⟩ := processRecord_some (c := c) ht1 (hr r (List.mem_cons_self ..)) (by
      intro m hm hb
      have hma : markAt O cfg (m.pid, m.tid) r = [m] := by simp [markAt, hm]
      obtain ⟨out, hout⟩ := hM (m.pid, m.tid)
      rw [List.flatMap_cons, hma] at hout
      obtain ⟨pre, mid, b, e, hbb, hba, hbal⟩ := hout.split (x := es (m.pid, m.tid)) (m := m)
        (y := rs.flatMap (markAt O cfg (m.pid, m.tid)) ++ rest (m.pid, m.tid)) (by simp) hb
      exact ((hi (m.pid, m.tid)).stk m.attr (hg r (List.mem_cons_self ..) m hm)).ne_nil e hbb hba hbal)
    obtain ⟨c2, h2, h3⟩ := ih (c := c1) (es := fun loc => es loc ++ markAt O cfg loc r) (rest := rest)
      (fun r h => hg r (List.mem_cons_of_mem _ h)) (fun r h => ht r (List.mem_cons_of_mem _ h)) (fun r h => hr r (List.mem_cons_of_mem _ h))
      (fun loc => (hi loc).step (hg r (List.mem_cons_self ..)) (processRecord_eff ht1 h1))
      (fun loc => by have := hM loc; rw [List.flatMap_cons] at this; simpa using this)
    refine ⟨c2, ?_, ?_⟩
    · unfold processAll; rw [h1]; exact h2
    · intro loc; have := h3 loc; rw [List.flatMap_cons]; simpa using this

theorem timed_some {T : Type} {O : TimeOps T} {cfg : Cfg} (f : List Dict) (h : ∀ r ∈ f, Readable O cfg r) : ∃ l, timed O f = some l := by
  induction f with
  | nil => exact ⟨_, rfl⟩
  | cons r f ih =>
    obtain ⟨l, hl⟩ := ih (fun r h' => h r (List.mem_cons_of_mem _ h'))
    unfold timed
    rw [timestamp_spec, hl]
    cases hc : clock r with
    | none => exact ⟨_, rfl⟩
    | some k =>
      rcases (h r (List.mem_cons_self ..)).time with h1 | h1
      · rw [hc] at h1; cases h1
      · obtain ⟨t, ht⟩ := Option.isSome_iff_exists.1 h1
        rw [ht]; exact ⟨_, rfl⟩

theorem convert_some {T : Type} {O : TimeOps T} {cfg : Cfg} (files : List (List Dict)) :
    ∀ {c : Conv T} {es : Int × Int → List (Mark T)},
    (∀ f ∈ files, ∀ r ∈ f, ∀ m, mark O cfg.pids cfg.tids r = some m → m.attr ≠ str "gputrace") →
    (∀ loc, ∀ f ∈ files, (marksAt O cfg.pids cfg.tids loc f).Pairwise fun a b => O.le a.time b.time = true) →
    (∀ f ∈ files, ∀ r ∈ f, Readable O cfg r) → (∀ loc, Inv O loc c (es loc)) →
    (∀ loc, Matched (es loc ++ files.flatMap (marksAt O cfg.pids cfg.tids loc))) →
    ∃ c', TraceEv.convert O cfg c files = some c' := by
  induction files with
  | nil => intro c es _ _ _ _ _; exact ⟨c, rfl⟩
  | cons f files ih =>
    intro c es hg hs hr hi hM
    obtain ⟨l, hl⟩ := timed_some f (hr f (List.mem_cons_self ..))
    obtain ⟨c1, h1, h2⟩ := processAll_some ((sortTrace O l).map Prod.snd) (c := c) (es := es)
      (rest := fun loc => files.flatMap (marksAt O cfg.pids cfg.tids loc))
      (fun r hr' => hg f (List.mem_cons_self ..) r (sorted_mem hl r hr').1) (fun r hr' => (sorted_mem hl r hr').2)
      (fun r hr' => hr f (List.mem_cons_self ..) r (sorted_mem hl r hr').1) hi (by
        intro loc
        rw [marks_sorted hl (hs loc f (List.mem_cons_self ..))]
        have := hM loc
        rw [List.flatMap_cons] at this
        simpa using this)
    obtain ⟨c2, h3⟩ := ih (c := c1) (es := fun loc => es loc ++ marksAt O cfg.pids cfg.tids loc f)
      (fun f h => hg f (List.mem_cons_of_mem _ h)) (fun loc f h => hs loc f (List.mem_cons_of_mem _ h)) (fun f h => hr f (List.mem_cons_of_mem _ h))
      (by intro loc; have := h2 loc; rwa [marks_sorted hl (hs loc f (List.mem_cons_self ..))] at this)
      (by intro loc; have := hM loc; rw [List.flatMap_cons] at this; simpa using this)
    refine ⟨c2, ?_⟩
    unfold TraceEv.convert readAndSort
    rw [hl]
    simp only [Option.bind_some, h1, h3]

end Verif.TraceEv
