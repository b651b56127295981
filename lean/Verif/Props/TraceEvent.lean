import Verif.Py.TraceEventRun
/-!
# C105: `cali2traceevent.py` shows the regions of a trace

Model: `Verif/Py/TraceEvent`; what the output has to contain: `Verif/Py/TraceEventSpec`.
-/
namespace Verif.TraceEv
open Verif Verif.Cali Verif.Py Verif.TraceEv.Spec

/-! ## example: numbers are integers -/
namespace Demo

/-- integer time stamps -/
def ops : TimeOps Int where
  float := pyInt
  milli t := t / 1000
  add := (· + ·)
  sub := (· - ·)
  le a b := decide (a ≤ b)
  zero := 0

theorem ordered : Ordered ops where
  trans := by
    intro a b c h1 h2
    simp only [ops, decide_eq_true_iff] at *
    omega
  total := by
    intro a b
    simp only [ops, Bool.or_eq_true, decide_eq_true_iff]
    omega

/-- one counter, no user-defined ids -/
def cfg : Cfg := Cfg.make [(str "mem", [str "rss"])] [] []

/-- a record from texts -/
def mk (l : List (String × String)) : Dict := l.map fun p => (.text (str p.1), .one (.text (str p.2)))

/-- a region event -/
def ev (rank thread ns what name : String) : Dict :=
  mk [("mpi.rank", rank), ("pthread.id", thread), (what, name), ("time.offset.ns", ns)]

/-- main(solve(loop) solve) with a thread of its own, a counter and a synchronization point -/
def file1 : List Dict :=
  [ev "1" "7" "1000" "event.begin#region" "main",
   ev "1" "7" "2000" "event.begin#region" "solve",
   ev "1" "7" "2000" "event.begin#loop" "it",
   ev "1" "7" "5000" "event.end#loop" "it",
   ev "1" "7" "5000" "event.end#region" "solve",
   ev "1" "7" "9000" "event.end#region" "main",
   ev "1" "8" "3000" "event.begin#region" "work",
   ev "1" "8" "4000" "event.end#region" "work"]

/-- a second process -/
def file0 : List Dict :=
  [ev "0" "7" "1000" "event.begin#region" "main", ev "0" "7" "8000" "event.end#region" "main"]

/-- other records -/
def fileX : List Dict :=
  [mk [("mpi.rank", "1"), ("ts.sync", "1"), ("time.offset", "40")],
   mk [("mpi.rank", "0"), ("ts.sync", "1"), ("time.offset", "60")],
   mk [("rss", "512"), ("time.offset", "70")],
   mk [("cupti.activity.kind", "kernel"), ("cupti.activity.start", "1000"), ("cupti.activity.duration", "3000"), ("cupti.kernel.name", "k1")],
   mk [("umpire.alloc.name", "HOST"), ("umpire.alloc.current.size", "64"), ("umpire.alloc.highwatermark", "128"), ("time.offset", "71")],
   [(.text (str "source.function#cali.sampler.pc"), .one (.text (str "g"))), (.text (str "time.offset"), .one (.text (str "80"))),
    (.text (str "source.function#callpath.address"), .many [.text (str "main"), .text (str "g")])]]

end Demo

/-! ## regions -/

/-- C105: if the conversion succeeds, then the complete events of every thread are exactly its regions: one for every end event, in
the order of the file, from the time of the begin event that the end closes (bracket matching per attribute) to the time of the end,
with the region's name, its attribute and the call path of the end event.  It is enough that the clock of the thread does not run
backwards; the events of other threads may be mixed in, in any order. -/
theorem C105_regions_partial {T : Type} (O : TimeOps T) (cfg : Cfg) (files : List (List Dict)) (c : Conv T) (loc : Int × Int)
    (hg : ∀ f ∈ files, ∀ r ∈ f, ∀ m, mark O cfg.pids cfg.tids r = some m → m.attr ≠ str "gputrace")
    (hs : ∀ f ∈ files, (marksAt O cfg.pids cfg.tids loc f).Pairwise fun a b => O.le a.time b.time = true)
    (h : convert O cfg (Conv.init T) files = some c) :
    ∃ out, Pairs (files.flatMap (marksAt O cfg.pids cfg.tids loc)) out ∧
      List.Forall₂ (IsRegion O c.frames) out (c.records.filter (isRegionAt loc)) := by
  have := (Inv.init O loc).convert files hg hs h
  rw [List.nil_append] at this
  exact this.out

/-- C105: without device records, the conversion succeeds whenever the numbers can be read and every end event has a begin -/
theorem C105_no_exception {T : Type} (O : TimeOps T) (cfg : Cfg) (files : List (List Dict))
    (hg : ∀ f ∈ files, ∀ r ∈ f, ∀ m, mark O cfg.pids cfg.tids r = some m → m.attr ≠ str "gputrace")
    (hs : ∀ loc, ∀ f ∈ files, (marksAt O cfg.pids cfg.tids loc f).Pairwise fun a b => O.le a.time b.time = true)
    (hr : ∀ f ∈ files, ∀ r ∈ f, Readable O cfg r)
    (hM : ∀ loc, ∃ out, Pairs (files.flatMap (marksAt O cfg.pids cfg.tids loc)) out) :
    (convert O cfg (Conv.init T) files).isSome := by
  obtain ⟨c, hc⟩ := convert_some files (c := Conv.init T) (es := fun _ => []) hg hs hr (Inv.init O) hM
  rw [hc]; rfl

theorem Rest.init {T : Type} (O : TimeOps T) (cfg : Cfg) : Rest O cfg (Conv.init T) [] :=
  ⟨rfl, rfl, .nil, (fun _ _ h => by cases h), (fun _ h => by cases h), .nil⟩

theorem perm_flatMap {α β : Type} {l l' : List α} (h : l.Perm l') (f : α → List β) : (l.flatMap f).Perm (l'.flatMap f) := by
  induction h with
  | nil => exact .nil
  | cons x _ ih => rw [List.flatMap_cons, List.flatMap_cons]; exact (List.Perm.refl _).append ih
  | swap x y l =>
    rw [List.flatMap_cons, List.flatMap_cons, List.flatMap_cons, List.flatMap_cons, ← List.append_assoc, ← List.append_assoc]
    exact List.perm_append_comm.append (List.Perm.refl _)
  | trans _ _ h1 h2 => exact h1.trans h2

theorem flatMap_timed {T β : Type} (O : TimeOps T) (f : Dict → List β) (hf : ∀ r, Spec.time O r = none → f r = []) (l : List Dict) :
    (l.filter fun r => (Spec.time O r).isSome).flatMap f = l.flatMap f := by
  induction l with
  | nil => rfl
  | cons r l ih =>
    rw [List.filter_cons, List.flatMap_cons]
    cases h : Spec.time O r with
    | none => rw [if_neg (by simp), ih, hf r h]; rfl
    | some t => rw [if_pos (by simp), List.flatMap_cons, ih]

theorem flatMap_flatMap_timed {T β : Type} (O : TimeOps T) (f : Dict → List β) (hf : ∀ r, Spec.time O r = none → f r = [])
    (files : List (List Dict)) :
    (files.flatMap fun g => g.filter fun r => (Spec.time O r).isSome).flatMap f = files.flatMap fun g => g.flatMap f := by
  induction files with
  | nil => rfl
  | cons g files ih => rw [List.flatMap_cons, List.flatMap_append, flatMap_timed O f hf, ih, List.flatMap_cons]

/-- C105: the counters, device activities and samples of the output are those of the records, each exactly once -/
theorem C105_others {T : Type} (O : TimeOps T) (cfg : Cfg) (files : List (List Dict)) (c : Conv T)
    (h : convert O cfg (Conv.init T) files = some c) :
    (c.records.filter isCounter).Perm (files.flatMap fun f => f.flatMap (countersOf O cfg)) ∧
    (c.records.filter isActivity).Perm (files.flatMap fun f => f.filterMap (activityOf O cfg)) ∧
    ∃ rs : List Dict, rs.Perm (files.flatMap fun f => f.filter (isSample O)) ∧ List.Forall₂ (IsSample O cfg c.frames) rs c.samples := by
  obtain ⟨rs, hR, hP⟩ := Rest.convert files (Rest.init O cfg) h
  rw [List.nil_append] at hR
  refine ⟨?_, ?_, _, ?_, hR.samples⟩
  · rw [hR.counters]
    refine (perm_flatMap hP _).trans (List.Perm.of_eq (flatMap_flatMap_timed O _ ?_ files))
    intro r hr; simp [countersOf, hr]
  · rw [hR.activities]
    have e : ∀ l : List Dict, l.filterMap (activityOf O cfg) = l.flatMap fun r => (activityOf O cfg r).toList := by
      intro l
      induction l with
      | nil => rfl
      | cons r l ih => rw [List.filterMap_cons, List.flatMap_cons, ← ih]; cases activityOf O cfg r <;> rfl
    simp only [e]
    refine (perm_flatMap hP _).trans (List.Perm.of_eq (flatMap_flatMap_timed O _ ?_ files))
    intro r hr; simp [activityOf, hr]
  · have e : ∀ l : List Dict, l.filter (isSample O) = l.flatMap fun r => if isSample O r then [r] else [] := by
      intro l
      induction l with
      | nil => rfl
      | cons r l ih => rw [List.filter_cons, List.flatMap_cons, ← ih]; cases isSample O r <;> rfl
    simp only [e]
    refine (perm_flatMap hP _).trans (List.Perm.of_eq (flatMap_flatMap_timed O _ ?_ files))
    intro r hr; simp [isSample, hr]

/-! ## synchronization -/

theorem le_refl {T : Type} {O : TimeOps T} (hO : Ordered O) (a : T) : O.le a a = true := by
  have := hO.total a a
  rwa [Bool.or_self] at this

theorem maxOf_spec {T : Type} {O : TimeOps T} (hO : Ordered O) (l : List T) : ∀ m, maxOf O m l ∈ m :: l ∧ ∀ x ∈ m :: l, O.le x (maxOf O m l) = true := by
  induction l with
  | nil => intro m; exact ⟨List.mem_cons_self .., fun x hx => by rw [List.mem_singleton.1 hx]; exact le_refl hO m⟩
  | cons y l ih =>
    intro m
    unfold maxOf
    by_cases h : O.le y m = true
    · rw [if_pos h]
      obtain ⟨h1, h2⟩ := ih m
      refine ⟨?_, ?_⟩
      · rcases List.mem_cons.1 h1 with h1 | h1
        · rw [h1]; exact List.mem_cons_self ..
        · exact List.mem_cons_of_mem _ (List.mem_cons_of_mem _ h1)
      · intro x hx
        rcases List.mem_cons.1 hx with rfl | hx
        · exact h2 _ (List.mem_cons_self ..)
        · rcases List.mem_cons.1 hx with rfl | hx
          · exact hO.trans _ _ _ h (h2 _ (List.mem_cons_self ..))
          · exact h2 _ (List.mem_cons_of_mem _ hx)
    · rw [if_neg h]
      obtain ⟨h1, h2⟩ := ih y
      refine ⟨List.mem_cons_of_mem _ h1, ?_⟩
      intro x hx
      rcases List.mem_cons.1 hx with rfl | hx
      · have := hO.total y x
        simp only [Bool.not_eq_true] at h
        rw [h, Bool.false_or] at this
        exact hO.trans _ _ _ this (h2 _ (List.mem_cons_self ..))
      · exact h2 _ hx

theorem lookup_mem {β : Type} {l : List (Int × β)} {k : Int} {v : β} (h : lookup k l = some v) : (k, v) ∈ l := by
  induction l with
  | nil => cases h
  | cons p l ih =>
    obtain ⟨a, b⟩ := p
    unfold lookup at h
    split at h
    · rename_i e; cases h; subst e; exact List.mem_cons_self ..
    · exact List.mem_cons_of_mem _ (ih h)

/-- C105: with `--sync`, the times of each process are moved by the distance of its synchronization point from the latest one, all
records of a process by the same amount, and nothing else changes; a process without synchronization point is not moved; without any
synchronization point nothing is.  The synchronization point of a process is the time of one of its `ts.sync` records. -/
theorem C105_sync {T : Type} (O : TimeOps T) (hO : Ordered O) (cfg : Cfg) (files : List (List Dict)) (c : Conv T)
    (h : convert O cfg (Conv.init T) files = some c) :
    (syncTimes O c).frames = c.frames ∧
    (((∀ f ∈ files, ∀ r ∈ f, syncOf O cfg r = none) ∧ syncTimes O c = c) ∨
    ∃ point : Int → Option T, (∀ pid t, point pid = some t → ∃ f ∈ files, ∃ r ∈ f, syncOf O cfg r = some (pid, t)) ∧
      (∀ f ∈ files, ∀ r ∈ f, ∀ pid t, syncOf O cfg r = some (pid, t) → (point pid).isSome) ∧
      ∃ latest first, point first = some latest ∧ (∀ pid t, point pid = some t → O.le t latest = true) ∧
        List.Forall₂ (Moved fun pid ts => match point pid with | some t => O.add ts (O.sub latest t) | none => O.add ts O.zero)
          c.records (syncTimes O c).records ∧
        List.Forall₂ (MovedSample fun pid ts => match point pid with | some t => O.add ts (O.sub latest t) | none => O.add ts O.zero)
          c.samples (syncTimes O c).samples) := by
  obtain ⟨rs, hR, hP⟩ := Rest.convert files (Rest.init O cfg) h
  rw [List.nil_append] at hR
  have mem1 : ∀ r ∈ rs, ∃ f ∈ files, r ∈ f := by
    intro r hr
    obtain ⟨f, hf, hr⟩ := List.mem_flatMap.1 (hP.mem_iff.1 hr)
    exact ⟨f, hf, (List.mem_filter.1 hr).1⟩
  have mem2 : ∀ f ∈ files, ∀ r ∈ f, ∀ p, syncOf O cfg r = some p → r ∈ rs := by
    intro f hf r hr p hp
    refine hP.mem_iff.2 (List.mem_flatMap.2 ⟨f, hf, List.mem_filter.2 ⟨hr, ?_⟩⟩)
    unfold syncOf at hp
    split at hp
    · rename_i ht _; rw [ht]; rfl
    · cases hp
  have h1 := hR.sync1
  have h2 := hR.sync2
  have h3 := hR.sync3
  cases hs : c.tsync with
  | nil =>
    have e : syncTimes O c = c := by unfold syncTimes; rw [hs]
    refine ⟨by rw [e], .inl ⟨?_, e⟩⟩
    intro f hf r hr
    cases hn : syncOf O cfg r with
    | none => rfl
    | some p => have := h2 r (mem2 f hf r hr p hn) p.1 p.2 hn; rw [hs] at this; cases this
  | cons q l =>
    obtain ⟨q, t⟩ := q
    obtain ⟨m1, m2⟩ := maxOf_spec hO (l.map Prod.snd) t
    have ein : ∀ pid s, lookup pid c.tsync = some s → s ∈ t :: l.map Prod.snd := by
      intro pid s h
      have := lookup_mem h
      rw [hs] at this
      exact List.mem_map_of_mem (f := Prod.snd) this
    have e0 : syncTimes O c = { c with
        records := c.records.map (TEv.shift O (adjust O c.tsync (maxOf O t (l.map Prod.snd))))
        samples := c.samples.map fun s => { s with ts := O.add s.ts (adjust O c.tsync (maxOf O t (l.map Prod.snd)) s.pid) } } := by
      obtain ⟨R, S, st, fr, ts⟩ := c
      simp only at hs
      subst hs
      rfl
    refine ⟨by rw [e0], .inr ⟨fun pid => lookup pid c.tsync, ?_, ?_, maxOf O t (l.map Prod.snd), ?_⟩⟩
    · intro pid s h
      obtain ⟨r, hr, e⟩ := h1 pid s (lookup_mem h)
      obtain ⟨f, hf, hr⟩ := mem1 r hr
      exact ⟨f, hf, r, hr, e⟩
    · intro f hf r hr pid s e
      exact h2 r (mem2 f hf r hr _ e) pid s e
    · have : ∃ first, (first, maxOf O t (l.map Prod.snd)) ∈ c.tsync := by
        have m1' : maxOf O t (l.map Prod.snd) ∈ c.tsync.map Prod.snd := by rw [hs]; exact m1
        obtain ⟨p, hp, e⟩ := List.mem_map.1 m1'
        exact ⟨p.1, by rw [← e]; exact hp⟩
      obtain ⟨first, hf⟩ := this
      have hlook : ∀ (d : List (Int × T)) k v, (d.map Prod.fst).Nodup → (k, v) ∈ d → lookup k d = some v := by
        intro d
        induction d with
        | nil => intro k v _ h; cases h
        | cons p d ih =>
          obtain ⟨a, b⟩ := p
          intro k v hn h
          rw [List.map_cons, List.nodup_cons] at hn
          unfold lookup
          rcases List.mem_cons.1 h with h | h
          · cases h; rw [if_pos rfl]
          · rw [if_neg]
            · exact ih k v hn.2 h
            · rintro rfl
              exact hn.1 (List.mem_map.2 ⟨(a, v), h, rfl⟩)
      refine ⟨first, hlook _ _ _ h3 hf, fun pid s h => m2 s (ein pid s h), ?_, ?_⟩
      · rw [e0]
        simp only
        generalize c.records = R
        induction R with
        | nil => exact .nil
        | cons o R ih =>
          refine .cons ?_ ih
          cases o with
          | complete pid tid name cat ts dur sf =>
            have : TEv.shift O (adjust O c.tsync (maxOf O t (l.map Prod.snd))) (.complete pid tid name cat ts dur sf) =
                .complete pid tid name cat (match lookup pid c.tsync with
                  | some t_1 => O.add ts (O.sub (maxOf O t (l.map Prod.snd)) t_1) | none => O.add ts O.zero) dur sf := by
              simp only [TEv.shift, adjust]
              cases lookup pid c.tsync <;> rfl
            rw [this]
            exact .complete ..
          | counter pid tid name ts args =>
            have : TEv.shift O (adjust O c.tsync (maxOf O t (l.map Prod.snd))) (.counter pid tid name ts args) =
                .counter pid tid name (match lookup pid c.tsync with
                  | some t_1 => O.add ts (O.sub (maxOf O t (l.map Prod.snd)) t_1) | none => O.add ts O.zero) args := by
              simp only [TEv.shift, adjust]
              cases lookup pid c.tsync <;> rfl
            rw [this]
            exact .counter ..
      · rw [e0]
        simp only
        generalize c.samples = R
        induction R with
        | nil => exact .nil
        | cons o R ih =>
          refine .cons ?_ ih
          unfold MovedSample adjust
          simp only
          cases lookup o.pid c.tsync <;> rfl

/-! ## examples and limits -/

/-- a decidable form of the condition on names -/
theorem names_ok {T : Type} {O : TimeOps T} {cfg : Cfg} {files : List (List Dict)}
    (h : files.all (fun f => f.all fun r => (mark O cfg.pids cfg.tids r).all fun m => decide (m.attr ≠ str "gputrace")) = true) :
    ∀ f ∈ files, ∀ r ∈ f, ∀ m, mark O cfg.pids cfg.tids r = some m → m.attr ≠ str "gputrace" := by
  intro f hf r hr m hm
  have := List.all_eq_true.1 (List.all_eq_true.1 h f hf) r hr
  rw [hm] at this
  exact of_decide_eq_true this

open Demo in
/-- C105: the example meets the conditions of `C105_regions_partial`, and this is its output: threads and processes are kept apart,
nested regions and equal time stamps are paired correctly -/
theorem C105_demo :
    (∀ f ∈ [file1, file0], ∀ r ∈ f, ∀ m, mark ops cfg.pids cfg.tids r = some m → m.attr ≠ str "gputrace") ∧
    (∀ f ∈ [file1, file0], ∀ loc ∈ [((1 : Int), (7 : Int)), (1, 8), (0, 7)],
      (marksAt ops cfg.pids cfg.tids loc f).Pairwise fun a b => ops.le a.time b.time = true) ∧
    (convert ops cfg (Conv.init Int) [file1, file0]).map (·.records) = some
      [.complete 1 (.num 8) (.one (.text (str "work"))) (.one (.text (str "region"))) 3 1 none,
       .complete 1 (.num 7) (.one (.text (str "it"))) (.one (.text (str "loop"))) 2 3 none,
       .complete 1 (.num 7) (.one (.text (str "solve"))) (.one (.text (str "region"))) 2 3 none,
       .complete 1 (.num 7) (.one (.text (str "main"))) (.one (.text (str "region"))) 1 8 none,
       .complete 0 (.num 7) (.one (.text (str "main"))) (.one (.text (str "region"))) 1 7 none] := by
  refine ⟨names_ok (by decide +kernel), by decide +kernel, by decide +kernel⟩

open Demo in
/-- C105: counters, activities, samples and synchronization in an example -/
theorem C105_demo_others :
    (convert ops cfg (Conv.init Int) [fileX]).map (fun c => (syncTimes ops c).records) = some
      [.complete 0 (.name (str "cuda")) (.one (.text (str "k1"))) (.one (.text (str "kernel"))) 1 3 none,
       .counter 0 0 (str "mem") 70 [(str "rss", 512)],
       .counter 0 0 (str "Alloc HOST") 71 [(str "size", 64)]] ∧
    (convert ops cfg (Conv.init Int) [fileX]).map (·.samples) = some [⟨0, 0, 80, none, some 1⟩] ∧
    (convert ops cfg (Conv.init Int) [fileX]).map (·.frames) = some
      [⟨.text (str "main"), str "callstack", none⟩, ⟨.text (str "g"), str "callstack", some 0⟩] ∧
    (convert ops cfg (Conv.init Int) [fileX]).map (·.tsync) = some [(1, 40), (0, 60)] ∧
    (convert ops cfg (Conv.init Int) [file1, fileX]).map (fun c => (syncTimes ops c).records.take 1) = some
      [.complete 1 (.num 8) (.one (.text (str "work"))) (.one (.text (str "region"))) 23 1 none] := by
  refine ⟨?_, ?_, ?_, ?_, ?_⟩ <;> decide +kernel

open Demo in
/-- C105: the conditions of `C105_no_exception` can be met -/
theorem C105_no_exception_demo :
    (∀ f ∈ [file0], ∀ r ∈ f, ∀ m, mark ops cfg.pids cfg.tids r = some m → m.attr ≠ str "gputrace") ∧
    (∀ loc, ∀ f ∈ [file0], (marksAt ops cfg.pids cfg.tids loc f).Pairwise fun a b => ops.le a.time b.time = true) ∧
    (∀ f ∈ [file0], ∀ r ∈ f, Readable ops cfg r) ∧
    (∀ loc, ∃ out, Pairs ([file0].flatMap (marksAt ops cfg.pids cfg.tids loc)) out) := by
  have e : file0.filterMap (mark ops cfg.pids cfg.tids) =
      [⟨0, 7, true, str "region", .one (.text (str "main")), 1, none⟩, ⟨0, 7, false, str "region", .one (.text (str "main")), 8, none⟩] := by
    decide +kernel
  have em : ∀ loc : Int × Int, marksAt ops cfg.pids cfg.tids loc file0 = if loc = (0, 7) then
      [⟨0, 7, true, str "region", .one (.text (str "main")), 1, none⟩, ⟨0, 7, false, str "region", .one (.text (str "main")), 8, none⟩]
      else [] := by
    intro loc
    unfold marksAt
    rw [e]
    by_cases h : loc = (0, 7)
    · subst h; simp
    · rw [if_neg h, List.filter_eq_nil_iff]
      intro m hm
      have : ¬ ((0 : Int) = loc.1 ∧ (7 : Int) = loc.2) := fun h' => h (Prod.ext h'.1.symm h'.2.symm)
      rcases List.mem_cons.1 hm with rfl | hm
      · simpa using this
      · rw [List.mem_singleton.1 hm]; simpa using this
  refine ⟨names_ok (by decide +kernel), ?_, ?_, ?_⟩
  · intro loc f hf
    rw [List.mem_singleton.1 hf, em]
    split
    · simp [ops]
    · exact .nil
  · have hr : ∀ r ∈ file0, otherKinds.any (has r) = false ∧ (place cfg.pids r).isSome ∧ (place cfg.tids r).isSome ∧
        (Spec.time ops r).isSome ∧ has r (str "rss") = false ∧ val r (str "source.function#callpath.address") ≠ some (.many []) := by
      decide +kernel
    intro f hf r hrf
    rw [List.mem_singleton.1 hf] at hrf
    obtain ⟨h1, h2, h3, h4, h5, h6⟩ := hr r hrf
    refine ⟨h1, h2, h3, .inr h4, ?_, h6⟩
    intro g hg a ha hh
    have hg : g = (str "mem", [str "rss"]) := List.mem_singleton.1 hg
    subst hg
    rw [List.mem_singleton.1 ha, h5] at hh
    cases hh
  · intro loc
    rw [List.flatMap_cons, em]
    split
    · exact ⟨_, .stop (pre := []) (mid := []) (.start (es := []) .nil rfl) rfl rfl rfl .nil⟩
    · exact ⟨[], .nil⟩

/-- the records of a process: a region that begins before the rank is known (before `MPI_Init`) and ends afterwards -/
def earlyRegion (rank : String) : List Dict :=
  [Demo.mk [("event.begin#region", "main"), ("time.offset.ns", "1000")],
   Demo.mk [("mpi.rank", rank), ("event.end#region", "main"), ("time.offset.ns", "9000")]]

open Demo in
/-- C105 does not hold in full: a region that begins before the process's rank is known is filed under process 0, so that on every
other process its end has no begin and the whole conversion, also of the other files, is aborted by an exception -/
theorem C105_rank_violated :
    (convert ops cfg (Conv.init Int) [earlyRegion "0"]).isSome = true ∧
    (convert ops cfg (Conv.init Int) [file0, earlyRegion "1"]).isNone = true ∧
    (convert ops cfg (Conv.init Int) [file0]).isSome = true := by
  refine ⟨?_, ?_, ?_⟩ <;> decide +kernel

open Demo in
/-- C105 does not hold in full: one end event without a begin (a trace that starts inside a region) aborts the whole conversion -/
theorem C105_unmatched_violated :
    (convert ops cfg (Conv.init Int) [file1 ++ [ev "2" "1" "500" "event.end#region" "main"]]).isNone = true := by decide +kernel

/-- two threads whose records have no thread id -/
def anonymous (ns what name : String) : Dict := Demo.mk [(what, name), ("time.offset.ns", ns)]

open Demo in
/-- C105 does not hold in full: events of threads without ids (neither OpenMP nor pthread ids recorded) are paired across threads: `a` of
one thread lasts from 1 to 3 and `b` of the other from 2 to 4, the output shows `a` from 2 to 3 and `b` from 1 to 4 -/
theorem C105_anonymous_threads_violated :
    (convert ops cfg (Conv.init Int) [[anonymous "1000" "event.begin#region" "a", anonymous "3000" "event.end#region" "a",
        anonymous "2000" "event.begin#region" "b", anonymous "4000" "event.end#region" "b"]]).map (·.records) = some
      [.complete 0 (.num 0) (.one (.text (str "a"))) (.one (.text (str "region"))) 2 1 none,
       .complete 0 (.num 0) (.one (.text (str "b"))) (.one (.text (str "region"))) 1 3 none] := by decide +kernel

open Demo in
/-- C105: nested device blocks in an example: each end goes with the last begin of its block that is still open, the name is that of the innermost
region -/
theorem C105_demo_device :
    (convert ops cfg (Conv.init Int) [[
        Demo.mk [("gputrace.begin", "1"), ("gputrace.block", "0"), ("gputrace.timestamp", "2000")],
        Demo.mk [("gputrace.begin", "2"), ("gputrace.block", "0"), ("gputrace.timestamp", "5000")],
        Demo.mk [("gputrace.begin", "1"), ("gputrace.block", "3"), ("gputrace.timestamp", "6000")],
        (.text (str "gputrace.region"), .many [.text (str "main"), .text (str "kern")]) ::
          Demo.mk [("gputrace.end", "2"), ("gputrace.block", "0"), ("gputrace.timestamp", "9000")],
        Demo.mk [("gputrace.end", "1"), ("gputrace.block", "3"), ("gputrace.timestamp", "10000"), ("gputrace.region", "copy")],
        Demo.mk [("gputrace.end", "1"), ("gputrace.block", "0"), ("gputrace.timestamp", "20000"), ("gputrace.region", "main")]]]).map (·.records) = some
      [.complete 0 (.name (str "block.0")) (.one (.text (str "kern"))) (.one (.text (str "gpu"))) 5 4 none,
       .complete 0 (.name (str "block.3")) (.one (.text (str "copy"))) (.one (.text (str "gpu"))) 6 4 none,
       .complete 0 (.name (str "block.0")) (.one (.text (str "main"))) (.one (.text (str "gpu"))) 2 18 none] := by decide +kernel

open Demo in
/-- C105: the condition on the name `gputrace` is needed: such an attribute shares its stack with device blocks -/
theorem C105_gputrace_violated :
    (convert ops cfg (Conv.init Int) [[anonymous "1000" "event.begin#gputrace" "a",
        Demo.mk [("gputrace.begin", "1"), ("gputrace.block", "0"), ("gputrace.timestamp", "2000")],
        anonymous "4000" "event.end#gputrace" "a"]]).map (·.records) = some
      [.complete 0 (.num 0) (.one (.text (str "a"))) (.one (.text (str "gputrace"))) 2 2 none] := by decide +kernel

end Verif.TraceEv
