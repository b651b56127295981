import Verif.Serv.PcpSpec
import Mathlib.Data.List.Induction
import Mathlib.Data.List.Nodup

/-! # C121: the pcp service records the values and increases of the configured metrics -/

namespace Verif.Serv.Pcp
open Verif Verif.Cali

theorem run_append (ms : List Metric) : ∀ (a b : List (Option Fetch)) (s : PSt),
    run ms s (a ++ b) = ((run ms s a).1 ++ (run ms (run ms s a).2 b).1, (run ms (run ms s a).2 b).2)
  | [], b, s => rfl
  | x :: a, b, s => by
    simp only [List.cons_append, run]
    rw [run_append ms a b]

theorem sumVals_eq : ∀ l : List (Option Int), sumVals l = ((l.filterMap id).sum, (l.filterMap id).length)
  | [] => rfl
  | none :: l => by simp [sumVals, sumVals_eq l]
  | some v :: l => by simp [sumVals, sumVals_eq l]

/-- the total of a set of values -/
def totalOf (l : List (Option Int)) : Option Int := if l.filterMap id = [] then none else some (l.filterMap id).sum

theorem loop_eq : ∀ (ms : List Metric) (ps : List Int) (vs : List (List (Option Int))),
    ps.length = ms.length → vs.length = ms.length → (∀ l ∈ vs, l ≠ [] → l.filterMap id ≠ []) →
    (snapLoop ms ps vs).1 = (ms.mapIdx fun i m => match totalOf (vs.getD i []) with
      | none => []
      | some t => [(str "pcp." ++ m.name, if m.counter then t - ps.getD i 0 else t)]).flatten ∧
    (snapLoop ms ps vs).2.1.length = ms.length ∧
    (∀ i, i < ms.length → (snapLoop ms ps vs).2.1.getD i 0 = (totalOf (vs.getD i [])).getD (ps.getD i 0))
  | [], ps, vs, hp, hv, _ => by
    have : ps = [] := List.length_eq_zero_iff.1 hp
    subst this
    refine ⟨rfl, rfl, fun i h => ?_⟩
    simp at h
  | m :: ms, [], vs, hp, _, _ => by simp at hp
  | m :: ms, p :: ps, [], _, hv, _ => by simp at hv
  | m :: ms, p :: ps, v :: vs, hp, hv, hs => by
    have ih := loop_eq ms ps vs (by simpa using hp) (by simpa using hv) (fun l h => hs l (List.mem_cons_of_mem _ h))
    have h0 := hs v List.mem_cons_self
    rw [List.mapIdx_cons, List.flatten_cons]
    simp only [List.getD_cons_zero, List.getD_cons_succ]
    simp only [snapLoop]
    by_cases hvn : v = []
    · subst hvn
      rw [if_pos (show ([] : List (Option Int)).length < 1 by decide)]
      have e : totalOf [] = none := rfl
      refine ⟨?_, ?_, ?_⟩
      · rw [e, List.nil_append]; exact ih.1
      · simp [ih.2.1]
      · intro i hi
        cases i with
        | zero => simp [e]
        | succ i => simpa using ih.2.2 i (by simpa using hi)
    · have hl : ¬ v.length < 1 := by
        cases v with
        | nil => exact absurd rfl hvn
        | cons => simp
      have hf := h0 hvn
      have ht : totalOf v = some (v.filterMap id).sum := if_neg hf
      have hn : (v.filterMap id).length > 0 := List.length_pos_iff.2 hf
      rw [if_neg hl]
      simp only [sumVals_eq, if_pos hn, ht]
      refine ⟨?_, ?_, ?_⟩
      · rw [ih.1]
      · simp [ih.2.1]
      · intro i hi
        cases i with
        | zero => simp [ht]
        | succ i => simpa using ih.2.2 i (by simpa using hi)

theorem last_snoc (i : Nat) (h : List (Option Fetch)) (f : Option Fetch) : last i (h ++ [f]) = (total i f).or (last i h) := by
  unfold last
  rw [List.reverse_append]
  simp only [List.reverse_cons, List.reverse_nil, List.nil_append, List.cons_append, List.findSome?_cons]
  cases total i f <;> rfl

theorem lastTime_snoc (h : List (Option Fetch)) (f : Option Fetch) : lastTime (h ++ [f]) = (f.map timeOf).or (lastTime h) := by
  unfold lastTime
  rw [List.reverse_append]
  simp only [List.reverse_cons, List.reverse_nil, List.nil_append, List.cons_append, List.findSome?_cons]
  cases f <;> rfl

/-- the members of the instance after the fetches `h` -/
def Mem (ms : List Metric) (h : List (Option Fetch)) (s : PSt) : Prop :=
  s.prev.length = ms.length ∧ (∀ i, i < ms.length → s.prev.getD i 0 = (last i h).getD 0) ∧ s.prevTime = (lastTime h).getD 0 ∧
    s.lookups = (h.filter Option.isSome).length ∧ s.failedLookups = (h.filter Option.isNone).length

theorem total_eq (i : Nat) (f : Fetch) : total i (some f) = totalOf (f.vals.getD i []) := rfl

theorem step_mem (ms : List Metric) (h : List (Option Fetch)) (s : PSt) (f : Option Fetch) (hm : Mem ms h s) (hf : Sound ms.length f) :
    (snapshot ms s f).1 = wanted ms h f ∧ Mem ms (h ++ [f]) (snapshot ms s f).2 := by
  obtain ⟨h1, h2, h3, h4, h5⟩ := hm
  cases f with
  | none =>
    refine ⟨rfl, h1, fun i hi => ?_, ?_, ?_, ?_⟩
    · rw [last_snoc]; exact h2 i hi
    · rw [lastTime_snoc]; exact h3
    · simp only [snapshot, h4, List.filter_append]; simp
    · simp only [snapshot, h5, List.filter_append]; simp
  | some f =>
    obtain ⟨l1, l2, l3⟩ := loop_eq ms s.prev f.vals h1 hf.1 hf.2
    refine ⟨?_, l2, fun i hi => ?_, ?_, ?_, ?_⟩
    · simp only [snapshot, wanted, l1, h3]
      have e : (List.mapIdx (fun i m => match totalOf (f.vals.getD i []) with
          | none => []
          | some t => [(str "pcp." ++ m.name, if m.counter then t - s.prev.getD i 0 else t)]) ms) =
          List.mapIdx (fun i m => wantedMetric h (some f) i m) ms := by
        apply List.ext_getElem
        · simp
        · intro i hi _
          have hi' : i < ms.length := by simpa using hi
          rw [List.getElem_mapIdx, List.getElem_mapIdx]
          simp only [wantedMetric, total_eq, h2 i hi']
          cases totalOf (f.vals.getD i []) <;> rfl
      rw [e]
      rfl
    · rw [last_snoc, total_eq]
      simp only [snapshot]
      rw [l3 i hi, h2 i hi]
      cases totalOf (f.vals.getD i []) <;> rfl
    · rw [lastTime_snoc]; rfl
    · simp only [snapshot, h4, List.filter_append]; simp
    · simp only [snapshot, h5, List.filter_append]; simp

theorem new_mem (ms : List Metric) : Mem ms [] (PSt.new ms) := by
  refine ⟨by simp [PSt.new], fun i hi => ?_, rfl, rfl, rfl⟩
  simp [PSt.new, last, List.getD_eq_getElem?_getD, hi]

theorem channel_mem (ms : List Metric) (first : Option Fetch) (h : List (Option Fetch))
    (hs : ∀ f ∈ first :: h, Sound ms.length f) : Mem ms (first :: h) (channel ms first h).2 := by
  induction h using List.reverseRecOn with
  | nil => exact (step_mem ms [] _ first (new_mem ms) (hs first List.mem_cons_self)).2
  | append_singleton h f ih =>
    have := ih (fun g hg => hs g (by
      rcases List.mem_cons.1 hg with e | e
      · exact e ▸ List.mem_cons_self
      · exact List.mem_cons_of_mem _ (List.mem_append_left _ e)))
    unfold channel at this ⊢
    rw [run_append]
    exact (step_mem ms (first :: h) _ f this (hs f (by simp))).2

/-- **C121** (records): if every fetch of a channel's instance gives a set of values for each metric and no set has unreadable values
only, each snapshot gets for each metric with values its total over all instances — for a counter the increase since the last fetch
that had values for it — and the time of the fetch and the time since the last one; a snapshot whose fetch fails gets nothing.
Missing: sets with unreadable values only (violated below). -/
theorem C121_records_partial (ms : List Metric) (first : Option Fetch) (h : List (Option Fetch)) (f : Option Fetch)
    (hs : ∀ g ∈ first :: (h ++ [f]), Sound ms.length g) :
    (channel ms first (h ++ [f])).1 = (channel ms first h).1 ++ [wanted ms (first :: h) f] := by
  have hm := channel_mem ms first h (fun g hg => hs g (by
      rcases List.mem_cons.1 hg with e | e
      · exact e ▸ List.mem_cons_self
      · exact List.mem_cons_of_mem _ (List.mem_append_left _ e)))
  have := (step_mem ms (first :: h) _ f hm (hs f (by simp))).1
  unfold channel at this ⊢
  rw [run_append]
  simp only [run, this]

/-- **C121** (log): the numbers in the log are those of the fetches that worked (among them the first) and that failed -/
theorem C121_log (ms : List Metric) (first : Option Fetch) (h : List (Option Fetch)) :
    (channel ms first h).2.lookups = ((first :: h).filter Option.isSome).length ∧
    (channel ms first h).2.failedLookups = ((first :: h).filter Option.isNone).length := by
  have aux : ∀ (h : List (Option Fetch)) (s : PSt), (run ms s h).2.lookups = s.lookups + (h.filter Option.isSome).length ∧
      (run ms s h).2.failedLookups = s.failedLookups + (h.filter Option.isNone).length := by
    intro h
    induction h with
    | nil => intro s; exact ⟨rfl, rfl⟩
    | cons f h ih =>
      intro s
      simp only [run]
      obtain ⟨a, b⟩ := ih (snapshot ms s f).2
      rw [a, b]
      cases f <;> simp [snapshot] <;> omega
  have := aux (first :: h) (PSt.new ms)
  simpa [PSt.new, run, channel] using this

theorem find_mapIdx (h : List (Option Fetch)) (f : Fetch) (ms : List Metric) (i : Nat) (hi : i < ms.length)
    (hn : (ms.map Metric.name).Nodup) (rest : List (Str × Int)) (t : Int) (ht : total i (some f) = some t) :
    valueOf ((ms.mapIdx fun i m => wantedMetric h (some f) i m).flatten ++ rest) (str "pcp." ++ ms[i].name) =
      some (if ms[i].counter then t - (last i h).getD 0 else t) := by
  have key : ∀ (ms : List Metric) (k : Nat) (i : Nat) (hi : i < ms.length), (ms.map Metric.name).Nodup → total (k + i) (some f) = some t →
      valueOf ((ms.mapIdx fun i m => wantedMetric h (some f) (k + i) m).flatten ++ rest) (str "pcp." ++ ms[i].name) =
      some (if ms[i].counter then t - (last (k + i) h).getD 0 else t) := by
    intro ms
    induction ms with
    | nil => intro k i hi; simp at hi
    | cons m ms ih =>
      intro k i hi hn ht
      rw [List.mapIdx_cons, List.flatten_cons, List.append_assoc]
      cases i with
      | zero =>
        simp only [Nat.add_zero] at ht ⊢
        simp [wantedMetric, ht, valueOf]
      | succ i =>
        simp only [List.map_cons, List.nodup_cons] at hn
        have hi' : i < ms.length := by simpa using hi
        have hne : m.name ≠ ms[i].name := fun e => hn.1 (e ▸ List.mem_map_of_mem (List.getElem_mem hi'))
        have e2 : ∀ j : Nat, k + (j + 1) = k + 1 + j := fun j => by omega
        have hd : valueOf (wantedMetric h (some f) (k + 0) m ++ ((ms.mapIdx fun i m => wantedMetric h (some f) (k + (i + 1)) m).flatten ++ rest))
            (str "pcp." ++ ms[i].name) = valueOf ((ms.mapIdx fun i m => wantedMetric h (some f) (k + (i + 1)) m).flatten ++ rest) (str "pcp." ++ ms[i].name) := by
          unfold wantedMetric
          cases total (k + 0) (some f) with
          | none => rfl
          | some u => simp [valueOf, List.find?_cons, hne]
        simp only [List.getElem_cons_succ]
        rw [hd]
        have := ih (k + 1) i hi' hn.2 (by rw [← e2]; exact ht)
        have ef : (fun (i : Nat) (m : Metric) => wantedMetric h (some f) (k + (i + 1)) m) = fun i m => wantedMetric h (some f) (k + 1 + i) m := by
          funext j m
          rw [e2 j]
        rw [ef, e2 i]
        exact this
  have := key ms 0 i hi hn (by simpa using ht)
  simpa using this

theorem valueOf_none (h : List (Option Fetch)) (f : Fetch) (ms : List Metric) (i : Nat) (hi : i < ms.length)
    (hn : (ms.map Metric.name).Nodup) (ht : total i (some f) = none) :
    valueOf (ms.mapIdx fun i m => wantedMetric h (some f) i m).flatten (str "pcp." ++ ms[i].name) = none := by
  unfold valueOf
  rw [Option.map_eq_none_iff, List.find?_eq_none]
  intro x hx
  rw [List.mem_flatten] at hx
  obtain ⟨l, hl, hx⟩ := hx
  rw [List.mem_mapIdx] at hl
  obtain ⟨j, hj, rfl⟩ := hl
  unfold wantedMetric at hx
  cases e : total j (some f) with
  | none => rw [e] at hx; simp at hx
  | some u =>
    rw [e] at hx
    simp only [List.mem_singleton] at hx
    subst hx
    simp only [decide_eq_true_eq, List.append_cancel_left_eq]
    intro hc
    have : j = i := by
      have := (List.Nodup.getElem_inj_iff hn (i := j) (j := i) (hi := by simpa using hj) (hj := by simpa using hi)).1 (by simpa using hc)
      exact this
    subst this
    rw [ht] at e
    cases e

/-- **C121** (increases add up): if, moreover, the first fetch has values for a counter and no two metrics have the same name (nor one of the names of the time
entries), the increases in a channel's records add up to the increase of the counter from the first fetch to the last one that has values for it -/
theorem C121_increase_partial (ms : List Metric) (first : Option Fetch) (h : List (Option Fetch))
    (hs : ∀ g ∈ first :: h, Sound ms.length g) (i : Nat) (hi : i < ms.length) (hc : ms[i].counter = true)
    (hn : (ms.map Metric.name).Nodup) (ht : ms[i].name ∉ [str "timestamp.sec", str "timestamp", str "time.duration"])
    (a : Int) (h0 : total i first = some a) :
    recorded ms i hi (channel ms first h).1 = increase ((first :: h).filterMap (total i)) := by
  have hlast : ∀ l : List (Option Fetch), ((l.filterMap (total i)).getLast?) = last i l := by
    intro l
    induction l using List.reverseRecOn with
    | nil => rfl
    | append_singleton l x ih =>
      rw [last_snoc, List.filterMap_append, ← ih]
      cases e : total i x <;> simp [e]
  have hhead : ∀ l : List (Option Fetch), increase ((first :: l).filterMap (total i)) = (last i (first :: l)).getD 0 - a := by
    intro l
    unfold increase
    rw [← hlast, List.filterMap_cons, h0]
    simp only [List.headD_cons]
    rw [List.getLastD_eq_getLast?]
  rw [hhead]
  induction h using List.reverseRecOn with
  | nil =>
    have : last i [first] = some a := by simp [last, h0]
    rw [this]
    simp [channel, run, recorded]
  | append_singleton h f ih =>
    have hs' : ∀ g ∈ first :: h, Sound ms.length g := fun g hg => hs g (by
      rcases List.mem_cons.1 hg with e | e
      · exact e ▸ List.mem_cons_self
      · exact List.mem_cons_of_mem _ (List.mem_append_left _ e))
    have ih := ih hs'
    rw [C121_records_partial ms first h f hs]
    unfold recorded at ih ⊢
    rw [List.filterMap_append, List.sum_append, ih]
    have e : last i (first :: (h ++ [f])) = (total i f).or (last i (first :: h)) := last_snoc i (first :: h) f
    rw [e]
    cases f with
    | none =>
      have hw : valueOf (wanted ms (first :: h) none) (str "pcp." ++ ms[i].name) = none := rfl
      simp [hw, total]
    | some f =>
      cases et : total i (some f) with
      | none =>
        have hv := valueOf_none (first :: h) f ms i hi hn et
        have hw : valueOf (wanted ms (first :: h) (some f)) (str "pcp." ++ ms[i].name) = none := by
          unfold valueOf at hv ⊢
          rw [Option.map_eq_none_iff] at hv ⊢
          simp only [wanted, List.find?_append, hv]
          simp only [List.mem_cons, List.not_mem_nil, or_false, not_or] at ht
          have e1 : str "pcp.timestamp.sec" = str "pcp." ++ str "timestamp.sec" := by decide
          have e2 : str "pcp.timestamp" = str "pcp." ++ str "timestamp" := by decide
          have e3 : str "pcp.time.duration" = str "pcp." ++ str "time.duration" := by decide
          rw [e1, e2, e3]
          simp [List.find?_cons, Ne.symm ht.1, Ne.symm ht.2.1, Ne.symm ht.2.2]
        simp [hw]
      | some t =>
        have hv := find_mapIdx (first :: h) f ms i hi hn
          [(str "pcp.timestamp.sec", f.sec), (str "pcp.timestamp", timeOf f), (str "pcp.time.duration", timeOf f - (lastTime (first :: h)).getD 0)] t et
        have hw : valueOf (wanted ms (first :: h) (some f)) (str "pcp." ++ ms[i].name) = some (t - (last i (first :: h)).getD 0) := by
          rw [hc] at hv
          exact hv
        simp only [List.filterMap_cons, hw, List.filterMap_nil, List.sum_cons, List.sum_nil, Option.some_or, Option.getD_some]
        omega

/-- a gauge and a counter -/
def msEx : List Metric := [⟨str "mem.free", false⟩, ⟨str "net.bytes", true⟩]

/-- two fetches -/
def f0 : Fetch := ⟨[[some 5], [some 100, some 20]], 10, 0⟩
@[inherit_doc f0]
def f1 : Fetch := ⟨[[some 7], [some 110, some 25]], 12, 500000⟩

/-- an example: the counter's two instances are added up, one fetch fails, one has no value for the counter -/
theorem C121_example :
    (∀ g ∈ [some f0, some f1, none, some ⟨[[some 7], []], 13, 0⟩, some ⟨[[some 1], [some 120, none]], 14, 0⟩], Sound msEx.length g) ∧
    (channel msEx (some f0) [some f1, none, some ⟨[[some 7], []], 13, 0⟩]).1 =
      [[(str "pcp.mem.free", 7), (str "pcp.net.bytes", 15), (str "pcp.timestamp.sec", 12), (str "pcp.timestamp", 12500000), (str "pcp.time.duration", 2500000)],
       [],
       [(str "pcp.mem.free", 7), (str "pcp.timestamp.sec", 13), (str "pcp.timestamp", 13000000), (str "pcp.time.duration", 500000)]] ∧
    (msEx.map Metric.name).Nodup ∧ total 1 (some f0) = some 120 := by
  refine ⟨?_, ?_, ?_, ?_⟩
  · intro g hg
    simp only [List.mem_cons, List.not_mem_nil, or_false] at hg
    rcases hg with rfl | rfl | rfl | rfl | rfl
    · exact ⟨rfl, by decide⟩
    · exact ⟨rfl, by decide⟩
    · trivial
    · exact ⟨rfl, by decide⟩
    · exact ⟨rfl, by decide⟩
  all_goals decide +kernel

/-- **C121**, violation: a fetch whose values for a counter cannot be read makes the next record show the full value of the counter as its increase -/
theorem C121_violation_unreadable (p v t u : Int) :
    ((channel [⟨str "net.bytes", true⟩] (some ⟨[[some p]], t, 0⟩) [some ⟨[[none]], t, 0⟩, some ⟨[[some v]], u, 0⟩]).1.map
      fun r => valueOf r (str "pcp.net.bytes")) = [none, some v] ∧
    wantedMetric [some ⟨[[some p]], t, 0⟩, some ⟨[[none]], t, 0⟩] (some ⟨[[some v]], u, 0⟩) 0 ⟨str "net.bytes", true⟩ = [(str "pcp.net.bytes", v - p)] := by
  constructor
  · have hne : ∀ x ∈ [str "pcp.timestamp.sec", str "pcp.timestamp", str "pcp.time.duration"], x ≠ str "pcp.net.bytes" := by decide
    have e : str "pcp." ++ str "net.bytes" = str "pcp.net.bytes" := by decide
    have h1 := hne (str "pcp.timestamp.sec") (by simp)
    have h2 := hne (str "pcp.timestamp") (by simp)
    have h3 := hne (str "pcp.time.duration") (by simp)
    simp only [channel, run, snapshot, snapLoop, sumVals, PSt.new, List.map_cons, List.map_nil, List.length_cons, List.length_nil, e, valueOf]
    simp [snapLoop, sumVals, List.find?_cons, h1, h2, h3, e]
  · have e : str "pcp." ++ str "net.bytes" = str "pcp.net.bytes" := by decide
    simp [wantedMetric, total, readable, last, e]

/-- **C121**, violation: if the fetch at the start fails, the first record shows the full value of each counter, and the full time, as increases -/
theorem C121_violation_first (ms : List Metric) (f : Fetch) (hl : f.vals.length = ms.length) (hs : ∀ l ∈ f.vals, l ≠ [] → l.filterMap id ≠ []) :
    (channel ms none [some f]).1 = [(ms.mapIdx fun i m => match total i (some f) with
        | none => []
        | some t => [(str "pcp." ++ m.name, t)]).flatten ++
      [(str "pcp.timestamp.sec", f.sec), (str "pcp.timestamp", timeOf f), (str "pcp.time.duration", timeOf f)]] := by
  have := C121_records_partial ms none [] (some f) (by
    intro g hg
    simp only [List.nil_append, List.mem_cons, List.not_mem_nil, or_false] at hg
    rcases hg with rfl | rfl
    · trivial
    · exact ⟨hl, hs⟩)
  rw [List.nil_append] at this
  rw [this]
  have e1 : ∀ i, last i [none] = none := fun _ => rfl
  have e2 : lastTime [none] = none := rfl
  have e3 : (fun (i : Nat) (m : Metric) => wantedMetric [none] (some f) i m) = fun i m => (match total i (some f) with
        | none => []
        | some t => [(str "pcp." ++ m.name, t)]) := by
    funext i m
    unfold wantedMetric
    rw [e1]
    cases total i (some f) <;> simp
  simp only [wanted, e2, e3]
  simp [channel, run]

/-! ## the context -/

theorem kept_usable : ∀ (h : List Ev) (g : Glob), Kept h g.num → (g.num = 0 → g.ctx = none) → (0 < g.num → usable g = true) →
    (0 < (glob g h).num → usable (glob g h) = true)
  | [], g, _, _, h2 => h2
  | .finish :: h, g, hk, h1, h2 => by
    simp only [Kept] at hk
    have e : finishCtx g = { g with num := g.num - 1 } := if_neg (by omega)
    simp only [glob]
    refine kept_usable h (finishCtx g) (by rw [e]; exact hk.2) ?_ ?_
    · rw [e]; intro h0; simp only at h0; omega
    · rw [e]; intro _; exact h2 (by omega)
  | .make m r c k :: h, g, hk, h1, h2 => by
    simp only [glob]
    simp only [Kept] at hk
    by_cases hm : m = false ∨ r ≠ 0
    · rw [if_pos hm] at hk
      have e : make g m r c k = (g, false) := by
        unfold make
        rcases hm with rfl | hr
        · rfl
        · rw [if_pos hr]; split <;> rfl
      rw [e]
      exact kept_usable h g hk h1 h2
    · rw [if_neg hm] at hk
      simp only [not_or, Bool.not_eq_false, ne_eq, Decidable.not_not] at hm
      obtain ⟨rfl, rfl⟩ := hm
      by_cases h0 : g.num = 0
      · have hx := h1 h0
        cases c with
        | none =>
          rw [if_pos ⟨h0, rfl⟩] at hk
          have e : make g true 0 none k = (g, false) := by
            simp [make, initCtx, hx]
          rw [e]
          exact kept_usable h g hk h1 h2
        | some c =>
          rw [if_neg (by simp)] at hk
          obtain ⟨rfl, hk⟩ := hk
          have e : make g true 0 (some c) true = ({ g with ctx := some c, live := c :: g.live, num := g.num + 1 }, true) := by
            simp [make, initCtx, hx, usable]
          rw [e]
          exact kept_usable h _ hk (by intro h; simp at h) (by intro _; simp [usable])
      · rw [if_neg (by simp [h0])] at hk
        obtain ⟨rfl, hk⟩ := hk
        have hu := h2 (by omega)
        cases hx : g.ctx with
        | none => simp [usable, hx] at hu
        | some d =>
          have hd : d ∈ g.live := by simpa [usable, hx] using hu
          have e : make g true 0 c true = ({ g with num := g.num + 1 }, true) := by
            simp [make, initCtx, hx, usable, hd]
          rw [e]
          exact kept_usable h _ hk (by intro h; simp at h) (by intro _; simpa [usable, hx] using hd)

/-- **C121** (context): as long as no channel was given unknown metrics and there was always a channel with the service left, the context is there while there is
one. Missing: channels made after that (violated below) -/
theorem C121_context_partial (h : List Ev) (hk : Kept h 0) (hn : 0 < (glob .new h).num) : usable (glob .new h) = true :=
  kept_usable h .new hk (fun _ => rfl) (by intro h; simp [Glob.new] at h) hn

/-- an example: two channels, one of them finished -/
theorem C121_context_example :
    Kept [.make true 0 (some 3) true, .make true 0 none true, .make true 1 none true, .finish] 0 ∧
    glob .new [.make true 0 (some 3) true, .make true 0 none true, .make true 1 none true, .finish] = ⟨some 3, 1, [3]⟩ := by
  refine ⟨?_, by decide⟩
  simp [Kept]

theorem dead_forever : ∀ (h : List Ev) (g : Glob) (c : Nat), g.ctx = some c → c ∉ g.live →
    (glob g h).ctx = some c ∧ c ∉ (glob g h).live
  | [], _, _, h1, h2 => ⟨h1, h2⟩
  | .finish :: h, g, c, h1, h2 => by
    simp only [glob]
    refine dead_forever h _ c ?_ ?_
    · unfold finishCtx; split <;> exact h1
    · unfold finishCtx
      split
      · simp only [h1, List.mem_filter, not_and]
        intro hx; exact absurd hx h2
      · exact h2
  | .make m r n k :: h, g, c, h1, h2 => by
    simp only [glob]
    have e : (make g m r n k).1.ctx = some c ∧ c ∉ (make g m r n k).1.live := by
      unfold make
      split
      · exact ⟨h1, h2⟩
      · split
        · exact ⟨h1, h2⟩
        · have e0 : initCtx g n = g := by simp [initCtx, h1]
          have eu : usable ⟨some c, g.num + 1, g.live⟩ = false := by simp [usable, h2]
          simp only [e0, h1, eu, Bool.false_and, Bool.false_eq_true, if_false]
          unfold finishCtx
          split
          · exact ⟨rfl, by simp [h2]⟩
          · exact ⟨rfl, h2⟩
    exact dead_forever h _ c e.1 e.2

/-- **C121**, violation: when the last channel with the service is finished, the context is destroyed but remembered: whatever happens later, no channel in the
process gets the service again -/
theorem C121_violation_context (c : Nat) (h : List Ev) (m : Bool) (r : Int) (n : Option Nat) (k : Bool) :
    (make (glob .new ([.make true 0 (some c) true, .finish] ++ h)) m r n k).2 = false := by
  have e : ∀ h, glob .new ([.make true 0 (some c) true, .finish] ++ h) = glob ⟨some c, 0, []⟩ h := by
    intro h
    simp [glob, make, initCtx, Glob.new, usable, finishCtx]
  rw [e]
  obtain ⟨h1, h2⟩ := dead_forever h ⟨some c, 0, []⟩ c rfl (by simp)
  generalize glob ⟨some c, 0, []⟩ h = g at h1 h2
  unfold make
  split
  · rfl
  · split
    · rfl
    · have e0 : initCtx g n = g := by simp [initCtx, h1]
      have eu : usable ⟨some c, g.num + 1, g.live⟩ = false := by simp [usable, h2]
      simp only [e0, h1, eu, Bool.false_and, Bool.false_eq_true, if_false]

/-- **C121**, violation: so it is after the first channel with the service names a metric the library does not know -/
theorem C121_violation_unknown (c : Nat) (h : List Ev) (m : Bool) (r : Int) (n : Option Nat) (k : Bool) :
    (make (glob .new (.make true 0 (some c) false :: h)) m r n k).2 = false := by
  have e : glob .new (.make true 0 (some c) false :: h) = glob .new ([.make true 0 (some c) true, .finish] ++ h) := by
    simp [glob, make, initCtx, Glob.new, usable, finishCtx]
  rw [e]
  exact C121_violation_context c h m r n k

/-! ## pcp.memory -/

theorem sumAttrs_eq (rc : List (Str × Int)) : ∀ as : List Str, sumAttrs rc as =
    ((as.filterMap (valueOf rc)).sum, (as.filterMap (valueOf rc)).length)
  | [] => rfl
  | a :: as => by
    cases e : rc.find? (fun e => e.1 = a) with
    | none => simp [sumAttrs, e, valueOf, sumAttrs_eq rc as]
    | some x => simp [sumAttrs, e, valueOf, sumAttrs_eq rc as]

theorem findAttrs_all (db : List Str) (pre : Str) (ms : List Str)
    (h : (pre = str "sum#pcp." ∧ ∀ m ∈ ms, pre ++ m ∈ db) ∨
      (pre = str "pcp." ∧ ∀ m ∈ ms, pre ++ m ∈ db ∧ str "sum#pcp." ++ m ∉ db)) :
    findAttrs db ms = ms.map (pre ++ ·) := by
  induction ms with
  | nil => rfl
  | cons m ms ih =>
    have ih := ih (h.imp (fun x => ⟨x.1, fun y hy => x.2 y (List.mem_cons_of_mem _ hy)⟩) (fun x => ⟨x.1, fun y hy => x.2 y (List.mem_cons_of_mem _ hy)⟩))
    rcases h with ⟨rfl, h⟩ | ⟨rfl, h⟩
    · have := h m List.mem_cons_self
      simp only [findAttrs, if_pos this, ih, List.map_cons]
    · have := h m List.mem_cons_self
      simp only [findAttrs, if_neg this.2, if_pos this.1, ih, List.map_cons]

theorem post_eq (pre : Str) (n : Nat) (rc : List (Str × Int)) :
    postprocess ⟨rdMetrics.map (pre ++ ·), wrMetrics.map (pre ++ ·), n⟩ rc = withBytes pre rc := by
  unfold postprocess withBytes bytes
  simp only [sumAttrs_eq, List.filterMap_map, Function.comp_def]
  generalize rdMetrics.filterMap (fun m => valueOf rc (pre ++ m)) = a
  generalize wrMetrics.filterMap (fun m => valueOf rc (pre ++ m)) = b
  cases a <;> cases b <;> simp

/-- **C121** (memory): if the aggregated counters exist at every flush (or they never exist and the plain ones do at every flush), each record that is flushed gets 64 bytes for each count
in it: the sums of its read and of its write counters, and no entry if it has none of them. Missing: channels with records of both kinds -/
theorem C121_memory_partial (pre : Str) (fs : List (List Str × List (List (Str × Int))))
    (h : ∀ x ∈ fs, (pre = str "sum#pcp." ∧ ∀ m ∈ rdMetrics ++ wrMetrics, pre ++ m ∈ x.1) ∨
      (pre = str "pcp." ∧ ∀ m ∈ rdMetrics ++ wrMetrics, pre ++ m ∈ x.1 ∧ str "sum#pcp." ++ m ∉ x.1)) :
    flushes .new fs = fs.map fun x => x.2.map (withBytes pre) := by
  have hfull : ∀ fs : List (List Str × List (List (Str × Int))), flushes ⟨rdMetrics.map (pre ++ ·), wrMetrics.map (pre ++ ·), 1⟩ fs =
      fs.map fun x => x.2.map (withBytes pre) := by
    intro fs
    induction fs with
    | nil => rfl
    | cons x fs ih =>
      obtain ⟨db, recs⟩ := x
      have e : preFlush db ⟨rdMetrics.map (pre ++ ·), wrMetrics.map (pre ++ ·), 1⟩ = ⟨rdMetrics.map (pre ++ ·), wrMetrics.map (pre ++ ·), 1⟩ :=
        if_pos (by simp [rdMetrics]; omega)
      simp only [flushes, e, ih, List.map_cons]
      congr 1
      apply List.map_congr_left
      intro r _
      simp only [applyCbs]
      exact post_eq pre 1 r
  cases fs with
  | nil => rfl
  | cons x fs =>
    obtain ⟨db, recs⟩ := x
    have hx := h (db, recs) List.mem_cons_self
    have e : preFlush db .new = ⟨rdMetrics.map (pre ++ ·), wrMetrics.map (pre ++ ·), 1⟩ := by
      have e1 := findAttrs_all db pre rdMetrics (hx.imp (fun y => ⟨y.1, fun m hm => y.2 m (List.mem_append_left _ hm)⟩) (fun y => ⟨y.1, fun m hm => y.2 m (List.mem_append_left _ hm)⟩))
      have e2 := findAttrs_all db pre wrMetrics (hx.imp (fun y => ⟨y.1, fun m hm => y.2 m (List.mem_append_right _ hm)⟩) (fun y => ⟨y.1, fun m hm => y.2 m (List.mem_append_right _ hm)⟩))
      unfold preFlush
      rw [if_neg (show ¬ MSt.new.rd.length + MSt.new.wr.length > 0 by decide)]
      simp only [e1, e2]
      simp [rdMetrics, MSt.new]
    have := hfull ((db, recs) :: fs)
    simp only [flushes] at this ⊢
    rw [e]
    rw [show preFlush db ⟨rdMetrics.map (pre ++ ·), wrMetrics.map (pre ++ ·), 1⟩ = ⟨rdMetrics.map (pre ++ ·), wrMetrics.map (pre ++ ·), 1⟩ from
        if_pos (by simp [rdMetrics]; omega)] at this
    exact this

/-- all aggregated counters -/
def dbEx : List Str := (rdMetrics ++ wrMetrics).map (str "sum#pcp." ++ ·)

/-- the counters the metrics name: four memory channels, reads and writes -/
theorem C121_memory_counters :
    (rdMetrics.zip wrMetrics).map (fun p => (p.1.length, p.2.length)) = List.replicate 4 (59, 59) ∧
    rdMetrics = [str "0", str "1", str "4", str "5"].map (fun i => str "perfevent.hwcounters.bdx_unc_imc" ++ i ++ str "__UNC_M_CAS_COUNT_RD.value") ∧
    wrMetrics = [str "0", str "1", str "4", str "5"].map (fun i => str "perfevent.hwcounters.bdx_unc_imc" ++ i ++ str "__UNC_M_CAS_COUNT_WR.value") := by
  refine ⟨?_, ?_, ?_⟩ <;> decide +kernel

/-- an example: two flushes -/
theorem C121_memory_example :
    (∀ m ∈ rdMetrics ++ wrMetrics, str "sum#pcp." ++ m ∈ dbEx) ∧
    flushes .new [(dbEx, [[(str "x", 1)], [(dbEx[0], 2), (dbEx[3], 3), (str "x", 1)]]), (dbEx, [[(dbEx[5], 4)]])] =
      [[[((str "x" : Str), (1 : Int))], [(dbEx[0], 2), (dbEx[3], 3), (str "x", 1), (str "mem.bytes.read", 320)]],
       [[(dbEx[5], 4), (str "mem.bytes.written", 256)]]] := by
  refine ⟨fun m hm => List.mem_map_of_mem hm, by decide +kernel⟩

/-- **C121**, violation: in a channel that also aggregates, the records of a trace get no bytes: the aggregated counters exist, the records have the plain ones -/
theorem C121_violation_trace (v : Int) (m : Str) (hm : m ∈ rdMetrics) (w : Int) :
    flushes .new [(dbEx ++ [str "pcp." ++ m], [[(str "pcp." ++ m, v)]])] = [[[(str "pcp." ++ m, v)]]] ∧
    bytes (str "pcp.") rdMetrics [(str "pcp." ++ m, w)] = some (64 * w) := by
  have hr : ∀ m ∈ rdMetrics, m = rdMetrics[0] ∨ m = rdMetrics[1] ∨ m = rdMetrics[2] ∨ m = rdMetrics[3] := by decide +kernel
  have key : ∀ m ∈ rdMetrics, (preFlush (dbEx ++ [str "pcp." ++ m]) .new = ⟨rdMetrics.map (str "sum#pcp." ++ ·), wrMetrics.map (str "sum#pcp." ++ ·), 1⟩) ∧
      (∀ a ∈ rdMetrics.map (str "sum#pcp." ++ ·) ++ wrMetrics.map (str "sum#pcp." ++ ·), str "pcp." ++ m ≠ a) := by decide +kernel
  have nd : rdMetrics.Nodup := by decide +kernel
  obtain ⟨k1, k2⟩ := key m hm
  constructor
  · have hf : ∀ as : List Str, (∀ a ∈ as, str "pcp." ++ m ≠ a) → as.filterMap (valueOf [(str "pcp." ++ m, v)]) = [] := by
      intro as ha
      rw [List.filterMap_eq_nil_iff]
      intro a h
      simp [valueOf, List.find?_cons, ha a h]
    simp only [flushes, k1, List.map_cons, List.map_nil, applyCbs, postprocess, sumAttrs_eq]
    rw [hf _ (fun a h => k2 a (List.mem_append_left _ h)), hf _ (fun a h => k2 a (List.mem_append_right _ h))]
    rfl
  · have hv : ∀ x, valueOf [(str "pcp." ++ m, w)] (str "pcp." ++ x) = if m = x then some w else none := by
      intro x
      by_cases e : m = x <;> simp [valueOf, List.find?_cons, e]
    have : rdMetrics.filterMap (fun x => valueOf [(str "pcp." ++ m, w)] (str "pcp." ++ x)) = [w] := by
      simp only [hv]
      have gen : ∀ l : List Str, l.Nodup → m ∈ l → l.filterMap (fun x => if m = x then some w else none) = [w] := by
        intro l
        induction l with
        | nil => intro _ h; simp at h
        | cons y l ih =>
          intro hn hm
          rw [List.nodup_cons] at hn
          by_cases e : m = y
          · subst e
            have : l.filterMap (fun x => if m = x then some w else none) = [] := by
              rw [List.filterMap_eq_nil_iff]
              intro a ha
              rw [if_neg]
              rintro rfl
              exact hn.1 ha
            simp [this]
          · have hm' : m ∈ l := by
              rcases List.mem_cons.1 hm with h | h
              · exact absurd h e
              · exact h
            simp [e, ih hn.2 hm']
      exact gen _ nd hm
    unfold bytes
    simp only [this]
    simp

end Verif.Serv.Pcp
