import Verif.Serv.CallpathSpec
import Mathlib.Data.List.Basic
/-!
# C113: the callpath service
-/
namespace Verif.Serv.Callpath
open Verif Verif.Cali

/-! ### Proofs -/

theorem skip_eq (n : Nat) (l : List Frame) : (skip n l).2 = l.drop n ∧ ((skip n l).1 = 0 ∨ l.drop n = []) := by
  induction n generalizing l with
  | zero => simp [skip]
  | succ n ih => cases l with
    | nil => simp [skip]
    | cons f l => simpa [skip] using ih l

theorem nameOf_eq (f : Frame) : nameOf f = shown f := by
  unfold nameOf shown
  cases f.name with
  | none => rfl
  | some s =>
    have e : nameLen = 100 := rfl
    by_cases h : s.length < 100
    · simp only []; rw [if_pos h, if_pos (by omega)]
    · simp only []; rw [if_neg h, if_neg (by omega)]

theorem slice_set {α : Type} (a : Nat → α) (n : Nat) (v : α) (h : n < 40) : slice (set a (40 - (n + 1)) v) (40 - (n + 1)) (n + 1) = v :: slice a (40 - n) n := by
  unfold slice
  rw [List.range_succ_eq_map, List.map_cons, List.map_map]
  congr 1
  · simp [set]
  · apply List.map_congr_left
    intro j hj
    simp only [Function.comp, set]
    rw [if_neg (by omega)]
    congr 1; omega

/-- the arrays hold the frames walked so far, the last one first -/
theorem walk_spec (c : Cfg) : ∀ (l : List Frame) (b : Bufs) (done : List Frame), b.n = done.length → b.n ≤ 40 →
    (c.useAddr = true → slice b.addr (40 - b.n) b.n = done.map Frame.ip) → (c.useName = true → slice b.name (40 - b.n) b.n = done.map shown) →
    let fin := ((l.filter fun f => ¬ Internal c f).take (40 - b.n)).reverse ++ done
    (walk c b l).n = fin.length ∧ (c.useAddr = true → slice (walk c b l).addr (40 - (walk c b l).n) (walk c b l).n = fin.map Frame.ip) ∧
      (c.useName = true → slice (walk c b l).name (40 - (walk c b l).n) (walk c b l).n = fin.map shown) := by
  intro l
  induction l with
  | nil => intro b done h1 _ h2 h3; simpa [walk] using ⟨h1, h2, h3⟩
  | cons f l ih =>
    intro b done h1 hle h2 h3
    unfold walk
    by_cases hn : b.n < maxPath
    · rw [if_pos hn]
      have hn' : b.n < 40 := hn
      by_cases hi : Internal c f
      · have e : (c.skipInternal && (decide (c.start ≤ f.ip) && decide (f.ip < c.stop))) = true := by
          obtain ⟨a, b, d⟩ := hi; simp [a, b, d]
        rw [if_pos e, List.filter_cons_of_neg (by simpa using hi)]
        exact ih b done h1 hle h2 h3
      · have e : ¬ (c.skipInternal && (decide (c.start ≤ f.ip) && decide (f.ip < c.stop))) = true := by
          intro a
          simp only [Bool.and_eq_true, decide_eq_true_eq] at a
          exact hi ⟨a.1, a.2.1, a.2.2⟩
        rw [if_neg e, List.filter_cons_of_pos (by simpa using hi)]
        have := ih ⟨if c.useAddr then set b.addr (maxPath - (b.n + 1)) f.ip else b.addr,
          if c.useName then set b.name (maxPath - (b.n + 1)) (nameOf f) else b.name, b.n + 1⟩ (f :: done) (by simp [h1]) hn'
          (by
            intro hu
            simp only [hu, if_true, List.map_cons]
            show slice (set b.addr (40 - (b.n + 1)) f.ip) _ _ = _
            rw [slice_set _ _ _ hn', h2 hu])
          (by
            intro hu
            simp only [hu, if_true, List.map_cons]
            show slice (set b.name (40 - (b.n + 1)) (nameOf f)) _ _ = _
            rw [slice_set _ _ _ hn', h3 hu, nameOf_eq])
        have e2 : 40 - b.n = (40 - (b.n + 1)) + 1 := by omega
        rw [e2, List.take_succ_cons, List.reverse_cons, List.append_assoc, List.singleton_append]
        exact this
    · rw [if_neg hn]
      have : 40 - b.n = 0 := by have : ¬ b.n < 40 := hn; omega
      have e : (List.take (40 - b.n) (List.filter (fun f => decide ¬Internal c f) (f :: l))).reverse = [] := by rw [this]; simp
      rw [e]
      simpa using ⟨h1, h2, h3⟩

/-- **C113**: a record has the call path (addresses, function names, or both, as configured), outermost function first: exactly the kept frames;
no entry if there is none. -/
theorem C113_path (c : Cfg) (frames : List Frame) :
    snapshot c frames = if kept c frames = [] then [] else
      (if c.useAddr then [.addr ((kept c frames).map Frame.ip)] else []) ++ (if c.useName then [.name ((kept c frames).map shown)] else []) := by
  unfold snapshot
  obtain ⟨h1, h2⟩ := skip_eq c.skipFrames frames
  simp only [h1]
  by_cases h0 : (skip c.skipFrames frames).1 = 0
  · rw [if_neg (by omega)]
    have := walk_spec c (frames.drop c.skipFrames) ⟨fun _ => 0, fun _ => [], 0⟩ [] rfl (by decide) (fun _ => rfl) (fun _ => rfl)
    simp only [List.append_nil, Nat.sub_zero] at this
    change (walk c ⟨fun _ => 0, fun _ => [], 0⟩ (frames.drop c.skipFrames)).n = (kept c frames).length ∧ _ at this
    obtain ⟨t1, t2, t3⟩ := this
    generalize walk c ⟨fun _ => 0, fun _ => [], 0⟩ (frames.drop c.skipFrames) = b at t1 t2 t3
    by_cases hk : kept c frames = []
    · rw [if_pos hk, if_neg (by rw [t1, hk]; simp)]
    · rw [if_neg hk, if_pos (by rw [t1]; exact List.length_pos_iff.mpr hk)]
      congr 1
      · split
        · rename_i hu
          have := t2 hu
          show [Entry.addr (slice b.addr (40 - b.n) b.n)] = _
          rw [this]; rfl
        · rfl
      · split
        · rename_i hu
          have := t3 hu
          show [Entry.name (slice b.name (40 - b.n) b.n)] = _
          rw [this]; rfl
        · rfl
  · have hd : frames.drop c.skipFrames = [] := h2.resolve_left h0
    rw [if_pos (by omega), if_pos (by unfold kept; rw [hd]; rfl)]

/-- **C113 (different stacks)**: for call stacks with at most 40 frames to record and addresses recorded, two records have the same call path exactly
if the recorded frames have the same addresses. Missing: `C113_violation_deep`. -/
theorem C113_distinct_partial (c : Cfg) (hc : c.useAddr = true) (f g : List Frame) (hf : (f.filter fun x => ¬ Internal c x).length ≤ 40)
    (hg : (g.filter fun x => ¬ Internal c x).length ≤ 40) (h0 : c.skipFrames = 0) (h : snapshot c f = snapshot c g) :
    (f.filter fun x => ¬ Internal c x).map Frame.ip = (g.filter fun x => ¬ Internal c x).map Frame.ip := by
  have e : ∀ l : List Frame, (l.filter fun x => ¬ Internal c x).length ≤ 40 → kept c l = (l.filter fun x => ¬ Internal c x).reverse := by
    intro l hl
    unfold kept
    rw [h0, List.drop_zero, List.take_of_length_le hl]
  rw [C113_path, C113_path, e f hf, e g hg] at h
  simp only [hc, if_true, List.reverse_eq_nil_iff] at h
  generalize (f.filter fun x => decide ¬ Internal c x) = F at h ⊢
  generalize (g.filter fun x => decide ¬ Internal c x) = G at h ⊢
  by_cases h1 : F = [] <;> by_cases h2 : G = []
  · rw [h1, h2]
  · simp [h1, h2] at h
  · simp [h1, h2] at h
  · simp only [h1, h2, if_false, List.cons_append, List.cons.injEq, Entry.addr.injEq, List.map_reverse, List.reverse_inj] at h
    exact h.1

/-- at most 40 frames -/
theorem C113_length (c : Cfg) (frames : List Frame) (e : Entry) (he : e ∈ snapshot c frames) :
    match e with | .addr p => 0 < p.length ∧ p.length ≤ 40 | .name p => 0 < p.length ∧ p.length ≤ 40 := by
  rw [C113_path] at he
  have hl : (kept c frames).length ≤ 40 := by unfold kept; simp only [List.length_reverse, List.length_take]; omega
  by_cases hk : kept c frames = []
  · rw [if_pos hk] at he; cases he
  · rw [if_neg hk] at he
    have hp := List.length_pos_iff.mpr hk
    rcases List.mem_append.mp he with h | h
    · split at h
      · simp only [List.mem_singleton] at h; subst h; simpa using ⟨hp, hl⟩
      · cases h
    · split at h
      · simp only [List.mem_singleton] at h; subst h; simpa using ⟨hp, hl⟩
      · cases h

/-! ### A concrete case and violations -/

def exC : Cfg := ⟨true, true, true, 1, 100, 200⟩

theorem C113_example : snapshot exC [⟨150, none⟩, ⟨160, some (str "push")⟩, ⟨20, some (str "foo")⟩, ⟨10, none⟩, ⟨5, some (str "main")⟩] =
    [.addr [5, 10, 20], .name [str "main", str "UNKNOWN", str "foo"]] := by decide +kernel

/-- `n` frames of a recursive function, called from the frames `l` -/
def deep (n : Nat) (l : List Frame) : List Frame := List.replicate n ⟨7, some (str "rec")⟩ ++ l

/-- **Violation**: deep call stacks are cut at the root: two stacks with different outer functions give the same path, and `main` is missing. -/
theorem C113_violation_deep : snapshot exC (deep 41 [⟨20, some (str "a")⟩, ⟨5, some (str "main")⟩]) =
    snapshot exC (deep 41 [⟨30, some (str "b")⟩, ⟨5, some (str "main")⟩]) ∧
    snapshot exC (deep 41 [⟨20, some (str "a")⟩]) = [.addr (List.replicate 40 7), .name (List.replicate 40 (str "rec"))] := by
  refine ⟨?_, ?_⟩ <;> decide +kernel

/-- **Violation**: functions with names of 100 bytes or more (which is usual for C++ templates) are all `UNKNOWN`. -/
theorem C113_violation_names (s t : Str) (hs : 100 ≤ s.length) (ht : 100 ≤ t.length) :
    snapshot { exC with skipFrames := 0, useAddr := false } [⟨1, some s⟩] = [.name [str "UNKNOWN"]] ∧
    snapshot { exC with skipFrames := 0, useAddr := false } [⟨1, some s⟩] = snapshot { exC with skipFrames := 0, useAddr := false } [⟨1, some t⟩] := by
  have key : ∀ u : Str, 100 ≤ u.length → snapshot { exC with skipFrames := 0, useAddr := false } [⟨1, some u⟩] = [.name [str "UNKNOWN"]] := by
    intro u hu
    rw [C113_path]
    have : kept { exC with skipFrames := 0, useAddr := false } [⟨1, some u⟩] = [⟨1, some u⟩] := by
      unfold kept; simp [Internal, exC]
    rw [this]
    simp [exC, shown, Nat.not_lt.mpr hu]
  exact ⟨key s hs, by rw [key s hs, key t ht]⟩

end Verif.Serv.Callpath
