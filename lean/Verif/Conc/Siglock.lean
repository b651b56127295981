/-!
# The signal lock

Model of `siglock` (`/repo/src/caliper/Caliper.cpp:69-82`), of `Caliper::operator bool` and `sigsafe_instance`
(`Caliper.cpp:1510-1518`) for one thread and the signal handlers that interrupt it, nested to any depth.

A *frame* is the thread itself or an active signal handler.  `lock()` and `unlock()` are a load and a store
(`++m_lock` on a volatile variable is not atomic), and a signal may arrive between them.  Operations with a
`std::lock_guard<siglock>` are `guarded`; `activate_channel`, `deactivate_channel`, the process-wide
`memory_region_begin` / `_end` and `instance` take no lock (`Caliper.cpp:785-807`, `1411-1430`, `1463-1508`) and are
`unguarded`.  A handler executes operations only after its `sigsafe_instance()` evaluated to true, as the interface
documentation demands (`Caliper.h:212-216`).  Simplification: the counter does not overflow (2^31 nested operations).
-/
namespace Verif.Conc.Sig

/-- where a frame is inside `lock()` / `unlock()` (`Caliper.cpp:77-78`) -/
inductive Phase where
  | idle
  | incLoaded (v : Int)
  | decLoaded (v : Int)
  deriving DecidableEq

/-- the thread (`sig = false`) or a handler; `ops`: its open operations, innermost first, `true` = guarded;
`ok`: result of its last check -/
structure Frame where
  sig : Bool
  ops : List Bool
  phase : Phase
  ok : Bool
  deriving DecidableEq

/-- one thread: the counter, whether `sG` and `sT` are set, the frames, innermost first -/
structure St where
  lock : Int
  ready : Bool
  frames : List Frame
  deriving DecidableEq

/-- `siglock::is_locked` (`Caliper.cpp:80`) -/
def isLocked (s : St) : Bool := decide (s.lock > 0)

/-- `Caliper::operator bool` (`Caliper.cpp:1515-1518`) -/
def usable (s : St) (isSignal : Bool) : Bool := s.ready && !(isSignal && isLocked s)

inductive Act where
  /-- first half of entering a guarded operation: load the counter -/
  | load
  /-- second half: store the incremented value -/
  | store
  /-- enter an operation without lock -/
  | enterU
  /-- return from the innermost operation: load the counter (guarded) or just return -/
  | leave
  /-- store the decremented value -/
  | leaveStore
  /-- a signal arrives -/
  | signal
  /-- the handler evaluates `sigsafe_instance()` -/
  | check
  /-- the handler returns -/
  | sigret
  deriving DecidableEq

/-- a frame may use Caliper -/
def Frame.may (f : Frame) : Bool := !f.sig || f.ok

/-- one step of the innermost frame -/
def step (s : St) (a : Act) : St :=
  match s.frames with
  | [] => s
  | f :: fs =>
    match a with
    | .load =>
      if f.phase = .idle ∧ f.may = true then { s with frames := { f with phase := .incLoaded s.lock } :: fs } else s
    | .store =>
      match f.phase with
      | .incLoaded v => { s with lock := v + 1, frames := { f with phase := .idle, ops := true :: f.ops } :: fs }
      | _ => s
    | .enterU =>
      if f.phase = .idle ∧ f.may = true then { s with frames := { f with ops := false :: f.ops } :: fs } else s
    | .leave =>
      if f.phase = .idle then
        match f.ops with
        | true :: _ => { s with frames := { f with phase := .decLoaded s.lock } :: fs }
        | false :: r => { s with frames := { f with ops := r } :: fs }
        | [] => s
      else s
    | .leaveStore =>
      match f.phase with
      | .decLoaded v => { s with lock := v - 1, frames := { f with phase := .idle, ops := f.ops.drop 1 } :: fs }
      | _ => s
    | .signal => { s with frames := ⟨true, [], .idle, false⟩ :: f :: fs }
    | .check =>
      if f.sig = true ∧ f.ops = [] ∧ f.phase = .idle then { s with frames := { f with ok := usable s true } :: fs } else s
    | .sigret => if f.sig = true ∧ f.ops = [] ∧ f.phase = .idle then { s with frames := fs } else s

/-- the thread outside of Caliper -/
def init (ready : Bool) : St := ⟨0, ready, [⟨false, [], .idle, false⟩]⟩

/-- all states, for every sequence of operations and every choice of the interruption points -/
inductive Reach (ready : Bool) : St → Prop where
  | init : Reach ready (init ready)
  | step {s : St} (h : Reach ready s) (a : Act) : Reach ready (step s a)

/-- some frame is inside a guarded operation -/
def Busy (fs : List Frame) : Prop := ∃ f ∈ fs, true ∈ f.ops

/-- open guarded operations of a frame -/
def Frame.depth (f : Frame) : Nat := f.ops.count true
/-- open guarded operations -/
def depth (fs : List Frame) : Nat := (fs.map Frame.depth).sum

/-- invariant of the frames -/
inductive FInv : List Frame → Prop where
  | nil : FInv []
  | cons {f : Frame} {fs : List Frame} (h : FInv fs) (hi : ∀ v, f.phase = .incLoaded v → v = depth (f :: fs))
      (hd : ∀ v, f.phase = .decLoaded v → v = depth (f :: fs) ∧ ∃ r, f.ops = true :: r)
      (hok : f.sig = true → f.ok = true → depth fs = 0)
      (hno : f.sig = true → f.ok = false → f.ops = [] ∧ f.phase = .idle)
      (hmain : f.sig = false ↔ fs = []) : FInv (f :: fs)

theorem FInv.tail {f : Frame} {fs : List Frame} (h : FInv (f :: fs)) : FInv fs := by
  cases h with | cons h => exact h

theorem inv {ready : Bool} {s : St} (h : Reach ready s) : FInv s.frames ∧ s.lock = depth s.frames ∧ s.ready = ready ∧
    s.frames ≠ [] := by
  induction h with
  | init => exact ⟨.cons .nil (by simp) (by simp) (by simp) (by simp) (by simp), rfl, rfl, by simp [init]⟩
  | @step s _ a ih =>
    obtain ⟨h1, h2, h3, h4⟩ := ih
    unfold step
    cases hf : s.frames with
    | nil => exact absurd hf h4
    | cons f fs =>
      rw [hf] at h1 h2
      have same : FInv s.frames ∧ s.lock = depth s.frames ∧ s.ready = ready ∧ s.frames ≠ [] := by
        rw [hf]; exact ⟨h1, h2, h3, by simp⟩
      cases h1 with
      | cons h hi hd hok hno hmain =>
        cases a with
        | load =>
          simp only
          split
          · rename_i hc
            refine ⟨.cons h ?_ (by simp) hok ?_ hmain, h2, h3, by simp⟩
            · intro v hv
              cases hv
              exact h2
            · intro hs ho
              have hm : f.may = true := hc.2
              unfold Frame.may at hm
              have hs : f.sig = true := hs
              have ho : f.ok = false := ho
              simp [hs, ho] at hm
          · exact same
        | store =>
          simp only
          split
          · rename_i v hv
            have hvv := hi v hv
            have e : depth ({ f with phase := .idle, ops := true :: f.ops } :: fs) = depth (f :: fs) + 1 := by
              simp [depth, Frame.depth]; omega
            refine ⟨.cons h (by simp) (by simp) hok ?_ hmain, ?_, h3, by simp⟩
            · intro hs ho
              have := (hno hs ho).2
              rw [hv] at this; cases this
            · simp only [e, hvv]; omega
          · exact same
        | enterU =>
          simp only
          split
          · rename_i hc
            have e : depth ({ f with ops := false :: f.ops } :: fs) = depth (f :: fs) := by simp [depth, Frame.depth]
            refine ⟨.cons h ?_ ?_ hok ?_ hmain, by rw [e]; exact h2, h3, by simp⟩
            · intro v hv
              have hv : f.phase = _ := hv
              rw [hc.1] at hv; cases hv
            · intro v hv
              have hv : f.phase = _ := hv
              rw [hc.1] at hv; cases hv
            · intro hs ho
              have hm : f.may = true := hc.2
              unfold Frame.may at hm
              have hs : f.sig = true := hs
              have ho : f.ok = false := ho
              simp [hs, ho] at hm
          · exact same
        | leave =>
          simp only
          split
          · rename_i hc
            split
            · rename_i r hops
              refine ⟨.cons h (by simp) ?_ hok ?_ hmain, h2, h3, by simp⟩
              · intro v hv
                cases hv
                exact ⟨h2, r, hops⟩
              · intro hs ho
                have := (hno hs ho).1
                rw [hops] at this; cases this
            · rename_i r hops
              have e : depth ({ f with ops := r } :: fs) = depth (f :: fs) := by simp [depth, Frame.depth, hops]
              refine ⟨.cons h ?_ ?_ hok ?_ hmain, by rw [e]; exact h2, h3, by simp⟩
              · intro v hv
                have hv : f.phase = _ := hv
                rw [hc] at hv; cases hv
              · intro v hv
                have hv : f.phase = _ := hv
                rw [hc] at hv; cases hv
              · intro hs ho
                have := (hno hs ho).1
                rw [hops] at this; cases this
            · exact same
          · exact same
        | leaveStore =>
          simp only
          split
          · rename_i v hv
            obtain ⟨hvv, r, hr⟩ := hd v hv
            have e : depth (f :: fs) = depth ({ f with phase := .idle, ops := f.ops.drop 1 } :: fs) + 1 := by
              simp [depth, Frame.depth, hr]; omega
            refine ⟨.cons h (by simp) (by simp) hok ?_ hmain, ?_, h3, by simp⟩
            · intro hs ho
              have := (hno hs ho).2
              rw [hv] at this; cases this
            · simp only [hvv, e]; omega
          · exact same
        | signal =>
          refine ⟨.cons (.cons h hi hd hok hno hmain) (by simp) (by simp) (by simp) (by simp) (by simp), ?_, h3, by simp⟩
          have e : depth (⟨true, [], .idle, false⟩ :: f :: fs) = depth (f :: fs) := by simp [depth, Frame.depth]
          rw [e]; exact h2
        | check =>
          simp only
          split
          · rename_i hc
            refine ⟨.cons h ?_ ?_ ?_ ?_ hmain, h2, h3, by simp⟩
            · intro v hv
              have hv : f.phase = _ := hv
              rw [hc.2.2] at hv; cases hv
            · intro v hv
              have hv : f.phase = _ := hv
              rw [hc.2.2] at hv; cases hv
            · intro _ ho
              have ho : usable s true = true := ho
              have e : depth (f :: fs) = depth fs := by simp [depth, Frame.depth, hc.2.1]
              unfold usable isLocked at ho
              simp at ho
              have := ho.2
              rw [h2] at this
              omega
            · exact fun _ _ => ⟨hc.2.1, hc.2.2⟩
          · exact same
        | sigret =>
          simp only
          split
          · rename_i hc
            have e : depth (f :: fs) = depth fs := by simp [depth, Frame.depth, hc.2.1]
            refine ⟨h, by rw [← e]; exact h2, h3, ?_⟩
            intro hfs
            have := hmain.2 hfs
            rw [hc.1] at this; cases this
          · exact same

end Verif.Conc.Sig
