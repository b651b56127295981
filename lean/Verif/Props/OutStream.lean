import Verif.Out.Stream
import Mathlib.Logic.Function.Basic
/-!
# C73: output streams
-/
namespace Verif
open Verif.Cali Verif.Out

/-! ## Specification -/

namespace Out

/-- the destinations a user can choose -/
inductive Goal where
  | none | stdout | stderr | file (name : Str) | user (i : Nat)

/-- the call that chooses it -/
def Goal.op : Goal → Op
  | .none => .setStream .none
  | .stdout => .setStream .stdout
  | .stderr => .setStream .stderr
  | .file n => .setFile n
  | .user i => .setStream (.user i)

/-- `Delivered canOpen g m ts W W'`: `W'` is `W` with the texts `ts` put to the destination `g`, in order, and nothing else changed.  A file is
replaced, or extended in append mode; it is not touched if nothing is written or if it cannot be opened. -/
structure Delivered (canOpen : Str → Bool) (g : Goal) (m : Mode) (ts : List Str) (W W' : World) : Prop where
  stdout : W'.stdout = match g with
    | .stdout => W.stdout ++ ts.flatten
    | _ => W.stdout
  stderr : W'.stderr = match g with
    | .stderr => W.stderr ++ ts.flatten
    | _ => W.stderr
  user : ∀ i, (∀ j, g = .user j → j ≠ i) → W'.user i = W.user i
  userHit : ∀ i, g = .user i → W'.user i = W.user i ++ ts.flatten
  file : ∀ f, (∀ n, g = .file n → n ≠ f) → W'.file f = W.file f
  fileHit : ∀ f, g = .file f → canOpen f = true → ts ≠ [] → W'.file f = some ((if m = .append then (W.file f).getD [] else []) ++ ts.flatten)
  fileNot : ∀ f, g = .file f → (canOpen f = false ∨ ts = []) → W'.file f = W.file f

theorem write_ready (canOpen : Str → Bool) (s : Impl) (hi : s.init = true) (ts : List Str) : ∀ W : World,
    run canOpen (s, W) (ts.map .write) = (s, ts.foldl (fun W t => (s.write canOpen W t).2) W) := by
  induction ts with
  | nil => intro W; rfl
  | cons t ts ih =>
    intro W
    have h : step canOpen (s, W) (.write t) = (s, (s.write canOpen W t).2) := by
      simp only [step, Impl.write, Impl.initS, hi, if_true]
    rw [List.map_cons, run, List.foldl_cons, h]
    exact ih _

end Out

/-- **C73.**  From any state of the stream: choose a destination, then write texts.  The texts are put to the destination in order; nothing else changes.
A file is created or truncated only when the first text is written. -/
theorem C73_delivered (canOpen : Str → Bool) (s : Impl) (W : World) (g : Goal) (ts : List Str) :
    Delivered canOpen g s.mode ts W (run canOpen (s, W) (g.op :: ts.map .write)).2 ∧
    (run canOpen (s, W) (g.op :: ts.map .write)).1.mode = s.mode := by
  cases ts with
  | nil => cases g <;> exact ⟨by constructor <;> simp_all [Goal.op, run, step], rfl⟩
  | cons t ts =>
    -- the state after the first text
    obtain ⟨s1, W1, h1, hi, hrest⟩ : ∃ s1 W1, run canOpen (s, W) (g.op :: (t :: ts).map .write) = run canOpen (s1, W1) ((t :: ts).map .write) ∧
        s1.init = true ∧ s1.mode = s.mode ∧
        (match g with
          | .none => s1.type = .none ∧ s1.fs = none ∧ W1 = W
          | .stdout => s1.type = .stdout ∧ W1 = W
          | .stderr => s1.type = .stderr ∧ W1 = W
          | .user i => s1.type = .user i ∧ W1 = W
          | .file n => if canOpen n then s1.type = .file ∧ s1.fs = some n ∧
              W1 = { W with file := fun f => if f = n then some (if s.mode = .append then (W.file f).getD [] else []) else W.file f }
            else s1.type = .none ∧ s1.fs = none ∧ W1 = W) := by
      refine ⟨(((step canOpen (s, W) g.op).1).initS canOpen W).1, (((step canOpen (s, W) g.op).1).initS canOpen W).2, ?_, ?_, ?_, ?_⟩
      · have : step canOpen (step canOpen (s, W) g.op) (.write t) =
            step canOpen (((step canOpen (s, W) g.op).1.initS canOpen W).1, ((step canOpen (s, W) g.op).1.initS canOpen W).2) (.write t) := by
          cases g with
          | file n => cases hc : canOpen n <;> simp [Goal.op, step, Impl.write, Impl.initS, Impl.reset, hc]
          | _ => simp [Goal.op, step, Impl.write, Impl.initS, Impl.reset]
        simp only [run, List.map_cons, List.foldl_cons]
        rw [this]
      · cases g with
          | file n => cases hc : canOpen n <;> simp [Goal.op, step, Impl.initS, Impl.reset, hc]
          | _ => simp [Goal.op, step, Impl.initS, Impl.reset]
      · cases g with
          | file n => cases hc : canOpen n <;> simp [Goal.op, step, Impl.initS, Impl.reset, hc]
          | _ => simp [Goal.op, step, Impl.initS, Impl.reset]
      · cases g with
          | file n => cases hc : canOpen n <;> simp [Goal.op, step, Impl.initS, Impl.reset, hc]; rfl
          | _ => simp [Goal.op, step, Impl.initS, Impl.reset]
    rw [h1, write_ready canOpen s1 hi]
    refine ⟨?_, hrest.1⟩
    generalize hl : t :: ts = l
    have hl0 : l ≠ [] := by rw [← hl]; simp
    clear hl h1
    replace hrest := hrest.2
    have hinit : ∀ W, s1.initS canOpen W = (s1, W) := by intro W; simp [Impl.initS, hi]
    cases g with
    | none =>
      obtain ⟨ht, hf, rfl⟩ := hrest
      have : ∀ (l : List Str) W, l.foldl (fun W t => (s1.write canOpen W t).2) W = W := by
        intro l
        induction l with
        | nil => intro W; rfl
        | cons t l ih => intro W; rw [List.foldl_cons, ih]; simp [Impl.write, hinit, ht, hf, writeFs]
      rw [this]
      constructor <;> simp
    | stdout =>
      obtain ⟨ht, rfl⟩ := hrest
      have : ∀ (l : List Str) W, l.foldl (fun W t => (s1.write canOpen W t).2) W = { W with stdout := W.stdout ++ l.flatten } := by
        intro l
        induction l with
        | nil => intro W; simp
        | cons t l ih => intro W; rw [List.foldl_cons, ih]; simp [Impl.write, hinit, ht]
      rw [this]
      constructor <;> simp
    | stderr =>
      obtain ⟨ht, rfl⟩ := hrest
      have : ∀ (l : List Str) W, l.foldl (fun W t => (s1.write canOpen W t).2) W = { W with stderr := W.stderr ++ l.flatten } := by
        intro l
        induction l with
        | nil => intro W; simp
        | cons t l ih => intro W; rw [List.foldl_cons, ih]; simp [Impl.write, hinit, ht]
      rw [this]
      constructor <;> simp
    | user i =>
      obtain ⟨ht, rfl⟩ := hrest
      have : ∀ (l : List Str) W, l.foldl (fun W t => (s1.write canOpen W t).2) W =
          { W with user := fun j => if j = i then W.user j ++ l.flatten else W.user j } := by
        intro l
        induction l with
        | nil => intro W; simp
        | cons t l ih =>
          intro W; rw [List.foldl_cons, ih]
          simp only [Impl.write, hinit, ht, List.flatten_cons]
          congr 1
          funext j
          by_cases hj : j = i <;> simp [hj]
      rw [this]
      constructor <;> simp
      intro j hj hji
      exact absurd hji.symm hj
    | file n =>
      cases hc : canOpen n with
      | false =>
        simp only [hc, Bool.false_eq_true, if_false] at hrest
        obtain ⟨ht, hf, rfl⟩ := hrest
        have : ∀ (l : List Str) W, l.foldl (fun W t => (s1.write canOpen W t).2) W = W := by
          intro l
          induction l with
          | nil => intro W; rfl
          | cons t l ih => intro W; rw [List.foldl_cons, ih]; simp [Impl.write, hinit, ht, hf, writeFs]
        rw [this]
        constructor <;> simp [hc]
      | true =>
        simp only [hc, if_true] at hrest
        obtain ⟨ht, hf, rfl⟩ := hrest
        have : ∀ (l : List Str), l ≠ [] → ∀ W, l.foldl (fun W t => (s1.write canOpen W t).2) W =
            { W with file := fun f => if f = n then some ((W.file f).getD [] ++ l.flatten) else W.file f } := by
          intro l
          induction l with
          | nil => intro h; exact absurd rfl h
          | cons t l ih =>
            intro _ W
            rw [List.foldl_cons]
            by_cases hl : l = []
            · subst hl; simp [Impl.write, hinit, ht, hf, writeFs]
            · rw [ih hl]
              simp only [Impl.write, hinit, ht, hf, writeFs, List.flatten_cons]
              congr 1
              funext f
              by_cases hfn : f = n <;> simp [hfn]
        rw [this l hl0]
        refine ⟨rfl, rfl, fun _ _ => rfl, ?_, ?_, ?_, ?_⟩
        · rintro i ⟨⟩
        · intro f hfn
          have : ¬f = n := fun h => hfn n rfl h.symm
          simp [this]
        · rintro f ⟨⟩ _ _
          simp
        · rintro f ⟨⟩ hor
          rcases hor with h | h
          · rw [hc] at h; cases h
          · exact absurd h hl0

/-- **C73.**  Choosing a destination or a mode does not change anything outside. -/
theorem C73_lazy (canOpen : Str → Bool) (s : Impl) (W : World) (ops : List Op) (h : ∀ t, Op.write t ∉ ops) : (run canOpen (s, W) ops).2 = W := by
  induction ops generalizing s with
  | nil => rfl
  | cons o ops ih =>
    have hr : ∀ t, Op.write t ∉ ops := fun t ht => h t (List.mem_cons_of_mem _ ht)
    cases o with
    | write t => exact absurd (List.mem_cons_self ..) (h t)
    | setMode m => exact ih _ hr
    | setStream t => exact ih _ hr
    | setFile n => exact ih _ hr

/-- **C73.**  After a first use, any number of threads can write concurrently: every text of a thread that is done is in the file, once. -/
theorem C73_threads_partial (text : Nat → Str) (s t : TS) (hinit : s.init = true ∧ s.isOpen = true ∧ s.bad = false)
    (hpc : ∀ i, s.pc i = .check) (hrun : TRun text s t) :
    ∃ order : List Nat, order.Nodup ∧ (∀ i, i ∈ order ↔ t.pc i = .done) ∧ t.content = s.content ++ (order.map text).flatten := by
  have inv : (t.init = true ∧ t.isOpen = true ∧ t.bad = false) ∧ (∀ i, t.pc i = .check ∨ t.pc i = .write ∨ t.pc i = .done) ∧
      ∃ order : List Nat, order.Nodup ∧ (∀ i, i ∈ order ↔ t.pc i = .done) ∧ t.content = s.content ++ (order.map text).flatten := by
    induction hrun with
    | refl => exact ⟨hinit, fun i => Or.inl (hpc i), [], List.nodup_nil, by simp [hpc], by simp⟩
    | step _ hst ih =>
      obtain ⟨h1, h2, order, h3, h4, h5⟩ := ih
      cases hst with
      | checkInit i hi _ =>
        refine ⟨h1, fun j => ?_, order, h3, fun j => ?_, h5⟩
        · by_cases hj : j = i
          · subst hj; simp
          · simp only [Function.update_of_ne hj]; exact h2 j
        · by_cases hj : j = i
          · subst hj; rw [h4]; simp [hi]
          · simp only [Function.update_of_ne hj]; exact h4 j
      | checkNot i hi hn => rw [h1.1] at hn; cases hn
      | lock i hi _ => rcases h2 i with h | h | h <;> rw [hi] at h <;> cases h
      | flag i hi => rcases h2 i with h | h | h <;> rw [hi] at h <;> cases h
      | openNew i hi _ => rcases h2 i with h | h | h <;> rw [hi] at h <;> cases h
      | openAgain i hi _ => rcases h2 i with h | h | h <;> rw [hi] at h <;> cases h
      | write i hi _ _ =>
        have hni : i ∉ order := by rw [h4, hi]; simp
        refine ⟨h1, fun j => ?_, order ++ [i], ?_, fun j => ?_, ?_⟩
        · by_cases hj : j = i
          · subst hj; simp
          · simp only [Function.update_of_ne hj]; exact h2 j
        · rw [List.nodup_append]
          exact ⟨h3, by simp, by intro a ha b hb; rw [List.mem_singleton] at hb; subst hb; rintro rfl; exact hni ha⟩
        · by_cases hj : j = i
          · subst hj; simp
          · simp only [Function.update_of_ne hj, List.mem_append, List.mem_singleton, hj, or_false]; exact h4 j
        · simp [h5]
      | writeLost i hi hb =>
        rcases hb with hb | hb
        · rw [h1.2.1] at hb; cases hb
        · rw [h1.2.2] at hb; cases hb
  exact inv.2.2

/-! ## Hypotheses are met -/

/-- a file with old contents, in append mode -/
example : let W : World := ⟨fun f => if f = str "a" then some (str "old") else none, [], [], fun _ => []⟩
    let x := run (fun _ => true) (Impl.new, W) [.setMode .append, .setFile (str "a"), .write (str "x"), .setFile (str "b"), .write (str "y"), .write (str "z")]
    x.2.file (str "a") = some (str "oldx") ∧ x.2.file (str "b") = some (str "yz") := by decide

/-- a stream that was used before, two threads -/
example : ∃ s : TS, (s.init = true ∧ s.isOpen = true ∧ s.bad = false) ∧ (∀ i, s.pc i = .check) ∧
    ∃ t, TRun (fun i => if i = 0 then str "a" else str "b") s t ∧ t.content = str "ba" := by
  refine ⟨⟨true, false, true, false, [], fun _ => .check⟩, by simp, fun _ => rfl, _,
    .step (.step (.step (.step (.refl _) (.checkInit 0 rfl rfl)) (.checkInit 1 rfl rfl)) (.write 1 rfl rfl rfl)) (.write 0 rfl rfl rfl), rfl⟩

/-! ## Violations -/

/-- a new stream, two threads about to use it -/
def c73Init : TS := ⟨false, false, false, false, [], fun _ => .check⟩

/-- **Violation (races).**  Two threads use a new stream at the same time.  (1) The second one sees the flag before the first one has opened the file:
its text is lost.  (2) Both pass the test: the file is opened twice, the stream fails, and the texts of both are lost. -/
theorem C73_violation_race (text : Nat → Str) :
    (∃ t, TRun text c73Init t ∧ t.pc 0 = .done ∧ t.pc 1 = .done ∧ t.content = text 0) ∧
    (∃ t, TRun text c73Init t ∧ t.pc 0 = .done ∧ t.pc 1 = .done ∧ t.content = []) := by
  constructor
  · refine ⟨_, .step (.step (.step (.step (.step (.step (.step (.refl _) (.checkNot 0 rfl rfl)) (.lock 0 rfl rfl)) (.flag 0 rfl)) (.checkInit 1 rfl rfl))
      (.writeLost 1 rfl (Or.inl rfl))) (.openNew 0 rfl rfl)) (.write 0 rfl rfl rfl), rfl, rfl, rfl⟩
  · refine ⟨_, .step (.step (.step (.step (.step (.step (.step (.step (.step (.step (.refl _) (.checkNot 0 rfl rfl)) (.checkNot 1 rfl rfl)) (.lock 0 rfl rfl))
      (.flag 0 rfl)) (.openNew 0 rfl rfl)) (.lock 1 rfl rfl)) (.flag 1 rfl)) (.openAgain 1 rfl rfl)) (.writeLost 0 rfl (Or.inr rfl)))
      (.writeLost 1 rfl (Or.inr rfl)), rfl, rfl, rfl⟩

end Verif
