import Verif.Serv.PthreadSpec
import Mathlib.Data.List.Induction

/-! # C125: the pthread service -/

namespace Verif.Pthread

/-- the arguments a thread's wrapper points to -/
def ptr : Phase → Option Nat
  | .created (.wrapper p) | .running (.wrapper p) => some p
  | _ => none

/-- a thread with the service and without -/
def Rel (heap : List (Option Args)) : Phase → PPhase → Prop
  | .fresh, .fresh => True
  | .created (.user a), .created b => a = b
  | .created (.wrapper q), .created b => heap[q]? = some (some b)
  | .running (.user _), .running => True
  | .running (.wrapper q), .running => ∃ a, heap[q]? = some (some a)
  | .ended, .ended => True
  | _, _ => False

/-- a run with the service and one without -/
structure Sim (s : St) (p : Plain) : Prop where
  rel : ∀ k, Rel s.heap (s.ph k) (p.ph k)
  inj : ∀ k j q, ptr (s.ph k) = some q → ptr (s.ph j) = some q → k = j
  calls : s.calls.map (fun c => (c.1, c.2.1)) = p.calls
  rets : s.rets = p.rets
  ok : s.crash = false

theorem ptr_live {heap : List (Option Args)} {x : Phase} {y : PPhase} (h : Rel heap x y) {q : Nat} (hq : ptr x = some q) : ∃ a, heap[q]? = some (some a) := by
  match x, y, h with
  | .created (.wrapper q'), .created b, h => simp only [ptr, Option.some.injEq] at hq; subst hq; exact ⟨b, h⟩
  | .running (.wrapper q'), .running, h => simp only [ptr, Option.some.injEq] at hq; subst hq; exact h

theorem rel_heap {heap heap' : List (Option Args)} {x : Phase} {y : PPhase} (h : Rel heap x y) (hh : ∀ q a, ptr x = some q → heap[q]? = some (some a) → heap'[q]? = some (some a)) : Rel heap' x y := by
  match x, y, h with
  | .fresh, .fresh, _ => trivial
  | .created (.user a), .created b, h => exact h
  | .created (.wrapper q), .created b, h => exact hh q b rfl h
  | .running (.user _), .running, _ => trivial
  | .running (.wrapper q), .running, ⟨a, h⟩ => exact ⟨a, hh q a rfl h⟩
  | .ended, .ended, _ => trivial

theorem app_live {heap : List (Option Args)} {x : Option Args} {q : Nat} {a : Args} (h : heap[q]? = some (some a)) : (heap ++ [x])[q]? = some (some a) := by
  obtain ⟨hl, -⟩ := List.getElem?_eq_some_iff.1 h
  rw [List.getElem?_append_left hl, h]

/-- a thread moves on: everything else is as before -/
theorem Sim.move {s : St} {p : Plain} (h : Sim s p) (k : Nat) (x : Phase) (y : PPhase) (heap : List (Option Args)) (hx : Rel heap x y)
    (ho : ∀ j, j ≠ k → ∀ q a, ptr (s.ph j) = some q → s.heap[q]? = some (some a) → heap[q]? = some (some a))
    (hp : ∀ q, ptr x = some q → ∀ j, j ≠ k → ptr (s.ph j) ≠ some q) :
    (∀ j, Rel heap (upd s.ph k x j) ((fun j => if j = k then y else p.ph j) j)) ∧
    ∀ i j q, ptr (upd s.ph k x i) = some q → ptr (upd s.ph k x j) = some q → i = j := by
  constructor
  · intro j
    by_cases hj : j = k
    · simpa [upd, hj] using hx
    · simp only [upd, hj, if_false]
      exact rel_heap (h.rel j) (ho j hj)
  · intro i j q hi hj
    by_cases hik : i = k <;> by_cases hjk : j = k
    · rw [hik, hjk]
    · simp only [upd, hik, if_true, hjk, if_false] at hi hj
      exact absurd hj (hp q hi j hjk)
    · simp only [upd, hik, if_true, hjk, if_false] at hi hj
      exact absurd hi (hp q hj i hik)
    · simp only [upd, hik, hjk, if_false] at hi hj
      exact h.inj i j q hi hj

theorem fresh_rel {heap : List (Option Args)} {x : Phase} {y : PPhase} (h : Rel heap x y) : x = .fresh ↔ y = .fresh := by
  match x, y, h with
  | .fresh, .fresh, _ => simp
  | .created (.user _), .created _, _ => simp
  | .created (.wrapper _), .created _, _ => simp
  | .running (.user _), .running, _ => simp
  | .running (.wrapper _), .running, _ => simp
  | .ended, .ended, _ => simp

theorem running_rel {heap : List (Option Args)} {x : Phase} {y : PPhase} (h : Rel heap x y) : (∃ r, x = .running r) ↔ y = .running := by
  match x, y, h with
  | .fresh, .fresh, _ => simp
  | .created (.user _), .created _, _ => simp
  | .created (.wrapper _), .created _, _ => simp
  | .running (.user _), .running, _ => simp
  | .running (.wrapper _), .running, _ => simp
  | .ended, .ended, _ => simp

theorem sim_create {s : St} {p : Plain} (h : Sim s p) (k : Nat) (a : Args) (ok : Bool) : Sim (create s k a ok) (p.step (.create k a ok)) := by
  unfold create
  simp only [Plain.step]
  have hf := fresh_rel (h.rel k)
  by_cases hk : s.ph k = .fresh
  · have hk' := hf.1 hk
    have new : ∀ j, ptr (s.ph j) ≠ some s.heap.length := by
      intro j hj
      obtain ⟨b, hb⟩ := ptr_live (h.rel j) hj
      simp at hb
    rw [if_pos hk]
    cases ok <;> cases hw : s.wrapped <;> simp only [hk', and_self, if_true, if_false, Bool.false_eq_true, false_and, reduceCtorEq]
    · exact ⟨h.rel, h.inj, h.calls, h.rets, h.ok⟩
    · exact ⟨fun j => rel_heap (h.rel j) fun q b _ hb => app_live hb, h.inj, h.calls, h.rets, h.ok⟩
    · obtain ⟨x, y⟩ := h.move k (.created (.user a)) (.created a) s.heap rfl (fun _ _ _ _ _ e => e) (by simp [ptr])
      exact ⟨x, y, h.calls, h.rets, h.ok⟩
    · obtain ⟨x, y⟩ := h.move k (.created (.wrapper s.heap.length)) (.created a) (s.heap ++ [some a]) (by simp [Rel]) (fun _ _ _ _ _ e => app_live e)
        (by intro q hq j _ hj; simp only [ptr, Option.some.injEq] at hq; exact new j (hq ▸ hj))
      exact ⟨x, y, h.calls, h.rets, h.ok⟩
  · have hk' : ¬p.ph k = .fresh := fun e => hk (hf.2 e)
    simpa [hk, hk'] using h

theorem sim_start {s : St} {p : Plain} (self : Nat → Nat) (h : Sim s p) (k : Nat) : Sim (start self s k) (p.step (.start k)) := by
  have hr := h.rel k
  unfold start
  simp only [Plain.step]
  generalize hx : s.ph k = x at hr ⊢
  generalize hy : p.ph k = y at hr ⊢
  match x, y, hx, hy, hr with
  | .created (.user a), .created b, hx, hy, e =>
    have e : a = b := e
    subst e
    obtain ⟨x, y⟩ := h.move k (.running (.user a)) .running s.heap trivial (fun _ _ _ _ _ e => e) (by simp [ptr])
    exact ⟨x, y, by simp [h.calls], h.rets, h.ok⟩
  | .created (.wrapper q), .created b, hx, hy, e =>
    have e : s.heap[q]? = some (some b) := e
    simp only [e]
    obtain ⟨x, y⟩ := h.move k (.running (.wrapper q)) .running s.heap ⟨b, e⟩ (fun _ _ _ _ _ e => e)
      (by intro q' hq j hj hp; simp only [ptr, Option.some.injEq] at hq; subst hq; exact hj (h.inj j k q hp (by rw [hx]; rfl)))
    exact ⟨x, y, by simp [h.calls], h.rets, h.ok⟩
  | .fresh, .fresh, hx, hy, _ => exact h
  | .running (.user _), .running, hx, hy, _ => exact h
  | .running (.wrapper _), .running, hx, hy, _ => exact h
  | .ended, .ended, hx, hy, _ => exact h

theorem sim_ret {s : St} {p : Plain} (h : Sim s p) (k v : Nat) : Sim (ret s k v) (p.step (.ret k v)) := by
  have hr := h.rel k
  unfold ret
  simp only [Plain.step]
  generalize hx : s.ph k = x at hr ⊢
  generalize hy : p.ph k = y at hr ⊢
  match x, y, hx, hy, hr with
  | .running (.user a), .running, hx, hy, _ =>
    obtain ⟨x, y⟩ := h.move k .ended .ended s.heap trivial (fun _ _ _ _ _ e => e) (by simp [ptr])
    simp only [if_true]
    exact ⟨x, y, h.calls, by simp [h.rets], h.ok⟩
  | .running (.wrapper q), .running, hx, hy, ⟨a, e⟩ =>
    simp only [e, if_true]
    obtain ⟨x, y⟩ := h.move k .ended .ended (s.heap.set q none) trivial
      (by
        intro j hj q' b hp hb
        have : q ≠ q' := by rintro rfl; exact hj (h.inj j k q hp (by rw [hx]; rfl))
        rw [List.getElem?_set_ne this, hb]) (by simp [ptr])
    exact ⟨x, y, h.calls, by simp [h.rets], h.ok⟩
  | .fresh, .fresh, hx, hy, _ => simpa using h
  | .created (.user _), .created _, hx, hy, _ => simpa using h
  | .created (.wrapper _), .created _, hx, hy, _ => simpa using h
  | .ended, .ended, hx, hy, _ => simpa using h

theorem sim_exit {s : St} {p : Plain} (h : Sim s p) (k v : Nat) : Sim (exit s k v) (p.step (.exit k v)) := by
  have hr := running_rel (h.rel k)
  unfold exit
  simp only [Plain.step]
  split
  · rename_i r hk
    rw [if_pos (hr.1 ⟨r, hk⟩)]
    obtain ⟨x, y⟩ := h.move k .ended .ended s.heap trivial (fun _ _ _ _ _ e => e) (by simp [ptr])
    exact ⟨x, y, h.calls, by simp [h.rets], h.ok⟩
  · rename_i hk
    rw [if_neg (fun e => by obtain ⟨r, e⟩ := hr.2 e; exact hk r e)]
    exact h

theorem sim_init {s : St} {p : Plain} (self : Nat → Nat) (h : Sim s p) (k : Nat) : Sim (init self s k) p := by
  unfold init
  split
  · split
    · exact h
    · exact ⟨h.rel, h.inj, h.calls, h.rets, h.ok⟩
  · exact h

theorem sim_run (self : Nat → Nat) (as : List Act) {s : St} {p : Plain} (h : Sim s p) : Sim (run self s as) (p.run as) := by
  induction as generalizing s p with
  | nil => exact h
  | cons x as ih =>
    refine ih ?_
    cases x with
    | create k a ok => exact sim_create h k a ok
    | start k => exact sim_start self h k
    | ret k v => exact sim_ret h k v
    | exit k v => exact sim_exit h k v
    | init k => exact sim_init self h k
    | finalize => exact ⟨h.rel, h.inj, h.calls, h.rets, h.ok⟩

theorem sim_begin : Sim begin Plain.begin := by
  refine ⟨fun k => ?_, ?_, rfl, rfl, rfl⟩
  · by_cases hk : k = 0 <;> simp [begin, Plain.begin, hk, Rel]
  · intro k j q hk
    by_cases h : k = 0 <;> simp [begin, h, ptr] at hk

/-- **C125** (transparent): in all schedules, with any creations that fail, any threads that leave early, and Caliper finalized at any time, the user's functions are called as without the service, once for each
thread and with their arguments, the threads have the same results, and no deleted object is used -/
theorem C125_transparent (self : Nat → Nat) (as : List Act) :
    (run self begin as).calls.map (fun c => (c.1, c.2.1)) = (Plain.begin.run as).calls ∧ (run self begin as).rets = (Plain.begin.run as).rets ∧ (run self begin as).crash = false :=
  let h := sim_run self as sim_begin
  ⟨h.calls, h.rets, h.ok⟩

/-- a thread of which nothing has happened yet was not called -/
def NoCall (s : St) : Prop := ∀ k, (s.ph k = .fresh ∨ ∃ r, s.ph k = .created r) → ∀ c ∈ s.calls, c.1 ≠ k

theorem noCall_upd {s : St} (h : NoCall s) (k : Nat) (x : Phase) (cs : List (Nat × Args × Tag)) (hc : ∀ c ∈ cs, c.1 = k)
    (hx : cs ≠ [] → ∃ r, x = .running r) (h0 : (x = .fresh ∨ ∃ r, x = .created r) → s.ph k = .fresh ∨ ∃ r, s.ph k = .created r) :
    ∀ j, (upd s.ph k x j = .fresh ∨ ∃ r, upd s.ph k x j = .created r) → ∀ c ∈ s.calls ++ cs, c.1 ≠ j := by
  intro j hj c hm
  by_cases e : j = k
  · subst e
    simp only [upd, if_true] at hj
    rcases List.mem_append.1 hm with hm | hm
    · exact h j (h0 hj) c hm
    · obtain ⟨r, rfl⟩ := hx (List.ne_nil_of_mem hm)
      simp at hj
  · simp only [upd, e, if_false] at hj
    rcases List.mem_append.1 hm with hm | hm
    · exact h j hj c hm
    · rw [hc c hm]; exact fun e' => e e'.symm

theorem noCall_step (self : Nat → Nat) {s : St} (h : NoCall s) (x : Act) : NoCall (step self s x) := by
  cases x with
  | create k a ok =>
    simp only [step, create]
    split
    · rename_i hk
      split <;> cases ok
      · exact h
      · simpa [NoCall] using noCall_upd h k (.created (.wrapper s.heap.length)) [] (by simp) (by simp) (fun _ => Or.inl hk)
      · exact h
      · simpa [NoCall] using noCall_upd h k (.created (.user a)) [] (by simp) (by simp) (fun _ => Or.inl hk)
    · exact h
  | start k =>
    simp only [step, start]
    split
    · exact noCall_upd h k _ _ (by simp) (fun _ => ⟨_, rfl⟩) (by simp)
    · split
      · exact noCall_upd h k _ _ (by simp) (fun _ => ⟨_, rfl⟩) (by simp)
      · exact h
    · exact h
  | ret k v =>
    simp only [step, ret]
    split
    · simpa [NoCall] using noCall_upd h k .ended [] (by simp) (by simp) (by simp)
    · split
      · simpa [NoCall] using noCall_upd h k .ended [] (by simp) (by simp) (by simp)
      · exact h
    · exact h
  | exit k v =>
    simp only [step, exit]
    split
    · simpa [NoCall] using noCall_upd h k .ended [] (by simp) (by simp) (by simp)
    · exact h
  | init k =>
    simp only [step, init]
    split
    · split
      · exact h
      · exact h
    · exact h
  | finalize => exact h

theorem noCall_run (self : Nat → Nat) (as : List Act) {s : St} (h : NoCall s) : NoCall (run self s as) := by
  induction as generalizing s with
  | nil => exact h
  | cons x as ih => exact ih (noCall_step self h x)

/-- a thread created with the wrapper in place, while Caliper is there -/
structure Tagged (me : Nat → Nat) (k : Nat) (s : St) : Prop where
  wrapped : s.wrapped = true
  alive : s.alive = true
  ph : ∀ a, s.ph k ≠ .created (.user a)
  calls : ∀ c ∈ s.calls, c.1 = k → c.2.2 = (some false, some (me k))

theorem Tagged.other {self : Nat → Nat} {k : Nat} {s : St} (h : Tagged self k s) (j : Nat) (x : Phase) (hx : ∀ a, x ≠ .created (.user a)) : ∀ a, upd s.ph j x k ≠ .created (.user a) := by
  intro a
  by_cases e : k = j
  · simpa [upd, e] using hx a
  · simpa [upd, e] using h.ph a

theorem tagged_step {self : Nat → Nat} {k : Nat} {s : St} (h : Tagged self k s) (x : Act) (hx : x ≠ .finalize) : Tagged self k (step self s x) := by
  cases x with
  | create j a ok =>
    simp only [step, create, h.wrapped, if_true]
    split
    · cases ok
      · exact ⟨(by first | rfl | exact h.wrapped), (by first | rfl | exact h.alive), h.ph, h.calls⟩
      · exact ⟨(by first | rfl | exact h.wrapped), (by first | rfl | exact h.alive), h.other j _ (by simp), h.calls⟩
    · exact h
  | start j =>
    simp only [step, start, h.alive, if_true]
    split
    · rename_i a hj
      refine ⟨(by first | rfl | exact h.wrapped), (by first | rfl | exact h.alive), h.other j _ (by simp), ?_⟩
      intro c hc e
      rcases List.mem_append.1 hc with hc | hc
      · exact h.calls c hc e
      · simp only [List.mem_singleton] at hc
        subst hc
        simp only at e
        subst e
        exact absurd hj (h.ph a)
    · split
      · refine ⟨(by first | rfl | exact h.wrapped), (by first | rfl | exact h.alive), h.other j _ (by simp), ?_⟩
        intro c hc e
        rcases List.mem_append.1 hc with hc | hc
        · exact h.calls c hc e
        · simp only [List.mem_singleton] at hc
          subst hc
          simp only at e
          subst e
          simp [upd]
      · exact ⟨(by first | rfl | exact h.wrapped), (by first | rfl | exact h.alive), h.ph, h.calls⟩
    · exact h
  | ret j v =>
    simp only [step, ret]
    split
    · exact ⟨h.wrapped, h.alive, h.other j _ (by simp), h.calls⟩
    · split
      · exact ⟨h.wrapped, h.alive, h.other j _ (by simp), h.calls⟩
      · exact ⟨h.wrapped, h.alive, h.ph, h.calls⟩
    · exact h
  | exit j v =>
    simp only [step, exit]
    split
    · exact ⟨h.wrapped, h.alive, h.other j _ (by simp), h.calls⟩
    · exact h
  | init j =>
    simp only [step, init, h.wrapped, if_true]
    split <;> exact h
  | finalize => exact absurd rfl hx

/-- **C125** (tagged): once the service is active, each thread created from then on is tagged as not the master and with its own id before its function is called, as long as Caliper is not finalized -/
theorem C125_tagged (self : Nat → Nat) (pre mid : List Act) (k : Nat) (hw : (run self begin pre).wrapped = true) (ha : (run self begin pre).alive = true) (hk : (run self begin pre).ph k = .fresh)
    (hm : .finalize ∉ mid) : ∀ c ∈ (run self begin (pre ++ mid)).calls, c.1 = k → c.2.2 = (some false, some (self k)) := by
  have h0 : NoCall begin := by intro j _ c hc; simp [begin] at hc
  have hn := noCall_run self pre h0
  have ht : Tagged self k (run self begin pre) := ⟨hw, ha, by simp [hk], fun c hc e => absurd e (hn k (Or.inl hk) c hc)⟩
  have : ∀ (mid : List Act) (s : St), Tagged self k s → .finalize ∉ mid → Tagged self k (run self s mid) := by
    intro mid
    induction mid with
    | nil => intro s h _; exact h
    | cons x mid ih =>
      intro s h hx
      simp only [List.mem_cons, not_or] at hx
      exact ih _ (tagged_step h x (Ne.symm hx.1)) hx.2
  have hf := this mid _ ht hm
  rw [show run self begin (pre ++ mid) = run self (run self begin pre) mid from List.foldl_append]
  exact hf.calls

/-- nobody is tagged before the service is active; then one thread that is past its creation is the master -/
def Master (s : St) : Prop :=
  (s.wrapped = false ∧ (∀ k, s.bb k = (none, none)) ∧ ∀ k, ptr (s.ph k) = none) ∨
  (s.wrapped = true ∧ ∃ m, ((∃ r, s.ph m = .running r) ∨ s.ph m = .ended) ∧ ∀ k, (s.bb k).1 = some true ↔ k = m)

theorem master_step (self : Nat → Nat) {s : St} (h : Master s) (x : Act) : Master (step self s x) := by
  have keep : ∀ (j : Nat) (y : Phase) (heap : List (Option Args)) (cs : List (Nat × Args × Tag)) (rs : List (Nat × Nat)),
      (∀ m, ((∃ r, s.ph m = .running r) ∨ s.ph m = .ended) → m = j → (∃ r, y = .running r) ∨ y = .ended) → (s.wrapped = false → ptr y = none) →
      Master { s with ph := upd s.ph j y, heap := heap, calls := cs, rets := rs } := by
    intro j y heap cs rs hy hp
    rcases h with ⟨a, b, c⟩ | ⟨a, m, b, c⟩
    · refine Or.inl ⟨a, b, fun k => ?_⟩
      by_cases e : k = j
      · simpa [upd, e] using hp a
      · simpa [upd, e] using c k
    · refine Or.inr ⟨a, m, ?_, c⟩
      by_cases e : m = j
      · simpa [upd, e] using hy m b e
      · simpa [upd, e] using b
  cases x with
  | create j a ok =>
    simp only [step, create]
    split
    · rename_i hj
      have no : ∀ m, ((∃ r, s.ph m = .running r) ∨ s.ph m = .ended) → m ≠ j := by rintro m hm rfl; simp [hj] at hm
      split
      · rename_i hw
        cases ok
        · rcases h with ⟨a, b, c⟩ | h
          · exact Or.inl ⟨a, b, c⟩
          · exact Or.inr h
        · exact keep j _ _ _ _ (fun m hm e => absurd e (no m hm)) (by simp [hw])
      · cases ok
        · exact h
        · exact keep j _ _ _ _ (fun m hm e => absurd e (no m hm)) (by simp [ptr])
    · exact h
  | start j =>
    simp only [step, start]
    split
    · exact keep j _ _ _ _ (fun _ _ _ => Or.inl ⟨_, rfl⟩) (by simp [ptr])
    · rename_i p hj
      split
      · rcases h with ⟨a, b, c⟩ | ⟨a, m, b, c⟩
        · have := c j
          simp [hj, ptr] at this
        · have hmj : m ≠ j := by rintro rfl; simp [hj] at b
          refine Or.inr ⟨a, m, by simpa [upd, hmj] using b, fun k => ?_⟩
          cases s.alive
          · simpa using c k
          · by_cases e : k = j
            · simp [upd, e, Ne.symm hmj]
            · simpa [upd, e] using c k
      · exact h
    · exact h
  | ret j v =>
    simp only [step, ret]
    split
    · exact keep j _ _ _ _ (fun _ _ _ => Or.inr rfl) (by simp [ptr])
    · split
      · exact keep j _ _ _ _ (fun _ _ _ => Or.inr rfl) (by simp [ptr])
      · exact h
    · exact h
  | exit j v =>
    simp only [step, exit]
    split
    · exact keep j _ _ _ _ (fun _ _ _ => Or.inr rfl) (by simp [ptr])
    · exact h
  | init j =>
    simp only [step, init]
    split
    · rename_i r hj
      split
      · exact h
      · rename_i hw
        rcases h with ⟨a, b, c⟩ | ⟨a, -⟩
        · refine Or.inr ⟨rfl, j, Or.inl ⟨r, hj⟩, fun k => ?_⟩
          by_cases e : k = j
          · simp [upd, e]
          · simp [upd, e, b k]
        · exact absurd a hw
    · exact h
  | finalize => exact h

/-- **C125** (one master): at any time at most one thread is tagged as the master, and exactly one once the service is active -/
theorem C125_one_master (self : Nat → Nat) (as : List Act) :
    (∀ i j, ((run self begin as).bb i).1 = some true → ((run self begin as).bb j).1 = some true → i = j) ∧
    ((run self begin as).wrapped = true → ∃ m, ∀ k, ((run self begin as).bb k).1 = some true ↔ k = m) := by
  have h0 : Master begin := Or.inl ⟨rfl, fun _ => rfl, fun k => by by_cases e : k = 0 <;> simp [begin, e, ptr]⟩
  have : ∀ (as : List Act) (s : St), Master s → Master (run self s as) := by
    intro as
    induction as with
    | nil => exact fun _ h => h
    | cons x as ih => exact fun s h => ih _ (master_step self h x)
  rcases this as _ h0 with ⟨a, b, -⟩ | ⟨a, m, -, b⟩
  · exact ⟨fun i j h => by simp [b i] at h, fun h => by simp [a] at h⟩
  · exact ⟨fun i j hi hj => ((b i).1 hi).trans ((b j).1 hj).symm, fun _ => ⟨m, b⟩⟩

/-- each undeleted `wrapper_args` belongs to a thread that has not ended -/
def Owned (s : St) : Prop := ∀ q a, s.heap[q]? = some (some a) → ∃ k, ptr (s.ph k) = some q

theorem owned_step (self : Nat → Nat) {s : St} {p : Plain} (hs : Sim s p) (h : Owned s) (x : Act) (h1 : ∀ k a, x ≠ .create k a false) (h2 : ∀ k v, x ≠ .exit k v) : Owned (step self s x) := by
  have keep : ∀ (j : Nat) (y : Phase), ptr y = ptr (s.ph j) → ∀ q a, s.heap[q]? = some (some a) → ∃ k, ptr (upd s.ph j y k) = some q := by
    intro j y hy q a hq
    obtain ⟨k, hk⟩ := h q a hq
    refine ⟨k, ?_⟩
    by_cases e : k = j
    · subst e; simpa [upd, hy] using hk
    · simpa [upd, e] using hk
  cases x with
  | create j a ok =>
    cases ok
    · exact absurd rfl (h1 j a)
    simp only [step, create, if_true]
    split
    · rename_i hj
      split
      · intro q b hq
        by_cases e : q = s.heap.length
        · exact ⟨j, by simp [upd, ptr, e]⟩
        · have hl : q < s.heap.length := by
            have := (List.getElem?_eq_some_iff.1 hq).1
            simp at this; omega
          simp only at hq
          rw [List.getElem?_append_left hl] at hq
          obtain ⟨k, hk⟩ := h q b hq
          refine ⟨k, ?_⟩
          have : k ≠ j := by rintro rfl; simp [hj, ptr] at hk
          simpa [upd, this] using hk
      · exact keep j (.created (.user a)) (by rw [hj]; rfl)
    · exact h
  | start j =>
    simp only [step, start]
    split
    · rename_i a hj
      exact keep j (.running (.user a)) (by rw [hj]; rfl)
    · rename_i q hj
      split
      · exact keep j (.running (.wrapper q)) (by rw [hj]; rfl)
      · exact h
    · exact h
  | ret j v =>
    simp only [step, ret]
    split
    · rename_i a hj
      exact keep j .ended (by rw [hj]; rfl)
    · rename_i q hj
      split
      · intro q' b hq
        simp only at hq
        have hne : q ≠ q' := by
          rintro rfl
          simp [List.getElem?_set] at hq
        rw [List.getElem?_set_ne hne] at hq
        obtain ⟨k, hk⟩ := h q' b hq
        refine ⟨k, ?_⟩
        have : k ≠ j := by rintro rfl; simp [hj, ptr] at hk; exact hne hk
        simpa [upd, this] using hk
      · exact h
    · exact h
  | exit j v => exact absurd rfl (h2 j v)
  | init j =>
    simp only [step, init]
    split
    · split <;> exact h
    · exact h
  | finalize => exact h

/-- **C125** (memory, partial: if no creation fails and no thread leaves early): when all threads except those created before the service was active have ended, nothing the service allocated is left -/
theorem C125_freed_partial (self : Nat → Nat) (as : List Act) (h1 : ∀ k a, .create k a false ∉ as) (h2 : ∀ k v, .exit k v ∉ as)
    (he : ∀ k, (run self begin as).ph k = .fresh ∨ (run self begin as).ph k = .ended ∨ ∃ a, (run self begin as).ph k = .running (.user a)) :
    ∀ x ∈ (run self begin as).heap, x = none := by
  have : ∀ (as : List Act) (s : St) (p : Plain), Sim s p → Owned s → (∀ k a, .create k a false ∉ as) → (∀ k v, .exit k v ∉ as) → Owned (run self s as) := by
    intro as
    induction as with
    | nil => exact fun _ _ _ h _ _ => h
    | cons x as ih =>
      intro s p hs h h1 h2
      refine ih (step self s x) (p.run [x]) (sim_run self [x] hs) (owned_step self hs h x ?_ ?_) (fun k a hm => h1 k a (List.mem_cons_of_mem _ hm)) (fun k v hm => h2 k v (List.mem_cons_of_mem _ hm))
      · rintro k a rfl; exact h1 k a List.mem_cons_self
      · rintro k v rfl; exact h2 k v List.mem_cons_self
  have ho := this as begin Plain.begin sim_begin (by intro q a hq; simp [begin] at hq) h1 h2
  intro x hx
  cases x with
  | none => rfl
  | some a =>
    obtain ⟨q, hq⟩ := List.mem_iff_getElem?.1 hx
    obtain ⟨k, hk⟩ := ho q a hq
    rcases he k with e | e | ⟨b, e⟩ <;> simp [e, ptr] at hk

/-- a concrete history: the service starts on the main thread, a thread is created, runs, sees its tags, and its arguments are deleted -/
theorem C125_example :
    let s := run (fun k => 100 + k) begin [.init 0, .create 1 ⟨7, 8⟩ true, .start 1, .init 1, .ret 1 9]
    s.calls = [(1, ⟨7, 8⟩, (some false, some 101))] ∧ s.rets = [(1, 9)] ∧ s.heap = [none] ∧ s.bb 0 = (some true, some 100) ∧ s.ph 1 = .ended := by
  refine ⟨?_, ?_, ?_, ?_, ?_⟩ <;> rfl

/-- what no thread points to is never deleted -/
theorem lost_run (self : Nat → Nat) (q : Nat) (a : Args) (as : List Act) (s : St) (h1 : s.heap[q]? = some (some a)) (h2 : ∀ k, ptr (s.ph k) ≠ some q) : (run self s as).heap[q]? = some (some a) := by
  induction as generalizing s with
  | nil => exact h1
  | cons x as ih =>
    have keep : ∀ (j : Nat) (y : Phase), ptr y ≠ some q → ∀ k, ptr (upd s.ph j y k) ≠ some q := by
      intro j y hy k
      by_cases e : k = j
      · simpa [upd, e] using hy
      · simpa [upd, e] using h2 k
    have hq : q < s.heap.length := (List.getElem?_eq_some_iff.1 h1).1
    suffices (step self s x).heap[q]? = some (some a) ∧ ∀ k, ptr ((step self s x).ph k) ≠ some q from ih _ this.1 this.2
    cases x with
    | create j b ok =>
      simp only [step, create]
      split
      · split <;> cases ok
        · exact ⟨app_live h1, h2⟩
        · exact ⟨app_live h1, keep j _ (by simp [ptr]; omega)⟩
        · exact ⟨h1, h2⟩
        · exact ⟨h1, keep j _ (by simp [ptr])⟩
      · exact ⟨h1, h2⟩
    | start j =>
      simp only [step, start]
      split
      · exact ⟨h1, keep j _ (by simp [ptr])⟩
      · rename_i p hj
        split
        · exact ⟨h1, keep j _ (by have := h2 j; rw [hj] at this; exact this)⟩
        · exact ⟨h1, h2⟩
      · exact ⟨h1, h2⟩
    | ret j v =>
      simp only [step, ret]
      split
      · exact ⟨h1, keep j _ (by simp [ptr])⟩
      · rename_i p hj
        split
        · have hne : p ≠ q := by rintro rfl; exact h2 j (by rw [hj]; rfl)
          exact ⟨by rw [List.getElem?_set_ne hne, h1], keep j _ (by simp [ptr])⟩
        · exact ⟨h1, h2⟩
      · exact ⟨h1, h2⟩
    | exit j v =>
      simp only [step, exit]
      split
      · exact ⟨h1, keep j _ (by simp [ptr])⟩
      · exact ⟨h1, h2⟩
    | init j =>
      simp only [step, init]
      split
      · split <;> exact ⟨h1, h2⟩
      · exact ⟨h1, h2⟩
    | finalize => exact ⟨h1, h2⟩

/-- **C125** violated: each creation that fails while the service is active leaves an object that is never deleted, whatever happens afterwards -/
theorem C125_violation_failed_create (self : Nat → Nat) (pre post : List Act) (k : Nat) (a : Args) (hw : (run self begin pre).wrapped = true) (hk : (run self begin pre).ph k = .fresh) :
    some a ∈ (run self begin (pre ++ .create k a false :: post)).heap := by
  have hs := sim_run self pre sim_begin
  rw [show run self begin (pre ++ .create k a false :: post) = run self (create (run self begin pre) k a false) post from by simp [run, step]]
  refine List.mem_of_getElem? (lost_run self (run self begin pre).heap.length a post _ (by simp [create, hk, hw]) fun j => ?_)
  simp only [create, hk, hw, if_true, Bool.false_eq_true, if_false]
  intro hj
  obtain ⟨b, hb⟩ := ptr_live (hs.rel j) hj
  simp at hb

/-- **C125** violated: each thread with the wrapper that leaves with `pthread_exit` or is cancelled leaves its object behind -/
theorem C125_violation_exit (self : Nat → Nat) (pre post : List Act) (k q v : Nat) (hk : (run self begin pre).ph k = .running (.wrapper q)) :
    ∃ a, some a ∈ (run self begin (pre ++ .exit k v :: post)).heap := by
  have hs := sim_run self pre sim_begin
  obtain ⟨a, ha⟩ := ptr_live (hs.rel k) (q := q) (by rw [hk]; rfl)
  refine ⟨a, ?_⟩
  rw [show run self begin (pre ++ .exit k v :: post) = run self (exit (run self begin pre) k v) post from by simp [run, step]]
  refine List.mem_of_getElem? (lost_run self q a post _ (by simp [exit, hk, ha]) fun j => ?_)
  simp only [exit, hk]
  intro hj
  by_cases e : j = k
  · simp [upd, e, ptr] at hj
  · simp only [upd, e, if_false] at hj
    exact e (hs.inj j k q hj (by rw [hk]; rfl))

/-- **C125** violated: a thread created before the service was active is never tagged, so its function sees no `pthread.id` -/
theorem C125_violation_early (self : Nat → Nat) (a : Args) :
    (run self begin [.create 1 a true, .init 0, .start 1]).calls = [(1, a, (none, none))] := rfl

end Verif.Pthread
